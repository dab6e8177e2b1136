import Verif.Thm.PrimStep
/-
Invariants of the server state, per primitive update (helper file).
-/
namespace Verif.Server
open HashDomain
variable {C : Crypto} {F : Prop}

/-- `s'` is `s` with peer `p` replaced by `f` of it. -/
def Upd (s s' : Server) (p : Nat) (f : Peer → Peer) : Prop :=
  ∀ i, s'.peers[i]? = if i = p then s.peers[i]?.map f else s.peers[i]?

theorem Upd.modPeer (s : Server) (p f) : Upd s (s.modPeer p f) p f := modPeer_get s p f
theorem Upd.same {s s' : Server} (h : s'.peers = s.peers) (p) : Upd s s' p id := by
  intro i; rw [h]; simp

theorem knownRemove_cases {s s' : Server} {p : Nat} (h : s.knownRemove p = some s') :
    (s.known p = none ∧ s' = s) ∨
    ∃ v q, s.known p = some v ∧ s.index (.known v.requestMac) = some q ∧
      s' = { (s.modPeer p (fun q => { q with known := none })) with index := s.index.set (.known v.requestMac) none } := by
  unfold knownRemove at h
  split at h
  · rename_i hk; cases h; exact Or.inl ⟨hk, rfl⟩
  · rename_i v hk
    split at h
    · cases h
    · rename_i q hq
      cases h
      exact Or.inr ⟨v, q, hk, hq, rfl⟩

theorem knownRemove_upd {s s' : Server} {p : Nat} (h : s.knownRemove p = some s') :
    Upd s s' p (fun q => { q with known := none }) := by
  rcases knownRemove_cases h with ⟨hk, rfl⟩ | ⟨v, q, hk, hq, rfl⟩
  · apply modify_id_of
    intro q hq
    simp only [known, hq, Option.bind_some] at hk
    cases q; simp_all
  · exact modPeer_get s p _

theorem knownInsert_cases {s s' : Server} {p : Nat} {v : Known} (h : s.knownInsert p v = some s') :
    ∃ s1, s.knownRemove p = some s1 ∧
      s' = { (s1.modPeer p (fun q => { q with known := some v })) with index := s1.index.set (.known v.requestMac) (some p) } := by
  unfold knownInsert at h
  split at h
  · cases h
  · rename_i s1 h1; cases h; exact ⟨s1, h1, rfl⟩

theorem Upd.trans {a b c : Server} {p f g} (h : Upd a b p f) (k : Upd b c p g) : Upd a c p (g ∘ f) := by
  intro i
  rw [k i, h i]
  by_cases hi : i = p
  · simp [hi]
  · simp [hi]

theorem knownInsert_upd {s s' : Server} {p : Nat} {v : Known} (h : s.knownInsert p v = some s') :
    Upd s s' p (fun q => { q with known := some v }) := by
  obtain ⟨s1, h1, rfl⟩ := knownInsert_cases h
  exact (knownRemove_upd h1).trans (modPeer_get s1 p _)

/-! ### Per-peer facts -/

/-- A predicate holds of every registered peer. -/
def AllPeers (P : Peer → Prop) (s : Server) : Prop := ∀ (p : Nat) (q : Peer), s.peers[p]? = some q → P q

theorem AllPeers.upd {P : Peer → Prop} {s s' : Server} {p f} (hu : Upd s s' p f) (h : AllPeers P s)
    (hf : ∀ q, s.peers[p]? = some q → P q → P (f q)) : AllPeers P s' := by
  intro i q hq
  rw [hu i] at hq
  by_cases hi : i = p
  · subst hi
    rw [if_pos rfl, Option.map_eq_some_iff] at hq
    obtain ⟨x, hx, rfl⟩ := hq
    exact hf x hx (h i x hx)
  · rw [if_neg hi] at hq
    exact h i q hq

/-- Well-formedness of one peer record. -/
structure PeerOk (q : Peer) : Prop where
  hs : ∀ x, q.handshake = some x → x.core.hc = q.version.hash ∧ x.txBuf.length = 2500 ∧ x.txLen ≤ 2500
  ses : ∀ x, q.session = some x → x.hc = q.version.hash
  used : q.biscuitUsed.length = 12
  known : ∀ x, q.known = some x → x.response.WF EmptyData.size

theorem prim_peerOk {a b : Server} (h : Prim C F a b) (ha : AllPeers PeerOk a) : AllPeers PeerOk b := by
  cases h with
  | addPeer psk pk v osk hfree =>
    intro p q hq
    simp only [List.getElem?_append] at hq
    split at hq
    · exact ha p q hq
    · have : q = freshPeer psk pk v osk := by
        rw [List.getElem?_singleton] at hq
        split at hq
        · cases hq; rfl
        · cases hq
      subst this
      exact ⟨fun x hx => (by cases hx), fun x hx => (by cases hx), List.length_replicate, fun x hx => (by cases hx)⟩
  | hsPut p peer hs hp h1 h2 h3 h4 h5 h6 =>
    refine ha.upd (hsPut_get a p hs) ?_
    intro q hq hok
    rw [hp] at hq; cases hq
    refine ⟨?_, hok.ses, hok.used, hok.known⟩
    intro x hx
    simp only [Option.some.injEq] at hx
    subst hx
    exact ⟨h1, h2, by omega⟩
  | hsUpd p f hf =>
    refine ha.upd (modHs_get a p f) ?_
    intro q hq hok
    refine ⟨?_, hok.ses, hok.used, hok.known⟩
    intro x hx
    simp only [Option.map_eq_some_iff] at hx
    obtain ⟨y, hy, rfl⟩ := hx
    obtain ⟨k1, k2, k3⟩ := hok.hs y hy
    have := hf y
    exact ⟨by rw [this.hc, k1], by rw [this.buf, k2], by rcases this.len with h | h <;> omega⟩
  | hsTake p =>
    refine ha.upd (hsTake_get a p) ?_
    intro q hq hok
    exact ⟨fun x hx => by (simp at hx), hok.ses, hok.used, hok.known⟩
  | sessTake p =>
    refine ha.upd (sessTake_get a p) ?_
    intro q hq hok
    exact ⟨hok.hs, fun x hx => by (simp at hx), hok.used, hok.known⟩
  | sessPut p peer ses hp hc hfree =>
    refine ha.upd (sessPut_get a p ses) ?_
    intro q hq hok
    rw [hp] at hq; cases hq
    refine ⟨hok.hs, ?_, hok.used, hok.known⟩
    intro x hx
    simp only [Option.some.injEq] at hx
    subst hx
    rcases hc with hc | ⟨hs, h1, h2⟩
    · exact hc
    · rw [h2]; exact (hok.hs hs h1).1
  | sesUpd p f hf =>
    refine ha.upd (modPeer_get a p _) ?_
    intro q hq hok
    refine ⟨hok.hs, ?_, hok.used, hok.known⟩
    intro x hx
    simp only [Option.map_eq_some_iff] at hx
    obtain ⟨y, hy, rfl⟩ := hx
    rw [(hf y).hc]; exact hok.ses y hy
  | used p no hno =>
    refine ha.upd (modPeer_get a p _) ?_
    intro q hq hok
    exact ⟨hok.hs, hok.ses, hno, hok.known⟩
  | knownPut p peer v _ hp hfree hk hw =>
    refine ha.upd (knownInsert_upd hk) ?_
    intro q hq hok
    exact ⟨hok.hs, hok.ses, hok.used, fun x hx => by cases hx; exact hw⟩
  | knownRem p _ hk =>
    refine ha.upd (knownRemove_upd hk) ?_
    intro q hq hok
    exact ⟨hok.hs, hok.ses, hok.used, fun x hx => by cases hx⟩
  | ctr => exact ha
  | bkeys i st => exact ha
  | csecrets i st => exact ha
  | initReq p =>
    refine ha.upd (modPeer_get a p _) ?_
    intro q hq hok
    exact ⟨hok.hs, hok.ses, hok.used, hok.known⟩
  | pollOff n => exact ha

/-! ### Static data of peers and the peer-id part of the index -/

/-- Peers are only appended, and what `add_peer` fixed about a peer never changes. -/
def Static (q q' : Peer) : Prop :=
  q'.psk = q.psk ∧ q'.spkt = q.spkt ∧ q'.version = q.version ∧ q'.osk = q.osk

theorem Static.pidt {q q' : Peer} (h : Static q q') : pidt C q' = pidt C q := by
  unfold Server.pidt; rw [h.2.1, h.2.2.1]

theorem prim_static {a b : Server} (h : Prim C F a b) (p : Nat) (q : Peer) (hq : a.peers[p]? = some q) :
    ∃ q', b.peers[p]? = some q' ∧ Static q q' := by
  have key : ∀ {b : Server} {i : Nat} {f : Peer → Peer}, Upd a b i f → (∀ x, Static x (f x)) →
      ∃ q', b.peers[p]? = some q' ∧ Static q q' := by
    intro b i f hu hf
    rw [hu p]
    by_cases hi : p = i
    · rw [if_pos hi, hq]; exact ⟨f q, rfl, hf q⟩
    · rw [if_neg hi]; exact ⟨q, hq, rfl, rfl, rfl, rfl⟩
  cases h with
  | addPeer psk pk v osk hfree =>
    refine ⟨q, ?_, rfl, rfl, rfl, rfl⟩
    have : p < a.peers.length := (List.getElem?_eq_some_iff.mp hq).1
    simp only [List.getElem?_append, this, if_true, hq]
  | hsPut p' peer hs => exact key (hsPut_get a p' hs) (fun x => ⟨rfl, rfl, rfl, rfl⟩)
  | hsUpd p f hf => exact key (modHs_get a p f) (fun x => ⟨rfl, rfl, rfl, rfl⟩)
  | hsTake p => exact key (hsTake_get a p) (fun x => ⟨rfl, rfl, rfl, rfl⟩)
  | sessTake p => exact key (sessTake_get a p) (fun x => ⟨rfl, rfl, rfl, rfl⟩)
  | sessPut p peer ses => exact key (sessPut_get a p ses) (fun x => ⟨rfl, rfl, rfl, rfl⟩)
  | sesUpd p f => exact key (modPeer_get a p _) (fun x => ⟨rfl, rfl, rfl, rfl⟩)
  | used p no => exact key (modPeer_get a p _) (fun x => ⟨rfl, rfl, rfl, rfl⟩)
  | knownPut p peer v _ hp hfree hk => exact key (knownInsert_upd hk) (fun x => ⟨rfl, rfl, rfl, rfl⟩)
  | knownRem p _ hk => exact key (knownRemove_upd hk) (fun x => ⟨rfl, rfl, rfl, rfl⟩)
  | ctr => exact ⟨q, hq, rfl, rfl, rfl, rfl⟩
  | bkeys i st => exact ⟨q, hq, rfl, rfl, rfl, rfl⟩
  | csecrets i st => exact ⟨q, hq, rfl, rfl, rfl, rfl⟩
  | initReq p => exact key (modPeer_get a p _) (fun x => ⟨rfl, rfl, rfl, rfl⟩)
  | pollOff n => exact ⟨q, hq, rfl, rfl, rfl, rfl⟩

/-- Number of peers after an update. -/
theorem upd_length {a b : Server} {i f} (hu : Upd a b i f) : b.peers.length = a.peers.length := by
  have h1 : ∀ p : Nat, (b.peers[p]? = none ↔ a.peers[p]? = none) := by
    intro p
    rw [hu p]
    by_cases hi : p = i
    · rw [if_pos hi, Option.map_eq_none_iff]
    · rw [if_neg hi]
  have h2 := h1 b.peers.length
  have h3 := h1 a.peers.length
  simp only [List.getElem?_eq_none_iff] at h2 h3
  omega

/-- Registered ids are exactly the ids of the peers. -/
def PeerIdx (C : Crypto) (s : Server) : Prop :=
  ∀ pid p, s.index (.peer pid) = some p ↔ ∃ q, s.peers[p]? = some q ∧ pidt C q = pid

theorem prim_peerIdx {a b : Server} (h : Prim C F a b) (ha : PeerIdx C a) : PeerIdx C b := by
  have key : ∀ {b : Server} {i : Nat} {f : Peer → Peer}, Upd a b i f → (∀ x, Static x (f x)) →
      (∀ pid, b.index (.peer pid) = a.index (.peer pid)) → PeerIdx C b := by
    intro b i f hu hf hix pid p
    rw [hix, ha, hu p]
    by_cases hi : p = i
    · subst hi
      rw [if_pos rfl]
      constructor
      · rintro ⟨q, hq, hpid⟩
        exact ⟨f q, by rw [hq]; rfl, by rw [(hf q).pidt, hpid]⟩
      · rintro ⟨q, hq, hpid⟩
        rw [Option.map_eq_some_iff] at hq
        obtain ⟨x, hx, rfl⟩ := hq
        exact ⟨x, hx, by rw [← (hf x).pidt]; exact hpid⟩
    · rw [if_neg hi]
  have st : ∀ x : Peer, Static x x := fun x => ⟨rfl, rfl, rfl, rfl⟩
  cases h with
  | addPeer psk pk v osk hfree =>
    intro pid p
    simp only
    by_cases hp : pid = pidt C (freshPeer psk pk v osk)
    · subst hp
      rw [Index.set_eq]
      simp only [Option.some.injEq]
      constructor
      · rintro rfl
        exact ⟨_, by simp, rfl⟩
      · rintro ⟨q, hq, hpid⟩
        rw [List.getElem?_append] at hq
        split at hq
        · have := (ha (pidt C (freshPeer psk pk v osk)) p).mpr ⟨q, hq, hpid⟩
          rw [hfree] at this; cases this
        · rename_i hlt
          rw [List.getElem?_singleton] at hq
          split at hq
          · omega
          · cases hq
    · rw [Index.set_ne _ _ (by simp [hp]), ha]
      constructor
      · rintro ⟨q, hq, hpid⟩
        have : p < a.peers.length := (List.getElem?_eq_some_iff.mp hq).1
        exact ⟨q, by rw [List.getElem?_append, if_pos this, hq], hpid⟩
      · rintro ⟨q, hq, hpid⟩
        rw [List.getElem?_append] at hq
        split at hq
        · exact ⟨q, hq, hpid⟩
        · rw [List.getElem?_singleton] at hq
          split at hq
          · cases hq; exact absurd hpid.symm hp
          · cases hq
  | hsPut p' peer hs =>
    exact key (hsPut_get a p' hs) (fun x => ⟨rfl, rfl, rfl, rfl⟩) (fun pid => hsPut_other _ _ _ _ (by simp))
  | hsUpd p f hf => exact key (modHs_get a p f) (fun x => ⟨rfl, rfl, rfl, rfl⟩) (fun pid => rfl)
  | hsTake p => exact key (hsTake_get a p) (fun x => ⟨rfl, rfl, rfl, rfl⟩) (fun pid => hsTake_other _ _ _ (by simp))
  | sessTake p => exact key (sessTake_get a p) (fun x => ⟨rfl, rfl, rfl, rfl⟩) (fun pid => sessTake_other _ _ _ (by simp))
  | sessPut p peer ses =>
    exact key (sessPut_get a p ses) (fun x => ⟨rfl, rfl, rfl, rfl⟩) (fun pid => sessPut_other _ _ _ _ (by simp))
  | sesUpd p f => exact key (modPeer_get a p _) (fun x => ⟨rfl, rfl, rfl, rfl⟩) (fun pid => rfl)
  | used p no => exact key (modPeer_get a p _) (fun x => ⟨rfl, rfl, rfl, rfl⟩) (fun pid => rfl)
  | knownPut p peer v _ hp hfree hk =>
    refine key (knownInsert_upd hk) (fun x => ⟨rfl, rfl, rfl, rfl⟩) (fun pid => ?_)
    obtain ⟨s1, h1, rfl⟩ := knownInsert_cases hk
    simp only
    rw [Index.set_ne _ _ (by simp)]
    rcases knownRemove_cases h1 with ⟨_, rfl⟩ | ⟨v, q, _, _, rfl⟩
    · rfl
    · simp only; rw [Index.set_ne _ _ (by simp)]
  | knownRem p _ hk =>
    refine key (knownRemove_upd hk) (fun x => ⟨rfl, rfl, rfl, rfl⟩) (fun pid => ?_)
    rcases knownRemove_cases hk with ⟨_, rfl⟩ | ⟨v, q, _, _, rfl⟩
    · rfl
    · simp only; rw [Index.set_ne _ _ (by simp)]
  | ctr => exact ha
  | bkeys i st => exact ha
  | csecrets i st => exact ha
  | initReq p => exact key (modPeer_get a p _) (fun x => ⟨rfl, rfl, rfl, rfl⟩) (fun pid => rfl)
  | pollOff n => exact ha

/-! ### Cached responses -/

/-- The cache index points exactly at the cached responses. -/
def KnownIdx (s : Server) : Prop :=
  ∀ h p, s.index (.known h) = some p ↔ ∃ k, s.known p = some k ∧ k.requestMac = h

theorem known_of_upd {a b : Server} {i f} (hu : Upd a b i f) (hf : ∀ x, (f x).known = x.known) (p : Nat) :
    b.known p = a.known p := by
  unfold known
  rw [hu p]
  by_cases hi : p = i
  · rw [if_pos hi]
    cases a.peers[p]? with
    | none => rfl
    | some q => exact hf q
  · rw [if_neg hi]

theorem knownIdx_remove {a b : Server} {p} (ha : KnownIdx a) (h : a.knownRemove p = some b) :
    KnownIdx b ∧ b.known p = none := by
  rcases knownRemove_cases h with ⟨hk, rfl⟩ | ⟨v, q, hk, hq, rfl⟩
  · exact ⟨ha, hk⟩
  · have hkn : ∀ i, ({ (a.modPeer p (fun q => { q with known := none })) with index := a.index.set (.known v.requestMac) none } : Server).known i
        = if i = p then none else a.known i := by
      intro i
      unfold known
      show ((a.modPeer p _).peers[i]?).bind _ = _
      rw [modPeer_get]
      by_cases hi : i = p
      · rw [if_pos hi, if_pos hi]; cases a.peers[i]? <;> rfl
      · rw [if_neg hi, if_neg hi]
    refine ⟨?_, by rw [hkn]; simp⟩
    intro h i
    rw [hkn]
    simp only
    by_cases hh : h = v.requestMac
    · subst hh
      rw [Index.set_eq]
      constructor
      · intro h; cases h
      · rintro ⟨k, hk', hm⟩
        by_cases hi : i = p
        · rw [if_pos hi] at hk'; cases hk'
        · rw [if_neg hi] at hk'
          have h1 := (ha v.requestMac i).mpr ⟨k, hk', hm⟩
          have h2 := (ha v.requestMac p).mpr ⟨v, hk, rfl⟩
          rw [h1] at h2; cases h2; exact absurd rfl hi
    · rw [Index.set_ne _ _ (by simp [hh]), ha]
      by_cases hi : i = p
      · rw [if_pos hi]
        subst hi
        constructor
        · rintro ⟨k, hk', hm⟩
          rw [hk] at hk'; cases hk'; exact absurd hm.symm hh
        · rintro ⟨k, hk', _⟩; cases hk'
      · rw [if_neg hi]

theorem prim_knownIdx {a b : Server} (h : Prim C F a b) (ha : KnownIdx a) : KnownIdx b := by
  have key : ∀ {b : Server} {i : Nat} {f : Peer → Peer}, Upd a b i f → (∀ x, (f x).known = x.known) →
      (∀ h, b.index (.known h) = a.index (.known h)) → KnownIdx b := by
    intro b i f hu hf hix h p
    rw [hix, ha, known_of_upd hu hf]
  cases h with
  | addPeer psk pk v osk hfree =>
    intro h p
    simp only
    rw [Index.set_ne _ _ (by simp), ha]
    unfold known
    simp only [List.getElem?_append]
    split
    · rfl
    · rename_i hlt
      have : a.peers[p]? = none := by simp; omega
      rw [this, List.getElem?_singleton]
      split <;> simp [freshPeer]
  | hsPut p' peer hs => exact key (hsPut_get a p' hs) (fun x => rfl) (fun pid => hsPut_other _ _ _ _ (by simp))
  | hsUpd p f hf => exact key (modHs_get a p f) (fun x => rfl) (fun pid => rfl)
  | hsTake p => exact key (hsTake_get a p) (fun x => rfl) (fun pid => hsTake_other _ _ _ (by simp))
  | sessTake p => exact key (sessTake_get a p) (fun x => rfl) (fun pid => sessTake_other _ _ _ (by simp))
  | sessPut p peer ses => exact key (sessPut_get a p ses) (fun x => rfl) (fun pid => sessPut_other _ _ _ _ (by simp))
  | sesUpd p f => exact key (modPeer_get a p _) (fun x => rfl) (fun pid => rfl)
  | used p no => exact key (modPeer_get a p _) (fun x => rfl) (fun pid => rfl)
  | knownPut p peer v _ hp hfree hk =>
    obtain ⟨s1, h1, rfl⟩ := knownInsert_cases hk
    obtain ⟨hs1, hnone⟩ := knownIdx_remove ha h1
    have hfree1 : s1.index (.known v.requestMac) = none := by
      rcases knownRemove_cases h1 with ⟨_, rfl⟩ | ⟨v', q, _, _, rfl⟩
      · exact hfree
      · simp only [Index.set]; split
        · rfl
        · exact hfree
    obtain ⟨peer1, hp1⟩ : ∃ peer1, s1.peers[p]? = some peer1 := by
      have := knownRemove_upd h1 p
      rw [if_pos rfl, hp] at this
      exact ⟨_, this⟩
    have hkn : ∀ i, ({ (s1.modPeer p (fun q => { q with known := some v })) with index := s1.index.set (.known v.requestMac) (some p) } : Server).known i
        = if i = p then some v else s1.known i := by
      intro i
      unfold known
      show ((s1.modPeer p _).peers[i]?).bind _ = _
      rw [modPeer_get]
      by_cases hi : i = p
      · rw [if_pos hi, if_pos hi, hi, hp1]; rfl
      · rw [if_neg hi, if_neg hi]
    intro h i
    rw [hkn]
    simp only
    by_cases hh : h = v.requestMac
    · subst hh
      rw [Index.set_eq]
      constructor
      · intro h; cases h; exact ⟨v, by simp, rfl⟩
      · rintro ⟨k, hk', hm⟩
        by_cases hi : i = p
        · rw [hi]
        · rw [if_neg hi] at hk'
          have := (hs1 v.requestMac i).mpr ⟨k, hk', hm⟩
          rw [hfree1] at this; cases this
    · rw [Index.set_ne _ _ (by simp [hh]), hs1]
      by_cases hi : i = p
      · rw [if_pos hi, hi]
        constructor
        · rintro ⟨k, hk', hm⟩; rw [hnone] at hk'; cases hk'
        · rintro ⟨k, hk', hm⟩; cases hk'; exact absurd hm.symm hh
      · rw [if_neg hi]
  | knownRem p _ hk => exact (knownIdx_remove ha hk).1
  | ctr => exact ha
  | bkeys i st => exact ha
  | csecrets i st => exact ha
  | initReq p => exact key (modPeer_get a p _) (fun x => rfl) (fun pid => rfl)
  | pollOff n => exact ha

end Verif.Server
