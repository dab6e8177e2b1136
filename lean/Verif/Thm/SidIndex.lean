import Verif.Thm.Invariant
/-
The session-id part of the index, per primitive update (helper file).
-/
namespace Verif.Server
open HashDomain
variable {C : Crypto} {F : Prop}

/-- Peer `p` currently uses session id `id` (as initiator of a handshake or in its session). -/
def Carries (s : Server) (p : Nat) (id : Bytes) : Prop :=
  (s.session p).map (·.sidm) = some id ∨ (s.handshake p).map (·.core.sidi) = some id

theorem session_upd {a b : Server} {i f} (hu : Upd a b i f) (p : Nat) :
    b.session p = if p = i then a.peers[p]?.bind (fun q => (f q).session) else a.session p := by
  unfold session
  rw [hu p]
  by_cases hi : p = i
  · rw [if_pos hi, if_pos hi]; cases a.peers[p]? <;> rfl
  · rw [if_neg hi, if_neg hi]

theorem handshake_upd {a b : Server} {i f} (hu : Upd a b i f) (p : Nat) :
    b.handshake p = if p = i then a.peers[p]?.bind (fun q => (f q).handshake) else a.handshake p := by
  unfold handshake
  rw [hu p]
  by_cases hi : p = i
  · rw [if_pos hi, if_pos hi]; cases a.peers[p]? <;> rfl
  · rw [if_neg hi, if_neg hi]

theorem hsTake_sid (s : Server) (p : Nat) (id : Bytes) :
    (s.hsTake p).index (.sid id) =
      if (s.handshake p).map (·.core.sidi) = some id ∧ (s.session p).map (·.sidm) ≠ some id then none
      else s.index (.sid id) := by
  unfold hsTake
  cases hh : s.handshake p with
  | none => simp
  | some h =>
    simp only [Option.map_some, Option.some.injEq]
    have e1 : (s.modPeer p (fun q => { q with handshake := none })).session p = s.session p := by
      rw [session_upd (modPeer_get s p _)]; simp [session]
    have e2 : (s.modPeer p (fun q => { q with handshake := none })).handshake p = none := by
      rw [handshake_upd (modPeer_get s p _)]; simp
    unfold unregisterIfVacant
    rw [e1, e2]
    by_cases h1 : (s.session p).map (·.sidm) = some h.core.sidi
    · rw [if_pos h1]
      rw [if_neg (by rintro ⟨rfl, h⟩; exact h h1)]; rfl
    · rw [if_neg h1, if_neg (by simp)]
      unfold unregisterSession
      simp only [modPeer_index]
      by_cases hid : h.core.sidi = id
      · subst hid
        rw [Index.set_eq, if_pos ⟨rfl, h1⟩]
      · rw [Index.set_ne _ _ (by simp; exact fun h => hid h.symm), if_neg (by rintro ⟨h, _⟩; exact hid h)]

theorem sessTake_sid (s : Server) (p : Nat) (id : Bytes) :
    (s.sessTake p).index (.sid id) =
      if (s.session p).map (·.sidm) = some id ∧ (s.handshake p).map (·.core.sidi) ≠ some id then none
      else s.index (.sid id) := by
  unfold sessTake
  cases hh : s.session p with
  | none => simp
  | some h =>
    simp only [Option.map_some, Option.some.injEq]
    have e1 : (s.modPeer p (fun q => { q with session := none })).handshake p = s.handshake p := by
      rw [handshake_upd (modPeer_get s p _)]; simp [handshake]
    have e2 : (s.modPeer p (fun q => { q with session := none })).session p = none := by
      rw [session_upd (modPeer_get s p _)]; simp
    unfold unregisterIfVacant
    rw [e1, e2, if_neg (by simp)]
    by_cases h1 : (s.handshake p).map (·.core.sidi) = some h.sidm
    · rw [if_pos h1]
      rw [if_neg (by rintro ⟨rfl, h⟩; exact h h1)]; rfl
    · rw [if_neg h1]
      unfold unregisterSession
      simp only [modPeer_index]
      by_cases hid : h.sidm = id
      · subst hid
        rw [Index.set_eq, if_pos ⟨rfl, h1⟩]
      · rw [Index.set_ne _ _ (by simp; exact fun h => hid h.symm), if_neg (by rintro ⟨h, _⟩; exact hid h)]

/-- ids in use, after each update -/
theorem carries_same {a b : Server} {i f} (hu : Upd a b i f)
    (h1 : ∀ x, ((f x).session).map (·.sidm) = x.session.map (·.sidm))
    (h2 : ∀ x, ((f x).handshake).map (·.core.sidi) = x.handshake.map (·.core.sidi)) (p id) :
    Carries b p id ↔ Carries a p id := by
  unfold Carries
  rw [session_upd hu, handshake_upd hu]
  by_cases hi : p = i
  · rw [if_pos hi, if_pos hi]
    unfold session handshake
    cases a.peers[p]? with
    | none => rfl
    | some q => simp [h1 q, h2 q]
  · rw [if_neg hi, if_neg hi]

theorem session_hsTake (s : Server) (p i) : (s.hsTake p).session i = s.session i := by
  rw [session_upd (hsTake_get s p)]
  by_cases h : i = p
  · rw [if_pos h]; unfold session; cases s.peers[i]? <;> rfl
  · rw [if_neg h]

theorem handshake_hsTake (s : Server) (p i) : (s.hsTake p).handshake i = if i = p then none else s.handshake i := by
  rw [handshake_upd (hsTake_get s p)]
  by_cases h : i = p
  · rw [if_pos h, if_pos h]; cases s.peers[i]? <;> rfl
  · rw [if_neg h, if_neg h]

theorem session_sessTake (s : Server) (p i) : (s.sessTake p).session i = if i = p then none else s.session i := by
  rw [session_upd (sessTake_get s p)]
  by_cases h : i = p
  · rw [if_pos h, if_pos h]; cases s.peers[i]? <;> rfl
  · rw [if_neg h, if_neg h]

theorem handshake_sessTake (s : Server) (p i) : (s.sessTake p).handshake i = s.handshake i := by
  rw [handshake_upd (sessTake_get s p)]
  by_cases h : i = p
  · rw [if_pos h]; unfold handshake; cases s.peers[i]? <;> rfl
  · rw [if_neg h]

theorem session_sessPut (s : Server) (p ses i) {peer} (hp : s.peers[p]? = some peer) :
    (s.sessPut p ses).session i = if i = p then some ses else s.session i := by
  rw [session_upd (sessPut_get s p ses)]
  by_cases h : i = p
  · rw [if_pos h, if_pos h, h, hp]; rfl
  · rw [if_neg h, if_neg h]

theorem handshake_sessPut (s : Server) (p ses i) : (s.sessPut p ses).handshake i = s.handshake i := by
  rw [handshake_upd (sessPut_get s p ses)]
  by_cases h : i = p
  · rw [if_pos h]; unfold handshake; cases s.peers[i]? <;> rfl
  · rw [if_neg h]

theorem session_hsPut (s : Server) (p hs i) : (s.hsPut p hs).session i = s.session i := by
  rw [session_upd (hsPut_get s p hs)]
  by_cases h : i = p
  · rw [if_pos h]; unfold session; cases s.peers[i]? <;> rfl
  · rw [if_neg h]

theorem handshake_hsPut (s : Server) (p hs i) {peer} (hp : s.peers[p]? = some peer) :
    (s.hsPut p hs).handshake i = if i = p then some hs else s.handshake i := by
  rw [handshake_upd (hsPut_get s p hs)]
  by_cases h : i = p
  · rw [if_pos h, if_pos h, h, hp]; rfl
  · rw [if_neg h, if_neg h]

theorem sessPut_sid (s : Server) (p : Nat) (ses : Session) (id : Bytes) :
    (s.sessPut p ses).index (.sid id) = if id = ses.sidm then some p else (s.sessTake p).index (.sid id) := by
  unfold sessPut
  simp only [modPeer_index]
  by_cases h : id = ses.sidm
  · subst h; rw [Index.set_eq, if_pos rfl]
  · rw [Index.set_ne _ _ (by simp [h]), if_neg h]

theorem hsPut_sid (s : Server) (p : Nat) (hs : IniHs) (id : Bytes) :
    (s.hsPut p hs).index (.sid id) =
      if (s.handshake p).map (·.core.sidi) = some id ∧ (s.session p).map (·.sidm) ≠ some id then none
      else if id = hs.core.sidi then some p else s.index (.sid id) := by
  unfold hsPut
  simp only [modPeer_index]
  rw [hsTake_sid]
  have e1 : ({ s with index := s.index.set (.sid hs.core.sidi) (some p) } : Server).session p = s.session p := rfl
  have e2 : ({ s with index := s.index.set (.sid hs.core.sidi) (some p) } : Server).handshake p = s.handshake p := rfl
  rw [e1, e2]
  split
  · rfl
  · show s.index.set (.sid hs.core.sidi) (some p) (.sid id) = _
    by_cases h : id = hs.core.sidi
    · subst h; rw [Index.set_eq, if_pos rfl]
    · rw [Index.set_ne _ _ (by simp [h]), if_neg h]

/-- Every indexed session id belongs to the peer it points to. -/
def SidSound (s : Server) : Prop := ∀ id p, s.index (.sid id) = some p → Carries s p id

/-- Every session id in use is indexed. -/
def SidComplete (s : Server) : Prop := ∀ id p, Carries s p id → s.index (.sid id) = some p

theorem knownPrim_sid {a b : Server} {p} (h : a.knownRemove p = some b) (id) :
    b.index (.sid id) = a.index (.sid id) := by
  rcases knownRemove_cases h with ⟨_, rfl⟩ | ⟨v, q, _, _, rfl⟩
  · rfl
  · exact Index.set_ne (k := .known v.requestMac) (k' := .sid id) a.index none (by simp)

theorem knownInsert_sid {a b : Server} {p v} (h : a.knownInsert p v = some b) (id) :
    b.index (.sid id) = a.index (.sid id) := by
  obtain ⟨s1, h1, rfl⟩ := knownInsert_cases h
  rw [← knownPrim_sid h1 id]
  exact Index.set_ne (k := .known v.requestMac) (k' := .sid id) s1.index (some p) (by simp)

/-- Updates that change neither ids nor their index entries. -/
theorem prim_sid_same {a b : Server} {i f} (hu : Upd a b i f)
    (h1 : ∀ x, ((f x).session).map (·.sidm) = x.session.map (·.sidm))
    (h2 : ∀ x, ((f x).handshake).map (·.core.sidi) = x.handshake.map (·.core.sidi))
    (h3 : ∀ id, b.index (.sid id) = a.index (.sid id)) :
    (SidSound a → SidSound b) ∧ (SidComplete a → SidComplete b) := by
  constructor
  · intro ha id p h
    rw [h3] at h
    exact (carries_same hu h1 h2 p id).mpr (ha id p h)
  · intro ha id p h
    rw [h3]
    exact ha id p ((carries_same hu h1 h2 p id).mp h)

theorem prim_addPeer_sid (a : Server) (psk pk v osk) (pid : Bytes) :
    let b : Server := { a with index := a.index.set (.peer pid) (some a.peers.length), peers := a.peers ++ [freshPeer psk pk v osk] }
    (SidSound a → SidSound b) ∧ (SidComplete a → SidComplete b) := by
  intro b
  have hs : ∀ p, b.session p = a.session p ∧ b.handshake p = a.handshake p := by
    intro p
    unfold session handshake
    simp only [b, List.getElem?_append]
    split
    · exact ⟨rfl, rfl⟩
    · have : a.peers[p]? = none := by simp; omega
      rw [this, List.getElem?_singleton]
      split <;> simp [freshPeer]
  have hc : ∀ p id, Carries b p id ↔ Carries a p id := by
    intro p id; unfold Carries; rw [(hs p).1, (hs p).2]
  have hi : ∀ id, b.index (.sid id) = a.index (.sid id) := fun id => Index.set_ne (k := .peer pid) (k' := .sid id) a.index (some a.peers.length) (by simp)
  constructor
  · intro ha id p h; rw [hi] at h; exact (hc p id).mpr (ha id p h)
  · intro ha id p h; rw [hi]; exact ha id p ((hc p id).mp h)

theorem hsTake_sound {a : Server} (p : Nat) (ha : SidSound a) : SidSound (a.hsTake p) := by
  intro id i h
  rw [hsTake_sid] at h
  split at h
  · cases h
  · rename_i hn
    have := ha id i h
    unfold Carries at this ⊢
    rw [session_hsTake, handshake_hsTake]
    by_cases hi : i = p
    · subst hi
      left
      rcases this with h1 | h1
      · exact h1
      · exact Decidable.not_not.mp (fun h2 => hn ⟨h1, h2⟩)
    · rw [if_neg hi]; exact this

theorem sessTake_sound {a : Server} (p : Nat) (ha : SidSound a) : SidSound (a.sessTake p) := by
  intro id i h
  rw [sessTake_sid] at h
  split at h
  · cases h
  · rename_i hn
    have := ha id i h
    unfold Carries at this ⊢
    rw [session_sessTake, handshake_sessTake]
    by_cases hi : i = p
    · subst hi
      right
      rcases this with h1 | h1
      · exact Decidable.not_not.mp (fun h2 => hn ⟨h1, h2⟩)
      · exact h1
    · rw [if_neg hi]; exact this

theorem hsTake_complete {a : Server} (p : Nat) (ha : SidComplete a) : SidComplete (a.hsTake p) := by
  intro id i h
  unfold Carries at h
  rw [session_hsTake, handshake_hsTake] at h
  have hc : Carries a i id := by
    unfold Carries
    by_cases hi : i = p
    · rw [if_pos hi] at h; simp at h; exact Or.inl (by simpa using h)
    · rw [if_neg hi] at h; exact h
  have hidx := ha id i hc
  rw [hsTake_sid]
  split
  · rename_i hh
    have h2 := ha id p (Or.inr hh.1)
    rw [hidx] at h2; cases h2
    rw [if_pos rfl] at h
    rcases h with h | h
    · exact absurd h hh.2
    · cases h
  · exact hidx

theorem sessTake_complete {a : Server} (p : Nat) (ha : SidComplete a) : SidComplete (a.sessTake p) := by
  intro id i h
  unfold Carries at h
  rw [session_sessTake, handshake_sessTake] at h
  have hc : Carries a i id := by
    unfold Carries
    by_cases hi : i = p
    · rw [if_pos hi] at h; simp at h; exact Or.inr (by simpa using h)
    · rw [if_neg hi] at h; exact h
  have hidx := ha id i hc
  rw [sessTake_sid]
  split
  · rename_i hh
    have h2 := ha id p (Or.inl hh.1)
    rw [hidx] at h2; cases h2
    rw [if_pos rfl] at h
    rcases h with h | h
    · cases h
    · exact absurd h hh.2
  · exact hidx

theorem prim_sidSound {a b : Server} (h : Prim C F a b) (ha : SidSound a) : SidSound b := by
  cases h with
  | addPeer psk pk v osk hfree => exact (prim_addPeer_sid a psk pk v osk _).1 ha
  | hsPut p peer hs hp _ _ _ _ hfree _ =>
    intro id i h
    rw [hsPut_sid] at h
    split at h
    · cases h
    · rename_i hn
      unfold Carries
      rw [session_hsPut, handshake_hsPut _ _ _ _ hp]
      split at h
      · rename_i hid
        cases h
        right; rw [if_pos rfl]; simp [hid]
      · have := ha id i h
        unfold Carries at this
        by_cases hi : i = p
        · subst hi
          left
          rcases this with h1 | h1
          · exact h1
          · exact Decidable.not_not.mp (fun h2 => hn ⟨h1, h2⟩)
        · rw [if_neg hi]; exact this
  | hsUpd p f hf =>
    refine (prim_sid_same (modHs_get a p f) (fun x => rfl) (fun x => ?_) (fun id => rfl)).1 ha
    cases hx : x.handshake with
    | none => rfl
    | some y => simp [(hf y).sidi]
  | hsTake p => exact hsTake_sound p ha
  | sessTake p => exact sessTake_sound p ha
  | sessPut p peer ses hp hc hfree =>
    intro id i h
    rw [sessPut_sid] at h
    unfold Carries
    rw [session_sessPut _ _ _ _ hp, handshake_sessPut]
    split at h
    · rename_i hid; cases h; left; simp [hid]
    · have := sessTake_sound p ha id i h
      unfold Carries at this
      rw [session_sessTake, handshake_sessTake] at this
      by_cases hi : i = p
      · rw [if_pos hi] at this
        rcases this with h1 | h1
        · cases h1
        · exact Or.inr h1
      · rw [if_neg hi] at this ⊢; exact this
  | sesUpd p f hf =>
    refine (prim_sid_same (modPeer_get a p (fun q => { q with session := q.session.map f })) (fun x => ?_) (fun x => rfl) (fun id => rfl)).1 ha
    cases hx : x.session with
    | none => simp
    | some y => simp [(hf y).sidm]
  | used p no => exact (prim_sid_same (modPeer_get a p (fun q => { q with biscuitUsed := no })) (fun x => rfl) (fun x => rfl) (fun id => rfl)).1 ha
  | knownPut p peer v _ hp hfree hk =>
    exact (prim_sid_same (knownInsert_upd hk) (fun x => rfl) (fun x => rfl) (knownInsert_sid hk)).1 ha
  | knownRem p _ hk =>
    exact (prim_sid_same (knownRemove_upd hk) (fun x => rfl) (fun x => rfl) (knownPrim_sid hk)).1 ha
  | ctr => exact ha
  | bkeys i st => exact ha
  | csecrets i st => exact ha
  | initReq p => exact (prim_sid_same (modPeer_get a p (fun q => { q with initReq := true })) (fun x => rfl) (fun x => rfl) (fun id => rfl)).1 ha
  | pollOff n => exact ha

theorem prim_sidComplete {a b : Server} (hF : F) (h : Prim C F a b) (ha : SidComplete a) : SidComplete b := by
  cases h with
  | addPeer psk pk v osk hfree => exact (prim_addPeer_sid a psk pk v osk _).2 ha
  | hsPut p peer hs hp _ _ _ _ hfree hfresh =>
    have hfresh := hfresh hF
    intro id i h
    unfold Carries at h
    rw [session_hsPut, handshake_hsPut _ _ _ _ hp] at h
    rw [hsPut_sid]
    by_cases hi : i = p
    · subst hi
      rw [if_pos rfl] at h
      simp only [Option.map_some, Option.some.injEq] at h
      rw [if_neg]
      · by_cases hid : id = hs.core.sidi
        · rw [if_pos hid]
        · rw [if_neg hid]
          rcases h with h | h
          · exact ha id i (Or.inl h)
          · exact absurd h.symm hid
      · rintro ⟨h1, h2⟩
        rcases h with h | h
        · exact h2 h
        · rw [h] at hfresh; exact hfresh h1
    · rw [if_neg hi] at h
      have hidx := ha id i h
      rw [if_neg, if_neg]
      · exact hidx
      · rintro rfl
        rw [hidx] at hfree
        rcases hfree with h | h
        · cases h
        · cases h; exact hi rfl
      · rintro ⟨h1, h2⟩
        have := ha id p (Or.inr h1)
        rw [hidx] at this; cases this; exact hi rfl
  | hsUpd p f hf =>
    refine (prim_sid_same (modHs_get a p f) (fun x => rfl) (fun x => ?_) (fun id => rfl)).2 ha
    cases hx : x.handshake with
    | none => rfl
    | some y => simp [(hf y).sidi]
  | hsTake p => exact hsTake_complete p ha
  | sessTake p => exact sessTake_complete p ha
  | sessPut p peer ses hp hc hfree =>
    intro id i h
    unfold Carries at h
    rw [session_sessPut _ _ _ _ hp, handshake_sessPut] at h
    rw [sessPut_sid]
    by_cases hid : id = ses.sidm
    · rw [if_pos hid]
      by_cases hi : i = p
      · rw [hi]
      · rw [if_neg hi] at h
        have hc : Carries (a.sessTake p) i id := by
          unfold Carries; rw [session_sessTake, handshake_sessTake, if_neg hi]; exact h
        have := sessTake_complete p ha id i hc
        rw [hid] at this
        rw [this] at hfree
        rcases hfree with h | h
        · cases h
        · cases h; rfl
    · rw [if_neg hid]
      apply sessTake_complete p ha
      unfold Carries
      rw [session_sessTake, handshake_sessTake]
      by_cases hi : i = p
      · rw [if_pos hi] at h
        simp only [Option.map_some, Option.some.injEq] at h
        rcases h with h | h
        · exact absurd h.symm hid
        · exact Or.inr h
      · rw [if_neg hi] at h ⊢; exact h
  | sesUpd p f hf =>
    refine (prim_sid_same (modPeer_get a p (fun q => { q with session := q.session.map f })) (fun x => ?_) (fun x => rfl) (fun id => rfl)).2 ha
    cases hx : x.session with
    | none => simp
    | some y => simp [(hf y).sidm]
  | used p no => exact (prim_sid_same (modPeer_get a p (fun q => { q with biscuitUsed := no })) (fun x => rfl) (fun x => rfl) (fun id => rfl)).2 ha
  | knownPut p peer v _ hp hfree hk =>
    exact (prim_sid_same (knownInsert_upd hk) (fun x => rfl) (fun x => rfl) (knownInsert_sid hk)).2 ha
  | knownRem p _ hk =>
    exact (prim_sid_same (knownRemove_upd hk) (fun x => rfl) (fun x => rfl) (knownPrim_sid hk)).2 ha
  | ctr => exact ha
  | bkeys i st => exact ha
  | csecrets i st => exact ha
  | initReq p => exact (prim_sid_same (modPeer_get a p (fun q => { q with initReq := true })) (fun x => rfl) (fun x => rfl) (fun id => rfl)).2 ha
  | pollOff n => exact ha

end Verif.Server
