import Verif.Thm.Lifecycle
import Verif.Thm.TimerEx
/-
C64 (a finished initiator handshake holds no chaining key) and C65 (polling is fair).
-/
namespace Verif
open HashDomain Server

section
variable {C : Crypto}

/-! ### C64 -/

/-- the chaining key of a confirmed handshake is gone -/
def Erased (q : Peer) : Prop := ∀ h, q.handshake = some h → h.next = .respConf → h.core.ck = zero32

theorem prim_erased {F : Prop} {a b : Server} (h : Prim C F a b) (ha : AllPeers Erased a) : AllPeers Erased b := by
  have keep : ∀ {b : Server} {p : Nat} {f : Peer → Peer}, Upd a b p f → (∀ q, (f q).handshake = q.handshake) → AllPeers Erased b := by
    intro b p f hu hf
    refine ha.upd hu ?_
    intro q _ hok h hh
    exact hok h ((hf q).symm.trans hh)
  cases h with
  | addPeer psk pk v osk hfree =>
    intro p q hq
    simp only [List.getElem?_append] at hq
    split at hq
    · exact ha p q hq
    · have : q = freshPeer psk pk v osk := by
        rw [List.getElem?_singleton] at hq
        split at hq
        · cases hq; rfl
        · cases hq
      subst this
      exact fun x hx => (by cases hx)
  | hsPut p peer hs hp h1 h2 h3 h4 =>
    refine ha.upd (hsPut_get a p hs) ?_
    intro q _ hok x hx hn
    simp only [Option.some.injEq] at hx
    subst hx
    rw [h4.1] at hn; cases hn
  | hsUpd p f hf =>
    refine ha.upd (modHs_get a p f) ?_
    intro q _ hok x hx hn
    simp only [Option.map_eq_some_iff] at hx
    obtain ⟨y, hy, rfl⟩ := hx
    rcases (hf y).erased hn with h | ⟨h, e⟩
    · exact h
    · rw [e]; exact hok y hy h
  | hsTake p =>
    refine ha.upd (hsTake_get a p) ?_
    intro q _ hok x hx
    cases hx
  | sessTake p => exact keep (sessTake_get a p) (fun _ => rfl)
  | sessPut p peer ses => exact keep (sessPut_get a p ses) (fun _ => rfl)
  | sesUpd p f => exact keep (modPeer_get a p _) (fun _ => rfl)
  | used p no => exact keep (modPeer_get a p _) (fun _ => rfl)
  | knownPut p peer v _ hp hfree hk => exact keep (knownInsert_upd hk) (fun _ => rfl)
  | knownRem p _ hk => exact keep (knownRemove_upd hk) (fun _ => rfl)
  | ctr => exact ha
  | bkeys i st => exact ha
  | csecrets i st => exact ha
  | initReq p => exact keep (modPeer_get a p _) (fun _ => rfl)
  | pollOff n => exact ha

/-- **C64.** In every history, an initiator handshake that has derived its session (and so waits for the
responder's confirmation) holds no chaining key any more: the key is all zero. -/
theorem chaining_key_erased (L : C.Lawful) {s : Server} (hr : Reachable C s) (p : Nat) (q : Peer) (h : IniHs)
    (hp : s.peers[p]? = some q) (hh : q.handshake = some h) (hn : h.next = .respConf) :
    h.core.ck = List.replicate 32 0 :=
  Reachable.inv L (P := AllPeers Erased) (fun _ _ _ _ _ _ _ _ _ _ _ _ => allPeers_new _ _ _ _ _ _ _ _) (fun _ _ => prim_erased) hr p q hp h hh hn

/-! ### C65 -/

/-- What calls other than `add_peer` and `poll` leave alone. -/
theorem step_pollOff (C : Crypto) (s : Server) (o : Op) (ha : ∀ psk pk v osk, o ≠ .addPeer psk pk v osk) (hp : ∀ now r, o ≠ .poll now r) :
    (s.step C o).pollOff = s.pollOff ∧ (s.step C o).peers.length = s.peers.length := by
  have direct : ∀ (s : Server) rx tx now r, (s.handleMsg C rx tx now r).2.pollOff = s.pollOff ∧
      (s.handleMsg C rx tx now r).2.peers.length = s.peers.length := by
    intro s rx tx now r
    rcases handleMsg_globals C s rx tx now r with h | ⟨h, hs⟩
    · exact ⟨h.pollOff, h.len⟩
    · rw [hs, issued_eq]; exact ⟨rfl, rfl⟩
  cases o with
  | addPeer psk pk v osk => exact absurd rfl (ha _ _ _ _)
  | initiate p now r tx =>
    simp only [step]
    rcases initiate_cases C s p now r tx with ⟨x, hx⟩ | ⟨peer, ih, hs, e, -, -, -, -, hx⟩
    · rw [hx]; exact ⟨rfl, rfl⟩
    · rw [hx]
      exact ⟨((hsPut_globals s p hs).trans (SameGlobals.modPeer _ _ _)).pollOff, ((hsPut_globals s p hs).trans (SameGlobals.modPeer _ _ _)).len⟩
  | handleMsg rx tx now r => exact direct s rx tx now r
  | handleMsgUnderLoad rx tx host now r =>
    simp only [step]
    rcases underLoad_cases C s rx tx host now r with ⟨x, -, hx, -⟩ | ⟨-, hx⟩ | ⟨-, j, ids, s1, hact, hs1, hc⟩
    · rw [hx]; exact ⟨rfl, rfl⟩
    · rw [hx]; exact direct s _ _ _ _
    have h1 : s1.pollOff = s.pollOff ∧ s1.peers.length = s.peers.length := by
      rw [hs1]; exact ⟨rfl, rfl⟩
    rcases hc with ⟨-, hx⟩ | ⟨e, -, ⟨-, hx⟩ | ⟨-, ⟨-, hx⟩ | ⟨-, hx⟩⟩⟩
    · rw [hx]; exact h1
    · rw [hx]; exact ⟨(direct _ _ _ _ _).1.trans h1.1, (direct _ _ _ _ _).2.trans h1.2⟩
    · rw [hx]; exact h1
    · rw [hx]; exact h1
  | poll now r => exact absurd rfl (hp _ _)
  | retransmit p tx => simp only [step, retransmit_state]; exact ⟨trivial, trivial⟩

/-- the reported peer is the first one in the list with a due event -/
theorem pollPeers_first {now : Time} {r : PollRnd} (ps : List Nat) : ∀ {s : Server} {t0 : Time}, (∀ p ∈ ps, p < s.peers.length) → ps.Nodup →
    ∀ {c : PollResult} {s' : Server}, pollChildren (ps.map (fun p => pollPeer now r p)) (some (.sleep t0, s)) = some (c, s') →
    ∀ p ∈ ps, (∃ q e, s.peers[p]? = some q ∧ PeerDue q now p e) →
    ∃ i x, ps[i]? = some x ∧ c.peer = some x ∧ p ∉ ps.take i := by
  induction ps with
  | nil => intro s t0 _ _ c s' _ p hp; cases hp
  | cons p0 ps ih =>
    intro s t0 hps hnd c s' h p hp hdue
    obtain ⟨q0, hq0⟩ : ∃ q, s.peers[p0]? = some q := ⟨_, List.getElem?_eq_getElem (hps p0 (by simp))⟩
    rw [List.map_cons, pollChildren_sleep, pollChild_sleep] at h
    cases hpp : pollPeer now r p0 s with
    | none => rw [hpp] at h; cases ps <;> cases h
    | some x =>
      obtain ⟨b, s1⟩ := x
      rw [hpp] at h
      simp only at h
      have ho := (pollPeer_cases hq0 hpp).1
      cases hf : PollResult.fold (.sleep t0) b with
      | none => rw [hf] at h; cases ps <;> cases h
      | some a =>
        rw [hf] at h
        simp only [Option.map_some] at h
        rcases fold_sleep hf with ⟨hsat, rfl⟩ | ⟨u, rfl, rfl⟩
        · rw [pollChildren_event hsat] at h
          cases h
          obtain ⟨q', hq', hd, hiff⟩ := pollPeer_due hq0 hpp hsat
          exact ⟨0, p0, rfl, hd.peer, by simp⟩
        · obtain ⟨q', hq', hrest, hiff⟩ := pollPeer_rests hq0 hpp
          have hnp : p0 ∉ ps := (List.nodup_cons.mp hnd).1
          obtain ⟨q, e, hq, hd⟩ := hdue
          have hne : p ≠ p0 := by
            rintro rfl
            rw [hq0] at hq; cases hq
            have := (hiff e).mpr hd
            exact hrest.not_due (now' := now) (by
              have a : ∀ n t g : Int, g ≤ t → n ≤ n + t - g := by intros; omega
              exact a _ _ _ hrest.grace) this
          have hp' : p ∈ ps := (List.mem_cons.mp hp).resolve_left hne
          obtain ⟨i, x, h1, h2, h3⟩ := ih (s := s1) (fun x hx => ho.length ▸ hps x (by simp [hx])) (List.nodup_cons.mp hnd).2 h p hp'
            ⟨q, e, (ho.others p hne).trans hq, hd⟩
          refine ⟨i + 1, x, h1, h2, ?_⟩
          rw [List.take_succ_cons]
          exact fun h => (List.mem_cons.mp h).elim hne h3

/-- one poll brings the turn of a peer with a due event closer -/
theorem poll_turn {now : Time} {r : PollRnd} {s s' : Server} {c : PollResult} (h : s.poll now r = some (c, s')) {p : Nat} {q : Peer} {e : PollResult}
    (hq : s.peers[p]? = some q) (hd : PeerDue q now p e) {d : Nat} (hdn : d < s.peers.length) (hpd : p = (d + s.pollOff) % s.peers.length) :
    s'.peers.length = s.peers.length ∧ (c.peer = some p ∨ ∃ d' < d, p = (d' + s'.pollOff) % s'.peers.length) := by
  unfold poll at h
  simp only [Option.map_eq_some_iff, Prod.mk.injEq] at h
  obtain ⟨⟨res, s1⟩, h1, rfl, rfl⟩ := h
  obtain ⟨t0, s0, e0, p0, kb, kc, kx⟩ := poll_keys (now := now) (r := r) s
  rw [e0] at h1
  obtain ⟨hmem, hnd⟩ := peerPtrsOff_spec s s.pollOff
  have hps : ∀ p ∈ s.peerPtrsOff s.pollOff, p < s0.peers.length := fun p hp => by rw [p0]; exact (hmem p).mp hp
  obtain ⟨-, -, i3, -⟩ := pollPeers_cases _ (s := s0) hps hnd h1
  have hlen : s1.peers.length = s.peers.length := by rw [i3, p0]
  obtain ⟨i, x, hx, hc, hnot⟩ := pollPeers_first _ (s := s0) hps hnd h1 p
    ((hmem p).mpr (List.getElem?_eq_some_iff.mp hq).1) ⟨q, e, by rw [p0]; exact hq, hd⟩
  refine ⟨hlen, ?_⟩
  simp only [hc, hlen]
  unfold peerPtrsOff at hx hnot
  generalize s.peers.length = n at *
  obtain ⟨j, hj, hxj⟩ : ∃ j, i = j ∧ i < n ∧ x = (i + s.pollOff) % n := by
    rw [List.getElem?_map, Option.map_eq_some_iff] at hx
    obtain ⟨a, ha, rfl⟩ := hx
    obtain ⟨hi, ha⟩ := List.getElem?_eq_some_iff.mp ha
    rw [List.getElem_range] at ha
    simp only [List.length_range] at hi
    exact ⟨i, rfl, hi, by rw [ha]⟩
  obtain ⟨hin, rfl⟩ := hxj
  have hid : i ≤ d := by
    refine Nat.le_of_not_lt fun hlt => hnot ?_
    rw [hpd, ← List.map_take, List.mem_map]
    refine ⟨d, ?_, rfl⟩
    rw [List.take_range, List.mem_range]
    omega
  rcases Nat.lt_or_ge i d with h | h
  · right
    refine ⟨d - i - 1, by omega, ?_⟩
    rw [hpd]
    have : d - i - 1 + ((i + s.pollOff) % n + 1) = (d - i) + (i + s.pollOff) % n := by omega
    rw [this, Nat.add_mod_mod]
    congr 1
    omega
  · left
    have : i = d := by omega
    rw [hpd, this]

/-- The number of polls in a list of calls. -/
def polls (ops : List Op) : Nat := ops.countP (fun o => match o with | .poll _ _ => true | _ => false)

/-- **C65.** Polling starves no peer. Take any history, and any sequence of further calls (polls, message
handling, initiations, retransmissions, but no registration) during which a peer has something due at
every poll. Among any as many polls as there are peers, one reports an event of that peer. -/
theorem poll_fair (L : C.Lawful) {s : Server} (hr : Reachable C s) (p : Nat) (ops : List Op) (ho : ∀ o ∈ ops, o.WF C)
    (hadd : ∀ psk pk v osk, .addPeer psk pk v osk ∉ ops)
    (hdue : ∀ pre now r post, ops = pre ++ .poll now r :: post → ∃ e, Due (s.run C pre) now e ∧ e.peer = some p)
    (hp : p < s.peers.length) (hn : s.peers.length ≤ polls ops) :
    ∃ pre now r post e s', ops = pre ++ .poll now r :: post ∧ (s.run C pre).poll now r = some (e, s') ∧ e.peer = some p := by
  have main : ∀ (ops : List Op) (s : Server) (d : Nat), Reachable C s → (∀ o ∈ ops, o.WF C) → (∀ psk pk v osk, .addPeer psk pk v osk ∉ ops) →
      (∀ pre now r post, ops = pre ++ .poll now r :: post → ∃ e, Due (s.run C pre) now e ∧ e.peer = some p) →
      d < s.peers.length → p = (d + s.pollOff) % s.peers.length → d < polls ops →
      ∃ pre now r post e s', ops = pre ++ .poll now r :: post ∧ (s.run C pre).poll now r = some (e, s') ∧ e.peer = some p := by
    intro ops
    induction ops with
    | nil => intro s d _ _ _ _ _ _ h; exact absurd h (Nat.not_lt_zero _)
    | cons o ops ih =>
      intro s d hr ho hadd hdue hdn hpd hpolls
      have hr' := Reachable.step s o hr (ho o (by simp))
      have lift : (∃ pre now r post e s', ops = pre ++ .poll now r :: post ∧ ((s.step C o).run C pre).poll now r = some (e, s') ∧ e.peer = some p) →
          ∃ pre now r post e s', o :: ops = pre ++ .poll now r :: post ∧ (s.run C pre).poll now r = some (e, s') ∧ e.peer = some p := by
        rintro ⟨pre, now, r, post, e, s', h1, h2, h3⟩
        exact ⟨o :: pre, now, r, post, e, s', by rw [h1]; rfl, h2, h3⟩
      have hdue' : ∀ pre now r post, ops = pre ++ .poll now r :: post → ∃ e, Due ((s.step C o).run C pre) now e ∧ e.peer = some p :=
        fun pre now r post h => hdue (o :: pre) now r post (by rw [h]; rfl)
      have ih' := fun d => ih (s.step C o) d hr' (fun x hx => ho x (by simp [hx])) (fun a b c e h => hadd a b c e (by simp [h])) hdue'
      cases o with
      | poll now r =>
        obtain ⟨e, ⟨p', q, hq, hd⟩, hpe⟩ := hdue [] now r ops rfl
        rw [hd.peer] at hpe; cases hpe
        obtain ⟨⟨c, s'⟩, hpoll⟩ := Option.isSome_iff_exists.mp (poll_no_panic L hr now r)
        obtain ⟨hlen, hc | ⟨d', hd', hp'⟩⟩ := poll_turn hpoll hq hd hdn hpd
        · exact ⟨[], now, r, ops, c, s', rfl, hpoll, hc⟩
        · have hstep : s.step C (.poll now r) = s' := by simp [step, hpoll]
          refine lift (ih' d' ?_ ?_ ?_)
          · rw [hstep, hlen]; omega
          · rw [hstep]; exact hp'
          · have : polls (Op.poll now r :: ops) = polls ops + 1 := by simp [polls]
            omega
      | addPeer psk pk v osk => exact absurd List.mem_cons_self (hadd psk pk v osk)
      | initiate a b c e =>
        obtain ⟨h1, h2⟩ := step_pollOff C s (.initiate a b c e) (by intros; simp) (by intros; simp)
        exact lift (ih' d (by rw [h2]; exact hdn) (by rw [h1, h2]; exact hpd) (by simpa [polls] using hpolls))
      | handleMsg a b c e =>
        obtain ⟨h1, h2⟩ := step_pollOff C s (.handleMsg a b c e) (by intros; simp) (by intros; simp)
        exact lift (ih' d (by rw [h2]; exact hdn) (by rw [h1, h2]; exact hpd) (by simpa [polls] using hpolls))
      | handleMsgUnderLoad a b c e f =>
        obtain ⟨h1, h2⟩ := step_pollOff C s (.handleMsgUnderLoad a b c e f) (by intros; simp) (by intros; simp)
        exact lift (ih' d (by rw [h2]; exact hdn) (by rw [h1, h2]; exact hpd) (by simpa [polls] using hpolls))
      | retransmit a b =>
        obtain ⟨h1, h2⟩ := step_pollOff C s (.retransmit a b) (by intros; simp) (by intros; simp)
        exact lift (ih' d (by rw [h2]; exact hdn) (by rw [h1, h2]; exact hpd) (by simpa [polls] using hpolls))
  obtain ⟨hmem, -⟩ := peerPtrsOff_spec s s.pollOff
  have := (hmem p).mpr hp
  unfold peerPtrsOff at this
  simp only [List.mem_map, List.mem_range] at this
  obtain ⟨d, hd, hpd⟩ := this
  exact main ops s d hr ho hadd hdue hd hpd.symm (Nat.lt_of_lt_of_le hd hn)

end

/-! ### The hypotheses hold of concrete runs -/

/-- C64: after the second message of a handshake the initiator waits for the confirmation. -/
example : Reachable Toy.crypto (Ex.A2 .v03) ∧
    ((Ex.A2 .v03).handshake 0).map (fun h => (h.next, h.core.ck)) = some (.respConf, List.replicate 32 0) ∧
    ((Ex.A1 .v03).handshake 0).map (fun h => decide (h.core.ck = List.replicate 32 0)) = some false :=
  ⟨Ex.A2_reach _, by decide +kernel⟩

namespace Ex

/-- a server with two peers -/
def two : Server := ((server skA skB .v03).addPeer Toy.crypto none [9, 9, 9, 9] .v03 .wireguardPsk).2

theorem two_reach : Reachable Toy.crypto two :=
  .step _ (.addPeer none [9, 9, 9, 9] .v03 .wireguardPsk) (server_reachable _ _ _) (fun _ h => nomatch h)

end Ex

/-- C65: two peers that both need an exchange; peer 1 is served by the second poll. -/
example : Due Ex.two 0 (.sendInitiation 1) ∧
    (match Ex.two.poll 0 Ex.prnd with
      | some (a, s) => match s.poll 0 Ex.prnd with | some (b, _) => some (a, b) | none => none
      | none => none) = some (.sendInitiation 0, .sendInitiation 1) := by
  refine ⟨?_, by decide +kernel⟩
  have h : (Ex.two.peers[1]?).map (fun q => (q.initReq, q.session.isNone, q.handshake.isNone)) = some (false, true, true) := by
    decide +kernel
  obtain ⟨q, hq, h⟩ := Option.map_eq_some_iff.mp h
  simp only [Prod.mk.injEq, Option.isNone_iff_eq_none] at h
  exact ⟨1, q, hq, .sendInitiation h.1 (fun x hx => by rw [h.2.1] at hx; cases hx) (fun x hx => by rw [h.2.2] at hx; cases hx)⟩

end Verif
