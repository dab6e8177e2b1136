import Verif.Thm.Prim
/-
Every API call is a sequence of primitive updates (helper file, continued).
-/
namespace Verif.Server
open HashDomain
variable {C : Crypto} {F : Prop}

theorem handleMsgUnderLoad_prims (L : C.Lawful) (s : Server) (rx tx host : Bytes) (now : Time)
    (r : HashChoice → Rnd) (hr : ∀ h, (r h).WF C) :
    Prims C F s (s.handleMsgUnderLoad C rx tx host now r).2 := by
  unfold handleMsgUnderLoad
  split
  · exact .refl _
  · split
    · exact handleMsg_prims L _ _ _ _ _ hr
    · have h1 := activeCookieSecrets_prims (C := C) (F := F) s now (r .shake).csecret (hr .shake).csecret
      generalize s.activeCookieSecrets now (r .shake).csecret = y at h1 ⊢
      obtain ⟨ids, s1⟩ := y
      simp only
      split
      · exact h1
      · split
        · exact h1
        · split
          · exact h1.trans (handleMsg_prims L _ _ _ _ _ hr)
          · split <;> exact h1
    · exact .refl _

theorem initiation_facts {s : Server} {peer : Peer} {now : Time} {r : Rnd} {ih hs}
    (h : s.initiation C peer now r = some (ih, hs)) :
    hs.core.hc = peer.version.hash ∧ hs.core.sidi = r.sid ∧ hs.txBuf.length = 2500 ∧ hs.txLen = 0 ∧
    hs.next = .respHello ∧ ih.sidi = r.sid ∧ hs.createdAt = now ∧ hs.txBuf = List.replicate 2500 0 := by
  unfold initiation at h
  simp only at h
  split at h
  · cases h
  · split at h
    · cases h
    · simp only [Option.some.injEq, Prod.mk.injEq] at h
      obtain ⟨rfl, rfl⟩ := h
      exact ⟨rfl, rfl, List.length_replicate, rfl, rfl, rfl, rfl, rfl⟩

theorem initiation_WF (L : C.Lawful) {s : Server} {peer : Peer} {now : Time} {r : Rnd} {ih hs}
    (hr : r.WF C) (h : s.initiation C peer now r = some (ih, hs)) : ih.WF C := by
  unfold initiation at h
  simp only at h
  split at h
  · cases h
  · rename_i eski epki hk
    split at h
    · cases h
    · rename_i shk sctr he
      simp only [Option.some.injEq, Prod.mk.injEq] at h
      obtain ⟨rfl, rfl⟩ := h
      refine ⟨hr.sid, L.eKeygen_len _ _ _ hk, L.sEncaps_len _ _ _ _ he, ?_, ?_⟩
      · simp [Core.encryptAndMix, L.aead_len, pidm, HashDomain.mix, Crypto.hash_len L]
      · simp [Core.encryptAndMix, L.aead_len]

theorem initiate_prims (L : C.Lawful) (s : Server) (p : Nat) (now : Time) (r : Rnd) (tx : Bytes)
    (hr : r.WF C) (hF : F → (s.handshake p).map (·.core.sidi) ≠ some r.sid) :
    Prims C F s (s.initiate C p now r tx).2 := by
  unfold initiate
  split
  · exact .refl _
  · rename_i e he
    unfold handleInitiation
    cases hp : s.peers[p]? with
    | none => exact .refl _
    | some peer =>
      simp only
      cases hi : s.initiation C peer now r with
      | none => exact .refl _
      | some x =>
        obtain ⟨ih, hs⟩ := x
        obtain ⟨h1, h2, h3, h4, h5, h6, h7, -⟩ := initiation_facts hi
        simp only
        rcases hsInsert_cases s p hs with ⟨hx, -⟩ | ⟨hx, hfree⟩
        · rw [hx]; exact .refl _
        · rw [hx]
          have hP : Prims C F s (s.hsPut p hs) := .one (.hsPut p peer hs hp h1 h3 h4 ⟨h5, now, r, ih, hi⟩ hfree (by rw [h2]; exact hF))
          simp only
          split
          · exact hP
          · rename_i peer' hp'
            have hw : (sealMsg C peer' .initHello { e with payload := ih.encode }).WF (InitHello.size C) := by
              apply sealMsg_WF L
              have := castTx_WF he
              exact ⟨this.1, InitHello.encode_length (initiation_WF L hr hi), this.2.2.1, this.2.2.2⟩
            have hlen : (sealMsg C peer' .initHello { e with payload := ih.encode }).encode.length ≤ 2500 := by
              rw [Env.encode_length hw]
              have := L.fits.1
              simp only [Env.size, InitHello.size]; omega
            have h9 := storeMsg_prims (C := C) (F := F) (s.hsPut p hs) p now r.jit _ hlen
            split
            · rename_i hs2; rw [hs2] at h9; exact hP.trans h9
            · rename_i hs2; rw [hs2] at h9; exact hP.trans h9

/-! ### Polling -/

theorem sched_prims {s0 : Server} {x : PollSt} {w : Server → Time} {act : Server → PollSt}
    (hx : ∀ a s', x = some (a, s') → Prims C F s0 s')
    (ha : ∀ s' b s1, act s' = some (b, s1) → Prims C F s' s1) :
    ∀ c s2, sched x w act = some (c, s2) → Prims C F s0 s2 := by
  intro c s2 h
  unfold sched at h
  split at h
  · cases h
  · rename_i acc s'
    have h0 := hx acc s' rfl
    split at h
    · simp only [Option.some.injEq, Prod.mk.injEq] at h; exact h.2 ▸ h0
    · split at h
      · split at h
        · cases h
        · rename_i b s1 hb
          simp only [Option.map_eq_some_iff, Prod.mk.injEq] at h
          obtain ⟨a, _, _, rfl⟩ := h
          exact h0.trans (ha _ _ _ hb)
      · simp only [Option.map_eq_some_iff, Prod.mk.injEq] at h
        obtain ⟨a, _, _, rfl⟩ := h
        exact h0

theorem pollChild_prims {s0 : Server} {x : PollSt} {act : Server → PollSt}
    (hx : ∀ a s', x = some (a, s') → Prims C F s0 s')
    (ha : ∀ s' b s1, act s' = some (b, s1) → Prims C F s' s1) :
    ∀ c s2, pollChild x act = some (c, s2) → Prims C F s0 s2 := by
  intro c s2 h
  unfold pollChild at h
  split at h
  · cases h
  · rename_i acc s'
    have h0 := hx acc s' rfl
    split at h
    · simp only [Option.some.injEq, Prod.mk.injEq] at h; exact h.2 ▸ h0
    · split at h
      · cases h
      · rename_i b s1 hb
        simp only [Option.map_eq_some_iff, Prod.mk.injEq] at h
        obtain ⟨a, _, _, rfl⟩ := h
        exact h0.trans (ha _ _ _ hb)

theorem pollChildren_prims {s0 : Server} {fs : List (Server → PollSt)} :
    ∀ {x : PollSt}, (∀ a s', x = some (a, s') → Prims C F s0 s') →
    (∀ f ∈ fs, ∀ s' b s1, f s' = some (b, s1) → Prims C F s' s1) →
    ∀ c s2, pollChildren fs x = some (c, s2) → Prims C F s0 s2 := by
  induction fs with
  | nil => intro x hx _ c s2 h; exact hx c s2 h
  | cons f fs ih =>
    intro x hx ha c s2 h
    unfold pollChildren at h
    split at h
    · cases h
    · rename_i acc s'
      split at h
      · simp only [Option.some.injEq, Prod.mk.injEq] at h; exact h.2 ▸ hx _ _ rfl
      · exact ih (pollChild_prims hx (ha f (by simp))) (fun g hg => ha g (by simp [hg])) c s2 h

theorem some_prims (s : Server) (a : PollResult) :
    ∀ b s', (some (a, s) : PollSt) = some (b, s') → Prims C F s s' := by
  intro b s' h
  simp only [Option.some.injEq, Prod.mk.injEq] at h
  exact h.2 ▸ .refl _

theorem pollHs_prims (now : Time) (r : PollRnd) (p : Nat) (s : Server) :
    ∀ c s2, pollHs now r p s = some (c, s2) → Prims C F s s2 := by
  apply sched_prims (some_prims s _)
  intro s' b s1 h
  simp only [Option.some.injEq, Prod.mk.injEq] at h
  rw [← h.2]
  exact .one (.hsUpd p _ (fun x => ⟨rfl, rfl, rfl, Or.inl rfl, rfl, fun h => ⟨h, rfl, rfl, rfl⟩, fun h => Or.inr ⟨h, rfl⟩⟩))

theorem pollKnown_prims (now : Time) (p : Nat) (s : Server) :
    ∀ c s2, pollKnown now p s = some (c, s2) → Prims C F s s2 := by
  apply sched_prims (some_prims s _)
  intro s' b s1 h
  simp only [Option.map_eq_some_iff, Prod.mk.injEq] at h
  obtain ⟨a, ha, _, rfl⟩ := h
  exact .one (.knownRem p _ ha)

theorem pollPeer_prims (now : Time) (r : PollRnd) (p : Nat) (s : Server) :
    ∀ c s2, pollPeer now r p s = some (c, s2) → Prims C F s s2 := by
  unfold pollPeer
  refine pollChild_prims (pollChild_prims (sched_prims (sched_prims (sched_prims (some_prims s _) ?_) ?_) ?_) ?_) ?_
  · intro s' b s1 h
    simp only [Option.some.injEq, Prod.mk.injEq] at h
    rw [← h.2]; exact .one (.hsTake p)
  · intro s' b s1 h
    simp only [Option.some.injEq, Prod.mk.injEq] at h
    rw [← h.2]; exact .one (.sessTake p)
  · intro s' b s1 h
    simp only [Option.some.injEq, Prod.mk.injEq] at h
    rw [← h.2]; exact .one (.initReq p)
  · intro s'; exact pollHs_prims now r p s'
  · intro s'; exact pollKnown_prims now p s'

theorem poll_prims (now : Time) (r : PollRnd) (s : Server)
    (hr : ∀ i, (r.b i).length = 32 ∧ (r.c i).length = 16) :
    ∀ c s2, s.poll now r = some (c, s2) → Prims C F s s2 := by
  intro c s2 h
  unfold poll at h
  simp only [Option.map_eq_some_iff, Prod.mk.injEq] at h
  obtain ⟨⟨res, s1⟩, h1, -, rfl⟩ := h
  refine Prims.tail ?_ (.pollOff _)
  revert h1
  apply pollChildren_prims
  · apply pollChildren_prims
    · apply pollChildren_prims (some_prims s _)
      intro f hf s'
      have hb : ∀ i, ∀ b s1, pollBiscuit now r i s' = some (b, s1) → Prims C F s' s1 := by
        intro i
        apply sched_prims (some_prims s' _)
        intro s' b s1 h
        simp only [Option.some.injEq, Prod.mk.injEq] at h
        rw [← h.2]; exact .one (.bkeys i _ (hr i).1)
      simp only [List.mem_cons, List.not_mem_nil, or_false] at hf
      rcases hf with rfl | rfl
      · exact hb _
      · exact hb _
    · intro f hf s'
      have hb : ∀ i, ∀ b s1, pollCookie now r i s' = some (b, s1) → Prims C F s' s1 := by
        intro i
        apply sched_prims (some_prims s' _)
        intro s' b s1 h
        simp only [Option.some.injEq, Prod.mk.injEq] at h
        rw [← h.2]; exact .one (.csecrets i _ (hr i).2)
      simp only [List.mem_cons, List.not_mem_nil, or_false] at hf
      rcases hf with rfl | rfl
      · exact hb _
      · exact hb _
  · intro f hf s'
    simp only [List.mem_map] at hf
    obtain ⟨p, _, rfl⟩ := hf
    exact pollPeer_prims now r p s'

theorem retransmit_state (C : Crypto) (s : Server) (p tx) : (s.retransmit C p tx).2 = s := by
  unfold retransmit
  split
  · rfl
  · split
    · rfl
    · split
      · rfl
      · simp only
        split <;> rfl

/-- The session id drawn for a new handshake is not the one of the handshake it replaces. -/
def Op.Fresh (s : Server) : Op → Prop
  | .initiate p _ r _ => (s.handshake p).map (·.core.sidi) ≠ some r.sid
  | _ => True

theorem step_prims (L : C.Lawful) (s : Server) (o : Op) (ho : o.WF C)
    (hF : F → Op.Fresh s o) : Prims C F s (s.step C o) := by
  cases o with
  | addPeer psk pk v osk =>
    simp only [step, addPeer]
    split
    · exact .refl _
    · rename_i h; exact .one (.addPeer psk pk v osk h)
  | initiate p now r tx => exact initiate_prims L s p now r tx ho hF
  | handleMsg rx tx now r => exact handleMsg_prims L s rx tx now r ho
  | handleMsgUnderLoad rx tx host now r => exact handleMsgUnderLoad_prims L s rx tx host now r ho
  | poll now r =>
    simp only [step]
    split
    · rename_i res s1 h; exact poll_prims now r s ho.1 _ _ h
    · exact .refl _
  | retransmit p tx => simp only [step, retransmit_state]; exact .refl _

/-- Invariants of primitive updates hold in every reachable state. -/
theorem Reachable.inv (L : C.Lawful) {P : Server → Prop}
    (h0 : ∀ sk pk b0 b1 c0 c1 kk, b0.length = 32 → b1.length = 32 → c0.length = 16 → c1.length = 16 →
      kk.length = 32 → P (Server.new sk pk b0 b1 c0 c1 kk))
    (hP : ∀ a b, Prim C False a b → P a → P b) {s : Server} (h : Reachable C s) : P s := by
  induction h with
  | new sk pk b0 b1 c0 c1 kk a b c d e => exact h0 sk pk b0 b1 c0 c1 kk a b c d e
  | step s o _ ho ih => exact (step_prims L s o ho (fun h => h.elim)).inv hP ih

end Verif.Server
