import Verif.Thm.PrimStep
/-
What one `poll` can do to the state: a sequence of guarded moves (helper file).
-/
namespace Verif.Server

/-- One action of `poll` together with the condition that triggered it. -/
inductive Move (now : Time) (r : PollRnd) (s : Server) : Server → Prop
  | biscuit (i : Bool) (t : Time) : (s.biscuitKeys.get i).biscuitMortal.lifeLeft now = some t → t < eventGrace →
      Move now r s { s with biscuitKeys := s.biscuitKeys.set i (newStore (r.b i)) }
  | cookie (i : Bool) (t : Time) : (s.cookieSecrets.get i).cookieMortal.lifeLeft now = some t → t < eventGrace →
      Move now r s { s with cookieSecrets := s.cookieSecrets.set i (newStore (r.c i)) }
  | hsTake (p : Nat) (hs : IniHs) : s.handshake p = some hs → hs.createdAt + rejectAfter - now < eventGrace →
      Move now r s (s.hsTake p)
  | sessTake (p : Nat) (ses : Session) : s.session p = some ses → ses.createdAt + rejectAfter - now < eventGrace →
      Move now r s (s.sessTake p)
  | initReq (p : Nat) : s.initiationWait p now < eventGrace →
      Move now r s (s.modPeer p (fun q => { q with initReq := true }))
  | retry (p : Nat) (hs : IniHs) : s.handshake p = some hs → hs.txRetryAt - now < eventGrace →
      Move now r s (s.modHs p (regRetransmit now r.jit))
  | known (p : Nat) (k : Known) (s' : Server) : s.known p = some k → k.receivedAt + rekeyAfterResponder - now < eventGrace →
      s.knownRemove p = some s' → Move now r s s'

/-- Sequences of moves. -/
inductive Moves (now : Time) (r : PollRnd) : Server → Server → Prop
  | refl (s) : Moves now r s s
  | tail {a b c} : Moves now r a b → Move now r b c → Moves now r a c

namespace Moves
variable {now : Time} {r : PollRnd}
theorem one {a b : Server} (h : Move now r a b) : Moves now r a b := .tail (.refl a) h
theorem trans {a b c : Server} (h : Moves now r a b) (g : Moves now r b c) : Moves now r a c := by
  induction g with
  | refl => exact h
  | tail _ h2 ih => exact .tail ih h2
theorem inv {P : Server → Prop} (hP : ∀ a b, Move now r a b → P a → P b) {a b : Server}
    (h : Moves now r a b) (ha : P a) : P b := by
  induction h with
  | refl => exact ha
  | tail _ h2 ih => exact hP _ _ h2 ih
end Moves

variable {now : Time} {r : PollRnd}

theorem not_happened_unending : ¬ hasHappened unending 0 = true := by decide

theorem waitOrHibernate_happened {t : Option Time} (h : hasHappened (waitOrHibernate t) 0 = true) :
    ∃ u, t = some u ∧ u < eventGrace := by
  cases t with
  | none => exact absurd h not_happened_unending
  | some u => exact ⟨u, rfl, by simpa [waitOrHibernate, hasHappened] using h⟩

theorem sched_moves {s0 : Server} {x : PollSt} {w : Server → Time} {act : Server → PollSt}
    (hx : ∀ a s', x = some (a, s') → Moves now r s0 s')
    (ha : ∀ s' b s1, hasHappened (w s') 0 = true → act s' = some (b, s1) → Moves now r s' s1) :
    ∀ c s2, sched x w act = some (c, s2) → Moves now r s0 s2 := by
  intro c s2 h
  unfold sched at h
  split at h
  · cases h
  · rename_i acc s'
    have h0 := hx acc s' rfl
    split at h
    · simp only [Option.some.injEq, Prod.mk.injEq] at h; exact h.2 ▸ h0
    · split at h
      · rename_i hw
        split at h
        · cases h
        · rename_i b s1 hb
          simp only [Option.map_eq_some_iff, Prod.mk.injEq] at h
          obtain ⟨a, _, _, rfl⟩ := h
          exact h0.trans (ha _ _ _ hw hb)
      · simp only [Option.map_eq_some_iff, Prod.mk.injEq] at h
        obtain ⟨a, _, _, rfl⟩ := h
        exact h0

theorem pollChild_moves {s0 : Server} {x : PollSt} {act : Server → PollSt}
    (hx : ∀ a s', x = some (a, s') → Moves now r s0 s')
    (ha : ∀ s' b s1, act s' = some (b, s1) → Moves now r s' s1) :
    ∀ c s2, pollChild x act = some (c, s2) → Moves now r s0 s2 := by
  intro c s2 h
  unfold pollChild at h
  split at h
  · cases h
  · rename_i acc s'
    have h0 := hx acc s' rfl
    split at h
    · simp only [Option.some.injEq, Prod.mk.injEq] at h; exact h.2 ▸ h0
    · split at h
      · cases h
      · rename_i b s1 hb
        simp only [Option.map_eq_some_iff, Prod.mk.injEq] at h
        obtain ⟨a, _, _, rfl⟩ := h
        exact h0.trans (ha _ _ _ hb)

theorem pollChildren_moves {s0 : Server} {fs : List (Server → PollSt)} :
    ∀ {x : PollSt}, (∀ a s', x = some (a, s') → Moves now r s0 s') →
    (∀ f ∈ fs, ∀ s' b s1, f s' = some (b, s1) → Moves now r s' s1) →
    ∀ c s2, pollChildren fs x = some (c, s2) → Moves now r s0 s2 := by
  induction fs with
  | nil => intro x hx _ c s2 h; exact hx c s2 h
  | cons f fs ih =>
    intro x hx ha c s2 h
    unfold pollChildren at h
    split at h
    · cases h
    · rename_i acc s'
      split at h
      · simp only [Option.some.injEq, Prod.mk.injEq] at h; exact h.2 ▸ hx _ _ rfl
      · exact ih (pollChild_moves hx (ha f (by simp))) (fun g hg => ha g (by simp [hg])) c s2 h

theorem some_moves (s : Server) (a : PollResult) :
    ∀ b s', (some (a, s) : PollSt) = some (b, s') → Moves now r s s' := by
  intro b s' h
  simp only [Option.some.injEq, Prod.mk.injEq] at h
  exact h.2 ▸ .refl _

theorem pollHs_moves (p : Nat) (s : Server) :
    ∀ c s2, pollHs now r p s = some (c, s2) → Moves now r s s2 := by
  apply sched_moves (some_moves s _)
  intro s' b s1 hw h
  simp only [Option.some.injEq, Prod.mk.injEq] at h
  rw [← h.2]
  obtain ⟨u, hu, hlt⟩ := waitOrHibernate_happened hw
  simp only [Option.map_eq_some_iff] at hu
  obtain ⟨hs, h1, rfl⟩ := hu
  exact .one (.retry p hs h1 hlt)

theorem pollKnown_moves (p : Nat) (s : Server) :
    ∀ c s2, pollKnown now p s = some (c, s2) → Moves now r s s2 := by
  apply sched_moves (some_moves s _)
  intro s' b s1 hw h
  simp only [Option.map_eq_some_iff, Prod.mk.injEq] at h
  obtain ⟨a, ha, _, rfl⟩ := h
  obtain ⟨u, hu, hlt⟩ := waitOrHibernate_happened hw
  unfold Mortal.lifeLeft Known.mortal at hu
  cases hk : s'.known p with
  | none => rw [hk] at hu; cases hu
  | some k =>
    rw [hk] at hu
    by_cases h0 : k.receivedAt < 0
    · simp [h0] at hu
    · simp only [Option.bind_some, h0, if_false, Option.map_some, Option.some.injEq] at hu
      exact .one (.known p k _ hk (by rw [hu]; exact hlt) ha)

theorem pollPeer_moves (p : Nat) (s : Server) :
    ∀ c s2, pollPeer now r p s = some (c, s2) → Moves now r s s2 := by
  unfold pollPeer
  refine pollChild_moves (pollChild_moves (sched_moves (sched_moves (sched_moves (some_moves s _) ?_) ?_) ?_) ?_) ?_
  · intro s' b s1 hw h
    simp only [Option.some.injEq, Prod.mk.injEq] at h
    rw [← h.2]
    obtain ⟨u, hu, hlt⟩ := waitOrHibernate_happened hw
    simp only [Mortal.lifeLeft, IniHs.mortal, Option.map_map, Option.map_eq_some_iff, Function.comp_apply] at hu
    obtain ⟨hs, h1, rfl⟩ := hu
    exact .one (.hsTake p hs h1 hlt)
  · intro s' b s1 hw h
    simp only [Option.some.injEq, Prod.mk.injEq] at h
    rw [← h.2]
    obtain ⟨u, hu, hlt⟩ := waitOrHibernate_happened hw
    simp only [Mortal.lifeLeft, Session.mortal, Option.map_map, Option.map_eq_some_iff, Function.comp_apply] at hu
    obtain ⟨hs, h1, rfl⟩ := hu
    exact .one (.sessTake p hs h1 hlt)
  · intro s' b s1 hw h
    simp only [Option.some.injEq, Prod.mk.injEq] at h
    rw [← h.2]
    exact .one (.initReq p (by simpa [hasHappened] using hw))
  · intro s'; exact pollHs_moves p s'
  · intro s'; exact pollKnown_moves p s'

theorem pollBiscuit_moves (i : Bool) (s : Server) :
    ∀ c s2, pollBiscuit now r i s = some (c, s2) → Moves now r s s2 := by
  apply sched_moves (some_moves s _)
  intro s' b s1 hw h
  simp only [Option.some.injEq, Prod.mk.injEq] at h
  rw [← h.2]
  obtain ⟨u, hu, hlt⟩ := waitOrHibernate_happened hw
  exact .one (.biscuit i u hu hlt)

theorem pollCookie_moves (i : Bool) (s : Server) :
    ∀ c s2, pollCookie now r i s = some (c, s2) → Moves now r s s2 := by
  apply sched_moves (some_moves s _)
  intro s' b s1 hw h
  simp only [Option.some.injEq, Prod.mk.injEq] at h
  rw [← h.2]
  obtain ⟨u, hu, hlt⟩ := waitOrHibernate_happened hw
  exact .one (.cookie i u hu hlt)

/-- The state after a `poll`. -/
theorem poll_moves (s : Server) :
    ∀ c s2, s.poll now r = some (c, s2) →
      ∃ s1, Moves now r s s1 ∧ s2 = { s1 with pollOff := match c.peer with | some p => p + 1 | none => 0 } := by
  intro c s2 h
  unfold poll at h
  simp only [Option.map_eq_some_iff, Prod.mk.injEq] at h
  obtain ⟨⟨res, s1⟩, h1, rfl, rfl⟩ := h
  refine ⟨s1, ?_, rfl⟩
  revert h1
  apply pollChildren_moves
  · apply pollChildren_moves
    · apply pollChildren_moves (some_moves s _)
      intro f hf s'
      simp only [List.mem_cons, List.not_mem_nil, or_false] at hf
      rcases hf with rfl | rfl
      · exact pollBiscuit_moves _ s'
      · exact pollBiscuit_moves _ s'
    · intro f hf s'
      simp only [List.mem_cons, List.not_mem_nil, or_false] at hf
      rcases hf with rfl | rfl
      · exact pollCookie_moves _ s'
      · exact pollCookie_moves _ s'
  · intro f hf s'
    simp only [List.mem_map] at hf
    obtain ⟨p, _, rfl⟩ := hf
    exact pollPeer_moves p s'

/-- No action of `poll` touches the keys, the biscuit counter or the number of peers. -/
theorem Moves.fixed {s s' : Server} (h : Moves now r s s') :
    s'.sskm = s.sskm ∧ s'.spkm = s.spkm ∧ s'.biscuitCtr = s.biscuitCtr ∧ s'.knownKey = s.knownKey := by
  refine h.inv (P := fun t => t.sskm = s.sskm ∧ t.spkm = s.spkm ∧ t.biscuitCtr = s.biscuitCtr ∧ t.knownKey = s.knownKey)
    ?_ ⟨rfl, rfl, rfl, rfl⟩
  rintro a b hab ⟨h1, h2, h3, h4⟩
  have key : SameGlobals a b → b.sskm = s.sskm ∧ b.spkm = s.spkm ∧ b.biscuitCtr = s.biscuitCtr ∧ b.knownKey = s.knownKey :=
    fun g => ⟨g.sskm.trans h1, g.spkm.trans h2, g.biscuitCtr.trans h3, g.knownKey.trans h4⟩
  cases hab with
  | biscuit i t => exact ⟨h1, h2, h3, h4⟩
  | cookie i t => exact ⟨h1, h2, h3, h4⟩
  | hsTake p => exact key (hsTake_globals a p)
  | sessTake p => exact key (sessTake_globals a p)
  | initReq p => exact key (SameGlobals.modPeer _ _ _)
  | retry p => exact key (SameGlobals.modPeer _ _ _)
  | known p k _ hk hlt hr =>
    unfold knownRemove at hr
    rw [hk] at hr
    simp only at hr
    split at hr
    · cases hr
    · cases hr; exact ⟨h1, h2, h3, h4⟩

end Verif.Server
