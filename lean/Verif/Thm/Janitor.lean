import Verif.Model.Janitor
/-
C59: cleanup jobs are awaited.
-/
namespace Verif.Janitor

/-- a job that ended badly -/
def Job.failed : Job → Prop
  | .err => True
  | .panicked => True
  | _ => False

/-- the ticket, the receiving task or a watching task stands for job `j` -/
def Held (s : St) (j : Nat) : Prop := j ∈ s.queue ∨ s.recv = some (.got j) ∨ ∃ e, (⟨j, e⟩ : Watch) ∈ s.watch

/-- the invariant -/
structure Inv (s : St) : Prop where
  live : s.agent = none → ∀ j, j < s.jobs.length → s.jobs[j]? = some .ok ∨ Held s j
  done : s.agent = some .ok → s.callee = true ∧ ∀ j ∈ s.jobs, j = .ok
  failed : s.agent = some .jobFailed → ∃ j ∈ s.jobs, j.failed
  internal : s.agent ≠ some .internal
  tx : s.tx = !s.callee
  recvNone : s.agent = none → s.recv = none → s.flag = true
  closed : s.recv = some .closed ∨ s.flag = true → s.callee = true ∧ s.queue = []
  flag : s.flag = true → s.recv = none
  good : ∀ j, (⟨j, some true⟩ : Watch) ∈ s.watch → s.jobs[j]? = some .ok
  bad : ∀ j, (⟨j, some false⟩ : Watch) ∈ s.watch → ∃ x, s.jobs[j]? = some x ∧ x.failed
  range : ∀ j, Held s j → j < s.jobs.length
  gone : s.agent.isSome → s.queue = [] ∧ s.recv = none ∧ s.watch = []
  res : s.result = none ∨ s.result = s.agent ∧ s.callee = true

theorem inv_start : Inv St.start := by
  constructor <;> simp [St.start, Held]

theorem mem_eraseIdx {α : Type} {l : List α} {k : Nat} {x : α} (h : x ∈ l.eraseIdx k) : x ∈ l := List.eraseIdx_subset h

theorem inv_step {s s' : St} (e : Ev) (h : Inv s) (hs : s.step e = some s') : Inv s' := by
  have ⟨live, done, failed, internal, tx, recvNone, closed, flag, good, bad, range, gone, res⟩ := h
  cases e with
  | spawn c =>
    unfold St.step at hs
    dsimp only at hs
    split at hs
    · cases hs
    rename_i hc
    cases hs
    cases c with
    | task => exact h
    | callee =>
      have hcf : s.callee = false := by simpa using hc
      have htx : s.tx = true := by rw [tx, hcf]; rfl
      unfold St.trySpawn
      dsimp only
      rw [if_neg (by simp [htx])]
      have old : ∀ {j : Nat} {x : Job}, s.jobs[j]? = some x → (s.jobs ++ [Job.running])[j]? = some x := by
        intro j x hj
        rw [List.getElem?_append_left (List.getElem?_eq_some_iff.mp hj).1]; exact hj
      split
      · rename_i ha
        obtain ⟨g1, g2, g3⟩ := gone ha
        refine ⟨fun h => ?_, fun h => ?_, fun h => ?_, internal, tx, recvNone, closed, flag, fun j hj => ?_, fun j hj => ?_, fun j hj => ?_, gone, res⟩
        · dsimp only at h; rw [h] at ha; cases ha
        · have := (done h).1; rw [hcf] at this; cases this
        · obtain ⟨j, hj, hf⟩ := failed h; exact ⟨j, by simp [hj], hf⟩
        · dsimp only at hj; rw [g3] at hj; cases hj
        · dsimp only at hj; rw [g3] at hj; cases hj
        · dsimp only; have := range j hj; simp; omega
      · rename_i ha
        have hn : s.agent = none := by simpa using ha
        refine ⟨fun _ j hj => ?_, fun h => ?_, fun h => ?_, internal, tx, recvNone, fun h => ?_, flag, fun j hj => old (good j hj), fun j hj => ?_, fun j hj => ?_, fun h => absurd h ha, res⟩
        · dsimp only at hj ⊢
          by_cases hlt : j < s.jobs.length
          · rcases live hn j hlt with h1 | h1 | h1 | h1
            · exact .inl (old h1)
            · exact .inr (.inl (by simp [h1]))
            · exact .inr (.inr (.inl h1))
            · exact .inr (.inr (.inr h1))
          · have : j = s.jobs.length := by simp at hj; omega
            subst this
            exact .inr (.inl (by simp))
        · dsimp only at h; rw [hn] at h; cases h
        · dsimp only at h; rw [hn] at h; cases h
        · have := (closed h).1; rw [hcf] at this; cases this
        · obtain ⟨x, h1, h2⟩ := bad j hj; exact ⟨x, old h1, h2⟩
        · dsimp only
          rcases hj with hj | hj | hj
          · dsimp only at hj
            rcases List.mem_append.mp hj with hj | hj
            · have := range j (.inl hj); simp; omega
            · simp at hj; simp [hj]
          · have := range j (.inr (.inl hj)); simp; omega
          · have := range j (.inr (.inr hj)); simp; omega
  | jobEnds j how =>
    unfold St.step at hs
    dsimp only at hs
    split at hs
    rotate_left
    · cases hs
    rename_i hc
    cases hs
    have keep : ∀ {i : Nat} {x : Job}, s.jobs[i]? = some x → x ≠ .running → (s.jobs.set j how)[i]? = some x := by
      intro i x hi hx
      rw [List.getElem?_set_ne (by rintro rfl; rw [hc.1] at hi; cases hi; exact hx rfl)]; exact hi
    refine ⟨fun hn i hi => ?_, fun h => ?_, fun h => ?_, internal, tx, recvNone, closed, flag, fun i hi => keep (good i hi) (by simp), fun i hi => ?_, fun i hi => ?_, gone, res⟩
    · dsimp only at hi ⊢
      rw [List.length_set] at hi
      rcases live hn i hi with h1 | h1
      · exact .inl (keep h1 (by simp))
      · exact .inr h1
    · obtain ⟨h1, h2⟩ := done h
      have := h2 _ (List.mem_of_getElem? hc.1)
      cases this
    · obtain ⟨x, hx, hf⟩ := failed h
      obtain ⟨i, hi⟩ := List.mem_iff_getElem?.mp hx
      exact ⟨x, List.mem_of_getElem? (keep hi (by rintro rfl; exact hf)), hf⟩
    · obtain ⟨x, h1, h2⟩ := bad i hi
      exact ⟨x, keep h1 (by rintro rfl; exact h2), h2⟩
    · dsimp only; rw [List.length_set]; exact range i hi
  | recvRuns =>
    unfold St.step at hs
    dsimp only at hs
    split at hs
    rotate_left
    · cases hs
    rename_i hw
    have hnf : s.flag ≠ true := by intro hf; rw [flag hf] at hw; cases hw
    have hna : s.agent = none := by
      cases ha : s.agent with
      | none => rfl
      | some x => have := (gone (by rw [ha]; rfl)).2.1; rw [hw] at this; cases this
    split at hs
    · rename_i j q hq
      cases hs
      refine ⟨fun hn i hi => ?_, done, failed, internal, tx, fun _ h => (by cases h), fun h => ?_, fun h => absurd h hnf, good, bad, fun i hi => ?_, fun h => (by dsimp only at h; rw [hna] at h; cases h), res⟩
      · rcases live hn i hi with h1 | h1 | h1 | h1
        · exact .inl h1
        · rw [hq] at h1
          rcases List.mem_cons.mp h1 with rfl | h1
          · exact .inr (.inr (.inl rfl))
          · exact .inr (.inl h1)
        · rw [hw] at h1; cases h1
        · exact .inr (.inr (.inr h1))
      · rcases h with h | h
        · cases h
        · exact absurd h hnf
      · rcases hi with hi | hi | hi
        · exact range i (.inl (by rw [hq]; exact List.mem_cons_of_mem _ hi))
        · dsimp only at hi; cases hi; exact range _ (.inl (by rw [hq]; simp))
        · exact range i (.inr (.inr hi))
    · rename_i hq
      split at hs
      · cases hs
      · rename_i htx
        cases hs
        refine ⟨fun hn i hi => ?_, done, failed, internal, tx, fun _ h => (by cases h), fun h => ⟨?_, hq⟩, fun h => absurd h hnf, good, bad, fun i hi => ?_, fun h => (by dsimp only at h; rw [hna] at h; cases h), res⟩
        · rcases live hn i hi with h1 | h1 | h1 | h1
          · exact .inl h1
          · exact .inr (.inl h1)
          · rw [hw] at h1; cases h1
          · exact .inr (.inr (.inr h1))
        · dsimp only
          rw [tx] at htx
          simpa using htx
        · rcases hi with hi | hi | hi
          · exact range i (.inl hi)
          · dsimp only at hi; cases hi
          · exact range i (.inr (.inr hi))
  | watchRuns k =>
    unfold St.step at hs
    dsimp only at hs
    split at hs
    rotate_left
    · cases hs
    rename_i j hk
    have hlt := (List.getElem?_eq_some_iff.mp hk).1
    have main : ∀ b : Bool, (b = true → s.jobs[j]? = some .ok) → (b = false → ∃ x, s.jobs[j]? = some x ∧ x.failed) → Inv { s with watch := s.watch.set k ⟨j, some b⟩ } := by
      intro b hb1 hb2
      have back : ∀ {w : Watch}, w ∈ s.watch.set k ⟨j, some b⟩ → w = ⟨j, some b⟩ ∨ w ∈ s.watch := by
        intro w hw
        rcases List.mem_or_eq_of_mem_set hw with h | h
        · exact .inr h
        · exact .inl h
      have fwd : ∀ i, (∃ e, (⟨i, e⟩ : Watch) ∈ s.watch) → ∃ e, (⟨i, e⟩ : Watch) ∈ s.watch.set k ⟨j, some b⟩ := by
        rintro i ⟨e, he⟩
        obtain ⟨n, hn⟩ := List.mem_iff_getElem?.mp he
        by_cases hnk : k = n
        · subst hnk
          rw [hk] at hn; cases hn
          exact ⟨some b, List.mem_of_getElem? (i := k) (by rw [List.getElem?_set_self hlt])⟩
        · exact ⟨e, List.mem_of_getElem? (i := n) (by rw [List.getElem?_set_ne hnk]; exact hn)⟩
      refine ⟨fun hn i hi => ?_, done, failed, internal, tx, recvNone, closed, flag, fun i hi => ?_, fun i hi => ?_, fun i hi => ?_, fun h => ?_, res⟩
      · rcases live hn i hi with h1 | h1 | h1 | h1
        · exact .inl h1
        · exact .inr (.inl h1)
        · exact .inr (.inr (.inl h1))
        · exact .inr (.inr (.inr (fwd i h1)))
      · rcases back hi with h | h
        · cases h; exact hb1 rfl
        · exact good i h
      · rcases back hi with h | h
        · cases h; exact hb2 rfl
        · exact bad i h
      · rcases hi with hi | hi | ⟨e, hi⟩
        · exact range i (.inl hi)
        · exact range i (.inr (.inl hi))
        · rcases back hi with h | h
          · cases h; exact range _ (.inr (.inr ⟨none, List.mem_of_getElem? hk⟩))
          · exact range i (.inr (.inr ⟨e, h⟩))
      · have := gone h
        rw [this.2.2] at hlt; simp at hlt
    split at hs
    · rename_i hj; cases hs; exact main true (fun _ => hj) (by intro h; cases h)
    · rename_i hj; cases hs; exact main false (by intro h; cases h) (fun _ => ⟨_, hj, trivial⟩)
    · rename_i hj; cases hs; exact main false (by intro h; cases h) (fun _ => ⟨_, hj, trivial⟩)
    · cases hs
  | joinRecv =>
    unfold St.step at hs
    dsimp only at hs
    split at hs
    · cases hs
    rename_i ha
    have hna : s.agent = none := by simpa using ha
    split at hs
    · rename_i j hr
      cases hs
      have hnf : s.flag ≠ true := by intro hf; rw [flag hf] at hr; cases hr
      refine ⟨fun hn i hi => ?_, done, failed, internal, tx, fun _ h => (by cases h), fun h => ?_, fun h => absurd h hnf, fun i hi => ?_, fun i hi => ?_, fun i hi => ?_, fun h => absurd h ha, res⟩
      · rcases live hn i hi with h1 | h1 | h1 | ⟨e, h1⟩
        · exact .inl h1
        · exact .inr (.inl h1)
        · rw [hr] at h1; cases h1; exact .inr (.inr (.inr ⟨none, by simp⟩))
        · exact .inr (.inr (.inr ⟨e, by simp [h1]⟩))
      · rcases h with h | h
        · cases h
        · exact absurd h hnf
      · dsimp only at hi; exact good i (by simpa using hi)
      · dsimp only at hi; exact bad i (by simpa using hi)
      · rcases hi with hi | hi | ⟨e, hi⟩
        · exact range i (.inl hi)
        · cases hi
        · dsimp only at hi
          rcases List.mem_append.mp hi with hi | hi
          · exact range i (.inr (.inr ⟨e, hi⟩))
          · simp at hi; obtain ⟨rfl, rfl⟩ := hi; exact range _ (.inr (.inl hr))
    · rename_i hr
      cases hs
      have hcl := closed (.inl hr)
      refine ⟨fun hn i hi => ?_, done, failed, internal, tx, fun _ _ => rfl, fun _ => hcl, fun _ => rfl, good, bad, fun i hi => ?_, fun h => absurd h ha, res⟩
      · rcases live hn i hi with h1 | h1 | h1 | h1
        · exact .inl h1
        · exact .inr (.inl h1)
        · rw [hr] at h1; cases h1
        · exact .inr (.inr (.inr h1))
      · rcases hi with hi | hi | hi
        · exact range i (.inl hi)
        · cases hi
        · exact range i (.inr (.inr hi))
    · cases hs
  | joinWatch k =>
    unfold St.step at hs
    dsimp only at hs
    split at hs
    · cases hs
    rename_i ha
    have hna : s.agent = none := by simpa using ha
    split at hs
    · rename_i j hk
      cases hs
      refine ⟨fun hn i hi => ?_, done, failed, internal, tx, recvNone, closed, flag, fun i hi => good i (mem_eraseIdx hi), fun i hi => bad i (mem_eraseIdx hi), fun i hi => ?_, fun h => absurd h ha, res⟩
      · rcases live hn i hi with h1 | h1 | h1 | ⟨e, h1⟩
        · exact .inl h1
        · exact .inr (.inl h1)
        · exact .inr (.inr (.inl h1))
        · by_cases hij : i = j
          · subst hij; exact .inl (good _ (List.mem_of_getElem? hk))
          · refine .inr (.inr (.inr ⟨e, ?_⟩))
            dsimp only
            rw [List.mem_eraseIdx_iff_getElem?]
            obtain ⟨n, hn'⟩ := List.mem_iff_getElem?.mp h1
            exact ⟨n, by rintro rfl; rw [hk] at hn'; cases hn'; exact hij rfl, hn'⟩
      · rcases hi with hi | hi | ⟨e, hi⟩
        · exact range i (.inl hi)
        · exact range i (.inr (.inl hi))
        · exact range i (.inr (.inr ⟨e, mem_eraseIdx hi⟩))
    · rename_i j hk
      cases hs
      obtain ⟨x, hx, hf⟩ := bad j (List.mem_of_getElem? hk)
      have hempty : ∀ i, ¬ Held (s.agentEnds .jobFailed) i := by
        rintro i (h | h | ⟨e, h⟩)
        · cases h
        · cases h
        · cases h
      refine ⟨fun h => (by cases h), fun h => (by cases h), fun _ => ⟨x, List.mem_of_getElem? hx, hf⟩, (by intro h; cases h), tx, fun h => (by cases h), fun h => ?_, fun _ => rfl,
        fun i hi => (by cases hi), fun i hi => (by cases hi), fun i hi => absurd hi (hempty i), fun _ => ⟨rfl, rfl, rfl⟩, ?_⟩
      · rcases h with h | h
        · cases h
        · exact ⟨(closed (.inr h)).1, rfl⟩
      · rcases res with h | ⟨h, -⟩
        · exact .inl h
        · rw [hna] at h; exact .inl h
    · cases hs
  | joinNone =>
    unfold St.step at hs
    dsimp only at hs
    split at hs
    · cases hs
    rename_i ha
    have hna : s.agent = none := by simpa using ha
    split at hs
    rotate_left
    · cases hs
    rename_i hc
    cases hs
    have hfl := recvNone hna hc.1
    rw [if_pos hfl]
    obtain ⟨hcal, hq⟩ := closed (.inr hfl)
    have hempty : ∀ i, ¬ Held (s.agentEnds .ok) i := by
      rintro i (h | h | ⟨e, h⟩)
      · cases h
      · cases h
      · cases h
    refine ⟨fun h => (by cases h), fun _ => ⟨hcal, fun j hj => ?_⟩, fun h => (by cases h), (by intro h; cases h), tx, fun h => (by cases h), fun h => ⟨hcal, rfl⟩, fun _ => rfl,
      fun i hi => (by cases hi), fun i hi => (by cases hi), fun i hi => absurd hi (hempty i), fun _ => ⟨rfl, rfl, rfl⟩, ?_⟩
    · obtain ⟨i, hi⟩ := List.mem_iff_getElem?.mp hj
      rcases live hna i (List.getElem?_eq_some_iff.mp hi).1 with h1 | h1 | h1 | ⟨e, h1⟩
      · have hi' : s.jobs[i]? = some j := hi
        rw [h1] at hi'; cases hi'; rfl
      · rw [hq] at h1; cases h1
      · rw [hc.1] at h1; cases h1
      · rw [hc.2] at h1; cases h1
    · rcases res with h | ⟨h, -⟩
      · exact .inl h
      · rw [hna] at h; exact .inl h
  | calleeEnds =>
    unfold St.step at hs
    dsimp only at hs
    split at hs
    · cases hs
    cases hs
    refine ⟨live, fun h => ⟨rfl, (done h).2⟩, failed, internal, rfl, recvNone, fun h => ⟨rfl, (closed h).2⟩, flag, good, bad, range, gone, ?_⟩
    rcases res with h | ⟨h, -⟩
    · exact .inl h
    · exact .inr ⟨h, rfl⟩
  | returns =>
    unfold St.step at hs
    dsimp only at hs
    split at hs
    rotate_left
    · cases hs
    rename_i hc
    split at hs
    rotate_left
    · cases hs
    rename_i x ha
    cases hs
    exact ⟨live, done, failed, internal, tx, recvNone, closed, flag, good, bad, range, gone, .inr ⟨ha.symm, hc.1⟩⟩

theorem inv {s : St} (h : Reachable s) : Inv s := by
  induction h with
  | start => exact inv_start
  | step s s' e _ hs ih => exact inv_step e ih hs

/-- **C59** (what holds). Whatever the order in which tasks run: when a scope returns with success of the janitor, the callee and
every job submitted in it have finished, and all jobs were successful; when it returns with an error of the janitor, some job returned an error or
panicked; there are no internal errors; and as long as no job has failed, no submission by the callee is refused. -/
theorem jobs_awaited_partial {s : St} (h : Reachable s) :
    (s.result = some .ok → s.callee = true ∧ ∀ j ∈ s.jobs, j = .ok) ∧
    (s.result = some .jobFailed → s.callee = true ∧ ∃ j ∈ s.jobs, j.failed) ∧
    s.result ≠ some .internal ∧
    (s.callee = false → (∀ j ∈ s.jobs, ¬ j.failed) → (s.trySpawn .callee).1 = .ok ()) := by
  have i := inv h
  refine ⟨fun hr => ?_, fun hr => ?_, fun hr => ?_, fun hc hf => ?_⟩
  · rcases i.res with h1 | ⟨h1, h2⟩
    · rw [h1] at hr; cases hr
    · exact i.done (h1 ▸ hr)
  · rcases i.res with h1 | ⟨h1, h2⟩
    · rw [h1] at hr; cases hr
    · exact ⟨h2, i.failed (h1 ▸ hr)⟩
  · rcases i.res with h1 | ⟨h1, h2⟩
    · rw [h1] at hr; cases hr
    · exact i.internal (h1 ▸ hr)
  · unfold St.trySpawn
    dsimp only
    rw [i.tx, hc]
    rw [if_neg (by simp)]
    cases ha : s.agent with
    | none => rfl
    | some e =>
      cases e with
      | ok => have := (i.done ha).1; rw [hc] at this; cases this
      | jobFailed => obtain ⟨j, hj, hfj⟩ := i.failed ha; exact absurd hfj (hf j hj)
      | internal => exact absurd ha i.internal

/-! ### The scope returns -/

/-- how much is left to do -/
def St.work (s : St) : Nat :=
  (s.jobs.filter (· = .running)).length + 5 * s.queue.length +
  (match s.recv with | none => 0 | some .closed => 1 | some .waiting => 2 | some (.got _) => 5) +
  (s.watch.map fun w => if w.event.isSome then 1 else 2).sum + (if s.agent.isSome then 0 else 1) + (if s.result.isSome then 0 else 1)

theorem filter_set {l : List Job} {j : Nat} {x : Job} (h : l[j]? = some .running) (hx : x ≠ .running) :
    ((l.set j x).filter (· = .running)).length + 1 = (l.filter (· = .running)).length := by
  induction l generalizing j with
  | nil => simp at h
  | cons a l ih =>
    cases j with
    | zero =>
      simp at h
      subst h
      simp [hx]
    | succ j =>
      simp at h
      have := ih h
      rw [List.set_cons_succ, List.filter_cons, List.filter_cons]
      split
      · rw [List.length_cons, List.length_cons]; omega
      · exact this

theorem sum_set {l : List Watch} {k : Nat} {w w' : Watch} (f : Watch → Nat) (h : l[k]? = some w) : ((l.set k w').map f).sum + f w = (l.map f).sum + f w' := by
  induction l generalizing k with
  | nil => simp at h
  | cons a l ih =>
    cases k with
    | zero => simp at h; subst h; simp only [List.set_cons_zero, List.eraseIdx_zero, List.tail_cons, List.map_cons, List.sum_cons]; omega
    | succ k =>
      simp at h
      have := ih h
      simp only [List.set_cons_succ, List.map_cons, List.sum_cons]; omega

theorem sum_erase {l : List Watch} {k : Nat} {w : Watch} (f : Watch → Nat) (h : l[k]? = some w) : ((l.eraseIdx k).map f).sum + f w = (l.map f).sum := by
  induction l generalizing k with
  | nil => simp at h
  | cons a l ih =>
    cases k with
    | zero => simp at h; subst h; simp only [List.set_cons_zero, List.eraseIdx_zero, List.tail_cons, List.map_cons, List.sum_cons]; omega
    | succ k =>
      simp at h
      have := ih h
      simp; omega

/-- every step after the callee's end brings the scope nearer to its end -/
theorem work_decreases {s s' : St} {e : Ev} (h : Inv s) (hc : s.callee = true) (hs : s.step e = some s') : s'.work < s.work ∧ s'.callee = true := by
  unfold St.work
  cases e with
  | spawn c => unfold St.step at hs; simp [hc] at hs
  | calleeEnds => unfold St.step at hs; simp [hc] at hs
  | jobEnds j how =>
    unfold St.step at hs
    dsimp only at hs
    split at hs
    · rename_i h1
      cases hs
      have := filter_set h1.1 h1.2
      refine ⟨?_, hc⟩
      dsimp only; omega
    · cases hs
  | recvRuns =>
    unfold St.step at hs
    dsimp only at hs
    split at hs
    rotate_left
    · cases hs
    rename_i hw
    split at hs
    · rename_i j q hq
      cases hs
      refine ⟨?_, hc⟩
      dsimp only; rw [hq, hw, List.length_cons]; dsimp only; omega
    · split at hs
      · cases hs
      · cases hs
        refine ⟨?_, hc⟩
        dsimp only; rw [hw]; dsimp only; omega
  | watchRuns k =>
    unfold St.step at hs
    dsimp only at hs
    split at hs
    rotate_left
    · cases hs
    rename_i j hk
    have hsum : ∀ b, ((s.watch.set k ⟨j, some b⟩).map fun w => if w.event.isSome then 1 else 2).sum + 2 = (s.watch.map fun w => if w.event.isSome then 1 else 2).sum + 1 := by
      intro b
      have := sum_set (w' := ⟨j, some b⟩) (fun w => if w.event.isSome then 1 else 2) hk
      simpa using this
    split at hs
    · cases hs; refine ⟨?_, hc⟩; dsimp only; have := hsum true; omega
    · cases hs; refine ⟨?_, hc⟩; dsimp only; have := hsum false; omega
    · cases hs; refine ⟨?_, hc⟩; dsimp only; have := hsum false; omega
    · cases hs
  | joinRecv =>
    unfold St.step at hs
    dsimp only at hs
    split at hs
    · cases hs
    split at hs
    · rename_i j hr
      cases hs
      refine ⟨?_, hc⟩
      dsimp only
      rw [hr]
      simp only [List.map_append, List.map_cons, List.map_nil, List.sum_append, List.sum_cons, List.sum_nil, Option.isSome_none]
      simp only [Bool.false_eq_true, if_false]
      omega
    · rename_i hr
      cases hs
      refine ⟨?_, hc⟩
      dsimp only
      rw [hr]; dsimp only; omega
    · cases hs
  | joinWatch k =>
    unfold St.step at hs
    dsimp only at hs
    split at hs
    · cases hs
    rename_i ha
    split at hs
    · rename_i j hk
      cases hs
      have := sum_erase (fun w => if w.event.isSome then 1 else 2) hk
      refine ⟨?_, hc⟩
      dsimp only at this ⊢
      simp only [Option.isSome_some, if_true] at this
      omega
    · rename_i j hk
      cases hs
      refine ⟨?_, hc⟩
      unfold St.agentEnds
      dsimp only
      rw [if_neg ha, if_pos (by rfl)]
      simp
      omega
    · cases hs
  | joinNone =>
    unfold St.step at hs
    dsimp only at hs
    split at hs
    · cases hs
    rename_i ha
    split at hs
    · cases hs
      refine ⟨?_, hc⟩
      unfold St.agentEnds
      dsimp only
      rw [if_neg ha, if_pos (by rfl)]
      simp
      omega
    · cases hs
  | returns =>
    unfold St.step at hs
    dsimp only at hs
    split at hs
    · rename_i h1
      split at hs
      · cases hs
        refine ⟨?_, hc⟩
        dsimp only
        rw [h1.2]
        simp
      · cases hs
    · cases hs

/-- steps one after the other -/
inductive Steps : St → List Ev → St → Prop
  | nil (s) : Steps s [] s
  | cons {s t u e es} : s.step e = some t → Steps t es u → Steps s (e :: es) u

theorem steps_reachable {s t : St} {es : List Ev} (h : Reachable s) (hs : Steps s es t) : Reachable t := by
  induction hs with
  | nil => exact h
  | cons h1 _ ih => exact ih (.step _ _ _ h h1)

/-- **C59.** After the callee has finished, the scope is done after a number of steps that is bounded in advance, whatever the
order of the steps; and as long as it has not returned, something can happen, unless a job is still running by itself: so a scope
returns once its jobs have ended. -/
theorem scope_returns {s : St} (h : Reachable s) (hc : s.callee = true) :
    (∀ es t, Steps s es t → es.length ≤ s.work) ∧
    (s.result = none → (∀ j ∈ s.jobs, j ≠ .running) → ∃ e t, s.step e = some t) := by
  constructor
  · intro es
    induction es generalizing s with
    | nil => intro t _; simp
    | cons e es ih =>
      intro t ht
      cases ht with
      | cons h1 h2 =>
        obtain ⟨w, hc'⟩ := work_decreases (inv h) hc h1
        have := ih (.step _ _ _ h h1) hc' t h2
        simp; omega
  · intro hr hj
    have i := inv h
    cases ha : s.agent with
    | some x => exact ⟨.returns, { s with result := some x }, by unfold St.step; dsimp only; rw [if_pos ⟨hc, hr⟩, ha]⟩
    | none =>
      rcases hrec : s.recv with _ | (_ | j | _)
      · cases hw : s.watch with
        | nil => exact ⟨.joinNone, _, by unfold St.step; dsimp only; rw [ha, if_neg (by simp), if_pos ⟨hrec, hw⟩]⟩
        | cons w ws =>
          obtain ⟨j, ev⟩ := w
          rcases ev with _ | (_ | _)
          · have hlt := i.range j (.inr (.inr ⟨none, by rw [hw]; simp⟩))
            obtain ⟨x, hx⟩ : ∃ x, s.jobs[j]? = some x := ⟨_, List.getElem?_eq_getElem hlt⟩
            have hnr := hj x (List.mem_of_getElem? hx)
            cases x with
            | running => exact absurd rfl hnr
            | ok => exact ⟨.watchRuns 0, _, by unfold St.step; dsimp only; rw [hw]; dsimp only [List.getElem?_cons_zero]; rw [hx]⟩
            | err => exact ⟨.watchRuns 0, _, by unfold St.step; dsimp only; rw [hw]; dsimp only [List.getElem?_cons_zero]; rw [hx]⟩
            | panicked => exact ⟨.watchRuns 0, _, by unfold St.step; dsimp only; rw [hw]; dsimp only [List.getElem?_cons_zero]; rw [hx]⟩
          · exact ⟨.joinWatch 0, _, by unfold St.step; dsimp only; rw [ha, if_neg (by simp), hw, List.getElem?_cons_zero]⟩
          · exact ⟨.joinWatch 0, _, by unfold St.step; dsimp only; rw [ha, if_neg (by simp), hw, List.getElem?_cons_zero]⟩
      · cases hq : s.queue with
        | nil => exact ⟨.recvRuns, { s with recv := some .closed }, by unfold St.step; dsimp only; rw [if_pos hrec, hq]; dsimp only; rw [i.tx, hc, if_neg (by simp)]⟩
        | cons j q => exact ⟨.recvRuns, { s with queue := q, recv := some (.got j) }, by unfold St.step; dsimp only; rw [if_pos hrec, hq]⟩
      · exact ⟨.joinRecv, _, by unfold St.step; dsimp only; rw [ha, if_neg (by simp), hrec]⟩
      · exact ⟨.joinRecv, _, by unfold St.step; dsimp only; rw [ha, if_neg (by simp), hrec]⟩

/-! ### What does not hold -/

/-- **C59, false of the code.** A cleanup job cannot submit further jobs: the call is always refused, and the job it was to start
never runs. -/
theorem jobs_cannot_spawn_jobs (s : St) : s.trySpawn .task = (.error .noActiveJanitor, s) := rfl

/-- run the events given -/
def St.run (s : St) : List Ev → Option St
  | [] => some s
  | e :: es => match s.step e with | none => none | some t => t.run es

theorem run_reachable {s t : St} {es : List Ev} (h : Reachable s) (hr : s.run es = some t) : Reachable t := by
  induction es generalizing s with
  | nil => cases hr; exact h
  | cons e es ih =>
    unfold St.run at hr
    split at hr
    · cases hr
    · rename_i u hu
      exact ih (.step _ _ _ h hu) hr

/-- a scope with two jobs, the first of which fails -/
def Demo.events : List Ev :=
  [.spawn .callee, .spawn .callee, .recvRuns, .joinRecv, .jobEnds 0 .err, .watchRuns 0, .joinWatch 0, .spawn .callee, .calleeEnds, .returns]

/-- **C59, false of the code.** After a job has failed, the scope returns although another job is still running, and so does a job
that was refused: it had been started before it was refused. -/
theorem failed_job_ends_scope : ∃ s, Reachable s ∧ s.result = some .jobFailed ∧ s.jobs = [.err, .running, .running] ∧
    ∃ t, Reachable t ∧ t.jobs = [.err, .running] ∧ (t.trySpawn .callee).1 = .error .terminating ∧ (t.trySpawn .callee).2.jobs = [.err, .running, .running] := by
  refine ⟨⟨[.err, .running, .running], [], false, none, [], false, some .jobFailed, true, some .jobFailed⟩, run_reachable (es := Demo.events) .start (by decide), rfl, rfl,
    ⟨[.err, .running], [], true, none, [], false, some .jobFailed, false, none⟩, run_reachable (es := Demo.events.take 7) .start (by decide), rfl, rfl, rfl⟩

/-- **C59, false of the code.** `has_active_janitor` does not say whether there is a janitor: inside a scope it is true exactly
when the janitor has given up, and it is false while one is at work. -/
theorem has_active_janitor_inverted {s : St} (h : Reachable s) (hc : s.callee = false) :
    (s.hasActiveJanitor .callee = true ↔ (s.trySpawn .callee).1 ≠ .ok ()) ∧ s.hasActiveJanitor .task = false := by
  refine ⟨?_, rfl⟩
  have htx : s.tx = true := by rw [(inv h).tx, hc]; rfl
  unfold St.hasActiveJanitor St.trySpawn
  dsimp only
  rw [if_pos htx, if_neg (by simp [htx])]
  cases s.agent with
  | none => simp
  | some x => simp

/-! ### The hypotheses are met -/

/-- three jobs, the scope returns after all of them -/
def Demo.good : List Ev :=
  [.spawn .callee, .recvRuns, .spawn .callee, .joinRecv, .jobEnds 1 .ok, .recvRuns, .spawn .callee, .calleeEnds, .joinRecv, .watchRuns 1, .joinWatch 1,
    .recvRuns, .joinRecv, .recvRuns, .joinRecv, .jobEnds 0 .ok, .watchRuns 0, .jobEnds 2 .ok, .joinWatch 0, .watchRuns 0, .joinWatch 0, .joinNone, .returns]
example : ∃ s, Reachable s ∧ s.result = some .ok ∧ s.jobs = [.ok, .ok, .ok] :=
  ⟨⟨[.ok, .ok, .ok], [], false, none, [], true, some .ok, true, some .ok⟩, run_reachable (es := Demo.good) .start (by decide), rfl, rfl⟩
example : ∃ s, Reachable s ∧ s.callee = true ∧ s.result = none ∧ s.jobs = [.running, .ok, .running] ∧ s.work = 16 :=
  ⟨⟨[.running, .ok, .running], [2], false, some (.got 1), [⟨0, none⟩], false, none, true, none⟩ , run_reachable (es := Demo.good.take 8) .start (by decide), rfl, rfl, rfl, by decide⟩

end Verif.Janitor
