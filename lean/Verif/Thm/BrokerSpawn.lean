import Verif.Model.BrokerSpawn
/-
C128: do the broker processes end with the daemon that started them?
-/
namespace Verif.BrokerSpawn

/-- **Specification.** The other side of file `f` reads end-of-file: no process has a descriptor for it. -/
def Ended (s : Sys) (f : Nat) : Prop := ∀ p n d, s.tab p n = some d → d.file ≠ f

/-- The daemon about to start the broker: it runs, the handler and the privileged broker do not; the numbers `a` and `b` for the socket pair are free; the standard
streams are open and so is number 3 (the lowest number that was free when the daemon created its `mio::Poll`, before). -/
structure Start (s : Sys) (a b : Nat) : Prop where
  runs : s.alive 0 = true
  notYet : s.alive 1 = false ∧ s.alive 2 = false
  files : ∀ p n d, s.tab p n = some d → d.file < s.next
  dead : ∀ p, s.alive p = false → ∀ n, s.tab p n = none
  freeA : s.tab 0 a = none
  freeB : s.tab 0 b = none
  ne : a ≠ b
  used : ∀ n, n ≤ 3 → s.tab 0 n ≠ none

theorem Start.above {s : Sys} {a b : Nat} (h : Start s a b) : 3 < a ∧ 3 < b := by
  refine ⟨Classical.byContradiction fun g => h.used a (by omega) h.freeA, Classical.byContradiction fun g => h.used b (by omega) h.freeB⟩

/-- **C128** (the connection). The handler has the other end of the stream under number 3; the daemon has its end, and not the other one. -/
theorem handler_connected {s : Sys} {a b : Nat} (h : Start s a b) (flag : Bool) :
    (s.spawnBroker flag a b).tab 1 3 = some ⟨s.next + 1, false, false⟩ ∧ (s.spawnBroker flag a b).tab 0 a = some ⟨s.next, flag, true⟩ ∧
    (s.spawnBroker flag a b).tab 0 b = none := by
  obtain ⟨ha, hb⟩ := h.above
  refine ⟨?_, ?_, ?_⟩
  · simp [Sys.spawnBroker, Tab.exec, Tab.mapFd, Tab.set]
  · simp [Sys.spawnBroker, Tab.set, h.ne]
  · simp [Sys.spawnBroker, Tab.set]

/-- induction over a run -/
theorem run_inv {P : Sys → Prop} (hs : ∀ s e s', P s → s.step e = some s' → P s') : ∀ {es : List Ev} {s s' : Sys}, P s → s.run es = some s' → P s'
  | [], s, s', h, hr => by cases hr; exact h
  | e :: es, s, s', h, hr => by
    unfold Sys.run at hr
    split at hr
    · cases hr
    · rename_i s1 h1
      exact run_inv hs (hs _ _ _ h h1) hr

/-! ### The leak -/

/-- the handler and the privileged broker, if they run, have the daemon's end, and do not know it -/
structure Leak (s : Sys) (a f : Nat) : Prop where
  handler : s.alive 1 = true → s.tab 1 a = some ⟨f, false, false⟩
  privileged : s.alive 2 = true → s.tab 2 a = some ⟨f, false, false⟩

theorem leak_step {a f : Nat} (ha : 3 < a) (s : Sys) (e : Ev) (s' : Sys) (h : Leak s a f) (hs : s.step e = some s') : Leak s' a f := by
  obtain ⟨h1, h2⟩ := h
  cases e with
  | opens p n =>
    simp only [Sys.step] at hs
    split at hs
    · rename_i hc
      simp only [Bool.and_eq_true, Sys.free, Option.isNone_iff_eq_none] at hc
      cases hs
      constructor
      · intro hl
        have hl : s.alive 1 = true := hl
        simp only [Sys.upd]
        split
        · rename_i g; subst g
          simp only [Tab.set]
          rw [if_neg (by rintro rfl; rw [h1 hl] at hc; cases hc.2)]; exact h1 hl
        · exact h1 hl
      · intro hl
        have hl : s.alive 2 = true := hl
        simp only [Sys.upd]
        split
        · rename_i g; subst g
          simp only [Tab.set]
          rw [if_neg (by rintro rfl; rw [h2 hl] at hc; cases hc.2)]; exact h2 hl
        · exact h2 hl
    · cases hs
  | dup p n m =>
    simp only [Sys.step] at hs
    split at hs
    · cases hs
    · rename_i d hd
      split at hs
      · rename_i hc
        simp only [Bool.and_eq_true, Sys.free, Option.isNone_iff_eq_none] at hc
        cases hs
        constructor
        · intro hl
          have hl : s.alive 1 = true := hl
          simp only [Sys.upd]
          split
          · rename_i g; subst g
            simp only [Tab.set]
            rw [if_neg (by rintro rfl; rw [h1 hl] at hc; cases hc.2)]; exact h1 hl
          · exact h1 hl
        · intro hl
          have hl : s.alive 2 = true := hl
          simp only [Sys.upd]
          split
          · rename_i g; subst g
            simp only [Tab.set]
            rw [if_neg (by rintro rfl; rw [h2 hl] at hc; cases hc.2)]; exact h2 hl
          · exact h2 hl
      · cases hs
  | closes p n =>
    simp only [Sys.step] at hs
    split at hs
    · cases hs
    · rename_i d hd
      split at hs
      · rename_i hc
        simp only [Bool.and_eq_true] at hc
        cases hs
        constructor
        · intro hl
          have hl : s.alive 1 = true := hl
          simp only [Sys.upd]
          split
          · rename_i g; subst g
            simp only [Tab.set]
            rw [if_neg (by rintro rfl; rw [h1 hl] at hd; cases hd; cases hc.2)]; exact h1 hl
          · exact h1 hl
        · intro hl
          have hl : s.alive 2 = true := hl
          simp only [Sys.upd]
          split
          · rename_i g; subst g
            simp only [Tab.set]
            rw [if_neg (by rintro rfl; rw [h2 hl] at hd; cases hd; cases hc.2)]; exact h2 hl
          · exact h2 hl
      · cases hs
  | claim p n m =>
    simp only [Sys.step] at hs
    split at hs
    · cases hs
    · rename_i d hd
      split at hs
      · rename_i hc
        simp only [Bool.and_eq_true, Sys.free, Option.isNone_iff_eq_none, Bool.or_eq_true, bne_iff_ne, beq_iff_eq] at hc
        cases hs
        constructor
        · intro hl
          have hl : s.alive 1 = true := hl
          simp only [Sys.upd]
          split
          · rename_i g; subst g
            have hn : n = 3 := by rcases hc.1.2 with g | g; exact absurd rfl g; exact g
            simp only [Tab.set]
            rw [if_neg (by omega), if_neg (by rintro rfl; rw [h1 hl] at hc; cases hc.1.1.2)]; exact h1 hl
          · exact h1 hl
        · intro hl
          have hl : s.alive 2 = true := hl
          simp only [Sys.upd]
          rw [if_neg (Ne.symm hc.2)]
          exact h2 hl
      · cases hs
  | launch i o =>
    simp only [Sys.step] at hs
    split at hs
    · rename_i hc
      simp only [Bool.and_eq_true, Sys.free, Option.isNone_iff_eq_none] at hc
      obtain ⟨⟨⟨⟨⟨c1, c2⟩, c3⟩, c4⟩, c5⟩, c6⟩ := hc
      cases hs
      have g := h1 c1
      constructor
      · intro _
        simp only [Tab.set, if_true]
        rw [if_neg (by rintro rfl; rw [g] at c5; cases c5), if_neg (by rintro rfl; rw [g] at c4; cases c4)]; exact g
      · intro _
        show (((s.tab 1).set 0 _).set 1 _).exec a = _
        simp only [Tab.exec, Tab.set]
        rw [if_neg (by omega), if_neg (by omega), g]
        rfl
    · cases hs
  | child p c =>
    simp only [Sys.step] at hs
    split at hs
    · rename_i hc
      simp only [Bool.and_eq_true, decide_eq_true_eq] at hc
      cases hs
      have hc := hc.2
      constructor
      · intro hl
        dsimp only at hl
        rw [if_neg (by omega)] at hl
        simp only [Sys.upd]
        rw [if_neg (by omega)]; exact h1 hl
      · intro hl
        dsimp only at hl
        rw [if_neg (by omega)] at hl
        simp only [Sys.upd]
        rw [if_neg (by omega)]; exact h2 hl
    · cases hs
  | dies p =>
    simp only [Sys.step] at hs
    split at hs
    · cases hs
      constructor
      · intro hl
        dsimp only at hl
        split at hl
        · cases hl
        · rename_i g
          simp only [Sys.upd]
          rw [if_neg g]; exact h1 hl
      · intro hl
        dsimp only at hl
        split at hl
        · cases hl
        · rename_i g
          simp only [Sys.upd]
          rw [if_neg g]; exact h2 hl
    · cases hs

theorem leak_start {s : Sys} {a b : Nat} (h : Start s a b) : Leak (s.spawnBroker false a b) a s.next := by
  obtain ⟨ha, hb⟩ := h.above
  constructor
  · intro _
    simp only [Sys.spawnBroker, Tab.exec, Tab.mapFd, Tab.set, if_true]
    have e : (((((s.tab 0).set a (some ⟨s.next, false, true⟩)).set b (some ⟨s.next + 1, false, true⟩)).set 3 (some ⟨s.next + 1, false, false⟩))) a =
        some ⟨s.next, false, true⟩ := by
      simp only [Tab.set]
      rw [if_neg (by omega), if_neg h.ne]
      rfl
    show Tab.exec _ a = _
    unfold Tab.exec
    rw [e]
    rfl
  · intro hl
    exfalso
    have hl : (if (2 : Nat) = 1 then true else s.alive 2) = true := hl
    rw [if_neg (by decide), h.notYet.2] at hl; cases hl

/-- **C128** (counterexample). As the code is, whatever happens afterwards (in particular when the daemon ends), as long as the handler runs its stream does not
end: the handler itself has the daemon's end open. So it waits for ever, and with it the privileged broker, … -/
theorem handler_never_sees_end {s s' : Sys} {a b : Nat} {es : List Ev} (h : Start s a b) (hr : (s.spawnBroker false a b).run es = some s') (hl : s'.alive 1 = true) :
    ¬ Ended s' s.next :=
  fun hE => hE 1 a _ ((run_inv (leak_step h.above.1) (leak_start h) hr).handler hl) rfl

/-- … which has the daemon's end, too. -/
theorem privileged_inherits {s s' : Sys} {a b : Nat} {es : List Ev} (h : Start s a b) (hr : (s.spawnBroker false a b).run es = some s') (hl : s'.alive 2 = true) :
    ∃ d, s'.tab 2 a = some d ∧ d.file = s.next :=
  ⟨_, (run_inv (leak_step h.above.1) (leak_start h) hr).privileged hl, rfl⟩

/-! ### Who has what -/

/-- Every descriptor: its file exists; those of files in `F` are in processes allowed by `F` and, if so required, are closed by execve. -/
structure Held (F : Nat → Option (Nat → Bool → Prop)) (s : Sys) : Prop where
  files : ∀ p n d, s.tab p n = some d → d.file < s.next
  dead : ∀ p, s.alive p = false → ∀ n, s.tab p n = none
  held : ∀ p n d, s.tab p n = some d → ∀ P, F d.file = some P → P p d.cloexec
  bound : ∀ f P, F f = some P → f < s.next
  stdin : ∀ f, s.stdin = some f → f < s.next ∧ ∀ p n d, s.tab p n = some d → d.file = f → p = 1 ∧ d.cloexec = true

/-- what a rule must allow: duplicates, which are closed by execve; and what children of a process (the privileged broker, or others) inherit -/
structure Rule (P : Nat → Bool → Prop) : Prop where
  dup : ∀ p c, P p c → P p true
  launch : P 1 false → P 2 false
  child : ∀ p c, p ≠ 1 → p ≠ 2 → P p false → P c false

theorem held_step {F : Nat → Option (Nat → Bool → Prop)} (hF : ∀ f P, F f = some P → Rule P) (s : Sys) (e : Ev) (s' : Sys) (h : Held F s) (hs : s.step e = some s') : Held F s' := by
  obtain ⟨h1, h2, h3, h4, h5⟩ := h
  have nF : ∀ f, s.next ≤ f → F f = none := by
    intro f hf
    cases hx : F f with
    | none => rfl
    | some P => have := h4 f P hx; omega
  cases e with
  | opens p n =>
    simp only [Sys.step] at hs
    split at hs
    · rename_i hc
      simp only [Bool.and_eq_true] at hc
      cases hs
      have look : ∀ q m d, (if q = p then (s.tab p).set n (some ⟨s.next, true, true⟩) else s.tab q) m = some d → d = ⟨s.next, true, true⟩ ∨ s.tab q m = some d := by
        intro q m d hd
        split at hd
        · rename_i g; subst g
          simp only [Tab.set] at hd
          split at hd
          · cases hd; exact .inl rfl
          · exact .inr hd
        · exact .inr hd
      refine ⟨?_, ?_, ?_, ?_, ?_⟩
      · intro q m d hd
        rcases look q m d hd with rfl | g
        · exact Nat.lt_succ_self _
        · exact Nat.lt_succ_of_lt (h1 _ _ _ g)
      · intro q hq m
        replace hq : s.alive q = false := hq
        simp only [Sys.upd]
        rw [if_neg (fun g => by rw [g, hc.1] at hq; cases hq)]
        exact h2 q hq m
      · intro q m d hd P hP
        rcases look q m d hd with rfl | g
        · rw [nF s.next (Nat.le_refl _)] at hP; cases hP
        · exact h3 q m d g P hP
      · exact fun f P hP => Nat.lt_succ_of_lt (h4 f P hP)
      · intro f hf
        obtain ⟨g1, g2⟩ := h5 f hf
        refine ⟨Nat.lt_succ_of_lt g1, fun q m d hd he => ?_⟩
        rcases look q m d hd with rfl | g
        · dsimp only at he; omega
        · exact g2 q m d g he
    · cases hs
  | dup p n m =>
    simp only [Sys.step] at hs
    split at hs
    · cases hs
    · rename_i d0 hd0
      split at hs
      · rename_i hc
        simp only [Bool.and_eq_true] at hc
        cases hs
        have look : ∀ q k d, (if q = p then (s.tab p).set m (some ⟨d0.file, true, true⟩) else s.tab q) k = some d → (q = p ∧ d = ⟨d0.file, true, true⟩) ∨ s.tab q k = some d := by
          intro q k d hd
          split at hd
          · rename_i g; subst g
            simp only [Tab.set] at hd
            split at hd
            · cases hd; exact .inl ⟨rfl, rfl⟩
            · exact .inr hd
          · exact .inr hd
        refine ⟨?_, ?_, ?_, h4, ?_⟩
        · intro q k d hd
          rcases look q k d hd with ⟨rfl, rfl⟩ | g
          · show d0.file < s.next
            exact h1 _ _ _ hd0
          · exact h1 _ _ _ g
        · intro q hq k
          replace hq : s.alive q = false := hq
          simp only [Sys.upd]
          rw [if_neg (fun g => by rw [g, hc.1.1] at hq; cases hq)]
          exact h2 q hq k
        · intro q k d hd P hP
          rcases look q k d hd with ⟨rfl, rfl⟩ | g
          · exact (hF _ _ hP).dup _ _ (h3 _ _ _ hd0 P hP)
          · exact h3 q k d g P hP
        · intro f hf
          obtain ⟨g1, g2⟩ := h5 f hf
          refine ⟨g1, fun q k d hd he => ?_⟩
          rcases look q k d hd with ⟨rfl, rfl⟩ | g
          · exact ⟨(g2 _ _ _ hd0 he).1, rfl⟩
          · exact g2 q k d g he
      · cases hs
  | closes p n =>
    simp only [Sys.step] at hs
    split at hs
    · cases hs
    · rename_i d0 hd0
      split at hs
      · rename_i hc
        cases hs
        have look : ∀ q k d, (if q = p then (s.tab p).set n none else s.tab q) k = some d → s.tab q k = some d := by
          intro q k d hd
          split at hd
          · rename_i g; subst g
            simp only [Tab.set] at hd
            split at hd
            · cases hd
            · exact hd
          · exact hd
        refine ⟨fun q k d hd => h1 _ _ _ (look q k d hd), ?_, fun q k d hd => h3 _ _ _ (look q k d hd), h4, fun f hf => ⟨(h5 f hf).1, fun q k d hd => (h5 f hf).2 _ _ _ (look q k d hd)⟩⟩
        intro q hq k
        cases hx : (s.upd p ((s.tab p).set n none)).tab q k with
        | none => rfl
        | some d => have := look q k d hx; rw [h2 q hq k] at this; cases this
      · cases hs
  | claim p n m =>
    simp only [Sys.step] at hs
    split at hs
    · cases hs
    · rename_i d0 hd0
      split at hs
      · rename_i hc
        simp only [Bool.and_eq_true] at hc
        cases hs
        have look : ∀ q k d, (if q = p then ((s.tab p).set m (some ⟨d0.file, true, true⟩)).set n (some ⟨s.next, true, false⟩) else s.tab q) k = some d →
            d = ⟨s.next, true, false⟩ ∨ (q = p ∧ d = ⟨d0.file, true, true⟩) ∨ s.tab q k = some d := by
          intro q k d hd
          split at hd
          · rename_i g; subst g
            simp only [Tab.set] at hd
            split at hd
            · cases hd; exact .inl rfl
            · split at hd
              · cases hd; exact .inr (.inl ⟨rfl, rfl⟩)
              · exact .inr (.inr hd)
          · exact .inr (.inr hd)
        refine ⟨?_, ?_, ?_, ?_, ?_⟩
        · intro q k d hd
          rcases look q k d hd with rfl | ⟨rfl, rfl⟩ | g
          · exact Nat.lt_succ_self _
          · show d0.file < s.next + 1
            exact Nat.lt_succ_of_lt (h1 _ _ _ hd0)
          · exact Nat.lt_succ_of_lt (h1 _ _ _ g)
        · intro q hq k
          replace hq : s.alive q = false := hq
          simp only [Sys.upd]
          rw [if_neg (by rintro rfl; rw [hc.1.1.1] at hq; cases hq)]
          exact h2 q hq k
        · intro q k d hd P hP
          rcases look q k d hd with rfl | ⟨rfl, rfl⟩ | g
          · rw [nF s.next (Nat.le_refl _)] at hP; cases hP
          · exact (hF _ _ hP).dup _ _ (h3 _ _ _ hd0 P hP)
          · exact h3 q k d g P hP
        · exact fun f P hP => Nat.lt_succ_of_lt (h4 f P hP)
        · intro f hf
          obtain ⟨g1, g2⟩ := h5 f hf
          refine ⟨Nat.lt_succ_of_lt g1, fun q k d hd he => ?_⟩
          rcases look q k d hd with rfl | ⟨rfl, rfl⟩ | g
          · dsimp only at he; omega
          · exact ⟨(g2 _ _ _ hd0 he).1, rfl⟩
          · exact g2 q k d g he
      · cases hs
  | launch i o =>
    simp only [Sys.step] at hs
    split at hs
    · rename_i hc
      simp only [Bool.and_eq_true] at hc
      obtain ⟨⟨⟨⟨⟨c1, c2⟩, c3⟩, c4⟩, c5⟩, c6⟩ := hc
      cases hs
      have look : ∀ q k d, (if q = 1 then ((s.tab 1).set i (some ⟨s.next + 1, true, true⟩)).set o (some ⟨s.next + 2, true, true⟩) else
            if q = 2 then (((s.tab 1).set 0 (some ⟨s.next, false, false⟩)).set 1 (some ⟨s.next + 3, false, false⟩)).exec else s.tab q) k = some d →
          (q = 1 ∧ d = ⟨s.next + 1, true, true⟩) ∨ (q = 1 ∧ d = ⟨s.next + 2, true, true⟩) ∨ (q = 2 ∧ d = ⟨s.next, false, false⟩) ∨ (q = 2 ∧ d = ⟨s.next + 3, false, false⟩) ∨
          (q = 2 ∧ d.cloexec = false ∧ ∃ d', s.tab 1 k = some d' ∧ d'.file = d.file ∧ d'.cloexec = false) ∨ s.tab q k = some d := by
        intro q k d hd
        split at hd
        · rename_i g; subst g
          simp only [Tab.set] at hd
          split at hd
          · cases hd; exact .inr (.inl ⟨rfl, rfl⟩)
          · split at hd
            · cases hd; exact .inl ⟨rfl, rfl⟩
            · exact .inr (.inr (.inr (.inr (.inr hd))))
        · split at hd
          · rename_i g; subst g
            simp only [Tab.exec, Tab.set] at hd
            by_cases k1 : k = 1
            · rw [if_pos k1] at hd; simp only [Bool.false_eq_true, if_false, Option.some.injEq] at hd; subst hd; exact .inr (.inr (.inr (.inl ⟨rfl, rfl⟩)))
            · rw [if_neg k1] at hd
              by_cases k0 : k = 0
              · rw [if_pos k0] at hd; simp only [Bool.false_eq_true, if_false, Option.some.injEq] at hd; subst hd; exact .inr (.inr (.inl ⟨rfl, rfl⟩))
              · rw [if_neg k0] at hd
                split at hd
                · rename_i d' hd'
                  split at hd
                  · cases hd
                  · rename_i hce
                    cases hd
                    exact .inr (.inr (.inr (.inr (.inl ⟨rfl, by simpa using hce, d', hd', rfl, by simpa using hce⟩))))
                · cases hd
          · exact .inr (.inr (.inr (.inr (.inr hd))))
      refine ⟨?_, ?_, ?_, ?_, ?_⟩
      · intro q k d hd
        rcases look q k d hd with ⟨-, rfl⟩ | ⟨-, rfl⟩ | ⟨-, rfl⟩ | ⟨-, rfl⟩ | ⟨-, -, d', g1, g2, -⟩ | g
        · show s.next + 1 < s.next + 4; omega
        · show s.next + 2 < s.next + 4; omega
        · show s.next < s.next + 4; omega
        · show s.next + 3 < s.next + 4; omega
        · have := h1 _ _ _ g1; show d.file < s.next + 4; omega
        · have := h1 _ _ _ g; show d.file < s.next + 4; omega
      · intro q hq k
        dsimp only at hq
        split at hq
        · cases hq
        · rename_i q2
          have q1 : q ≠ 1 := by rintro rfl; rw [c1] at hq; cases hq
          dsimp only
          rw [if_neg q1, if_neg q2]
          exact h2 q hq k
      · intro q k d hd P hP
        rcases look q k d hd with ⟨-, rfl⟩ | ⟨-, rfl⟩ | ⟨-, rfl⟩ | ⟨-, rfl⟩ | ⟨rfl, g0, d', g1, g2, g3⟩ | g
        · rw [nF _ (by dsimp only; omega)] at hP; cases hP
        · rw [nF _ (by dsimp only; omega)] at hP; cases hP
        · rw [nF _ (by dsimp only; omega)] at hP; cases hP
        · rw [nF _ (by dsimp only; omega)] at hP; cases hP
        · rw [g0]
          refine (hF _ _ hP).launch ?_
          have := h3 1 k d' g1 P (by rw [g2]; exact hP)
          rw [g3] at this; exact this
        · exact h3 q k d g P hP
      · intro f P hP
        have := h4 f P hP
        show f < s.next + 4; omega
      · intro f hf
        simp only [Option.some.injEq] at hf
        subst hf
        refine ⟨by show s.next + 1 < s.next + 4; omega, fun q k d hd he => ?_⟩
        rcases look q k d hd with ⟨rfl, rfl⟩ | ⟨rfl, rfl⟩ | ⟨-, rfl⟩ | ⟨-, rfl⟩ | ⟨-, -, d', g1, g2, -⟩ | g
        · exact ⟨rfl, rfl⟩
        · exact ⟨rfl, rfl⟩
        · dsimp only at he; omega
        · dsimp only at he; omega
        · have := h1 _ _ _ g1; omega
        · have := h1 _ _ _ g; omega
    · cases hs
  | child p c =>
    simp only [Sys.step] at hs
    split at hs
    · rename_i hc
      simp only [Bool.and_eq_true, bne_iff_ne, decide_eq_true_eq] at hc
      obtain ⟨⟨⟨⟨c1, c2⟩, c3⟩, c4⟩, c5⟩ := hc
      cases hs
      have look : ∀ q k d, (if q = c then (s.tab p).exec else s.tab q) k = some d →
          (q = c ∧ d.cloexec = false ∧ ∃ d', s.tab p k = some d' ∧ d'.file = d.file ∧ d'.cloexec = false) ∨ s.tab q k = some d := by
        intro q k d hd
        split at hd
        · rename_i g; subst g
          simp only [Tab.exec] at hd
          split at hd
          · rename_i d' hd'
            split at hd
            · cases hd
            · rename_i hce
              cases hd
              exact .inl ⟨rfl, by simpa using hce, d', hd', rfl, by simpa using hce⟩
          · cases hd
        · exact .inr hd
      refine ⟨?_, ?_, ?_, h4, ?_⟩
      · intro q k d hd
        rcases look q k d hd with ⟨-, -, d', g1, g2, -⟩ | g
        · rw [← g2]; exact h1 _ _ _ g1
        · exact h1 _ _ _ g
      · intro q hq k
        dsimp only at hq
        split at hq
        · cases hq
        · rename_i qc
          simp only [Sys.upd]
          rw [if_neg qc]
          exact h2 q hq k
      · intro q k d hd P hP
        rcases look q k d hd with ⟨rfl, g0, d', g1, g2, g3⟩ | g
        · rw [g0]
          refine (hF _ _ hP).child p q c2 c3 ?_
          have := h3 p k d' g1 P (by rw [g2]; exact hP)
          rw [g3] at this; exact this
        · exact h3 q k d g P hP
      · intro f hf
        obtain ⟨i1, i2⟩ := h5 f hf
        refine ⟨i1, fun q k d hd he => ?_⟩
        rcases look q k d hd with ⟨rfl, g0, d', g1, g2, g3⟩ | g
        · exact absurd (i2 _ _ _ g1 (g2.trans he)).1 c2
        · exact i2 q k d g he
    · cases hs
  | dies p =>
    simp only [Sys.step] at hs
    split at hs
    · cases hs
      have look : ∀ q k d, (if q = p then (fun _ => none : Tab) else s.tab q) k = some d → s.tab q k = some d := by
        intro q k d hd
        split at hd
        · cases hd
        · exact hd
      refine ⟨fun q k d hd => h1 _ _ _ (look q k d hd), ?_, fun q k d hd => h3 _ _ _ (look q k d hd), h4, fun f hf => ⟨(h5 f hf).1, fun q k d hd => (h5 f hf).2 _ _ _ (look q k d hd)⟩⟩
      intro q hq k
      dsimp only at hq
      simp only [Sys.upd]
      split
      · rfl
      · rename_i g
        rw [if_neg g] at hq
        exact h2 q hq k
    · cases hs

/-- the state right after the start -/
theorem spawn_cases {s : Sys} {a b : Nat} (h : Start s a b) (flag : Bool) {p n : Nat} {d : Desc} (hd : (s.spawnBroker flag a b).tab p n = some d) :
    (p = 0 ∧ n = a ∧ d = ⟨s.next, flag, true⟩) ∨ (p = 1 ∧ n = 3 ∧ d = ⟨s.next + 1, false, false⟩) ∨
    (p = 1 ∧ flag = false ∧ (n = a ∧ d.file = s.next ∨ n = b ∧ d.file = s.next + 1)) ∨ d.file < s.next := by
  obtain ⟨ha, hb⟩ := h.above
  simp only [Sys.spawnBroker] at hd
  split at hd
  · rename_i g; subst g
    simp only [Tab.set] at hd
    split at hd
    · cases hd
    · split at hd
      · cases hd; rename_i g; exact .inl ⟨rfl, g, rfl⟩
      · exact .inr (.inr (.inr (h.files _ _ _ hd)))
  · split at hd
    · rename_i g; subst g
      have hm : Tab.mapFd (((s.tab 0).set a (some ⟨s.next, flag, true⟩)).set b (some ⟨s.next + 1, flag, true⟩)) b 3 =
          (((s.tab 0).set a (some ⟨s.next, flag, true⟩)).set b (some ⟨s.next + 1, flag, true⟩)).set 3 (some ⟨s.next + 1, false, false⟩) := by
        simp [Tab.mapFd, Tab.set]
      rw [hm] at hd
      simp only [Tab.exec] at hd
      split at hd
      · rename_i d' hd'
        split at hd
        · cases hd
        · rename_i hce
          cases hd
          simp only [Tab.set] at hd'
          split at hd'
          · rename_i g; cases hd'; exact .inr (.inl ⟨rfl, g, rfl⟩)
          · split at hd'
            · rename_i g; cases hd'
              exact .inr (.inr (.inl ⟨rfl, by simpa using hce, .inr ⟨g, rfl⟩⟩))
            · split at hd'
              · rename_i g; cases hd'
                exact .inr (.inr (.inl ⟨rfl, by simpa using hce, .inl ⟨g, rfl⟩⟩))
              · exact .inr (.inr (.inr (show d'.file < s.next from h.files _ _ _ hd')))
      · cases hd
    · exact .inr (.inr (.inr (h.files _ _ _ hd)))

theorem spawn_dead {s : Sys} {a b : Nat} (h : Start s a b) (flag : Bool) (p : Nat) (hp : (s.spawnBroker flag a b).alive p = false) (n : Nat) : (s.spawnBroker flag a b).tab p n = none := by
  simp only [Sys.spawnBroker] at hp ⊢
  split at hp
  · cases hp
  · rename_i g
    rw [if_neg (by rintro rfl; rw [h.runs] at hp; cases hp), if_neg g]
    exact h.dead p hp n

/-- **C128** (partial; the full claim, "the broker processes end when the daemon ends", is false, see `handler_never_sees_end`). In the other direction it works: if the handler ends, the
input of the privileged broker ends, and when that has ended, too, the daemon's stream ends. -/
theorem daemon_notices_partial {s s' : Sys} {a b : Nat} {es : List Ev} (h : Start s a b) (flag : Bool) (hr : (s.spawnBroker flag a b).run es = some s') (hl : s'.alive 1 = false) :
    (∀ f, s'.stdin = some f → Ended s' f) ∧ (s'.alive 2 = false → Ended s' (s.next + 1)) := by
  let F : Nat → Option (Nat → Bool → Prop) := fun f => if f = s.next + 1 then some (fun p _ => p = 1 ∨ p = 2) else none
  have hF : ∀ f P, F f = some P → Rule P := by
    intro f P hP
    simp only [F] at hP
    split at hP
    · cases hP
      exact ⟨fun _ _ g => g, fun _ => .inr rfl, fun p c g1 g2 g => absurd g (by rintro (g | g); exact g1 g; exact g2 g)⟩
    · cases hP
  have start : Held F (s.spawnBroker flag a b) := by
    refine ⟨?_, spawn_dead h flag, ?_, ?_, fun f hf => by cases hf⟩
    · intro p n d hd
      show d.file < s.next + 2
      rcases spawn_cases h flag hd with ⟨-, -, rfl⟩ | ⟨-, -, rfl⟩ | ⟨-, -, ⟨-, g⟩ | ⟨-, g⟩⟩ | g
      · dsimp only; omega
      · dsimp only; omega
      · omega
      · omega
      · omega
    · intro p n d hd P hP
      simp only [F] at hP
      split at hP
      · rename_i g0
        cases hP
        rcases spawn_cases h flag hd with ⟨-, -, rfl⟩ | ⟨g, -, rfl⟩ | ⟨g, -, -⟩ | g
        · dsimp only at g0; omega
        · exact .inl g
        · exact .inl g
        · omega
      · cases hP
    · intro f P hP
      simp only [F] at hP
      split at hP
      · show f < s.next + 2; omega
      · cases hP
  have R := run_inv (held_step hF) start hr
  refine ⟨fun f hf p n d hd he => ?_, fun h2 p n d hd he => ?_⟩
  · have := ((R.stdin f hf).2 p n d hd he).1
    subst this
    rw [R.dead 1 hl n] at hd; cases hd
  · have := R.held p n d hd (fun p _ => p = 1 ∨ p = 2) (by simp only [F]; rw [if_pos he])
    rcases this with rfl | rfl
    · rw [R.dead 1 hl n] at hd; cases hd
    · rw [R.dead 2 h2 n] at hd; cases hd

/-- **C128** (what decides). With `SocketFlags::CLOEXEC` in place of the empty flags, the handler's stream would end with the daemon. -/
theorem flag_suffices {s s' : Sys} {a b : Nat} {es : List Ev} (h : Start s a b) (hr : (s.spawnBroker true a b).run es = some s') (hl : s'.alive 0 = false) : Ended s' s.next := by
  let F : Nat → Option (Nat → Bool → Prop) := fun f => if f = s.next then some (fun p c => p = 0 ∧ c = true) else none
  have hF : ∀ f P, F f = some P → Rule P := by
    intro f P hP
    simp only [F] at hP
    split at hP
    · cases hP
      exact ⟨(fun p c g => ⟨g.1, rfl⟩), (fun g => by cases g.1), (fun p c g1 g2 g => by cases g.2)⟩
    · cases hP
  have start : Held F (s.spawnBroker true a b) := by
    refine ⟨?_, spawn_dead h true, ?_, ?_, fun f hf => by cases hf⟩
    · intro p n d hd
      show d.file < s.next + 2
      rcases spawn_cases h true hd with ⟨-, -, rfl⟩ | ⟨-, -, rfl⟩ | ⟨-, g, -⟩ | g
      · dsimp only; omega
      · dsimp only; omega
      · cases g
      · omega
    · intro p n d hd P hP
      simp only [F] at hP
      split at hP
      · rename_i g0
        cases hP
        rcases spawn_cases h true hd with ⟨g, -, rfl⟩ | ⟨g, -, rfl⟩ | ⟨-, g, -⟩ | g
        · exact ⟨g, rfl⟩
        · dsimp only at g0; omega
        · cases g
        · omega
      · cases hP
    · intro f P hP
      simp only [F] at hP
      split at hP
      · show f < s.next + 2; omega
      · cases hP
  have R := run_inv (held_step hF) start hr
  intro p n d hd he
  have := R.held p n d hd (fun p c => p = 0 ∧ c = true) (by simp only [F]; rw [if_pos he])
  obtain ⟨rfl, -⟩ := this
  rw [R.dead 0 hl n] at hd; cases hd

/-! ### An example -/

/-- a daemon with standard streams and its poll under number 3 -/
def demo : Sys := ⟨fun p n => if p = 0 ∧ n < 4 then some ⟨n, n == 3, n == 3⟩ else none, fun p => p == 0, 4, none⟩

theorem demo_start : Start demo 4 5 := by
  refine ⟨rfl, ⟨rfl, rfl⟩, ?_, ?_, rfl, rfl, by decide, ?_⟩
  · intro p n d hd
    simp only [demo] at hd
    split at hd
    · rename_i g; cases hd; show n < 4; exact g.2
    · cases hd
  · intro p hp n
    simp only [demo] at hp ⊢
    rw [if_neg (by rintro ⟨rfl, -⟩; cases hp)]
  · intro n hn
    simp only [demo]
    rw [if_pos ⟨trivial, by omega⟩]
    exact fun h => by cases h

/-- The handler claims its stream, starts the privileged broker, and the daemon ends: both go on running, and the handler's stream has not ended. -/
example : ((demo.spawnBroker false 4 5).run [.claim 1 3 6, .launch 7 8, .dies 0]).map (fun s => (s.alive 0, s.alive 1, s.alive 2, s.tab 1 4, s.tab 2 4)) =
    some (false, true, true, some ⟨4, false, false⟩, some ⟨4, false, false⟩) := by decide +kernel

/-- With the flag, they do not have the daemon's end. -/
example : ((demo.spawnBroker true 4 5).run [.claim 1 3 6, .launch 7 8, .dies 0]).map (fun s => (s.alive 0, s.alive 1, s.alive 2, s.tab 1 4, s.tab 2 4)) =
    some (false, true, true, none, none) := by decide +kernel

end Verif.BrokerSpawn
