import Verif.Model.F64
import Mathlib.Tactic.Linarith
import Mathlib.Tactic.NormNum
import Mathlib.Tactic.Ring
import Mathlib.Data.Rat.Floor
import Mathlib.Data.Int.Log
/-
C125: time stamps are `f64` numbers; what rounding does to the life cycles.
-/
namespace Verif.F64

variable (R : Rounding)

/-- age of a life cycle -/
def rank : Lifecycle → Nat
  | .void => 0 | .young => 0 | .retired => 1 | .dead => 2

/-! ### Rounding errors -/

theorem rep_grid (m : Int) (k : Int) (h : |m| ≤ 2 ^ 53) : Rep (m * 2 ^ (k - 53)) := ⟨m, k - 53, h, rfl⟩

/-- rounding a number below `2 ^ k` changes it by at most `2 ^ (k - 53)` -/
theorem fl_error (k : Int) (x : Rat) (h : |x| ≤ 2 ^ k) : |R.fl x - x| ≤ 2 ^ (k - 53) := by
  have g0 : (0 : Rat) < 2 ^ (k - 53) := by positivity
  have hk : (2 : Rat) ^ k = 2 ^ 53 * 2 ^ (k - 53) := by
    rw [← zpow_natCast, ← zpow_add₀ (by norm_num)]; congr 1; norm_num
  generalize hg : (2 : Rat) ^ (k - 53) = g at *
  rw [hk] at h
  obtain ⟨h1, h2⟩ := abs_le.mp h
  have f1 := Int.floor_le (x / g)
  have f2 := Int.lt_floor_add_one (x / g)
  generalize hm : ⌊x / g⌋ = m at *
  have b1 : (m : Rat) * g ≤ x := by rwa [le_div_iff₀ g0] at f1
  have b2 : x < (m + 1) * g := by rwa [div_lt_iff₀ g0] at f2
  have m1 : -(2 ^ 53 : Int) ≤ m := by
    have : (-(2 ^ 53 : Int) : Int) ≤ ⌊x / g⌋ := by
      rw [Int.le_floor, le_div_iff₀ g0]; push_cast; linarith
    rwa [hm] at this
  have m2 : m ≤ 2 ^ 53 := by
    have : (m : Rat) ≤ (2 ^ 53 : Rat) := by
      by_contra c
      have := mul_lt_mul_of_pos_right (not_le.mp c) g0
      linarith
    exact_mod_cast this
  have r1 : R.fl (m * g) = m * g := R.exact _ (by rw [← hg]; exact rep_grid m k (abs_le.mpr ⟨m1, m2⟩))
  have lo := R.mono _ _ b1
  rw [r1] at lo
  rcases Int.lt_or_eq_of_le m2 with m3 | m3
  · have r2 : R.fl ((m + 1) * g) = (m + 1) * g := R.exact _ (by
      rw [← hg]
      have := rep_grid (m + 1) k (abs_le.mpr ⟨by omega, by omega⟩)
      push_cast at this; exact this)
    have hi := R.mono _ _ (le_of_lt b2)
    rw [r2] at hi
    rw [abs_le]; constructor <;> nlinarith
  · have : x = m * g := by
      apply le_antisymm _ b1
      rw [m3]; push_cast; linarith
    rw [this, r1]; simp [le_of_lt g0]

theorem rep_nat (n : Nat) (h : n ≤ 2 ^ 53) : Rep (n : Rat) :=
  ⟨n, 0, by rw [abs_of_nonneg (by positivity)]; exact_mod_cast h, by simp⟩

theorem fl_nat (n : Nat) (h : n ≤ 2 ^ 53) : R.fl (n : Rat) = n := R.exact _ (rep_nat n h)

theorem frac_bounds (n : Nat) (hn : n < 10 ^ 9) : 0 ≤ R.fl ((n : Rat) / 10 ^ 9) ∧ R.fl ((n : Rat) / 10 ^ 9) ≤ 1 := by
  constructor
  · rw [← R.exact 0 ⟨0, 0, by norm_num, by norm_num⟩]
    apply R.mono; positivity
  · rw [← R.exact 1 ⟨1, 0, by norm_num, by norm_num⟩]
    apply R.mono
    rw [div_le_one (by norm_num)]
    exact_mod_cast le_of_lt hn

/-- The clock never goes back, for 2^53 seconds. -/
theorem clock_mono (s n s' n' : Nat) (hn : n < 10 ^ 9) (hn' : n' < 10 ^ 9) (h : s < s' ∨ s = s' ∧ n ≤ n') (hs : s' ≤ 2 ^ 53) :
    R.clock s n ≤ R.clock s' n' := by
  unfold Rounding.clock Rounding.add
  apply R.mono
  rw [fl_nat R s (by rcases h with h | h <;> omega), fl_nat R s' hs]
  rcases h with h | ⟨rfl, h⟩
  · have a := (frac_bounds R n hn).2
    have b := (frac_bounds R n' hn').1
    have c : (s : Rat) + 1 ≤ s' := by exact_mod_cast h
    linarith
  · have : R.fl ((n : Rat) / 10 ^ 9) ≤ R.fl ((n' : Rat) / 10 ^ 9) := by
      apply R.mono
      apply div_le_div_of_nonneg_right _ (by norm_num)
      exact_mod_cast h
    linarith

/-! ### Life cycles never get younger -/

theorem happened_mono (t y y' : Rat) (h : y ≤ y') : R.hasHappened (R.sub t y) 0 = true → R.hasHappened (R.sub t y') 0 = true := by
  unfold Rounding.hasHappened Rounding.sub
  simp only [decide_eq_true_eq, sub_zero]
  intro a
  exact lt_of_le_of_lt (R.mono _ _ (R.mono _ _ (by linarith))) a

/-- Whatever the time stamps, an object never gets younger when the clock does not go back. -/
theorem never_younger (retireAt dieAt : Option Rat) (y n y' n' : Rat) (hy : y ≤ y') (hn : n ≤ n') :
    rank (R.lifecycle retireAt dieAt y n) ≤ rank (R.lifecycle retireAt dieAt y' n') := by
  unfold Rounding.lifecycle
  cases retireAt with
  | none =>
    cases dieAt with
    | none => simp [rank]
    | some d =>
      simp only [Option.map_none, Option.map_some]
      have := happened_mono R d n n' hn
      split <;> rename_i a
      · rw [if_pos (this a)]
      · split <;> simp [rank]
  | some r =>
    have hr := happened_mono R r y y' hy
    cases dieAt with
    | none =>
      simp only [Option.map_none, Option.map_some]
      split <;> rename_i a
      · rw [if_pos (hr a)]
      · split <;> simp [rank]
    | some d =>
      simp only [Option.map_some]
      have := happened_mono R d n n' hn
      split <;> rename_i a
      · rw [if_pos (this a)]
      · split <;> rename_i b
        · rw [if_pos (hr b)]; split <;> simp [rank]
        · simp [rank]

/-! ### Accuracy -/

/-- the time shown by a clock, in seconds -/
def real (s n : Nat) : Rat := s + n / 10 ^ 9

/-- 4 microseconds -/
def δ : Rat := 1 / 2 ^ 18

/-- a time of day on a daemon that has run for less than 2^31 seconds (68 years) -/
def Sound (s n : Nat) : Prop := s < 2 ^ 31 ∧ n < 10 ^ 9

theorem err21 (x : Rat) (h : |x| ≤ 2 ^ 32) : |R.fl x - x| ≤ 1 / 2 ^ 21 := by
  have := fl_error R 32 x (by exact_mod_cast h)
  have e : (2 : Rat) ^ ((32 : Int) - 53) = 1 / 2 ^ 21 := by norm_num
  rwa [e] at this

theorem clock_close (s n : Nat) (h : Sound s n) : |R.clock s n - real s n| ≤ 1 / 2 ^ 21 ∧ 0 ≤ R.clock s n ∧ R.clock s n ≤ 2 ^ 31 := by
  obtain ⟨hs, hn⟩ := h
  obtain ⟨f0, f1⟩ := frac_bounds R n hn
  have s0 : (0 : Rat) ≤ s := by positivity
  have s1 : (s : Rat) + 1 ≤ 2 ^ 31 := by exact_mod_cast hs
  have e1 : |R.fl ((n : Rat) / 10 ^ 9) - n / 10 ^ 9| ≤ 1 / 2 ^ 53 := by
    have := fl_error R 0 ((n : Rat) / 10 ^ 9) (by
      rw [abs_of_nonneg (by positivity), zpow_zero, div_le_one (by norm_num)]
      exact_mod_cast le_of_lt hn)
    have e : (2 : Rat) ^ ((0 : Int) - 53) = 1 / 2 ^ 53 := by norm_num
    rwa [e] at this
  unfold Rounding.clock Rounding.add real
  rw [fl_nat R s (by omega)]
  generalize R.fl ((n : Rat) / 10 ^ 9) = f at *
  have e2 : |R.fl (s + f) - (s + f)| ≤ 1 / 2 ^ 22 := by
    have := fl_error R 31 (s + f) (by rw [abs_of_nonneg (by linarith)]; exact_mod_cast (by linarith : (s : Rat) + f ≤ 2 ^ 31))
    have e : (2 : Rat) ^ ((31 : Int) - 53) = 1 / 2 ^ 22 := by norm_num
    rwa [e] at this
  refine ⟨?_, ?_, ?_⟩
  · rw [abs_le] at *
    norm_num at *
    constructor <;> linarith [e1.1, e1.2, e2.1, e2.2]
  · rw [← R.exact 0 ⟨0, 0, by norm_num, by norm_num⟩]
    exact R.mono _ _ (by linarith)
  · have : R.fl (2 ^ 31) = 2 ^ 31 := R.exact _ ⟨1, 31, by norm_num, by norm_num⟩
    rw [← this]
    exact R.mono _ _ (by linarith)

theorem grace_close : |R.grace - 1 / 400| ≤ 1 / 2 ^ 21 := err21 R _ (by rw [abs_of_nonneg] <;> norm_num)

/-- a deadline `a`, close to `A`, is passed at a reading `b`, close to `B`, or not, up to the error -/
theorem happened_iff (a A b B : Rat) (ha : |a - A| ≤ 3 / 2 ^ 21) (hb : |b - B| ≤ 1 / 2 ^ 21) (a0 : 0 ≤ a) (a1 : a ≤ 2 ^ 32) (b0 : 0 ≤ b) (b1 : b ≤ 2 ^ 31) :
    (A - 1 / 400 + δ ≤ B → R.hasHappened (R.sub a b) 0 = true) ∧ (B ≤ A - 1 / 400 - δ → R.hasHappened (R.sub a b) 0 = false) := by
  have hs := err21 R (a - b) (by rw [abs_le]; constructor <;> linarith)
  have hg := grace_close R
  unfold Rounding.hasHappened Rounding.sub δ
  rw [sub_zero, R.exact _ (R.rep _)]
  rw [abs_le] at *
  constructor
  · intro h
    rw [decide_eq_true_eq]
    norm_num at *
    linarith [ha.2, hb.1, hs.2, hg.1]
  · intro h
    rw [decide_eq_false_iff_not, not_lt]
    norm_num at *
    linarith [ha.1, hb.2, hs.1, hg.2]

theorem add_close (a A w : Rat) (e : Rat) (ha : |a - A| ≤ e) (a0 : 0 ≤ a) (a1 : a + w ≤ 2 ^ 32) (w0 : 0 ≤ w) :
    |R.add a w - (A + w)| ≤ e + 1 / 2 ^ 21 ∧ 0 ≤ R.add a w ∧ R.add a w ≤ a + w + 1 := by
  have h := err21 R (a + w) (by rw [abs_of_nonneg (by linarith)]; exact a1)
  have p : 0 ≤ R.fl (a + w) := by
    rw [← R.exact 0 ⟨0, 0, by norm_num, by norm_num⟩]
    exact R.mono _ _ (by linarith)
  unfold Rounding.add
  refine ⟨?_, p, ?_⟩
  · rw [abs_le] at *
    constructor <;> linarith [h.1, h.2, ha.1, ha.2]
  · rw [abs_le] at h
    norm_num at *
    linarith [h.2]

/-- life cycle from the two deadlines -/
theorem lifecycle_close (r A d D : Rat) (ys yn ns nn : Nat) (hy : Sound ys yn) (hn : Sound ns nn) (hr : |r - A| ≤ 3 / 2 ^ 21) (hd : |d - D| ≤ 3 / 2 ^ 21)
    (r0 : 0 ≤ r) (r1 : r ≤ 2 ^ 32) (d0 : 0 ≤ d) (d1 : d ≤ 2 ^ 32) :
    (D - 1 / 400 + δ ≤ real ns nn → R.lifecycle (some r) (some d) (R.clock ys yn) (R.clock ns nn) = .dead) ∧
    (real ns nn ≤ D - 1 / 400 - δ → A - 1 / 400 + δ ≤ real ys yn → R.lifecycle (some r) (some d) (R.clock ys yn) (R.clock ns nn) = .retired) ∧
    (real ns nn ≤ D - 1 / 400 - δ → real ys yn ≤ A - 1 / 400 - δ → R.lifecycle (some r) (some d) (R.clock ys yn) (R.clock ns nn) = .young) := by
  obtain ⟨cy, y0, y1⟩ := clock_close R ys yn hy
  obtain ⟨cn, n0, n1⟩ := clock_close R ns nn hn
  obtain ⟨p1, p2⟩ := happened_iff R r A _ _ hr cy r0 r1 y0 y1
  obtain ⟨q1, q2⟩ := happened_iff R d D _ _ hd cn d0 d1 n0 n1
  refine ⟨fun h => ?_, fun h k => ?_, fun h k => ?_⟩
  · simp [Rounding.lifecycle, q1 h]
  · simp [Rounding.lifecycle, q2 h, p1 k]
  · simp [Rounding.lifecycle, q2 h, p2 k]

/-- A session dies 180 s and is to be replaced 120 s or 130 s after it was made, up to the grace of 2.5 ms and 4 microseconds of rounding. -/
theorem session_accurate (role : Role) (cs cn ys yn ns nn : Nat) (hc : Sound cs cn) (hy : Sound ys yn) (hn : Sound ns nn) :
    (real cs cn + 180 - 1 / 400 + δ ≤ real ns nn → R.sessionLife role (R.clock cs cn) (R.clock ys yn) (R.clock ns nn) = .dead) ∧
    (real ns nn ≤ real cs cn + 180 - 1 / 400 - δ → real cs cn + rekey role - 1 / 400 + δ ≤ real ys yn →
      R.sessionLife role (R.clock cs cn) (R.clock ys yn) (R.clock ns nn) = .retired) ∧
    (real ns nn ≤ real cs cn + 180 - 1 / 400 - δ → real ys yn ≤ real cs cn + rekey role - 1 / 400 - δ →
      R.sessionLife role (R.clock cs cn) (R.clock ys yn) (R.clock ns nn) = .young) := by
  obtain ⟨cc, c0, c1⟩ := clock_close R cs cn hc
  have w : 0 ≤ rekey role ∧ rekey role ≤ 130 := by cases role <;> norm_num [rekey]
  obtain ⟨e1, f1, g1⟩ := add_close R _ _ (rekey role) _ cc c0 (by norm_num at *; linarith [w.2]) w.1
  obtain ⟨e2, f2, g2⟩ := add_close R _ _ 180 _ cc c0 (by norm_num at *; linarith) (by norm_num)
  exact lifecycle_close R _ _ _ _ ys yn ns nn hy hn (le_trans e1 (by norm_num)) (le_trans e2 (by norm_num)) f1 (by norm_num at *; linarith [w.2]) f2 (by norm_num at *; linarith)

/-- The same for biscuit keys and cookie secrets, for epochs up to 300 s. -/
theorem store_accurate (epoch : Rat) (he0 : 0 ≤ epoch) (he : epoch ≤ 300) (cs cn ys yn ns nn : Nat) (hc : Sound cs cn) (hy : Sound ys yn) (hn : Sound ns nn) :
    (real cs cn + 2 * epoch - 1 / 400 + δ ≤ real ns nn → R.storeLife epoch (R.clock cs cn) (R.clock ys yn) (R.clock ns nn) = .dead) ∧
    (real ns nn ≤ real cs cn + 2 * epoch - 1 / 400 - δ → real cs cn + epoch - 1 / 400 + δ ≤ real ys yn →
      R.storeLife epoch (R.clock cs cn) (R.clock ys yn) (R.clock ns nn) = .retired) ∧
    (real ns nn ≤ real cs cn + 2 * epoch - 1 / 400 - δ → real ys yn ≤ real cs cn + epoch - 1 / 400 - δ →
      R.storeLife epoch (R.clock cs cn) (R.clock ys yn) (R.clock ns nn) = .young) := by
  obtain ⟨cc, c0, c1⟩ := clock_close R cs cn hc
  obtain ⟨e1, f1, g1⟩ := add_close R _ _ epoch _ cc c0 (by norm_num at *; linarith) he0
  obtain ⟨e2, f2, g2⟩ := add_close R _ _ epoch _ e1 f1 (by norm_num at *; linarith) he0
  unfold Rounding.storeLife
  rw [if_neg (not_lt.mpr c0), show real cs cn + 2 * epoch = real cs cn + epoch + epoch by ring]
  exact lifecycle_close R _ _ _ _ ys yn ns nn hy hn (le_trans e1 (by norm_num)) (le_trans e2 (by norm_num)) f1 (by norm_num at *; linarith) f2 (by norm_num at *; linarith)

/-- The same for what has no retirement. -/
theorem plain_accurate (span : Rat) (he0 : 0 ≤ span) (he : span ≤ 300) (cs cn ys yn ns nn : Nat) (hc : Sound cs cn) (hy : Sound ys yn) (hn : Sound ns nn) :
    (real cs cn + span - 1 / 400 + δ ≤ real ns nn → R.plainLife span (R.clock cs cn) (R.clock ys yn) (R.clock ns nn) = .dead) ∧
    (real ns nn ≤ real cs cn + span - 1 / 400 - δ → real ys yn ≤ real ns nn →
      R.plainLife span (R.clock cs cn) (R.clock ys yn) (R.clock ns nn) = .young) := by
  obtain ⟨cc, c0, c1⟩ := clock_close R cs cn hc
  obtain ⟨e1, f1, g1⟩ := add_close R _ _ span _ cc c0 (by norm_num at *; linarith) he0
  unfold Rounding.plainLife
  rw [if_neg (not_lt.mpr c0)]
  obtain ⟨h1, h2, h3⟩ := lifecycle_close R _ _ _ _ ys yn ns nn hy hn (le_trans e1 (by norm_num)) (le_trans e1 (by norm_num)) f1 (by norm_num at *; linarith) f1
    (by norm_num at *; linarith)
  exact ⟨h1, fun a b => h3 a (le_trans b a)⟩

/-- A negative time stamp (`BCE`) means that there is no life cycle. -/
theorem ancient_void (epoch t youth now : Rat) (h : t < 0) : R.storeLife epoch t youth now = .void ∧ R.plainLife epoch t youth now = .void := by
  simp [Rounding.storeLife, Rounding.plainLife, h, Rounding.lifecycle]

/-! ### The integer clock of the rest of the development -/

/-- the tick of 100 microseconds in which the time shown lies -/
def ticks (s n : Nat) : Int := s * 10000 + n / 100000

theorem ticks_le (s n : Nat) : (ticks s n : Rat) ≤ real s n * 10000 := by
  have h : ticks s n * 100000 ≤ s * 1000000000 + n := by unfold ticks; omega
  have h' : (ticks s n : Rat) * 100000 ≤ s * 1000000000 + n := by exact_mod_cast h
  unfold real
  norm_num at *
  linarith

theorem lt_ticks (s n : Nat) : real s n * 10000 < ticks s n + 1 := by
  have h : (s : Int) * 1000000000 + n < (ticks s n + 1) * 100000 := by unfold ticks; omega
  have h' : (s : Rat) * 1000000000 + n < (ticks s n + 1) * 100000 := by exact_mod_cast h
  unfold real
  norm_num at *
  linarith

theorem ticks_mono (s n s' n' : Nat) (h : real s n ≤ real s' n') : ticks s n ≤ ticks s' n' := by
  have a := ticks_le s n
  have b := lt_ticks s' n'
  have : (ticks s n : Rat) < ticks s' n' + 1 := by linarith
  have : ticks s n < ticks s' n' + 1 := by exact_mod_cast this
  omega

/-- from an inequality of ticks with some to spare to one between the times -/
theorem spare_before (cs cn ns nn : Nat) (k : Int) (h : ticks ns nn + 2 ≤ ticks cs cn + k) : real ns nn ≤ real cs cn + k / 10000 - δ := by
  have a := lt_ticks ns nn
  have b := ticks_le cs cn
  have c : ((ticks ns nn : Int) : Rat) + 2 ≤ ticks cs cn + k := by exact_mod_cast h
  unfold δ
  norm_num at *
  linarith

theorem spare_after (cs cn ns nn : Nat) (k : Int) (h : ticks cs cn + k + 2 ≤ ticks ns nn) : real cs cn + k / 10000 + δ ≤ real ns nn := by
  have a := lt_ticks cs cn
  have b := ticks_le ns nn
  have c : ((ticks cs cn : Int) : Rat) + k + 2 ≤ ticks ns nn := by exact_mod_cast h
  unfold δ
  norm_num at *
  linarith

/-- the life cycle on ticks, from the two spans -/
theorem tick_cases (c r d : Int) (t : Time) : Mortal.lifecycle ⟨some (c + r), some (c + d)⟩ t =
    if c + d - t < 25 then .dead else if c + r - t < 25 then .retired else .young := by
  simp [Mortal.lifecycle, Mortal.youthLeft, Mortal.lifeLeft, hasHappened, eventGrace]

/-- the life cycle on ticks agrees with one that is accurate in real time -/
theorem of_ticks (f : Lifecycle) (L : Lifecycle) (cs cn ys yn ns nn : Nat) (r d : Int) (hyn : real ys yn ≤ real ns nn)
    (a1 : real cs cn + d / 10000 - 1 / 400 + δ ≤ real ns nn → f = .dead)
    (a2 : real ns nn ≤ real cs cn + d / 10000 - 1 / 400 - δ → real cs cn + r / 10000 - 1 / 400 + δ ≤ real ys yn → f = .retired)
    (a3 : real ns nn ≤ real cs cn + d / 10000 - 1 / 400 - δ → real ys yn ≤ real cs cn + r / 10000 - 1 / 400 - δ → f = .young)
    (h : ∀ t : Int, ticks ys yn - 2 ≤ t → t ≤ ticks ns nn + 2 → Mortal.lifecycle ⟨some (ticks cs cn + r), some (ticks cs cn + d)⟩ t = L) : f = L := by
  have m := ticks_mono _ _ _ _ hyn
  have q : ∀ k : Int, ((k - 25 : Int) : Rat) / 10000 = k / 10000 - 1 / 400 := by intro k; push_cast; norm_num; ring
  have g := fun t a b => (tick_cases (ticks cs cn) r d t).symm.trans (h t a b)
  have g1 := g (ticks ns nn + 2) (by omega) (by omega)
  have g2 := g (ticks ns nn - 2) (by omega) (by omega)
  have g3 := g (ticks ys yn + 2) (by omega) (by omega)
  have g4 := g (ticks ys yn - 2) (by omega) (by omega)
  have before := fun ns nn k h => spare_before cs cn ns nn k h
  have after := fun ns nn k h => spare_after cs cn ns nn k h
  by_cases D : ticks cs cn + d - (ticks ns nn + 2) < 25
  · rw [if_pos D] at g1
    subst g1
    refine a1 ?_
    have D' : ticks cs cn + d - (ticks ns nn - 2) < 25 := by
      by_contra c
      rw [if_neg c] at g2
      split at g2 <;> cases g2
    have := after ns nn (d - 25) (by omega)
    rw [q] at this; linarith
  · rw [if_neg D] at g1
    have nd := before ns nn (d - 25) (by omega)
    rw [q] at nd
    by_cases E : ticks cs cn + r - (ticks ns nn + 2) < 25
    · rw [if_pos E] at g1
      subst g1
      have E' : ticks cs cn + r - (ticks ys yn - 2) < 25 := by
        by_contra c
        rw [if_neg c] at g4
        split at g4 <;> cases g4
      have := after ys yn (r - 25) (by omega)
      rw [q] at this
      exact a2 (by linarith) (by linarith)
    · rw [if_neg E] at g1
      subst g1
      have := before ys yn (r - 25) (by omega)
      rw [q] at this
      exact a3 (by linarith) (by linarith)

/-- Life cycles of sessions computed with floating point numbers are those of the integer clock, but for two ticks (200 microseconds) around the changes. -/
theorem session_ticks (p : Session) (cs cn ys yn ns nn : Nat) (hc : Sound cs cn) (hy : Sound ys yn) (hn : Sound ns nn) (hp : p.createdAt = ticks cs cn)
    (hyn : real ys yn ≤ real ns nn) (L : Lifecycle)
    (h : ∀ t : Time, ticks ys yn - 2 ≤ t → t ≤ ticks ns nn + 2 → (Session.mortal (some p)).lifecycle t = L) :
    R.sessionLife p.role (R.clock cs cn) (R.clock ys yn) (R.clock ns nn) = L := by
  obtain ⟨a1, a2, a3⟩ := session_accurate R p.role cs cn ys yn ns nn hc hy hn
  obtain ⟨w, hw, hw'⟩ : ∃ w : Int, rekeyAfter p.role = w ∧ rekey p.role = w / 10000 := by
    cases p.role
    · exact ⟨1300000, by simp [rekeyAfter, rekeyAfterInitiator, secs], by norm_num [rekey]⟩
    · exact ⟨1200000, by simp [rekeyAfter, rekeyAfterResponder, secs], by norm_num [rekey]⟩
  have e : ((1800000 : Int) : Rat) / 10000 = 180 := by norm_num
  rw [hw'] at a2 a3
  refine of_ticks _ L cs cn ys yn ns nn w 1800000 hyn ?_ ?_ ?_ ?_
  · rw [e]; exact a1
  · rw [e]; exact a2
  · rw [e]; exact a3
  · intro t x y
    rw [← h t x y]
    simp [Session.mortal, hp, hw, rejectAfter, secs]

/-- The same for the biscuit keys. -/
theorem biscuit_ticks (x : Store) (cs cn ys yn ns nn : Nat) (hc : Sound cs cn) (hy : Sound ys yn) (hn : Sound ns nn) (hp : x.createdAt = ticks cs cn)
    (hyn : real ys yn ≤ real ns nn) (L : Lifecycle) (h : ∀ t : Time, ticks ys yn - 2 ≤ t → t ≤ ticks ns nn + 2 → x.biscuitMortal.lifecycle t = L) :
    R.storeLife 300 (R.clock cs cn) (R.clock ys yn) (R.clock ns nn) = L := by
  obtain ⟨a1, a2, a3⟩ := store_accurate R 300 (by norm_num) (by norm_num) cs cn ys yn ns nn hc hy hn
  have e : ((6000000 : Int) : Rat) / 10000 = 2 * 300 := by norm_num
  have e' : ((3000000 : Int) : Rat) / 10000 = 300 := by norm_num
  have p0 : ¬ (ticks cs cn < 0) := by unfold ticks; omega
  refine of_ticks _ L cs cn ys yn ns nn 3000000 6000000 hyn ?_ ?_ ?_ ?_
  · rw [e]; exact a1
  · rw [e, e']; exact a2
  · rw [e, e']; exact a3
  · intro t u v
    rw [← h t u v]
    have : ticks cs cn + 6000000 = ticks cs cn + 3000000 + 3000000 := by omega
    simp [Store.biscuitMortal, Store.created, hp, p0, biscuitEpoch, secs, this]

/-- The same for the cookie secrets. -/
theorem cookie_ticks (x : Store) (cs cn ys yn ns nn : Nat) (hc : Sound cs cn) (hy : Sound ys yn) (hn : Sound ns nn) (hp : x.createdAt = ticks cs cn)
    (hyn : real ys yn ≤ real ns nn) (L : Lifecycle) (h : ∀ t : Time, ticks ys yn - 2 ≤ t → t ≤ ticks ns nn + 2 → x.cookieMortal.lifecycle t = L) :
    R.storeLife 120 (R.clock cs cn) (R.clock ys yn) (R.clock ns nn) = L := by
  obtain ⟨a1, a2, a3⟩ := store_accurate R 120 (by norm_num) (by norm_num) cs cn ys yn ns nn hc hy hn
  have e : ((2400000 : Int) : Rat) / 10000 = 2 * 120 := by norm_num
  have e' : ((1200000 : Int) : Rat) / 10000 = 120 := by norm_num
  have p0 : ¬ (ticks cs cn < 0) := by unfold ticks; omega
  refine of_ticks _ L cs cn ys yn ns nn 1200000 2400000 hyn ?_ ?_ ?_ ?_
  · rw [e]; exact a1
  · rw [e, e']; exact a2
  · rw [e, e']; exact a3
  · intro t u v
    rw [← h t u v]
    have : ticks cs cn + 2400000 = ticks cs cn + 1200000 + 1200000 := by omega
    simp [Store.cookieMortal, Store.created, hp, p0, cookieSecretEpoch, secs, this]

/-! ### The rounding of IEEE 754 is one -/

/-- Rounding to a nearest number, however ties are broken, has the properties asked for. -/
def Rounding.ofNearest (fl : Rat → Rat) (rep : ∀ x, Rep (fl x)) (near : ∀ x r, Rep r → |fl x - x| ≤ |r - x|) : Rounding where
  fl := fl
  rep := rep
  exact := by
    intro x h
    have := near x x h
    rw [sub_self, abs_zero] at this
    have := abs_eq_zero.mp (le_antisymm this (abs_nonneg _))
    linarith
  mono := by
    intro x y h
    rcases eq_or_lt_of_le h with rfl | h
    · exact le_refl _
    by_contra c
    have c := not_le.mp c
    have a := near x _ (rep y)
    have b := near y _ (rep x)
    rw [← sq_le_sq] at a b
    nlinarith [mul_pos (sub_pos.2 c) (sub_pos.2 h)]

/-- a number with 53 bits that is at least `2 ^ e` is a multiple of `2 ^ (e - 52)` -/
theorem on_grid (r : Rat) (e : Int) (hr : Rep r) (h : (2 : Rat) ^ e ≤ |r|) : ∃ j : Int, r = j * 2 ^ (e - 52) := by
  obtain ⟨m, k, hm, rfl⟩ := hr
  have two : (2 : Rat) ≠ 0 := by norm_num
  by_cases hk : e - 52 ≤ k
  · refine ⟨m * 2 ^ (k - (e - 52)).toNat, ?_⟩
    push_cast
    rw [mul_assoc, ← zpow_natCast, ← zpow_add₀ two]
    congr 2; omega
  · have hk : k ≤ e - 53 := by omega
    have a : |(m : Rat) * 2 ^ k| = |(m : Rat)| * 2 ^ k := by rw [abs_mul, abs_of_pos (by positivity : (0 : Rat) < 2 ^ k)]
    have b : |(m : Rat)| ≤ 2 ^ 53 := by exact_mod_cast hm
    have ee : (2 : Rat) ^ e = 2 ^ 53 * 2 ^ (e - 53) := by
      rw [← zpow_natCast, ← zpow_add₀ two]; congr 1; norm_num
    have c : (2 : Rat) ^ k ≤ 2 ^ (e - 53) := zpow_le_zpow_right₀ (by norm_num) hk
    have p1 : (0 : Rat) < 2 ^ k := by positivity
    rw [a, ee] at h
    have d : (2 : Rat) ^ (e - 53) ≤ 2 ^ k := by
      have := mul_le_mul_of_nonneg_right b (le_of_lt p1)
      have := le_trans h this
      exact le_of_mul_le_mul_left this (by norm_num)
    have q : (2 : Rat) ^ k = 2 ^ (e - 53) := le_antisymm c d
    have f : (2 : Rat) ^ 53 ≤ |(m : Rat)| := by
      rw [q] at h
      exact le_of_mul_le_mul_right h (by positivity)
    have g : |(m : Rat)| = 2 ^ 53 := le_antisymm b f
    have z : (2 : Rat) ^ (e - 52) = 2 * 2 ^ (e - 53) := by
      rw [← zpow_one_add₀ two]; congr 1; ring
    rcases abs_eq (by positivity : (0 : Rat) ≤ 2 ^ 53) |>.mp g with w | w
    · exact ⟨2 ^ 52, by rw [w, q, z]; push_cast; ring⟩
    · exact ⟨-2 ^ 52, by rw [w, q, z]; push_cast; ring⟩

/-- rounding down to 53 bits -/
def down (x : Rat) : Rat := if x = 0 then 0 else ⌊x / 2 ^ (Int.log 2 |x| - 52)⌋ * 2 ^ (Int.log 2 |x| - 52)

theorem down_le (x : Rat) : down x ≤ x := by
  unfold down
  split
  · rename_i h; rw [h]
  · have g0 : (0 : Rat) < 2 ^ (Int.log 2 |x| - 52) := by positivity
    have := Int.floor_le (x / 2 ^ (Int.log 2 |x| - 52))
    rwa [le_div_iff₀ g0] at this

theorem down_rep (x : Rat) : Rep (down x) := by
  unfold down
  split
  · exact ⟨0, 0, by norm_num, by norm_num⟩
  · rename_i h
    refine ⟨_, _, ?_, rfl⟩
    have g0 : (0 : Rat) < 2 ^ (Int.log 2 |x| - 52) := by positivity
    have u : |x| < 2 ^ (Int.log 2 |x| + 1) := by
      have := Int.lt_zpow_succ_log_self (b := 2) (by norm_num) |x|
      exact_mod_cast this
    have ee : (2 : Rat) ^ (Int.log 2 |x| + 1) = 2 ^ 53 * 2 ^ (Int.log 2 |x| - 52) := by
      rw [← zpow_natCast, ← zpow_add₀ (by norm_num)]; congr 1; norm_num; ring
    rw [ee] at u
    generalize (2 : Rat) ^ (Int.log 2 |x| - 52) = g at *
    obtain ⟨u1, u2⟩ := abs_lt.mp u
    rw [abs_le]
    constructor
    · rw [Int.le_floor, le_div_iff₀ g0]; push_cast; linarith
    · have : ⌊x / g⌋ < 2 ^ 53 := by
        rw [Int.floor_lt, div_lt_iff₀ g0]; push_cast; linarith
      omega

/-- the greatest such number -/
theorem down_greatest (x r : Rat) (hr : Rep r) (h : r ≤ x) : r ≤ down x := by
  unfold down
  split
  · rename_i z; rwa [z] at h
  · rename_i z
    have g0 : (0 : Rat) < 2 ^ (Int.log 2 |x| - 52) := by positivity
    have l : (2 : Rat) ^ Int.log 2 |x| ≤ |x| := by
      have := Int.zpow_log_le_self (b := 2) (r := |x|) (by norm_num) (abs_pos.mpr z)
      exact_mod_cast this
    have key : ∀ s : Rat, Rep s → s ≤ x → (2 : Rat) ^ Int.log 2 |x| ≤ |s| → s ≤ ⌊x / 2 ^ (Int.log 2 |x| - 52)⌋ * 2 ^ (Int.log 2 |x| - 52) := by
      intro s hs hx hl
      obtain ⟨j, rfl⟩ := on_grid s _ hs hl
      apply mul_le_mul_of_nonneg_right _ (le_of_lt g0)
      have : j ≤ ⌊x / 2 ^ (Int.log 2 |x| - 52)⌋ := by rw [Int.le_floor, le_div_iff₀ g0]; exact hx
      exact_mod_cast this
    by_cases w : (2 : Rat) ^ Int.log 2 |x| ≤ |r|
    · exact key r hr h w
    · have w := not_le.mp w
      rcases lt_or_gt_of_ne z with n | n
      · exfalso
        rw [abs_of_neg n] at *
        rw [abs_of_neg (lt_of_le_of_lt h n)] at w
        linarith
      · rw [abs_of_pos n] at *
        have := key (2 ^ Int.log 2 x) ⟨1, Int.log 2 x, by norm_num, by norm_num⟩ l (by rw [abs_of_pos (by positivity)])
        exact le_trans (le_of_lt (lt_of_le_of_lt (le_abs_self r) w)) this

/-- rounding to nearest -/
def nearest (x : Rat) : Rat := if x - down x ≤ -down (-x) - x then down x else -down (-x)

theorem rep_neg (x : Rat) (h : Rep x) : Rep (-x) := by
  obtain ⟨m, e, a, rfl⟩ := h
  exact ⟨-m, e, by rwa [abs_neg], by push_cast; ring⟩

/-- Rounding to nearest: there is a rounding. -/
def Rounding.nearest : Rounding := Rounding.ofNearest F64.nearest
  (by intro x; unfold F64.nearest; split; exacts [down_rep x, rep_neg _ (down_rep (-x))])
  (by
    intro x r hr
    have a := down_le x
    have b := down_le (-x)
    have e : |F64.nearest x - x| ≤ x - down x ∧ |F64.nearest x - x| ≤ -down (-x) - x := by
      unfold F64.nearest
      split
      · rw [abs_of_nonpos (by linarith)]; constructor <;> linarith
      · rw [abs_of_nonneg (by linarith)]; constructor <;> linarith
    rcases le_total r x with h | h
    · rw [abs_of_nonpos (by linarith : r - x ≤ 0)]
      linarith [down_greatest x r hr h, e.1]
    · rw [abs_of_nonneg (by linarith : 0 ≤ r - x)]
      linarith [down_greatest (-x) (-r) (rep_neg r hr) (by linarith), e.2])

/-! ### A session made one day, 3 h 5 min 7.25 s into a run of the daemon -/

example : Sound 11107 250000000 ∧ Sound 11227 500000000 ∧ Sound 11287 250000000 := by norm_num [Sound]
/-- after 120.25 s the responder is to rekey and the initiator is not, at 180 s the session is dead -/
theorem session_example :
    Rounding.nearest.sessionLife .responder (Rounding.nearest.clock 11107 250000000) (Rounding.nearest.clock 11227 500000000) (Rounding.nearest.clock 11227 500000100) = .retired ∧
    Rounding.nearest.sessionLife .initiator (Rounding.nearest.clock 11107 250000000) (Rounding.nearest.clock 11227 500000000) (Rounding.nearest.clock 11227 500000100) = .young ∧
    Rounding.nearest.sessionLife .initiator (Rounding.nearest.clock 11107 250000000) (Rounding.nearest.clock 11287 250000000) (Rounding.nearest.clock 11287 250000200) = .dead := by
  have s1 : Sound 11107 250000000 := by norm_num [Sound]
  have s2 : Sound 11227 500000000 := by norm_num [Sound]
  have s3 : Sound 11227 500000100 := by norm_num [Sound]
  have s4 : Sound 11287 250000000 := by norm_num [Sound]
  have s5 : Sound 11287 250000200 := by norm_num [Sound]
  refine ⟨?_, ?_, ?_⟩
  · exact (session_accurate _ _ _ _ _ _ _ _ s1 s2 s3).2.1 (by norm_num [real, δ]) (by norm_num [real, δ, rekey])
  · exact (session_accurate _ _ _ _ _ _ _ _ s1 s2 s3).2.2 (by norm_num [real, δ]) (by norm_num [real, δ, rekey])
  · exact (session_accurate _ _ _ _ _ _ _ _ s1 s4 s5).1 (by norm_num [real, δ])

/-- the hypotheses of `session_ticks` are met by a responder's session 60 s after it was made -/
theorem session_ticks_example (p : Session) (hp : p.createdAt = ticks 11107 250000000) (hr : p.role = .responder) :
    Rounding.nearest.sessionLife p.role (Rounding.nearest.clock 11107 250000000) (Rounding.nearest.clock 11167 250000000) (Rounding.nearest.clock 11167 250000000) = .young := by
  refine session_ticks _ p _ _ _ _ _ _ (by norm_num [Sound]) (by norm_num [Sound]) (by norm_num [Sound]) hp (le_refl _) _ ?_
  intro t a b
  have e : (Session.mortal (some p)).lifecycle t = Mortal.lifecycle ⟨some (ticks 11107 250000000 + 1200000), some (ticks 11107 250000000 + 1800000)⟩ t := by
    simp [Session.mortal, hp, hr, rekeyAfter, rekeyAfterResponder, rejectAfter, secs]
  rw [e, tick_cases]
  have b' : t ≤ 111672502 := b
  have c : ticks 11107 250000000 = 111072500 := by norm_num [ticks]
  have k1 : ∀ t : Int, t ≤ 111672502 → ¬ (111072500 + 1800000 - t < 25) := by omega
  have k2 : ∀ t : Int, t ≤ 111672502 → ¬ (111072500 + 1200000 - t < 25) := by omega
  rw [c, if_neg (k1 t b'), if_neg (k2 t b')]

end Verif.F64
