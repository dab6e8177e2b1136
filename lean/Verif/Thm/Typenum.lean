import Verif.Model.Typenum
/-
`typenum2const!` is exact, modulo the width of the target type.
-/
namespace Verif.Typenum

/-! ### Specification -/

/-- the number that a type denotes -/
def UNum.value : UNum → Nat
  | .term => 0
  | .uint rest b => 2 * rest.value + b.toNat

def TInt.value : TInt → Int
  | .z0 => 0
  | .pint u => u.value
  | .nint u => - (u.value : Int)

/-- the number that a constant of type `t` denotes -/
def Target.number (t : Target) (v : BitVec t.width) : Int := if t.signed then v.toInt else v.toNat

/-- the numbers of type `t` -/
def Target.Range (t : Target) (n : Int) : Prop :=
  if t.signed then - 2 ^ (t.width - 1) ≤ n ∧ n < 2 ^ (t.width - 1) else 0 ≤ n ∧ n < 2 ^ t.width

/-! ### Proofs -/

theorem shl_add (w n : Nat) (b : Bool) : (BitVec.ofNat w n <<< 1) + bit w b = BitVec.ofNat w (2 * n + b.toNat) := by
  apply BitVec.eq_of_toNat_eq
  cases b <;> simp [bit, BitVec.toNat_add, BitVec.toNat_shiftLeft, Nat.shiftLeft_eq, Nat.mul_comm 2 n]

theorem no_carry (w : Nat) (hw : 1 < w) (v : BitVec w) (b : Bool) : BitVec.uaddOverflow (v <<< 1) (bit w b) = false ∧ BitVec.saddOverflow (v <<< 1) (bit w b) = false := by
  obtain ⟨k, rfl⟩ : ∃ k, w = k + 2 := ⟨w - 2, by omega⟩
  have hp : 2 ^ (k + 2) = 4 * 2 ^ k := by rw [Nat.pow_add]; omega
  have hp1 : 2 ^ (k + 1) = 2 * 2 ^ k := by rw [Nat.pow_add]; omega
  have hpos : 0 < 2 ^ k := Nat.two_pow_pos k
  have hv : (v <<< 1).toNat = 2 * (v.toNat % 2 ^ (k + 1)) := by
    rw [BitVec.toNat_shiftLeft, Nat.shiftLeft_eq, Nat.pow_one, Nat.mul_comm, show 2 ^ (k + 2) = 2 * 2 ^ (k + 1) by omega, Nat.mul_mod_mul_left]
  have hlt : v.toNat % 2 ^ (k + 1) < 2 ^ (k + 1) := Nat.mod_lt _ (by omega)
  have hb : (bit (k + 2) b).toNat = b.toNat := by
    cases b
    · rfl
    · show (1#(k + 2)).toNat = 1
      rw [BitVec.toNat_ofNat]; exact Nat.mod_eq_of_lt (by omega)
  have hbl : b.toNat ≤ 1 := Bool.toNat_le b
  generalize v.toNat % 2 ^ (k + 1) = m at hv hlt
  constructor
  · unfold BitVec.uaddOverflow
    rw [hv, hb]; simp; omega
  · have hbi : (bit (k + 2) b).toInt = b.toNat := by
      rw [BitVec.toInt_eq_toNat_cond, hb, if_pos (by omega)]
    have hvi : (v <<< 1).toInt = if m < 2 ^ k then (2 * m : Int) else 2 * m - 4 * 2 ^ k := by
      rw [BitVec.toInt_eq_toNat_cond, hv]
      by_cases h : m < 2 ^ k
      · rw [if_pos (by omega), if_pos h]; rfl
      · rw [if_neg (by omega), if_neg h]
        have : ((2 ^ (k + 2) : Nat) : Int) = 4 * 2 ^ k := by rw [hp]; simp
        simp only [Int.natCast_mul]
        rw [this]; rfl
    unfold BitVec.saddOverflow
    rw [hvi, hbi]
    have e1 : (2 ^ (k + 2 - 1) : Int) = 2 * 2 ^ k := by
      rw [show k + 2 - 1 = k + 1 by omega, Int.pow_succ]; omega
    have e2 : ((2 ^ k : Nat) : Int) = 2 ^ k := by simp
    rw [e1]
    simp only [Bool.or_eq_false_iff, decide_eq_false_iff_not]
    split <;> omega

theorem ofUNum_eq (t : Target) (hw : 1 < t.width) (u : UNum) : ofUNum t u = some (BitVec.ofNat t.width u.value) := by
  induction u with
  | term => rfl
  | uint rest b ih =>
    unfold ofUNum
    rw [ih]
    dsimp only
    unfold add lshift
    rw [(no_carry _ hw _ b).1, (no_carry _ hw _ b).2, shl_add]
    simp [UNum.value]

theorem rot (w : Nat) (hw : 1 < w) : (1#w).rotateRight 1 = BitVec.intMin w := by
  apply BitVec.eq_of_getLsbD_eq
  intro i hi
  rw [BitVec.getLsbD_rotateRight_of_lt (by omega), BitVec.getLsbD_intMin]
  by_cases h : i < w - 1
  · simp [h]; omega
  · have : i = w - 1 := by omega
    subst this
    have e1 : decide (w - 1 < w - 1) = false := by simp
    have e2 : decide (w - 1 < w) = true := by simpa using hi
    have e3 : decide (w - 1 + 1 = w) = true := by simp; omega
    rw [e1, e2, e3, show w - 1 - (w - 1) = 0 by omega]
    simp; omega

theorem neg_eq (w : Nat) (hw : 1 < w) (n : Nat) : neg w (BitVec.ofNat w n) = some (BitVec.ofInt w (-(n : Int))) := by
  unfold neg
  rw [rot w hw]
  split
  · rename_i h
    rw [BitVec.ofInt_neg, BitVec.ofInt_natCast, h, BitVec.neg_intMin]
  · rename_i h
    rw [BitVec.ofInt_neg, BitVec.ofInt_natCast]
    rw [if_neg]
    rw [BitVec.negOverflow_eq]
    simp
    intro _; exact h

/-- **C98.** Every type-level integer converts to the constant that is congruent to it modulo `2^w`, `w` the width of the target type, and
the conversion never fails to compile, except for a negative number and an unsigned type. -/
theorem conversion_modular (t : Target) (hw : 1 < t.width) :
    (∀ u, ofUNum t u = some (BitVec.ofInt t.width u.value)) ∧
    (∀ u, ofTInt t (.pint u) = some (BitVec.ofInt t.width u.value)) ∧ ofTInt t .z0 = some (BitVec.ofInt t.width 0) ∧
    (∀ u, ofTInt t (.nint u) = if t.signed then some (BitVec.ofInt t.width (-(u.value : Int))) else none) := by
  have hu : ∀ (s : Bool) u, ofUNum ⟨t.width, s⟩ u = some (BitVec.ofInt t.width u.value) := by
    intro s u; rw [ofUNum_eq ⟨t.width, s⟩ hw u, BitVec.ofInt_natCast]
  refine ⟨hu t.signed, hu false, by simp [ofTInt], fun u => ?_⟩
  unfold ofTInt
  cases t.signed with
  | false => simp
  | true =>
    simp only [hu, BitVec.ofInt_natCast, neg_eq _ hw, if_true]

theorem number_ofInt (t : Target) (hw : 1 < t.width) (n : Int) (h : t.Range n) : t.number (BitVec.ofInt t.width n) = n := by
  unfold Target.number
  unfold Target.Range at h
  cases hs : t.signed with
  | true =>
    rw [hs] at h
    simp only [if_true] at h ⊢
    exact BitVec.toInt_ofInt_eq_self (by omega) h.1 h.2
  | false =>
    rw [hs] at h
    simp only [if_false, Bool.false_eq_true] at h ⊢
    rw [BitVec.toNat_ofInt, Int.emod_eq_of_lt h.1 (by simpa using h.2)]
    exact Int.toNat_of_nonneg h.1

/-- **C98.** Whenever the number is one of the target type, the constant is that number. -/
theorem conversion_exact (t : Target) (hw : 1 < t.width) :
    (∀ u : UNum, t.Range u.value → ∃ v, ofUNum t u = some v ∧ t.number v = u.value) ∧
    (∀ x : TInt, t.Range x.value → (t.signed = true ∨ ∀ u, x ≠ .nint u) → ∃ v, ofTInt t x = some v ∧ t.number v = x.value) := by
  obtain ⟨h1, h2, h3, h4⟩ := conversion_modular t hw
  refine ⟨fun u hu => ⟨_, h1 u, number_ofInt t hw _ hu⟩, fun x hx hs => ?_⟩
  cases x with
  | z0 => exact ⟨_, h3, number_ofInt t hw _ hx⟩
  | pint u => exact ⟨_, h2 u, number_ofInt t hw _ hx⟩
  | nint u =>
    rcases hs with hs | hs
    · exact ⟨_, by rw [h4 u, if_pos hs]; rfl, number_ofInt t hw _ hx⟩
    · exact absurd rfl (hs u)

/-- **C98** (limit): a number that does not fit is not refused; its high bits are dropped silently. -/
theorem too_large_wraps (t : Target) (hw : 1 < t.width) (u : UNum) : ∃ v, ofUNum t u = some v ∧ v.toNat = u.value % 2 ^ t.width := by
  refine ⟨_, ofUNum_eq t hw u, BitVec.toNat_ofNat _ _⟩

/-- the number 300 -/
def u300 : UNum := [true, false, false, true, false, true, true, false, false].foldl .uint .term

/-- C98: 300 as u16 is 300, as u8 it is 44; -128 as i8 is -128, as i16 too -/
example : u300.value = 300 ∧ (⟨16, false⟩ : Target).Range u300.value ∧ (ofUNum ⟨16, false⟩ u300).map (·.toNat) = some 300 ∧ (ofUNum ⟨8, false⟩ u300).map (·.toNat) = some 44 ∧
    (⟨8, true⟩ : Target).Range (-128) ∧ (ofTInt ⟨8, true⟩ (.nint ([true, false, false, false, false, false, false, false].foldl .uint .term))).map (·.toInt) = some (-128) ∧
    (ofTInt ⟨16, true⟩ (.nint ([true, false, false, false, false, false, false, false].foldl .uint .term))).map (·.toInt) = some (-128) := by
  refine ⟨by decide, by unfold Target.Range; decide, by decide, by decide, by unfold Target.Range; decide, by decide, by decide⟩

end Verif.Typenum
