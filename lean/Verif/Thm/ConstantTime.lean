import Verif.Model.ConstantTime
/-
Theorems about the crate `constant-time` (C30, C31, C32).
-/
namespace Verif.ConstantTime

theorem incrementAux_length (c : UInt8) (v : Bytes) : (incrementAux c v).length = v.length := by
  induction v generalizing c with
  | nil => rfl
  | cons x xs ih => simp [incrementAux, ih]

theorem increment_length (v : Bytes) : (increment v).length = v.length :=
  incrementAux_length 1 v

theorem incrementAux_leNat (c : UInt8) (hc : c.toNat ≤ 1) (v : Bytes) :
    leNat (incrementAux c v) = (leNat v + c.toNat) % 256 ^ v.length := by
  induction v generalizing c with
  | nil => simp [incrementAux, leNat, Nat.mod_one]
  | cons x xs ih =>
    have hx : x.toNat < 256 := x.toNat_lt
    have hlt := leNat_lt xs
    simp only [incrementAux, leNat, List.length_cons, Nat.pow_succ]
    generalize hM : 256 ^ xs.length = M at *
    rw [UInt8.toNat_add]
    by_cases h : x.toNat + c.toNat ≥ 256
    · rw [if_pos h, ih 1 (by decide)]
      have h1 : ((1:UInt8)).toNat = 1 := rfl
      rw [h1, show (2:Nat)^8 = 256 from rfl]
      have h2 : (x.toNat + c.toNat) % 256 = 0 := by omega
      rw [h2, Nat.zero_add]
      by_cases h3 : leNat xs + 1 = M
      · have e : x.toNat + 256 * leNat xs + c.toNat = M * 256 := by omega
        rw [h3, e]; simp
      · rw [Nat.mod_eq_of_lt (by omega), Nat.mod_eq_of_lt (by omega)]
        omega
    · rw [if_neg h, ih 0 (by decide)]
      have h1 : ((0:UInt8)).toNat = 0 := rfl
      rw [h1, show (2:Nat)^8 = 256 from rfl, Nat.add_zero, Nat.mod_eq_of_lt hlt,
        Nat.mod_eq_of_lt (by omega), Nat.mod_eq_of_lt (by omega)]
      omega

/-- **C30** `increment` is `+1` modulo `256^len` on little-endian numbers, for every slice,
and keeps the length. -/
theorem increment_is_succ (v : Bytes) :
    leNat (increment v) = (leNat v + 1) % 256 ^ v.length ∧ (increment v).length = v.length := by
  refine ⟨?_, increment_length v⟩
  have := incrementAux_leNat 1 (by decide) v
  simpa [increment] using this

/-- C30, non-trivial instances: carry propagation and wrap-around. -/
example : increment [255, 255, 7] = [0, 0, 8] := by decide
example : increment [255, 255] = [0, 0] := by decide

/-! ### compare -/

theorem diff_table : ∀ n : Fin 511,
    let d := Int32.ofInt ((n.val : Int) - 255)
    (d = 0 ↔ n.val = 255) ∧
    memcmpFinish d = (if n.val < 255 then -1 else if n.val = 255 then 0 else 1) ∧
    (((d - 1) &&& (~~~ d)) >>> 8) = (if n.val = 255 then -1 else 0) := by
  decide +kernel

theorem byteDiff_eq (x y : UInt8) :
    byteDiff x y = Int32.ofInt ((x.toNat : Int) - (y.toNat : Int)) := by
  rw [byteDiff, Int32.ofInt_sub]
  rfl

theorem byteDiff_spec (x y : UInt8) :
    (byteDiff x y = 0 ↔ x = y) ∧
    memcmpFinish (byteDiff x y) =
      (if x.toNat < y.toNat then -1 else if x.toNat = y.toNat then 0 else 1) ∧
    (((byteDiff x y - 1) &&& (~~~ byteDiff x y)) >>> 8) = (if x = y then -1 else 0) := by
  have hx : x.toNat < 256 := x.toNat_lt
  have hy : y.toNat < 256 := y.toNat_lt
  have h := diff_table ⟨x.toNat + 255 - y.toNat, by omega⟩
  have e : ((x.toNat + 255 - y.toNat : Nat) : Int) - 255 = (x.toNat : Int) - (y.toNat : Int) := by
    omega
  simp only [e] at h
  rw [← byteDiff_eq] at h
  have e1 : (x.toNat + 255 - y.toNat = 255) ↔ x = y := by
    rw [← UInt8.toNat_inj]; omega
  have e2 : (x.toNat + 255 - y.toNat < 255) ↔ x.toNat < y.toNat := by omega
  have e3 : x = y ↔ x.toNat = y.toNat := UInt8.toNat_inj.symm
  refine ⟨?_, ?_, ?_⟩
  · rw [h.1, e1]
  · rw [h.2.1]; simp only [e2, e1, e3]
  · rw [h.2.2]; simp only [e1]

theorem memcmpStep_spec (res : Int32) (x y : UInt8) :
    memcmpStep res (byteDiff x y) = if x = y then res else byteDiff x y := by
  have h := byteDiff_spec x y
  unfold memcmpStep
  rw [h.2.2]
  by_cases hxy : x = y
  · have : byteDiff x y = 0 := h.1.mpr hxy
    simp [hxy] at *
    rw [this]; simp
  · simp [hxy]

/-- Sign of a comparison of natural numbers as Rust `i32`. -/
def ordSign (m n : Nat) : Int32 := if m < n then -1 else if m = n then 0 else 1

theorem ordSign_lt {m n : Nat} (h : m < n) : ordSign m n = -1 := by simp [ordSign, h]
theorem ordSign_gt {m n : Nat} (h : n < m) : ordSign m n = 1 := by
  have h1 : ¬ m < n := by omega
  have h2 : ¬ m = n := by omega
  simp [ordSign, h1, h2]
theorem leNat_cons (x : UInt8) (xs : Bytes) : leNat (x :: xs) = x.toNat + 256 * leNat xs := rfl

theorem memcmpLoop_spec (a b : Bytes) (res : Int32) (hl : a.length = b.length) :
    memcmpFinish (memcmpLoop res a b) =
      if a = b then memcmpFinish res else ordSign (leNat a) (leNat b) := by
  induction a generalizing b res with
  | nil => cases b <;> simp_all [memcmpLoop]
  | cons x xs ih =>
    cases b with
    | nil => simp at hl
    | cons y ys =>
      have hl' : xs.length = ys.length := by simpa using hl
      simp only [memcmpLoop]
      rw [memcmpStep_spec, ih ys _ hl']
      have hx : x.toNat < 256 := x.toNat_lt
      have hy : y.toNat < 256 := y.toNat_lt
      by_cases hxs : xs = ys
      · subst hxs
        by_cases hxy : x = y
        · simp [hxy]
        · have hne : x.toNat ≠ y.toNat := fun h => hxy (UInt8.toNat_inj.mp h)
          simp only [hxy, if_true, if_false, List.cons.injEq, false_and]
          rw [(byteDiff_spec x y).2.1]
          rcases Nat.lt_or_gt_of_ne hne with h | h
          · rw [if_pos h, ordSign_lt (by rw [leNat_cons, leNat_cons]; omega)]
          · rw [if_neg (by omega), if_neg hne, ordSign_gt (by rw [leNat_cons, leNat_cons]; omega)]
      · simp only [hxs, if_false, List.cons.injEq, and_false]
        have hne : leNat xs ≠ leNat ys := fun h => hxs (leNat_inj hl' h)
        rcases Nat.lt_or_gt_of_ne hne with h | h
        · rw [ordSign_lt h, ordSign_lt (by rw [leNat_cons, leNat_cons]; omega)]
        · rw [ordSign_gt h, ordSign_gt (by rw [leNat_cons, leNat_cons]; omega)]

/-- **C31** For all equal-length slices `compare` returns the sign (-1, 0, 1) of the comparison of
the two slices read as little-endian integers; different lengths panic (`none`). -/
theorem compare_is_integer_comparison (a b : Bytes) :
    (a.length = b.length →
      compare a b = some (if leNat a < leNat b then -1 else if leNat a = leNat b then 0 else 1)) ∧
    (a.length ≠ b.length → compare a b = none) := by
  constructor
  · intro hl
    simp only [compare, if_pos hl]
    rw [memcmpLoop_spec a b 0 hl]
    by_cases h : a = b
    · subst h; simp; decide
    · simp [h, ordSign]
  · intro hl; simp [compare, hl]

example : compare [0, 1, 0, 0] [0, 0, 0, 1] = some (-1) := by decide
example : compare [255, 1] [0, 2] = some (-1) := by decide
example : compare [1] [1, 2] = none := by decide

/-! ### memcmp, xor -/

theorem foldl_or_eq_zero (l : Bytes) (acc : UInt8) :
    l.foldl (fun acc x => acc ||| x) acc = 0 ↔ acc = 0 ∧ ∀ x ∈ l, x = 0 := by
  induction l generalizing acc with
  | nil => simp
  | cons x xs ih =>
    simp only [List.foldl_cons, ih, List.mem_cons, forall_eq_or_imp]
    rw [UInt8.or_eq_zero_iff]
    constructor
    · rintro ⟨⟨h1, h2⟩, h3⟩; exact ⟨h1, h2, h3⟩
    · rintro ⟨h1, h2, h3⟩; exact ⟨⟨h1, h2⟩, h3⟩

theorem memeq_iff (a b : Bytes) (hl : a.length = b.length) : memeq a b = true ↔ a = b := by
  unfold memeq
  rw [beq_iff_eq, foldl_or_eq_zero]
  simp only [true_and]
  induction a generalizing b with
  | nil => cases b <;> simp_all
  | cons x xs ih =>
    cases b with
    | nil => simp at hl
    | cons y ys =>
      simp only [List.zipWith_cons_cons, List.mem_cons, forall_eq_or_imp, List.cons.injEq]
      rw [ih ys (by simpa using hl), UInt8.xor_eq_zero_iff]

/-- **C32** `memcmp` is exactly equality of slices (contents and length). -/
theorem memcmp_iff_eq (a b : Bytes) : memcmp a b = true ↔ a = b := by
  unfold memcmp
  by_cases hl : a.length = b.length
  · simp [hl, memeq_iff a b hl]
  · simp [hl]; intro h; exact hl (by rw [h])

/-- **C32** `xor` panics exactly on a length mismatch; applied twice it restores the destination,
and the result does not depend on which operand is the destination. -/
theorem xor_involutive_comm (src dst : Bytes) :
    (xorInto src dst = none ↔ src.length ≠ dst.length) ∧
    (∀ out, xorInto src dst = some out → xorInto src out = some dst ∧ xorInto dst src = some out) := by
  constructor
  · by_cases h : src.length = dst.length <;> simp [xorInto, h]
  · intro out h
    unfold xorInto at h
    by_cases hl : src.length = dst.length
    · rw [if_pos hl] at h
      injection h with h
      subst h
      have hlen : (List.zipWith (fun d s => d ^^^ s) dst src).length = src.length := by
        simp [hl]
      constructor
      · rw [xorInto, if_pos hlen.symm]
        congr 1
        clear hlen
        induction dst generalizing src with
        | nil => cases src <;> simp_all
        | cons x xs ih =>
          cases src with
          | nil => simp at hl
          | cons y ys =>
            simp only [List.zipWith_cons_cons]
            rw [ih ys (by simpa using hl)]
            simp [UInt8.xor_assoc]
      · rw [xorInto, if_pos hl.symm]
        congr 1
        rw [List.zipWith_comm]
        congr 1
        funext a b
        exact UInt8.xor_comm _ _
    · simp [hl] at h

example : xorInto [1, 2, 3] [255, 0, 3] = some [254, 2, 0] := by decide
example : memcmp [1, 2] [1, 2, 3] = false := by decide

end Verif.ConstantTime
