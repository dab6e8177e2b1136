/-
Shared vocabulary of the model: byte strings, little-endian numbers and the
"Rust function with `&mut self` and `Result`" monad.
-/
namespace Verif

/-- Rust `&[u8]`, `[u8; N]`, `Vec<u8>`. Fixed sizes are tracked by hypotheses. -/
abbrev Bytes := List UInt8

/-- Specification helper: value of a byte string read as little-endian number. -/
def leNat : Bytes → Nat
  | [] => 0
  | b :: bs => b.toNat + 256 * leNat bs

/-- `n` as `len` little-endian bytes (Rust `to_le_bytes`), truncating. -/
def toLE : Nat → Nat → Bytes
  | 0, _ => []
  | len + 1, n => UInt8.ofNat (n % 256) :: toLE len (n / 256)

theorem leNat_lt (b : Bytes) : leNat b < 256 ^ b.length := by
  induction b with
  | nil => simp [leNat]
  | cons x xs ih =>
    have hx : x.toNat < 256 := x.toNat_lt
    simp only [leNat, List.length_cons, Nat.pow_succ]
    omega

theorem toLE_length (len n : Nat) : (toLE len n).length = len := by
  induction len generalizing n with
  | zero => rfl
  | succ k ih => simp [toLE, ih]

theorem leNat_toLE (len n : Nat) (h : n < 256 ^ len) : leNat (toLE len n) = n := by
  induction len generalizing n with
  | zero => simp at h; simp [toLE, leNat, h]
  | succ k ih =>
    have h2 : n / 256 < 256 ^ k := by
      rw [Nat.pow_succ] at h; omega
    have h3 : n % 256 < 256 := Nat.mod_lt _ (by decide)
    simp only [toLE, leNat, ih _ h2]
    have : (UInt8.ofNat (n % 256)).toNat = n % 256 := by
      simp [UInt8.toNat_ofNat']
    rw [this]; omega

theorem leNat_inj {a b : Bytes} (hl : a.length = b.length) (h : leNat a = leNat b) : a = b := by
  induction a generalizing b with
  | nil => cases b <;> simp_all
  | cons x xs ih =>
    cases b with
    | nil => simp at hl
    | cons y ys =>
      simp only [leNat] at h
      have hx : x.toNat < 256 := x.toNat_lt
      have hy : y.toNat < 256 := y.toNat_lt
      have h1 : x.toNat = y.toNat := by omega
      have h2 : leNat xs = leNat ys := by omega
      have h3 := ih (by simpa using hl) h2
      rw [h3, UInt8.toNat_inj.mp h1]

theorem toLE_leNat (b : Bytes) : toLE b.length (leNat b) = b := by
  apply leNat_inj
  · rw [toLE_length]
  · rw [leNat_toLE _ _ (leNat_lt b)]

theorem toLE_inj {len m n : Nat} (hm : m < 256 ^ len) (hn : n < 256 ^ len)
    (h : toLE len m = toLE len n) : m = n := by
  have := congrArg leNat h
  rwa [leNat_toLE _ _ hm, leNat_toLE _ _ hn] at this

end Verif
