import Verif.Model.Keccak
/-
SHAKE256 in a form the kernel evaluates faster, proved equal to the definition in Model/Keccak.lean.
-/
namespace Verif.Keccak

/-- the same as `round`, with the 25 lanes named -/
def roundFast : List Nat → Nat → List Nat
  | [a0, a1, a2, a3, a4, a5, a6, a7, a8, a9, a10, a11, a12, a13, a14, a15, a16, a17, a18, a19, a20, a21, a22, a23, a24], k =>
    let c0 := a0 ^^^ a5 ^^^ a10 ^^^ a15 ^^^ a20
    let c1 := a1 ^^^ a6 ^^^ a11 ^^^ a16 ^^^ a21
    let c2 := a2 ^^^ a7 ^^^ a12 ^^^ a17 ^^^ a22
    let c3 := a3 ^^^ a8 ^^^ a13 ^^^ a18 ^^^ a23
    let c4 := a4 ^^^ a9 ^^^ a14 ^^^ a19 ^^^ a24
    let d0 := c4 ^^^ rotl 1 c1
    let d1 := c0 ^^^ rotl 1 c2
    let d2 := c1 ^^^ rotl 1 c3
    let d3 := c2 ^^^ rotl 1 c4
    let d4 := c3 ^^^ rotl 1 c0
    let b0 := rotl 0 (a0 ^^^ d0)
    let b1 := rotl 44 (a6 ^^^ d1)
    let b2 := rotl 43 (a12 ^^^ d2)
    let b3 := rotl 21 (a18 ^^^ d3)
    let b4 := rotl 14 (a24 ^^^ d4)
    let b5 := rotl 28 (a3 ^^^ d3)
    let b6 := rotl 20 (a9 ^^^ d4)
    let b7 := rotl 3 (a10 ^^^ d0)
    let b8 := rotl 45 (a16 ^^^ d1)
    let b9 := rotl 61 (a22 ^^^ d2)
    let b10 := rotl 1 (a1 ^^^ d1)
    let b11 := rotl 6 (a7 ^^^ d2)
    let b12 := rotl 25 (a13 ^^^ d3)
    let b13 := rotl 8 (a19 ^^^ d4)
    let b14 := rotl 18 (a20 ^^^ d0)
    let b15 := rotl 27 (a4 ^^^ d4)
    let b16 := rotl 36 (a5 ^^^ d0)
    let b17 := rotl 10 (a11 ^^^ d1)
    let b18 := rotl 15 (a17 ^^^ d2)
    let b19 := rotl 56 (a23 ^^^ d3)
    let b20 := rotl 62 (a2 ^^^ d2)
    let b21 := rotl 55 (a8 ^^^ d3)
    let b22 := rotl 39 (a14 ^^^ d4)
    let b23 := rotl 41 (a15 ^^^ d0)
    let b24 := rotl 2 (a21 ^^^ d1)
    [(b0 ^^^ ((b1 ^^^ (W - 1)) &&& b2)) ^^^ k,
     b1 ^^^ ((b2 ^^^ (W - 1)) &&& b3),
     b2 ^^^ ((b3 ^^^ (W - 1)) &&& b4),
     b3 ^^^ ((b4 ^^^ (W - 1)) &&& b0),
     b4 ^^^ ((b0 ^^^ (W - 1)) &&& b1),
     b5 ^^^ ((b6 ^^^ (W - 1)) &&& b7),
     b6 ^^^ ((b7 ^^^ (W - 1)) &&& b8),
     b7 ^^^ ((b8 ^^^ (W - 1)) &&& b9),
     b8 ^^^ ((b9 ^^^ (W - 1)) &&& b5),
     b9 ^^^ ((b5 ^^^ (W - 1)) &&& b6),
     b10 ^^^ ((b11 ^^^ (W - 1)) &&& b12),
     b11 ^^^ ((b12 ^^^ (W - 1)) &&& b13),
     b12 ^^^ ((b13 ^^^ (W - 1)) &&& b14),
     b13 ^^^ ((b14 ^^^ (W - 1)) &&& b10),
     b14 ^^^ ((b10 ^^^ (W - 1)) &&& b11),
     b15 ^^^ ((b16 ^^^ (W - 1)) &&& b17),
     b16 ^^^ ((b17 ^^^ (W - 1)) &&& b18),
     b17 ^^^ ((b18 ^^^ (W - 1)) &&& b19),
     b18 ^^^ ((b19 ^^^ (W - 1)) &&& b15),
     b19 ^^^ ((b15 ^^^ (W - 1)) &&& b16),
     b20 ^^^ ((b21 ^^^ (W - 1)) &&& b22),
     b21 ^^^ ((b22 ^^^ (W - 1)) &&& b23),
     b22 ^^^ ((b23 ^^^ (W - 1)) &&& b24),
     b23 ^^^ ((b24 ^^^ (W - 1)) &&& b20),
     b24 ^^^ ((b20 ^^^ (W - 1)) &&& b21)]
  | a, k => round a k


theorem roundFast_eq (a : List Nat) (k : Nat) : roundFast a k = round a k := by
  unfold roundFast
  split
  · rfl
  · rfl

/-- the same as `absorb` -/
def absorbFast (a : List Nat) (block : Bytes) : List Nat :=
  let ws := (pieces 8 17 block).map word
  rc.foldl roundFast ((List.range 25).map fun i => lane a i ^^^ lane ws i)

theorem absorbFast_eq (a : List Nat) (block : Bytes) : absorbFast a block = absorb a block := by
  have : roundFast = round := by funext a k; exact roundFast_eq a k
  unfold absorbFast absorb f
  rw [this]

/-- the same as `shake256` -/
def shakeFast (m : Bytes) : Bytes :=
  let p := pad m
  let a := (pieces rate p.length p).foldl absorbFast (List.replicate 25 0)
  wordBytes (lane a 0) ++ wordBytes (lane a 1) ++ wordBytes (lane a 2) ++ wordBytes (lane a 3)

theorem shakeFast_eq : shakeFast = shake256 := by
  have : absorbFast = absorb := by funext a b; exact absorbFast_eq a b
  funext m
  unfold shakeFast shake256
  rw [this]

end Verif.Keccak
