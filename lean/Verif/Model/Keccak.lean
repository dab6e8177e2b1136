import Verif.Model.Base
/-
SHAKE256 as the `shake` crate computes it (FIPS 202), of which ciphers/src/subtle/rust_crypto/keyed_shake256.rs reads 32 bytes.
The crate is not part of the repository: what is written down here is the standard. 64-bit lanes are natural numbers below 2^64.
-/
namespace Verif.Keccak

/-- 2^64 -/
def W : Nat := 18446744073709551616

/-- rotation of a 64-bit word to the left (FIPS 202, 3.2.2; `0 < n < 64` or `n = 0`) -/
def rotl (n x : Nat) : Nat := ((x <<< n) % W) ||| (x >>> (64 - n))

/-- lane `i = x + 5 y` of a state -/
def lane (a : List Nat) (i : Nat) : Nat := a.getD i 0

/-- FIPS 202, 3.2.1 θ -/
def theta (a : List Nat) : List Nat :=
  let c := (List.range 5).map fun x => lane a x ^^^ lane a (x + 5) ^^^ lane a (x + 10) ^^^ lane a (x + 15) ^^^ lane a (x + 20)
  let d := (List.range 5).map fun x => lane c ((x + 4) % 5) ^^^ rotl 1 (lane c ((x + 1) % 5))
  (List.range 25).map fun i => lane a i ^^^ lane d (i % 5)

/-- FIPS 202, table 2: the rotation of lane `x + 5 y`, modulo 64 -/
def offsets : List Nat := [0, 1, 62, 28, 27, 36, 44, 6, 55, 20, 3, 10, 43, 25, 39, 41, 45, 15, 21, 8, 18, 2, 61, 56, 14]

/-- FIPS 202, 3.2.2 ρ and 3.2.3 π: lane `(X, Y)` of the result is lane `((X + 3 Y) mod 5, X)` of the argument, rotated -/
def rhoPi (a : List Nat) : List Nat :=
  (List.range 25).map fun i =>
    let j := (i % 5 + 3 * (i / 5)) % 5 + 5 * (i % 5)
    rotl (lane offsets j) (lane a j)

/-- FIPS 202, 3.2.4 χ -/
def chi (a : List Nat) : List Nat :=
  (List.range 25).map fun i =>
    let r := 5 * (i / 5)
    lane a i ^^^ ((lane a (r + (i + 1) % 5) ^^^ (W - 1)) &&& lane a (r + (i + 2) % 5))

/-- FIPS 202, 3.2.5: the round constants -/
def rc : List Nat := [0x0000000000000001, 0x0000000000008082, 0x800000000000808a, 0x8000000080008000, 0x000000000000808b, 0x0000000080000001,
  0x8000000080008081, 0x8000000000008009, 0x000000000000008a, 0x0000000000000088, 0x0000000080008009, 0x000000008000000a,
  0x000000008000808b, 0x800000000000008b, 0x8000000000008089, 0x8000000000008003, 0x8000000000008002, 0x8000000000000080,
  0x000000000000800a, 0x800000008000000a, 0x8000000080008081, 0x8000000000008080, 0x0000000080000001, 0x8000000080008008]

/-- one round: FIPS 202, 3.3 -/
def round (a : List Nat) (k : Nat) : List Nat :=
  match chi (rhoPi (theta a)) with
  | x :: xs => (x ^^^ k) :: xs
  | [] => []

/-- FIPS 202, 3.4 Keccak-f[1600] -/
def f (a : List Nat) : List Nat := rc.foldl round a

/-- little-endian word of (up to) eight bytes -/
def word (b : Bytes) : Nat := leNat b

/-- the bytes of a word, little endian -/
def wordBytes (n : Nat) : Bytes := (List.range 8).map fun i => UInt8.ofNat (n >>> (8 * i))

/-- cuts a byte string into pieces of `n` bytes (the last may be shorter); `fuel` pieces at most -/
def pieces (n : Nat) : Nat → Bytes → List Bytes
  | 0, _ => []
  | fuel + 1, b => if b.isEmpty then [] else b.take n :: pieces n fuel (b.drop n)

/-- bytes per block: FIPS 202, 6.2, capacity 512 -/
def rate : Nat := 136

/-- FIPS 202, 6.2 and 5.1: the four bits 1111 of SHAKE, then pad10*1, for byte strings (B.2) -/
def pad (m : Bytes) : Bytes :=
  let q := rate - m.length % rate
  if q = 1 then m ++ [0x9f] else m ++ [0x1f] ++ List.replicate (q - 2) 0 ++ [0x80]

/-- one block is XORed into the state, which is then permuted: FIPS 202, 4 step 6 -/
def absorb (a : List Nat) (block : Bytes) : List Nat :=
  let ws := (pieces 8 17 block).map word
  f ((List.range 25).map fun i => lane a i ^^^ lane ws i)

/-- the first 32 bytes of the output of SHAKE256: FIPS 202, 4 and 6.2 -/
def shake256 (m : Bytes) : Bytes :=
  let p := pad m
  let a := (pieces rate p.length p).foldl absorb (List.replicate 25 0)
  wordBytes (lane a 0) ++ wordBytes (lane a 1) ++ wordBytes (lane a 2) ++ wordBytes (lane a 3)

theorem shake256_length (m : Bytes) : (shake256 m).length = 32 := by simp [shake256, wordBytes]

end Verif.Keccak
