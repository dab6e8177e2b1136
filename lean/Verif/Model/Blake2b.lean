import Verif.Model.Keccak
/-
Keyed BLAKE2b with 32 bytes of output, as the `blake2` crate (`Blake2bMac<U32>`) computes it (RFC 7693), called at
ciphers/src/subtle/rust_crypto/blake2b.rs:24-41. The crate is not part of the repository: what is written down here is the standard.
64-bit words are natural numbers below 2^64. A key longer than 64 bytes, which the crate refuses and the types exclude, is cut off.
-/
namespace Verif.Blake2b
open Keccak (W lane wordBytes pieces word)

/-- rotation of a 64-bit word to the right: RFC 7693, 2.3 -/
def rotr (n x : Nat) : Nat := (x >>> n) ||| ((x <<< (64 - n)) % W)

/-- RFC 7693, 2.6 -/
def iv : List Nat := [0x6a09e667f3bcc908, 0xbb67ae8584caa73b, 0x3c6ef372fe94f82b, 0xa54ff53a5f1d36f1,
  0x510e527fade682d1, 0x9b05688c2b3e6c1f, 0x1f83d9abfb41bd6b, 0x5be0cd19137e2179]

/-- RFC 7693, 2.7, rounds 0 to 9; rounds 10 and 11 are 0 and 1 again (3.2) -/
def sigma : List (List Nat) := [
  [0, 1, 2, 3, 4, 5, 6, 7, 8, 9, 10, 11, 12, 13, 14, 15],
  [14, 10, 4, 8, 9, 15, 13, 6, 1, 12, 0, 2, 11, 7, 5, 3],
  [11, 8, 12, 0, 5, 2, 15, 13, 10, 14, 3, 6, 7, 1, 9, 4],
  [7, 9, 3, 1, 13, 12, 11, 14, 2, 6, 5, 10, 4, 0, 15, 8],
  [9, 0, 5, 7, 2, 4, 10, 15, 14, 1, 11, 12, 6, 8, 3, 13],
  [2, 12, 6, 10, 0, 11, 8, 3, 4, 13, 7, 5, 15, 14, 1, 9],
  [12, 5, 1, 15, 14, 13, 4, 10, 0, 7, 6, 3, 9, 2, 8, 11],
  [13, 11, 7, 14, 12, 1, 3, 9, 5, 0, 15, 4, 8, 6, 2, 10],
  [6, 15, 14, 9, 11, 3, 0, 8, 12, 2, 13, 7, 1, 4, 10, 5],
  [10, 2, 8, 4, 7, 6, 1, 5, 15, 11, 9, 14, 3, 12, 13, 0],
  [0, 1, 2, 3, 4, 5, 6, 7, 8, 9, 10, 11, 12, 13, 14, 15],
  [14, 10, 4, 8, 9, 15, 13, 6, 1, 12, 0, 2, 11, 7, 5, 3]]

/-- RFC 7693, 3.1: the mixing function G on words `a b c d` of the working vector -/
def g (v : List Nat) (a b c d x y : Nat) : List Nat :=
  let va := (lane v a + lane v b + x) % W
  let vd := rotr 32 (lane v d ^^^ va)
  let vc := (lane v c + vd) % W
  let vb := rotr 24 (lane v b ^^^ vc)
  let va := (va + vb + y) % W
  let vd := rotr 16 (vd ^^^ va)
  let vc := (vc + vd) % W
  let vb := rotr 63 (vb ^^^ vc)
  (((v.set a va).set b vb).set c vc).set d vd

/-- one round of RFC 7693, 3.2, with message words `m` in the order `s` -/
def round (m : List Nat) (v : List Nat) (s : List Nat) : List Nat :=
  let e := fun i => lane m (lane s i)
  let v := g v 0 4 8 12 (e 0) (e 1)
  let v := g v 1 5 9 13 (e 2) (e 3)
  let v := g v 2 6 10 14 (e 4) (e 5)
  let v := g v 3 7 11 15 (e 6) (e 7)
  let v := g v 0 5 10 15 (e 8) (e 9)
  let v := g v 1 6 11 12 (e 10) (e 11)
  let v := g v 2 7 8 13 (e 12) (e 13)
  g v 3 4 9 14 (e 14) (e 15)

/-- RFC 7693, 3.2: the compression function; `t` bytes have been hashed, `last` block or not -/
def compress (h : List Nat) (block : Bytes) (t : Nat) (last : Bool) : List Nat :=
  let m := (pieces 8 16 block).map word
  let v := h ++ iv
  let v := v.set 12 (lane v 12 ^^^ t % W)
  let v := v.set 13 (lane v 13 ^^^ t / W % W)
  let v := if last then v.set 14 (lane v 14 ^^^ (W - 1)) else v
  let v := sigma.foldl (round m) v
  (List.range 8).map fun i => lane h i ^^^ lane v i ^^^ lane v (i + 8)

/-- RFC 7693, 3.3: the blocks one after the other; the last is not full when the input does not end on a block boundary
(missing message words count as zero) -/
def blocks (h : List Nat) (t : Nat) : List Bytes → List Nat
  | [] => h
  | [b] => compress h b (t + b.length) true
  | b :: bs => blocks (compress h b (t + b.length) false) (t + b.length) bs

/-- RFC 7693, 3.3: 32 bytes of output, key `k` -/
def blake2b (k d : Bytes) : Bytes :=
  let k := k.take 64
  let h := iv.set 0 (lane iv 0 ^^^ 0x01010000 ^^^ (k.length <<< 8) ^^^ 32)
  let m := if k = [] then d else k ++ List.replicate (128 - k.length) 0 ++ d
  let h := blocks h 0 (if m = [] then [[]] else pieces 128 m.length m)
  wordBytes (lane h 0) ++ wordBytes (lane h 1) ++ wordBytes (lane h 2) ++ wordBytes (lane h 3)

theorem blake2b_length (k d : Bytes) : (blake2b k d).length = 32 := by simp [blake2b, wordBytes]
end Verif.Blake2b
