import Verif.Model.Blake2b
import Verif.Model.Aead
/-
ChaCha20-Poly1305 (RFC 8439) and XChaCha20-Poly1305 (draft-irtf-cfrg-xchacha-03) as the `chacha20poly1305` crate computes them, called at
ciphers/src/subtle/rust_crypto/{chacha20poly1305_ietf,xchacha20poly1305_ietf}.rs. The crate is not part of the repository: what is
written down here is the standard, and the crate's check of the message length. 32-bit words are natural numbers below 2^32.
-/
namespace Verif.ChaCha
open Keccak (lane pieces word)

/-- 2^32 -/
def W : Nat := 4294967296

/-- rotation of a 32-bit word to the left: RFC 8439, 2.1 -/
def rotl (n x : Nat) : Nat := ((x <<< n) % W) ||| (x >>> (32 - n))

/-- RFC 8439, 2.1 and 2.2: the quarter round on words `a b c d` of the state -/
def quarter (v : List Nat) (a b c d : Nat) : List Nat :=
  let va := (lane v a + lane v b) % W
  let vd := rotl 16 (lane v d ^^^ va)
  let vc := (lane v c + vd) % W
  let vb := rotl 12 (lane v b ^^^ vc)
  let va := (va + vb) % W
  let vd := rotl 8 (vd ^^^ va)
  let vc := (vc + vd) % W
  let vb := rotl 7 (vb ^^^ vc)
  (((v.set a va).set b vb).set c vc).set d vd

/-- RFC 8439, 2.3: a column round and a diagonal round -/
def doubleRound (v : List Nat) : List Nat :=
  let v := quarter v 0 4 8 12
  let v := quarter v 1 5 9 13
  let v := quarter v 2 6 10 14
  let v := quarter v 3 7 11 15
  let v := quarter v 0 5 10 15
  let v := quarter v 1 6 11 12
  let v := quarter v 2 7 8 13
  quarter v 3 4 9 14

/-- RFC 8439, 2.3: "expand 32-byte k", the key, and sixteen more bytes -/
def init (key tail : Bytes) : List Nat :=
  [0x61707865, 0x3320646e, 0x79622d32, 0x6b206574] ++ (pieces 4 8 key).map word ++ (pieces 4 4 tail).map word

/-- twenty rounds -/
def rounds (v : List Nat) : List Nat := (List.range 10).foldl (fun v _ => doubleRound v) v

/-- a 32-bit word, little endian -/
def wordBytes (n : Nat) : Bytes := toLE 4 n

/-- RFC 8439, 2.3 the ChaCha20 block function -/
def block (key nonce : Bytes) (ctr : Nat) : Bytes :=
  let s := init key (toLE 4 ctr ++ nonce)
  let v := rounds s
  (List.range 16).flatMap fun i => wordBytes ((lane v i + lane s i) % W)

/-- draft-irtf-cfrg-xchacha-03, 2.2 HChaCha20 -/
def hchacha (key nonce : Bytes) : Bytes :=
  let v := rounds (init key nonce)
  [0, 1, 2, 3, 12, 13, 14, 15].flatMap fun i => wordBytes (lane v i)

/-- RFC 8439, 2.4: key stream, from block 1 on -/
def stream (key nonce : Bytes) (len : Nat) : Bytes :=
  (List.range ((len + 63) / 64)).flatMap fun i => block key nonce (1 + i)

/-- RFC 8439, 2.4: plaintext and key stream are XORed -/
def crypt (key nonce b : Bytes) : Bytes := List.zipWith (· ^^^ ·) b (stream key nonce b.length)

/-- RFC 8439, 2.5 Poly1305 -/
def poly1305 (key m : Bytes) : Bytes :=
  let r := leNat (key.take 16) &&& 0x0ffffffc0ffffffc0ffffffc0fffffff
  let s := leNat (key.drop 16)
  let a := (pieces 16 m.length m).foldl (fun a b => (a + leNat (b ++ [1])) * r % (2 ^ 130 - 5)) 0
  toLE 16 (a + s)

/-- zeros up to a multiple of sixteen: RFC 8439, 2.8 -/
def pad16 (b : Bytes) : Bytes := List.replicate ((16 - b.length % 16) % 16) 0

/-- RFC 8439, 2.8: the tag of a ciphertext -/
def tag (key nonce ad ct : Bytes) : Bytes :=
  poly1305 ((block key nonce 0).take 32) (ad ++ pad16 ad ++ ct ++ pad16 ct ++ toLE 8 ad.length ++ toLE 8 ct.length)

/-- RFC 8439, 2.8 AEAD_CHACHA20_POLY1305 encryption, the tag behind the ciphertext -/
def enc (key nonce ad pt : Bytes) : Bytes :=
  let ct := crypt key nonce pt
  ct ++ tag key nonce ad ct

/-- RFC 8439, 2.8 decryption -/
def dec (key nonce ad ct : Bytes) : Option Bytes :=
  if ct.length < 16 then none
  else
    let c := ct.take (ct.length - 16)
    if ct.drop (ct.length - 16) = tag key nonce ad c then some (crypt key nonce c) else none

/-- draft-irtf-cfrg-xchacha-03, 2.3: key and nonce of the ChaCha20 that does the work -/
def xKey (key nonce : Bytes) : Bytes := hchacha key (nonce.take 16)
/-- see `xKey` -/
def xNonce (nonce : Bytes) : Bytes := [0, 0, 0, 0] ++ nonce.drop 16

/-- draft-irtf-cfrg-xchacha-03, 2.3 AEAD_XChaCha20_Poly1305 -/
def xEnc (key nonce ad pt : Bytes) : Bytes := enc (xKey key nonce) (xNonce nonce) ad pt
/-- see `xEnc` -/
def xDec (key nonce ad ct : Bytes) : Option Bytes := dec (xKey key nonce) (xNonce nonce) ad ct

/-- the crate refuses messages of this many 64-byte blocks (chacha20poly1305 crate, cipher.rs `MAX_BLOCKS`) -/
def maxBlocks : Nat := W - 1

/-- `ChaCha20Poly1305: AeadInPlace`: in place, the tag apart, the length checked; the tag is checked before the buffer is touched -/
def detached : Aead.Detached where
  enc k n ad b := if maxBlocks ≤ b.length / 64 then none else some (crypt k n b, tag k n ad (crypt k n b))
  dec k n ad b t := if maxBlocks ≤ b.length / 64 then (false, b) else if t = tag k n ad b then (true, crypt k n b) else (false, b)

/-- `XChaCha20Poly1305: AeadInPlace` -/
def xDetached : Aead.Detached where
  enc k n ad b := detached.enc (xKey k n) (xNonce n) ad b
  dec k n ad b t := detached.dec (xKey k n) (xNonce n) ad b t

end Verif.ChaCha
