import Verif.Model.ConstantTime
/-
The cryptographic primitives the protocol code is written against.

Nothing about secrecy is modelled. A `Crypto` is an arbitrary choice of functions
(SHAKE256, BLAKE2b, the two AEADs, the two KEMs); every theorem is stated for *all* such
choices. `Crypto.Lawful` collects the *functional* guarantees of the Rust traits
(output lengths, decrypt∘encrypt, decaps∘encaps); theorems that need it say so.
-/
namespace Verif

/-- ciphers/src/subtle/keyed_hash.rs:21-26 `enum KeyedHash`. -/
inductive HashChoice where
  | shake
  | blake
  deriving DecidableEq, Repr, Inhabited

/-- Primitives and their sizes. Randomised primitives take their coins as an argument.
`none` of a KEM function stands for liboqs reporting an error, which is a *panic*
(oqs/src/lib.rs:7-22, `oqs_call!`), never an `Err`. -/
structure Crypto where
  /-- `Shake256` with 32 bytes of output, ciphers/src/subtle/rust_crypto/keyed_shake256.rs:54-61. -/
  shake256 : Bytes → Bytes
  /-- `Blake2bMac<U32>` key, data: ciphers/src/subtle/rust_crypto/blake2b.rs:24-41. -/
  blake2b : Bytes → Bytes → Bytes
  /-- ChaCha20Poly1305 `encrypt` key, nonce, ad, plaintext:
  ciphers/src/subtle/rust_crypto/chacha20poly1305_ietf.rs. Ciphertext followed by tag. -/
  aeadEnc : Bytes → Bytes → Bytes → Bytes → Bytes
  /-- ChaCha20Poly1305 `decrypt`. -/
  aeadDec : Bytes → Bytes → Bytes → Bytes → Option Bytes
  /-- XChaCha20Poly1305 `encrypt` (without the nonce prefix):
  ciphers/src/subtle/rust_crypto/xchacha20poly1305_ietf.rs:19-47. -/
  xEnc : Bytes → Bytes → Bytes → Bytes → Bytes
  /-- XChaCha20Poly1305 `decrypt`: xchacha20poly1305_ietf.rs:49-76. -/
  xDec : Bytes → Bytes → Bytes → Bytes → Option Bytes
  /-- `StaticKem::encaps` coins, pk → (shk, ct): oqs/src/kem_macro.rs:71-82. -/
  sEncaps : Bytes → Bytes → Option (Bytes × Bytes)
  /-- `StaticKem::decaps` sk, ct → shk: oqs/src/kem_macro.rs:84-95. -/
  sDecaps : Bytes → Bytes → Option Bytes
  /-- `EphemeralKem::keygen` coins → (sk, pk): oqs/src/kem_macro.rs:59-69. -/
  eKeygen : Bytes → Option (Bytes × Bytes)
  /-- `EphemeralKem::encaps`. -/
  eEncaps : Bytes → Bytes → Option (Bytes × Bytes)
  /-- `EphemeralKem::decaps`. -/
  eDecaps : Bytes → Bytes → Option Bytes
  /-- `EphemeralKem::PK_LEN` -/
  epkLen : Nat
  /-- `EphemeralKem::CT_LEN` -/
  ectLen : Nat
  /-- `StaticKem::CT_LEN` -/
  sctLen : Nat

namespace Crypto

/-- `xor(&PAD).to(key)` with a constant pad: constant-time/src/xor.rs:40-47. -/
def xorPad (pad : UInt8) (k : Bytes) : Bytes := k.map (fun b => b ^^^ pad)

/-- `KeyedHash::keyed_hash`: ciphers/src/subtle/keyed_hash.rs:43-55, dispatching to
keyed_shake256.rs:43-63 (hash of key ‖ data) and
custom/incorrect_hmac_blake2b.rs:48-69 (`B(k ⊕ opad, B(k ⊕ ipad, data))`).
The `Result` is dropped: with 32-byte keys, which the types force, neither can fail. -/
def hash (C : Crypto) : HashChoice → Bytes → Bytes → Bytes
  | .shake, k, d => C.shake256 (k ++ d)
  | .blake, k, d => C.blake2b (xorPad 0x5C k) (C.blake2b (xorPad 0x36 k) d)

/-- cipher-traits/src/primitives/aead.rs:100-121 `encrypt_with_nonce_in_ctxt`. -/
def xSeal (C : Crypto) (k n ad pt : Bytes) : Bytes := n ++ C.xEnc k n ad pt

/-- cipher-traits/src/primitives/aead.rs:126-149 `decrypt_with_nonce_in_ctxt`
(24-byte nonce in front). -/
def xOpen (C : Crypto) (k ad ct : Bytes) : Option Bytes :=
  if ct.length < 24 + 16 then none else C.xDec k (ct.take 24) ad (ct.drop 24)

/-- The functional contract of the primitive traits: lengths and correctness.
These are the only facts about cryptography any theorem may assume. -/
structure Lawful (C : Crypto) : Prop where
  shake_len : ∀ d, (C.shake256 d).length = 32
  blake_len : ∀ k d, (C.blake2b k d).length = 32
  aead_len : ∀ k n ad pt, (C.aeadEnc k n ad pt).length = pt.length + 16
  aead_dec_enc : ∀ k n ad pt, C.aeadDec k n ad (C.aeadEnc k n ad pt) = some pt
  aead_dec_len : ∀ k n ad ct pt, C.aeadDec k n ad ct = some pt → ct.length = pt.length + 16
  x_len : ∀ k n ad pt, (C.xEnc k n ad pt).length = pt.length + 16
  x_dec_enc : ∀ k n ad pt, C.xDec k n ad (C.xEnc k n ad pt) = some pt
  x_dec_len : ∀ k n ad ct pt, C.xDec k n ad ct = some pt → ct.length = pt.length + 16
  sEncaps_len : ∀ r pk shk ct, C.sEncaps r pk = some (shk, ct) → ct.length = C.sctLen
  eEncaps_len : ∀ r pk shk ct, C.eEncaps r pk = some (shk, ct) → ct.length = C.ectLen
  eKeygen_len : ∀ r sk pk, C.eKeygen r = some (sk, pk) → pk.length = C.epkLen
  /-- KEM correctness of the ephemeral KEM. (The static key pair's correctness is a
  hypothesis on the particular key pair, see `StaticPair`.) -/
  eKem : ∀ r sk pk r' shk ct, C.eKeygen r = some (sk, pk) → C.eEncaps r' pk = some (shk, ct) →
    C.eDecaps sk ct = some shk
  /-- The largest messages fit the 2500-byte retransmission buffer
  (rosenpass/src/msgs.rs:29 `MAX_MESSAGE_LEN`; the real sizes are 1060 and 180 bytes). -/
  fits : 4 + (4 + C.epkLen + C.sctLen + 48 + 16) + 32 ≤ 2500 ∧ 176 ≤ 4 + C.epkLen + C.sctLen + 48 + 16

/-- liboqs never reports an error (otherwise `oqs_call!` panics). -/
structure KemTotal (C : Crypto) : Prop where
  sEnc : ∀ r pk, (C.sEncaps r pk).isSome
  sDec : ∀ sk ct, (C.sDecaps sk ct).isSome
  eGen : ∀ r, (C.eKeygen r).isSome
  eEnc : ∀ r pk, (C.eEncaps r pk).isSome
  eDec : ∀ sk ct, (C.eDecaps sk ct).isSome

/-- `(sk, pk)` behaves as a static key pair: decapsulation inverts encapsulation. -/
def StaticPair (C : Crypto) (sk pk : Bytes) : Prop :=
  ∀ r shk ct, C.sEncaps r pk = some (shk, ct) → C.sDecaps sk ct = some shk

theorem hash_len {C : Crypto} (L : C.Lawful) (h : HashChoice) (k d : Bytes) :
    (C.hash h k d).length = 32 := by
  cases h with
  | shake => exact L.shake_len _
  | blake => exact L.blake_len _ _

theorem xSeal_len {C : Crypto} (L : C.Lawful) (k n ad pt : Bytes) :
    (C.xSeal k n ad pt).length = n.length + pt.length + 16 := by
  simp [xSeal, L.x_len]; omega

theorem xOpen_xSeal {C : Crypto} (L : C.Lawful) (k n ad pt : Bytes) (hn : n.length = 24) :
    C.xOpen k ad (C.xSeal k n ad pt) = some pt := by
  have h1 : ¬ (C.xSeal k n ad pt).length < 24 + 16 := by rw [xSeal_len L]; omega
  unfold xOpen
  rw [if_neg h1]
  unfold xSeal
  rw [List.take_left' hn, List.drop_left' hn, L.x_dec_enc]

theorem xOpen_len {C : Crypto} (L : C.Lawful) {k ad ct pt : Bytes}
    (h : C.xOpen k ad ct = some pt) : ct.length = 24 + pt.length + 16 := by
  unfold xOpen at h
  split at h
  · cases h
  · have := L.x_dec_len _ _ _ _ _ h
    simp at this; omega

end Crypto

/-
A small lawful instance, used only by the `example`s that show hypotheses are satisfiable.
It is of course not secure: the "hash" is a polynomial checksum modulo 2^255-19.
-/
namespace Toy

def mix (b : Bytes) : Nat :=
  b.foldl (fun acc x => (acc * 1000003 + x.toNat + 1) % (2 ^ 255 - 19)) 7

def H (b : Bytes) : Bytes := toLE 32 (mix b)

def tag (k n ad pt : Bytes) : Bytes := (H (k ++ [1] ++ n ++ [2] ++ ad ++ [3] ++ pt)).take 16

def dec (k n ad ct : Bytes) : Option Bytes :=
  if ct.length < 16 then none
  else
    let pt := ct.take (ct.length - 16)
    if ct.drop (ct.length - 16) = tag k n ad pt then some pt else none

/-- Public key = secret key; the ciphertext is 4 bytes of hashed coins;
the shared key is the hash of public key and ciphertext. Public keys are 4 bytes (ephemeral). -/
def crypto : Crypto where
  shake256 := H
  blake2b k d := H ([9] ++ k ++ d)
  aeadEnc k n ad pt := pt ++ tag k n ad pt
  aeadDec := dec
  xEnc k n ad pt := pt ++ tag k n ad pt
  xDec := dec
  sEncaps r pk := let ct := toLE 112 (mix r); some (H (pk ++ ct), ct)
  sDecaps sk ct := some (H (sk ++ ct))
  eKeygen r := let k := toLE 4 (mix r); some (k, k)
  eEncaps r pk := let ct := toLE 4 (mix r); some (H (pk ++ ct), ct)
  eDecaps sk ct := some (H (sk ++ ct))
  epkLen := 4
  ectLen := 4
  sctLen := 112

theorem tag_len (k n ad pt : Bytes) : (tag k n ad pt).length = 16 := by
  simp [tag, H, toLE_length]

theorem dec_enc (k n ad pt : Bytes) : dec k n ad (pt ++ tag k n ad pt) = some pt := by
  have h := tag_len k n ad pt
  simp [dec, h]

theorem dec_len (k n ad ct pt : Bytes) (h : dec k n ad ct = some pt) :
    ct.length = pt.length + 16 := by
  unfold dec at h
  split at h
  · cases h
  · simp only [] at h
    split at h
    · cases h; simp; omega
    · cases h

theorem lawful : crypto.Lawful where
  shake_len _ := toLE_length _ _
  blake_len _ _ := toLE_length _ _
  aead_len k n ad pt := by simp [crypto, tag_len]
  aead_dec_enc := dec_enc
  aead_dec_len := dec_len
  x_len k n ad pt := by simp [crypto, tag_len]
  x_dec_enc := dec_enc
  x_dec_len := dec_len
  sEncaps_len r pk shk ct h := by simp [crypto] at h; rw [← h.2, toLE_length]; rfl
  eEncaps_len r pk shk ct h := by simp [crypto] at h; rw [← h.2, toLE_length]; rfl
  eKeygen_len r sk pk h := by simp [crypto] at h; rw [← h.2, toLE_length]; rfl
  eKem r sk pk r' shk ct h1 h2 := by
    simp [crypto] at h1 h2 ⊢
    rw [← h1.1, ← h2.1, ← h2.2, ← h1.2]
  fits := by decide

theorem kemTotal : crypto.KemTotal where
  sEnc _ _ := rfl
  sDec _ _ := rfl
  eGen _ := rfl
  eEnc _ _ := rfl
  eDec _ _ := rfl

theorem staticPair (k : Bytes) : crypto.StaticPair k k := by
  intro r shk ct h
  simp [crypto] at h ⊢
  rw [← h.1, ← h.2]

end Toy
end Verif
