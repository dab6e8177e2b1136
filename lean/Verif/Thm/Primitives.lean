import Verif.Model.ChaCha
import Verif.Model.GenIpc
import Verif.Model.ApiMsgs
import Verif.Thm.Aead
/-
C135, C136, C137: the hash functions and ciphers themselves. Everything else in this development is proved for arbitrary primitives that keep the contract
`Crypto.Lawful`; here SHAKE256, BLAKE2b, ChaCha20-Poly1305 and XChaCha20-Poly1305, written down from their standards, are shown to keep it.
-/
namespace Verif

/-! ### Known answers: the definitions are those of the standards -/
section KnownAnswers
open Keccak Blake2b ChaCha

/-- FIPS 202 example values: SHAKE256 of the empty message -/
example : shake256 [] = [0x46, 0xb9, 0xdd, 0x2b, 0x0b, 0xa8, 0x8d, 0x13, 0x23, 0x3b, 0x3f, 0xeb, 0x74, 0x3e, 0xeb, 0x24, 0x3f, 0xcd, 0x52, 0xea, 0x62, 0xb8, 0x1b, 0x82,
    0xb5, 0x0c, 0x27, 0x64, 0x6e, 0xd5, 0x76, 0x2f] := by decide +kernel
/-- two blocks -/
example : shake256 (List.replicate 200 0xa3) = [0xcd, 0x8a, 0x92, 0x0e, 0xd1, 0x41, 0xaa, 0x04, 0x07, 0xa2, 0x2d, 0x59, 0x28, 0x86, 0x52, 0xe9, 0xd9, 0xf1, 0xa7, 0xee, 0x0c, 0x1e, 0x7c, 0x1c,
    0xa6, 0x99, 0x42, 0x4d, 0xa8, 0x4a, 0x90, 0x4d] := by decide +kernel
/-- BLAKE2b-256 of "abc" -/
example : blake2b [] [0x61, 0x62, 0x63] = [0xbd, 0xdd, 0x81, 0x3c, 0x63, 0x42, 0x39, 0x72, 0x31, 0x71, 0xef, 0x3f, 0xee, 0x98, 0x57, 0x9b, 0x94, 0x96, 0x4e, 0x3b, 0xb1, 0xcb, 0x3e, 0x42,
    0x72, 0x62, 0xc8, 0xc0, 0x68, 0xd5, 0x23, 0x19] := by decide +kernel
/-- with a key, two and a bit blocks of data -/
example : blake2b (List.replicate 32 7) (List.replicate 257 7) = [108, 32, 192, 64, 234, 142, 94, 219, 18, 13, 60, 239, 96, 246, 96, 236, 227, 149, 114, 148, 144, 243, 70, 169, 233, 19, 147,
    173, 149, 48, 83, 55] := by decide +kernel
/-- RFC 8439, 2.3.2: the block function -/
example : (block ((List.range 32).map UInt8.ofNat) [0, 0, 0, 9, 0, 0, 0, 0x4a, 0, 0, 0, 0] 1).take 16 =
    [0x10, 0xf1, 0xe7, 0xe4, 0xd1, 0x3b, 0x59, 0x15, 0x50, 0x0f, 0xdd, 0x1f, 0xa3, 0x20, 0x71, 0xc4] := by decide +kernel
/-- RFC 8439, 2.5.2: Poly1305 -/
example : poly1305 [0x85, 0xd6, 0xbe, 0x78, 0x57, 0x55, 0x6d, 0x33, 0x7f, 0x44, 0x52, 0xfe, 0x42, 0xd5, 0x06, 0xa8, 0x01, 0x03, 0x80, 0x8a, 0xfb, 0x0d, 0xb2, 0xfd, 0x4a, 0xbf, 0xf6, 0xaf, 0x41, 0x49, 0xf5, 0x1b]
    (lbl "Cryptographic Forum Research Group".toList) =
    [0xa8, 0x06, 0x1d, 0xc1, 0x30, 0x51, 0x36, 0xc6, 0xc2, 0x2b, 0x8b, 0xaf, 0x0c, 0x01, 0x27, 0xa9] := by decide +kernel
/-- RFC 8439, 2.8.2: the tag of the example -/
example : (enc ((List.range 32).map fun i => UInt8.ofNat (0x80 + i)) [7, 0, 0, 0, 0x40, 0x41, 0x42, 0x43, 0x44, 0x45, 0x46, 0x47] [0x50, 0x51, 0x52, 0x53, 0xc0, 0xc1, 0xc2, 0xc3, 0xc4, 0xc5, 0xc6, 0xc7]
    (lbl "Ladies and Gentlemen of the class of '99: If I could offer you only one tip for the future, sunscreen would be it.".toList)).drop 114 =
    [0x1a, 0xe1, 0x0b, 0x59, 0x4f, 0x09, 0xe2, 0x6a, 0x7e, 0x90, 0x2e, 0xcb, 0xd0, 0x60, 0x06, 0x91] := by decide +kernel
/-- draft-irtf-cfrg-xchacha-03, A.3.1: the tag of the example -/
example : (xEnc ((List.range 32).map fun i => UInt8.ofNat (0x80 + i)) ((List.range 24).map fun i => UInt8.ofNat (0x40 + i)) [0x50, 0x51, 0x52, 0x53, 0xc0, 0xc1, 0xc2, 0xc3, 0xc4, 0xc5, 0xc6, 0xc7]
    (lbl "Ladies and Gentlemen of the class of '99: If I could offer you only one tip for the future, sunscreen would be it.".toList)).drop 114 =
    [0xc0, 0x87, 0x59, 0x24, 0xc1, 0xc7, 0x98, 0x79, 0x47, 0xde, 0xaf, 0xd8, 0x78, 0x0a, 0xcf, 0x49] := by decide +kernel

end KnownAnswers

/-! ### C135: the contracts -/
namespace ChaCha

theorem block_length (k n : Bytes) (c : Nat) : (block k n c).length = 64 := by
  simp only [block, wordBytes, toLE_length, List.length_flatMap]
  rfl

theorem sum_const (f : Nat → Nat) (c : Nat) (h : ∀ i, f i = c) : ∀ l : List Nat, (l.map f).sum = c * l.length
  | [] => by simp
  | x :: l => by simp [sum_const f c h l, h, Nat.mul_add, Nat.add_comm]

theorem stream_length (k n : Bytes) (len : Nat) : (stream k n len).length = 64 * ((len + 63) / 64) := by
  unfold stream
  rw [List.length_flatMap, sum_const _ 64 (fun i => block_length ..), List.length_range]

theorem crypt_length (k n b : Bytes) : (crypt k n b).length = b.length := by
  simp only [crypt, List.length_zipWith, stream_length]
  omega

theorem zip_xor : ∀ (b s : Bytes), b.length ≤ s.length → List.zipWith (· ^^^ ·) (List.zipWith (· ^^^ ·) b s) s = b
  | [], _, _ => by simp
  | x :: b, [], h => by simp at h
  | x :: b, y :: s, h => by
    simp only [List.zipWith_cons_cons]
    rw [zip_xor b s (by simpa using h), UInt8.xor_assoc, UInt8.xor_self, UInt8.xor_zero]

theorem crypt_crypt (k n b : Bytes) : crypt k n (crypt k n b) = b := by
  have h := crypt_length k n b
  unfold crypt at h ⊢
  rw [h]
  exact zip_xor _ _ (by rw [stream_length]; omega)

theorem tag_length (k n ad c : Bytes) : (tag k n ad c).length = 16 := by
  simp [tag, poly1305, toLE_length]

/-- longest message the crate takes -/
def limit : Nat := 64 * maxBlocks - 1

/-- **C135**, ChaCha20-Poly1305: what C95 assumes of the crate's cipher holds of the cipher of RFC 8439. -/
theorem detached_lawful : detached.Lawful limit where
  enc_total k n ad b h := by
    have : ¬ maxBlocks ≤ b.length / 64 := by unfold limit maxBlocks W at *; omega
    simp [detached, this]
  enc_len k n ad b c t h := by
    simp only [detached] at h
    split at h
    · cases h
    · cases h; exact ⟨crypt_length .., tag_length ..⟩
  dec_enc k n ad b c t h := by
    simp only [detached] at h ⊢
    split at h
    · cases h
    · rename_i hl
      cases h
      rw [crypt_length, if_neg hl, if_pos rfl, crypt_crypt]
  dec_len k n ad c t := by
    simp only [detached]
    split
    · rfl
    · split
      · exact crypt_length ..
      · rfl
  dec_fail k n ad c t h := by
    simp only [detached] at h ⊢
    split
    · rfl
    · rename_i hl
      rw [if_neg hl] at h
      split
      · rename_i ht; rw [if_pos ht] at h; cases h
      · rfl

theorem xDetached_enc (k n ad b : Bytes) : xDetached.enc k n ad b = detached.enc (xKey k n) (xNonce n) ad b := by simp only [xDetached]
theorem xDetached_dec (k n ad b t : Bytes) : xDetached.dec k n ad b t = detached.dec (xKey k n) (xNonce n) ad b t := by simp only [xDetached]

/-- **C135**, XChaCha20-Poly1305. -/
theorem xDetached_lawful : xDetached.Lawful limit where
  enc_total k n ad b h := by rw [xDetached_enc]; exact detached_lawful.enc_total _ _ _ _ h
  enc_len k n ad b c t h := by rw [xDetached_enc] at h; exact detached_lawful.enc_len _ _ _ _ _ _ h
  dec_enc k n ad b c t h := by rw [xDetached_enc] at h; rw [xDetached_dec]; exact detached_lawful.dec_enc _ _ _ _ _ _ h
  dec_len k n ad c t := by rw [xDetached_dec]; exact detached_lawful.dec_len _ _ _ _ _
  dec_fail k n ad c t h := by rw [xDetached_dec] at h ⊢; exact detached_lawful.dec_fail _ _ _ _ _ h

theorem enc_length (k n ad pt : Bytes) : (enc k n ad pt).length = pt.length + 16 := by
  simp [enc, crypt_length, tag_length]

theorem dec_enc (k n ad pt : Bytes) : dec k n ad (enc k n ad pt) = some pt := by
  have hl := enc_length k n ad pt
  unfold dec
  rw [if_neg (by omega), hl]
  unfold enc
  dsimp only
  rw [List.take_left' (by rw [crypt_length]; omega), List.drop_left' (by rw [crypt_length]; omega), if_pos rfl, crypt_crypt]

theorem dec_length {k n ad ct pt : Bytes} (h : dec k n ad ct = some pt) : ct.length = pt.length + 16 := by
  unfold dec at h
  split at h
  · cases h
  · dsimp only at h
    split at h
    · cases h
      rw [crypt_length, List.length_take]
      omega
    · cases h

/-- A ciphertext is opened only if it is the encryption of what is found in it: for each key, nonce and associated data, the receiver accepts exactly one
ciphertext per plaintext. -/
theorem dec_some {k n ad ct pt : Bytes} : dec k n ad ct = some pt ↔ ct = enc k n ad pt := by
  constructor
  · intro h
    unfold dec at h
    split at h
    · cases h
    · dsimp only at h
      split at h
      · rename_i hl ht
        cases h
        unfold enc
        dsimp only
        rw [crypt_crypt, ← ht, List.take_append_drop]
      · cases h
  · rintro rfl; exact dec_enc ..

/-- On messages the crate takes, the wrappers of C95 around it compute `enc`. -/
theorem detached_fnEnc (k n ad pt : Bytes) (h : pt.length ≤ limit) : detached.fnEnc k n ad pt = enc k n ad pt := by
  obtain ⟨c, t, he, -, -, hr⟩ := Aead.encrypt_exact detached_lawful (buf := List.replicate (pt.length + 16) 0) k n ad (by simp) h
  unfold Aead.Detached.fnEnc
  rw [hr]
  have hl : ¬ maxBlocks ≤ pt.length / 64 := by unfold limit maxBlocks W at *; omega
  simp only [detached, if_neg hl, Option.some.injEq, Prod.mk.injEq] at he
  unfold enc
  dsimp only
  rw [he.2, he.1]

/-- On ciphertexts the crate takes, the wrappers of C95 around it compute `dec`. -/
theorem detached_fnDec (k n ad ct : Bytes) (h : ct.length ≤ limit) : detached.fnDec k n ad ct = dec k n ad ct := by
  have hm : ¬ maxBlocks ≤ (ct.length - 16) / 64 := by unfold limit maxBlocks W at *; omega
  unfold Aead.Detached.fnDec dec Aead.Detached.decrypt
  by_cases hl : ct.length < 16
  · simp [hl]
  · rw [if_neg (by simp; omega), if_neg hl, Aead.copySlice_some (by simp)]
    have hx : ¬ maxBlocks ≤ (ct.take (ct.length - 16)).length / 64 := by
      rw [List.length_take, Nat.min_eq_left (by omega)]; exact hm
    simp only [detached]
    rw [if_neg hx]
    by_cases ht : ct.drop (ct.length - 16) = tag k n ad (ct.take (ct.length - 16))
    · rw [if_pos ht, if_pos ht]
    · rw [if_neg ht, if_neg ht]

theorem xDetached_fnEnc (k n ad pt : Bytes) (h : pt.length ≤ limit) : xDetached.fnEnc k n ad pt = xEnc k n ad pt := by
  unfold xEnc
  rw [← detached_fnEnc _ _ _ _ h]
  unfold Aead.Detached.fnEnc Aead.Detached.encrypt
  simp only [xDetached_enc]

theorem xDetached_fnDec (k n ad ct : Bytes) (h : ct.length ≤ limit) : xDetached.fnDec k n ad ct = xDec k n ad ct := by
  unfold xDec
  rw [← detached_fnDec _ _ _ _ h]
  unfold Aead.Detached.fnDec Aead.Detached.decrypt
  simp only [xDetached_dec]

end ChaCha

/-- The two key encapsulation mechanisms, which stay abstract (liboqs: oqs/src/kem_macro.rs:59-95). Sizes of Kyber512 and Classic McEliece 460896. -/
structure Kems where
  /-- see `Crypto.sEncaps` -/
  sEncaps : Bytes → Bytes → Option (Bytes × Bytes)
  /-- see `Crypto.sDecaps` -/
  sDecaps : Bytes → Bytes → Option Bytes
  /-- see `Crypto.eKeygen` -/
  eKeygen : Bytes → Option (Bytes × Bytes)
  /-- see `Crypto.eEncaps` -/
  eEncaps : Bytes → Bytes → Option (Bytes × Bytes)
  /-- see `Crypto.eDecaps` -/
  eDecaps : Bytes → Bytes → Option Bytes

/-- What is still assumed: sizes of keys and ciphertexts, and that the ephemeral KEM is correct. -/
structure Kems.Lawful (K : Kems) : Prop where
  sEncaps_len : ∀ r pk shk ct, K.sEncaps r pk = some (shk, ct) → ct.length = 156
  eEncaps_len : ∀ r pk shk ct, K.eEncaps r pk = some (shk, ct) → ct.length = 768
  eKeygen_len : ∀ r sk pk, K.eKeygen r = some (sk, pk) → pk.length = 800
  eKem : ∀ r sk pk r' shk ct, K.eKeygen r = some (sk, pk) → K.eEncaps r' pk = some (shk, ct) → K.eDecaps sk ct = some shk

/-- The primitives of ciphers/src/lib.rs:19-38: `Aead`, `XAead`, `StaticKem`, `EphemeralKem`, and the two keyed hashes of ciphers/src/subtle/keyed_hash.rs. The crate's
limit on message lengths (256 GB) is left out, see `ChaCha.detached_fnEnc`. -/
def realCrypto (K : Kems) : Crypto where
  shake256 := Keccak.shake256
  blake2b := Blake2b.blake2b
  aeadEnc := ChaCha.enc
  aeadDec := ChaCha.dec
  xEnc := ChaCha.xEnc
  xDec := ChaCha.xDec
  sEncaps := K.sEncaps
  sDecaps := K.sDecaps
  eKeygen := K.eKeygen
  eEncaps := K.eEncaps
  eDecaps := K.eDecaps
  epkLen := 800
  ectLen := 768
  sctLen := 156

/-- **C135**: the contract which the theorems about the protocol assume of the primitives holds of the primitives the code uses, if it holds of the KEMs. -/
theorem realCrypto_lawful {K : Kems} (L : K.Lawful) : (realCrypto K).Lawful where
  shake_len := Keccak.shake256_length
  blake_len := Blake2b.blake2b_length
  aead_len := ChaCha.enc_length
  aead_dec_enc := ChaCha.dec_enc
  aead_dec_len _ _ _ _ _ h := ChaCha.dec_length h
  x_len _ _ := ChaCha.enc_length _ _
  x_dec_enc _ _ := ChaCha.dec_enc _ _
  x_dec_len _ _ _ _ _ h := ChaCha.dec_length h
  sEncaps_len := L.sEncaps_len
  eEncaps_len := L.eEncaps_len
  eKeygen_len := L.eKeygen_len
  eKem := L.eKem
  fits := by simp only [realCrypto]; omega

/-- a toy KEM of the right sizes -/
def Ex.kems : Kems where
  sEncaps r pk := let ct := toLE 156 (Toy.mix r); some (Toy.H (pk ++ ct), ct)
  sDecaps sk ct := some (Toy.H (sk ++ ct))
  eKeygen r := let k := toLE 800 (Toy.mix r); some (k, k)
  eEncaps r pk := let ct := toLE 768 (Toy.mix r); some (Toy.H (pk ++ ct), ct)
  eDecaps sk ct := some (Toy.H (sk ++ ct))

/-- C135: the hypothesis can be met -/
theorem Ex.kems_lawful : Ex.kems.Lawful where
  sEncaps_len r pk shk ct h := by simp [Ex.kems] at h; rw [← h.2, toLE_length]
  eEncaps_len r pk shk ct h := by simp [Ex.kems] at h; rw [← h.2, toLE_length]
  eKeygen_len r sk pk h := by simp [Ex.kems] at h; rw [← h.2, toLE_length]
  eKem r sk pk r' shk ct h1 h2 := by
    simp [Ex.kems] at h1 h2 ⊢
    rw [← h1.1, ← h2.1, ← h2.2, ← h1.2]

theorem hash_kems (h : HashChoice) (K K' : Kems) (k d : Bytes) : (realCrypto K).hash h k d = (realCrypto K').hash h k d := by cases h <;> rfl

theorem mixMany_kems (h : HashChoice) (K K' : Kems) (b : Bytes) (vs : List Bytes) :
    HashDomain.mixMany (realCrypto K) h b vs = HashDomain.mixMany (realCrypto K') h b vs := by
  unfold HashDomain.mixMany HashDomain.mix
  exact congrArg (fun f => vs.foldl f b) (funext fun k => funext fun d => hash_kems h K K' k d)

/-! ### C136: the identifiers of the API's messages -/
namespace GenIpc
open Api (Kind Dir)

/-- The name of the constant for a message in message_type.rs:11-36. -/
def constName : Dir → Kind → String
  | .request, .ping => "PING_REQUEST"
  | .response, .ping => "PING_RESPONSE"
  | .request, .supplyKeypair => "SUPPLY_KEYPAIR_REQUEST"
  | .response, .supplyKeypair => "SUPPLY_KEYPAIR_RESPONSE"
  | .request, .addListenSocket => "ADD_LISTEN_SOCKET_REQUEST"
  | .response, .addListenSocket => "ADD_LISTEN_SOCKET_RESPONSE"
  | .request, .addPskBroker => "ADD_PSK_BROKER_REQUEST"
  | .response, .addPskBroker => "ADD_PSK_BROKER_RESPONSE"

/-- The comment above the constant: message_type.rs:11-36, "hash domain hash of: … -> …". -/
def constPath (d : Dir) (k : Kind) : List String :=
  ["Rosenpass IPC API", "Rosenpass Protocol Server",
    (match k with | .ping => "Ping" | .supplyKeypair => "Supply Keypair" | .addListenSocket => "Add Listen Socket" | .addPskBroker => "Add Psk Broker") ++
    (match d with | .request => " Request" | .response => " Response")]

/-- all messages, in the order of message_type.rs -/
def allMsgs : List (Dir × Kind) := [(.request, .ping), (.response, .ping), (.request, .supplyKeypair), (.response, .supplyKeypair),
  (.request, .addListenSocket), (.response, .addListenSocket), (.request, .addPskBroker), (.response, .addPskBroker)]

theorem allMsgs_complete (d : Dir) (k : Kind) : (d, k) ∈ allMsgs := by cases d <;> cases k <;> decide

/-- what the generator must print for BLAKE2b if the constants are its output: the path in the comment, the name, the bytes -/
def expected : List Line := allMsgs.map fun (d, k) => ⟨(constPath d k).map String.toList, (constName d k).toList, toLE 16 (Api.raw d k)⟩

theorem hashValue_mixMany (C : Crypto) (h : HashChoice) : ∀ (p : List (List Char)) (b : Bytes), hashValue C h b p = HashDomain.mixMany C h b (p.map lbl)
  | [], _ => rfl
  | x :: p, b => by
    unfold hashValue
    rw [hashValue_mixMany C h p]
    rfl

/-- For every hash function: what the generator prints for each message. -/
theorem gen_eq (C : Crypto) (h : HashChoice) : gen C h = some (allMsgs.map fun x =>
    ⟨(constPath x.1 x.2).map String.toList, (constName x.1 x.2).toList, (HashDomain.mixMany C h zero32 (((constPath x.1 x.2).map String.toList).map lbl)).take 16⟩) := by
  have hp : ∀ p l, p.getLast? = some l → printLiteral C h p = some ⟨p, shouty l, (HashDomain.mixMany C h zero32 (p.map lbl)).take 16⟩ := by
    intro p l hl
    unfold printLiteral
    rw [hl, hashValue_mixMany]
    rfl
  have hs : ∀ x ∈ allMsgs, ((constPath x.1 x.2).map String.toList).getLast?.map shouty = some (constName x.1 x.2).toList := by decide +kernel
  have hl : ∀ x ∈ allMsgs, printLiteral C h ((constPath x.1 x.2).map String.toList) =
      some ⟨(constPath x.1 x.2).map String.toList, (constName x.1 x.2).toList, (HashDomain.mixMany C h zero32 (((constPath x.1 x.2).map String.toList).map lbl)).take 16⟩ := by
    intro x hx
    have := hs x hx
    cases hg : ((constPath x.1 x.2).map String.toList).getLast? with
    | none => rw [hg] at this; cases this
    | some l =>
      rw [hg] at this
      rw [hp _ _ hg, Option.some.inj this]
  have hg : gen C h = (allMsgs.mapM fun x => printLiteral C h ((constPath x.1 x.2).map String.toList)) := by
    unfold gen tree
    simp only [Tree.genInner, Tree.genInner.genAll, allMsgs, List.mapM_cons, List.mapM_nil, List.nil_append, List.cons_append]
    rfl
  rw [hg]
  generalize allMsgs = l at hl
  induction l with
  | nil => rfl
  | cons x l ih =>
    rw [List.mapM_cons, hl x (List.mem_cons_self ..), ih (fun y hy => hl y (List.mem_cons_of_mem _ hy))]
    rfl

/-- the domain of the first name in the path (from Python's hashlib) -/
def top : HashChoice → Bytes
  | .shake => [0xf6, 0xd1, 0x25, 0xd2, 0xb8, 0x8d, 0xfd, 0x24, 0x44, 0xcf, 0xbf, 0xfc, 0x1b, 0x5f, 0xf0, 0xf3, 0x89, 0x30, 0x12, 0xd5, 0x4d, 0x1c, 0xd5, 0xa3, 0xfe, 0xf4, 0xac, 0xcf, 0x44, 0x50, 0x96, 0x63]
  | .blake => [0xaf, 0xa8, 0x79, 0x7c, 0xcf, 0xdc, 0xe6, 0x68, 0x45, 0x2a, 0x8e, 0xc5, 0x65, 0x8f, 0x89, 0x40, 0x14, 0xc2, 0x74, 0x9f, 0xc4, 0x13, 0x7e, 0xea, 0xcc, 0x54, 0x34, 0x31, 0xea, 0x5b, 0x09, 0xcd]

/-- the domain of the first two names in the path (from Python's hashlib) -/
def root : HashChoice → Bytes
  | .shake => [0x5f, 0x66, 0x3d, 0x4e, 0xfd, 0xa6, 0xc1, 0x40, 0x44, 0x64, 0x9e, 0xa5, 0xb9, 0x7d, 0x88, 0x8c, 0xe2, 0x47, 0x1b, 0x13, 0xc1, 0x01, 0x47, 0xeb, 0x3d, 0x12, 0xd6, 0x70, 0x7d, 0xfa, 0xa7, 0x0d]
  | .blake => [0xf7, 0xd7, 0x77, 0x6c, 0x43, 0xfe, 0x90, 0x70, 0xa4, 0x60, 0x68, 0x4a, 0xb3, 0xfa, 0x0e, 0x1b, 0xfd, 0x6d, 0x1d, 0xd0, 0x32, 0x04, 0x4f, 0xfb, 0x9e, 0xc2, 0xec, 0x3e, 0xb5, 0xa6, 0xec, 0x00]

/-- the last name in the path -/
def leafName (d : Dir) (k : Kind) : Bytes := lbl ((constPath d k).getLastD "").toList

theorem top_shake : (realCrypto Ex.kems).hash .shake zero32 (lbl "Rosenpass IPC API".toList) = top .shake := by decide +kernel
theorem root_shake : (realCrypto Ex.kems).hash .shake (top .shake) (lbl "Rosenpass Protocol Server".toList) = root .shake := by decide +kernel
theorem top_blake : (realCrypto Ex.kems).hash .blake zero32 (lbl "Rosenpass IPC API".toList) = top .blake := by decide +kernel
theorem root_blake : (realCrypto Ex.kems).hash .blake (top .blake) (lbl "Rosenpass Protocol Server".toList) = root .blake := by decide +kernel

/-- the type of the message is this hash -/
def isHash (d : Dir) (k : Kind) : Bool := ((realCrypto Ex.kems).hash .blake (root .blake) (leafName d k)).take 16 == toLE 16 (Api.raw d k)
/-- no message has this hash as its type -/
def notHash (d : Dir) (k : Kind) : Bool :=
  (fun v => allMsgs.all fun x => v != toLE 16 (Api.raw x.1 x.2)) (((realCrypto Ex.kems).hash .shake (root .shake) (leafName d k)).take 16)

theorem isHash_request_ping : isHash .request .ping = true := by decide +kernel
theorem isHash_response_ping : isHash .response .ping = true := by decide +kernel
theorem isHash_request_supplyKeypair : isHash .request .supplyKeypair = true := by decide +kernel
theorem isHash_response_supplyKeypair : isHash .response .supplyKeypair = true := by decide +kernel
theorem isHash_request_addListenSocket : isHash .request .addListenSocket = true := by decide +kernel
theorem isHash_response_addListenSocket : isHash .response .addListenSocket = true := by decide +kernel
theorem isHash_request_addPskBroker : isHash .request .addPskBroker = true := by decide +kernel
theorem isHash_response_addPskBroker : isHash .response .addPskBroker = true := by decide +kernel
theorem notHash_request_ping : notHash .request .ping = true := by decide +kernel
theorem notHash_response_ping : notHash .response .ping = true := by decide +kernel
theorem notHash_request_supplyKeypair : notHash .request .supplyKeypair = true := by decide +kernel
theorem notHash_response_supplyKeypair : notHash .response .supplyKeypair = true := by decide +kernel
theorem notHash_request_addListenSocket : notHash .request .addListenSocket = true := by decide +kernel
theorem notHash_response_addListenSocket : notHash .response .addListenSocket = true := by decide +kernel
theorem notHash_request_addPskBroker : notHash .request .addPskBroker = true := by decide +kernel
theorem notHash_response_addPskBroker : notHash .response .addPskBroker = true := by decide +kernel

theorem isHash_all : ∀ d k, isHash d k = true
  | .request, .ping => isHash_request_ping
  | .response, .ping => isHash_response_ping
  | .request, .supplyKeypair => isHash_request_supplyKeypair
  | .response, .supplyKeypair => isHash_response_supplyKeypair
  | .request, .addListenSocket => isHash_request_addListenSocket
  | .response, .addListenSocket => isHash_response_addListenSocket
  | .request, .addPskBroker => isHash_request_addPskBroker
  | .response, .addPskBroker => isHash_response_addPskBroker

theorem notHash_all : ∀ d k, notHash d k = true
  | .request, .ping => notHash_request_ping
  | .response, .ping => notHash_response_ping
  | .request, .supplyKeypair => notHash_request_supplyKeypair
  | .response, .supplyKeypair => notHash_response_supplyKeypair
  | .request, .addListenSocket => notHash_request_addListenSocket
  | .response, .addListenSocket => notHash_response_addListenSocket
  | .request, .addPskBroker => notHash_request_addPskBroker
  | .response, .addPskBroker => notHash_response_addPskBroker

theorem mixMany_path (K : Kems) (h : HashChoice) (d : Dir) (k : Kind) :
    HashDomain.mixMany (realCrypto K) h zero32 (((constPath d k).map String.toList).map lbl) = (realCrypto Ex.kems).hash h (root h) (leafName d k) := by
  rw [mixMany_kems h K Ex.kems]
  have e1 : (realCrypto Ex.kems).hash h zero32 (lbl "Rosenpass IPC API".toList) = top h := by
    cases h
    · exact top_shake
    · exact top_blake
  have e2 : (realCrypto Ex.kems).hash h (top h) (lbl "Rosenpass Protocol Server".toList) = root h := by
    cases h
    · exact root_shake
    · exact root_blake
  simp only [constPath, leafName, List.map_cons, List.map_nil, HashDomain.mixMany, List.foldl_cons, List.foldl_nil, HashDomain.mix, List.getLastD_cons, List.getLastD_nil]
  rw [e1, e2]

/-- **C136**: run with the BLAKE2b keyed hash, the generator prints exactly the eight constants by which the API's messages are told apart, with these names
and the paths in the comments, in this order. -/
theorem api_types_are_generated (K : Kems) : gen (realCrypto K) .blake = some expected := by
  rw [gen_eq]
  unfold expected
  refine congrArg some (List.map_congr_left fun x _ => ?_)
  rw [mixMany_path, eq_of_beq (isHash_all x.1 x.2)]

/-- **C136**, for a single message: its type is the first sixteen bytes of the hash domain of its path, in little-endian order. -/
theorem api_type_is_hash (K : Kems) (d : Dir) (k : Kind) :
    toLE 16 (Api.raw d k) = (HashDomain.mixMany (realCrypto K) .blake zero32 (((constPath d k).map String.toList).map lbl)).take 16 := by
  have h := api_types_are_generated K
  rw [gen_eq, Option.some.injEq] at h
  have := List.map_inj_left.mp h (d, k) (allMsgs_complete d k)
  exact (congrArg Line.bytes this).symm

/-- The constants for SHAKE256, which the generator prints too, are all different from those in use. -/
theorem shake_types_unused (K : Kems) : ∃ ls, gen (realCrypto K) .shake = some ls ∧ ls.length = 8 ∧
    ∀ l ∈ ls, ∀ d k, l.bytes ≠ toLE 16 (Api.raw d k) := by
  refine ⟨_, gen_eq _ _, rfl, fun l hl d k => ?_⟩
  obtain ⟨x, -, rfl⟩ := List.mem_map.mp hl
  dsimp only
  rw [mixMany_path]
  have := List.all_eq_true.mp (notHash_all x.1 x.2) (d, k) (allMsgs_complete d k)
  simpa using this

end GenIpc

end Verif
