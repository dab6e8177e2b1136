import Verif.Model.Aead
/-
C95: the AEAD calls with output buffers of every length.
-/
namespace Verif.Aead
open FileIO (copySlice)

variable {A : Detached} {limit : Nat}

theorem copySlice_some {α : Type} {o b : List α} (h : o.length = b.length) : copySlice o b = some o := by
  simp [copySlice, h]

/-! ### Every buffer length -/

/-- Encryption into a buffer of the right length. -/
theorem encrypt_exact (L : A.Lawful limit) {buf pt : Bytes} (key nonce ad : Bytes)
    (hl : buf.length = pt.length + 16) (hp : pt.length ≤ limit) :
    ∃ ct tag, A.enc key nonce ad pt = some (ct, tag) ∧ ct.length = pt.length ∧ tag.length = 16 ∧
      A.encrypt buf key nonce ad pt = (.ok, ct ++ tag) := by
  obtain ⟨⟨ct, tag⟩, he⟩ := Option.isSome_iff_exists.mp (L.enc_total key nonce ad pt hp)
  have hlen := L.enc_len _ _ _ _ _ _ he
  refine ⟨ct, tag, he, hlen.1, hlen.2, ?_⟩
  unfold Detached.encrypt
  rw [if_neg (by omega), copySlice_some (by simp; omega)]
  simp only [he]
  rw [copySlice_some (by simp; omega)]

/-- Encryption, for every buffer: too short is an error and the buffer is untouched; exact works; too long panics,
although the contract (and the error type) says that wrong lengths are reported. -/
theorem encrypt_cases (L : A.Lawful limit) (buf key nonce ad pt : Bytes) (hp : pt.length ≤ limit) :
    (buf.length < pt.length + 16 → A.encrypt buf key nonce ad pt = (.err .lengths, buf)) ∧
    (buf.length = pt.length + 16 → (A.encrypt buf key nonce ad pt).1 = .ok) ∧
    (pt.length + 16 < buf.length → A.encrypt buf key nonce ad pt = (.panic, buf)) := by
  refine ⟨fun h => ?_, fun h => ?_, fun h => ?_⟩
  · unfold Detached.encrypt; rw [if_pos (by omega)]
  · obtain ⟨ct, tag, -, -, -, h⟩ := encrypt_exact L key nonce ad h hp
    rw [h]
  · unfold Detached.encrypt
    rw [if_neg (by omega)]
    have : copySlice pt (buf.take (buf.length - 16)) = none := by
      unfold copySlice; rw [if_neg (by simp; omega)]
    simp only [this]

/-- Encryption in full, whatever the crate does: a refusal of the crate is reported, never taken for a result; the buffer then holds the plaintext. -/
theorem encrypt_refused (A : Detached) (buf key nonce ad pt : Bytes) (hl : buf.length = pt.length + 16) (he : A.enc key nonce ad pt = none) :
    A.encrypt buf key nonce ad pt = (.err .internal, pt ++ buf.drop pt.length) := by
  unfold Detached.encrypt
  rw [if_neg (by omega), copySlice_some (by simp; omega)]
  simp only [he]
  rw [show buf.length - 16 = pt.length by omega]

/-- Decryption, for every buffer and every ciphertext. -/
theorem decrypt_cases (L : A.Lawful limit) (buf key nonce ad ct : Bytes) :
    (ct.length < buf.length + 16 → A.decrypt buf key nonce ad ct = (.err .lengths, buf)) ∧
    (ct.length = buf.length + 16 →
      (∃ pt, pt.length = buf.length ∧ A.decrypt buf key nonce ad ct = (.ok, pt)) ∨
      A.decrypt buf key nonce ad ct = (.err .decrypt, ct.take buf.length)) ∧
    (buf.length + 16 < ct.length → A.decrypt buf key nonce ad ct = (.panic, buf)) := by
  refine ⟨fun h => ?_, fun h => ?_, fun h => ?_⟩
  · unfold Detached.decrypt; rw [if_pos (by omega)]
  · unfold Detached.decrypt
    rw [if_neg (by omega), copySlice_some (by simp; omega)]
    simp only []
    have hb : ct.length - 16 = buf.length := by omega
    rw [hb]
    have hlen := L.dec_len key nonce ad (ct.take buf.length) (ct.drop buf.length)
    have hfail := L.dec_fail key nonce ad (ct.take buf.length) (ct.drop buf.length)
    rcases hd : A.dec key nonce ad (ct.take buf.length) (ct.drop buf.length) with ⟨o, pt⟩
    rw [hd] at hlen hfail
    cases o
    · right; exact congrArg _ (hfail rfl)
    · left; exact ⟨pt, by simp at hlen; omega, rfl⟩
  · unfold Detached.decrypt
    rw [if_neg (by omega)]
    have : copySlice (ct.take (ct.length - 16)) buf = none := by
      unfold copySlice; rw [if_neg (by simp; omega)]
    simp only [this]

/-- The same for the calls that keep the nonce in the ciphertext. -/
theorem encryptN_cases (L : A.Lawful limit) (buf key nonce ad pt : Bytes) (hp : pt.length ≤ limit)
    (hn : nonce.length = 24) :
    (buf.length < pt.length + 40 → A.encryptN buf key nonce ad pt = (.err .lengths, buf)) ∧
    (buf.length = pt.length + 40 → ∃ ct tag, A.enc key nonce ad pt = some (ct, tag) ∧
      A.encryptN buf key nonce ad pt = (.ok, nonce ++ (ct ++ tag))) ∧
    (pt.length + 40 < buf.length → (A.encryptN buf key nonce ad pt).1 = .panic) := by
  refine ⟨fun h => ?_, fun h => ?_, fun h => ?_⟩
  · unfold Detached.encryptN; rw [if_pos (by omega)]
  · obtain ⟨ct, tag, he, -, -, h'⟩ := encrypt_exact L (buf := buf.drop 24) key nonce ad (by simp; omega) hp
    refine ⟨ct, tag, he, ?_⟩
    unfold Detached.encryptN
    rw [if_neg (by omega), copySlice_some (by simp; omega)]
    simp only [h']
  · unfold Detached.encryptN
    rw [if_neg (by omega), copySlice_some (by simp; omega)]
    simp only []
    rw [(encrypt_cases L (buf.drop 24) key nonce ad pt hp).2.2 (by simp; omega)]

theorem decryptN_cases (L : A.Lawful limit) (buf key ad ct : Bytes) :
    (ct.length < buf.length + 40 → A.decryptN buf key ad ct = (.err .lengths, buf)) ∧
    (ct.length = buf.length + 40 →
      (∃ pt, pt.length = buf.length ∧ A.decryptN buf key ad ct = (.ok, pt)) ∨
      A.decryptN buf key ad ct = (.err .decrypt, (ct.drop 24).take buf.length)) ∧
    (buf.length + 40 < ct.length → A.decryptN buf key ad ct = (.panic, buf)) := by
  refine ⟨fun h => ?_, fun h => ?_, fun h => ?_⟩
  · unfold Detached.decryptN; rw [if_pos (by omega)]
  · unfold Detached.decryptN; rw [if_neg (by omega)]
    exact (decrypt_cases L buf key _ ad _).2.1 (by simp; omega)
  · unfold Detached.decryptN; rw [if_neg (by omega)]
    exact (decrypt_cases L buf key _ ad _).2.2 (by simp; omega)

/-- What was encrypted is decrypted: into buffers of the right lengths, whatever they held before, both calls
succeed and the plaintext comes back. -/
theorem round_trip (L : A.Lawful limit) {cbuf pbuf pt : Bytes} (key nonce ad : Bytes) (hp : pt.length ≤ limit)
    (hc : cbuf.length = pt.length + 16) (hb : pbuf.length = pt.length) :
    (A.encrypt cbuf key nonce ad pt).1 = .ok ∧
    A.decrypt pbuf key nonce ad (A.encrypt cbuf key nonce ad pt).2 = (.ok, pt) := by
  obtain ⟨ct, tag, he, h1, h2, h⟩ := encrypt_exact L key nonce ad hc hp
  rw [h]
  refine ⟨rfl, ?_⟩
  unfold Detached.decrypt
  have hl : (ct ++ tag).length - 16 = ct.length := by simp; omega
  rw [if_neg (by simp; omega)]
  simp only [hl, List.take_left, List.drop_left]
  rw [copySlice_some (by omega)]
  simp only [L.dec_enc _ _ _ _ _ _ he]

theorem round_tripN (L : A.Lawful limit) {cbuf pbuf pt nonce : Bytes} (key ad : Bytes) (hp : pt.length ≤ limit)
    (hn : nonce.length = 24) (hc : cbuf.length = pt.length + 40) (hb : pbuf.length = pt.length) :
    (A.encryptN cbuf key nonce ad pt).1 = .ok ∧
    A.decryptN pbuf key ad (A.encryptN cbuf key nonce ad pt).2 = (.ok, pt) := by
  obtain ⟨ct, tag, he, h⟩ := (encryptN_cases L cbuf key nonce ad pt hp hn).2.1 hc
  rw [h]
  refine ⟨rfl, ?_⟩
  have hl := L.enc_len _ _ _ _ _ _ he
  have hrt := round_trip L (cbuf := List.replicate (pt.length + 16) 0) key nonce ad hp (by simp) hb
  obtain ⟨ct', tag', he', -, -, h'⟩ :=
    encrypt_exact L (buf := List.replicate (pt.length + 16) 0) key nonce ad (by simp) hp
  rw [he] at he'; cases he'
  rw [h'] at hrt
  unfold Detached.decryptN
  rw [if_neg (by simp; omega)]
  rw [List.take_left' hn, List.drop_left' hn]
  exact hrt.2

/-- C95. The contract "a buffer of a wrong length gives `InvalidLengths`" is kept for buffers that are too short
(ciphertext) or too long (plaintext): nothing is written then. Never does a failing decryption give the caller
anything but the buffer as it was or a piece of the ciphertext, and no call changes the length of its buffer. -/
theorem buffers_partial (L : A.Lawful limit) (buf key nonce ad inp : Bytes) (hp : inp.length ≤ limit) :
    (buf.length < inp.length + 16 → A.encrypt buf key nonce ad inp = (.err .lengths, buf)) ∧
    (buf.length = inp.length + 16 → (A.encrypt buf key nonce ad inp).1 = .ok) ∧
    (inp.length < buf.length + 16 → A.decrypt buf key nonce ad inp = (.err .lengths, buf)) ∧
    ((A.decrypt buf key nonce ad inp).1 = .err .decrypt →
      (A.decrypt buf key nonce ad inp).2 = inp.take buf.length) ∧
    (A.encrypt buf key nonce ad inp).2.length = buf.length ∧
    (A.decrypt buf key nonce ad inp).2.length = buf.length := by
  have he := encrypt_cases L buf key nonce ad inp hp
  have hd := decrypt_cases L buf key nonce ad inp
  refine ⟨he.1, he.2.1, hd.1, ?_, ?_, ?_⟩
  · intro h
    rcases Nat.lt_trichotomy inp.length (buf.length + 16) with hl | hl | hl
    · rw [hd.1 hl] at h; cases h
    · rcases hd.2.1 hl with ⟨pt, -, h'⟩ | h'
      · rw [h'] at h; cases h
      · rw [h']
    · rw [hd.2.2 hl] at h; cases h
  · rcases Nat.lt_trichotomy buf.length (inp.length + 16) with hl | hl | hl
    · rw [he.1 hl]
    · obtain ⟨ct, tag, -, h1, h2, h⟩ := encrypt_exact L key nonce ad hl hp
      rw [h]; simp; omega
    · rw [he.2.2 hl]
  · rcases Nat.lt_trichotomy inp.length (buf.length + 16) with hl | hl | hl
    · rw [hd.1 hl]
    · rcases hd.2.1 hl with ⟨pt, h0, h'⟩ | h'
      · rw [h']; exact h0
      · rw [h']; simp; omega
    · rw [hd.2.2 hl]

/-! ### The functions of Model/Crypto.lean -/

/-- The two functions by which the protocol model knows an AEAD obey the laws assumed of them there. -/
theorem fn_lawful (L : A.Lawful limit) (k n ad : Bytes) :
    (∀ pt, pt.length ≤ limit → (A.fnEnc k n ad pt).length = pt.length + 16 ∧ A.fnDec k n ad (A.fnEnc k n ad pt) = some pt) ∧
    (∀ ct pt, A.fnDec k n ad ct = some pt → ct.length = pt.length + 16) := by
  constructor
  · intro pt hp
    have hb := buffers_partial L (List.replicate (pt.length + 16) 0) k n ad pt hp
    have hl : (A.fnEnc k n ad pt).length = pt.length + 16 := by
      unfold Detached.fnEnc; rw [hb.2.2.2.2.1]; simp
    refine ⟨hl, ?_⟩
    have hr := round_trip L (cbuf := List.replicate (pt.length + 16) 0)
      (pbuf := List.replicate ((A.fnEnc k n ad pt).length - 16) 0) k n ad hp (by simp) (by simp [hl])
    unfold Detached.fnDec
    unfold Detached.fnEnc at hr ⊢
    rw [hr.2]
  · intro ct pt h
    unfold Detached.fnDec at h
    have hd := decrypt_cases L (List.replicate (ct.length - 16) 0) k n ad ct
    by_cases hl : 16 ≤ ct.length
    · rcases hd.2.1 (by simp; omega) with ⟨pt', h0, h'⟩ | h'
      · rw [h'] at h; simp at h0 h; subst h; omega
      · rw [h'] at h; cases h
    · rw [hd.1 (by simp; omega)] at h; cases h

/-- A fresh `decrypt` result depends on the buffer's length only. -/
theorem decrypt_buf {b b' : Bytes} (hl : b.length = b'.length) (hx : ct.length = b.length + 16)
    (k n ad : Bytes) : A.decrypt b k n ad ct = A.decrypt b' k n ad ct := by
  unfold Detached.decrypt
  rw [if_neg (by omega), if_neg (by omega), copySlice_some (by simp; omega), copySlice_some (by simp; omega)]

/-- Issuing a biscuit or a cookie: with a buffer of the message field's length, the call writes exactly
`Crypto.xSeal`. -/
theorem xSeal_link (L : A.Lawful limit) {C : Crypto} (hC : C.xEnc = A.fnEnc) {buf pt nonce : Bytes} (k ad : Bytes)
    (hp : pt.length ≤ limit) (hn : nonce.length = 24) (hb : buf.length = pt.length + 40) :
    A.encryptN buf k nonce ad pt = (.ok, C.xSeal k nonce ad pt) := by
  obtain ⟨ct, tag, he, h⟩ := (encryptN_cases L buf k nonce ad pt hp hn).2.1 hb
  rw [h]
  unfold Crypto.xSeal
  rw [hC]
  obtain ⟨ct', tag', he', -, -, h'⟩ :=
    encrypt_exact L (buf := List.replicate (pt.length + 16) 0) k nonce ad (by simp) hp
  rw [he] at he'; cases he'
  unfold Detached.fnEnc
  rw [h']

/-- Opening one: the call succeeds exactly if `Crypto.xOpen` does and then holds its value; if not, the buffer holds
the front of the ciphertext behind the nonce (what `handleCookieReply` of the protocol model writes). -/
theorem xOpen_link (L : A.Lawful limit) {C : Crypto} (hC : C.xDec = A.fnDec) {buf ct : Bytes} (k ad : Bytes)
    (hb : ct.length = buf.length + 40) :
    A.decryptN buf k ad ct =
      (match C.xOpen k ad ct with
       | some v => (.ok, v)
       | none => (.err .decrypt, (ct.drop 24).take buf.length)) := by
  unfold Detached.decryptN Crypto.xOpen
  rw [if_neg (by omega), if_neg (by omega), hC]
  unfold Detached.fnDec
  have hl : (List.replicate ((ct.drop 24).length - 16) (0 : UInt8)).length = buf.length := by simp; omega
  rw [decrypt_buf (A := A) (b := buf) (b' := List.replicate ((ct.drop 24).length - 16) 0) hl.symm (by simp; omega)]
  have hd := decrypt_cases L (List.replicate ((ct.drop 24).length - 16) 0) k (ct.take 24) ad (ct.drop 24)
  rw [hl] at hd
  rcases hd.2.1 (by simp; omega) with ⟨pt, h0, h'⟩ | h'
  · rw [h']
  · rw [h']

/-! ### Examples and the counterexample -/

/-- A small lawful AEAD: the key stream is the key's first byte, the tag is `Toy.tag` of the ciphertext. -/
def toyA : Detached where
  enc k n ad b := let c := b.map (· ^^^ k.headD 0); some (c, Toy.tag k n ad c)
  dec k n ad c t := if t = Toy.tag k n ad c then (true, c.map (· ^^^ k.headD 0)) else (false, c)

theorem toyA_lawful (limit : Nat) : toyA.Lawful limit where
  enc_total _ _ _ _ _ := rfl
  enc_len k n ad b c t h := by
    simp only [toyA, Option.some.injEq, Prod.mk.injEq] at h
    rw [← h.2, ← h.1]; exact ⟨by simp, Toy.tag_len _ _ _ _⟩
  dec_enc k n ad b c t h := by
    simp only [toyA, Option.some.injEq, Prod.mk.injEq] at h
    rw [← h.2, ← h.1]
    simp only [toyA, if_true, List.map_map, Prod.mk.injEq, true_and]
    have : ((fun x => x ^^^ k.headD 0) ∘ fun x => x ^^^ k.headD 0) = (id : UInt8 → UInt8) := by
      funext x; simp only [Function.comp_apply, id]
      rw [UInt8.xor_assoc, UInt8.xor_self, UInt8.xor_zero]
    rw [this]; simp
  dec_len k n ad c t := by
    simp only [toyA]; split <;> simp
  dec_fail k n ad c t h := by
    simp only [toyA] at h ⊢; split <;> simp_all

set_option maxRecDepth 20000 in
/-- Exact buffers: something else than the plaintext is on the wire, and it comes back; a flipped bit is an error
and leaves the ciphertext in the buffer. -/
example :
    let ct := (toyA.encrypt (List.replicate 19 0) [7] [] [1] [10, 20, 30]).2
    ct.take 3 = [13, 19, 25] ∧ toyA.decrypt [0, 0, 0] [7] [] [1] ct = (.ok, [10, 20, 30]) ∧
    toyA.decrypt [0, 0, 0] [7] [] [2] ct = (.err .decrypt, [13, 19, 25]) := by decide +kernel

/-- The full contract fails: one byte too many in the destination is a panic, not `InvalidLengths`, for encryption
and (a plaintext buffer one byte too short) for decryption, and likewise with the nonce in the ciphertext. -/
theorem long_buffer_panics :
    toyA.Lawful 1000 ∧
    (toyA.encrypt (List.replicate 18 0) [7] [] [] [10]).1 = .panic ∧
    (toyA.decrypt [] [7] [] [] (List.replicate 17 0)).1 = .panic ∧
    (toyA.encryptN (List.replicate 42 0) [7] (List.replicate 24 0) [] [10]).1 = .panic ∧
    (toyA.decryptN [] [7] [] (List.replicate 41 0)).1 = .panic := by
  refine ⟨toyA_lawful _, ?_, ?_, ?_, ?_⟩ <;> decide +kernel

end Verif.Aead
