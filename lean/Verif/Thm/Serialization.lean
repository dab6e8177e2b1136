import Verif.Model.Serialization
import Verif.Thm.FileIO
/-
C96: keys survive serialization, and nothing else than a serialized key of the right size is accepted.
-/
namespace Verif.Serialization
open FileIO (b64Enc b64DecBlocks)

theorem decode_encode (b : Bytes) : decodeB64 (encodeB64 b) = some b := by
  unfold decodeB64 encodeB64
  rw [FileIO.b64DecBlocks_enc]
  exact if_pos rfl

theorem decode_some {s b : Bytes} (h : decodeB64 s = some b) : s = encodeB64 b := by
  unfold decodeB64 at h
  split at h
  · cases h
  · split at h
    · rename_i hh; cases h; exact hh.symm
    · cases h

/-- C96. For every key size: serializing a key and reading it back gives the key; a string is accepted exactly if it
is what some key of that size serializes to, and that key is the result (so two different strings never give the same
key, and a key of another size is never accepted). -/
theorem serde_round_trip (n : Nat) (value : Bytes) (hn : value.length = n) :
    deserialize n (serialize value) = some value := by
  unfold deserialize serialize
  rw [decode_encode]
  exact if_neg (by simpa using hn)

theorem serde_accepts (n : Nat) (s value : Bytes) :
    deserialize n s = some value ↔ value.length = n ∧ s = serialize value := by
  constructor
  · intro h
    unfold deserialize at h
    split at h
    · cases h
    · rename_i d hd
      split at h
      · cases h
      · rename_i hl; cases h
        exact ⟨by omega, decode_some hd⟩
  · rintro ⟨h1, rfl⟩
    exact serde_round_trip n value h1

/-- Strings of the wrong length are never accepted: a key of `n` bytes takes exactly `4 * ⌈n / 3⌉` characters. -/
theorem serde_length {n : Nat} {s value : Bytes} (h : deserialize n s = some value) :
    s.length = 4 * ((n + 2) / 3) := by
  obtain ⟨h1, rfl⟩ := (serde_accepts n s value).mp h
  unfold serialize encodeB64
  rw [FileIO.b64Enc_length, h1]

/-- Different keys have different serializations. -/
theorem serialize_injective {a b : Bytes} (h : serialize a = serialize b) : a = b := by
  have := decode_encode a
  unfold serialize at h
  rw [h, decode_encode] at this
  exact (Option.some.inj this).symm

-- "+g==" is the byte 0xfa; with a dirty last character, without padding or as a 2-byte key it is refused
example : deserialize 1 [43, 103, 61, 61] = some [250] ∧ deserialize 1 [43, 104, 61, 61] = none ∧
    deserialize 1 [43, 103] = none ∧ deserialize 2 [43, 103, 61, 61] = none ∧ deserialize 0 [] = some [] := by decide

end Verif.Serialization
