import Verif.Model.Crypto
import Verif.Model.FileIO
/-
The AEAD wrappers between the protocol code and the RustCrypto crate: what they do with output buffers of any
length. (The copying functions of the `to` crate are in Model/FileIO.lean, `xor` in Model/ConstantTime.lean.)

Modelled: cipher-traits/src/primitives/aead.rs:58-149,
ciphers/src/subtle/rust_crypto/{chacha20poly1305_ietf,xchacha20poly1305_ietf}.rs `encrypt`, `decrypt`.
The crate's in-place detached AEAD is the parameter `Detached`. Key and nonce lengths are forced by the types and
not checked here. A destination is the `Bytes` in it; its length never changes.
-/
namespace Verif.Aead
open FileIO (copySlice)

/-- cipher-traits/src/primitives/aead.rs:164-181 `Error`. -/
inductive Err where
  | internal
  | decrypt
  | lengths
  deriving DecidableEq, Repr

/-- How a call ends: it returns `Ok`, it returns an error, it panics. -/
inductive Out where
  | ok
  | err (e : Err)
  | panic
  deriving DecidableEq, Repr

/-! ### The crate underneath -/

/-- `AeadInPlace::{encrypt_in_place_detached, decrypt_in_place_detached}` of the chacha20poly1305 crate.
`enc` returns the new buffer and the tag, or `none` for its error (message too long); `dec` returns whether it
succeeded, and the new buffer. -/
structure Detached where
  enc : (key nonce ad buf : Bytes) → Option (Bytes × Bytes)
  dec : (key nonce ad buf tag : Bytes) → Bool × Bytes

/-- What is assumed about it: lengths; decryption undoes encryption; a buffer whose tag does not match is left as
it was (the crate checks the tag before it applies the key stream). `limit`: longest message it takes. -/
structure Detached.Lawful (A : Detached) (limit : Nat) : Prop where
  enc_total : ∀ k n ad b, b.length ≤ limit → (A.enc k n ad b).isSome
  enc_len : ∀ k n ad b c t, A.enc k n ad b = some (c, t) → c.length = b.length ∧ t.length = 16
  dec_enc : ∀ k n ad b c t, A.enc k n ad b = some (c, t) → A.dec k n ad c t = (true, b)
  dec_len : ∀ k n ad c t, (A.dec k n ad c t).2.length = c.length
  dec_fail : ∀ k n ad c t, (A.dec k n ad c t).1 = false → (A.dec k n ad c t).2 = c

namespace Detached

variable (A : Detached)

/-- chacha20poly1305_ietf.rs:18-46, xchacha20poly1305_ietf.rs:19-46 `encrypt` (the two differ in the crate's type
only): the outcome, and the contents of `ciphertext` when the call ends. After a panic the contents are those
at the panic (unwinding keeps the buffer). If the crate reports an error the buffer holds the plaintext. -/
def encrypt (buf key nonce ad pt : Bytes) : Out × Bytes :=
  if buf.length < 16 ∨ buf.length - 16 < pt.length then (.err .lengths, buf)
  else
    let mac := buf.drop (buf.length - 16)
    match copySlice pt (buf.take (buf.length - 16)) with
    | none => (.panic, buf)
    | some ct =>
      match A.enc key nonce ad ct with
      | none => (.err .internal, ct ++ mac)
      | some (ct, tag) =>
        match copySlice tag mac with
        | none => (.panic, ct ++ mac)
        | some mac => (.ok, ct ++ mac)

/-- chacha20poly1305_ietf.rs:48-75, xchacha20poly1305_ietf.rs:48-74 `decrypt`: the outcome and the contents of
`plaintext`. -/
def decrypt (buf key nonce ad ct : Bytes) : Out × Bytes :=
  if ct.length < 16 ∨ ct.length - 16 < buf.length then (.err .lengths, buf)
  else
    match copySlice (ct.take (ct.length - 16)) buf with
    | none => (.panic, buf)
    | some pt =>
      match A.dec key nonce ad pt (ct.drop (ct.length - 16)) with
      | (true, pt) => (.ok, pt)
      | (false, pt) => (.err .decrypt, pt)

/-- cipher-traits/src/primitives/aead.rs:100-121 `encrypt_with_nonce_in_ctxt`, nonces of 24 bytes. -/
def encryptN (buf key nonce ad pt : Bytes) : Out × Bytes :=
  if buf.length < 24 + 16 ∨ buf.length - 16 - 24 < pt.length then (.err .lengths, buf)
  else
    match copySlice nonce (buf.take 24) with
    | none => (.panic, buf)
    | some n =>
      match A.encrypt (buf.drop 24) key nonce ad pt with
      | (o, rest) => (o, n ++ rest)

/-- cipher-traits/src/primitives/aead.rs:126-149 `decrypt_with_nonce_in_ctxt`. -/
def decryptN (buf key ad ct : Bytes) : Out × Bytes :=
  if ct.length < 24 + 16 ∨ ct.length - 16 - 24 < buf.length then (.err .lengths, buf)
  else A.decrypt buf key (ct.take 24) ad (ct.drop 24)

/-! ### The view of Model/Crypto.lean -/

/-- The function `Crypto.aeadEnc`/`Crypto.xEnc` stands for: encryption into a buffer of the right length. -/
def fnEnc (key nonce ad pt : Bytes) : Bytes :=
  (A.encrypt (List.replicate (pt.length + 16) 0) key nonce ad pt).2

/-- The function `Crypto.aeadDec`/`Crypto.xDec` stands for. -/
def fnDec (key nonce ad ct : Bytes) : Option Bytes :=
  match A.decrypt (List.replicate (ct.length - 16) 0) key nonce ad ct with
  | (.ok, pt) => some pt
  | _ => none

end Detached
end Verif.Aead
