import Verif.Model.LengthPrefix
/-
Model of reading and writing key files: util/src/file.rs, util/src/b64.rs, util/src/io.rs and the
load/store functions of secret-memory/src/{secret,public}.rs.

A regular file is a byte string. The environment decides how many bytes each `read`/`write` call
transfers and when a call is interrupted or fails. A regular file answers `Ok(0)` only at its end.
-/
namespace Verif.FileIO
open LengthPrefix (IoKind)

/-- The environment's answer to one `read`/`write` call on a regular file. `ok n`: up to `n + 1` bytes
are transferred. -/
inductive Out where
  | ok (n : Nat)
  | err (k : IoKind)
  deriving DecidableEq, Repr, Inhabited

/-- Why a file operation failed. -/
inductive FErr where
  | io (k : IoKind)
  | tooLong
  | b64
  | noFile
  deriving DecidableEq, Repr, Inhabited

/-- The outcome of an operation that consumes a schedule: `none` when the schedule ended while the
operation was in progress (or the process was killed then). -/
abbrev R (α : Type) := Option (Except FErr α)

/-- One `Read::read` into a slice of `len` bytes: bytes read and rest of the file. -/
def read1 (len : Nat) (src : Bytes) (o : Out) : Except IoKind (Bytes × Bytes) :=
  match o with
  | .err k => .error k
  | .ok n => .ok (src.take (min (n + 1) len), src.drop (min (n + 1) len))

/-- `std::io::Read::read_exact` for `want` bytes: retries `Interrupted`, fails with `UnexpectedEof`
at the end of the file. Result: the bytes and the rest of file and schedule. -/
def readExact : Nat → Bytes → List Out → R (Bytes × Bytes × List Out)
  | 0, src, os => some (.ok ([], src, os))
  | _ + 1, _, [] => none
  | want + 1, src, o :: os =>
    match read1 (want + 1) src o with
    | .error .interrupted => readExact (want + 1) src os
    | .error k => some (.error (.io k))
    | .ok (b, src1) =>
      if b.length = 0 then some (.error (.io .unexpectedEof))
      else
        match readExact (want + 1 - b.length) src1 os with
        | some (.ok (bs, rest)) => some (.ok (b ++ bs, rest))
        | x => x
termination_by structural _ _ os => os

/-- util/src/file.rs:181-183 (and util/src/io.rs:526-533): the probe after the buffer is full must
find the end of the file. -/
def probeEnd (src : Bytes) : List Out → R Unit
  | [] => none
  | o :: _ =>
    match read1 8 src o with
    | .error k => some (.error (.io k))
    | .ok (b, _) => if b.length = 0 then some (.ok ()) else some (.error .tooLong)

/-- util/src/file.rs:179-184 `read_exact_to_end` into a buffer of `n` bytes. -/
def readExactToEnd (n : Nat) (src : Bytes) (os : List Out) : R Bytes :=
  match readExact n src os with
  | none => none
  | some (.error e) => some (.error e)
  | some (.ok (b, src1, os1)) =>
    match probeEnd src1 os1 with
    | none => none
    | some (.error e) => some (.error e)
    | some (.ok ()) => some (.ok b)

/-- util/src/file.rs:117-123: the loop of `read_slice_to_end`; `Interrupted` is not retried. -/
def readLoop : Nat → Bytes → List Out → R (Bytes × Bytes × List Out)
  | 0, src, os => some (.ok ([], src, os))
  | _ + 1, _, [] => none
  | want + 1, src, o :: os =>
    match read1 (want + 1) src o with
    | .error k => some (.error (.io k))
    | .ok (b, src1) =>
      if b.length = 0 then some (.ok ([], src1, os))
      else
        match readLoop (want + 1 - b.length) src1 os with
        | some (.ok (bs, rest)) => some (.ok (b ++ bs, rest))
        | x => x
termination_by structural _ _ os => os

/-- util/src/file.rs:114-126 `read_slice_to_end` into a buffer of `n` bytes: the bytes read
(`buf[..read]`). -/
def readSliceToEnd (n : Nat) (src : Bytes) (os : List Out) : R Bytes :=
  match readLoop n src os with
  | none => none
  | some (.error e) => some (.error e)
  | some (.ok (b, src1, os1)) =>
    match probeEnd src1 os1 with
    | none => none
    | some (.error e) => some (.error e)
    | some (.ok ()) => some (.ok b)

/-- `std::io::Write::write_all`: what is in the (truncated) file afterwards, and the outcome. Each
write transfers a prefix; `Interrupted` is retried. -/
def writeAll : Bytes → List Out → R Unit × Bytes
  | [], _ => (some (.ok ()), [])
  | _ :: _, [] => (none, [])
  | b :: bs, o :: os =>
    match o with
    | .err .interrupted => writeAll (b :: bs) os
    | .err k => (some (.error (.io k)), [])
    | .ok n =>
      let (r, w) := writeAll ((b :: bs).drop (n + 1)) os
      (r, (b :: bs).take (n + 1) ++ w)
termination_by structural _ os => os

/-! ### Base64

The codec itself is the crate `base64ct` (type `Base64`: RFC 4648 alphabet, with padding); it is
specified here, not modelled line by line. -/

/-- RFC 4648 table 1: the character of a 6-bit value. -/
def b64Char (v : Nat) : UInt8 :=
  if v < 26 then UInt8.ofNat (65 + v)
  else if v < 52 then UInt8.ofNat (97 + (v - 26))
  else if v < 62 then UInt8.ofNat (48 + (v - 52))
  else if v = 62 then 43 else 47

/-- the 6-bit value of a character -/
def b64Val (c : UInt8) : Option Nat :=
  let n := c.toNat
  if 65 ≤ n ∧ n ≤ 90 then some (n - 65)
  else if 97 ≤ n ∧ n ≤ 122 then some (n - 97 + 26)
  else if 48 ≤ n ∧ n ≤ 57 then some (n - 48 + 52)
  else if n = 43 then some 62
  else if n = 47 then some 63
  else none

/-- RFC 4648 section 4 encoding with padding. -/
def b64Enc : Bytes → Bytes
  | [] => []
  | [a] =>
    let n := a.toNat * 65536
    [b64Char (n / 262144), b64Char (n / 4096 % 64), 61, 61]
  | [a, b] =>
    let n := a.toNat * 65536 + b.toNat * 256
    [b64Char (n / 262144), b64Char (n / 4096 % 64), b64Char (n / 64 % 64), 61]
  | a :: b :: c :: rest =>
    let n := a.toNat * 65536 + b.toNat * 256 + c.toNat
    b64Char (n / 262144) :: b64Char (n / 4096 % 64) :: b64Char (n / 64 % 64) :: b64Char (n % 64) :: b64Enc rest

/-- Decoding of blocks of four characters; padding only at the very end. -/
def b64DecBlocks : Bytes → Option Bytes
  | [] => some []
  | [w, x, y, z] =>
    if z = 61 then
      if y = 61 then
        match b64Val w, b64Val x with
        | some p, some q => some [UInt8.ofNat ((p * 64 + q) / 16)]
        | _, _ => none
      else
        match b64Val w, b64Val x, b64Val y with
        | some p, some q, some r =>
          let n := (p * 4096 + q * 64 + r) / 4
          some [UInt8.ofNat (n / 256), UInt8.ofNat (n % 256)]
        | _, _, _ => none
    else
      match b64Val w, b64Val x, b64Val y, b64Val z with
      | some p, some q, some r, some t =>
        let n := p * 262144 + q * 4096 + r * 64 + t
        some [UInt8.ofNat (n / 65536), UInt8.ofNat (n / 256 % 256), UInt8.ofNat (n % 256)]
      | _, _, _, _ => none
  | w :: x :: y :: z :: rest =>
    match b64Val w, b64Val x, b64Val y, b64Val z, b64DecBlocks rest with
    | some p, some q, some r, some t, some ds =>
      let n := p * 262144 + q * 4096 + r * 64 + t
      some (UInt8.ofNat (n / 65536) :: UInt8.ofNat (n / 256 % 256) :: UInt8.ofNat (n % 256) :: ds)
    | _, _, _, _, _ => none
  | _ => none

/-- The strict decoder: the empty string and non-canonical strings (dirty padding bits) are
rejected. -/
def b64Dec (s : Bytes) : Option Bytes :=
  match b64DecBlocks s with
  | none => none
  | some d => if s ≠ [] ∧ b64Enc d = s then some d else none

/-- util/src/b64.rs:97-101 `b64_encode` into a buffer of `n` bytes. -/
def b64Encode (input : Bytes) (n : Nat) : Except FErr Bytes :=
  if (b64Enc input).length ≤ n then .ok (b64Enc input) else .error .b64

/-- util/src/b64.rs:62-78 `b64_decode`: the new content of `output`. An input that decodes to fewer
bytes than the output holds is reported by the decoder as `InvalidLength` after the bytes were written,
and this error is ignored; an input that decodes to more leaves the decoder unfinished. -/
def b64Decode (input output : Bytes) : Except FErr Bytes :=
  match b64Dec input with
  | none => .error .b64
  | some d => if d.length ≤ output.length then .ok (d ++ output.drop d.length) else .error .b64

/-! ### Files -/

/-- A file: content and permission bits. -/
structure File where
  content : Bytes
  mode : Nat
  deriving DecidableEq, Repr, Inhabited

/-- The files by path. -/
abbrev Fs := String → Option File

/-- replace one file -/
def Fs.put (fs : Fs) (path : String) (f : File) : Fs := fun p => if p = path then some f else fs p

/-- util/src/file.rs:10-15 `Visibility`. -/
inductive Visibility where
  | pub | secret
  deriving DecidableEq, Repr, Inhabited

/-- util/src/file.rs:46-49: the creation mode. -/
def Visibility.mode : Visibility → Nat
  | .pub => 0o644
  | .secret => 0o600

/-- util/src/file.rs:43-51 `fopen_w`: the file is created with the mode (less the bits of the
process umask) or truncated; an existing file keeps its mode. -/
def fopenW (fs : Fs) (umask : Nat) (path : String) (v : Visibility) : Fs :=
  match fs path with
  | none => fs.put path { content := [], mode := v.mode &&& (0o777 ^^^ (umask &&& 0o777)) }
  | some f => fs.put path { f with content := [] }

/-- `fopen_w(path, v)?.write_all(data)`. -/
def writeFile (fs : Fs) (umask : Nat) (path : String) (v : Visibility) (data : Bytes) (os : List Out) :
    R Unit × Fs :=
  let fs1 := fopenW fs umask path v
  match fs1 path with
  | none => (some (.error .noFile), fs1)
  | some f =>
    let (r, w) := writeAll data os
    (r, fs1.put path { f with content := w })

/-- secret-memory/src/secret.rs:360-363 `Secret::store_secret`. -/
def storeSecret (fs : Fs) (umask : Nat) (path : String) (key : Bytes) (os : List Out) : R Unit × Fs :=
  writeFile fs umask path .secret key os

/-- secret-memory/src/secret.rs:366-369 `Secret::store` (world readable). -/
def storePublic (fs : Fs) (umask : Nat) (path : String) (key : Bytes) (os : List Out) : R Unit × Fs :=
  writeFile fs umask path .pub key os

/-- secret.rs:323-336 and public.rs:165-174 `store_b64::<F>`: encoded before the file is opened. -/
def storeB64 (fs : Fs) (umask : Nat) (path : String) (v : Visibility) (f : Nat) (key : Bytes)
    (os : List Out) : R Unit × Fs :=
  match b64Encode key f with
  | .error e => (some (.error e), fs)
  | .ok s => writeFile fs umask path v s os

/-- secret.rs:289-296, public.rs:120-124 and 301-305 `load` of an `n`-byte value. -/
def load (fs : Fs) (path : String) (n : Nat) (os : List Out) : R Bytes :=
  match fs path with
  | none => some (.error .noFile)
  | some f => readExactToEnd n f.content os

/-- secret.rs:303-316, public.rs:142-158 and 324-341 `load_b64::<F>`. `init` is the initial content
of the value: random for a `Secret`, zero for a `Public`. -/
def loadB64 (fs : Fs) (path : String) (f : Nat) (init : Bytes) (os : List Out) : R Bytes :=
  match fs path with
  | none => some (.error .noFile)
  | some file =>
    match readSliceToEnd f file.content os with
    | none => none
    | some (.error e) => some (.error e)
    | some (.ok s) => some (b64Decode s init)

/-! ### Error classification (util/src/io.rs) -/

/-- The result of one call of the wrapped function: a value, or an error with its kind
(`try_io_error_kind`, `none` for errors that are not I/O errors). -/
inductive Call (α ε : Type) where
  | ok (a : α)
  | err (e : ε) (kind : Option IoKind)

/-- util/src/io.rs:464-478 `nonblocking_handle_io_errors` on the successive outcomes of `iofn`; the
outer `none` means the call is still retrying. -/
def nonblockingHandle {α ε : Type} : List (Call α ε) → Option (Except ε (Option α))
  | [] => none
  | .ok v :: _ => some (.ok (some v))
  | .err _ (some .wouldBlock) :: _ => some (.ok none)
  | .err _ (some .interrupted) :: cs => nonblockingHandle cs
  | .err e _ :: _ => some (.error e)

/-- util/src/io.rs:439-452 `handle_interrupted`. -/
def handleInterrupted {α ε : Type} : List (Call α ε) → Option (Except ε (Option α))
  | [] => none
  | .ok v :: _ => some (.ok (some v))
  | .err _ (some .interrupted) :: cs => handleInterrupted cs
  | .err e _ :: _ => some (.error e)

/-- util/src/io.rs:417-427 `substitute_for_ioerr_kind_with`. -/
def substituteKind {α ε : Type} (c : Call α ε) (k : IoKind) (v : α) : Call α ε :=
  match c with
  | .ok a => .ok a
  | .err e (some k') => if k' = k then .ok v else .err e (some k')
  | .err e none => .err e none

/-! ### Slice copies (to/src/ops.rs, util/src/mem.rs). `none` is a panic. -/

/-- to/src/ops.rs:23-28 `copy_slice`, util/src/mem.rs:63-65 `cpy`: `copy_from_slice` panics on a
length mismatch. -/
def copySlice {α : Type} (src dst : List α) : Option (List α) :=
  if src.length = dst.length then some src else none

/-- to/src/ops.rs:51-56 `copy_slice_least_src`: `&mut out[..origin.len()]` panics when too short. -/
def copyLeastSrc {α : Type} (src dst : List α) : Option (List α) :=
  if src.length ≤ dst.length then
    (copySlice src (dst.take src.length)).map (fun x => x ++ dst.drop src.length)
  else none

/-- to/src/ops.rs:74-82 `copy_slice_least`, util/src/mem.rs:79-84 `cpy_min`. -/
def copyLeast {α : Type} (src dst : List α) : Option (List α) :=
  let len := min src.length dst.length
  (copySlice (src.take len) (dst.take len)).map (fun x => x ++ dst.drop len)

/-- to/src/ops.rs:105-112 `try_copy_slice`: the returned `Option<()>` and the destination. -/
def tryCopySlice {α : Type} (src dst : List α) : Option (Option Unit × List α) :=
  if src.length = dst.length then (copySlice src dst).map (fun x => (some (), x)) else some (none, dst)

/-- to/src/ops.rs:140-147 `try_copy_slice_least_src`. -/
def tryCopyLeastSrc {α : Type} (src dst : List α) : Option (Option Unit × List α) :=
  if src.length ≤ dst.length then (copyLeastSrc src dst).map (fun x => (some (), x)) else some (none, dst)

/-- util/src/mem.rs:31-45 `cat!(len; …)`: copies the parts one after another into an array of `len`
bytes; panics unless they fill it exactly. -/
def cat (len : Nat) (parts : List Bytes) : Option Bytes :=
  go (List.replicate len 0) 0 parts
where
  go (buf : Bytes) (off : Nat) : List Bytes → Option Bytes
  | [] => if off = buf.length then some buf else none
  | p :: ps =>
    if off + p.length ≤ buf.length then
      go (buf.take off ++ p ++ buf.drop (off + p.length)) (off + p.length) ps
    else none

end Verif.FileIO
