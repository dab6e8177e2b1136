import Verif.Model.FileIO
/-
Model of the generation of key files: rosenpass/src/cli.rs (`gen-keys`, `keygen`, `gen-config`,
`generate_and_save_keypair`) and rp/src/key.rs (`genkey`, `pubkey`).

`Fs` holds the regular files. The environment may make every open fail and may kill the process at every step
(`Wr`). The key generation itself is a parameter: the pair (secret key, public key) it produced.
-/
namespace Verif.KeyGen
open FileIO

/-- What happens to one `fopen_w(path)?.write_all(data)`: the process is killed before the file is opened, opening
fails, or the file is opened and the calls of `write` go as in the schedule (the process is killed where it ends). -/
inductive Wr where
  | killed
  | openErr (k : LengthPrefix.IoKind)
  | opened (os : List Out)
  deriving DecidableEq, Repr

/-- util/src/file.rs:43-52 with secret-memory's `store_secret`/`store` -/
def put (fs : Fs) (umask : Nat) (path : String) (v : Visibility) (data : Bytes) : Wr → R Unit × Fs
  | .killed => (none, fs)
  | .openErr k => (some (.error (.io k)), fs)
  | .opened os => writeFile fs umask path v data os

/-- how a command ends: `none`, killed; otherwise success, refusal or an error of a file -/
inductive End where
  | killed
  | refused
  | failed
  | ok
  deriving DecidableEq, Repr

/-- the end of the command when a file operation ended it -/
def ended {α : Type} : R α → End
  | none => .killed
  | some (.error _) => .failed
  | some (.ok _) => .ok

/-- rosenpass/src/cli.rs:613-619 `generate_and_save_keypair` -/
def saveKeypair (fs : Fs) (umask : Nat) (skf pkf : String) (sk pk : Bytes) (w1 w2 : Wr) : End × Fs :=
  let (r1, fs1) := put fs umask skf .secret sk w1
  match r1 with
  | some (.ok ()) =>
    let (r2, fs2) := put fs1 umask pkf .pub pk w2
    (ended r2, fs2)
  | r => (ended r, fs1)

/-- rosenpass/src/cli.rs:356-375: `gen-keys`, once the two paths are known (from the flags or from the configuration).
`is_file` of a path is whether it is a regular file. -/
def genKeys (fs : Fs) (umask : Nat) (force : Bool) (pkf skf : String) (sk pk : Bytes) (w1 w2 : Wr) : End × Fs :=
  if (!force && (fs pkf).isSome) || (!force && (fs skf).isSome) then (.refused, fs)
  else saveKeypair fs umask skf pkf sk pk w1 w2

/-- rosenpass/src/cli.rs:300-315: the loop of `keygen`, arguments taken in pairs -/
def keygenArgs (s p : Option String) : List String → Option (Option String × Option String)
  | [] => some (s, p)
  | [_] => none
  | k :: v :: rest =>
    if k = "private-key" ∨ k = "secret-key" then keygenArgs (some v) p rest
    else if k = "public-key" then keygenArgs s (some v) rest
    else none

/-- rosenpass/src/cli.rs:292-325: the deprecated `keygen` -/
def keygen (fs : Fs) (umask : Nat) (args : List String) (sk pk : Bytes) (w1 w2 : Wr) : End × Fs :=
  match keygenArgs none none args with
  | some (some skf, some pkf) => saveKeypair fs umask skf pkf sk pk w1 w2
  | _ => (.refused, fs)

/-- rosenpass/src/cli.rs:282-289: `gen-config`; `std::fs::write` creates with mode 0o666 -/
def genConfig (fs : Fs) (umask : Nat) (force : Bool) (path : String) (text : Bytes) (w : Wr) : End × Fs :=
  if force || (fs path).isNone then
    match w with
    | .killed => (.killed, fs)
    | .openErr _ => (.failed, fs)
    | .opened os =>
      let m := match fs path with | none => 0o666 &&& (0o777 ^^^ (umask &&& 0o777)) | some f => f.mode
      let (r, c) := writeAll text os
      (ended r, fs.put path ⟨c, m⟩)
  else (.refused, fs)

/-! ### rp -/

/-- the bits of `st_mode` which give the type of a file (inode(7)) -/
def fileTypes : List Nat := [0o140000, 0o120000, 0o100000, 0o060000, 0o040000, 0o020000, 0o010000]

/-- The directory of the private keys as `stat` sees it: `none`, or its `st_mode`. Rust's `permissions().mode()` is the whole
`st_mode`. -/
abbrev DirMode := Option Nat

/-- what `DirBuilder::create` does -/
inductive Mk where
  | killed
  | err
  | created
  deriving DecidableEq, Repr

/-- `dir.join(name)` for a plain name: a separator is added if one is needed -/
def join (dir name : String) : String := if dir = "" ∨ dir.toList.getLast? = some '/' then dir ++ name else dir ++ "/" ++ name

/-- rp/src/key.rs:28-31 `WG_B64_LEN` -/
def WG_B64_LEN : Nat := 32 * 5 / 3

/-- `store_b64` with an environment -/
def putB64 (fs : Fs) (umask : Nat) (path : String) (v : Visibility) (key : Bytes) (w : Wr) : R Unit × Fs :=
  match b64Encode key WG_B64_LEN with
  | .error e => (some (.error e), fs)
  | .ok s => put fs umask path v s w

/-- rp/src/key.rs:51-79: `genkey`, in a directory that is in order. `wgsk` and `(pqsk, pqpk)` are the fresh keys. -/
def genkeyIn (fs : Fs) (umask : Nat) (dir : String) (wgsk pqsk pqpk : Bytes) (w1 w2 w3 : Wr) : End × Fs :=
  let (r1, fs1) := if (fs (join dir "wgsk")).isNone then putB64 fs umask (join dir "wgsk") .secret wgsk w1 else (some (.ok ()), fs)
  match r1 with
  | some (.ok ()) =>
    if (fs1 (join dir "pqsk")).isNone && (fs1 (join dir "pqpk")).isNone then
      let (r2, fs2) := put fs1 umask (join dir "pqpk") .pub pqpk w2
      match r2 with
      | some (.ok ()) =>
        let (r3, fs3) := put fs2 umask (join dir "pqsk") .secret pqsk w3
        (ended r3, fs3)
      | r => (ended r, fs2)
    else (.ok, fs1)
  | r => (ended r, fs1)

/-- rp/src/key.rs:36-79 `genkey`; the result includes the directory -/
def genkey (fs : Fs) (umask : Nat) (d : DirMode) (dir : String) (wgsk pqsk pqpk : Bytes) (mk : Mk) (w1 w2 w3 : Wr) : End × Fs × DirMode :=
  match d with
  | some mode =>
    if mode ≠ 0o700 then (.refused, fs, d)
    else
      let (e, fs') := genkeyIn fs umask dir wgsk pqsk pqpk w1 w2 w3
      (e, fs', d)
  | none =>
    match mk with
    | .killed => (.killed, fs, none)
    | .err => (.failed, fs, none)
    | .created =>
      let (e, fs') := genkeyIn fs umask dir wgsk pqsk pqpk w1 w2 w3
      (e, fs', some (0o040000 ||| (0o700 &&& (0o777 ^^^ (umask &&& 0o777)))))

/-- `std::fs::copy`: the destination gets the mode of the source as soon as it is open, then the contents -/
def copyFile (fs : Fs) (src dst : String) (w : Wr) : R Unit × Fs :=
  match fs src with
  | none => (some (.error .noFile), fs)
  | some f =>
    match w with
    | .killed => (none, fs)
    | .openErr k => (some (.error (.io k)), fs)
    | .opened os =>
      let (r, c) := writeAll f.content os
      (r, fs.put dst ⟨c, f.mode⟩)

/-- rp/src/key.rs:86-117 `pubkey`. `x25519` gives the public key of a secret one; `init` is what the fresh secret buffer
contains, `rs` the schedule of the reads. -/
def pubkey (fs : Fs) (umask : Nat) (x25519 : Bytes → Bytes) (pubDir : DirMode) (priv pub : String) (init : Bytes) (mk : Mk) (rs : List Out) (w1 w2 : Wr) : End × Fs × DirMode :=
  match pubDir with
  | some m => (.refused, fs, some m)
  | none =>
    match mk with
    | .killed => (.killed, fs, none)
    | .err => (.failed, fs, none)
    | .created =>
      let d : DirMode := some (0o040000 ||| (0o777 &&& (0o777 ^^^ (umask &&& 0o777))))
      match loadB64 fs (join priv "wgsk") WG_B64_LEN init rs with
      | some (.ok wgsk) =>
        let (r1, fs1) := putB64 fs umask (join pub "wgpk") .pub (x25519 wgsk) w1
        match r1 with
        | some (.ok ()) =>
          let (r2, fs2) := copyFile fs1 (join priv "pqpk") (join pub "pqpk") w2
          (ended r2, fs2, d)
        | r => (ended r, fs1, d)
      | r => (ended r, fs, d)

end Verif.KeyGen
