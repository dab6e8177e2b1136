import Verif.Model.Base
/-!
Model of util/src/fd.rs (claiming file descriptors given by number), util/src/mio/mio.rs (sockets made of such descriptors),
rosenpass/src/api/config.rs (`apply_to_app_server`), and of the part of the operating system they talk to: the table of file
descriptors of the process. Calls of other threads in between are not modelled. Whether a system call that could succeed fails
for a reason outside the table (`EINTR`, no memory, no /dev/null) is decided by the environment, one `Bool` per call.
-/
namespace Verif.Fds

/-- What an open file is: opened from /dev/null, a unix stream socket, another unix socket, another socket, a pipe, a regular file. -/
inductive FKind where
  | null | unixStream | unixOther | otherSocket | pipe | regular
  deriving DecidableEq, Repr

/-- epoll_ctl(2): regular files and /dev/null cannot be polled (`EPERM`). -/
def FKind.pollable : FKind → Bool
  | .null => false
  | .regular => false
  | _ => true

/-- An entry of the table: which open file the descriptor refers to, and whether it is closed by `execve`. -/
structure Entry where
  file : Nat
  cloexec : Bool
  deriving DecidableEq, Repr

/-- The process: its table (as long as the limit on descriptors), what the open files are and whether `O_NONBLOCK` is set for them,
the number of the next file to be opened; `fault` records that a descriptor that was not open has been closed through an
`OwnedFd` (std aborts then if its checks are on). -/
structure Proc where
  tab : List (Option Entry)
  kind : Nat → FKind
  nonblock : Nat → Bool
  next : Nat
  fault : Bool

inductive Fail where
  | error | panic
  deriving DecidableEq, Repr

namespace Proc

/-- the entry of a descriptor, if it is open -/
def at? (p : Proc) (n : Nat) : Option Entry := p.tab[n]?.join

/-- the number is free: within the limit and not open -/
def isFree (p : Proc) (n : Nat) : Bool := p.tab[n]? == some none

/-- The kernel hands out the lowest free number that is at least `min`. -/
def lowest (p : Proc) (min : Nat) : Option Nat := (List.range' min (p.tab.length - min)).find? p.isFree

def put (p : Proc) (n : Nat) (e : Option Entry) : Proc := { p with tab := p.tab.set n e }

/-- close(2), and dropping an `OwnedFd`. -/
def close (p : Proc) (n : Nat) : Proc :=
  match p.at? n with
  | none => { p with fault := true }
  | some _ => p.put n none

/-- fcntl(2) `F_DUPFD_CLOEXEC`, fd.rs:124-127 `clone_fd_cloexec` (with `min` 3). -/
def dupfd (p : Proc) (n min : Nat) (ok : Bool) : Option Nat × Proc :=
  match p.at? n, p.lowest min, ok with
  | some e, some m, true => (some m, p.put m (some ⟨e.file, true⟩))
  | _, _, _ => (none, p)

/-- dup3(2) with `O_CLOEXEC`, fd.rs:135-138 `clone_fd_to_cloexec`. -/
def dup3 (p : Proc) (old new : Nat) (ok : Bool) : Bool × Proc :=
  match p.at? old with
  | none => (false, p)
  | some e =>
    if old = new ∨ p.tab.length ≤ new ∨ ok = false then (false, p)
    else (true, p.put new (some ⟨e.file, true⟩))

/-- A system call that opens a new file of the given kind: open(2), socket(2), accept(2). -/
def opens (p : Proc) (k : FKind) (nb ok : Bool) : Option Nat × Proc :=
  match p.lowest 0, ok with
  | some m, true => (some m, { p with
      tab := p.tab.set m (some ⟨p.next, true⟩)
      kind := fun f => if f = p.next then k else p.kind f
      nonblock := fun f => if f = p.next then nb else p.nonblock f
      next := p.next + 1 })
  | _, _ => (none, p)

/-- fd.rs:167-171 `open_nullfd`. -/
def openNull (p : Proc) (ok : Bool) : Option Nat × Proc := p.opens .null false ok

/-- fd.rs:116-121 `mask_fd`: the `OwnedFd` of `n` itself is forgotten, the one of /dev/null is dropped. -/
def maskFd (p : Proc) (n : Nat) (okOpen okDup3 : Bool) : Bool × Proc :=
  match p.openNull okOpen with
  | (none, p) => (false, p)
  | (some m, p) =>
    match p.dup3 m n okDup3 with
    | (r, p) => (r, p.close m)

/-- What the environment decides during one claim. -/
structure World where
  dup : Bool
  openNull : Bool
  dup3 : Bool
  setNonblock : Bool
  register : Bool

/-- fd.rs:42-46 `claim_fd`. `BorrowedFd::borrow_raw(-1)` panics; other negative numbers are not open (`EBADF`). -/
def claimFd (p : Proc) (fd : Int) (w : World) : Except Fail Nat × Proc :=
  if fd = -1 then (.error .panic, p)
  else if fd < 0 then (.error .error, p)
  else
    match p.dupfd fd.toNat 3 w.dup with
    | (none, p) => (.error .error, p)
    | (some m, p) =>
      match p.maskFd fd.toNat w.openNull w.dup3 with
      | (false, p) => (.error .error, p.close m)
      | (true, p) => (.ok m, p)

/-- fd.rs:78-83 `claim_fd_inplace`: on failure the descriptor is dropped, that is closed. -/
def claimFdInplace (p : Proc) (fd : Int) (w : World) : Except Fail Nat × Proc :=
  if fd = -1 then (.error .panic, p)
  else if fd < 0 then (.error .error, { p with fault := true })
  else
    match p.dupfd fd.toNat 3 w.dup with
    | (none, p) => (.error .error, p.close fd.toNat)
    | (some t, p) =>
      match p.dup3 t fd.toNat w.dup3 with
      | (false, p) => (.error .error, (p.close t).close fd.toNat)
      | (true, p) => (.ok fd.toNat, p.close t)

/-- ioctl(2) `FIONBIO` as used by `set_nonblocking(true)`: it concerns the open file, whichever descriptor is used. -/
def setNonblocking (p : Proc) (n : Nat) (ok : Bool) : Bool × Proc :=
  match p.at? n with
  | none => (false, p)
  | some e => if ok then (true, { p with nonblock := fun f => if f = e.file then true else p.nonblock f }) else (false, p)

/-- mio.rs:69-75 `UnixListenerExt::claim_fd`: what the descriptor refers to is not checked. -/
def listenerClaim (p : Proc) (fd : Int) (w : World) : Except Fail Nat × Proc :=
  match p.claimFd fd w with
  | (.error f, p) => (.error f, p)
  | (.ok m, p) =>
    match p.setNonblocking m w.setNonblock with
    | (false, p) => (.error .error, p.close m)
    | (true, p) => (.ok m, p)

/-- fd.rs:423-431 `demand_unix_stream_socket`: the kind of file the descriptor refers to. -/
def isUnixStream (p : Proc) (n : Nat) : Bool :=
  match p.at? n with
  | none => false
  | some e => p.kind e.file == .unixStream

/-- mio.rs:93-104 `UnixStreamExt::{from_fd, claim_fd}`. -/
def streamClaim (p : Proc) (fd : Int) (w : World) : Except Fail Nat × Proc :=
  match p.claimFd fd w with
  | (.error f, p) => (.error f, p)
  | (.ok m, p) =>
    if p.isUnixStream m = false then (.error .error, p.close m)
    else
      match p.setNonblocking m w.setNonblock with
      | (false, p) => (.error .error, p.close m)
      | (true, p) => (.ok m, p)

/-- `mio::Registry::register` in app_server.rs (`add_api_listener`, `add_api_connection`): if it fails the socket is dropped. -/
def register (p : Proc) (n : Nat) (ok : Bool) : Bool × Proc :=
  match p.at? n with
  | none => (false, p)
  | some e => if ok && (p.kind e.file).pollable then (true, p) else (false, p.close n)

/-- config.rs:33-36: `UnixListener::bind` of one path; `bound` says whether the path can be bound. -/
def bindPath (p : Proc) (bound : Bool) : Except Fail Nat × Proc :=
  match p.opens .unixStream true bound with
  | (none, p) => (.error .error, p)
  | (some m, p) => (.ok m, p)

/-- One socket made and added, config.rs:34, 38, 42. -/
def addSocket (r : Except Fail Nat × Proc) (ok : Bool) : Except Fail Nat × Proc :=
  match r with
  | (.error f, p) => (.error f, p)
  | (.ok m, p) =>
    match p.register m ok with
    | (false, p) => (.error .error, p)
    | (true, p) => (.ok m, p)

/-- config.rs:33-43 the three loops: the first failure ends them, with `?`. -/
def each {α : Type} (f : Proc → α → Except Fail Nat × Proc) (p : Proc) : List α → Except Fail (List Nat) × Proc
  | [] => (.ok [], p)
  | x :: xs =>
    match f p x with
    | (.error e, p) => (.error e, p)
    | (.ok m, p) =>
      match each f p xs with
      | (.error e, p) => (.error e, p)
      | (.ok ms, p) => (.ok (m :: ms), p)

end Proc

/-- config.rs:10-26 `ApiConfig`, each item with what the environment decides while it is handled. -/
structure ApiConfig where
  listenPath : List (Bool × Proc.World)
  listenFd : List (Int × Proc.World)
  streamFd : List (Int × Proc.World)

/-- config.rs:32-47 `apply_to_app_server`: the descriptors of the listeners and of the connections. -/
def ApiConfig.apply (c : ApiConfig) (p : Proc) : Except Fail (List Nat × List Nat) × Proc :=
  match p.each (fun p x => Proc.addSocket (p.bindPath x.1) x.2.register) c.listenPath with
  | (.error e, p) => (.error e, p)
  | (.ok a, p) =>
    match p.each (fun p x => Proc.addSocket (p.listenerClaim x.1 x.2) x.2.register) c.listenFd with
    | (.error e, p) => (.error e, p)
    | (.ok b, p) =>
      match p.each (fun p x => Proc.addSocket (p.streamClaim x.1 x.2) x.2.register) c.streamFd with
      | (.error e, p) => (.error e, p)
      | (.ok s, p) => (.ok (a ++ b, s), p)

/-! ### File descriptor flags and file status flags, as used by the broker client -/

/-- fcntl(2) `F_GETFD`: bit 0 is `FD_CLOEXEC`, the only one. -/
def Proc.getFd (p : Proc) (n : Nat) : Option Nat := (p.at? n).map fun e => if e.cloexec then 1 else 0

/-- fcntl(2) `F_SETFD`: only bit 0 has a meaning. -/
def Proc.setFd (p : Proc) (n : Nat) (flags : Nat) : Option Proc :=
  (p.at? n).map fun e => p.put n (some { e with cloexec := flags.testBit 0 })

/-- `O_NONBLOCK` on Linux. -/
def oNonblock : Nat := 0x800

/-- wireguard-broker/src/brokers/mio_client.rs:284-301: the part of `flush_blocking` that is to make the socket blocking. -/
def Proc.makeBlocking (p : Proc) (n : Nat) : Option Proc :=
  (p.getFd n).bind fun orig => p.setFd n (orig ||| oNonblock)

/-- mio_client.rs:294, 316: putting the flags back. -/
def Proc.restoreFlags (p : Proc) (n orig : Nat) : Option Proc := p.setFd n orig

end Verif.Fds
