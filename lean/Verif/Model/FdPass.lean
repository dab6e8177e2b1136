import Verif.Model.LengthPrefix
/-
Model of passing file descriptors over unix stream sockets: util/src/mio/uds_send_fd.rs and
uds_recv_fd.rs, with the part of the operating system they talk to (`sendmsg`/`recvmsg` with SCM_RIGHTS;
the crate `uds` wraps these calls and is not modelled further).

A descriptor is named by what it refers to (a number); the operating system gives the receiver a new
descriptor for the same thing.
-/
namespace Verif.FdPass
open LengthPrefix (IoKind IoOut)

/-- The content of a unix stream socket: each byte with the descriptors attached to it. Linux attaches the
descriptors of a `sendmsg` to the first byte it accepts. -/
abbrev Chan := List (UInt8 × List Nat)

/-- the bytes in a socket -/
def bytes (c : Chan) : Bytes := c.map (·.1)
/-- the descriptors in a socket, in order -/
def rights (c : Chan) : List Nat := c.flatMap (·.2)

/-- uds_send_fd.rs:135 `SCM_MAX_FD`. -/
def scmMaxFd : Nat := 253

/-- What one `sendmsg` puts into the socket: the descriptors go with the first byte. -/
def packet : Bytes → List Nat → Chan
  | [], _ => []
  | b :: bs, fds => (b, fds) :: bs.map (fun x => (x, []))

/-- uds_send_fd.rs:126-160 `WriteWithFileDescriptors::write` of `buf` with the queue `q`: the result, the new
queue, and what was put into the socket. `sendmsg` accepts at least one byte of a non-empty buffer or fails. -/
def write (q : List Nat) (buf : Bytes) (o : IoOut) : Except IoKind Nat × List Nat × Chan :=
  if buf.isEmpty then (.ok 0, q, [])
  else
    let buf := if q.length ≤ scmMaxFd then buf else buf.take 1
    let fdNo := min scmMaxFd q.length
    match o with
    | .err k => (.error k, q, [])
    | .ok n =>
      let n := max 1 (min n buf.length)
      (.ok n, q.drop fdNo, packet (buf.take n) (q.take fdNo))

/-- Linux: one `recvmsg` returns the descriptors of at most one `sendmsg`; it stops before the next byte that
carries descriptors. `seen`: descriptors were already found. -/
def stops : Bool → Chan → Nat
  | _, [] => 0
  | seen, (_, fds) :: c => if seen && !fds.isEmpty then 0 else 1 + stops (seen || !fds.isEmpty) c

/-- The environment's choices for one read: the number of bytes (as far as the operating system may choose) or an
error, and for each descriptor received whether claiming it fails (util/src/fd.rs:78-83 `claim_fd_inplace`). -/
structure RdOut where
  io : IoOut
  claim : List (Option IoKind)

/-- The outcome of a read: the bytes or the error, the descriptors held, the rest of the socket, the
descriptors that were closed, and the bytes that were taken out of the socket (also on error). -/
structure Rd where
  res : Except IoKind Bytes
  held : List Nat
  chan : Chan
  closed : List Nat
  taken : Bytes

/-- uds_recv_fd.rs:158-169: claims descriptors in turn; the first failure ends the loop (the descriptor that
failed was dropped, hence closed). Result: the claimed ones, and the failure with the ones not reached. -/
def claimAll : List Nat → List (Option IoKind) → List Nat × Option (IoKind × List Nat)
  | [], _ => ([], none)
  | fd :: fds, c =>
    match c.headD none with
    | some k => ([], some (k, fds))
    | none => let (got, r) := claimAll fds c.tail; (fd :: got, r)

/-- uds_recv_fd.rs:139-185 `ReadWithFileDescriptors::<MAX_FDS>::read` into a slice of `len` bytes while `held`
descriptors are queued. The operating system closes descriptors that do not fit the buffer. -/
def read (maxFds : Nat) (held : List Nat) (c : Chan) (len : Nat) (o : RdOut) : Rd :=
  let free := maxFds - held.length
  match o.io with
  | .err k => ⟨.error k, held, c, [], []⟩
  | .ok n =>
    let n := min n (min len (stops false c))
    let fds := rights (c.take n)
    let got := fds.take free
    let lost := fds.drop free
    match claimAll got o.claim with
    | (claimed, none) => ⟨.ok (bytes (c.take n)), held ++ claimed, c.drop n, lost, bytes (c.take n)⟩
    | (_, some (k, _)) =>
      ⟨.error k, (held ++ (claimAll got o.claim).1).take held.length, c.drop n, got ++ lost, bytes (c.take n)⟩

end Verif.FdPass
