import Verif.Model.Broker
import Verif.Model.Fds
/-!
Model of wireguard-broker/src/brokers/mio_client.rs:273-319 `flush_blocking` together with the file descriptor of its socket: what
the calls of fcntl(2) do, and how many times `write` is called in the loop.
-/
namespace Verif.Broker
open LengthPrefix (IoKind IoOut Enc)

/-- mio_client.rs:303-313: how many of the given outcomes the loop of `flush_blocking` uses, that is how often it calls `write`
(recursion as in `Client.flushAll`). -/
def Client.loopWrites (c : Client) : List IoOut → Nat
  | [] => 0
  | o :: os =>
    if c.enc.exhausted = some false then
      match c.enc.write o with
      | (.ok _, e, b) => 1 + Client.loopWrites { c with enc := e, out := c.out ++ b } os
      | (.error (.io .wouldBlock), e, b) => 1 + Client.loopWrites { c with enc := e, out := c.out ++ b } os
      | (.error (.io .interrupted), e, b) => 1 + Client.loopWrites { c with enc := e, out := c.out ++ b } os
      | _ => 1
    else 0

/-- One call of `flush_blocking`: its result, the client afterwards; the process while the loop runs (if it is reached) and
afterwards; the number of `write` calls of the loop. -/
structure Flushed where
  res : Except Fail Unit
  client : Client
  during : Option Fds.Proc
  after : Fds.Proc
  writes : Nat

/-- mio_client.rs:273-319 `flush_blocking` of a client whose socket is descriptor `n`. `FdFlags` of the crate rustix takes any bits,
so the conversion of `O_NONBLOCK` succeeds. -/
def Client.flushOn (c : Client) (p : Fds.Proc) (n : Nat) (os0 os1 : List IoOut) : Flushed :=
  match c.flush os0 with
  | (.error f, c) => ⟨.error f, c, none, p, 0⟩
  | (.ok (), c) =>
    match c.enc.exhausted with
    | none => ⟨.error .panic, c, none, p, 0⟩
    | some true => ⟨.ok (), c, none, p, 0⟩
    | some false =>
      match p.getFd n, p.makeBlocking n with
      | some orig, some p1 =>
        match c.flushAll os1, p1.restoreFlags n orig with
        | (r, c'), some p2 => ⟨r, c', some p1, p2, c.loopWrites os1⟩
        | (_, c'), none => ⟨.error .error, c', some p1, p1, c.loopWrites os1⟩
      | _, _ => ⟨.error .error, c, none, p, 0⟩

end Verif.Broker
