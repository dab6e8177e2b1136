import Verif.Model.App
/-
Model of receiving: rosenpass/src/app_server.rs:1355-1634 `try_recv` and its helpers, with the part of
the operating system it talks to (datagrams waiting at the sockets, edge-triggered readiness as used by mio).
Not modelled: the test flag `enable_dos_permanently`; a zero timeout (the protocol server never asks for one,
C18); the bounded capacity of the event buffer; what brokers and API connections do when polled (only
whether it succeeds).
-/
namespace Verif

/-- A datagram; `no` is a serial number (ghost). -/
structure Dgram where
  no : Nat
  data : Bytes
  addr : Addr
  deriving DecidableEq

/-- app_server.rs:387-393 `AppServerIoSource`: a listen socket, the signal handler, or another source (broker or
API connection). Events whose token is not in the index (1559-1566) are `other` as well. -/
inductive Tok where
  | sock (i : Nat) | signal | other
  deriving DecidableEq, Repr

/-- The fields of `AppServer` used by `try_recv` (app_server.rs:331-369), and the operating system's state:
datagrams waiting at each socket, sources that became ready since this was last reported, pending signals. -/
structure Recv where
  waiting : List (List Dgram)
  ready : List Tok
  signal : Bool
  arrived : Nat
  queue : List Tok
  drained : Bool
  longPoll : Bool
  blocking : Nat
  nonBlocking : Nat
  unpolled : Nat
  lastUpdate : Nat
  underLoad : Bool
  deriving DecidableEq

/-- What the environment decides in one call: further events reported by the two polls, whether the polls
succeed, what arrives while the call is blocked, the clock (in ms), which sockets report errors, whether
brokers and API connections can be processed. -/
structure RecvWorld where
  more0 : List Tok
  more1 : List Tok
  poll0 : Bool
  poll1 : Bool
  during : List (Nat × Bytes × Addr)
  now : Nat
  fail : Nat → Bool
  others : Bool

/-- The result of `try_recv` (app_server.rs:455-466 `AppServerTryRecvResult`). -/
inductive RecvRes where
  | none | terminate | err
  | msg (sock : Nat) (d : Dgram)
  deriving DecidableEq

/-- What the polling part of a call did: nothing, because there was still something to do; a poll that found
events; a poll that found nothing, before a pass over all sources; a poll that blocked, with what was waiting at
that time; or a poll that failed (a blocking one, or the one before). -/
inductive PollKind where
  | unpolled | busy | pass
  | blocked (waiting : List (List Dgram))
  | failed (blocked : Option (List (List Dgram)))
  deriving DecidableEq

namespace Recv

/-- app_server.rs:927-939: the initial state, with `n` sockets. -/
def new (n : Nat) (now : Nat) : Recv :=
  { waiting := List.replicate n [], ready := [], signal := false, arrived := 0, queue := [], drained := false, longPoll := false,
    blocking := 0, nonBlocking := 0, unpolled := 0, lastUpdate := now, underLoad := false }

/-- The operating system: a datagram arrives at socket `i`, which thereby becomes ready. -/
def arrive (r : Recv) (i : Nat) (data : Bytes) (addr : Addr) : Recv :=
  if i < r.waiting.length then
    { r with waiting := r.waiting.modify i (· ++ [⟨r.arrived, data, addr⟩]), arrived := r.arrived + 1,
             ready := if r.ready.contains (.sock i) then r.ready else r.ready ++ [.sock i] }
  else r

/-- The operating system: a signal arrives. -/
def raise (r : Recv) : Recv := { r with signal := true, ready := if r.ready.contains .signal then r.ready else r.ready ++ [.signal] }

/-- app_server.rs:1530-1550 `perform_mio_poll_and_register_events`: readiness is reported once. -/
def mioPoll (r : Recv) (more : List Tok) : Recv := { r with queue := r.queue ++ r.ready ++ more, ready := [] }

/-- app_server.rs:1385-1412: poll only if there is nothing left to do. `false`: the poll failed. -/
def pollStage (r : Recv) (e : RecvWorld) : Bool × Recv × PollKind :=
  if !r.drained || !r.queue.isEmpty then (true, { r with unpolled := r.unpolled + 1 }, .unpolled)
  else if !e.poll0 then (false, r, .failed none)
  else
    let r := r.mioPoll e.more0
    if !r.queue.isEmpty then (true, { r with nonBlocking := r.nonBlocking + 1 }, .busy)
    else if !r.longPoll then (true, r, .pass)
    else
      let w := r.waiting
      let r := { r with blocking := r.blocking + 1 }
      if !e.poll1 then (false, r, .failed (some w))
      else
        let r := e.during.foldl (fun r x => r.arrive x.1 x.2.1 x.2.2) r
        let r := r.mioPoll e.more1
        (true, { r with longPoll := false }, .blocked w)

/-- app_server.rs:1419-1444: the load status, re-evaluated when more than 500 ms have passed. (The code divides
floating-point numbers; for fewer than 2^53 polls this is the comparison below.) -/
def loadStage (r : Recv) (now : Nat) : Recv :=
  if now - r.lastUpdate > 500 then
    let total := r.blocking + r.nonBlocking
    let heavy := if total > 0 then 2 * r.nonBlocking > total else r.unpolled > 0
    { r with lastUpdate := now, underLoad := decide heavy, blocking := 0, nonBlocking := 0, unpolled := 0 }
  else r

/-- What reading from a socket gives. -/
inductive SockRes where
  | wouldBlock | err
  | msg (d : Dgram)
  deriving DecidableEq

/-- app_server.rs:1615-1634 `try_recv_from_listen_socket`. -/
def recvSock (r : Recv) (fail : Nat → Bool) (i : Nat) : SockRes × Recv :=
  if fail i then (.err, r)
  else
    match r.waiting[i]? with
    | some (d :: l) => (.msg d, { r with waiting := r.waiting.set i l })
    | _ => (.wouldBlock, r)

/-- app_server.rs:1553-1613 `try_recv_from_mio_token`. -/
def recvTok (r : Recv) (e : RecvWorld) : Tok → RecvRes × Recv
  | .sock i =>
    if i < r.waiting.length then
      match r.recvSock e.fail i with
      | (.wouldBlock, r) => (.none, r)
      | (.err, r) => (.err, r)
      | (.msg d, r) => (.msg i d, r)
    else (.none, r)
  | .signal => if r.signal then (.terminate, { r with signal := false }) else (.none, r)
  | .other => (if e.others then .none else .err, r)

/-- app_server.rs:1472-1479: the queue of events. -/
def takeQueue (r : Recv) (e : RecvWorld) : List Tok → RecvRes × Recv
  | [] => (.none, { r with queue := [] })
  | t :: q =>
    match r.recvTok e t with
    | (.none, r) => r.takeQueue e q
    | (res, r) => (res, { r with queue := q })

/-- app_server.rs:1488-1509: all sockets, `n` of them starting from `i`. -/
def takeSocks (r : Recv) (fail : Nat → Bool) : Nat → Nat → Nat → RecvRes × Recv
  | 0, _, wb => (.none, { r with drained := wb == r.waiting.length })
  | n + 1, i, wb =>
    match r.recvSock fail i with
    | (.wouldBlock, r) => r.takeSocks fail n (i + 1) (wb + 1)
    | (.err, r) => (.err, r)
    | (.msg d, r) => (.msg i d, { r with drained := false })

/-- app_server.rs:1481-1526: signals, sockets, brokers and API connections. -/
def passStage (r : Recv) (e : RecvWorld) : RecvRes × Recv :=
  if r.signal then (.terminate, { r with signal := false })
  else
    match r.takeSocks e.fail r.waiting.length 0 0 with
    | (.none, r) => if e.others then (.none, { r with longPoll := true }) else (.err, r)
    | x => x

/-- app_server.rs:1472-1526: what follows the poll. -/
def serve (r : Recv) (e : RecvWorld) : RecvRes × Recv :=
  match r.takeQueue e r.queue with
  | (.none, r) => r.passStage e
  | x => x

/-- app_server.rs:1355-1527 `try_recv`. -/
def tryRecv (r : Recv) (e : RecvWorld) : RecvRes × Recv × PollKind :=
  match r.pollStage e with
  | (false, r, k) => (.err, r, k)
  | (true, r, k) =>
    let x := (r.loadStage e.now).serve e
    (x.1, x.2, k)

/-- What happens to the receiving side. -/
inductive Act where
  | arrive (i : Nat) (data : Bytes) (addr : Addr)
  | raise
  | recv (e : RecvWorld)

/-- The state afterwards. -/
def apply (r : Recv) : Act → Recv
  | .arrive i data addr => r.arrive i data addr
  | .raise => r.raise
  | .recv e => (r.tryRecv e).2.1

/-- What can be seen of an action: the result of a call, the time, and what its polling part did. -/
def observe (r : Recv) : Act → List (RecvRes × Nat × PollKind)
  | .recv e => [((r.tryRecv e).1, e.now, (r.tryRecv e).2.2)]
  | _ => []

/-- The state after some actions. -/
def run (r : Recv) : List Act → Recv
  | [] => r
  | o :: os => (r.apply o).run os

/-- What was seen during some actions. -/
def trace (r : Recv) : List Act → List (RecvRes × Nat × PollKind)
  | [] => []
  | o :: os => r.observe o ++ (r.apply o).trace os

end Recv

/-- The application together with its receiving side. -/
structure Daemon where
  app : App
  recv : Recv

namespace Daemon

/-- does the protocol server have nothing to do, so that `poll` (app_server.rs:1313-1350) calls `try_recv`? -/
def listens (a : App) (e : World) : Bool :=
  match a.site with
  | .product s => (match s.poll e.now e.prnd with
    | some (.sleep _, _) => true
    | _ => false)
  | _ => true

/-- the result of `try_recv` as seen by `poll` -/
def ioOf : RecvRes → IoEvent
  | .none => .none
  | .terminate => .terminate
  | .err => .err
  | .msg i d => .msg d.data i d.addr

/-- One round of the event loop (app_server.rs:1140-1237, 1313-1350) including receiving: the message and the load
status come from `try_recv` (1196-1203 `match self.under_load`). -/
def round (C : Crypto) (d : Daemon) (e : World) (re : RecvWorld) : App.Res × Daemon :=
  if listens d.app e then
    let x := d.recv.tryRecv re
    let r := d.app.step C { e with io := ioOf x.1, load := x.2.1.underLoad }
    (r, ⟨r.app, x.2.1⟩)
  else
    let r := d.app.step C e
    (r, ⟨r.app, d.recv⟩)

end Daemon
end Verif
