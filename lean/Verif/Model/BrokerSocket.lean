import Verif.Model.Broker
/-
Model of wireguard-broker/src/bin/socket_handler.rs: the process that accepts clients on a unix socket and hands their
requests to one privileged broker process (model: Broker.lean) over its standard input and output.

Messages are atomic here: `read_exact` and `write_all` transfer whole messages (the byte streams are treated in
Thm/Broker.lean), so a step is one message going from one place to the next. Every interleaving of the tasks is a
sequence of steps.
-/
namespace Verif.Broker

/-- socket_handler.rs:157-208 where the task of a client is: not yet connected; at the top of its loop or waiting for bytes
(169-184); waiting for the reply (196); with a reply to write (199-203); ended. -/
inductive Phase where
  | fresh | reading | waiting | replied (r : Bytes) | closed
  deriving DecidableEq, Repr

/-- socket_handler.rs:97-139 where the worker and the pipes of the broker process are: waiting for a request (111); a
request is written and the broker has not read it; the broker has answered; the broker has read the request and does
not answer (priviledged.rs:84-87), so the worker waits at line 120. -/
inductive Worker where
  | idle
  | sent (i : Nat) (m : Bytes)
  | answered (i : Nat) (r : Bytes)
  | silent (i : Nat)
  deriving DecidableEq, Repr

/-- socket_handler.rs: all tasks. Messages carry the number of their client; `inbox` are the messages that clients have
sent and that were not read, `out` the answers written to clients. -/
structure Sock (σ : Type) where
  phase : Nat → Phase
  inbox : List (Nat × Bytes)
  queue : List (Nat × Bytes)
  worker : Worker
  state : σ
  out : List (Nat × Bytes)

/-- what can happen next -/
inductive Act where
  /-- 144-150: client `i` connects -/
  | accept (i : Nat)
  /-- client `i` sends a message -/
  | arrive (i : Nat) (m : Bytes)
  /-- 169-193: the task of client `i` reads a message and queues it -/
  | take (i : Nat)
  /-- 173, 184: client `i` hangs up -/
  | hangup (i : Nat)
  /-- 111-116: the worker writes the next request to the broker -/
  | forward
  /-- the broker reads the request and answers, or not -/
  | backend
  /-- 120-137: the worker reads the answer and passes it to the task -/
  | reply
  /-- 199-203: the task writes the reply; this may fail -/
  | deliver (i : Nat) (ok : Bool)
  deriving DecidableEq, Repr

/-- 69: `mpsc::channel(100)` -/
def queueSize : Nat := 100

def Sock.init {σ : Type} (s : σ) : Sock σ := ⟨fun _ => .fresh, [], [], .idle, s, []⟩

def Sock.setPhase {σ : Type} (s : Sock σ) (i : Nat) (p : Phase) : Sock σ := { s with phase := fun j => if j = i then p else s.phase j }

/-- One step; `none` if it is not possible in this state. -/
def Sock.step {σ : Type} (inner : Inner σ) (s : Sock σ) : Act → Option (Sock σ)
  | .accept i => if s.phase i = .fresh then some (s.setPhase i .reading) else none
  | .arrive i m => some { s with inbox := s.inbox ++ [(i, m)] }
  | .take i =>
    if s.phase i = .reading then
      match s.inbox.find? (fun x => x.1 = i) with
      | none => none
      | some (_, m) =>
        -- 177-180 `ensure!`
        if requestSize < m.length then some (s.setPhase i .closed)
        -- 188-193: `send` waits while the channel is full
        else if s.queue.length < queueSize then
          some { s.setPhase i .waiting with inbox := s.inbox.eraseP (fun x => x.1 = i), queue := s.queue ++ [(i, m)] }
        else none
    else none
  | .hangup i => if s.phase i = .reading then some (s.setPhase i .closed) else none
  | .forward =>
    match s.worker, s.queue with
    | .idle, (i, m) :: q => some { s with worker := .sent i m, queue := q }
    | _, _ => none
  | .backend =>
    match s.worker with
    | .sent i m =>
      let x := handleMessage inner s.state m
      match x.1 with
      | none => some { s with worker := .silent i, state := x.2 }
      | some r => some { s with worker := .answered i r, state := x.2 }
    | _ => none
  | .reply =>
    match s.worker with
    | .answered i r => some { s.setPhase i (.replied r) with worker := .idle }
    | _ => none
  | .deliver i ok =>
    match s.phase i with
    | .replied r => if ok then some { s.setPhase i .reading with out := s.out ++ [(i, r)] } else some (s.setPhase i .closed)
    | _ => none

def Sock.run {σ : Type} (inner : Inner σ) (s : Sock σ) : List Act → Option (Sock σ)
  | [] => some s
  | a :: as =>
    match s.step inner a with
    | none => none
    | some s => s.run inner as

end Verif.Broker
