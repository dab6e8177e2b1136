import Verif.Model.BrokerSocket
/-
Model of wireguard-broker/src/bin/socket_handler.rs as a process: BrokerSocket.lean has its tasks as long as the privileged broker process runs; this file adds the end of that
process and of the tasks, and the two ways to use the handler (it listens for clients, or it serves one given stream).

A panic ends the task in which it happens; it ends the process if it happens in `main` (no profile of Cargo.toml sets `panic = "abort"`). Simplification as in BrokerSocket.lean:
messages are atomic.
-/
namespace Verif.Broker

/-- The handler. `listening`: started with --listen-path or --listen-fd; otherwise with --stream-fd, and client 0 is that stream. `priv`: the privileged broker runs;
`work`: the task of lines 72-77 has not ended; `up`: the handler itself runs. -/
structure Handler (σ : Type) where
  s : Sock σ
  listening : Bool
  priv : Bool
  work : Bool
  up : Bool

inductive HEv where
  /-- a step of a task, or of a client, or of the privileged broker, see `Sock.step` -/
  | act (a : Act)
  /-- the privileged broker ends -/
  | privEnds
  /-- 114-120, 131: the pipes to the privileged broker are broken: `direct_broker_process` returns an error and the task panics (75) -/
  | fail
  /-- 196: the sender of the reply is gone: `reply_rx.await.unwrap()` panics -/
  | notice (i : Nat)
  /-- 144: `accept` fails -/
  | acceptFails
  deriving DecidableEq, Repr

/-- 62-93 `main`: `started` says whether the privileged broker could be started (101-105; if not the task panics at once) -/
def Handler.init {σ : Type} (listening started : Bool) (s : σ) : Handler σ :=
  ⟨if listening then Sock.init s else (Sock.init s).setPhase 0 .reading, listening, started, started, true⟩

/-- a task has made a step. If the handler serves one stream, its task is `main` (90): when it ends, so does the process -/
def Handler.with {σ : Type} (h : Handler σ) (s : Sock σ) : Handler σ := { h with s := s, up := h.listening || decide (s.phase 0 ≠ .closed) }

/-- what the worker was doing, or has to do, needs the privileged broker -/
def Sock.needs {σ : Type} (s : Sock σ) : Bool :=
  match s.worker with
  | .idle => !s.queue.isEmpty
  | .sent _ _ => true
  | .silent _ => true
  | .answered _ _ => false

/-- One event; `none` if it is not possible in this state. -/
def Handler.step {σ : Type} (inner : Inner σ) (h : Handler σ) (e : HEv) : Option (Handler σ) :=
  if h.up then
    match e with
    | .act (.accept i) => if h.listening then (h.s.step inner (.accept i)).map h.with else none
    | .act (.take i) =>
      if h.work then (h.s.step inner (.take i)).map h.with
      else if h.s.phase i = .reading then
        -- 177-180 or 188-193: the message is too long, or `queue.send` fails because the receiver is gone
        match h.s.inbox.find? (fun x => x.1 = i) with
        | none => none
        | some _ => some (h.with (h.s.setPhase i .closed))
      else none
    | .act .forward => if h.work && h.priv then (h.s.step inner .forward).map h.with else none
    | .act .backend => if h.priv then (h.s.step inner .backend).map h.with else none
    | .act .reply => if h.work then (h.s.step inner .reply).map h.with else none
    | .act a => (h.s.step inner a).map h.with
    | .privEnds => if h.priv then some { h with priv := false } else none
    | .fail => if h.work && !h.priv && h.s.needs then some { h with work := false, s := { h.s with queue := [], worker := .idle } } else none
    | .notice i => if !h.work && decide (h.s.phase i = .waiting) then some (h.with (h.s.setPhase i .closed)) else none
    | .acceptFails => if h.listening then some { h with up := false } else none
  else none

def Handler.run {σ : Type} (inner : Inner σ) (h : Handler σ) : List HEv → Option (Handler σ)
  | [] => some h
  | e :: es =>
    match h.step inner e with
    | none => none
    | some h => h.run inner es

end Verif.Broker
