import Verif.Model.Handshake
/-
Model of `CryptoServer::poll` (rosenpass/src/protocol/protocol.rs:2371-2963) and of the set of
operations an application can perform on a server.
-/
namespace Verif

/-- protocol.rs:2493-2516 `PollResult`. -/
inductive PollResult where
  | sleep (t : Time)
  | deleteKey (p : Nat)
  | sendInitiation (p : Nat)
  | sendRetransmission (p : Nat)
  deriving DecidableEq, Repr, Inhabited

namespace PollResult

/-- protocol.rs:2537-2539 `hibernate`, 2806-2808 `begin_poll`. -/
def hibernate : PollResult := .sleep unending

/-- protocol.rs:2791-2794 `saturated`. -/
def saturated : PollResult → Bool
  | .sleep _ => false
  | _ => true

/-- protocol.rs:2556-2562 `peer`. -/
def peer : PollResult → Option Nat
  | .sleep _ => none
  | .deleteKey p => some p
  | .sendInitiation p => some p
  | .sendRetransmission p => some p

/-- protocol.rs:2599-2612 `fold`; `none` is the explicit `panic!`. -/
def fold (a b : PollResult) : Option PollResult :=
  match a, b with
  | .sleep x, .sleep y => some (.sleep (min x y))
  | a, .sleep _ => some a
  | .sleep _, b => some b
  | _, _ => none

end PollResult

/-- protocol.rs:2432-2437 `or_hibernate`. -/
def waitOrHibernate (t : Option Time) : Time := t.getD unending
/-- protocol.rs:2449-2454 `or_immediate`. -/
def waitOrImmediate (t : Option Time) : Time := t.getD 0
/-- protocol.rs:2414-2420 `immediate_unless`. -/
def waitImmediateUnless (c : Bool) : Time := if c then unending else 0
/-- protocol.rs:2466-2469 `and`: the later of two waits. -/
def waitAnd (a b : Time) : Time := if a > b then a else b

/-- One polling step: current result and state. `none` is a panic. -/
abbrev PollSt := Option (PollResult × Server)

/-- protocol.rs:2705-2714 `sched` (and 2743-2756 `try_sched`). The wait is computed from the state
at this point, the action runs on it. -/
def sched (x : PollSt) (wait : Server → Time) (act : Server → PollSt) : PollSt :=
  match x with
  | none => none
  | some (acc, s) =>
    if acc.saturated then some (acc, s)
    else if hasHappened (wait s) 0 then
      match act s with
      | none => none
      | some (b, s1) => (acc.fold b).map (fun c => (c, s1))
    else (acc.fold (.sleep (wait s))).map (fun c => (c, s))

/-- protocol.rs:2648-2650 `poll_child` via 2634-2640 `try_fold_with`. -/
def pollChild (x : PollSt) (child : Server → PollSt) : PollSt :=
  match x with
  | none => none
  | some (acc, s) =>
    if acc.saturated then some (acc, s)
    else
      match child s with
      | none => none
      | some (b, s1) => (acc.fold b).map (fun c => (c, s1))

namespace Server

/-- Random values of one `poll`: replacement values for erased stores and the retry jitter. -/
structure PollRnd where
  b : Bool → Bytes
  c : Bool → Bytes
  jit : Nat

/-- protocol.rs:2900-2906 `Pollable for BiscuitKeyPtr`: erase a dead biscuit key. -/
def pollBiscuit (now : Time) (r : PollRnd) (i : Bool) (s : Server) : PollSt :=
  sched (some (.hibernate, s))
    (fun s => waitOrHibernate ((s.biscuitKeys.get i).biscuitMortal.lifeLeft now))
    (fun s => some (.hibernate, { s with biscuitKeys := s.biscuitKeys.set i (newStore (r.b i)) }))

/-- protocol.rs:2908-2914 `Pollable for ServerCookieSecretPtr`. -/
def pollCookie (now : Time) (r : PollRnd) (i : Bool) (s : Server) : PollSt :=
  sched (some (.hibernate, s))
    (fun s => waitOrHibernate ((s.cookieSecrets.get i).cookieMortal.lifeLeft now))
    (fun s => some (.hibernate, { s with cookieSecrets := s.cookieSecrets.set i (newStore (r.c i)) }))

/-- protocol.rs:2945-2954 `Pollable for IniHsPtr` with 3066-3070 `retransmission_in`. -/
def pollHs (now : Time) (r : PollRnd) (p : Nat) (s : Server) : PollSt :=
  sched (some (.hibernate, s))
    (fun s => waitOrHibernate ((s.handshake p).map (fun h => h.txRetryAt - now)))
    (fun s => some (.sendRetransmission p, s.modHs p (regRetransmit now r.jit)))

/-- protocol.rs:2956-2963 `Pollable for KnownInitConfResponsePtr`. -/
def pollKnown (now : Time) (p : Nat) (s : Server) : PollSt :=
  sched (some (.hibernate, s))
    (fun s => waitOrHibernate ((Known.mortal (s.known p)).lifeLeft now))
    (fun s => (s.knownRemove p).map (fun s1 => (.hibernate, s1)))

/-- protocol.rs:2931-2934: the wait before an initiation is requested. -/
def initiationWait (s : Server) (p : Nat) (now : Time) : Time :=
  waitAnd (waitAnd (waitImmediateUnless ((s.peers[p]?.map (·.initReq)).getD true))
      (waitOrImmediate ((Session.mortal (s.session p)).youthLeft now)))
    (waitOrImmediate ((IniHs.mortal (s.handshake p)).youthLeft now))

/-- protocol.rs:2916-2943 `Pollable for PeerPtr`. -/
def pollPeer (now : Time) (r : PollRnd) (p : Nat) (s : Server) : PollSt :=
  let x := some (PollResult.hibernate, s)
  let x := sched x (fun s => waitOrHibernate ((IniHs.mortal (s.handshake p)).lifeLeft now))
    (fun s => some (.hibernate, s.hsTake p))
  let x := sched x (fun s => waitOrHibernate ((Session.mortal (s.session p)).lifeLeft now))
    (fun s => some (.deleteKey p, s.sessTake p))
  let x := sched x (fun s => s.initiationWait p now)
    (fun s => some (.sendInitiation p, s.modPeer p (fun q => { q with initReq := true })))
  let x := pollChild x (pollHs now r p)
  pollChild x (pollKnown now p)

/-- protocol.rs:2658-2671 `poll_children`: stop at the first saturated result. -/
def pollChildren : List (Server → PollSt) → PollSt → PollSt
  | [], x => x
  | f :: fs, x =>
    match x with
    | none => none
    | some (acc, _) => if acc.saturated then x else pollChildren fs (pollChild x f)

/-- protocol.rs:1227-1230 `peer_ptrs_off`. -/
def peerPtrsOff (s : Server) (n : Nat) : List Nat :=
  (List.range s.peers.length).map (fun i => (i + n) % s.peers.length)

/-- protocol.rs:2887-2897 `CryptoServer::poll`. -/
def poll (s : Server) (now : Time) (r : PollRnd) : PollSt :=
  let x := pollChildren [pollBiscuit now r false, pollBiscuit now r true] (some (.hibernate, s))
  let x := pollChildren [pollCookie now r false, pollCookie now r true] x
  let x := pollChildren ((s.peerPtrsOff s.pollOff).map (fun p => pollPeer now r p)) x
  x.map (fun (res, s1) =>
    (res, { s1 with pollOff := match res.peer with | some p => p + 1 | none => 0 }))

/-! ### Histories -/

/-- One call of the application into the server. -/
inductive Op where
  | addPeer (psk : Option Bytes) (pk : Bytes) (v : Version) (osk : OskDomain)
  | initiate (p : Nat) (now : Time) (r : Rnd) (tx : Bytes)
  | handleMsg (rx tx : Bytes) (now : Time) (r : HashChoice → Rnd)
  | handleMsgUnderLoad (rx tx host : Bytes) (now : Time) (r : HashChoice → Rnd)
  | poll (now : Time) (r : PollRnd)
  | retransmit (p : Nat) (tx : Bytes)

/-- State after one call. A panicking `poll` ends the process; the state is then irrelevant. -/
def step (C : Crypto) (s : Server) : Op → Server
  | .addPeer psk pk v osk => (s.addPeer C psk pk v osk).2
  | .initiate p now r tx => (s.initiate C p now r tx).2
  | .handleMsg rx tx now r => (s.handleMsg C rx tx now r).2
  | .handleMsgUnderLoad rx tx host now r => (s.handleMsgUnderLoad C rx tx host now r).2
  | .poll now r => match s.poll now r with | some (_, s1) => s1 | none => s
  | .retransmit p tx => (s.retransmit C p tx).2

/-- State after a sequence of calls. -/
def run (C : Crypto) (s : Server) (ops : List Op) : Server := ops.foldl (fun s o => s.step C o) s

/-- The sizes the Rust types give to the arguments of a call. -/
def Op.WF (C : Crypto) : Op → Prop
  | .addPeer psk _ _ _ => ∀ k, psk = some k → k.length = 32
  | .initiate _ _ r _ => r.WF C
  | .handleMsg _ _ _ r => ∀ h, (r h).WF C
  | .handleMsgUnderLoad _ _ _ _ r => ∀ h, (r h).WF C
  | .poll _ r => (∀ i, (r.b i).length = 32 ∧ (r.c i).length = 16) ∧ r.jit < 2 ^ 53
  | .retransmit _ _ => True

/-- `s` is reached from a fresh server by some sequence of calls. -/
inductive Reachable (C : Crypto) : Server → Prop
  | new (sk pk b0 b1 c0 c1 kk : Bytes) : b0.length = 32 → b1.length = 32 → c0.length = 16 →
      c1.length = 16 → kk.length = 32 → Reachable C (new sk pk b0 b1 c0 c1 kk)
  | step (s : Server) (o : Op) : Reachable C s → o.WF C → Reachable C (s.step C o)

end Server
end Verif
