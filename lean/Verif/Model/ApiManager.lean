import Verif.Model.Api
/-
Model of rosenpass/src/api/mio/manager.rs: listeners, connections, and the dispatch of I/O events to them.
-/
namespace Verif.Api
open FdPass (Chan)

/-- A connected client: its identity (the other end of the socket) and the connection. -/
structure Client where
  id : Nat
  link : Link

/-- manager.rs:24-29 `MioManagerIoSource`. -/
inductive Src where
  | listener (i : Nat)
  | connection (i : Nat)
  deriving DecidableEq, Repr

/-- manager.rs:17-20 `MioManager` (a listener has no state of its own) and the manager's entries of
app_server.rs:340 `io_source_index`. -/
structure Mgr where
  listeners : Nat
  conns : List (Option Client)
  index : List (Nat × Src)

/-- What one call of `accept` returns: a connection (of client `id`, in whose socket `chan` is already waiting; `reg`:
whether mio registers it), or an error that is not "try again". When the given calls are used up, `accept` would block. -/
inductive Accept where
  | conn (id : Nat) (chan : Chan) (reg : Bool)
  | err

structure MgrRes where
  res : Except Fail Unit
  app : App
  mgr : Mgr

namespace Mgr

def new : Mgr := ⟨0, [], []⟩

/-- app_server.rs:78-112 `MioTokenDispenser::dispense`. -/
def dispense (a : App) : Nat × App := (a.brokers.next, { a with brokers := { a.brokers with next := a.brokers.next + 1 } })

/-- app_server.rs:989-992 `register_io_source`; a token that is already in use is a panic. -/
def registerSource (a : App) (m : Mgr) (tok : Nat) (src : Src) : MgrRes :=
  let m1 := { m with index := Brokers.put m.index tok src }
  if (m.index.lookup tok).isSome then ⟨.error .panic, a, m1⟩ else ⟨.ok (), a, m1⟩

/-- manager.rs:66-83 `add_listener`. -/
def addListener (a : App) (m : Mgr) (reg : Bool) : MgrRes :=
  let t := dispense a
  if !reg then ⟨.error .error, t.2, m⟩
  else registerSource t.2 { m with listeners := m.listeners + 1 } t.1 (.listener m.listeners)

/-- manager.rs:91-96: the first slot that *is* in use, or the end. -/
def slotFor (conns : List (Option Client)) : Nat := (conns.findIdx? (·.isSome)).getD conns.length

/-- manager.rs:86-104 `add_connection`. The new connection is inserted into the list, and registered as if it were a
listener. -/
def addConnection (a : App) (m : Mgr) (id : Nat) (chan : Chan) (reg : Bool) : MgrRes :=
  let t := dispense a
  if !reg then ⟨.error .error, t.2, m⟩
  else
    match Conn.new t.1 with
    | .error f => ⟨.error f, t.2, m⟩
    | .ok c =>
      let idx := slotFor m.conns
      registerSource t.2 { m with conns := m.conns.insertIdx idx (some ⟨id, ⟨c, chan, []⟩⟩) } t.1 (.listener idx)

/-- manager.rs:136-145: the loop of `accept_from`. -/
def acceptLoop (a : App) (m : Mgr) : List Accept → MgrRes
  | [] => ⟨.ok (), a, m⟩
  | .err :: _ => ⟨.error .error, a, m⟩
  | .conn id chan reg :: rest =>
    let r := m.addConnection a id chan reg
    match r.res with
    | .ok () => r.mgr.acceptLoop r.app rest
    | .error _ => r

/-- manager.rs:132-146 `accept_from`; an index out of bounds is a panic. -/
def acceptFrom (a : App) (m : Mgr) (idx : Nat) (acc : Nat → List Accept) : MgrRes :=
  if idx < m.listeners then m.acceptLoop a (acc idx) else ⟨.error .panic, a, m⟩

/-- manager.rs:157-175 `poll_particular_connection`. -/
def pollConnection (C : Crypto) (checks : Bool) (a : App) (m : Mgr) (idx : Nat) (w : Nat → PollWorld) : MgrRes :=
  match m.conns[idx]? with
  | none => ⟨.error .panic, a, m⟩
  | some none => ⟨.ok (), a, m⟩
  | some (some cl) =>
    let p := cl.link.conn.poll C checks a cl.link.chan (w idx)
    let m1 := { m with conns := m.conns.set idx (some ⟨cl.id, ⟨p.conn, p.chan, cl.link.out ++ p.sent⟩⟩) }
    match p.res with
    | .error f => ⟨.error f, p.app, m1⟩
    | .ok () =>
      match p.conn.shouldClose with
      | none => ⟨.error .panic, p.app, m1⟩
      | some false => ⟨.ok (), p.app, m1⟩
      | some true =>
        let m2 := { m1 with conns := m.conns.set idx none, index := m.index.filter (fun x => x.1 ≠ p.conn.token) }
        if (m.index.lookup p.conn.token).isNone then ⟨.error .panic, p.app, m2⟩ else ⟨.ok (), p.app, m2⟩

/-- a loop over indices that ends with the first error -/
def each (f : App → Mgr → Nat → MgrRes) (a : App) (m : Mgr) : List Nat → MgrRes
  | [] => ⟨.ok (), a, m⟩
  | i :: is =>
    let r := f a m i
    match r.res with
    | .ok () => each f r.app r.mgr is
    | .error _ => r

/-- manager.rs:124-129 `accept_connections`. -/
def acceptConnections (a : App) (m : Mgr) (acc : Nat → List Accept) : MgrRes :=
  each (fun a m i => m.acceptFrom a i acc) a m (List.range m.listeners)

/-- manager.rs:149-154 `poll_connections`. -/
def pollConnections (C : Crypto) (checks : Bool) (a : App) (m : Mgr) (w : Nat → PollWorld) : MgrRes :=
  each (fun a m i => m.pollConnection C checks a i w) a m (List.range m.conns.length)

/-- manager.rs:117-121 `poll`. -/
def poll (C : Crypto) (checks : Bool) (a : App) (m : Mgr) (acc : Nat → List Accept) (w : Nat → PollWorld) : MgrRes :=
  let r := m.acceptConnections a acc
  match r.res with
  | .ok () => r.mgr.pollConnections C checks r.app w
  | .error _ => r

/-- manager.rs:107-114 `poll_particular`. -/
def pollParticular (C : Crypto) (checks : Bool) (a : App) (m : Mgr) (src : Src) (acc : Nat → List Accept) (w : Nat → PollWorld) : MgrRes :=
  match src with
  | .listener i => m.acceptFrom a i acc
  | .connection i => m.pollConnection C checks a i w

/-- app_server.rs:1553-1568 `try_recv_from_mio_token` for the manager's tokens; unknown tokens are ignored. -/
def event (C : Crypto) (checks : Bool) (a : App) (m : Mgr) (tok : Nat) (acc : Nat → List Accept) (w : Nat → PollWorld) : MgrRes :=
  match m.index.lookup tok with
  | none => ⟨.ok (), a, m⟩
  | some src => m.pollParticular C checks a src acc w

/-- bytes from client `id` arrive -/
def arrive (m : Mgr) (id : Nat) (chunk : Chan) : Mgr :=
  { m with conns := m.conns.map (Option.map (fun cl => if cl.id = id then { cl with link := { cl.link with chan := cl.link.chan ++ chunk } } else cl)) }

/-- What happens to the manager: listeners and connections are added (main, accept), clients send, events arrive, the
manager is polled. Between these, the rest of the daemon does anything to the application (`a`), but tokens are never used
twice. -/
inductive Op where
  | listener (a : App) (reg : Bool)
  | connect (a : App) (id : Nat) (reg : Bool)
  | send (id : Nat) (chunk : Chan)
  | event (a : App) (tok : Nat) (acc : Nat → List Accept) (w : Nat → PollWorld)
  | poll (a : App) (acc : Nat → List Accept) (w : Nat → PollWorld)

/-- one step: result (an error is reported and the daemon goes on, C47) and state; `next` is the token counter -/
def step (C : Crypto) (checks : Bool) (m : Mgr) : Op → Except Fail Unit × Mgr
  | .listener a reg => let r := m.addListener a reg; (r.res, r.mgr)
  | .connect a id reg => let r := m.addConnection a id [] reg; (r.res, r.mgr)
  | .send id chunk => (.ok (), m.arrive id chunk)
  | .event a tok acc w => let r := m.event C checks a tok acc w; (r.res, r.mgr)
  | .poll a acc w => let r := m.poll C checks a acc w; (r.res, r.mgr)

/-- a history; `none` if the daemon panics or hangs -/
def run (C : Crypto) (checks : Bool) (m : Mgr) : List Op → Option Mgr
  | [] => some m
  | o :: os =>
    match m.step C checks o with
    | (.error .panic, _) => none
    | (.error .blocked, _) => none
    | (_, m1) => m1.run C checks os

end Mgr
end Verif.Api
