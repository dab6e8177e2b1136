import Verif.Model.Base
/-
Model of the life of the network device of `rp exchange`: `WireGuardDevice` and `WireGuardDeviceImpl` in rp/src/exchange.rs,
and when `exchange` and `main` drop them. The kernel's table of links is explicit, and other processes change it between any two steps of `rp`.

The kernel: names of links are unique, indices are handed out in increasing order (the kernel does not reuse an index before the counter wraps). A request may
also fail for any reason not modelled; it then has no effect. That the cleanup job is awaited when `exchange` returns is Verif.Janitor (C59); if
`exchange` panics the runtime may be shut down before the job has run.
-/
namespace Verif.RpDevice

/-- A link: index, name. `key`: what `set_private_key_and_listen_addr` put into the device. -/
structure Link where
  index : Nat
  name : String
  up : Bool
  key : Option (Bytes × Option Nat)
  deriving DecidableEq, Repr

/-- the kernel's table -/
structure Kernel where
  links : List Link
  next : Nat
  deriving DecidableEq, Repr

/-- changes of the table -/
inductive Req where
  | add (name : String)
  | del (i : Nat)
  | up (i : Nat)
  | setKey (i : Nat) (key : Bytes) (port : Option Nat)
  | rename (i : Nat) (name : String)
  deriving DecidableEq, Repr

def Kernel.named (k : Kernel) (n : String) : List Link := k.links.filter fun l => l.name == n

/-- The effect of a request, `none` if it is refused: adding needs a new name; the others need the link (`ENODEV` otherwise). -/
def Kernel.apply (k : Kernel) : Req → Option Kernel
  | .add n => if (k.named n).isEmpty then some ⟨k.links ++ [⟨k.next, n, false, none⟩], k.next + 1⟩ else none
  | .del i => if k.links.any (fun l => l.index == i) then some { k with links := k.links.filter fun l => !(l.index == i) } else none
  | .up i => if k.links.any (fun l => l.index == i) then some { k with links := k.links.map fun l => if l.index = i then { l with up := true } else l } else none
  | .setKey i key port =>
    if k.links.any (fun l => l.index == i) then some { k with links := k.links.map fun l => if l.index = i then { l with key := some (key, port) } else l } else none
  | .rename i n =>
    if k.links.any (fun l => l.index == i) ∧ (k.named n).isEmpty then some { k with links := k.links.map fun l => if l.index = i then { l with name := n } else l } else none

/-- Where `exchange` is: before a request of `open` (exchange.rs 116-194), after it (447-543), or over. `dev`: the handle
in `self.device`. -/
inductive Pc where
  | check
  | add
  | lookup
  | up (dev : Nat)
  | setKey (dev : Nat)
  | running (dev : Nat)
  | cleanup (dev : Nat) (ok : Bool)
  | over (ok : Bool)
  deriving DecidableEq, Repr

/-- `mine`: the index that was given to the link `rp` added (not known to the program until it looks it up); `reqs`: the requests `rp` made that had an effect. -/
structure St where
  k : Kernel
  pc : Pc
  mine : Option Nat
  reqs : List Req
  deriving DecidableEq, Repr

/-- the options that matter here: name of the device, secret key, port -/
structure Opt where
  name : String
  key : Bytes
  port : Option Nat

/-- A step: another process makes a request; `rp` goes on, and its next request works (`true`) or fails for a reason of its own (`false`);
likewise the request of the cleanup job;
or, while it is running, the rest of `exchange` ends: with a result, or with a panic, in which case the cleanup job runs or not. -/
inductive Ev where
  | other (r : Req)
  | go (ok : Bool)
  | closes (ok : Bool)
  | ends (ok : Bool)
  | panics (cleanup : Bool)
  deriving DecidableEq, Repr

/-- a request of `rp` itself -/
def St.request (s : St) (r : Req) (ok : Bool) (good bad : Pc) : St :=
  if ok then
    match s.k.apply r with
    | some k => { s with k := k, pc := good, reqs := s.reqs ++ [r] }
    | none => { s with pc := bad }
  else { s with pc := bad }

/-- `open` (exchange.rs 116-194), `set_private_key_and_listen_addr` (290-331), `close` (196-255) as called from `create_device` (388-393),
`exchange` (432-544) and `Drop` (420-429). -/
def St.step (o : Opt) (s : St) : Ev → Option St
  | .other r =>
    match s.k.apply r with
    | some k => some { s with k := k }
    | none => some s
  | .go ok =>
    match s.pc with
    -- the check that there is no device of this name, 120-151
    | .check => some { s with pc := if ok ∧ (s.k.named o.name).isEmpty then .add else .over false }
    -- 153-158
    | .add =>
      if ok then
        match s.k.apply (.add o.name) with
        | some k => some { s with k := k, pc := .lookup, mine := some s.k.next, reqs := s.reqs ++ [.add o.name] }
        | none => some { s with pc := .over false }
      else some { s with pc := .over false }
    -- 160-178: the handle of the only link of this name; on an error `_impl` is dropped, which does nothing
    | .lookup =>
      if ok then
        match s.k.named o.name with
        | [l] => some { s with pc := .up l.index }
        | _ => some { s with pc := .over false }
      else some { s with pc := .over false }
    -- 187-193; on an error the `WireGuardDeviceImpl` is dropped in `create_device`, which does nothing: only `WireGuardDevice` has a destructor
    | .up i => some (s.request (.up i) ok (.setKey i) (.over false))
    -- from here on the device is dropped on every return
    | .setKey i => some (s.request (.setKey i o.key o.port) ok (.running i) (.cleanup i false))
    | .running _ => none
    | .cleanup .. => none
    | .over _ => none
  -- the job of `drop`; errors are only logged
  | .closes ok =>
    match s.pc with
    | .cleanup i r => some (s.request (.del i) ok (.over r) (.over r))
    | _ => none
  | .ends ok =>
    match s.pc with
    | .running i => some { s with pc := .cleanup i ok }
    | _ => none
  | .panics c =>
    match s.pc with
    | .running i => some { s with pc := if c then .cleanup i false else .over false }
    | _ => none

/-- `exchange` is called when the table of links is `k`. -/
def St.start (k : Kernel) : St := ⟨k, .check, none, []⟩

/-- the table of links is as the kernel keeps it -/
structure Kernel.WF (k : Kernel) : Prop where
  names : ∀ l ∈ k.links, ∀ l' ∈ k.links, l.name = l'.name → l = l'
  index : ∀ l ∈ k.links, ∀ l' ∈ k.links, l.index = l'.index → l = l'
  next : ∀ l ∈ k.links, l.index < k.next
  nodup : k.links.Nodup

/-- executions, with the events -/
inductive Run (o : Opt) (k : Kernel) : List Ev → St → Prop where
  | start : Run o k [] (.start k)
  | step {es : List Ev} {s s' : St} (e : Ev) (h : Run o k es s) (hs : s.step o e = some s') : Run o k (es ++ [e]) s'

end Verif.RpDevice
