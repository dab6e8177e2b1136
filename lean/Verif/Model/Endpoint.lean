import Verif.Model.Base
/-
Model of the endpoints in rosenpass/src/app_server.rs: host identifications
(`SocketBoundEndpoint`), host-path discovery (`HostPathDiscoveryEndpoint`), and `Endpoint`.
-/
namespace Verif

/-- `std::net::SocketAddr`: IPv4 (four octets, port), IPv6 (sixteen octets, port, flow label, scope). -/
inductive Addr where
  | v4 (ip : Bytes) (port : UInt16)
  | v6 (ip : Bytes) (port : UInt16) (flow scope : UInt32)
  deriving DecidableEq, Repr

/-- Sizes of the address types. -/
def Addr.WF : Addr → Prop
  | .v4 ip _ => ip.length = 4
  | .v6 ip _ _ _ => ip.length = 16

/-- `to_be_bytes` of an integer of `len` bytes. -/
def toBE (len n : Nat) : Bytes := (toLE len n).reverse

/-- `std`: `Ipv4Addr::to_ipv6_mapped`, `::ffff:a.b.c.d`. -/
def ipv6Mapped (ip : Bytes) : Bytes := List.replicate 10 0 ++ [0xff, 0xff] ++ ip

/-- `buf[off..off + x.len()].copy_from_slice(x)`. -/
def putSlice (buf : Bytes) (off : Nat) (x : Bytes) : Bytes := buf.take off ++ x ++ buf.drop (off + x.length)

/-- app_server.rs:576-602 `SocketBoundEndpoint::to_bytes` with 544-563 (the sizes) on a 64-bit
platform, and 604-608 `HostIdentification::encode`. -/
def hostId (socket : Nat) (addr : Addr) : Bytes :=
  let buf := List.replicate 30 0
  let (ip, port, scope) := match addr with
    | .v4 ip port => (ipv6Mapped ip, port, 0)
    | .v6 ip port _ scope => (ip, port, scope)
  let len := 0
  let buf := putSlice buf len (toBE 8 socket)
  let len := len + 8
  let buf := putSlice buf len ip
  let len := len + 16
  let buf := putSlice buf len (toBE 2 port.toNat)
  let len := len + 2
  let buf := putSlice buf len (toBE 4 scope.toNat)
  let len := len + 4
  buf.take len

/-- app_server.rs:695-710 `HostPathDiscoveryEndpoint`. -/
structure Discovery where
  addresses : List Addr
  state : Nat × Nat
  deriving DecidableEq

/-- What one call of `send_scouting` did: the (address number, socket number) pairs it tried to send
to, in order, and whether one of them worked. -/
structure Scouted where
  tried : List (Nat × Nat)
  ok : Bool
  deriving DecidableEq

namespace Discovery

/-- app_server.rs:720-726 `from_addresses`. -/
def fromAddresses (l : List Addr) : Discovery := { addresses := l, state := (0, 0) }

/-- The indices produced by `iter().enumerate().cycle().skip(off).take(n)` (app_server.rs:758-769). -/
def cycled (n off : Nat) : List Nat := (List.range n).map (fun i => (off + i) % n)

/-- app_server.rs:772-791, the inner loop. The socket iterator is used `by_ref`: it is shared by all
rounds of the outer loop, so the unused rest is returned. `send a s` is the outcome of sending to
address `a` from socket `s`. -/
def innerLoop (send : Nat → Nat → Bool) (a : Nat) : List Nat → List (Nat × Nat) × Option Nat × List Nat
  | [] => ([], none, [])
  | s :: rest =>
    if send a s then ([(a, s)], some s, rest)
    else
      let (t, r, l) := innerLoop send a rest
      ((a, s) :: t, r, l)

/-- app_server.rs:771-794, the outer loop over the addresses. -/
def outerLoop (send : Nat → Nat → Bool) : List Nat → List Nat → List (Nat × Nat) × Option (Nat × Nat)
  | [], _ => ([], none)
  | a :: as, socks =>
    match innerLoop send a socks with
    | (t, some s, _) => (t, some (a, s))
    | (t, none, rest) =>
      let (t', r) := outerLoop send as rest
      (t ++ t', r)

/-- app_server.rs:755-797 `send_scouting` with 741-746 `insert_next_scout_offset`; `m` sockets. -/
def sendScouting (d : Discovery) (m : Nat) (send : Nat → Nat → Bool) : Scouted × Discovery :=
  let n := d.addresses.length
  match outerLoop send (cycled n d.state.1) (cycled m d.state.2) with
  | (t, some (a, s)) => (⟨t, true⟩, { d with state := ((a + 1) % n, (s + 1) % m) })
  | (t, none) => (⟨t, false⟩, d)

/-- A sequence of calls with the given outcomes: what each call did, and the final state. -/
def scoutAll (d : Discovery) (m : Nat) : List (Nat → Nat → Bool) → List Scouted × Discovery
  | [] => ([], d)
  | f :: fs =>
    let (x, d1) := d.sendScouting m f
    let (xs, d2) := scoutAll d1 m fs
    (x :: xs, d2)

end Discovery

/-- app_server.rs:502-519 `Endpoint`. -/
inductive Endpoint where
  | bound (socket : Nat) (addr : Addr)
  | discovery (d : Discovery)
  deriving DecidableEq

namespace Endpoint

/-- app_server.rs:664-671 `addresses`. -/
def addresses : Endpoint → List Addr
  | .bound _ a => [a]
  | .discovery d => d.addresses

/-- app_server.rs:638-645, the deduplicating loop; `seen` is the hash set. -/
def dedup (seen : List Addr) : List Addr → List Addr
  | [] => []
  | a :: l => if a ∈ seen then dedup seen l else a :: dedup (a :: seen) l

/-- app_server.rs:627-647 `discovery_from_multiple_sources`. -/
def fromSources (a b : Option Endpoint) : Option Endpoint :=
  match a, b with
  | some e, none => some (.discovery (.fromAddresses (dedup [] (e.addresses ++ []))))
  | none, some e => some (.discovery (.fromAddresses (dedup [] (e.addresses ++ []))))
  | some e1, some e2 => some (.discovery (.fromAddresses (dedup [] (e1.addresses ++ e2.addresses))))
  | none, none => none

end Endpoint
end Verif
