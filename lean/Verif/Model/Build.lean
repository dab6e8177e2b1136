import Verif.Model.Poll
/-
Model of `util/src/build.rs` (construction sites) and of
`rosenpass/src/protocol/build_crypto_server.rs` (the builder of the protocol server).
-/
namespace Verif

/-- util/src/build.rs:147-158 `ConstructionSite`. -/
inductive Site (B T : Type) where
  | void
  | builder (b : B)
  | product (t : T)

/-- util/src/build.rs:9-20 `ConstructionSiteErectError`. -/
inductive ErectErr (E : Type) where
  | isVoid
  | alreadyBuilt
  | other (e : E)
  deriving DecidableEq

namespace Site
variable {B T E R : Type}

/-- util/src/build.rs:293-295 `take` (with 161-168 `Default`): the old site, and the new one. -/
def take (s : Site B T) : Site B T × Site B T := (s, .void)

/-- util/src/build.rs:357-364 `modify_taken_with_return`. (If `f` panicked the site would stay `void`;
`f` is a total function here.) -/
def modifyTakenWithReturn (s : Site B T) (f : Site B T → Site B T × R) : R × Site B T :=
  let x := s.take
  let y := f x.1
  (y.2, y.1)

/-- util/src/build.rs:456-476 `erect`. -/
def erect (build : B → Except E T) (s : Site B T) : Except (ErectErr E) Unit × Site B T :=
  s.modifyTakenWithReturn fun site =>
    match site with
    | .void => (.void, .error .isVoid)
    | .product t => (.product t, .error .alreadyBuilt)
    | .builder b =>
      match build b with
      | .error e => (.void, .error (.other e))
      | .ok p => (.product p, .ok ())

/-- util/src/build.rs:630-636 `builder_mut`, followed by an assignment. -/
def builderMut (s : Site B T) (f : B → B) : Site B T :=
  match s with
  | .builder b => .builder (f b)
  | s => s

/-- util/src/build.rs:669-675 `product_mut`, followed by an assignment. -/
def productMut (s : Site B T) (f : T → T) : Site B T :=
  match s with
  | .product t => .product (f t)
  | s => s

/-- util/src/build.rs:656-662 `product_ref`. -/
def productRef (s : Site B T) : Option T :=
  match s with
  | .product t => some t
  | _ => none

/-- util/src/build.rs:573-576 `is_available`. -/
def isAvailable (s : Site B T) : Bool := s.productRef.isSome

/-- Operations on a construction site. -/
inductive Op (B T : Type) where
  | erect
  | take
  | builderMut (f : B → B)
  | productMut (f : T → T)

/-- The site after an operation. -/
def step (build : B → Except E T) (s : Site B T) : Op B T → Site B T
  | .erect => (s.erect build).2
  | .take => s.take.2
  | .builderMut f => s.builderMut f
  | .productMut f => s.productMut f

/-- The site after a sequence of operations. -/
def run (build : B → Except E T) (s : Site B T) (ops : List (Op B T)) : Site B T := ops.foldl (step build) s

end Site

/-- build_crypto_server.rs:227-235 `PeerParams`. -/
structure PeerParams where
  psk : Option Bytes
  pk : Bytes
  version : Version
  osk : OskDomain

/-- build_crypto_server.rs:175-180 `BuildCryptoServer` (the key pair is secret key, public key). -/
structure Builder where
  keypair : Option (Bytes × Bytes)
  peers : List PeerParams

/-- Random values of `CryptoServer::new` (protocol.rs:1188-1206). -/
structure NewRnd where
  b0 : Bytes
  b1 : Bytes
  c0 : Bytes
  c1 : Bytes
  kk : Bytes

/-- Why building the server failed. -/
inductive BuildErr where
  | missingKeypair
  | addPeer (e : Err)
  deriving DecidableEq

namespace Builder

/-- build_crypto_server.rs:244-246 `empty`. -/
def empty : Builder := { keypair := none, peers := [] }

/-- build_crypto_server.rs:319-323 `with_keypair`: the result and the builder. -/
def withKeypair (b : Builder) (kp : Bytes × Bytes) : Bool × Builder :=
  if b.keypair.isNone then (true, { b with keypair := some kp }) else (false, b)

/-- build_crypto_server.rs:364-392 `with_added_peer`, `add_peer`. -/
def addPeer (b : Builder) (x : PeerParams) : Nat × Builder :=
  (b.peers.length, { b with peers := b.peers ++ [x] })

/-- build_crypto_server.rs:198-213, the loop over the peers; `none` is the failed assertion. -/
def addAll (C : Crypto) : Server → Nat → List PeerParams → Option (Except BuildErr Server)
  | s, _, [] => some (.ok s)
  | s, idx, x :: xs =>
    match s.addPeer C x.psk x.pk x.version x.osk with
    | (.error e, _) => some (.error (.addPeer e))
    | (.ok idx2, s1) => if idx = idx2 then addAll C s1 (idx + 1) xs else none

/-- build_crypto_server.rs:191-216 `build`; `none` is the failed assertion. -/
def build (C : Crypto) (r : NewRnd) (b : Builder) : Option (Except BuildErr Server) :=
  match b.keypair with
  | none => some (.error .missingKeypair)
  | some (sk, pk) => addAll C (Server.new sk pk r.b0 r.b1 r.c0 r.c1 r.kk) 0 b.peers

end Builder
end Verif
