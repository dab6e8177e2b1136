import Verif.Thm.KeyAgreement
/-
The states and messages of one concrete handshake between two toy servers, used by the
`example`s that show that hypotheses of theorems are met.
-/
namespace Verif.Ex
open Server

/-- reply bytes of a call, empty if none -/
def reply (x : Except Err MsgResult × Server) : Bytes :=
  match x.1 with
  | .ok r => r.resp.getD []
  | .error _ => []

/-- bytes produced by an initiation -/
def sent (x : Except Err Bytes × Server) : Bytes :=
  match x.1 with
  | .ok m => m
  | .error _ => []

def A0 (v : Version) : Server := server skA skB v
def B0 (v : Version) : Server := server skB skA v
def c1 (v : Version) := (A0 v).initiate Toy.crypto 0 0 (rnd 9) buf
def A1 (v : Version) : Server := (c1 v).2
def m1 (v : Version) : Bytes := sent (c1 v)
def c2 (v : Version) := (B0 v).handleMsg Toy.crypto (m1 v) buf 1 (fun _ => rnd 20)
def B1 (v : Version) : Server := (c2 v).2
def m2 (v : Version) : Bytes := reply (c2 v)
def c3 (v : Version) := (A1 v).handleMsg Toy.crypto (m2 v) buf 2 (fun _ => rnd 30)
def A2 (v : Version) : Server := (c3 v).2
def m3 (v : Version) : Bytes := reply (c3 v)
def c4 (v : Version) := (B1 v).handleMsg Toy.crypto (m3 v) buf 3 (fun _ => rnd 40)
def B2 (v : Version) : Server := (c4 v).2
def m4 (v : Version) : Bytes := reply (c4 v)
def c5 (v : Version) := (A2 v).handleMsg Toy.crypto (m4 v) buf 4 (fun _ => rnd 50)
def A3 (v : Version) : Server := (c5 v).2

theorem A0_reach (v) : Reachable Toy.crypto (A0 v) := server_reachable _ _ _
theorem B0_reach (v) : Reachable Toy.crypto (B0 v) := server_reachable _ _ _
theorem A1_reach (v) : Reachable Toy.crypto (A1 v) := .step _ (.initiate 0 0 (rnd 9) buf) (A0_reach v) (rnd_WF 9)
theorem B1_reach (v) : Reachable Toy.crypto (B1 v) :=
  .step _ (.handleMsg (m1 v) buf 1 (fun _ => rnd 20)) (B0_reach v) (fun _ => rnd_WF 20)
theorem A2_reach (v) : Reachable Toy.crypto (A2 v) :=
  .step _ (.handleMsg (m2 v) buf 2 (fun _ => rnd 30)) (A1_reach v) (fun _ => rnd_WF 30)
theorem B2_reach (v) : Reachable Toy.crypto (B2 v) :=
  .step _ (.handleMsg (m3 v) buf 3 (fun _ => rnd 40)) (B1_reach v) (fun _ => rnd_WF 40)
theorem A3_reach (v) : Reachable Toy.crypto (A3 v) :=
  .step _ (.handleMsg (m4 v) buf 4 (fun _ => rnd 50)) (A2_reach v) (fun _ => rnd_WF 50)

/-! a second handshake between the same servers -/
def c6 (v : Version) := (A3 v).initiate Toy.crypto 0 200 (rnd 60) buf
def A4 (v : Version) : Server := (c6 v).2
def m6 (v : Version) : Bytes := sent (c6 v)
def c7 (v : Version) := (B2 v).handleMsg Toy.crypto (m6 v) buf 201 (fun _ => rnd 70)
def B3 (v : Version) : Server := (c7 v).2
def m7 (v : Version) : Bytes := reply (c7 v)
def c8 (v : Version) := (A4 v).handleMsg Toy.crypto (m7 v) buf 202 (fun _ => rnd 80)
def m8 (v : Version) : Bytes := reply (c8 v)
def c9 (v : Version) := (B3 v).handleMsg Toy.crypto (m8 v) buf 203 (fun _ => rnd 90)

/-- a byte string with one byte flipped -/
def flip (b : Bytes) (i : Nat) : Bytes := b.modify i (fun x => x ^^^ 1)

/-- an error value, ignoring the state -/
def isErr {α} (x : Except Err α × Server) : Bool := match x.1 with | .error _ => true | .ok _ => false

end Verif.Ex
