import Verif.Model.Server
import Mathlib.Algebra.Order.Field.Power
import Mathlib.Algebra.Order.Field.Rat
/-
Model of the arithmetic on time stamps as it is done, in `f64`: rosenpass/src/protocol/timing.rs, util/src/time.rs and the life cycles of protocol.rs, over numbers with 53 significant
bits and any rounding that IEEE 754 allows. (The range of exponents is not modelled: time stamps are far from overflow and underflow.) The rest of the development uses integer ticks;
Thm/F64 relates the two.
-/
namespace Verif.F64

/-- numbers with 53 significant bits -/
def Rep (x : Rat) : Prop := ∃ m e : Int, |m| ≤ 2 ^ 53 ∧ x = m * 2 ^ e

/-- what IEEE 754 demands of each rounding mode: numbers that can be represented are not changed, and rounding is monotone -/
structure Rounding where
  fl : Rat → Rat
  rep : ∀ x, Rep (fl x)
  exact : ∀ x, Rep x → fl x = x
  mono : ∀ x y, x ≤ y → fl x ≤ fl y

variable (R : Rounding)

/-- `f64` addition -/
def Rounding.add (x y : Rat) : Rat := R.fl (x + y)
/-- `f64` subtraction -/
def Rounding.sub (x y : Rat) : Rat := R.fl (x - y)

/-- `Duration::as_secs_f64` in util/src/time.rs:41-43 `Timebase::now`: `secs as f64 + nanos as f64 / 1e9`. -/
def Rounding.clock (secs nanos : Nat) : Rat := R.add (R.fl secs) (R.fl (nanos / 10 ^ 9))

/-- constants.rs `EVENT_GRACE`, the `f64` next to 0.0025. -/
def Rounding.grace : Rat := R.fl (1 / 400)

/-- timing.rs `has_happened`. -/
def Rounding.hasHappened (ev now : Rat) : Bool := R.sub ev now < R.grace

/-- protocol.rs:1836-1851 `life_left`, `youth_left`, `lifecycle`. The clock is read twice: `youth` is the reading in `youth_left`, `now` the later one in `life_left`. -/
def Rounding.lifecycle (retireAt dieAt : Option Rat) (youth now : Rat) : Lifecycle :=
  match retireAt.map (fun t => R.sub t youth), dieAt.map (fun t => R.sub t now) with
  | y, some t =>
    if R.hasHappened t 0 then .dead
    else match y with
      | some u => if R.hasHappened u 0 then .retired else .young
      | none => .void
  | some u, none => if R.hasHappened u 0 then .retired else .void
  | none, none => .void

/-- constants.rs:15-24 rekey time by role, in seconds; protocol.rs:1645-1648. -/
def rekey : Role → Rat
  | .initiator => 130
  | .responder => 120

/-- protocol.rs:1628-1657 life cycle of a session with time stamp `created`. -/
def Rounding.sessionLife (role : Role) (created youth now : Rat) : Lifecycle :=
  R.lifecycle (some (R.add created (rekey role))) (some (R.add created 180)) youth now

/-- protocol.rs:1659-1675, 1677-1693 life cycle of a biscuit key or cookie secret with time stamp `created`, for the given epoch. -/
def Rounding.storeLife (epoch created youth now : Rat) : Lifecycle :=
  if created < 0 then R.lifecycle none none youth now
  else R.lifecycle (some (R.add created epoch)) (some (R.add (R.add created epoch) epoch)) youth now

/-- protocol.rs:1611-1626, 1695-1735 life cycle of a handshake, of a peer's cookie and of a cached answer: no retirement. -/
def Rounding.plainLife (span created youth now : Rat) : Lifecycle :=
  if created < 0 then R.lifecycle none none youth now
  else R.lifecycle (some (R.add created span)) (some (R.add created span)) youth now

end Verif.F64
