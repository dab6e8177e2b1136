import Verif.Model.Base
/-
util/src/typenum.rs: conversion of type-level integers to constants (`typenum2const!`). The conversion is evaluated by the compiler; an
arithmetic overflow in it is a compilation error (`none`). A value of a `w`-bit integer type is a bit vector; for signed types it is read in
two's complement.
-/
namespace Verif.Typenum

/-- crate typenum: `UTerm`, `UInt<Rest, Bit>`: binary numbers, most significant bit innermost. -/
inductive UNum where
  | term
  | uint (rest : UNum) (bit : Bool)
  deriving DecidableEq, Repr

/-- crate typenum: `Z0`, `PInt<U>`, `NInt<U>`. -/
inductive TInt where
  | z0
  | pint (u : UNum)
  | nint (u : UNum)
  deriving DecidableEq, Repr

/-- The target type: its width and whether it is signed (typenum.rs:201-202). -/
structure Target where
  width : Nat
  signed : Bool
  deriving DecidableEq, Repr

/-- typenum.rs:120-121: `B0` is 0 and `B1` is 1. -/
def bit (w : Nat) (b : Bool) : BitVec w := if b then 1#w else 0#w

/-- typenum.rs:124-128 `ConstLshift` by 1: `<<` discards the bits that are shifted out. -/
def lshift (w : Nat) (v : BitVec w) : BitVec w := v <<< 1

/-- typenum.rs:130-135 `ConstAdd`: `+` in a constant is checked. -/
def add (t : Target) (a b : BitVec t.width) : Option (BitVec t.width) :=
  if (if t.signed then BitVec.saddOverflow a b else BitVec.uaddOverflow a b) then none else some (a + b)

/-- typenum.rs:204-214 `IntoConst for UInt<Rest, Bit>` (and 122 `UTerm`). -/
def ofUNum (t : Target) : UNum → Option (BitVec t.width)
  | .term => some (0#t.width)
  | .uint rest b =>
    match ofUNum t rest with
    | none => none
    | some r => add t (lshift t.width r) (bit t.width b)

/-- typenum.rs:185-194 `ConstApplyNegSign` of a signed type: `-(Param::VALUE as $type)` is checked. -/
def neg (w : Nat) (v : BitVec w) : Option (BitVec w) :=
  if v = (1#w).rotateRight 1 then some (BitVec.intMin w)
  else if BitVec.negOverflow v then none
  else some (-v)

/-- typenum.rs:216-236 `IntoConst for PInt<Unsigned>` and `NInt<Unsigned>`, 119 `Z0`. The conversion of the magnitude is to the unsigned
type of the same width; `as` keeps the bits (181-183). Unsigned types have no conversion from negative numbers. -/
def ofTInt (t : Target) : TInt → Option (BitVec t.width)
  | .z0 => some (0#t.width)
  | .pint u => ofUNum ⟨t.width, false⟩ u
  | .nint u =>
    if t.signed then
      match ofUNum ⟨t.width, false⟩ u with
      | none => none
      | some v => neg t.width v
    else none

end Verif.Typenum
