import Verif.Model.FileIO
/-
Model of the `to` crate's way of returning results: to/src/to/{to_trait,with_destination,to_function,beside,condense,dst_coercion}.rs.

`To<Dst, Ret>` is a function that changes a destination and returns a value; `none` is a panic. A storage type `Val` with
`BorrowMut<Dst>` is given by how the destination is taken out of it and put back (the two laws are in `Borrow`).
-/
namespace Verif.ToCrate

/-- `To<Dst, Ret>`, to_trait.rs 46-48; `with_destination`, with_destination.rs: a closure is such a function -/
abbrev To (dst ret : Type) := dst → Option (ret × dst)

/-- `BorrowMut<Dst>` for the storage type `val`; `DstCoercion`, dst_coercion.rs (the same for arrays and slices) -/
structure Borrow (val dst : Type) where
  get : val → dst
  put : val → dst → val

/-- `T: BorrowMut<T>` -/
def Borrow.id (α : Type) : Borrow α α := ⟨fun x => x, fun _ y => y⟩

/-- `[T; N]: BorrowMut<[T]>` and `Vec<T>: BorrowMut<[T]>`: both are lists here; a slice never changes its length -/
def Borrow.slice (α : Type) : Borrow (List α) (List α) := ⟨fun x => x, fun _ y => y⟩

/-- `Beside`, beside.rs -/
structure Beside (val ret : Type) where
  dest : val
  ret : ret
  deriving DecidableEq, Repr

/-- `to`, to_function.rs 20-28 -/
def toFn {val dst ret : Type} (b : Borrow val dst) (v : val) (src : To dst ret) : Option (ret × val) :=
  (src (b.get v)).map fun p => (p.1, b.put v p.2)

/-- `to_this_beside`, to_trait.rs 86-94; `to_value_beside` 113-118 and `collect_beside` 144-149 are this at the default value -/
def toThisBeside {val dst ret : Type} (b : Borrow val dst) (src : To dst ret) (fresh : val) : Option (Beside val ret) :=
  (src (b.get fresh)).map fun p => ⟨b.put fresh p.2, p.1⟩

/-- `CondenseBeside`, condense.rs: for `()`, for `Option<()>` and for `Result<(), Error>` -/
class Condense (ret : Type) (val : Type) (out : outParam Type) where
  condense : ret → val → out

instance condenseUnit (val : Type) : Condense Unit val val := ⟨fun _ v => v⟩
instance condenseOption (val : Type) : Condense (Option Unit) val (Option val) := ⟨fun r v => r.map fun _ => v⟩
instance condenseResult (ε val : Type) : Condense (Except ε Unit) val (Except ε val) := ⟨fun r v => r.map fun _ => v⟩

/-- `to_this`, to_trait.rs 185-192; `to_value` 210-216 and `collect` 235-241 are this at the default value -/
def toThis {val dst ret out : Type} [Condense ret val out] (b : Borrow val dst) (src : To dst ret) (fresh : val) : Option out :=
  (toThisBeside b src fresh).map fun x => Condense.condense x.ret x.dest

open Verif.FileIO

/-- `copy_slice`, ops.rs 23-28, as a `To` -/
def copyTo {α : Type} (src : List α) : To (List α) Unit := fun out => (copySlice src out).map fun x => ((), x)

/-- `copy_slice_least`, ops.rs 74-82, as a `To` -/
def copyLeastTo {α : Type} (src : List α) : To (List α) Unit := fun out => (copyLeast src out).map fun x => ((), x)

/-- `try_copy_slice`, ops.rs 105-112, as a `To` -/
def tryCopyTo {α : Type} (src : List α) : To (List α) (Option Unit) := tryCopySlice src

/-- `try_copy_slice_least_src`, ops.rs 140-147, as a `To` -/
def tryCopyLeastSrcTo {α : Type} (src : List α) : To (List α) (Option Unit) := tryCopyLeastSrc src

end Verif.ToCrate
