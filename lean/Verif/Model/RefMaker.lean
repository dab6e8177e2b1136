import Verif.Model.Base
/-
Model of typed views of byte buffers: util/src/zerocopy/ref_maker.rs, zerocopy_slice_ext.rs, zerocopy_ref_ext.rs and
util/src/zeroize/zeroized_ext.rs.

A buffer has an address and bytes that can be changed through it; a slice is a window (offset, length) of the buffer; `Ref<B, T>` is a
window that was found to have the size and the alignment of `T` (the zerocopy crate's `Ref::from_bytes`, whose contract is taken from its
documentation: it fails unless the slice has exactly the size of `T` and its address is a multiple of the alignment).
A target type `T` is its size and its alignment.
-/
namespace Verif.RefMaker

/-- `T`: `size_of::<T>()` and `align_of::<T>()` -/
structure Ty where
  size : Nat
  align : Nat
  deriving DecidableEq, Repr

/-- the memory the slices of this module point into -/
structure Mem where
  addr : Nat
  bytes : Bytes
  deriving DecidableEq, Repr

/-- a slice `B`: where it starts in the buffer and how long it is -/
structure Win where
  off : Nat
  len : Nat
  deriving DecidableEq, Repr

/-- the slice that is the whole buffer -/
def Mem.all (m : Mem) : Win := ⟨0, m.bytes.length⟩

/-- what is read through a slice, ref_maker.rs 156-158 -/
def Mem.read (m : Mem) (w : Win) : Bytes := (m.bytes.drop w.off).take w.len

/-- `bytes_mut().zeroize()`, ref_maker.rs 340-349 -/
def Mem.zeroize (m : Mem) (w : Win) : Mem :=
  { m with bytes := m.bytes.take w.off ++ List.replicate w.len 0 ++ m.bytes.drop (w.off + w.len) }

/-- `RefMaker::ensure_fit`, ref_maker.rs 146-154 -/
def ensureFit (t : Ty) (w : Win) : Option Unit := if t.size ≤ w.len then some () else none

/-- `Ref::from_bytes` (crate zerocopy) -/
def fromBytes (m : Mem) (t : Ty) (w : Win) : Option Win :=
  if w.len = t.size ∧ (m.addr + w.off) % t.align = 0 then some w else none

/-- `RefMaker::parse`, ref_maker.rs 120-127 -/
def parse (m : Mem) (t : Ty) (w : Win) : Option Win := do
  ensureFit t w
  fromBytes m t w

/-- `split_at` of a slice (crate zerocopy): fails beyond the end -/
def splitAt (w : Win) (point : Nat) : Option (Win × Win) :=
  if point ≤ w.len then some (⟨w.off, point⟩, ⟨w.off + point, w.len - point⟩) else none

/-- `RefMaker::split_at_point`, ref_maker.rs 177-185 -/
def splitAtPoint (t : Ty) (w : Win) (point : Nat) : Option (Win × Win) := do
  ensureFit t w
  splitAt w point

/-- `RefMaker::from_prefix_with_tail`, ref_maker.rs 203-207, `split_prefix`, 226-230 (the same pair) -/
def splitPrefix (t : Ty) (w : Win) : Option (Win × Win) := do
  ensureFit t w
  splitAtPoint t w t.size

/-- `RefMaker::from_prefix`, ref_maker.rs 245-247 -/
def fromPrefix (t : Ty) (w : Win) : Option Win := (splitPrefix t w).map (·.1)

/-- `RefMaker::split_suffix`, ref_maker.rs 287-292 (the subtraction would panic below zero; `ensure_fit` came first) -/
def splitSuffix (t : Ty) (w : Win) : Option (Win × Win) := do
  ensureFit t w
  splitAtPoint t w (w.len - t.size)

/-- `RefMaker::from_suffix_with_head`, ref_maker.rs 264-269: the tail comes first -/
def fromSuffixWithHead (t : Ty) (w : Win) : Option (Win × Win) := (splitSuffix t w).map fun p => (p.2, p.1)

/-- `RefMaker::from_suffix`, ref_maker.rs 307-309 -/
def fromSuffix (t : Ty) (w : Win) : Option Win := (fromSuffixWithHead t w).map (·.1)

/-- `RefMaker::make_zeroized`, ref_maker.rs 332-337 with zeroized_ext.rs: the slice is wiped first and looked at then -/
def makeZeroized (m : Mem) (t : Ty) (w : Win) : Option Win × Mem := (parse (m.zeroize w) t w, m.zeroize w)

/-- `zk_parse`, `zk_parse_prefix`, `zk_parse_suffix`, zerocopy_slice_ext.rs -/
def zkParse (m : Mem) (t : Ty) (w : Win) : Option Win := parse m t w
def zkParsePrefix (m : Mem) (t : Ty) (w : Win) : Option Win := do parse m t (← fromPrefix t w)
def zkParseSuffix (m : Mem) (t : Ty) (w : Win) : Option Win := do parse m t (← fromSuffix t w)

/-- `zk_zeroized`, `zk_zeroized_from_prefix`, `zk_zeroized_from_suffix`, zerocopy_slice_ext.rs -/
def zkZeroized (m : Mem) (t : Ty) (w : Win) : Option Win × Mem := makeZeroized m t w
def zkZeroizedFromPrefix (m : Mem) (t : Ty) (w : Win) : Option Win × Mem :=
  match fromPrefix t w with
  | none => (none, m)
  | some v => makeZeroized m t v
def zkZeroizedFromSuffix (m : Mem) (t : Ty) (w : Win) : Option Win × Mem :=
  match fromSuffix t w with
  | none => (none, m)
  | some v => makeZeroized m t v

/-- `emancipate`, `emancipate_mut`, zerocopy_ref_ext.rs: the bytes of a `Ref` parsed again; `none` is the panic of `unwrap` -/
def emancipate (m : Mem) (t : Ty) (r : Win) : Option Win := fromBytes m t r

end Verif.RefMaker
