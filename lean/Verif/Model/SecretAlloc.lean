import Verif.Model.SecretMem
/-
Model of the allocators behind every secret: secret-memory/src/alloc/mod.rs (`SecretAlloc`) and
secret-memory/src/alloc/memsec/{malloc,memfdsec}.rs (`MallocAllocator`, `MemfdSecAllocator`).

The memsec crate itself is not in /repo. It is a heap of live blocks; a request for `size` bytes is answered by the environment with the
end of the pages of a new block, or with nothing (out of memory); the bytes handed out are the last `size` bytes before that end, as
the error messages of malloc.rs 109-112 and memfdsec.rs 108-111 state ("always allocates values at the end of a memory page").
Giving a block to the wrong allocator, or twice, sets `fault`.
-/
namespace Verif.SecretAlloc
open Verif.SecretMem (Kind)

/-- `std::alloc::Layout`: the size and the alignment asked for -/
structure Layout where
  size : Nat
  align : Nat
  deriving DecidableEq, Repr

/-- a live block of memsec: which of its two allocators it belongs to, its first byte and its size -/
structure Block where
  kind : Kind
  addr : Nat
  size : Nat
  deriving DecidableEq, Repr

/-- the blocks memsec has handed out and not got back -/
structure Heap where
  live : List Block
  fault : Bool
  deriving DecidableEq, Repr

/-- `memsec::malloc_sized`, `memsec::memfd_secret_sized` as used in malloc.rs 96 and memfdsec.rs 95; `pageEnd` is the environment's choice -/
def Heap.sized (h : Heap) (k : Kind) (size : Nat) (pageEnd : Option Nat) : Option Nat × Heap :=
  match pageEnd with
  | none => (none, h)
  | some e => (some (e - size), { h with live := ⟨k, e - size, size⟩ :: h.live })

/-- `memsec::free`, `memsec::free_memfd_secret` as used in malloc.rs 114, 123 and memfdsec.rs 113, 122: the block that starts at `addr` -/
def Heap.free (h : Heap) (k : Kind) (addr : Nat) : Heap :=
  if h.live.any (fun b => b.addr == addr && b.kind == k) then
    { h with live := h.live.filter (fun b => !(b.addr == addr)) }
  else { h with fault := true }

/-- `align_offset` on a byte pointer (malloc.rs 105, memfdsec.rs 104): the distance to the next multiple of the alignment -/
def alignOffset (addr align : Nat) : Nat := (align - addr % align) % align

/-- `MallocAllocator::allocate`, malloc.rs 94-119, and `MemfdSecAllocator::allocate`, memfdsec.rs 93-118 (the same text up to the two
memsec functions), chosen by `SecretAlloc::allocate`, alloc/mod.rs 96-105. `none` is `AllocError`. -/
def allocate (k : Kind) (l : Layout) (pageEnd : Option Nat) (h : Heap) : Option Nat × Heap :=
  match h.sized k l.size pageEnd with
  | (none, h) => (none, h)
  | (some a, h) => if alignOffset a l.align ≠ 0 then (none, h.free k a) else (some a, h)

/-- `SecretAlloc::deallocate`, alloc/mod.rs 107-113, malloc.rs 121-125, memfdsec.rs 120-124: the layout is not looked at -/
def deallocate (k : Kind) (addr : Nat) (_l : Layout) (h : Heap) : Heap := h.free k addr

/-- a `SecretBox` or a `SecretVec`'s buffer: the pointer, its layout and the `SecretAlloc` value, which is the kind (alloc/mod.rs 76-78) -/
structure Handle where
  kind : Kind
  addr : Nat
  layout : Layout
  deriving DecidableEq, Repr

/-- the heap and the boxes the program holds -/
structure St where
  heap : Heap
  held : List Handle
  deriving DecidableEq, Repr

def St.start : St := ⟨⟨[], false⟩, []⟩

/-- what the program may do: try to make a box (`secret_box_try`, alloc/mod.rs 133-135, or a vector that grows), or drop the n-th one -/
inductive Op where
  | make (k : Kind) (l : Layout) (pageEnd : Option Nat)
  | drop (n : Nat)
  deriving DecidableEq, Repr

def St.step (s : St) : Op → St
  | .make k l e =>
    match allocate k l e s.heap with
    | (none, h) => { s with heap := h }
    | (some a, h) => ⟨h, ⟨k, a, l⟩ :: s.held⟩
  | .drop n =>
    match s.held[n]? with
    | none => s
    | some b => ⟨deallocate b.kind b.addr b.layout s.heap, s.held.eraseIdx n⟩

/-- `s.step` over a history -/
def St.run (s : St) (ops : List Op) : St := ops.foldl St.step s

end Verif.SecretAlloc
