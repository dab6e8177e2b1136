import Verif.Model.Base
/-
Model of secret-memory: `Secret`, the per-thread pool of secret memory (secret-memory/src/secret.rs), the choice of the allocator
(secret-memory/src/policy.rs, secret-memory/src/alloc/mod.rs).

Memory is explicit: a box is an address, and several boxes could in principle name the same block, name a freed block or be given back
to the wrong allocator; `fault` records such an access. That none happens is proved, not assumed.
Simplifications: a failing allocation (which aborts the process) is left out; an address is never used twice, because a new block
is always written completely before it can be read; `zeroize` is taken at its word (no dead-store elimination, no copies left in registers or on the stack).
-/
namespace Verif.SecretMem

/-- `SecretAllocType`, alloc/mod.rs 43-52 -/
inductive Kind where
  | malloc
  | memfd
  deriving DecidableEq, Repr

/-- a block of memory of one of the two allocators -/
structure Block where
  kind : Kind
  bytes : Bytes
  freed : Bool
  deriving DecidableEq, Repr

/-- `SecretBox<[u8; N]>` and `SecretBox<[u8]>`, alloc/mod.rs 122: a pointer, a length and the `SecretAlloc` value (76-78), which is the kind
of the allocator. -/
structure Box where
  addr : Nat
  len : Nat
  kind : Kind
  deriving DecidableEq, Repr

/-- The memory of the process, the `OnceLock` `ALLOC_TYPE` (alloc/mod.rs 22), for each thread its `SECRET_CACHE` (secret.rs 24-26) and the
secrets that exist (by the order of their creation). The pool of a thread is a `HashMap` from sizes to stacks: here one stack of pairs, in
which the stack of a size is the sublist with that size. `gone`: the thread-local value of the thread was destroyed. -/
structure St where
  mem : Nat → Block
  next : Nat
  fault : Bool
  policy : Option Kind
  gone : Nat → Bool
  pool : Nat → List (Nat × Box)
  secrets : Nat → Option Box
  count : Nat

/-- the start of the process -/
def St.start : St where
  mem := fun _ => ⟨.malloc, [], true⟩
  next := 0
  fault := false
  policy := none
  gone := fun _ => false
  pool := fun _ => []
  secrets := fun _ => none
  count := 0

def upd {α : Type} (f : Nat → α) (i : Nat) (x : α) : Nat → α := fun j => if j = i then x else f j

/-- `[0u8; N]` -/
def zeros (n : Nat) : Bytes := List.replicate n 0

/-- Writing all bytes of a box. -/
def St.write (s : St) (b : Box) (v : Bytes) : St :=
  let blk := s.mem b.addr
  if blk.freed = false ∧ v.length = b.len ∧ blk.bytes.length = b.len then { s with mem := upd s.mem b.addr { blk with bytes := v } }
  else { s with fault := true }

/-- `Zeroize` of a box: all its bytes are set to zero (secret.rs 78-85). -/
def St.zero (s : St) (b : Box) : St := s.write b (zeros b.len)

/-- `Drop` of `SecretBox`: the memory goes back to the allocator named in the box (alloc/mod.rs 107-113). -/
def St.free (s : St) (b : Box) : St :=
  let blk := s.mem b.addr
  if blk.freed = false ∧ blk.kind = b.kind ∧ blk.bytes.length = b.len then { s with mem := upd s.mem b.addr { blk with freed := true } }
  else { s with fault := true }

/-- `Drop` of `ZeroizingSecretBox`: zeroize, then drop the field (secret.rs 87-94). -/
def St.dropBox (s : St) (b : Box) : St := (s.zero b).free b

/-- `secret_box` (alloc/mod.rs 153-155) with `SecretAlloc::default` (80-93): `none` is the panic if no policy was chosen. -/
def St.alloc (s : St) (v : Bytes) : Option (Box × St) :=
  match s.policy with
  | none => none
  | some k => some (⟨s.next, v.length, k⟩, { s with mem := upd s.mem s.next ⟨k, v, false⟩, next := s.next + 1 })

/-- the top of the stack of size `n`, and the rest -/
def popSize (n : Nat) : List (Nat × Box) → Option (Box × List (Nat × Box))
  | [] => none
  | (m, b) :: l => if m = n then some (b, l) else
      match popSize n l with
      | none => none
      | some (c, l') => some (c, (m, b) :: l')

/-- `SecretMemoryPool::take`, secret.rs 151-158; `none` is a panic: no policy, or `try_into().unwrap()` of a slice of another length. -/
def St.take (s : St) (t n : Nat) : Option (Box × St) :=
  match popSize n (s.pool t) with
  | none => s.alloc (zeros n)
  | some (b, l) => if b.len = n then some (b, { s with pool := upd s.pool t l }) else none

/-- `SecretMemoryPool::release`, secret.rs 133-145 -/
def St.release (s : St) (t n : Nat) (b : Box) : St :=
  let s := s.zero b
  { s with pool := upd s.pool t ((n, b) :: s.pool t) }

/-- The choice in `with_secret_memory_pool`, secret.rs 30-48: is there a pool? `busy`: the `RefCell` is already borrowed. -/
def St.avail (s : St) (t : Nat) (busy : Bool) : Bool := !(s.gone t) && !busy

/-- The buffer of `Secret::zero`, secret.rs 202-209 -/
def St.newBuf (s : St) (t : Nat) (busy : Bool) (n : Nat) : Option (Box × St) :=
  if s.avail t busy then s.take t n else s.alloc (zeros n)

/-- `Drop` of `Secret<N>` with storage `b`, secret.rs 258-268: `zip` takes the storage in either case; without a pool the pair is
not built and the box is dropped. `n` is the type parameter. -/
def St.dropStorage (s : St) (t : Nat) (busy : Bool) (n : Nat) (b : Box) : St :=
  if s.avail t busy then s.release t n b else s.dropBox b

/-- What a caller can do. `t`: the thread; `busy`: its pool is borrowed. Values are given as functions from positions, so that they have the length of
the secret by construction. Handles are those returned by the creating operations. -/
inductive Op where
  | useOnly (k : Kind)
  | tryMemfd (probe : Bool)
  | setType (k : Kind)
  | zero (t : Nat) (busy : Bool) (n : Nat)
  | fromSlice (t : Nat) (busy : Bool) (n : Nat) (v : Bytes)
  | random (t : Nat) (busy : Bool) (n : Nat) (r : Nat → UInt8)
  | clone (t : Nat) (busy : Bool) (h : Nat)
  | write (h : Nat) (f : Nat → UInt8)
  | randomize (h : Nat) (r : Nat → UInt8)
  | zeroize (h : Nat)
  | drop (t : Nat) (busy : Bool) (h : Nat)
  | threadEnds (t : Nat)

inductive Out where
  | created (h : Nat)
  | done
  | panic
  deriving DecidableEq, Repr

/-- an array of `n` bytes -/
def bytesOf (n : Nat) (f : Nat → UInt8) : Bytes := (List.range n).map f

/-- the new secret gets the next handle -/
def St.enter (s : St) (b : Box) : Out × St := (.created s.count, { s with secrets := upd s.secrets s.count (some b), count := s.count + 1 })

/-- `get_or_init_secret_alloc_type` and `assert_eq!`, policy.rs 26-29, 40-43, 51-54 with alloc/mod.rs 64-66 -/
def St.choose (s : St) (k : Kind) : Out × St :=
  match s.policy with
  | none => (.done, { s with policy := some k })
  | some k' => if k = k' then (.done, s) else (.panic, s)

/-- `Secret::from_slice`, secret.rs 195-199: `copy_from_slice` panics on another length, and the new secret is then dropped by unwinding. -/
def St.fromSlice (s : St) (t : Nat) (busy : Bool) (n : Nat) (v : Bytes) : Out × St :=
  match s.newBuf t busy n with
  | none => (.panic, s)
  | some (b, s) => if v.length = n then (s.write b v).enter b else (.panic, s.dropStorage t busy n b)

/-- The operations; an operation on a secret that does not exist cannot be written in Rust (here: no effect). -/
def St.step (s : St) : Op → Out × St
  -- `secret_policy_use_only_memfd_secrets`, `secret_policy_use_only_malloc_secrets`, policy.rs 37-58
  | .useOnly k => s.choose k
  -- `secret_policy_try_use_memfd_secrets`, policy.rs 10-32; `probe`: the trial allocation succeeded
  | .tryMemfd probe => s.choose (if probe then .memfd else .malloc)
  -- `set_secret_alloc_type`, alloc/mod.rs 41-43
  | .setType k =>
    match s.policy with
    | none => (.done, { s with policy := some k })
    | some _ => (.panic, s)
  -- `Secret::zero`, secret.rs 202-211
  | .zero t busy n =>
    match s.newBuf t busy n with
    | none => (.panic, s)
    | some (b, s) => s.enter b
  | .fromSlice t busy n v => s.fromSlice t busy n v
  -- `Secret::random`, secret.rs 214-216
  | .random t busy n r =>
    match s.newBuf t busy n with
    | none => (.panic, s)
    | some (b, s) => ((s.zero b).write b (bytesOf n r)).enter b
  -- `Clone`, secret.rs 271-275
  | .clone t busy h =>
    match s.secrets h with
    | none => (.done, s)
    | some b => s.fromSlice t busy b.len (s.mem b.addr).bytes
  -- `secret_mut`, secret.rs 234-236, and whatever is written through it
  | .write h f =>
    match s.secrets h with
    | none => (.done, s)
    | some b => (.done, s.write b (bytesOf b.len f))
  -- `randomize`, secret.rs 220-226
  | .randomize h r =>
    match s.secrets h with
    | none => (.done, s)
    | some b => (.done, (s.zero b).write b (bytesOf b.len r))
  -- `zeroize`, secret.rs 241-248
  | .zeroize h =>
    match s.secrets h with
    | none => (.done, s)
    | some b => (.done, s.zero b)
  -- `drop`, secret.rs 251-269; the type parameter is the length of the storage
  | .drop t busy h =>
    match s.secrets h with
    | none => (.done, s)
    | some b => (.done, { s.dropStorage t busy b.len b with secrets := upd s.secrets h none })
  -- the destructor of the thread-local pool drops every box in it
  | .threadEnds t => (.done, { (s.pool t).foldl (fun s p => s.dropBox p.2) s with gone := upd s.gone t true, pool := upd s.pool t [] })

/-- reachable states -/
inductive Reachable : St → Prop where
  | start : Reachable .start
  | step {s : St} (op : Op) (h : Reachable s) : Reachable (s.step op).2

/-- what `secret()` of a secret returns, secret.rs 229-231 -/
def St.content (s : St) (h : Nat) : Option Bytes := (s.secrets h).map fun b => (s.mem b.addr).bytes

end Verif.SecretMem
