import Verif.Model.ConstantTime
/-
The functions of the crate constant-time as code: a small imperative language whose execution records what an attacker who measures time or watches caches can see, namely the
outcome of every branch and the address of every access to memory. (That the machine executes the arithmetic operations themselves in constant time, and that the compiler keeps
the loops and the branch-free expressions as they are written, which the code asks for with `black_box` and `read_volatile`, is assumed.)
-/
namespace Verif.CtCode

/-- branch-free arithmetic on registers of type `i32` (bytes are converted on loading and truncated on storing) -/
inductive Expr where
  | const (v : Int32)
  | reg (r : Nat)
  | add (a b : Expr)
  | sub (a b : Expr)
  | and (a b : Expr)
  | or (a b : Expr)
  | xor (a b : Expr)
  | not (a : Expr)
  | shr8 (a : Expr)
  /-- `(a == 0) as i32` -/
  | isZero (a : Expr)

/-- statements; arrays and loop counters have numbers, too -/
inductive Stmt where
  | skip
  | panic
  | seq (s t : Stmt)
  | set (r : Nat) (e : Expr)
  /-- `r = array[counter]` -/
  | load (r array counter : Nat)
  /-- `array[counter] = e` -/
  | store (array counter : Nat) (e : Expr)
  /-- branch on the lengths of two arrays being equal -/
  | ifLen (a b : Nat) (s t : Stmt)
  /-- branch on a register being zero -/
  | ifZero (r : Nat) (s t : Stmt)
  /-- `for counter in 0..array.len()` -/
  | forLen (counter array : Nat) (body : Stmt)

structure State where
  reg : Nat → Int32
  ctr : Nat → Nat
  mem : Nat → Bytes

/-- what can be seen from outside -/
inductive Obs where
  | branch (b : Bool)
  | access (array index : Nat)
  deriving DecidableEq, Repr

def Expr.eval (s : State) : Expr → Int32
  | .const v => v
  | .reg r => s.reg r
  | .add a b => a.eval s + b.eval s
  | .sub a b => a.eval s - b.eval s
  | .and a b => a.eval s &&& b.eval s
  | .or a b => a.eval s ||| b.eval s
  | .xor a b => a.eval s ^^^ b.eval s
  | .not a => ~~~ a.eval s
  | .shr8 a => a.eval s >>> 8
  | .isZero a => if a.eval s = 0 then 1 else 0

/-- `i32::from(u8)` -/
def widen (b : UInt8) : Int32 := Int32.ofNat b.toNat
/-- `as u8` -/
def narrow (v : Int32) : UInt8 := UInt8.ofNat v.toBitVec.toNat

/-- the outcome: the state, or `none` after a panic or an access out of bounds; and what was seen -/
abbrev Out := Option State × List Obs

/-- `n` more iterations, the next one with counter `k`; each check of the loop condition is a branch -/
def loop (body : Nat → State → Out) : Nat → Nat → State → Out
  | _, 0, s => (some s, [.branch false])
  | k, n + 1, s =>
    match body k s with
    | (none, o) => (none, .branch true :: o)
    | (some s1, o) => ((loop body (k + 1) n s1).1, .branch true :: o ++ (loop body (k + 1) n s1).2)

def exec : Stmt → State → Out
  | .skip, s => (some s, [])
  | .panic, _ => (none, [])
  | .seq p q, s =>
    match exec p s with
    | (none, o) => (none, o)
    | (some s1, o) => ((exec q s1).1, o ++ (exec q s1).2)
  | .set r e, s => (some { s with reg := fun x => if x = r then e.eval s else s.reg x }, [])
  | .load r a c, s =>
    match (s.mem a)[s.ctr c]? with
    | none => (none, [.access a (s.ctr c)])
    | some b => (some { s with reg := fun x => if x = r then widen b else s.reg x }, [.access a (s.ctr c)])
  | .store a c e, s =>
    if s.ctr c < (s.mem a).length then
      (some { s with mem := fun x => if x = a then (s.mem a).set (s.ctr c) (narrow (e.eval s)) else s.mem x }, [.access a (s.ctr c)])
    else (none, [.access a (s.ctr c)])
  | .ifLen a b p q, s =>
    if (s.mem a).length = (s.mem b).length then ((exec p s).1, .branch true :: (exec p s).2) else ((exec q s).1, .branch false :: (exec q s).2)
  | .ifZero r p q, s =>
    if s.reg r = 0 then ((exec p s).1, .branch true :: (exec p s).2) else ((exec q s).1, .branch false :: (exec q s).2)
  | .forLen c a body, s => loop (fun k t => exec body { t with ctr := fun x => if x = c then k else t.ctr x }) 0 (s.mem a).length s

/-- statements one after the other -/
def Stmt.all : List Stmt → Stmt
  | [] => .skip
  | s :: l => .seq s (Stmt.all l)

/-- arrays 0 and 1 are the arguments, register 0 is the result -/
def input (a b : Bytes) : State := ⟨fun _ => 0, fun _ => 0, fun x => if x = 0 then a else if x = 1 then b else []⟩

/-- constant-time/src/compare.rs:32-34: the body of the loop of `memcmp_le`. -/
def compareBody : Stmt :=
  Stmt.all [.load 2 0 0, .load 3 1 0, .set 4 (.sub (.reg 2) (.reg 3)),
    .set 1 (.or (.and (.reg 1) (.shr8 (.and (.sub (.reg 4) (.const 1)) (.not (.reg 4))))) (.reg 4))]

/-- constant-time/src/compare.rs:91-94 `compare` with 29-37 `memcmp_le`. Registers: 1 `res`, 2 and 3 the bytes read, 4 `diff`. -/
def compareCode : Stmt :=
  .ifLen 0 1
    (Stmt.all [.set 1 (.const 0),
      .forLen 0 0 compareBody,
      .set 0 (.add (.add (.shr8 (.sub (.reg 1) (.const 1))) (.shr8 (.reg 1))) (.const 1))])
    .panic

/-- the body of the loop of `memsec::memeq` -/
def memcmpBody : Stmt := Stmt.all [.load 2 0 0, .load 3 1 0, .set 1 (.or (.reg 1) (.xor (.reg 2) (.reg 3)))]

/-- constant-time/src/memcmp.rs:25-27 `memcmp`, with `memsec::memeq`: `sum |= a[i] ^ b[i]` for all bytes, then `sum == 0`. Register 1 is `sum`. -/
def memcmpCode : Stmt :=
  .ifLen 0 1
    (Stmt.all [.set 1 (.const 0),
      .forLen 0 0 memcmpBody,
      .set 0 (.isZero (.reg 1))])
    (.set 0 (.const 0))

/-- constant-time/src/increment.rs:56-61: the body of the loop of `increment`. -/
def incrementBody : Stmt := Stmt.all [.load 2 0 0, .set 3 (.add (.reg 2) (.reg 1)), .store 0 0 (.reg 3), .set 1 (.shr8 (.reg 3))]

/-- constant-time/src/increment.rs:51-62 `increment` of array 0. Register 1 is `carry`; `overflowing_add` gives the low byte and the ninth bit. -/
def incrementCode : Stmt :=
  Stmt.all [.set 1 (.const 1),
    .forLen 0 0 incrementBody]

/-- constant-time/src/xor.rs:40-47 `xor(src).to(dst)`: array 0 is `src`, array 1 is `dst`. -/
def xorCode : Stmt :=
  .ifLen 0 1
    (.forLen 0 1 (Stmt.all [.load 2 1 0, .load 3 0 0, .store 1 0 (.xor (.reg 2) (.reg 3))]))
    .panic

end Verif.CtCode
