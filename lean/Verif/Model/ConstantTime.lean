import Verif.Model.Base
/-
Model of the crate `constant-time` (rosenpass-constant-time).
`black_box` is the identity; only functional behaviour is modelled, not timing.
-/
namespace Verif.ConstantTime

/-- constant-time/src/increment.rs:51-58, the loop body threaded over the slice:
`overflowing_add` of the carry, the overflow flag is the next carry. -/
def incrementAux : UInt8 → Bytes → Bytes
  | _, [] => []
  | carry, v :: vs =>
    -- `(v, c) = val.overflowing_add(carry)`
    let s := v + carry
    let c : UInt8 := if v.toNat + carry.toNat ≥ 256 then 1 else 0
    s :: incrementAux c vs

/-- constant-time/src/increment.rs:51 `increment`. -/
def increment (v : Bytes) : Bytes := incrementAux 1 v

/-- constant-time/src/compare.rs:32-33: `i32::from(b1[i]) - i32::from(b2[i])`. -/
def byteDiff (x y : UInt8) : Int32 := Int32.ofNat x.toNat - Int32.ofNat y.toNat

/-- constant-time/src/compare.rs:34: one loop iteration
`res = (res & (((diff - 1) & !diff) >> 8)) | diff` on `i32` (arithmetic shift). -/
def memcmpStep (res diff : Int32) : Int32 :=
  (res &&& (((diff - 1) &&& (~~~ diff)) >>> 8)) ||| diff

/-- constant-time/src/compare.rs:31-35: the loop over both buffers. -/
def memcmpLoop : Int32 → Bytes → Bytes → Int32
  | res, x :: xs, y :: ys => memcmpLoop (memcmpStep res (byteDiff x y)) xs ys
  | res, _, _ => res

/-- constant-time/src/compare.rs:36: `((res - 1) >> 8) + (res >> 8) + 1`. -/
def memcmpFinish (res : Int32) : Int32 := ((res - 1) >>> 8) + (res >>> 8) + 1

/-- constant-time/src/compare.rs:91-94 `compare` (with `memcmp_le` 29-37).
`none` is the `assert!` panic on a length mismatch. -/
def compare (a b : Bytes) : Option Int32 :=
  if a.length = b.length then some (memcmpFinish (memcmpLoop 0 a b)) else none

/-- `memsec::memeq` as used by constant-time/src/memcmp.rs:26: OR of the XORs of all byte pairs is zero. -/
def memeq (a b : Bytes) : Bool :=
  (List.zipWith (fun x y => x ^^^ y) a b).foldl (fun acc x => acc ||| x) 0 == 0

/-- constant-time/src/memcmp.rs:25-27 `memcmp`. -/
def memcmp (a b : Bytes) : Bool := a.length == b.length && memeq a b

/-- constant-time/src/xor.rs:40-47 `xor(src).to(dst)`: `none` is the length assertion. -/
def xorInto (src dst : Bytes) : Option Bytes :=
  if src.length = dst.length then some (List.zipWith (fun d s => d ^^^ s) dst src) else none

end Verif.ConstantTime
