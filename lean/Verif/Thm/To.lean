import Verif.Model.To
import Verif.Thm.FileIO
/-
The `to` crate (C103): generating the destination on the fly is the same as passing it in; errors discard it; copies give exactly the
source or refuse.
-/
namespace Verif.ToCrate
open Verif.FileIO

/-- C103: whichever of the calling styles is used, the function runs once, on the given (or default) value, and what comes back is the
destination it left and the value it returned; it panics exactly if the function does. -/
theorem styles_agree {val dst ret : Type} (b : Borrow val dst) (src : To dst ret) (fresh : val) :
    (toThisBeside b src fresh).map (fun x => (x.ret, x.dest)) = toFn b fresh src
    ∧ (∀ r d, src (b.get fresh) = some (r, d) → toFn b fresh src = some (r, b.put fresh d))
    ∧ (src (b.get fresh) = none → toFn b fresh src = none ∧ toThisBeside b src fresh = none) := by
  unfold toThisBeside toFn
  refine ⟨?_, ?_, ?_⟩
  · cases src (b.get fresh) <;> rfl
  · intro r d h; rw [h]; rfl
  · intro h; rw [h]; exact ⟨rfl, rfl⟩

/-- C103: condensing keeps the destination iff the function reported success; on an error the partly written destination is thrown away
and the error is passed on unchanged. -/
theorem condense_exact {val dst ε : Type} (b : Borrow val dst) (fresh : val) :
    (∀ src : To dst Unit, toThis b src fresh = (src (b.get fresh)).map fun p => b.put fresh p.2)
    ∧ (∀ src : To dst (Option Unit), ∀ d,
        (src (b.get fresh) = some (some (), d) → toThis b src fresh = some (some (b.put fresh d)))
        ∧ (src (b.get fresh) = some (none, d) → toThis b src fresh = some none))
    ∧ (∀ src : To dst (Except ε Unit), ∀ d,
        (src (b.get fresh) = some (.ok (), d) → toThis b src fresh = some (.ok (b.put fresh d)))
        ∧ (∀ e, src (b.get fresh) = some (.error e, d) → toThis b src fresh = some (.error e))) := by
  refine ⟨fun src => ?_, fun src d => ⟨fun h => ?_, fun h => ?_⟩, fun src d => ⟨fun h => ?_, fun e h => ?_⟩⟩
  · unfold toThis toThisBeside
    cases src (b.get fresh) <;> rfl
  all_goals
    unfold toThis toThisBeside
    rw [h]
    rfl

/-- C103, copying into a value made for it, of which only the length matters: `copy_slice` gives exactly the source or panics,
`try_copy_slice` exactly the source or nothing, and never panics. With `Vec`, whose default is empty, `collect` therefore panics for every
non-empty source. -/
theorem collect_copies {α : Type} (src fresh : List α) :
    toThis (Borrow.slice α) (copyTo src) fresh = (if src.length = fresh.length then some src else none)
    ∧ toThis (Borrow.slice α) (tryCopyTo src) fresh = some (if src.length = fresh.length then some src else none)
    ∧ toThis (Borrow.slice α) (copyLeastTo src) fresh = some (src.take fresh.length ++ fresh.drop src.length)
    ∧ toThis (Borrow.slice α) (tryCopyLeastSrcTo src) fresh
        = some (if src.length ≤ fresh.length then some (src ++ fresh.drop src.length) else none) := by
  obtain ⟨h1, h2, h3, h4, h5⟩ := slice_copies src fresh
  refine ⟨?_, ?_, ?_, ?_⟩
  · unfold toThis toThisBeside copyTo Borrow.slice
    dsimp only
    rw [h1]
    split <;> rfl
  · unfold toThis toThisBeside tryCopyTo Borrow.slice
    dsimp only
    rw [h4]
    split <;> rfl
  · unfold toThis toThisBeside copyLeastTo Borrow.slice
    dsimp only
    rw [h3]
    rfl
  · unfold toThis toThisBeside tryCopyLeastSrcTo Borrow.slice
    dsimp only
    rw [h5]
    split <;> rfl

/-- the case of `Vec`: it cannot collect anything but nothing -/
theorem collect_vec_panics {α : Type} (src : List α) (h : src ≠ []) : toThis (Borrow.slice α) (copyTo src) [] = none := by
  rw [(collect_copies src []).1, if_neg]
  simpa using h

example : toThis (Borrow.slice Nat) (copyTo [1, 2, 3]) [0, 0, 0] = some [1, 2, 3] := by decide
example : toThis (Borrow.slice Nat) (tryCopyTo [1, 2, 3]) [0, 0] = some none := by decide
example : toThisBeside (Borrow.slice Nat) (tryCopyLeastSrcTo [1, 2]) [7, 7, 7] = some ⟨[1, 2, 7], some ()⟩ := by decide

end Verif.ToCrate
