import Verif.Model.SecretAlloc
/-
The allocators of secrets: what `allocate` promises, when it fails, that failing leaks nothing, and that over any history every block is
given back exactly once, to the allocator it came from (C101).
-/
namespace Verif.SecretAlloc
open Verif.SecretMem (Kind)

/-- two ranges of memory have no byte in common and do not start at the same place -/
def Apart (a n b m : Nat) : Prop := a ≠ b ∧ (a + n ≤ b ∨ b + m ≤ a)

/-- what the environment may answer: the end of a page, with room below it, such that the block does not overlap a block in use -/
def Answers (page : Nat) (h : Heap) (l : Layout) : Option Nat → Prop
  | none => True
  | some e => page ∣ e ∧ l.size ≤ e ∧ ∀ b ∈ h.live, Apart (e - l.size) l.size b.addr b.size

/-- every layout of a Rust type, and of an array of them, has this form: the size is a multiple of the alignment, which is a power of
two that divides the page size -/
def Layout.OfType (page : Nat) (l : Layout) : Prop := 0 < l.align ∧ l.align ∣ l.size ∧ l.align ∣ page

theorem alignOffset_zero {a n : Nat} (hn : 0 < n) : alignOffset a n = 0 ↔ n ∣ a := by
  unfold alignOffset
  have hlt := Nat.mod_lt a hn
  constructor
  · intro h
    by_cases hz : a % n = 0
    · exact Nat.dvd_of_mod_eq_zero hz
    · rw [Nat.mod_eq_of_lt (by omega)] at h; omega
  · intro h
    rw [Nat.mod_eq_zero_of_dvd h, Nat.sub_zero, Nat.mod_self]

theorem filter_fresh {l : List Block} {a : Nat} (h : ∀ b ∈ l, b.addr ≠ a) : l.filter (fun b => !(b.addr == a)) = l := by
  rw [List.filter_eq_self]
  intro b hb
  simp [h b hb]

/-- The exact result of `allocate`: it succeeds iff there was memory and the alignment can be had at the end of a page; then the caller
gets an aligned block of the size asked for, new in the heap; otherwise the heap is as before - nothing is leaked. -/
theorem allocate_exact {page : Nat} {h : Heap} {k : Kind} {l : Layout} {ans : Option Nat} (hal : 0 < l.align) (hans : Answers page h l ans) :
    (∀ a h', allocate k l ans h = (some a, h') →
      l.align ∣ a ∧ (∀ b ∈ h.live, Apart a l.size b.addr b.size) ∧ h' = ⟨⟨k, a, l.size⟩ :: h.live, h.fault⟩ ∧ ans = some (a + l.size))
    ∧ (∀ h', allocate k l ans h = (none, h') → h' = h ∧ (ans = none ∨ ∃ e, ans = some e ∧ ¬ l.align ∣ e - l.size)) := by
  cases ans with
  | none =>
    refine ⟨fun a h' hh => ?_, fun h' hh => ?_⟩
    · simp [allocate, Heap.sized] at hh
    · simp [allocate, Heap.sized] at hh
      exact ⟨hh.symm, .inl rfl⟩
  | some e =>
    obtain ⟨hp, hle, hap⟩ := hans
    by_cases hoff : alignOffset (e - l.size) l.align = 0
    · have hd := (alignOffset_zero hal).1 hoff
      refine ⟨fun a h' hh => ?_, fun h' hh => ?_⟩
      · simp [allocate, Heap.sized, hoff] at hh
        obtain ⟨rfl, rfl⟩ := hh
        exact ⟨hd, hap, rfl, (by rw [Nat.sub_add_cancel hle])⟩
      · simp [allocate, Heap.sized, hoff] at hh
    · have hd : ¬ l.align ∣ e - l.size := fun c => hoff ((alignOffset_zero hal).2 c)
      refine ⟨fun a h' hh => ?_, fun h' hh => ?_⟩
      · simp [allocate, Heap.sized, hoff] at hh
      · simp [allocate, Heap.sized, hoff, Heap.free] at hh
        refine ⟨?_, .inr ⟨e, rfl, hd⟩⟩
        rw [← hh, List.filter_eq_self.2 (fun b hb => by simp [(hap b hb).1.symm])]

/-- Every value of a Rust type gets its block whenever there is memory, whatever its alignment up to the page size: the refusal for
"custom alignments" never concerns a type. -/
theorem allocate_succeeds_for_types {page : Nat} {h : Heap} {k : Kind} {l : Layout} {e : Nat}
    (hty : l.OfType page) (hans : Answers page h l (some e)) : ∃ h', allocate k l (some e) h = (some (e - l.size), h') := by
  have hd : l.align ∣ e - l.size := Nat.dvd_sub (Nat.dvd_trans hty.2.2 hans.1) hty.2.1
  refine ⟨⟨⟨k, e - l.size, l.size⟩ :: h.live, h.fault⟩, ?_⟩
  unfold allocate Heap.sized
  simp only [(alignOffset_zero hty.1).2 hd, ne_eq, not_true_eq_false, if_false]

/-- Conversely a layout with an alignment that divides the page size but not the size is refused even though there is memory. -/
theorem allocate_refuses {page : Nat} {h : Heap} {k : Kind} {l : Layout} {e : Nat} (hal : 0 < l.align) (hpg : l.align ∣ page)
    (hnd : ¬ l.align ∣ l.size) (hans : Answers page h l (some e)) : (allocate k l (some e) h).1 = none := by
  have hd : ¬ l.align ∣ e - l.size := fun c => by
    have he : l.align ∣ e := Nat.dvd_trans hpg hans.1
    exact hnd (by have := Nat.dvd_sub he c; rwa [Nat.sub_sub_self hans.2.1] at this)
  have ho : alignOffset (e - l.size) l.align ≠ 0 := fun c => hd ((alignOffset_zero hal).1 c)
  unfold allocate Heap.sized
  simp only [ne_eq, ho, not_false_eq_true, if_true]

/-- the block a box stands for -/
def Handle.block (b : Handle) : Block := ⟨b.kind, b.addr, b.layout.size⟩

/-- the answers of the environment in a history are possible ones, and the alignments are positive -/
def Possible (page : Nat) (s : St) : List Op → Prop
  | [] => True
  | op :: ops => (match op with | .make _ l e => 0 < l.align ∧ Answers page s.heap l e | .drop _ => True) ∧ Possible page (s.step op) ops

/-- the boxes held are exactly the live blocks, aligned, pairwise without a common byte -/
structure Sound (s : St) : Prop where
  noFault : s.heap.fault = false
  noLeak : ∀ b, b ∈ s.heap.live ↔ ∃ x ∈ s.held, x.block = b
  count : s.heap.live.length = s.held.length
  aligned : ∀ x ∈ s.held, x.layout.align ∣ x.addr
  apart : s.held.Pairwise fun x y => Apart x.addr x.layout.size y.addr y.layout.size

theorem live_eq {s : St} : s.heap.live = s.held.map Handle.block → ∀ b, b ∈ s.heap.live ↔ ∃ x ∈ s.held, x.block = b := by
  intro h b; rw [h, List.mem_map]

theorem erase_filter {l : List Handle} {n : Nat} {b : Handle} (hn : l[n]? = some b)
    (hp : l.Pairwise fun x y => x.addr ≠ y.addr) :
    (l.map Handle.block).filter (fun c => !(c.addr == b.addr)) = (l.eraseIdx n).map Handle.block := by
  induction l generalizing n with
  | nil => simp at hn
  | cons x l ih =>
    rw [List.pairwise_cons] at hp
    cases n with
    | zero =>
      simp at hn; subst hn
      simp only [List.map_cons, List.eraseIdx_zero, List.tail_cons]
      rw [List.filter_cons]
      simp only [Handle.block, beq_self_eq_true, Bool.not_true, Bool.false_eq_true, if_false]
      rw [List.filter_eq_self]
      intro c hc
      obtain ⟨y, hy, rfl⟩ := List.mem_map.1 hc
      simpa [Handle.block] using (hp.1 y hy).symm
    | succ n =>
      simp only [List.getElem?_cons_succ] at hn
      have hb : b ∈ l := List.mem_of_getElem? hn
      simp only [List.map_cons, List.eraseIdx_cons_succ]
      rw [List.filter_cons]
      have : (!((x.block).addr == b.addr)) = true := by simpa [Handle.block] using hp.1 b hb
      rw [if_pos this, ih hn hp.2]

/-- the invariant in the form that carries through the induction -/
structure Inv (s : St) : Prop where
  noFault : s.heap.fault = false
  live : s.heap.live = s.held.map Handle.block
  aligned : ∀ x ∈ s.held, x.layout.align ∣ x.addr
  apart : s.held.Pairwise fun x y => Apart x.addr x.layout.size y.addr y.layout.size

theorem Inv.sound {s : St} (h : Inv s) : Sound s :=
  ⟨h.noFault, live_eq h.live, by rw [h.live, List.length_map], h.aligned, h.apart⟩

theorem Inv.step {page : Nat} {s : St} {op : Op} (h : Inv s) (hp : Possible page s [op]) : Inv (s.step op) := by
  cases op with
  | make k l e =>
    obtain ⟨⟨hal, hans⟩, -⟩ := hp
    obtain ⟨h1, h2⟩ := allocate_exact (k := k) hal hans
    cases he : allocate k l e s.heap with
    | mk r h' =>
      cases r with
      | none =>
        obtain ⟨rfl, -⟩ := h2 h' he
        have : s.step (.make k l e) = s := by simp [St.step, he]
        rw [this]; exact h
      | some a =>
        obtain ⟨hd, hap, rfl, -⟩ := h1 a h' he
        have : s.step (.make k l e) = ⟨⟨⟨k, a, l.size⟩ :: s.heap.live, s.heap.fault⟩, ⟨k, a, l⟩ :: s.held⟩ := by simp [St.step, he]
        rw [this]
        refine ⟨h.noFault, by simp [h.live, Handle.block], ?_, ?_⟩
        · intro x hx
          rcases List.mem_cons.1 hx with rfl | hx
          · exact hd
          · exact h.aligned x hx
        · rw [List.pairwise_cons]
          refine ⟨fun y hy => ?_, h.apart⟩
          exact hap y.block (by rw [h.live]; exact List.mem_map_of_mem hy)
  | drop n =>
    cases hn : s.held[n]? with
    | none =>
      have : s.step (.drop n) = s := by simp [St.step, hn]
      rw [this]; exact h
    | some b =>
      have hb : b ∈ s.held := List.mem_of_getElem? hn
      have hlive : s.heap.live.any (fun c => c.addr == b.addr && c.kind == b.kind) = true := by
        rw [List.any_eq_true]
        exact ⟨b.block, by rw [h.live]; exact List.mem_map_of_mem hb, by simp [Handle.block]⟩
      have : s.step (.drop n) = ⟨⟨s.heap.live.filter (fun c => !(c.addr == b.addr)), s.heap.fault⟩, s.held.eraseIdx n⟩ := by
        simp only [St.step, hn, deallocate, Heap.free, hlive, if_true]
      rw [this]
      refine ⟨h.noFault, ?_, fun x hx => h.aligned x (List.mem_of_mem_eraseIdx hx), h.apart.sublist (List.eraseIdx_sublist ..)⟩
      show s.heap.live.filter _ = _
      rw [h.live, erase_filter hn (h.apart.imp fun hx => hx.1)]

/-- C101: for every history of boxes made (by either allocator, some of the requests failing) and dropped, the boxes held are exactly the
live blocks; no block was given back twice or to the other allocator, none is lost, all are aligned and none overlap. -/
theorem boxes_sound {page : Nat} {ops : List Op} (hp : Possible page St.start ops) : Sound (St.start.run ops) := by
  suffices H : ∀ s, Inv s → ∀ ops, Possible page s ops → Inv (s.run ops) from
    (H _ ⟨rfl, rfl, by simp [St.start], by simp [St.start]⟩ ops hp).sound
  intro s hs ops
  induction ops generalizing s with
  | nil => intro _; exact hs
  | cons op ops ih =>
    intro hp
    exact ih (s.step op) (hs.step ⟨hp.1, trivial⟩) hp.2

/-- in particular, once all boxes are dropped nothing of memsec's memory is in use any more -/
theorem all_dropped {page : Nat} {ops : List Op} (hp : Possible page St.start ops) (hn : (St.start.run ops).held = []) :
    (St.start.run ops).heap.live = [] := by
  have := (boxes_sound hp).count
  rw [hn] at this
  exact List.length_eq_zero_iff.1 this

/-- a secret of 32 bytes, one of 12 bytes with alignment 4 in the other allocator, a refused request of 10 bytes with alignment 8, one that
ran out of memory, and the first box dropped -/
def exOps : List Op :=
  [.make .malloc ⟨32, 1⟩ (some 4096), .make .memfd ⟨12, 4⟩ (some 16384), .make .malloc ⟨10, 8⟩ (some 8192), .make .malloc ⟨5, 1⟩ none, .drop 1]

example : Possible 4096 St.start exOps := by
  refine ⟨⟨by decide, ⟨1, rfl⟩, by decide, by simp [St.start]⟩, ⟨⟨by decide, ⟨4, rfl⟩, by decide, ?_⟩, ⟨⟨by decide, ⟨2, rfl⟩, by decide, ?_⟩, ⟨⟨by decide, trivial⟩, ⟨trivial, trivial⟩⟩⟩⟩⟩
  · intro b hb
    have : b = ⟨.malloc, 4064, 32⟩ := by simpa [St.step, allocate, Heap.sized, alignOffset, St.start] using hb
    subst this; unfold Apart; decide
  · intro b hb
    have : b = ⟨.memfd, 16372, 12⟩ ∨ b = ⟨.malloc, 4064, 32⟩ := by simpa [St.step, allocate, Heap.sized, alignOffset, St.start] using hb
    rcases this with rfl | rfl <;> (unfold Apart; decide)

example : St.start.run exOps = ⟨⟨[⟨.memfd, 16372, 12⟩], false⟩, [⟨.memfd, 16372, ⟨12, 4⟩⟩]⟩ := by decide +kernel

/-- giving the block to the other allocator would be seen -/
example : ((⟨[⟨.memfd, 16372, 12⟩], false⟩ : Heap).free .malloc 16372).fault = true := by decide +kernel

end Verif.SecretAlloc
