import Verif.Model.RefMaker
/-
Typed views of byte buffers (C102): which bytes a view covers, when there is one, what is wiped and what is not touched.
-/
namespace Verif.RefMaker

/-- the slice lies inside the buffer -/
def Win.Inside (w : Win) (m : Mem) : Prop := w.off + w.len ≤ m.bytes.length

/-- the slice starts at an address that suits the type -/
def Aligned (m : Mem) (t : Ty) (off : Nat) : Prop := (m.addr + off) % t.align = 0

theorem parse_some {m : Mem} {t : Ty} {w v : Win} : zkParse m t w = some v ↔ w.len = t.size ∧ Aligned m t w.off ∧ v = w := by
  unfold zkParse parse ensureFit fromBytes Aligned
  by_cases h1 : t.size ≤ w.len
  · by_cases h2 : w.len = t.size ∧ (m.addr + w.off) % t.align = 0
    · simp [h1, h2, eq_comm]
    · simp only [h1, h2, if_true, if_false]
      constructor
      · intro h; cases h
      · intro h; exact absurd ⟨h.1, h.2.1⟩ h2
  · simp only [h1, if_false]
    constructor
    · intro h; cases h
    · intro h; omega

theorem splitPrefix_eq {t : Ty} {w : Win} :
    splitPrefix t w = if t.size ≤ w.len then some (⟨w.off, t.size⟩, ⟨w.off + t.size, w.len - t.size⟩) else none := by
  unfold splitPrefix splitAtPoint splitAt ensureFit
  by_cases h : t.size ≤ w.len <;> simp [h]

theorem splitSuffix_eq {t : Ty} {w : Win} :
    splitSuffix t w = if t.size ≤ w.len then some (⟨w.off, w.len - t.size⟩, ⟨w.off + (w.len - t.size), t.size⟩) else none := by
  unfold splitSuffix splitAtPoint splitAt ensureFit
  by_cases h : t.size ≤ w.len
  · simp [h]; omega
  · simp [h]

theorem fromPrefix_eq {t : Ty} {w : Win} : fromPrefix t w = if t.size ≤ w.len then some ⟨w.off, t.size⟩ else none := by
  unfold fromPrefix; rw [splitPrefix_eq]; split <;> rfl

theorem fromSuffix_eq {t : Ty} {w : Win} :
    fromSuffix t w = if t.size ≤ w.len then some ⟨w.off + (w.len - t.size), t.size⟩ else none := by
  unfold fromSuffix fromSuffixWithHead; rw [splitSuffix_eq]; split <;> rfl

/-- C102, views: a view of the whole slice exists iff the slice has exactly the size of the type and suits its alignment; one of the prefix
(suffix) exists iff the slice is large enough and the prefix (suffix) suits the alignment, and it is the first (last) bytes. -/
theorem views_exact (m : Mem) (t : Ty) (w v : Win) :
    (zkParse m t w = some v ↔ w.len = t.size ∧ Aligned m t w.off ∧ v = w)
    ∧ (zkParsePrefix m t w = some v ↔ t.size ≤ w.len ∧ Aligned m t w.off ∧ v = ⟨w.off, t.size⟩)
    ∧ (zkParseSuffix m t w = some v ↔
        t.size ≤ w.len ∧ Aligned m t (w.off + (w.len - t.size)) ∧ v = ⟨w.off + (w.len - t.size), t.size⟩) := by
  refine ⟨parse_some, ?_, ?_⟩
  · unfold zkParsePrefix
    rw [fromPrefix_eq]
    by_cases h : t.size ≤ w.len
    · simp only [h, if_true, true_and]
      exact (parse_some (m := m) (t := t) (w := ⟨w.off, t.size⟩)).trans ⟨fun x => x.2, fun x => ⟨rfl, x⟩⟩
    · simp [h]
  · unfold zkParseSuffix
    rw [fromSuffix_eq]
    by_cases h : t.size ≤ w.len
    · simp only [h, if_true, true_and]
      exact (parse_some (m := m) (t := t) (w := ⟨w.off + (w.len - t.size), t.size⟩)).trans ⟨fun x => x.2, fun x => ⟨rfl, x⟩⟩
    · simp [h]

theorem read_all (m : Mem) : m.read m.all = m.bytes := by simp [Mem.read, Mem.all]

/-- read as bytes of the buffer: the view of the prefix shows the first `size` bytes, that of the suffix the last -/
theorem views_read (m : Mem) (t : Ty) (v : Win) :
    (zkParsePrefix m t m.all = some v → m.read v = m.bytes.take t.size)
    ∧ (zkParseSuffix m t m.all = some v → m.read v = m.bytes.drop (m.bytes.length - t.size))
    ∧ (zkParse m t m.all = some v → m.read v = m.bytes) := by
  obtain ⟨h1, h2, h3⟩ := views_exact m t m.all v
  refine ⟨fun h => ?_, fun h => ?_, fun h => ?_⟩
  · obtain ⟨-, -, rfl⟩ := h2.1 h; simp [Mem.read, Mem.all]
  · obtain ⟨hs, -, rfl⟩ := h3.1 h
    simp only [Mem.all] at hs
    simp only [Mem.read, Mem.all, Nat.zero_add]
    rw [List.take_of_length_le]; rw [List.length_drop]; omega
  · obtain ⟨-, -, rfl⟩ := h1.1 h; exact read_all m

/-- C102, splitting: both ways of splitting cut the slice into two adjacent parts, nothing lost, the part of the type having its size; the
two parts of `from_suffix_with_head` come in the other order. -/
theorem splits_exact (m : Mem) (t : Ty) (w : Win) (hw : w.Inside m) :
    (∀ a b, splitPrefix t w = some (a, b) → a.len = t.size ∧ m.read a ++ m.read b = m.read w)
    ∧ (∀ a b, splitSuffix t w = some (a, b) → b.len = t.size ∧ m.read a ++ m.read b = m.read w)
    ∧ (∀ a b, fromSuffixWithHead t w = some (a, b) → a.len = t.size ∧ m.read b ++ m.read a = m.read w)
    ∧ (splitPrefix t w = none ↔ w.len < t.size) ∧ (splitSuffix t w = none ↔ w.len < t.size) := by
  have cut : ∀ n, n ≤ w.len → m.read ⟨w.off, n⟩ ++ m.read ⟨w.off + n, w.len - n⟩ = m.read w := by
    intro n hn
    unfold Mem.read
    dsimp only
    have hz : w.len = n + (w.len - n) := by omega
    rw [← List.drop_drop]
    conv => rhs; rw [hz, List.take_add]
  rw [splitPrefix_eq, splitSuffix_eq]
  refine ⟨?_, ?_, ?_, ?_, ?_⟩
  · intro a b h
    split at h
    case isTrue hs => injection h with h; injection h with ha hb; subst ha; subst hb; exact ⟨rfl, cut _ hs⟩
    case isFalse => cases h
  · intro a b h
    split at h
    case isTrue hs =>
      injection h with h; injection h with ha hb; subst ha; subst hb
      refine ⟨rfl, ?_⟩
      have := cut (w.len - t.size) (by omega)
      rwa [Nat.sub_sub_self hs] at this
    case isFalse => cases h
  · intro a b h
    unfold fromSuffixWithHead at h
    rw [splitSuffix_eq] at h
    split at h
    case isTrue hs =>
      injection h with h; injection h with ha hb; subst ha; subst hb
      refine ⟨rfl, ?_⟩
      have := cut (w.len - t.size) (by omega)
      rwa [Nat.sub_sub_self hs] at this
    case isFalse => cases h
  · split <;> simp <;> omega
  · split <;> simp <;> omega

theorem zeroize_spec {m : Mem} {w : Win} (hw : w.Inside m) :
    (m.zeroize w).addr = m.addr ∧ (m.zeroize w).bytes.length = m.bytes.length
    ∧ (m.zeroize w).read w = List.replicate w.len 0
    ∧ (m.zeroize w).bytes.take w.off = m.bytes.take w.off
    ∧ (m.zeroize w).bytes.drop (w.off + w.len) = m.bytes.drop (w.off + w.len) := by
  unfold Win.Inside at hw
  have hl : (m.bytes.take w.off).length = w.off := by rw [List.length_take]; omega
  refine ⟨rfl, ?_, ?_, ?_, ?_⟩
  · simp only [Mem.zeroize, List.length_append, List.length_replicate, List.length_drop, hl]; omega
  · unfold Mem.read Mem.zeroize
    dsimp only
    rw [List.append_assoc, List.drop_left' hl, List.take_left' (by simp)]
  · unfold Mem.zeroize
    dsimp only
    rw [List.append_assoc, List.take_left' hl]
  · unfold Mem.zeroize
    dsimp only
    rw [List.drop_left' (by simp [hl])]

theorem makeZeroized_spec (m : Mem) (t : Ty) (w : Win) :
    (makeZeroized m t w).2 = m.zeroize w
    ∧ ∀ v, (makeZeroized m t w).1 = some v ↔ w.len = t.size ∧ Aligned m t w.off ∧ v = w :=
  ⟨rfl, fun _ => parse_some (m := m.zeroize w)⟩

/-- C102, wiped views: when a wiped view is given out, all its bytes are zero, and no byte of the buffer outside it has changed. -/
theorem zeroized_view (m : Mem) (t : Ty) (w v : Win) (hw : w.Inside m) {m' : Mem}
    (h : zkZeroized m t w = (some v, m') ∨ zkZeroizedFromPrefix m t w = (some v, m') ∨ zkZeroizedFromSuffix m t w = (some v, m')) :
    v.len = t.size ∧ Aligned m' t v.off ∧ m'.read v = List.replicate t.size 0 ∧ m'.addr = m.addr
    ∧ m'.bytes.length = m.bytes.length
    ∧ m'.bytes.take v.off = m.bytes.take v.off ∧ m'.bytes.drop (v.off + v.len) = m.bytes.drop (v.off + v.len) := by
  have main : ∀ u : Win, u.Inside m → makeZeroized m t u = (some v, m') →
      v.len = t.size ∧ Aligned m' t v.off ∧ m'.read v = List.replicate t.size 0 ∧ m'.addr = m.addr
      ∧ m'.bytes.length = m.bytes.length
      ∧ m'.bytes.take v.off = m.bytes.take v.off ∧ m'.bytes.drop (v.off + v.len) = m.bytes.drop (v.off + v.len) := by
    intro u hu he
    obtain ⟨hs, ha, rfl⟩ := ((makeZeroized_spec m t u).2 v).1 (by rw [he])
    have hm : m' = m.zeroize v := by rw [← (makeZeroized_spec m t v).1, he]
    subst hm
    obtain ⟨z1, z2, z3, z4, z5⟩ := zeroize_spec hu
    exact ⟨hs, ha, by rw [z3, hs], z1, z2, z4, z5⟩
  unfold Win.Inside at hw
  rcases h with h | h | h
  · exact main w hw h
  · unfold zkZeroizedFromPrefix at h
    rw [fromPrefix_eq] at h
    by_cases hs : t.size ≤ w.len
    · simp only [hs, if_true] at h
      exact main _ (by unfold Win.Inside; dsimp only; omega) h
    · simp [hs] at h
  · unfold zkZeroizedFromSuffix at h
    rw [fromSuffix_eq] at h
    by_cases hs : t.size ≤ w.len
    · simp only [hs, if_true] at h
      exact main _ (by unfold Win.Inside; dsimp only; omega) h
    · simp [hs] at h

/-- What an error leaves behind: a prefix or suffix that does not exist leaves the buffer alone, but one that only has the wrong alignment
has been wiped already, and so has the whole slice whenever `zk_zeroized` fails. -/
theorem zeroized_failure (m : Mem) (t : Ty) (w : Win) :
    ((zkZeroized m t w).1 = none → (zkZeroized m t w).2 = m.zeroize w)
    ∧ ((zkZeroizedFromPrefix m t w).1 = none →
        (zkZeroizedFromPrefix m t w).2 = if t.size ≤ w.len then m.zeroize ⟨w.off, t.size⟩ else m)
    ∧ ((zkZeroizedFromSuffix m t w).1 = none →
        (zkZeroizedFromSuffix m t w).2 = if t.size ≤ w.len then m.zeroize ⟨w.off + (w.len - t.size), t.size⟩ else m) := by
  refine ⟨fun _ => rfl, fun _ => ?_, fun _ => ?_⟩
  · unfold zkZeroizedFromPrefix
    rw [fromPrefix_eq]
    by_cases hs : t.size ≤ w.len <;> simp [hs, makeZeroized]
  · unfold zkZeroizedFromSuffix
    rw [fromSuffix_eq]
    by_cases hs : t.size ≤ w.len <;> simp [hs, makeZeroized]

/-- borrowing from a view never panics and gives the same view, in whatever way the view came about and whatever was written since -/
theorem emancipate_same (m m' : Mem) (t : Ty) (w v : Win) (ha : m'.addr = m.addr)
    (h : zkParse m t w = some v ∨ zkParsePrefix m t w = some v ∨ zkParseSuffix m t w = some v) : emancipate m' t v = some v := by
  obtain ⟨h1, h2, h3⟩ := views_exact m t w v
  have key : v.len = t.size ∧ Aligned m t v.off := by
    rcases h with h | h | h
    · obtain ⟨a, b, rfl⟩ := h1.1 h; exact ⟨a, b⟩
    · obtain ⟨-, b, rfl⟩ := h2.1 h; exact ⟨rfl, b⟩
    · obtain ⟨-, b, rfl⟩ := h3.1 h; exact ⟨rfl, b⟩
  unfold emancipate fromBytes
  unfold Aligned at key
  rw [ha, if_pos key]

/-- a buffer of six bytes at address 8 and a type of four bytes with alignment 4: the prefix is a view, the suffix is misaligned, the whole
is too long; asked for a wiped suffix, the call fails and the bytes are gone -/
def exMem : Mem := ⟨8, [1, 2, 3, 4, 5, 6]⟩

example : zkParsePrefix exMem ⟨4, 4⟩ exMem.all = some ⟨0, 4⟩ ∧ zkParseSuffix exMem ⟨4, 4⟩ exMem.all = none
    ∧ zkParseSuffix exMem ⟨4, 2⟩ exMem.all = some ⟨2, 4⟩ ∧ zkParse exMem ⟨4, 4⟩ exMem.all = none
    ∧ zkZeroizedFromPrefix exMem ⟨4, 4⟩ exMem.all = (some ⟨0, 4⟩, ⟨8, [0, 0, 0, 0, 5, 6]⟩)
    ∧ zkZeroizedFromSuffix exMem ⟨4, 4⟩ exMem.all = (none, ⟨8, [1, 2, 0, 0, 0, 0]⟩) := by decide +kernel

example : exMem.all.Inside exMem := by unfold Win.Inside; decide

end Verif.RefMaker
