import Verif.Model.FileIO
/-
C36, C37, C58, C61, C62, C63: key files, base64, I/O helpers, slice helpers.
-/
namespace Verif.FileIO

/-- Decidable equality of results, for the examples. -/
instance decEqExcept {ε α : Type} [DecidableEq ε] [DecidableEq α] : DecidableEq (Except ε α)
  | .ok a, .ok b => if h : a = b then isTrue (by rw [h]) else isFalse (by intro e; cases e; exact h rfl)
  | .error a, .error b => if h : a = b then isTrue (by rw [h]) else isFalse (by intro e; cases e; exact h rfl)
  | .ok _, .error _ => isFalse (by intro e; cases e)
  | .error _, .ok _ => isFalse (by intro e; cases e)
open LengthPrefix (IoKind)

/-- the schedule contains no error -/
def NoErr (os : List Out) : Prop := ∀ k, Out.err k ∉ os

theorem readExact_spec (os : List Out) : ∀ (want : Nat) (src : Bytes),
    (∀ b s1 os1, readExact want src os = some (.ok (b, s1, os1)) →
      b = src.take want ∧ s1 = src.drop want ∧ want ≤ src.length ∧ (∃ used, os = used ++ os1) ∧
      (NoErr os → os.length ≤ os1.length + want)) ∧
    (∀ e, readExact want src os = some (.error e) →
      (src.length < want ∧ e = .io .unexpectedEof) ∨ ∃ k, k ≠ .interrupted ∧ e = .io k ∧ Out.err k ∈ os) ∧
    (NoErr os → want ≤ os.length → readExact want src os ≠ none) := by
  induction os with
  | nil =>
    intro want src
    cases want with
    | zero => exact ⟨fun b s1 os1 h => by simp [readExact] at h; obtain ⟨rfl, rfl, rfl⟩ := h; simp, by simp [readExact], by simp [readExact]⟩
    | succ w => exact ⟨by simp [readExact], by simp [readExact], by simp⟩
  | cons o os ih =>
    intro want src
    cases want with
    | zero =>
      refine ⟨?_, by simp [readExact], by simp [readExact]⟩
      intro b s1 os1 h
      simp only [readExact, Option.some.injEq, Except.ok.injEq, Prod.mk.injEq] at h
      obtain ⟨rfl, rfl, rfl⟩ := h
      exact ⟨rfl, rfl, Nat.zero_le _, ⟨[], rfl⟩, fun _ => Nat.le_refl _⟩
    | succ w =>
      cases o with
      | err k =>
        by_cases hk : k = .interrupted
        · subst hk
          have he : readExact (w + 1) src (Out.err .interrupted :: os) = readExact (w + 1) src os := by
            rw [readExact]; simp [read1]
          rw [he]
          obtain ⟨a, b, c⟩ := ih (w + 1) src
          refine ⟨?_, ?_, ?_⟩
          · intro x y z h
            obtain ⟨p, q, r, ⟨u, hu⟩, t⟩ := a x y z h
            exact ⟨p, q, r, ⟨_ :: u, by rw [hu]; rfl⟩, fun hn => absurd (List.mem_cons_self ..) (hn .interrupted)⟩
          · intro e h
            rcases b e h with p | ⟨k, p, q, r⟩
            · exact Or.inl p
            · exact Or.inr ⟨k, p, q, List.mem_cons_of_mem _ r⟩
          · intro hn; exact absurd (List.mem_cons_self ..) (hn .interrupted)
        · have he : readExact (w + 1) src (Out.err k :: os) = some (.error (.io k)) := by
            rw [readExact]; cases k <;> first | exact absurd rfl hk | simp [read1]
          rw [he]
          refine ⟨by simp, ?_, by simp⟩
          intro e h
          simp only [Option.some.injEq, Except.error.injEq] at h
          exact Or.inr ⟨k, hk, h.symm, List.mem_cons_self ..⟩
      | ok n =>
        have he : readExact (w + 1) src (Out.ok n :: os) =
            if (src.take (min (n + 1) (w + 1))).length = 0 then some (.error (.io .unexpectedEof))
            else match readExact (w + 1 - (src.take (min (n + 1) (w + 1))).length) (src.drop (min (n + 1) (w + 1))) os with
              | some (.ok (bs, rest)) => some (.ok (src.take (min (n + 1) (w + 1)) ++ bs, rest))
              | x => x := by
          rw [readExact]; simp only [read1]; rfl
        rw [he]
        generalize hm : min (n + 1) (w + 1) = m
        have hm1 : 1 ≤ m := by omega
        have hm2 : m ≤ w + 1 := by omega
        by_cases hz : (src.take m).length = 0
        · rw [if_pos hz]
          refine ⟨by simp, ?_, by simp⟩
          intro e h
          simp only [Option.some.injEq, Except.error.injEq] at h
          left
          rw [List.length_take] at hz
          exact ⟨by omega, h.symm⟩
        · rw [if_neg hz]
          obtain ⟨a, b, c⟩ := ih (w + 1 - (src.take m).length) (src.drop m)
          have hl : (src.take m).length = min m src.length := List.length_take
          have hnoerr : NoErr (Out.ok n :: os) → NoErr os := fun h k hk => h k (List.mem_cons_of_mem _ hk)
          cases hr : readExact (w + 1 - (src.take m).length) (src.drop m) os with
          | none =>
            refine ⟨by simp, by simp, ?_⟩
            intro hn hw
            simp only [List.length_cons] at hw
            exact absurd hr (c (hnoerr hn) (by omega))
          | some r =>
            cases r with
            | error e =>
              refine ⟨by simp, ?_, by simp⟩
              intro e' h
              simp only [Option.some.injEq, Except.error.injEq] at h
              subst h
              rcases b e hr with ⟨p, q⟩ | ⟨k, p, q, r⟩
              · left
                rw [List.length_drop] at p
                exact ⟨by omega, q⟩
              · exact Or.inr ⟨k, p, q, List.mem_cons_of_mem _ r⟩
            | ok t =>
              obtain ⟨bs, s1, os1⟩ := t
              obtain ⟨p, q, r, ⟨u, hu⟩, v⟩ := a bs s1 os1 hr
              refine ⟨?_, by simp, by simp⟩
              intro x y z h
              simp only [Option.some.injEq, Except.ok.injEq, Prod.mk.injEq] at h
              obtain ⟨rfl, rfl, rfl⟩ := h
              have hle : m ≤ src.length := by
                rw [List.length_drop] at r; omega
              have hlm : (src.take m).length = m := by rw [hl]; omega
              rw [hlm] at p q r v
              rw [List.length_drop] at r
              refine ⟨?_, ?_, by omega, ⟨Out.ok n :: u, by rw [hu]; rfl⟩, ?_⟩
              · rw [p, ← List.take_add, show m + (w + 1 - m) = w + 1 by omega]
              · rw [q, List.drop_drop, show m + (w + 1 - m) = w + 1 by omega]
              · intro hn
                have := v (hnoerr hn)
                simp only [List.length_cons]; omega

theorem readLoop_spec (os : List Out) : ∀ (want : Nat) (src : Bytes),
    (∀ b s1 os1, readLoop want src os = some (.ok (b, s1, os1)) →
      b = src.take want ∧ s1 = src.drop want ∧ (∃ used, os = used ++ os1) ∧ os.length ≤ os1.length + want) ∧
    (∀ e, readLoop want src os = some (.error e) → ∃ k, e = .io k ∧ Out.err k ∈ os) ∧
    (want ≤ os.length → readLoop want src os ≠ none) := by
  induction os with
  | nil =>
    intro want src
    cases want with
    | zero => exact ⟨fun b s1 os1 h => by simp [readLoop] at h; obtain ⟨rfl, rfl, rfl⟩ := h; simp, by simp [readLoop], by simp [readLoop]⟩
    | succ w => exact ⟨by simp [readLoop], by simp [readLoop], by simp⟩
  | cons o os ih =>
    intro want src
    cases want with
    | zero =>
      refine ⟨?_, by simp [readLoop], by simp [readLoop]⟩
      intro b s1 os1 h
      simp only [readLoop, Option.some.injEq, Except.ok.injEq, Prod.mk.injEq] at h
      obtain ⟨rfl, rfl, rfl⟩ := h
      exact ⟨rfl, rfl, ⟨[], rfl⟩, Nat.le_refl _⟩
    | succ w =>
      cases o with
      | err k =>
        have he : readLoop (w + 1) src (Out.err k :: os) = some (.error (.io k)) := by
          rw [readLoop]; simp [read1]
        rw [he]
        refine ⟨by simp, ?_, by simp⟩
        intro e h
        simp only [Option.some.injEq, Except.error.injEq] at h
        exact ⟨k, h.symm, List.mem_cons_self ..⟩
      | ok n =>
        have he : readLoop (w + 1) src (Out.ok n :: os) =
            if (src.take (min (n + 1) (w + 1))).length = 0 then some (.ok ([], src.drop (min (n + 1) (w + 1)), os))
            else match readLoop (w + 1 - (src.take (min (n + 1) (w + 1))).length) (src.drop (min (n + 1) (w + 1))) os with
              | some (.ok (bs, rest)) => some (.ok (src.take (min (n + 1) (w + 1)) ++ bs, rest))
              | x => x := by
          rw [readLoop]; simp only [read1]; rfl
        rw [he]
        generalize hm : min (n + 1) (w + 1) = m
        have hm1 : 1 ≤ m := by omega
        have hm2 : m ≤ w + 1 := by omega
        by_cases hz : (src.take m).length = 0
        · rw [if_pos hz]
          have hs : src = [] := by
            rw [List.length_take] at hz
            have : src.length = 0 := by omega
            simpa using this
          refine ⟨?_, by simp, by simp⟩
          intro x y z h
          simp only [Option.some.injEq, Except.ok.injEq, Prod.mk.injEq] at h
          obtain ⟨rfl, rfl, rfl⟩ := h
          exact ⟨by simp [hs], by simp [hs], ⟨[_], rfl⟩, by simp⟩
        · rw [if_neg hz]
          obtain ⟨a, b, c⟩ := ih (w + 1 - (src.take m).length) (src.drop m)
          have hl : (src.take m).length = min m src.length := List.length_take
          cases hr : readLoop (w + 1 - (src.take m).length) (src.drop m) os with
          | none =>
            refine ⟨by simp, by simp, ?_⟩
            intro hw
            simp only [List.length_cons] at hw
            exact absurd hr (c (by omega))
          | some r =>
            cases r with
            | error e =>
              refine ⟨by simp, ?_, by simp⟩
              intro e' h
              simp only [Option.some.injEq, Except.error.injEq] at h
              subst h
              obtain ⟨k, p, q⟩ := b e hr
              exact ⟨k, p, List.mem_cons_of_mem _ q⟩
            | ok t =>
              obtain ⟨bs, s1, os1⟩ := t
              obtain ⟨p, q, ⟨u, hu⟩, v⟩ := a bs s1 os1 hr
              refine ⟨?_, by simp, by simp⟩
              intro x y z h
              simp only [Option.some.injEq, Except.ok.injEq, Prod.mk.injEq] at h
              obtain ⟨rfl, rfl, rfl⟩ := h
              refine ⟨?_, ?_, ⟨Out.ok n :: u, by rw [hu]; rfl⟩, ?_⟩
              · by_cases hle : m ≤ src.length
                · rw [p, hl, Nat.min_eq_left hle, ← List.take_add, show m + (w + 1 - m) = w + 1 by omega]
                · rw [p, List.drop_eq_nil_of_le (by omega), List.take_nil, List.append_nil,
                    List.take_of_length_le (by omega), List.take_of_length_le (by omega)]
              · by_cases hle : m ≤ src.length
                · rw [q, hl, Nat.min_eq_left hle, List.drop_drop, show m + (w + 1 - m) = w + 1 by omega]
                · rw [q, List.drop_eq_nil_of_le (as := src) (i := m) (by omega), List.drop_nil, List.drop_eq_nil_of_le (by omega)]
              · simp only [List.length_cons]; omega

theorem probeEnd_spec (src : Bytes) (os : List Out) :
    (probeEnd src os = some (.ok ()) → src = []) ∧
    (∀ e, probeEnd src os = some (.error e) → src ≠ [] ∧ e = .tooLong ∨ ∃ k, e = .io k ∧ Out.err k ∈ os) ∧
    (os ≠ [] → probeEnd src os ≠ none) := by
  cases os with
  | nil => simp [probeEnd]
  | cons o os =>
    cases o with
    | err k => simp [probeEnd, read1]
    | ok n =>
      simp only [probeEnd, read1]
      by_cases hs : src = []
      · simp [hs]
      · have : ¬ (src.take (min (n + 1) 8)).length = 0 := by
          rw [List.length_take]
          have : src.length ≠ 0 := by simpa using hs
          omega
        rw [if_neg this]
        simp [hs]

/-! ### C36 -/

/-- C36: loading an `n`-byte value, whatever sizes the individual reads have: success yields exactly
the content of the file, which then has exactly `n` bytes; failure means that the file has another
length or that the operating system reported an error; and without reported errors the outcome is
decided by the length alone. -/
theorem load_exact (fs : Fs) (path : String) (file : File) (hf : fs path = some file) (n : Nat) (os : List Out) :
    (∀ b, load fs path n os = some (.ok b) → b = file.content ∧ file.content.length = n) ∧
    (∀ e, load fs path n os = some (.error e) → file.content.length ≠ n ∨ ∃ k, Out.err k ∈ os) ∧
    (NoErr os → n + 1 ≤ os.length →
      (file.content.length = n → load fs path n os = some (.ok file.content)) ∧
      (file.content.length ≠ n → ∃ e, load fs path n os = some (.error e))) := by
  obtain ⟨a, b, c⟩ := readExact_spec os n file.content
  have h1 : ∀ b, load fs path n os = some (.ok b) → b = file.content ∧ file.content.length = n := by
    intro x h
    simp only [load, hf, readExactToEnd] at h
    split at h
    · cases h
    · cases h
    · rename_i b1 s1 os1 hr
      obtain ⟨p, q, r, _⟩ := a _ _ _ hr
      split at h
      · cases h
      · cases h
      · rename_i hp
        have hs := (probeEnd_spec s1 os1).1 hp
        cases h
        rw [q] at hs
        have hle := List.drop_eq_nil_iff.1 hs
        exact ⟨by rw [p, List.take_of_length_le hle], by omega⟩
  have h2 : ∀ e, load fs path n os = some (.error e) → file.content.length ≠ n ∨ ∃ k, Out.err k ∈ os := by
    intro e h
    simp only [load, hf, readExactToEnd] at h
    split at h
    · cases h
    · rename_i e' hr
      rcases b _ hr with ⟨p, _⟩ | ⟨k, _, _, p⟩
      · left; omega
      · exact Or.inr ⟨k, p⟩
    · rename_i b1 s1 os1 hr
      obtain ⟨p, q, r, ⟨u, hu⟩, _⟩ := a _ _ _ hr
      split at h
      · cases h
      · rename_i e' hp
        rcases (probeEnd_spec s1 os1).2.1 _ hp with ⟨hs, _⟩ | ⟨k, _, hk⟩
        · left
          intro hl
          exact hs (by rw [q]; exact List.drop_eq_nil_of_le (by omega))
        · exact Or.inr ⟨k, by rw [hu]; exact List.mem_append_right _ hk⟩
      · cases h
  have h3 : NoErr os → n + 1 ≤ os.length → load fs path n os ≠ none := by
    intro hn hl h
    simp only [load, hf, readExactToEnd] at h
    split at h
    · rename_i hr; exact c hn (by omega) hr
    · cases h
    · rename_i b1 s1 os1 hr
      obtain ⟨_, _, _, _, v⟩ := a _ _ _ hr
      have := v hn
      split at h
      · rename_i hp
        refine (probeEnd_spec s1 os1).2.2 ?_ hp
        intro h0; rw [h0] at this; simp at this; omega
      · cases h
      · cases h
  refine ⟨h1, h2, fun hn hl => ⟨fun hlen => ?_, fun hlen => ?_⟩⟩
  · cases hr : load fs path n os with
    | none => exact absurd hr (h3 hn hl)
    | some r =>
      cases r with
      | ok b => rw [(h1 b hr).1]
      | error e =>
        rcases h2 e hr with p | ⟨k, p⟩
        · exact absurd hlen p
        · exact absurd p (hn k)
  · cases hr : load fs path n os with
    | none => exact absurd hr (h3 hn hl)
    | some r =>
      cases r with
      | ok b => exact absurd (h1 b hr).2 hlen
      | error e => exact ⟨e, rfl⟩

/-- C36, buffered variant (`read_slice_to_end`, used for text files): any file that fits is read
completely, whatever the sizes of the reads. -/
theorem read_slice_exact (n : Nat) (src : Bytes) (os : List Out) :
    (∀ b, readSliceToEnd n src os = some (.ok b) → b = src ∧ src.length ≤ n) ∧
    (∀ e, readSliceToEnd n src os = some (.error e) → n < src.length ∨ ∃ k, Out.err k ∈ os) ∧
    (n + 1 ≤ os.length → readSliceToEnd n src os ≠ none) := by
  obtain ⟨a, b, c⟩ := readLoop_spec os n src
  refine ⟨?_, ?_, ?_⟩
  · intro x h
    simp only [readSliceToEnd] at h
    split at h
    · cases h
    · cases h
    · rename_i b1 s1 os1 hr
      obtain ⟨p, q, _⟩ := a _ _ _ hr
      split at h
      · cases h
      · cases h
      · rename_i hp
        have hs := (probeEnd_spec s1 os1).1 hp
        cases h
        rw [q] at hs
        have hle := List.drop_eq_nil_iff.1 hs
        exact ⟨by rw [p, List.take_of_length_le hle], hle⟩
  · intro e h
    simp only [readSliceToEnd] at h
    split at h
    · cases h
    · rename_i e' hr
      obtain ⟨k, _, p⟩ := b _ hr
      exact Or.inr ⟨k, p⟩
    · rename_i b1 s1 os1 hr
      obtain ⟨p, q, ⟨u, hu⟩, _⟩ := a _ _ _ hr
      split at h
      · cases h
      · rename_i e' hp
        rcases (probeEnd_spec s1 os1).2.1 _ hp with ⟨hs, _⟩ | ⟨k, _, hk⟩
        · left
          apply Nat.lt_of_not_le
          intro hl
          exact hs (by rw [q]; exact List.drop_eq_nil_of_le hl)
        · exact Or.inr ⟨k, by rw [hu]; exact List.mem_append_right _ hk⟩
      · cases h
  · intro hl h
    simp only [readSliceToEnd] at h
    split at h
    · rename_i hr; exact c (by omega) hr
    · cases h
    · rename_i b1 s1 os1 hr
      obtain ⟨_, _, _, v⟩ := a _ _ _ hr
      split at h
      · rename_i hp
        refine (probeEnd_spec s1 os1).2.2 ?_ hp
        intro h0; rw [h0] at v; simp at v; omega
      · cases h
      · cases h

/-! ### Base64 -/

theorem b64_char_val : ∀ v : Fin 64, b64Val (b64Char v) = some v.val ∧ b64Char v ≠ 61 := by decide +kernel

theorem b64Val_char (v : Nat) (h : v < 64) : b64Val (b64Char v) = some v := (b64_char_val ⟨v, h⟩).1
theorem b64Char_ne (v : Nat) (h : v < 64) : b64Char v ≠ 61 := (b64_char_val ⟨v, h⟩).2

theorem ofNat_toNat (a : UInt8) (n : Nat) (h : n = a.toNat) : UInt8.ofNat n = a := by rw [h]; simp

theorem b64Enc_length (x : Bytes) : (b64Enc x).length = 4 * ((x.length + 2) / 3) := by
  match x with
  | [] => rfl
  | [a] => simp [b64Enc]
  | [a, b] => simp [b64Enc]
  | a :: b :: c :: rest =>
    have := b64Enc_length rest
    simp only [b64Enc, List.length_cons, this]; omega

theorem b64DecBlocks_enc (x : Bytes) : b64DecBlocks (b64Enc x) = some x := by
  match x with
  | [] => rfl
  | [a] =>
    have ha := a.toNat_lt
    simp only [b64Enc]
    unfold b64DecBlocks
    rw [if_pos rfl, if_pos rfl, b64Val_char _ (by omega), b64Val_char _ (by omega)]
    simp only [Option.some.injEq, List.cons.injEq, and_true]
    exact ofNat_toNat _ _ (by omega)
  | [a, b] =>
    have ha := a.toNat_lt
    have hb := b.toNat_lt
    simp only [b64Enc]
    unfold b64DecBlocks
    rw [if_pos rfl, if_neg (b64Char_ne _ (by omega)), b64Val_char _ (by omega), b64Val_char _ (by omega), b64Val_char _ (by omega)]
    simp only [Option.some.injEq, List.cons.injEq, and_true]
    exact ⟨ofNat_toNat _ _ (by omega), ofNat_toNat _ _ (by omega)⟩
  | [a, b, c] =>
    have ha := a.toNat_lt
    have hb := b.toNat_lt
    have hc := c.toNat_lt
    simp only [b64Enc]
    unfold b64DecBlocks
    rw [if_neg (b64Char_ne _ (by omega)), b64Val_char _ (by omega), b64Val_char _ (by omega), b64Val_char _ (by omega), b64Val_char _ (by omega)]
    simp only [Option.some.injEq, List.cons.injEq, and_true]
    exact ⟨ofNat_toNat _ _ (by omega), ofNat_toNat _ _ (by omega), ofNat_toNat _ _ (by omega)⟩
  | a :: b :: c :: d :: rest =>
    have ha := a.toNat_lt
    have hb := b.toNat_lt
    have hc := c.toNat_lt
    have ih := b64DecBlocks_enc (d :: rest)
    have hne : b64Enc (d :: rest) ≠ [] := by
      intro h
      have := congrArg List.length h
      rw [b64Enc_length] at this
      simp at this
      omega
    rw [b64Enc]
    generalize b64Enc (d :: rest) = t at *
    cases t with
    | nil => exact absurd rfl hne
    | cons t0 t =>
      rw [b64DecBlocks, ih, b64Val_char _ (by omega), b64Val_char _ (by omega), b64Val_char _ (by omega), b64Val_char _ (by omega)]
      · simp only [Option.some.injEq, List.cons.injEq, and_true]
        exact ⟨ofNat_toNat _ _ (by omega), ofNat_toNat _ _ (by omega), ofNat_toNat _ _ (by omega)⟩
      · simp

/-- The codec: decoding inverts encoding on every non-empty string. -/
theorem b64_round_trip (x : Bytes) (hx : x ≠ []) : b64Dec (b64Enc x) = some x := by
  unfold b64Dec
  rw [b64DecBlocks_enc]
  dsimp only
  rw [if_pos]
  refine ⟨?_, rfl⟩
  intro h
  have := congrArg List.length h
  rw [b64Enc_length] at this
  simp at this
  have : x.length ≠ 0 := by simpa using hx
  omega

/-- … and accepts only canonical encodings. -/
theorem b64Dec_some {s d : Bytes} (h : b64Dec s = some d) : s = b64Enc d := by
  unfold b64Dec at h
  split at h
  · cases h
  · split at h
    · rename_i hh; cases h; exact hh.2.symm
    · cases h

/-! ### Writing -/

theorem writeAll_spec (os : List Out) : ∀ (data : Bytes),
    (writeAll data os).2 <+: data ∧
    ((writeAll data os).1 = some (.ok ()) → (writeAll data os).2 = data) ∧
    (∀ e, (writeAll data os).1 = some (.error e) → ∃ k, e = .io k ∧ k ≠ .interrupted ∧ Out.err k ∈ os) ∧
    (NoErr os → data.length ≤ os.length → (writeAll data os).1 = some (.ok ())) := by
  induction os with
  | nil =>
    intro data
    cases data with
    | nil => simp [writeAll]
    | cons b bs => simp [writeAll]
  | cons o os ih =>
    intro data
    cases data with
    | nil => simp [writeAll]
    | cons b bs =>
      cases o with
      | err k =>
        by_cases hk : k = .interrupted
        · subst hk
          have he : writeAll (b :: bs) (Out.err .interrupted :: os) = writeAll (b :: bs) os := by
            rw [writeAll]
          rw [he]
          obtain ⟨p, q, r, t⟩ := ih (b :: bs)
          refine ⟨p, q, ?_, fun hn => absurd (List.mem_cons_self ..) (hn .interrupted)⟩
          intro e h
          obtain ⟨k, h1, h2, h3⟩ := r e h
          exact ⟨k, h1, h2, List.mem_cons_of_mem _ h3⟩
        · have he : writeAll (b :: bs) (Out.err k :: os) = (some (.error (.io k)), []) := by
            cases k <;> first | exact absurd rfl hk | simp [writeAll]
          rw [he]
          refine ⟨List.nil_prefix, by simp, ?_, fun hn => absurd (List.mem_cons_self ..) (hn k)⟩
          intro e h
          simp only [Option.some.injEq, Except.error.injEq] at h
          exact ⟨k, h.symm, hk, List.mem_cons_self ..⟩
      | ok n =>
        have he : writeAll (b :: bs) (Out.ok n :: os) =
            ((writeAll ((b :: bs).drop (n + 1)) os).1, (b :: bs).take (n + 1) ++ (writeAll ((b :: bs).drop (n + 1)) os).2) := by
          rw [writeAll]
        rw [he]
        obtain ⟨⟨u, p⟩, q, r, t⟩ := ih ((b :: bs).drop (n + 1))
        refine ⟨⟨u, ?_⟩, ?_, ?_, ?_⟩
        · dsimp only; rw [List.append_assoc, p, List.take_append_drop]
        · intro h; dsimp only at h ⊢; rw [q h, List.take_append_drop]
        · intro e h
          obtain ⟨k, h1, h2, h3⟩ := r e h
          exact ⟨k, h1, h2, List.mem_cons_of_mem _ h3⟩
        · intro hn hl
          apply t (fun k hk => hn k (List.mem_cons_of_mem _ hk))
          simp only [List.length_cons, List.length_drop] at *; omega

theorem fopenW_some (fs : Fs) (umask : Nat) (path : String) (v : Visibility) :
    ∃ m, fopenW fs umask path v path = some ⟨[], m⟩ ∧ (∀ p, p ≠ path → fopenW fs umask path v p = fs p) ∧
      m = (match fs path with | none => v.mode &&& (0o777 ^^^ (umask &&& 0o777)) | some f => f.mode) := by
  unfold fopenW
  cases h : fs path with
  | none => exact ⟨_, by simp [Fs.put], fun p hp => by simp [Fs.put, hp], rfl⟩
  | some f => exact ⟨f.mode, by simp [Fs.put], fun p hp => by simp [Fs.put, hp], rfl⟩

/-- `fopen_w` + `write_all`: the outcome, the file and the other files. -/
theorem writeFile_spec (fs : Fs) (umask : Nat) (path : String) (v : Visibility) (data : Bytes) (os : List Out) :
    ∃ m w, (writeFile fs umask path v data os).2 path = some ⟨w, m⟩ ∧ w = (writeAll data os).2 ∧
      (writeFile fs umask path v data os).1 = (writeAll data os).1 ∧
      (∀ p, p ≠ path → (writeFile fs umask path v data os).2 p = fs p) ∧
      m = (match fs path with | none => v.mode &&& (0o777 ^^^ (umask &&& 0o777)) | some f => f.mode) := by
  obtain ⟨m, h1, h2, h3⟩ := fopenW_some fs umask path v
  unfold writeFile
  dsimp only
  rw [h1]
  exact ⟨m, _, by simp [Fs.put], rfl, rfl, fun p hp => by simp [Fs.put, hp, h2 p hp], h3⟩

/-- C37: storing a key as base64 and loading it again yields the same key, whatever the buffer
contents, sizes of writes and reads, and prior content of the file, provided the scratch buffer of both
calls holds the encoding (and the reads report no error). -/
theorem b64_file_round_trip (fs : Fs) (umask : Nat) (path : String) (v : Visibility) (key init : Bytes) (f f' : Nat)
    (hk : key ≠ []) (hi : init.length = key.length) (hf : 4 * ((key.length + 2) / 3) ≤ f')
    (ws rs : List Out) (hw : (storeB64 fs umask path v f key ws).1 = some (.ok ())) :
    (∀ r, loadB64 (storeB64 fs umask path v f key ws).2 path f' init rs = some r → NoErr rs → r = .ok key) ∧
    (∀ k, loadB64 (storeB64 fs umask path v f key ws).2 path f' init rs = some (.ok k) → k = key) ∧
    (f' + 1 ≤ rs.length → loadB64 (storeB64 fs umask path v f key ws).2 path f' init rs ≠ none) := by
  unfold storeB64 at hw ⊢
  have he : b64Encode key f = .ok (b64Enc key) := by
    unfold b64Encode at hw ⊢
    split at hw
    · rename_i hh; split at hh
      · cases hh
      · cases hw
    · rename_i s hh
      split
      · rfl
      · rename_i hn; rw [if_neg hn] at hh; cases hh
  rw [he] at hw ⊢
  dsimp only at hw ⊢
  obtain ⟨m, w, h1, h2, h3, _, _⟩ := writeFile_spec fs umask path v (b64Enc key) ws
  rw [h3] at hw
  have hwf := (writeAll_spec ws (b64Enc key)).2.1 hw
  rw [hwf] at h2
  subst h2
  unfold loadB64
  rw [h1]
  dsimp only
  obtain ⟨a, b, c⟩ := read_slice_exact f' (b64Enc key) rs
  have hdec : b64Decode (b64Enc key) init = .ok key := by
    unfold b64Decode
    rw [b64_round_trip key hk]
    dsimp only
    rw [if_pos (by omega), List.drop_eq_nil_of_le (by omega), List.append_nil]
  cases hr : readSliceToEnd f' (b64Enc key) rs with
  | none => exact ⟨by simp, by simp, fun hl => absurd hr (c hl)⟩
  | some r =>
    cases r with
    | error e =>
      refine ⟨?_, by simp, by simp⟩
      intro r _ hn
      rcases b e hr with p | ⟨k, p⟩
      · rw [b64Enc_length] at p; omega
      · exact absurd p (hn k)
    | ok s =>
      dsimp only
      rw [(a s hr).1, hdec]
      refine ⟨?_, ?_, by simp⟩
      · intro r h _; cases h; rfl
      · intro k h; cases h; rfl

/-- C37: what is too large for the scratch buffer is an error and leaves the file system alone. -/
theorem b64_store_too_small (fs : Fs) (umask : Nat) (path : String) (v : Visibility) (key : Bytes) (f : Nat)
    (h : f < 4 * ((key.length + 2) / 3)) (ws : List Out) :
    storeB64 fs umask path v f key ws = (some (.error .b64), fs) := by
  unfold storeB64 b64Encode
  rw [if_neg (by rw [b64Enc_length]; omega)]

/-- C37: a 32-byte key with the scratch buffer size used by the daemon (53 bytes). -/
example : (storeB64 (fun _ => none) 0o022 "k" .secret 53 (List.replicate 32 7) [.ok 10, .err .interrupted, .ok 99]).1 = some (.ok ()) ∧
    loadB64 (storeB64 (fun _ => none) 0o022 "k" .secret 53 (List.replicate 32 7) [.ok 10, .err .interrupted, .ok 99]).2 "k" 53
      (List.replicate 32 1) [.ok 3, .ok 99, .ok 0, .ok 0] = some (.ok (List.replicate 32 7)) := by
  decide +kernel

/-! ### C63: what `load_b64` accepts -/

/-- C63, proved part: a file accepted by `load_b64` is the canonical base64 encoding of a non-empty
prefix of the loaded value, never of something longer; the value is exactly the decoded file when the
lengths agree.

Missing: the converse inequality - see `short_b64_accepted`. -/
theorem b64_load_accepts_partial (fs : Fs) (path : String) (file : File) (hf : fs path = some file) (f : Nat)
    (init key : Bytes) (os : List Out) (h : loadB64 fs path f init os = some (.ok key)) :
    ∃ d, file.content = b64Enc d ∧ d.length ≤ init.length ∧ key = d ++ init.drop d.length ∧
      (d.length = init.length → key = d) := by
  unfold loadB64 at h
  rw [hf] at h
  dsimp only at h
  split at h
  · cases h
  · cases h
  · rename_i s hr
    have hs := (read_slice_exact f file.content os).1 s hr
    simp only [Option.some.injEq] at h
    unfold b64Decode at h
    split at h
    · cases h
    · rename_i d hd
      split at h
      · rename_i hl
        cases h
        refine ⟨d, ?_, hl, rfl, ?_⟩
        · rw [← hs.1]; exact b64Dec_some hd
        · intro hh; rw [List.drop_eq_nil_of_le (by omega), List.append_nil]
      · cases h

/-- C63 is false of the code: a file that encodes fewer bytes than the key has is accepted, and the
missing bytes of the key are whatever the buffer contained (random for secrets, zero for public
values). In particular this happens to a 32-byte key file of which only the first 40 of 44 characters
reached the disk. -/
theorem short_b64_accepted : ∃ (key init : Bytes) (ws : List Out), key.length = 32 ∧ init.length = 32 ∧
    (storeB64 (fun _ => none) 0 "wgsk" .secret 53 key ws).1 = none ∧
    loadB64 (storeB64 (fun _ => none) 0 "wgsk" .secret 53 key ws).2 "wgsk" 53 init (List.replicate 60 (.ok 60)) =
      some (.ok (key.take 30 ++ init.drop 30)) ∧ key.take 30 ++ init.drop 30 ≠ key := by
  refine ⟨List.replicate 32 7, List.replicate 32 1, [.ok 39], by decide +kernel⟩

/-! ### C58 -/

theorem and_rc (a b c : Nat) : a &&& b &&& c = a &&& c &&& b := by
  rw [Nat.and_assoc, Nat.and_comm b, ← Nat.and_assoc]

/-- C58, proved part: a secret file that did not exist before is never accessible to group or others,
at any moment of the write (any schedule, including one cut off), under any umask.

Missing: files that already exist keep their old permissions, see `existing_secret_file_keeps_mode`. -/
theorem secret_file_private_partial (fs : Fs) (umask : Nat) (path : String) (key : Bytes) (os : List Out)
    (hnew : fs path = none) :
    ∃ f, (storeSecret fs umask path key os).2 path = some f ∧ f.mode &&& 0o077 = 0 ∧ f.mode &&& 0o600 = f.mode := by
  obtain ⟨m, w, h1, _, _, _, h4⟩ := writeFile_spec fs umask path .secret key os
  rw [hnew] at h4
  refine ⟨⟨w, m⟩, h1, ?_, ?_⟩
  · dsimp only at h4 ⊢
    rw [h4]
    show ((0o600 &&& _) &&& 0o077) = 0
    rw [and_rc, show (0o600 &&& 0o077 : Nat) = 0 by decide, Nat.zero_and]
  · dsimp only at h4 ⊢
    rw [h4]
    show ((0o600 &&& _) &&& 0o600) = (0o600 &&& _)
    rw [and_rc, Nat.and_self]

/-- C58, the exact permissions: when a store succeeds on a path that did not exist, the file holds the key; a secret is readable
and writable by its owner, a public key by its owner and readable by everyone, both less the bits of the umask; no other file
changes. -/
theorem new_file_permissions (fs : Fs) (umask : Nat) (path : String) (key : Bytes) (os : List Out) (hnew : fs path = none) :
    ((storeSecret fs umask path key os).1 = some (.ok ()) →
      (storeSecret fs umask path key os).2 path = some ⟨key, 0o600 &&& (0o777 ^^^ (umask &&& 0o777))⟩) ∧
    ((storePublic fs umask path key os).1 = some (.ok ()) →
      (storePublic fs umask path key os).2 path = some ⟨key, 0o644 &&& (0o777 ^^^ (umask &&& 0o777))⟩) ∧
    (∀ p, p ≠ path → (storeSecret fs umask path key os).2 p = fs p ∧ (storePublic fs umask path key os).2 p = fs p) := by
  have key_ : ∀ v : Visibility, (writeFile fs umask path v key os).1 = some (.ok ()) →
      (writeFile fs umask path v key os).2 path = some ⟨key, v.mode &&& (0o777 ^^^ (umask &&& 0o777))⟩ := by
    intro v hw
    obtain ⟨m, w, h1, h2, h3, _, h4⟩ := writeFile_spec fs umask path v key os
    rw [hnew] at h4
    rw [(writeAll_spec os key).2.1 (by rw [← h3]; exact hw)] at h2
    rw [h1, h2, h4]
  refine ⟨key_ .secret, key_ .pub, fun p hp => ?_⟩
  obtain ⟨_, _, _, _, _, h5, _⟩ := writeFile_spec fs umask path .secret key os
  obtain ⟨_, _, _, _, _, h6, _⟩ := writeFile_spec fs umask path .pub key os
  exact ⟨h5 p hp, h6 p hp⟩

example : (storePublic (fun _ => none) 0o027 "pk" [5, 6] [.ok 1, .ok 9]).1 = some (.ok ()) ∧
    (storePublic (fun _ => none) 0o027 "pk" [5, 6] [.ok 1, .ok 9]).2 "pk" = some ⟨[5, 6], 0o640⟩ := ⟨rfl, rfl⟩

/-- C58 is false of the code for files that exist: whatever their mode was, it stays, and the secret is
written into the (possibly world readable) file. -/
theorem existing_secret_file_keeps_mode (fs : Fs) (umask : Nat) (path : String) (key : Bytes) (os : List Out)
    (old : File) (h : fs path = some old) (hw : (storeSecret fs umask path key os).1 = some (.ok ())) :
    (storeSecret fs umask path key os).2 path = some ⟨key, old.mode⟩ := by
  obtain ⟨m, w, h1, h2, h3, _, h4⟩ := writeFile_spec fs umask path .secret key os
  rw [h] at h4
  have h5 : (writeAll key os).1 = some (.ok ()) := by rw [← h3]; exact hw
  rw [(writeAll_spec os key).2.1 h5] at h2
  show (writeFile fs umask path .secret key os).2 path = _
  rw [h1, h2, h4]

example : (storeSecret (Fs.put (fun _ => none) "sk" ⟨[1], 0o644⟩) 0 "sk" [5, 6] [.ok 9]).2 "sk" = some ⟨[5, 6], 0o644⟩ := rfl

/-! ### C61 -/

/-- the outcome is an interruption -/
def Call.isInterrupted {α ε : Type} : Call α ε → Bool
  | .err _ (some .interrupted) => true
  | _ => false

/-- C61: the helper's result is that of the first call that was not interrupted: its value, `None` if
that call would block, its error otherwise; while there is none, it keeps retrying. -/
theorem nonblocking_classification {α ε : Type} (cs : List (Call α ε)) :
    nonblockingHandle cs = (cs.find? (fun c => !c.isInterrupted)).map (fun c => match c with
      | .ok v => .ok (some v)
      | .err e k => if k = some .wouldBlock then .ok none else .error e) := by
  induction cs with
  | nil => rfl
  | cons c cs ih =>
    cases c with
    | ok v => rfl
    | err e k =>
      rcases k with _ | (_ | _ | _ | _)
      · rfl
      · simpa [nonblockingHandle, Call.isInterrupted] using ih
      · rfl
      · rfl
      · rfl

/-- C61, the variant for blocking descriptors: `WouldBlock` is an error like any other. -/
theorem interrupted_classification {α ε : Type} (cs : List (Call α ε)) :
    handleInterrupted cs = (cs.find? (fun c => !c.isInterrupted)).map (fun c => match c with
      | .ok v => .ok (some v)
      | .err e _ => .error e) := by
  induction cs with
  | nil => rfl
  | cons c cs ih =>
    cases c with
    | ok v => rfl
    | err e k =>
      rcases k with _ | (_ | _ | _ | _)
      · rfl
      · simpa [handleInterrupted, Call.isInterrupted] using ih
      · rfl
      · rfl
      · rfl

/-- C61: `substitute_for_ioerr_kind` replaces errors of exactly that kind. -/
theorem substitute_exact {α ε : Type} (c : Call α ε) (k : IoKind) (v : α) :
    (∀ e, c = .err e (some k) → substituteKind c k v = .ok v) ∧
    ((∀ e, c ≠ .err e (some k)) → substituteKind c k v = c) := by
  constructor
  · rintro e rfl; simp [substituteKind]
  · intro h
    cases c with
    | ok a => rfl
    | err e o =>
      cases o with
      | none => rfl
      | some k' =>
        simp only [substituteKind]
        rw [if_neg]
        intro hh; subst hh; exact h e rfl

example : nonblockingHandle [Call.err 1 (some .interrupted), .err 2 (some .interrupted), (.ok 7 : Call Nat Nat)] = some (.ok (some 7)) := rfl
example : nonblockingHandle [Call.err 1 (some .interrupted), (.err 2 (some .wouldBlock) : Call Nat Nat)] = some (.ok none) := rfl

/-! ### C62 -/

/-- C62: `copy_slice`/`cpy` copy everything and refuse (panic) on any length mismatch; the `least_src`
variants overwrite exactly the first `src.len()` elements; the `least` variants exactly the common
prefix, never panicking; the `try_` variants report a mismatch and then leave the destination alone. -/
theorem slice_copies {α : Type} (src dst : List α) :
    (copySlice src dst = if src.length = dst.length then some src else none) ∧
    (copyLeastSrc src dst = if src.length ≤ dst.length then some (src ++ dst.drop src.length) else none) ∧
    (copyLeast src dst = some (src.take dst.length ++ dst.drop src.length)) ∧
    (tryCopySlice src dst = some (if src.length = dst.length then (some (), src) else (none, dst))) ∧
    (tryCopyLeastSrc src dst =
      some (if src.length ≤ dst.length then (some (), src ++ dst.drop src.length) else (none, dst))) := by
  have h2 : copyLeastSrc src dst = if src.length ≤ dst.length then some (src ++ dst.drop src.length) else none := by
    unfold copyLeastSrc copySlice
    by_cases h : src.length ≤ dst.length
    · rw [if_pos h, if_pos h, if_pos (by rw [List.length_take]; omega)]; rfl
    · rw [if_neg h, if_neg h]
  refine ⟨rfl, h2, ?_, ?_, ?_⟩
  · unfold copyLeast copySlice
    dsimp only
    rw [if_pos (by rw [List.length_take, List.length_take]; omega)]
    simp only [Option.map_some, Option.some.injEq]
    rcases Nat.le_total src.length dst.length with h | h
    · rw [Nat.min_eq_left h, List.take_of_length_le (Nat.le_refl _), List.take_of_length_le h]
    · rw [Nat.min_eq_right h, List.drop_eq_nil_of_le (Nat.le_refl _), List.drop_eq_nil_of_le h]
  · unfold tryCopySlice copySlice
    by_cases h : src.length = dst.length
    · rw [if_pos h, if_pos h, if_pos h]; rfl
    · rw [if_neg h, if_neg h]
  · unfold tryCopyLeastSrc
    rw [h2]
    by_cases h : src.length ≤ dst.length
    · rw [if_pos h, if_pos h, if_pos h]; rfl
    · rw [if_neg h, if_neg h]

/-- C62: every variant keeps the length of the destination. -/
theorem slice_copies_length {α : Type} (src dst r : List α) :
    (copySlice src dst = some r → r.length = dst.length) ∧ (copyLeastSrc src dst = some r → r.length = dst.length) ∧
    (copyLeast src dst = some r → r.length = dst.length) := by
  obtain ⟨h1, h2, h3, _⟩ := slice_copies src dst
  refine ⟨?_, ?_, ?_⟩
  · intro h
    rw [h1] at h
    split at h
    · cases h; assumption
    · cases h
  · intro h
    rw [h2] at h
    split at h
    · cases h; rw [List.length_append, List.length_drop]; omega
    · cases h
  · intro h
    rw [h3] at h
    cases h
    rw [List.length_append, List.length_drop, List.length_take]; omega

/-- C62: `cat!` is concatenation, and panics exactly when the sizes do not add up. -/
theorem cat_spec (len : Nat) (parts : List Bytes) :
    cat len parts = if parts.flatten.length = len then some parts.flatten else none := by
  have key : ∀ (parts : List Bytes) (pre post : Bytes),
      cat.go (pre ++ post) pre.length parts =
        if parts.flatten.length = post.length then some (pre ++ parts.flatten) else none := by
    intro parts
    induction parts with
    | nil =>
      intro pre post
      simp only [cat.go, List.flatten_nil, List.length_nil, List.append_nil, List.length_append]
      by_cases h : post.length = 0
      · have : post = [] := by simpa using h
        simp [this]
      · rw [if_neg (by omega), if_neg (by omega)]
    | cons p ps ih =>
      intro pre post
      simp only [cat.go, List.flatten_cons, List.length_append]
      by_cases h : p.length ≤ post.length
      · rw [if_pos (by omega)]
        have h1 : (pre ++ post).take pre.length ++ p ++ (pre ++ post).drop (pre.length + p.length) =
            (pre ++ p) ++ post.drop p.length := by
          rw [List.take_left, List.drop_append]
          rw [List.drop_eq_nil_of_le (by omega)]
          simp
        rw [h1, show pre.length + p.length = (pre ++ p).length by simp, ih, List.length_drop]
        by_cases h2 : ps.flatten.length = post.length - p.length
        · rw [if_pos h2, if_pos (by omega), List.append_assoc]
        · rw [if_neg h2, if_neg (by omega)]
      · rw [if_neg (by omega), if_neg (by omega)]
  have := key parts [] (List.replicate len 0)
  simpa [cat] using this

example : cat 4 [[1], [2, 3], [4]] = some [1, 2, 3, 4] ∧ cat 5 [[1], [2, 3], [4]] = none ∧ cat 3 [[1], [2, 3], [4]] = none := by
  decide

end Verif.FileIO
