import Verif.Model.ApiMsgs
/-
C38: API messages parse unambiguously.
-/
namespace Verif.Api

/-- Specification: the 16 bytes that identify a message (transcribed from the constants of message_type.rs). -/
def tag (d : Dir) (k : Kind) : Bytes := toLE 16 (raw d k)

/-- Specification: `m` is a message of kind `k`: the tag, then a payload of the right size. -/
def IsMsg (d : Dir) (k : Kind) (m : Bytes) : Prop := ∃ p : Bytes, m = tag d k ++ p ∧ p.length = payloadSize d k

theorem tag_length (d : Dir) (k : Kind) : (tag d k).length = 16 := toLE_length _ _

/-- C38: no two message types, requests or responses, share their tag. -/
theorem tags_distinct (d d' : Dir) (k k' : Kind) : tag d k = tag d' k' ↔ d = d' ∧ k = k' := by
  cases d <;> cases d' <;> cases k <;> cases k' <;> decide +kernel

theorem raw_lt (d : Dir) (k : Kind) : raw d k < 256 ^ 16 := by cases d <;> cases k <;> decide +kernel

theorem leNat_tag (d : Dir) (k : Kind) : leNat (tag d k) = raw d k := leNat_toLE _ _ (raw_lt d k)

theorem ofRaw_spec (d : Dir) (b : Bytes) (hb : b.length = 16) (k : Kind) : ofRaw d (leNat b) = some k ↔ b = tag d k := by
  have inj : ∀ k, leNat b = raw d k ↔ b = tag d k := by
    intro k
    constructor
    · intro h
      apply leNat_inj (by rw [hb, tag_length])
      rw [leNat_tag, h]
    · intro h
      rw [h, leNat_tag]
  unfold ofRaw
  simp only [inj]
  have td := fun k k' => tags_distinct d d k k'
  constructor
  · intro h
    split at h
    · cases h; assumption
    · split at h
      · cases h; assumption
      · split at h
        · cases h; assumption
        · split at h
          · cases h; assumption
          · cases h
  · intro h
    subst h
    cases k <;> simp [td]

/-- C38: the type found at the start of a buffer is the one whose tag is there. (A misaligned buffer is refused.) -/
theorem typeFromPrefix_spec (d : Dir) (addr : Nat) (buf : Bytes) (k : Kind) :
    typeFromPrefix d addr buf = some k ↔ addr % 16 = 0 ∧ tag d k <+: buf := by
  unfold typeFromPrefix parseType
  by_cases h : 16 ≤ buf.length
  · rw [if_pos h]
    have hl : (buf.take 16).length = 16 := by simp; omega
    by_cases ha : addr % 16 = 0
    · rw [if_pos ⟨hl, ha⟩, ofRaw_spec d _ hl]
      constructor
      · intro h
        exact ⟨ha, h ▸ List.take_prefix _ _⟩
      · rintro ⟨-, h⟩
        have := List.prefix_iff_eq_take.mp h
        rw [tag_length] at this
        exact this.symm
    · rw [if_neg (fun h => ha h.2)]
      exact ⟨fun h => (nomatch h), fun h => absurd h.1 ha⟩
  · rw [if_neg h]
    constructor
    · intro h; cases h
    · rintro ⟨-, h'⟩
      have := h'.length_le
      rw [tag_length] at this
      omega

/-- the message type at the end of a buffer (`request_msg_type_from_suffix`) -/
theorem typeFromSuffix_spec (d : Dir) (addr : Nat) (buf : Bytes) (k : Kind) :
    typeFromSuffix d addr buf = some k ↔ (addr + buf.length) % 16 = 0 ∧ tag d k <:+ buf := by
  unfold typeFromSuffix parseType
  by_cases h : 16 ≤ buf.length
  · rw [if_pos h]
    have hl : (buf.drop (buf.length - 16)).length = 16 := by simp; omega
    have hm : (addr + (buf.length - 16)) % 16 = 0 ↔ (addr + buf.length) % 16 = 0 := by omega
    by_cases ha : (addr + buf.length) % 16 = 0
    · rw [if_pos ⟨hl, hm.mpr ha⟩, ofRaw_spec d _ hl]
      constructor
      · intro h
        exact ⟨ha, h ▸ List.drop_suffix _ _⟩
      · rintro ⟨-, h⟩
        have := List.suffix_iff_eq_drop.mp h
        rw [tag_length] at this
        exact this.symm
    · rw [if_neg (fun h => ha (hm.mp h.2))]
      exact ⟨fun h => (nomatch h), fun h => absurd h.1 ha⟩
  · rw [if_neg h]
    constructor
    · intro h; cases h
    · rintro ⟨-, h'⟩
      have := h'.length_le
      rw [tag_length] at this
      omega

theorem isMsg_iff (d : Dir) (k : Kind) (m : Bytes) : IsMsg d k m ↔ tag d k <+: m ∧ m.length = size d k := by
  constructor
  · rintro ⟨p, rfl, hp⟩
    exact ⟨List.prefix_append _ _, by simp [size, tag_length, hp]⟩
  · rintro ⟨⟨p, rfl⟩, hl⟩
    refine ⟨p, rfl, ?_⟩
    simp only [size, List.length_append, tag_length] at hl
    omega

/-- a message is of one kind only -/
theorem IsMsg.kind {d d' : Dir} {k k' : Kind} {m : Bytes} (h : IsMsg d k m) (h' : IsMsg d' k' m) : d = d' ∧ k = k' := by
  rw [← tags_distinct]
  obtain ⟨p, rfl, -⟩ := h
  obtain ⟨p', h', -⟩ := h'
  exact (List.append_inj h' (by rw [tag_length, tag_length])).1

/-- C38: `parse` accepts exactly the messages, and returns all of the buffer. -/
theorem parse_exact (d : Dir) (addr : Nat) (ha : addr % 16 = 0) (buf : Bytes) (m : Msg) :
    parse d addr buf = some m ↔ m.bytes = buf ∧ IsMsg d m.kind buf := by
  obtain ⟨k, b⟩ := m
  unfold parse
  rw [isMsg_iff]
  constructor
  · intro h
    cases ht : typeFromPrefix d addr buf with
    | none => rw [ht] at h; cases h
    | some k' =>
      rw [ht] at h
      simp only [Maker.parse] at h
      split at h
      · cases h
        exact ⟨rfl, ((typeFromPrefix_spec ..).mp ht).2, by assumption⟩
      · cases h
  · rintro ⟨rfl, hp, hl⟩
    rw [(typeFromPrefix_spec ..).mpr ⟨ha, hp⟩]
    simp only [Maker.parse]
    rw [if_pos hl]

/-- C38: `parse_from_prefix` accepts exactly the buffers that start with a message, and returns that message. -/
theorem parse_prefix_exact (d : Dir) (addr : Nat) (ha : addr % 16 = 0) (buf : Bytes) (m : Msg) :
    parseFromPrefix d addr buf = some m ↔ IsMsg d m.kind m.bytes ∧ m.bytes <+: buf := by
  obtain ⟨k, b⟩ := m
  unfold parseFromPrefix
  rw [isMsg_iff]
  constructor
  · intro h
    cases ht : typeFromPrefix d addr buf with
    | none => rw [ht] at h; cases h
    | some k' =>
      rw [ht] at h
      dsimp only [Maker.parse] at h
      split at h
      · rename_i hs
        split at h
        · rename_i hl
          cases h
          refine ⟨⟨?_, hl⟩, List.take_prefix _ _⟩
          have hp := ((typeFromPrefix_spec ..).mp ht).2
          refine List.prefix_of_prefix_length_le hp (List.take_prefix _ _) ?_
          rw [hl, tag_length]
          simp [size]
        · cases h
      · cases h
  · rintro ⟨⟨hp, hl⟩, hpre⟩
    dsimp only at hp hl hpre
    rw [(typeFromPrefix_spec ..).mpr ⟨ha, hp.trans hpre⟩]
    dsimp only [Maker.parse]
    have hle := hpre.length_le
    rw [if_pos (by omega)]
    have : buf.take (size d k) = b := by rw [← hl]; exact (List.prefix_iff_eq_take.mp hpre).symm
    rw [this, if_pos hl]

/-- C38: what was serialised is parsed, whatever follows it. -/
theorem encode_parse (d : Dir) (k : Kind) (p rest : Bytes) (hp : p.length = payloadSize d k) (addr : Nat)
    (ha : addr % 16 = 0) :
    parse d addr (encode d k p) = some ⟨k, encode d k p⟩ ∧
    parseFromPrefix d addr (encode d k p ++ rest) = some ⟨k, encode d k p⟩ ∧ payload (encode d k p) = p := by
  have hm : IsMsg d k (encode d k p) := ⟨p, rfl, hp⟩
  refine ⟨(parse_exact d addr ha _ _).mpr ⟨rfl, hm⟩, (parse_prefix_exact d addr ha _ _).mpr ⟨hm, List.prefix_append _ _⟩, ?_⟩
  simp only [payload, encode]
  rw [List.drop_append_of_le_length (by simp [toLE_length]), List.drop_of_length_le (by simp [toLE_length])]
  rfl

/-- C38, the suffix variant, partial: `parse_from_suffix` returns the last bytes of the buffer, as a message of the type
whose tag is at the *start of the buffer*. Missing: the message returned need not carry that tag (see
`suffix_parse_wrong_type`); if the buffer is exactly one message, it is the message. -/
theorem parse_suffix_partial (d : Dir) (addr : Nat) (ha : addr % 16 = 0) (buf : Bytes) (m : Msg) :
    (parseFromSuffix d addr buf = some m ↔
      tag d m.kind <+: buf ∧ m.bytes <:+ buf ∧ m.bytes.length = size d m.kind) ∧
    (IsMsg d m.kind buf → (parseFromSuffix d addr buf = some m ↔ m.bytes = buf)) := by
  obtain ⟨k, b⟩ := m
  have key : parseFromSuffix d addr buf = some ⟨k, b⟩ ↔ tag d k <+: buf ∧ b <:+ buf ∧ b.length = size d k := by
    unfold parseFromSuffix
    constructor
    · intro h
      cases ht : typeFromPrefix d addr buf with
      | none => rw [ht] at h; cases h
      | some k' =>
        rw [ht] at h
        dsimp only [Maker.parse] at h
        split at h
        · split at h
          · rename_i hl
            cases h
            exact ⟨((typeFromPrefix_spec ..).mp ht).2, List.drop_suffix _ _, hl⟩
          · cases h
        · cases h
    · rintro ⟨hp, hs, hl⟩
      rw [(typeFromPrefix_spec ..).mpr ⟨ha, hp⟩]
      dsimp only [Maker.parse]
      have hle := hs.length_le
      rw [if_pos (by omega)]
      have : buf.drop (buf.length - size d k) = b := by rw [← hl]; exact (List.suffix_iff_eq_drop.mp hs).symm
      rw [this, if_pos hl]
  refine ⟨key, fun hm => ?_⟩
  rw [key]
  dsimp only at hm ⊢
  rw [isMsg_iff] at hm
  constructor
  · rintro ⟨-, hs, hl⟩
    exact hs.eq_of_length (by rw [hl, hm.2])
  · rintro rfl
    exact ⟨hm.1, List.suffix_refl _, hm.2⟩

/-- Finding: parsing from a suffix takes the type from the start of the buffer. A buffer whose last bytes are not
a message at all is accepted, and one that ends in a message is refused. -/
theorem suffix_parse_wrong_type :
    (∃ buf m, parseFromSuffix .request 0 buf = some m ∧ ¬ IsMsg .request m.kind m.bytes) ∧
    (∃ (buf : Bytes) (m : Msg), IsMsg .request m.kind m.bytes ∧ m.bytes <:+ buf ∧ parseFromSuffix .request 0 buf = none) := by
  constructor
  · refine ⟨tag .request .supplyKeypair ++ List.replicate 16 0, ⟨.supplyKeypair, List.replicate 16 0⟩, ?_, ?_⟩
    · rw [(parse_suffix_partial .request 0 rfl _ _).1]
      exact ⟨List.prefix_append _ _, List.suffix_append _ _, rfl⟩
    · rw [isMsg_iff]
      rintro ⟨h, -⟩
      have := h.eq_of_length (by rw [tag_length]; rfl)
      revert this
      decide +kernel
  · refine ⟨List.replicate 16 0 ++ tag .request .supplyKeypair, ⟨.supplyKeypair, tag .request .supplyKeypair⟩, ?_,
      List.suffix_append _ _, ?_⟩
    · exact ⟨[], by simp, rfl⟩
    · decide +kernel

/-- Finding: a correct message in a buffer that is not aligned to 16 bytes is refused. -/
theorem misaligned_refused (d : Dir) (addr : Nat) (ha : addr % 16 ≠ 0) (buf : Bytes) :
    parse d addr buf = none ∧ parseFromPrefix d addr buf = none ∧ parseFromSuffix d addr buf = none := by
  have : typeFromPrefix d addr buf = none := by
    cases h : typeFromPrefix d addr buf with
    | none => rfl
    | some k => exact absurd ((typeFromPrefix_spec ..).mp h).1 ha
  simp [parse, parseFromPrefix, parseFromSuffix, this]

/-- C38: setting up a response in a buffer gives a zeroed message of that type and leaves the rest of the buffer. Finding:
`setup_response_from_suffix` does the same at the *start* of the buffer. -/
theorem setup_spec (d : Dir) (k : Kind) (buf : Bytes) (h : size d k ≤ buf.length) :
    setupFromPrefix d k buf = some (encode d k (List.replicate (payloadSize d k) 0) ++ buf.drop (size d k)) ∧
    setupFromSuffix d k buf = setupFromPrefix d k buf := by
  refine ⟨?_, rfl⟩
  have hl : (buf.take (size d k)).length = size d k := by rw [List.length_take]; omega
  simp only [setupFromPrefix, if_pos h, setup, if_pos hl, hl, Option.map_some, init, encode, List.drop_replicate]
  simp [size]

/-- Not vacuous: a ping request. -/
example : parseFromPrefix .request 0 (encode .request .ping (List.replicate 256 7) ++ [1, 2, 3]) =
    some ⟨.ping, encode .request .ping (List.replicate 256 7)⟩ :=
  (encode_parse .request .ping _ _ (by rw [List.length_replicate]; rfl) 0 rfl).2.1

end Verif.Api
