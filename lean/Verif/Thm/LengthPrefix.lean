import Verif.Model.LengthPrefix
/-
C33-C35: length-prefix framing over arbitrary schedules of partial I/O.
-/
namespace Verif.LengthPrefix

/-- Specification: the wire form of a message is its length as 8 little-endian bytes, then the
message. -/
def frame (m : Bytes) : Bytes := toLE 8 m.length ++ m

/-- Specification: the wire form of a sequence of messages. -/
def frames (ms : List Bytes) : Bytes := (ms.map frame).flatten

/-- Specification: how many answers of a schedule transfer at least one byte. -/
def transfers : List IoOut → Nat
  | [] => 0
  | .ok (_ + 1) :: os => transfers os + 1
  | _ :: os => transfers os

theorem transfers_le_one (o : IoOut) (os : List IoOut) : transfers (o :: os) ≤ transfers os + 1 := by
  rcases o with (_ | _) | _ <;> simp [transfers]

theorem frame_length (m : Bytes) : (frame m).length = 8 + m.length := by
  simp [frame, toLE_length]

/-! ### Encoder -/
namespace Enc

/-- What every encoder built by a constructor satisfies. -/
structure Ok (e : Enc) : Prop where
  header : e.header.length = 8
  len : leNat e.header ≤ e.buf.length
  pos : e.pos ≤ 8 + leNat e.header

/-- The message an encoder is sending. -/
def sending (e : Enc) : Bytes := e.buf.take (leNat e.header)

/-- The bytes an encoder puts on the wire in total. -/
def wire (e : Enc) : Bytes := e.header ++ e.sending

theorem wire_length {e : Enc} (h : e.Ok) : e.wire.length = 8 + leNat e.header := by
  simp only [wire, sending, List.length_append, List.length_take, h.header]
  have := h.len; omega

theorem nextSlice_eq {e : Enc} (h : e.Ok) : ∃ s, e.nextSlice = some s ∧ s <+: e.wire.drop e.pos ∧
    (s = [] ↔ e.pos = 8 + leNat e.header) := by
  have h1 := h.header; have h2 := h.len; have h3 := h.pos
  unfold nextSlice headerLeft headerOffset messageLeft message messageOffset messageLen headerSize
  by_cases hp : e.pos < 8
  · have : e.header.drop (min e.pos 8) ≠ [] := by
      intro hh; have := congrArg List.length hh; simp at this; omega
    rw [if_pos this]
    have hm : min e.pos 8 = e.pos := by omega
    refine ⟨_, rfl, ?_, ?_⟩
    · rw [hm, wire, List.drop_append_of_le_length (by omega)]
      exact List.prefix_append _ _
    · constructor
      · intro hh; exact absurd hh this
      · intro hh; omega
  · have : e.header.drop (min e.pos 8) = [] := by
      apply List.drop_eq_nil_of_le; omega
    rw [if_neg (by simp [this]), if_pos h2]
    have hl : (e.buf.take (leNat e.header)).length = leNat e.header := by simp; omega
    simp only [hl]
    rw [if_pos (by omega)]
    refine ⟨_, rfl, ?_, ?_⟩
    · have : e.wire.drop e.pos = (e.buf.take (leNat e.header)).drop (e.pos - 8) := by
        rw [wire, List.drop_append, List.drop_eq_nil_of_le (by omega), h1]; rfl
      rw [this]; exact List.prefix_refl _
    · constructor
      · intro hh; have := congrArg List.length hh; rw [List.length_drop, hl] at this; simp at this; omega
      · intro hh; apply List.drop_eq_nil_of_le; omega

/-- One write: no panic; exactly the next bytes of the frame go out; `done` is reported exactly when
the whole frame is out; an I/O error leaves the encoder unchanged. -/
theorem write_spec {e : Enc} (h : e.Ok) (o : IoOut) :
    ∃ r e' w, e.write o = (r, e', w) ∧ e'.Ok ∧ e'.buf = e.buf ∧ e'.header = e.header ∧
      e'.pos = e.pos + w.length ∧ w <+: e.wire.drop e.pos ∧
      ((∃ n d, r = .ok (n, d) ∧ n = w.length ∧ (d = true ↔ e'.pos = e.wire.length) ∧
          (e.pos < e.wire.length → ∀ k, o = .ok (k + 1) → w ≠ [])) ∨
       (∃ k, o = .err k ∧ r = .error (.io k) ∧ e' = e)) := by
  obtain ⟨s, hs, hpre, hnil⟩ := nextSlice_eq h
  have hw := wire_length h
  unfold write
  rw [hs]; dsimp only
  by_cases he : s.isEmpty
  · have he' : s = [] := by simpa using he
    rw [if_pos he]
    refine ⟨_, _, _, rfl, h, rfl, rfl, by simp, List.nil_prefix, Or.inl ⟨0, true, rfl, rfl, ?_, ?_⟩⟩
    · simp [hw, hnil.1 he']
    · intro hlt; have := hnil.1 he'; omega
  · rw [if_neg he]
    have hne : s ≠ [] := by simpa using he
    cases o with
    | err k => exact ⟨_, _, _, rfl, h, rfl, rfl, by simp, List.nil_prefix, Or.inr ⟨k, rfl, rfl, rfl⟩⟩
    | ok n =>
      dsimp only
      have hsl : s.length ≤ 8 + leNat e.header - e.pos := by
        have := hpre.length_le; rw [List.length_drop, hw] at this; exact this
      have hpos := h.pos
      have hlen := h.len
      have hn := Nat.min_le_right n s.length
      have hadv : e.advance (min n s.length) = .ok { e with pos := e.pos + min n s.length } := by
        unfold advance setPos messageOffset messageLen headerSize
        dsimp only
        rw [if_neg (by omega), if_neg (by omega)]
      rw [hadv]; dsimp only
      have hok : Ok { e with pos := e.pos + min n s.length } := ⟨h.header, h.len, by dsimp only; omega⟩
      obtain ⟨s2, hs2, _, hnil2⟩ := nextSlice_eq hok
      have hex : exhausted { e with pos := e.pos + min n s.length } = some s2.isEmpty := by
        unfold exhausted; rw [hs2]; rfl
      rw [hex]; dsimp only
      have htl : (s.take (min n s.length)).length = min n s.length := by simp
      refine ⟨_, _, _, rfl, hok, rfl, rfl, by rw [htl], (List.take_prefix _ _).trans hpre,
        Or.inl ⟨_, _, rfl, htl.symm, ?_, ?_⟩⟩
      · rw [List.isEmpty_iff, hnil2, hw]
      · intro _ k hk
        cases hk
        intro hh
        have := congrArg List.length hh
        rw [htl] at this
        have h5 : s.length ≠ 0 := by simpa using hne
        rw [List.length_nil] at this; omega

theorem setLenPos_spec (b hd : Bytes) (p0 len pos : Nat) (h8 : len < 2 ^ 64) (hl : len ≤ b.length) (hp : pos ≤ 8 + len) :
    setLenPos ⟨b, hd, p0⟩ len pos = (.ok (), ⟨b, toLE 8 len, pos⟩) := by
  have hv : leNat (toLE 8 len) = len := leNat_toLE 8 len (by simpa using h8)
  unfold setLenPos setMessageLen setHeader setPos messageOffset messageLen headerSize
  simp only [hv]
  rw [if_neg (by omega), if_neg (by omega)]
  dsimp only
  rw [hv, if_neg (by omega), if_neg (by omega)]

theorem fromBuffer_spec (b : Bytes) : fromBuffer b = .ok ⟨b, toLE 8 0, 8⟩ := by
  unfold fromBuffer clear
  rw [setLenPos_spec b _ 0 0 0 (by decide) (by omega) (by omega)]
  dsimp only
  have hv : leNat (toLE 8 0) = 0 := leNat_toLE 8 0 (by decide)
  unfold setMessageOffset setPos messageOffset messageLen headerSize
  simp only [hv]
  rw [if_neg (by omega), if_neg (by omega)]
  rfl

theorem fromParts_spec (b : Bytes) (len pos : Nat) (h8 : len < 2 ^ 64) (hl : len ≤ b.length)
    (hp : pos ≤ 8 + len) : fromParts b len pos = .ok ⟨b, toLE 8 len, pos⟩ := by
  unfold fromParts
  rw [fromBuffer_spec]; dsimp only
  rw [setLenPos_spec _ _ _ _ _ h8 hl hp]

theorem fromMessage_spec (b : Bytes) (h8 : b.length < 2 ^ 64) :
    fromMessage b = .ok ⟨b, toLE 8 b.length, 0⟩ := by
  unfold fromMessage
  rw [fromBuffer_spec]; dsimp only
  unfold restartWith
  rw [setLenPos_spec _ _ _ _ _ h8 (Nat.le_refl _) (by omega)]

theorem ok_mk (b : Bytes) (len pos : Nat) (h8 : len < 2 ^ 64) (hl : len ≤ b.length) (hp : pos ≤ 8 + len) :
    Ok ⟨b, toLE 8 len, pos⟩ ∧ wire ⟨b, toLE 8 len, pos⟩ = frame (b.take len) := by
  have hv : leNat (toLE 8 len) = len := leNat_toLE 8 len (by simpa using h8)
  refine ⟨⟨toLE_length _ _, by rw [hv]; exact hl, by rw [hv]; exact hp⟩, ?_⟩
  simp only [wire, sending, hv, frame, List.length_take, Nat.min_eq_left hl]

/-- The bytes written by a sequence of single writes, and the encoder afterwards. -/
def writes (e : Enc) : List IoOut → Enc × Bytes
  | [] => (e, [])
  | o :: os => let (e2, w) := writes (e.write o).2.1 os; (e2, (e.write o).2.2 ++ w)

theorem writes_spec {e : Enc} (h : e.Ok) (os : List IoOut) :
    (e.writes os).1.Ok ∧ (e.writes os).1.wire = e.wire ∧
      e.wire.drop e.pos = (e.writes os).2 ++ e.wire.drop (e.writes os).1.pos := by
  induction os generalizing e with
  | nil => exact ⟨h, rfl, rfl⟩
  | cons o os ih =>
    obtain ⟨r, e', w, hw, hok, hb, hh, hp, ⟨t, ht⟩, _⟩ := write_spec h o
    simp only [writes, hw]
    obtain ⟨a, b, c⟩ := ih hok
    have hwire : e'.wire = e.wire := by simp only [wire, sending, hb, hh]
    refine ⟨a, b.trans hwire, ?_⟩
    rw [hwire] at c
    have : e.wire.drop e'.pos = t := by
      rw [hp, ← List.drop_drop, ← ht, List.drop_left]
    rw [this] at c
    rw [← ht, c, List.append_assoc]

end Enc

/-! ### Decoder -/
namespace Dec

/-- What the decoder has taken from the stream for the current frame. -/
def data (d : Dec) : Bytes := d.header.take d.off ++ d.buf.take (d.off - 8)

/-- Invariant of a decoder used through `new`, `clear` and the reading functions. -/
structure Ok (d : Dec) : Prop where
  header : d.header.length = 8
  buf : d.off ≤ 8 + d.buf.length
  msg : 8 ≤ d.off → d.off ≤ 8 + leNat d.header

theorem data_length {d : Dec} (h : d.Ok) : d.data.length = d.off := by
  have := h.header; have := h.buf
  simp only [data, List.length_append, List.length_take]; omega

theorem advance_off {d d2 : Dec} {n : Nat} (h : d.advance n = .ok d2) : d2.off = d.off + n := by
  unfold advance at h
  dsimp only at h
  by_cases a : d.off + n - headerSize ≤ d.buf.length
  · rw [if_neg (not_not_intro a)] at h
    by_cases b : (d.getHeader.map (fun s => decide (d.off + n - headerSize ≤ s))).getD true = true
    · rw [if_neg (not_not_intro b)] at h; cases h; rfl
    · rw [if_pos b] at h; cases h
  · rw [if_pos a] at h; cases h

theorem new_ok (b : Bytes) : (new b).Ok := ⟨by simp [new], by simp [new], by simp [new]⟩
theorem clear_ok {d : Dec} (h : d.Ok) : d.clear.Ok :=
  ⟨by simp [clear, h.header], by simp [clear], by simp [clear]⟩

/-- The state after reading: same buffer size, more data. -/
theorem message_spec {d : Dec} (h : d.Ok) :
    (d.off < 8 ∧ d.message = .ok none) ∨
    (8 ≤ d.off ∧ d.buf.length < leNat d.header ∧ d.message = .error (.tooLarge (leNat d.header) d.buf.length)) ∨
    (8 ≤ d.off ∧ leNat d.header ≤ d.buf.length ∧ d.off < 8 + leNat d.header ∧ d.message = .ok none) ∨
    (d.off = 8 + leNat d.header ∧ leNat d.header ≤ d.buf.length ∧
      d.message = .ok (some (d.buf.take (leNat d.header)))) := by
  have h1 := h.header; have h2 := h.buf; have h3 := h.msg
  unfold message fragmentAvail availLen fragment ensureBuf getHeader messageOffset headerOffset headerSize
  rw [if_pos (by omega)]
  by_cases ho : d.off < 8
  · left
    rw [if_neg (by omega)]
    exact ⟨ho, rfl⟩
  · rw [if_pos (by omega)]
    have h4 := h3 (by omega)
    dsimp only
    by_cases hs : leNat d.header ≤ d.buf.length
    · rw [if_pos hs]
      have hl : (d.buf.take (leNat d.header)).length = leNat d.header := by simp; omega
      simp only [Option.map_some, hl]
      rw [if_pos (by omega)]
      dsimp only
      have hl2 : ((d.buf.take (leNat d.header)).take (d.off - 8)).length = d.off - 8 := by
        rw [List.length_take, hl]; omega
      rw [hl2]
      by_cases he : d.off = 8 + leNat d.header
      · right; right; right
        refine ⟨he, hs, ?_⟩
        rw [if_pos (by rw [he]; simp)]
        rw [List.take_of_length_le (by rw [hl]; omega)]
      · right; right; left
        refine ⟨by omega, hs, by omega, ?_⟩
        rw [if_neg (by intro hh; have := Option.some.inj hh; omega)]
    · right; left
      rw [if_neg hs]
      exact ⟨by omega, by omega, rfl⟩

theorem nextSlice_spec {d : Dec} (h : d.Ok) :
    (d.off < 8 ∧ d.nextSlice = .ok (some (.header, 8 - d.off))) ∨
    (8 ≤ d.off ∧ d.buf.length < leNat d.header ∧ d.nextSlice = .error (.tooLarge (leNat d.header) d.buf.length)) ∨
    (8 ≤ d.off ∧ leNat d.header ≤ d.buf.length ∧ d.off < 8 + leNat d.header ∧
      d.nextSlice = .ok (some (.message, 8 + leNat d.header - d.off))) ∨
    (d.off = 8 + leNat d.header ∧ leNat d.header ≤ d.buf.length ∧ d.nextSlice = .ok none) := by
  have h1 := h.header; have h2 := h.buf; have h3 := h.msg
  unfold nextSlice fragmentLeft availLen fragment ensureBuf getHeader messageOffset headerOffset headerSize
  rw [List.length_drop, h1]
  by_cases ho : d.off < 8
  · left
    rw [if_pos (by omega), Nat.min_eq_left (by omega)]
    exact ⟨ho, rfl⟩
  · rw [if_neg (by omega), if_pos (by omega), if_pos (by omega)]
    have h4 := h3 (by omega)
    dsimp only
    by_cases hs : leNat d.header ≤ d.buf.length
    · rw [if_pos hs]
      have hl : (d.buf.take (leNat d.header)).length = leNat d.header := by simp; omega
      simp only [Option.map_some, hl]
      rw [if_pos (by omega)]
      dsimp only
      rw [List.length_drop, hl]
      by_cases he : d.off = 8 + leNat d.header
      · right; right; right
        refine ⟨he, hs, ?_⟩
        rw [if_neg (by omega)]
      · right; right; left
        refine ⟨by omega, hs, by omega, ?_⟩
        rw [if_pos (by omega), show leNat d.header - (d.off - 8) = 8 + leNat d.header - d.off by omega]
    · right; left
      rw [if_neg hs]
      exact ⟨by omega, by omega, rfl⟩

/-- The classification of one `read_from_stdio` call. -/
structure ReadSpec (d : Dec) (src : Bytes) (o : IoOut) (r : Except DecErr (Nat × Option Bytes)) (d' : Dec)
    (src' : Bytes) : Prop where
  ok : d'.Ok
  size : d'.buf.length = d.buf.length
  /-- bytes move from the stream to the decoder, none are lost, duplicated or reordered -/
  moved : d'.data ++ src' = d.data ++ src
  grows : d.off ≤ d'.off
  /-- once the header is in, at most the announced message is taken -/
  bound : 8 ≤ d'.off → d'.off ≤ 8 + leNat d'.header
  /-- the receive buffer is not touched before the header is complete -/
  untouched : d'.off ≤ 8 → d'.buf = d.buf
  res :
    -- I/O error: nothing happens
    (∃ k, o = .err k ∧ r = .error (.io k) ∧ d' = d ∧ src' = src) ∨
    -- the announced message does not fit: nothing happens
    (8 ≤ d.off ∧ d.buf.length < leNat d.header ∧ r = .error (.tooLarge (leNat d.header) d.buf.length) ∧
      d' = d ∧ src' = src) ∨
    -- the message is complete
    (∃ n, r = .ok (n, some (d'.data.drop 8)) ∧ 8 ≤ d'.off ∧ d'.data.length = 8 + leNat (d'.data.take 8) ∧
      leNat (d'.data.take 8) ≤ d.buf.length ∧ d'.off = d.off + n) ∨
    -- the message is not complete
    (∃ n, r = .ok (n, none) ∧ (d'.off < 8 ∨ d'.off < 8 + leNat (d'.data.take 8)) ∧ d'.off = d.off + n ∧
      (n = 0 → src = [] ∨ o = .ok 0))

theorem data_take {d : Dec} (h : d.Ok) (h8 : 8 ≤ d.off) : d.data.take 8 = d.header := by
  have := h.header
  rw [data, List.take_of_length_le (l := d.header) (by omega), List.take_append_of_le_length (by omega), List.take_of_length_le (by omega)]

theorem data_drop {d : Dec} (h : d.Ok) (h8 : 8 ≤ d.off) : d.data.drop 8 = d.buf.take (d.off - 8) := by
  have := h.header
  rw [data, List.take_of_length_le (l := d.header) (by omega), List.drop_left' (by omega)]

theorem read_spec {d : Dec} (h : d.Ok) (src : Bytes) (o : IoOut) :
    ∃ r d' src', d.read src o = (r, d', src') ∧ ReadSpec d src o r d' src' := by
  have h1 := h.header; have h2 := h.buf; have h3 := h.msg
  -- the end of the call, after `n` bytes were placed
  have fin : ∀ (d2 : Dec) (n : Nat), d2.Ok → d2.buf.length = d.buf.length → d2.data = d.data ++ src.take n →
      n ≤ src.length → d2.off = d.off + n → (n = 0 → src = [] ∨ o = .ok 0) →
      (d2.off ≤ 8 → d2.buf = d.buf) →
      ∃ r d' src', (match d2.message with
        | .error .panic => ((.error .panic, d2, src.drop n) : Except DecErr (Nat × Option Bytes) × Dec × Bytes)
        | .error _ => (.ok (n, none), d2, src.drop n)
        | .ok m => (.ok (n, m), d2, src.drop n)) = (r, d', src') ∧ ReadSpec d src o r d' src' := by
    intro d2 n hok hsz hdata hn hoff hzero hunt
    have hmv : d2.data ++ src.drop n = d.data ++ src := by
      rw [hdata, List.append_assoc, List.take_append_drop]
    rcases message_spec hok with ⟨a, b⟩ | ⟨a, b, c⟩ | ⟨a, b, c, e⟩ | ⟨a, b, c⟩
    · rw [b]
      exact ⟨_, _, _, rfl, hok, hsz, hmv, by omega, hok.msg, hunt,
        Or.inr (Or.inr (Or.inr ⟨n, rfl, Or.inl a, hoff, hzero⟩))⟩
    · rw [c]
      refine ⟨_, _, _, rfl, hok, hsz, hmv, by omega, hok.msg, hunt,
        Or.inr (Or.inr (Or.inr ⟨n, rfl, Or.inr ?_, hoff, hzero⟩))⟩
      rw [data_take hok a]; have := hok.buf; omega
    · rw [e]
      refine ⟨_, _, _, rfl, hok, hsz, hmv, by omega, hok.msg, hunt,
        Or.inr (Or.inr (Or.inr ⟨n, rfl, Or.inr ?_, hoff, hzero⟩))⟩
      rw [data_take hok a]; exact c
    · rw [c]
      have h8 : 8 ≤ d2.off := by omega
      refine ⟨_, _, _, rfl, hok, hsz, hmv, by omega, hok.msg, hunt,
        Or.inr (Or.inr (Or.inl ⟨n, ?_, h8, ?_, ?_, hoff⟩))⟩
      · rw [data_drop hok h8, a, Nat.add_sub_cancel_left]
      · rw [data_length hok, data_take hok h8, a]
      · rw [data_take hok h8, ← hsz]; exact b
  unfold read
  rcases nextSlice_spec h with ⟨a, b⟩ | ⟨a, b, c⟩ | ⟨a, b, c, e⟩ | ⟨a, b, c⟩
  · -- into the header
    rw [b]; dsimp only
    cases o with
    | err k => exact ⟨_, _, _, rfl, h, rfl, rfl, Nat.le_refl _, h3, fun _ => rfl, Or.inl ⟨k, rfl, rfl, rfl, rfl⟩⟩
    | ok k =>
      dsimp only
      generalize hn : min k (min (8 - d.off) src.length) = n
      have hn1 : n ≤ src.length := by omega
      have hn2 : d.off + n ≤ 8 := by omega
      have htl : (src.take n).length = n := by simp; omega
      have hho : d.headerOffset = d.off := by unfold headerOffset headerSize; omega
      have hf : d.fill .header (src.take n) =
          { d with header := d.header.take d.off ++ src.take n ++ d.header.drop (d.off + n) } := by
        unfold fill; dsimp only; rw [hho, htl]
      rw [hf]
      have hadv : advance { d with header := d.header.take d.off ++ src.take n ++ d.header.drop (d.off + n) } n =
          .ok { d with header := d.header.take d.off ++ src.take n ++ d.header.drop (d.off + n), off := d.off + n } := by
        have hg : getHeader { d with header := d.header.take d.off ++ src.take n ++ d.header.drop (d.off + n) } = none := by
          unfold getHeader headerOffset headerSize; exact if_neg (by dsimp only; omega)
        unfold advance
        rw [hg]
        dsimp only [headerSize]
        rw [if_neg (by omega), if_neg (by simp)]
      rw [hadv]; dsimp only
      have hl2 : (d.header.take d.off ++ src.take n).length = d.off + n := by
        rw [List.length_append, htl, List.length_take, h1]; omega
      refine fin _ n ⟨?_, ?_, ?_⟩ rfl ?_ hn1 rfl ?_ (fun _ => rfl)
      · dsimp only; rw [List.length_append, hl2, List.length_drop, h1]; omega
      · dsimp only; omega
      · dsimp only; intro _; omega
      · simp only [data]
        rw [List.take_left' hl2, show d.off + n - 8 = 0 by omega, show d.off - 8 = 0 by omega]
        simp
      · intro hz
        by_cases hs : src = []
        · exact Or.inl hs
        · right
          have h5 : src.length ≠ 0 := by simpa using hs
          have h6 : k = 0 := by omega
          rw [h6]
  · rw [c]
    exact ⟨_, _, _, rfl, h, rfl, rfl, Nat.le_refl _, h3, fun _ => rfl, Or.inr (Or.inl ⟨a, b, rfl, rfl, rfl⟩)⟩
  · -- into the message
    rw [e]; dsimp only
    cases o with
    | err k => exact ⟨_, _, _, rfl, h, rfl, rfl, Nat.le_refl _, h3, fun _ => rfl, Or.inl ⟨k, rfl, rfl, rfl, rfl⟩⟩
    | ok k =>
      dsimp only
      generalize hn : min k (min (8 + leNat d.header - d.off) src.length) = n
      have hn1 : n ≤ src.length := by omega
      have hn2 : d.off + n ≤ 8 + leNat d.header := by omega
      have htl : (src.take n).length = n := by simp; omega
      have hf : d.fill .message (src.take n) =
          { d with buf := d.buf.take (d.off - 8) ++ src.take n ++ d.buf.drop (d.off - 8 + n) } := by
        unfold fill; dsimp only; rw [htl]; rfl
      rw [hf]
      have hl2 : (d.buf.take (d.off - 8) ++ src.take n).length = d.off - 8 + n := by
        rw [List.length_append, htl, List.length_take]; omega
      have hl3 : (d.buf.take (d.off - 8) ++ src.take n ++ d.buf.drop (d.off - 8 + n)).length = d.buf.length := by
        rw [List.length_append, hl2, List.length_drop]; omega
      have hadv : advance { d with buf := d.buf.take (d.off - 8) ++ src.take n ++ d.buf.drop (d.off - 8 + n) } n =
          .ok { d with buf := d.buf.take (d.off - 8) ++ src.take n ++ d.buf.drop (d.off - 8 + n), off := d.off + n } := by
        have hg : getHeader { d with buf := d.buf.take (d.off - 8) ++ src.take n ++ d.buf.drop (d.off - 8 + n) } = some (leNat d.header) := by
          unfold getHeader headerOffset headerSize; exact if_pos (by dsimp only; omega)
        unfold advance
        rw [hg]
        dsimp only [headerSize]
        rw [hl3, if_neg (by omega), if_neg (by simp; omega)]
      rw [hadv]; dsimp only
      refine fin _ n ⟨h1, ?_, ?_⟩ hl3 ?_ hn1 rfl ?_ ?_
      · dsimp only; rw [hl3]; omega
      · dsimp only; intro _; exact hn2
      · simp only [data]
        rw [show d.off + n - 8 = d.off - 8 + n by omega, List.take_left' hl2,
          List.take_of_length_le (l := d.header) (by omega), List.take_of_length_le (l := d.header) (by omega),
          List.append_assoc]
      · intro hz
        by_cases hs : src = []
        · exact Or.inl hs
        · right
          have h5 : src.length ≠ 0 := by simpa using hs
          have h6 : k = 0 := by omega
          rw [h6]
      · dsimp only; intro h9
        have h0 : n = 0 := by omega
        rw [h0]; simp
  · rw [c]; dsimp only
    rcases message_spec h with ⟨a', _⟩ | ⟨_, b', _⟩ | ⟨_, _, c', _⟩ | ⟨_, _, c'⟩
    · omega
    · omega
    · omega
    · rw [c']
      have h8 : 8 ≤ d.off := by omega
      refine ⟨_, _, _, rfl, h, rfl, rfl, Nat.le_refl _, h3, fun _ => rfl, Or.inr (Or.inr (Or.inl ⟨0, ?_, h8, ?_, ?_, rfl⟩))⟩
      · rw [data_drop h h8, a, Nat.add_sub_cancel_left]
      · rw [data_length h, data_take h h8, a]
      · rw [data_take h h8]; exact b

/-- Decoder `d` is in the middle of (or before) the frame of `msg` on a stream of which `src` is
still to be read and `t` has not arrived yet. -/
structure Mid (d : Dec) (src t msg rest : Bytes) : Prop where
  ok : d.Ok
  stream : d.data ++ src ++ t = frame msg ++ rest
  fits : msg.length ≤ d.buf.length
  size : msg.length < 2 ^ 64

theorem frame_take (msg rest : Bytes) : (frame msg ++ rest).take 8 = toLE 8 msg.length := by
  rw [frame, List.append_assoc, List.take_left' (toLE_length _ _)]

theorem Mid.head {d : Dec} {src t msg rest : Bytes} (h : d.Mid src t msg rest) (h8 : 8 ≤ d.off) :
    leNat (d.data.take 8) = msg.length := by
  have h1 := congrArg (List.take 8) h.stream
  rw [frame_take, List.append_assoc, List.take_append_of_le_length (by rw [data_length h.ok]; exact h8)] at h1
  rw [h1, leNat_toLE _ _ (by simpa using h.size)]

theorem Mid.complete {d : Dec} {src t msg rest : Bytes} (h : d.Mid src t msg rest) (h8 : 8 ≤ d.off)
    (hl : d.data.length = 8 + leNat (d.data.take 8)) : d.data = frame msg ∧ src ++ t = rest := by
  rw [h.head h8] at hl
  have h2 := h.stream
  rw [List.append_assoc] at h2
  have := List.append_inj h2 (by rw [hl, frame_length])
  exact this

theorem Mid.read {d : Dec} {src t msg rest : Bytes} (h : d.Mid src t msg rest) (o : IoOut) :
    ∃ r d' src', d.read src o = (r, d', src') ∧ d'.Mid src' t msg rest ∧ d'.buf.length = d.buf.length ∧
      ((∃ k, o = .err k ∧ r = .error (.io k) ∧ d' = d ∧ src' = src) ∨
       (∃ n, r = .ok (n, some msg) ∧ src' ++ t = rest ∧ d'.data = frame msg ∧ d'.off = d.off + n) ∨
       (∃ n, r = .ok (n, none) ∧ (d'.off < 8 + msg.length) ∧ d'.off = d.off + n ∧
          (n = 0 → src = [] ∨ o = .ok 0))) := by
  obtain ⟨r, d', src', e, sp⟩ := read_spec h.ok src o
  have hm : d'.Mid src' t msg rest :=
    ⟨sp.ok, by rw [sp.moved]; exact h.stream, by rw [sp.size]; exact h.fits, h.size⟩
  refine ⟨r, d', src', e, hm, sp.size, ?_⟩
  rcases sp.res with a | ⟨a, b, _⟩ | ⟨n, a, b, c, _, e'⟩ | ⟨n, a, b, c, e'⟩
  · exact Or.inl a
  · have h1 := h.head a
    rw [data_take h.ok a] at h1
    have := h.fits; omega
  · obtain ⟨h1, h2⟩ := hm.complete b c
    refine Or.inr (Or.inl ⟨n, ?_, h2, h1, e'⟩)
    rw [a, h1, frame, List.drop_left' (toLE_length _ _)]
  · refine Or.inr (Or.inr ⟨n, a, ?_, c, e'⟩)
    by_cases h8 : 8 ≤ d'.off
    · rw [hm.head h8] at b; omega
    · omega

/-- `read_all_from_stdio` on a stream that carries the frame of `msg`. -/
theorem Mid.readAll {d : Dec} {src t msg rest : Bytes} (h : d.Mid src t msg rest) (os : List IoOut) :
    ∃ r d' src', d.readAll src os = (r, d', src') ∧ d'.Mid src' t msg rest ∧
      (∀ m, r = some (.ok m) → m = msg ∧ src' ++ t = rest) ∧
      (∀ x, r = some (.error x) → ∃ k, x = .io k ∧ k ≠ .interrupted ∧
        (IoOut.err k ∈ os ∨ k = .unexpectedEof ∧ (IoOut.ok 0 ∈ os ∨ src' = []))) ∧
      (src.length + d.off = src'.length + d'.off) ∧
      (r = none → d.off + transfers os ≤ d'.off ∧ (d.off < 8 + msg.length → d'.off < 8 + msg.length)) := by
  induction os generalizing d src with
  | nil => exact ⟨_, _, _, rfl, h, by simp, by simp, rfl, by simp [transfers]⟩
  | cons o os ih =>
    obtain ⟨r, d1, src1, e, hm, hsz, hres⟩ := h.read o
    have hlen : src.length + d.off = src1.length + d1.off := by
      have h1 := congrArg List.length (hm.stream.trans h.stream.symm)
      simp only [List.length_append, data_length h.ok, data_length hm.ok] at h1
      omega
    simp only [Dec.readAll, e]
    rcases hres with ⟨k, rfl, rfl, rfl, rfl⟩ | ⟨n, rfl, hrest, hdata, hoff⟩ | ⟨n, rfl, hlt, hoff, hz⟩
    · by_cases hk : k = .interrupted
      · subst hk
        obtain ⟨r2, d2, src2, e2, hm2, a, b, c, f⟩ := ih h
        refine ⟨r2, d2, src2, e2, hm2, a, ?_, c, ?_⟩
        · intro x hx
          obtain ⟨k, h1, h2, h3⟩ := b x hx
          exact ⟨k, h1, h2, h3.imp (fun q => List.mem_cons_of_mem _ q) (fun q => ⟨q.1, q.2.imp (fun q => List.mem_cons_of_mem _ q) id⟩)⟩
        · intro hr
          exact ⟨(f hr).1, (f hr).2⟩
      · refine ⟨some (.error (.io k)), d1, src1, ?_, h, by simp, ?_, rfl, by simp⟩
        · cases k <;> simp_all
        · intro x hx
          cases hx
          exact ⟨k, rfl, hk, Or.inl (by simp)⟩
    · have hmsg : d1.message = .ok (some msg) := by
        have h8 : 8 ≤ d1.off := by rw [← data_length hm.ok, hdata, frame_length]; omega
        have hd := hm.head h8
        rw [data_take hm.ok h8] at hd
        have ho : d1.off = 8 + leNat d1.header := by rw [hd, ← data_length hm.ok, hdata, frame_length]
        rcases message_spec hm.ok with ⟨a, _⟩ | ⟨_, b, _⟩ | ⟨_, _, c, _⟩ | ⟨_, _, c⟩
        · omega
        · have := hm.fits; omega
        · omega
        · rw [c, ← Nat.add_sub_cancel_left (n := 8) (m := leNat d1.header), ← ho, ← data_drop hm.ok h8, hdata, frame, List.drop_left' (toLE_length _ _)]
      dsimp only
      rw [hmsg]
      refine ⟨_, _, _, rfl, hm, ?_, by simp, hlen, by simp⟩
      intro m hx; cases hx; exact ⟨rfl, hrest⟩
    · cases n with
      | zero =>
        refine ⟨_, _, _, rfl, hm, by simp, ?_, hlen, by simp⟩
        intro x hx; cases hx
        refine ⟨_, rfl, by simp, Or.inr ⟨rfl, ?_⟩⟩
        rcases hz rfl with h1 | h1
        · right
          have : src1.length = 0 := by rw [h1] at hlen; simp at hlen; omega
          simpa using this
        · left; rw [h1]; simp
      | succ n =>
        obtain ⟨r2, d2, src2, e2, hm2, a, b, c, f⟩ := ih hm
        refine ⟨r2, d2, src2, e2, hm2, a, ?_, by omega, ?_⟩
        · intro x hx
          obtain ⟨k, h1, h2, h3⟩ := b x hx
          exact ⟨k, h1, h2, h3.imp (fun q => List.mem_cons_of_mem _ q) (fun q => ⟨q.1, q.2.imp (fun q => List.mem_cons_of_mem _ q) id⟩)⟩
        · intro hr
          obtain ⟨f1, f2⟩ := f hr
          have := transfers_le_one o os
          exact ⟨by omega, fun _ => f2 hlt⟩

/-- A fresh decoder in front of a frame. -/
theorem mid_new {d : Dec} (h : d.Ok) (h0 : d.off = 0) (src t msg rest : Bytes) (hs : src ++ t = frame msg ++ rest)
    (hf : msg.length ≤ d.buf.length) (hz : msg.length < 2 ^ 64) : d.Mid src t msg rest :=
  ⟨h, by simpa [data, h0] using hs, hf, hz⟩

/-- Delivery of a sequence of frames: `receive` yields a prefix of the sequence, complete as soon as
enough reads transferred data. -/
theorem receive_spec (os : List IoOut) : ∀ (d : Dec) (src t msg : Bytes) (ms : List Bytes),
    d.Mid src t msg (frames ms) → d.off < 8 + msg.length →
    (∀ m ∈ ms, m.length ≤ d.buf.length ∧ m.length < 2 ^ 64) →
    ∃ l d' src', d.receive src os = (l, none, d', src') ∧ l <+: msg :: ms ∧
      (t = [] → src.length ≤ transfers os → l = msg :: ms ∧ src' = []) := by
  induction os with
  | nil =>
    intro d src t msg ms h hlt hms
    refine ⟨[], d, src, rfl, List.nil_prefix, ?_⟩
    intro ht hl
    have : src = [] := by simpa [transfers] using hl
    subst this ht
    have h1 := congrArg List.length h.stream
    simp only [List.append_nil, data_length h.ok, List.length_append, frame_length] at h1
    omega
  | cons o os ih =>
    intro d src t msg ms h hlt hms
    obtain ⟨r, d1, src1, e, hm, hsz, hres⟩ := h.read o
    have hlen : src.length + d.off = src1.length + d1.off := by
      have h1 := congrArg List.length (hm.stream.trans h.stream.symm)
      simp only [List.length_append, data_length h.ok, data_length hm.ok] at h1
      omega
    have htr := transfers_le_one o os
    simp only [Dec.receive, e]
    rcases hres with ⟨k, rfl, rfl, rfl, rfl⟩ | ⟨n, rfl, hrest, hdata, hoff⟩ | ⟨n, rfl, hlt', hoff, hz⟩
    · exact ih d1 src1 t msg ms h hlt hms
    · dsimp only
      have ho : d1.off = 8 + msg.length := by rw [← data_length hm.ok, hdata, frame_length]
      cases ms with
      | nil =>
        have hnil : src1 = [] := (List.append_eq_nil_iff.1 hrest).1
        have hstop : ∀ (os : List IoOut) (d : Dec), d.Ok → d.off = 0 → ∃ d2, d.receive [] os = ([], none, d2, []) := by
          intro os
          induction os with
          | nil => intro d _ _; exact ⟨_, rfl⟩
          | cons o os ih2 =>
            intro d hok h0
            obtain ⟨r, d2, src2, e2, sp⟩ := read_spec hok [] o
            have hd0 : d.data = [] := by have := data_length hok; rw [h0] at this; simpa using this
            have hmv := sp.moved
            rw [hd0] at hmv
            obtain ⟨q1, q2⟩ := List.append_eq_nil_iff.1 hmv
            have hd2 : d2.off = 0 := by rw [← data_length sp.ok, q1]; rfl
            simp only [Dec.receive, e2, q2]
            rcases sp.res with ⟨k, _, a, _⟩ | ⟨a, _⟩ | ⟨_, _, a, _⟩ | ⟨_, a, _⟩
            · rw [a]; exact ih2 d2 sp.ok hd2
            · omega
            · omega
            · rw [a]; exact ih2 d2 sp.ok hd2
        obtain ⟨d2, hd2⟩ := hstop os d1.clear (clear_ok hm.ok) rfl
        rw [hnil, hd2]
        exact ⟨[msg], d2, [], rfl, List.prefix_refl _, fun _ _ => ⟨rfl, rfl⟩⟩
      | cons m ms =>
        have hcl : d1.clear.buf.length = d.buf.length := by simp [clear, hsz]
        have hmm := hms m (by simp)
        have hmid : d1.clear.Mid src1 t m (frames ms) :=
          mid_new (clear_ok hm.ok) rfl src1 t m _ (by rw [hrest]; simp [frames]) (by rw [hcl]; exact hmm.1) hmm.2
        obtain ⟨l, d', src', e', hp, hfin⟩ := ih d1.clear src1 t m ms hmid (by show 0 < _; omega)
          (fun x hx => by rw [hcl]; exact hms x (by simp [hx]))
        rw [e']
        refine ⟨msg :: l, d', src', rfl, ?_, ?_⟩
        · obtain ⟨u, hu⟩ := hp; exact ⟨u, by rw [← hu]; rfl⟩
        · intro ht hl
          have : src1.length ≤ transfers os := by
            by_cases hn : n = 0
            · omega
            · omega
          obtain ⟨a, b⟩ := hfin ht this
          exact ⟨by rw [a], b⟩
    · dsimp only
      obtain ⟨l, d', src', e', hp, hfin⟩ := ih d1 src1 t msg ms hm hlt' (fun x hx => by rw [hsz]; exact hms x hx)
      refine ⟨l, d', src', e', hp, ?_⟩
      intro ht hl
      refine hfin ht ?_
      cases n with
      | succ n => omega
      | zero =>
        rcases hz rfl with h1 | h1
        · rw [h1] at hlen; simp at hlen; omega
        · subst h1; simp only [transfers] at hl; omega

end Dec

/-! ### The claims -/

/-- C33 (sending): whatever the socket answers to each write, the bytes that left are a prefix of
the frame of the message, and `write_all_to_stdio` reports success exactly when the whole frame left.
It never panics, and fails only with an error the socket reported. -/
theorem encoder_sends_frame (buf : Bytes) (len : Nat) (hl : len ≤ buf.length) (h8 : len < 2 ^ 64)
    (os : List IoOut) :
    ∃ e, Enc.fromParts buf len 0 = .ok e ∧ ∃ r e' w, e.writeAll os = (r, e', w) ∧
      w <+: frame (buf.take len) ∧
      (r = some (.ok ()) → w = frame (buf.take len)) ∧
      (∀ x, r = some (.error x) → ∃ k, x = .io k ∧ k ≠ .interrupted ∧ IoOut.err k ∈ os) ∧
      (r = none → transfers os ≤ w.length ∧ w ≠ frame (buf.take len)) := by
  refine ⟨_, Enc.fromParts_spec buf len 0 h8 hl (by omega), ?_⟩
  obtain ⟨hok, hwire⟩ := Enc.ok_mk buf len 0 h8 hl (by omega)
  have key : ∀ (os : List IoOut) (e : Enc), e.Ok → e.pos < e.wire.length → ∃ r e' w, e.writeAll os = (r, e', w) ∧
      w <+: e.wire.drop e.pos ∧ (r = some (.ok ()) → w = e.wire.drop e.pos) ∧
      (∀ x, r = some (.error x) → ∃ k, x = .io k ∧ k ≠ .interrupted ∧ IoOut.err k ∈ os) ∧
      (r = none → transfers os ≤ w.length ∧ w ≠ e.wire.drop e.pos) := by
    intro os
    induction os with
    | nil =>
      intro e h hlt
      refine ⟨_, _, _, rfl, List.nil_prefix, by simp, by simp, fun _ => ⟨by simp [transfers], ?_⟩⟩
      intro hh
      have := congrArg List.length hh
      simp at this; omega
    | cons o os ih =>
      intro e h hlt
      obtain ⟨r, e1, w, hw, hok1, hb, hh, hp, hpre, hres⟩ := Enc.write_spec h o
      have hwire : e1.wire = e.wire := by simp only [Enc.wire, Enc.sending, hb, hh]
      obtain ⟨t, ht⟩ := hpre
      have hdr : e.wire.drop e1.pos = t := by rw [hp, ← List.drop_drop, ← ht, List.drop_left]
      simp only [Enc.writeAll, hw]
      rcases hres with ⟨n, d, rfl, hn, hd, hprog⟩ | ⟨k, rfl, rfl, rfl⟩
      · cases d with
        | true =>
          have hfull : w = e.wire.drop e.pos := by
            have : t = [] := by rw [← hdr]; exact List.drop_eq_nil_of_le (by rw [← hd.1 rfl]; omega)
            rw [← ht, this, List.append_nil]
          exact ⟨_, _, _, rfl, by rw [hfull]; exact List.prefix_refl _, fun _ => hfull, by simp, by simp⟩
        | false =>
          have hne : e1.pos ≠ e.wire.length := fun hh => Bool.false_ne_true (hd.2 hh)
          have hle : e1.pos ≤ e.wire.length := by
            have h1 := hok1.pos
            have h2 := Enc.wire_length hok1
            rw [hwire] at h2; omega
          obtain ⟨r2, e2, w2, a, b, c, f, g⟩ := ih e1 hok1 (by rw [hwire]; omega)
          rw [hwire, hdr] at b c g
          dsimp only
          rw [a]
          refine ⟨r2, e2, w ++ w2, rfl, ?_, ?_, ?_, ?_⟩
          · obtain ⟨u, hu⟩ := b; exact ⟨u, by rw [List.append_assoc, hu, ht]⟩
          · intro hr; rw [c hr, ht]
          · intro x hx
            obtain ⟨k, h1, h2, h3⟩ := f x hx
            exact ⟨k, h1, h2, List.mem_cons_of_mem _ h3⟩
          · intro hr
            obtain ⟨g1, g2⟩ := g hr
            refine ⟨?_, ?_⟩
            · rw [List.length_append]
              rcases o with (_ | k) | k
              · simp only [transfers]; omega
              · have : w.length ≠ 0 := by simpa using hprog hlt k rfl
                simp only [transfers]; omega
              · simp only [transfers]; omega
            · intro hh
              rw [← ht] at hh
              exact g2 (List.append_cancel_left hh)
      · by_cases hk : k = .interrupted
        · subst hk
          obtain ⟨r2, e2, w2, a, b, c, f, g⟩ := ih e1 hok1 hlt
          have hw0 : w = [] := by
            have : e1.pos = e1.pos + w.length := hp
            have : w.length = 0 := by omega
            simpa using this
          subst hw0
          dsimp only
          rw [a]
          refine ⟨r2, e2, [] ++ w2, rfl, b, c, ?_, g⟩
          intro x hx
          obtain ⟨k, h1, h2, h3⟩ := f x hx
          exact ⟨k, h1, h2, List.mem_cons_of_mem _ h3⟩
        · refine ⟨some (.error (.io k)), e1, w, ?_, ⟨t, ht⟩, by simp, ?_, by simp⟩
          · cases k with
            | interrupted => exact absurd rfl hk
            | _ => rfl
          · intro x hx; cases hx
            exact ⟨k, rfl, hk, by simp⟩
  have := key os _ hok (by rw [hwire, frame_length]; show 0 < _; omega)
  rw [hwire] at this
  simpa using this

/-- C33 (receiving): whatever the socket answers to each read, `read_all_from_stdio` on a stream that
starts with the frame of `msg` delivers exactly `msg` and leaves the rest of the stream unread. `src`
is what has arrived so far, `t` what arrives later. It never panics and never reports an oversized
message; errors are those of the socket (or end of file); and it returns the message as soon as
enough reads transferred data. -/
theorem decoder_delivers_frame (msg rest buf src t : Bytes) (hs : src ++ t = frame msg ++ rest)
    (hf : msg.length ≤ buf.length) (h8 : msg.length < 2 ^ 64) (os : List IoOut) :
    ∃ r d' src', (Dec.new buf).readAll src os = (r, d', src') ∧
      (∀ m, r = some (.ok m) → m = msg ∧ src' ++ t = rest) ∧
      (∀ x, r = some (.error x) → ∃ k, x = .io k ∧ k ≠ .interrupted ∧
        (IoOut.err k ∈ os ∨ k = .unexpectedEof ∧ (IoOut.ok 0 ∈ os ∨ src' = []))) ∧
      (r = none → transfers os < 8 + msg.length ∧ rest.length < (src' ++ t).length) := by
  have hm := Dec.mid_new (Dec.new_ok buf) rfl src t msg rest hs hf h8
  obtain ⟨r, d', src', e, hm', a, b, c, f⟩ := hm.readAll os
  refine ⟨r, d', src', e, a, b, ?_⟩
  intro hr
  obtain ⟨f1, f2⟩ := f hr
  have h0 : (Dec.new buf).off = 0 := rfl
  rw [h0] at f1 f2
  have f3 := f2 (by omega)
  refine ⟨by omega, ?_⟩
  have h1 := congrArg List.length hm'.stream
  simp only [List.length_append, Dec.data_length hm'.ok, frame_length] at h1
  rw [List.length_append]; omega

/-- C33: a message sent through any schedule of partial writes and received through any schedule of
partial reads arrives unchanged, and bytes that follow it on the stream stay there. -/
theorem framing_round_trip (msg buf rest : Bytes) (h8 : msg.length < 2 ^ 64) (hf : msg.length ≤ buf.length)
    (ws rs : List IoOut) (e e' : Enc) (w : Bytes) (he : Enc.fromMessage msg = .ok e)
    (hw : e.writeAll ws = (some (.ok ()), e', w)) (m src' : Bytes) (d' : Dec)
    (hr : (Dec.new buf).readAll (w ++ rest) rs = (some (.ok m), d', src')) : m = msg ∧ src' = rest := by
  have h1 : e = ⟨msg, toLE 8 msg.length, 0⟩ := by
    rw [Enc.fromMessage_spec msg h8] at he; exact (Except.ok.inj he).symm
  obtain ⟨e0, h2, r, e1, w1, h3, _, h4, _⟩ := encoder_sends_frame msg msg.length (Nat.le_refl _) h8 ws
  rw [Enc.fromParts_spec msg _ 0 h8 (Nat.le_refl _) (by omega)] at h2
  cases h2
  rw [h1] at hw
  rw [hw] at h3
  cases h3
  have hw' := h4 rfl
  rw [List.take_length] at hw'
  obtain ⟨r, d2, src2, h5, h6, _⟩ := decoder_delivers_frame msg rest buf (w ++ rest) [] (by rw [hw']; simp) hf h8 rs
  rw [hr] at h5
  cases h5
  simpa using h6 m rfl

/-- C35: any sequence of messages sent as frames over one stream is received as the same sequence, in
order: at any moment the receiver has a prefix of it, and once enough reads transferred data it has
all of it. -/
theorem frame_stream_in_order (ms : List Bytes) (buf : Bytes)
    (hf : ∀ m ∈ ms, m.length ≤ buf.length ∧ m.length < 2 ^ 64) (src t : Bytes) (hs : src ++ t = frames ms)
    (os : List IoOut) : ∃ l d' src', (Dec.new buf).receive src os = (l, none, d', src') ∧ l <+: ms ∧
      (t = [] → src.length ≤ transfers os → l = ms) := by
  cases ms with
  | nil =>
    have hnil : src = [] := (List.append_eq_nil_iff.1 hs).1
    subst hnil
    -- add a message that never arrives
    obtain ⟨l, d', src', e, hp, _⟩ := Dec.receive_spec os (Dec.new buf) [] (frame []) [] [] (by
      refine Dec.mid_new (Dec.new_ok buf) rfl [] _ [] _ ?_ (by simp) (by simp)
      simp [frames]) (by show 0 < _; omega) (by simp)
    -- nothing can have been delivered from an empty stream
    have hstop : ∀ (os : List IoOut) (d : Dec), d.Ok → d.off = 0 → ∃ d2, d.receive [] os = ([], none, d2, []) := by
      intro os
      induction os with
      | nil => intro d _ _; exact ⟨_, rfl⟩
      | cons o os ih2 =>
        intro d hok h0
        obtain ⟨r, d2, src2, e2, sp⟩ := Dec.read_spec hok [] o
        have hd0 : d.data = [] := by have := Dec.data_length hok; rw [h0] at this; simpa using this
        have hmv := sp.moved
        rw [hd0] at hmv
        obtain ⟨q1, q2⟩ := List.append_eq_nil_iff.1 hmv
        have hd2 : d2.off = 0 := by rw [← Dec.data_length sp.ok, q1]; rfl
        simp only [Dec.receive, e2, q2]
        rcases sp.res with ⟨k, _, a, _⟩ | ⟨a, _⟩ | ⟨_, _, a, _⟩ | ⟨_, a, _⟩
        · rw [a]; exact ih2 d2 sp.ok hd2
        · omega
        · omega
        · rw [a]; exact ih2 d2 sp.ok hd2
    obtain ⟨d2, hd2⟩ := hstop os (Dec.new buf) (Dec.new_ok buf) rfl
    exact ⟨[], d2, [], hd2, List.nil_prefix, fun _ _ => rfl⟩
  | cons m ms =>
    have hm := hf m (by simp)
    obtain ⟨l, d', src', e, hp, hfin⟩ := Dec.receive_spec os (Dec.new buf) src t m ms
      (Dec.mid_new (Dec.new_ok buf) rfl src t m _ (by rw [hs]; simp [frames]) hm.1 hm.2)
      (by show 0 < _; omega) (fun x hx => hf x (by simp [hx]))
    exact ⟨l, d', src', e, hp, fun ht hl => (hfin ht hl).1⟩

/-- C34: on a stream whose next frame announces more bytes than the receive buffer holds, whatever
the socket answers: nothing is delivered, nothing beyond the 8 header bytes is consumed, the receive
buffer is not written, and the only error of the decoder itself is the report of that size; every
read attempted after the header is in is answered with it. -/
theorem oversized_frame_rejected (header rest buf : Bytes) (hh : header.length = 8)
    (hbig : buf.length < leNat header) (os : List IoOut) :
    ∃ x d' src', (Dec.new buf).receive (header ++ rest) os = ([], x, d', src') ∧
      (x = none ∨ x = some (.tooLarge (leNat header) buf.length)) ∧
      d'.buf = buf ∧ rest.length ≤ src'.length ∧ src' <:+ header ++ rest ∧
      (src' = rest → ∀ o, (d'.read src' o) = (.error (.tooLarge (leNat header) buf.length), d', src')) ∧
      (9 ≤ transfers os → x = some (.tooLarge (leNat header) buf.length)) := by
  have key : ∀ (os : List IoOut) (d : Dec) (src : Bytes), d.Ok → d.buf = buf → d.off ≤ 8 →
      d.data ++ src = header ++ rest →
      ∃ x d' src', d.receive src os = ([], x, d', src') ∧ (x = none ∨ x = some (.tooLarge (leNat header) buf.length)) ∧
        d'.Ok ∧ d'.buf = buf ∧ d'.off ≤ 8 ∧ d'.data ++ src' = header ++ rest ∧
        (9 ≤ d.off + transfers os → x = some (.tooLarge (leNat header) buf.length)) := by
    intro os
    induction os with
    | nil =>
      intro d src hok hb h8 hst
      exact ⟨none, d, src, rfl, Or.inl rfl, hok, hb, h8, hst, by simp only [transfers]; omega⟩
    | cons o os ih =>
      intro d src hok hb h8 hst
      obtain ⟨r, d1, src1, e, sp⟩ := Dec.read_spec hok src o
      have hst1 : d1.data ++ src1 = header ++ rest := sp.moved.trans hst
      have htr := transfers_le_one o os
      have hhd : 8 ≤ d1.off → d1.data.take 8 = header := by
        intro h
        have h1 := congrArg (List.take 8) hst1
        rwa [List.take_append_of_le_length (by rw [Dec.data_length sp.ok]; exact h), List.take_left' hh] at h1
      have hhd0 : 8 ≤ d.off → d.header = header := by
        intro h
        have h1 := congrArg (List.take 8) hst
        rwa [List.take_append_of_le_length (by rw [Dec.data_length hok]; exact h), List.take_left' hh, Dec.data_take hok h] at h1
      have hd1 : d1.off ≤ 8 := by
        rcases sp.res with ⟨_, _, _, a, _⟩ | ⟨_, _, _, a, _⟩ | ⟨n, _, a, b, c, _⟩ | ⟨n, a, b, c, _⟩
        · rw [a]; exact h8
        · rw [a]; exact h8
        · rw [hhd a, hb] at c; omega
        · -- a read into the header stays in the header
          unfold Dec.read at e
          rcases Dec.nextSlice_spec hok with ⟨p, q⟩ | ⟨p, q, q'⟩ | ⟨p, q, _⟩ | ⟨p, q, _⟩
          · rw [q] at e
            by_cases h9 : d1.off ≤ 8
            · exact h9
            · exfalso
              cases o with
              | err k => simp only [Prod.mk.injEq] at e; rw [← e.2.1] at h9; omega
              | ok k =>
                have hl := congrArg List.length sp.moved
                dsimp only at e
                split at e
                · simp [a] at e
                · rename_i d2 hadv
                  have hoff2 : d2.off = d.off + min k (min (8 - d.off) src.length) := by
                    have := Dec.advance_off hadv; exact this
                  split at e <;> simp only [Prod.mk.injEq] at e <;> rw [← e.2.1] at h9 <;> omega
          · rw [q'] at e; simp only [Prod.mk.injEq] at e; rw [← e.2.1]; exact h8
          · rw [hhd0 p, hb] at q; omega
          · rw [hhd0 (by omega), hb] at q; omega
      have hb1 : d1.buf = buf := by rw [← hb]; exact sp.untouched hd1
      simp only [Dec.receive, e]
      rcases sp.res with ⟨k, rfl, a, rfl, rfl⟩ | ⟨a, b, c, rfl, rfl⟩ | ⟨n, _, a, b, c, _⟩ | ⟨n, a, b, c, hz⟩
      · rw [a]; exact ih _ _ hok hb h8 hst
      · rw [c]
        refine ⟨_, _, _, rfl, Or.inr ?_, hok, hb, h8, hst, fun _ => ?_⟩ <;> rw [hhd0 a, hb]
      · rw [hhd a, hb] at c; omega
      · rw [a]
        obtain ⟨x, d', src', h1, h2, h3, h4, h5, h6, h7⟩ := ih d1 src1 sp.ok hb1 hd1 hst1
        refine ⟨x, d', src', h1, h2, h3, h4, h5, h6, ?_⟩
        intro h9
        apply h7
        cases n with
        | succ n => omega
        | zero =>
          rcases hz rfl with q | q
          · exfalso
            have hl := congrArg List.length hst
            rw [q] at hl
            simp only [List.append_nil, Dec.data_length hok, List.length_append, hh] at hl
            have h10 : 8 ≤ d.off := by omega
            have h11 := hhd0 h10
            rcases Dec.nextSlice_spec hok with ⟨p, _⟩ | ⟨p, _, q'⟩ | ⟨p, q, _⟩ | ⟨p, q, _⟩
            · omega
            · unfold Dec.read at e; rw [q'] at e; simp [a] at e
            · rw [h11, hb] at q; omega
            · rw [h11, hb] at q; omega
          · subst q; simp only [transfers] at h9; omega
  obtain ⟨x, d', src', h1, h2, h3, h4, h5, h6, h7⟩ := key os (Dec.new buf) (header ++ rest) (Dec.new_ok buf) rfl
    (by show 0 ≤ 8; omega) (by simp [Dec.data, Dec.new])
  have hlen := congrArg List.length h6
  simp only [List.length_append, Dec.data_length h3, hh] at hlen
  refine ⟨x, d', src', h1, h2, h4, by omega, ⟨d'.data, h6⟩, ?_, ?_⟩
  · intro hsr o
    subst hsr
    have h8 : 8 ≤ d'.off := by omega
    have hd : d'.header = header := by
      have h9 := congrArg (List.take 8) h6
      rwa [List.take_append_of_le_length (by rw [Dec.data_length h3]; exact h8), List.take_left' hh, Dec.data_take h3 h8] at h9
    unfold Dec.read
    rcases Dec.nextSlice_spec h3 with ⟨p, _⟩ | ⟨p, _, q'⟩ | ⟨p, q, _⟩ | ⟨p, q, _⟩
    · omega
    · rw [q', hd, h4]
    · rw [hd, h4] at q; omega
    · rw [hd, h4] at q; omega
  · intro h9
    apply h7
    show 9 ≤ 0 + _
    omega

/-- C33-C35: a concrete schedule with short writes, interruptions and short reads. -/
example : (Enc.fromMessage [7, 8, 9]).map (fun e => e.writeAll [.ok 3, .err .interrupted, .ok 100, .ok 1, .ok 9])
    = .ok (some (.ok ()), ⟨[7, 8, 9], [3, 0, 0, 0, 0, 0, 0, 0], 11⟩, [3, 0, 0, 0, 0, 0, 0, 0, 7, 8, 9]) := by
  rfl

example : ((Dec.new [1, 1, 1, 1]).receive (frames [[7, 8, 9], [], [5]])
    [.ok 3, .err .wouldBlock, .ok 100, .ok 1, .ok 9, .ok 100, .ok 2, .err .interrupted, .ok 6, .ok 1]).1 = [[7, 8, 9], [], [5]] := by
  decide +kernel

/-- C34: a frame of 2^32 bytes for a buffer of 4. -/
example : (Dec.new [1, 1, 1, 1]).receive ([0, 0, 0, 0, 1, 0, 0, 0] ++ [9, 9]) [.ok 100, .ok 1]
    = ([], some (.tooLarge (2 ^ 32) 4), ⟨[0, 0, 0, 0, 1, 0, 0, 0], [1, 1, 1, 1], 8⟩, [9, 9]) := by
  decide +kernel

end Verif.LengthPrefix
