import Verif.Model.LengthPrefixApi
import Verif.Thm.LengthPrefix
/-
C86: the encoder's and decoder's public calls keep the buffer's bounds: a length or position is
accepted exactly when it is in range, a refused one changes nothing, and no call panics.
-/
namespace Verif.LengthPrefix

/-! ### Specification -/

/-- A message length and a writing position that make sense for a buffer of `n` bytes: the message
lies in the buffer, the position in the frame (8 bytes of length, then the message). -/
def InRange (n len pos : Nat) : Prop := len ≤ n ∧ pos ≤ 8 + len

instance (n len pos : Nat) : Decidable (InRange n len pos) := by unfold InRange; exact inferInstance

/-- The message length and writing position a call asks for, given the present ones. -/
def Enc.Call.wants (len pos : Nat) : Enc.Call → Nat × Nat
  | .setHeader h => (leNat h, pos)
  | .setMessageLen n => (n, pos)
  | .setPos p => (len, p)
  | .setHeaderOffset o => (len, o)
  | .setMessageOffset o => (len, 8 + o)
  | .advance o => (len, pos + o)
  | .setLenPos l p => (l, p)
  | .restart => (len, 0)
  | .restartWith l => (l, 0)
  | .clear => (0, 8)
  | _ => (len, pos)

/-- The calls that set the length or the position, and nothing else. -/
def Enc.Call.positioning : Enc.Call → Bool
  | .zeroize | .write _ | .writeAll _ | .fill _ => false
  | _ => true

/-- The calls that give up the old position before the new one is checked. -/
def Enc.Call.resets : Enc.Call → Bool
  | .setLenPos _ _ | .restartWith _ => true
  | _ => false

namespace Enc

/-- The abstract state of an encoder. -/
def At (e : Enc) (buf : Bytes) (len pos : Nat) : Prop :=
  e.buf = buf ∧ e.header.length = 8 ∧ e.messageLen = len ∧ e.pos = pos

theorem ok_iff (e : Enc) : e.Ok ↔ e.header.length = 8 ∧ InRange e.buf.length e.messageLen e.pos :=
  ⟨fun h => ⟨h.header, h.len, h.pos⟩, fun h => ⟨h.1, h.2.1, h.2.2⟩⟩

theorem setHeader_ok {e : Enc} {h : Bytes} (hr : InRange e.buf.length (leNat h) e.pos) :
    e.setHeader h = .ok { e with header := h } := by
  unfold setHeader messageLen messageOffset headerSize
  dsimp only
  obtain ⟨a, b⟩ := hr
  rw [if_neg (by omega), if_neg (by omega)]

theorem setHeader_err {e : Enc} {h : Bytes} (hr : ¬ InRange e.buf.length (leNat h) e.pos) :
    e.setHeader h = .error (if e.buf.length < leNat h then .tooLarge else .outOfMessage) := by
  unfold setHeader messageLen messageOffset headerSize
  dsimp only
  unfold InRange at hr
  by_cases hc : e.buf.length < leNat h
  · rw [if_pos (by omega), if_pos hc]
  · rw [if_neg (by omega), if_pos (by omega), if_neg hc]

theorem setPos_ok {e : Enc} {p : Nat} (hr : InRange e.buf.length e.messageLen p) :
    e.setPos p = .ok { e with pos := p } := by
  unfold setPos messageOffset headerSize
  obtain ⟨a, b⟩ := hr
  unfold messageLen at *
  dsimp only
  rw [if_neg (by omega), if_neg (by omega)]

theorem setPos_err {e : Enc} {p : Nat} (hl : e.messageLen ≤ e.buf.length) (hr : ¬ InRange e.buf.length e.messageLen p) :
    e.setPos p = .error (if 8 + e.buf.length < p then .outOfBuffer else .outOfMessage) := by
  unfold setPos messageOffset headerSize
  unfold InRange at hr
  unfold messageLen at *
  dsimp only
  by_cases hc : 8 + e.buf.length < p
  · rw [if_pos (by omega), if_pos hc]
  · rw [if_neg (by omega), if_pos (by omega), if_neg hc]

theorem le8 {n : Nat} (h : n < 2 ^ 64) : leNat (toLE 8 n) = n := leNat_toLE 8 n (by simpa using h)

theorem setLenPos_ok {e : Enc} {l p : Nat} (h64 : l < 2 ^ 64) (hr : InRange e.buf.length l p) :
    e.setLenPos l p = (.ok (), ⟨e.buf, toLE 8 l, p⟩) := by
  obtain ⟨b, h, q⟩ := e
  exact setLenPos_spec b h q l p h64 hr.1 hr.2

theorem setLenPos_err {e : Enc} {l p : Nat} (hok : e.Ok) (h64 : l < 2 ^ 64) (hr : ¬ InRange e.buf.length l p) :
    ∃ x e', e.setLenPos l p = (.error x, e') ∧ x ≠ .panic ∧ (p = 0 → x ≠ .outOfBuffer) ∧ e'.Ok ∧ e'.buf = e.buf ∧
      e'.pos = 0 ∧ (e'.messageLen = e.messageLen ∨ e'.messageLen = l) := by
  unfold setLenPos setMessageLen
  dsimp only
  by_cases hl : l ≤ e.buf.length
  · rw [setHeader_ok (by rw [le8 h64]; exact ⟨hl, Nat.zero_le _⟩)]
    dsimp only
    have hlen : messageLen { e with pos := 0, header := toLE 8 l } = l := le8 h64
    rw [setPos_err (by rw [hlen]; exact hl) (by rw [hlen]; exact hr)]
    refine ⟨_, _, rfl, by split <;> simp, ?_, ⟨toLE_length _ _, by rw [le8 h64]; exact hl, Nat.zero_le _⟩, rfl, rfl, Or.inr hlen⟩
    intro hp
    exact absurd ⟨hl, by omega⟩ hr
  · rw [setHeader_err (by rw [le8 h64]; exact fun h => hl h.1)]
    exact ⟨_, _, rfl, by split <;> simp, fun _ => by rw [le8 h64, if_pos (by dsimp only; omega)]; simp,
      ⟨hok.header, hok.len, Nat.zero_le _⟩, rfl, rfl, Or.inl rfl⟩

theorem clear_ok' {e : Enc} : e.clear = .ok ⟨e.buf, toLE 8 0, 8⟩ := by
  unfold clear
  rw [setLenPos_ok (by decide) ⟨Nat.zero_le _, Nat.zero_le _⟩]
  dsimp only
  unfold setMessageOffset
  rw [setPos_ok ⟨by rw [show messageLen ⟨e.buf, toLE 8 0, 0⟩ = 0 from le8 (by decide)]; exact Nat.zero_le _, by unfold headerSize; omega⟩]
  rfl

end Enc

/-- The calls that set length or position, exactly. The requested length and position are taken if
they are in range, and otherwise refused with an error and nothing changes (except that
`set_msg_len_and_position` and `restart_write_with_new_message` have then already gone back to the
start of the frame). Never a panic; the buffer is untouched. Arguments whose sum with the current
position does not fit into 64 bits are the subject of `offset_overflow`. -/
theorem positioning_exact (rel : Bool) (e : Enc) (c : Enc.Call) (hok : e.Ok) (ht : c.Typed e)
    (hc : c.positioning = true) (len pos : Nat) (hw : c.wants e.messageLen e.pos = (len, pos)) (h64 : pos < 2 ^ 64) :
    let legal := InRange e.buf.length len pos ∧ (∀ o, c = .setHeaderOffset o → o ≤ 8)
    (legal → ∃ e', e.call rel c = (.ok (), e') ∧ e'.At e.buf len pos) ∧
    (¬ legal → ∃ x e', e.call rel c = (.error x, e') ∧ x ≠ .panic ∧ e'.Ok ∧ e'.buf = e.buf ∧
      (c.resets = false → e' = e) ∧
      (c.resets = true → e'.pos = 0 ∧ (e'.messageLen = e.messageLen ∨ e'.messageLen = len))) := by
  have hlen : e.messageLen ≤ e.buf.length := hok.len
  have setP : ∀ p, (InRange e.buf.length e.messageLen p → ∃ e', Enc.keep e (e.setPos p) = (.ok (), e') ∧ e'.At e.buf e.messageLen p) ∧
      (¬ InRange e.buf.length e.messageLen p → ∃ x, Enc.keep e (e.setPos p) = (.error x, e) ∧ x ≠ .panic) := by
    intro p
    refine ⟨fun h => ?_, fun h => ?_⟩
    · rw [Enc.setPos_ok h]; exact ⟨_, rfl, rfl, hok.header, rfl, rfl⟩
    · rw [Enc.setPos_err hlen h]; exact ⟨_, rfl, by split <;> simp⟩
  have setH : ∀ h : Bytes, h.length = 8 → (InRange e.buf.length (leNat h) e.pos → ∃ e', Enc.keep e (e.setHeader h) = (.ok (), e') ∧ e'.At e.buf (leNat h) e.pos) ∧
      (¬ InRange e.buf.length (leNat h) e.pos → ∃ x, Enc.keep e (e.setHeader h) = (.error x, e) ∧ x ≠ .panic) := by
    intro p hp
    refine ⟨fun h => ?_, fun h => ?_⟩
    · rw [Enc.setHeader_ok h]; exact ⟨_, rfl, rfl, hp, rfl, rfl⟩
    · rw [Enc.setHeader_err h]; exact ⟨_, rfl, by split <;> simp⟩
  -- both directions for a call that is a checked move
  have fin : ∀ {P : Prop} {r : Except EncErr Unit × Enc}, (P → ∃ e', r = (.ok (), e') ∧ e'.At e.buf len pos) →
      (¬ P → ∃ x, r = (.error x, e) ∧ x ≠ .panic) → ∀ legal : Prop, (legal ↔ P) → c.resets = false →
      (legal → ∃ e', r = (.ok (), e') ∧ e'.At e.buf len pos) ∧
      (¬ legal → ∃ x e', r = (.error x, e') ∧ x ≠ .panic ∧ e'.Ok ∧ e'.buf = e.buf ∧ (c.resets = false → e' = e) ∧
        (c.resets = true → e'.pos = 0 ∧ (e'.messageLen = e.messageLen ∨ e'.messageLen = len))) := by
    intro P r h1 h2 legal hl hr
    refine ⟨fun h => h1 (hl.1 h), fun h => ?_⟩
    obtain ⟨x, a, b⟩ := h2 (fun hp => h (hl.2 hp))
    exact ⟨x, e, a, b, hok, rfl, fun _ => rfl, fun h => by rw [hr] at h; cases h⟩
  cases c with
  | setHeader h =>
    obtain ⟨rfl, rfl⟩ := Prod.mk.inj hw
    exact fin (setH h ht).1 (setH h ht).2 _ ⟨fun h => h.1, fun h => ⟨h, fun _ hh => by cases hh⟩⟩ rfl
  | setMessageLen n =>
    obtain ⟨rfl, rfl⟩ := Prod.mk.inj hw
    have := setH (toLE 8 n) (toLE_length _ _)
    rw [Enc.le8 ht] at this
    exact fin this.1 this.2 _ ⟨fun h => h.1, fun h => ⟨h, fun _ hh => by cases hh⟩⟩ rfl
  | setPos p =>
    obtain ⟨rfl, rfl⟩ := Prod.mk.inj hw
    exact fin (setP p).1 (setP p).2 _ ⟨fun h => h.1, fun h => ⟨h, fun _ hh => by cases hh⟩⟩ rfl
  | setHeaderOffset o =>
    obtain ⟨rfl, rfl⟩ := Prod.mk.inj hw
    intro legal
    have heq : e.call rel (.setHeaderOffset o) = Enc.keep e (e.setHeaderOffset o) := rfl
    rw [heq]
    by_cases ho : o ≤ 8
    · have hr : InRange e.buf.length e.messageLen o := ⟨hlen, by omega⟩
      have : e.setHeaderOffset o = .ok { e with pos := o } := by
        unfold Enc.setHeaderOffset headerSize
        rw [if_neg (by omega), Enc.setPos_ok hr]; rfl
      rw [this]
      refine ⟨fun _ => ⟨_, rfl, rfl, hok.header, rfl, rfl⟩, fun h => absurd ⟨hr, fun o' ho' => ?_⟩ h⟩
      cases ho'; exact ho
    · have : e.setHeaderOffset o = .error .outOfHeader := by
        unfold Enc.setHeaderOffset headerSize
        rw [if_pos (by omega)]
      rw [this]
      refine ⟨fun h => absurd (h.2 o rfl) ho, fun _ => ⟨_, e, rfl, by simp, hok, rfl, fun _ => rfl, fun h => by cases h⟩⟩
  | setMessageOffset o =>
    obtain ⟨rfl, rfl⟩ := Prod.mk.inj hw
    have heq : e.call rel (.setMessageOffset o) = Enc.keep e (e.setPos (8 + o)) := by
      show e.setPosAt (addUsize rel o 8) = _
      unfold addUsize
      rw [if_pos (show o + 8 < 2 ^ 64 by omega), Nat.add_comm o 8]; rfl
    rw [heq]
    exact fin (setP (8 + o)).1 (setP (8 + o)).2 _ ⟨fun h => h.1, fun h => ⟨h, fun _ hh => by cases hh⟩⟩ rfl
  | advance o =>
    obtain ⟨rfl, rfl⟩ := Prod.mk.inj hw
    have heq : e.call rel (.advance o) = Enc.keep e (e.setPos (e.pos + o)) := by
      simp only [Enc.call, addUsize]
      rw [if_pos h64]; rfl
    rw [heq]
    exact fin (setP (e.pos + o)).1 (setP (e.pos + o)).2 _ ⟨fun h => h.1, fun h => ⟨h, fun _ hh => by cases hh⟩⟩ rfl
  | restart =>
    obtain ⟨rfl, rfl⟩ := Prod.mk.inj hw
    have hr : InRange e.buf.length e.messageLen 0 := ⟨hlen, Nat.zero_le _⟩
    have heq : e.call rel .restart = Enc.keep e (.ok { e with pos := 0 }) := by
      show Enc.keep e (Enc.unwrap (e.setPos 0)) = _
      rw [Enc.setPos_ok hr]; rfl
    rw [heq]
    exact ⟨fun _ => ⟨_, rfl, rfl, hok.header, rfl, rfl⟩, fun h => absurd ⟨hr, fun _ hh => by cases hh⟩ h⟩
  | clear =>
    obtain ⟨rfl, rfl⟩ := Prod.mk.inj hw
    have heq : e.call rel .clear = Enc.keep e (.ok ⟨e.buf, toLE 8 0, 8⟩) := by
      show Enc.keep e e.clear = _
      rw [Enc.clear_ok']
    rw [heq]
    exact ⟨fun _ => ⟨_, rfl, rfl, toLE_length _ _, Enc.le8 (by decide), rfl⟩,
      fun h => absurd ⟨⟨Nat.zero_le _, by omega⟩, fun _ hh => by cases hh⟩ h⟩
  | setLenPos l p =>
    have ht : l < 2 ^ 64 ∧ p < 2 ^ 64 := ht
    obtain ⟨rfl, rfl⟩ := Prod.mk.inj hw
    have heq : e.call rel (.setLenPos l p) = e.setLenPos l p := rfl
    rw [heq]
    refine ⟨fun h => ?_, fun h => ?_⟩
    · exact ⟨_, Enc.setLenPos_ok ht.1 h.1, rfl, toLE_length _ _, Enc.le8 ht.1, rfl⟩
    · obtain ⟨x, e', h1, h2, _, h3, h4, h5⟩ := Enc.setLenPos_err hok ht.1 (fun hr => h ⟨hr, fun _ hh => by cases hh⟩)
      exact ⟨x, e', h1, h2, h3, h4, fun h => (by cases h), fun _ => h5⟩
  | restartWith l =>
    have ht : l < 2 ^ 64 := ht
    obtain ⟨rfl, rfl⟩ := Prod.mk.inj hw
    have heq : e.call rel (.restartWith l) = e.restartWith l := rfl
    rw [heq]
    refine ⟨fun h => ?_, fun h => ?_⟩
    · refine ⟨⟨e.buf, toLE 8 l, 0⟩, ?_, rfl, toLE_length _ _, Enc.le8 ht, rfl⟩
      unfold Enc.restartWith
      rw [Enc.setLenPos_ok ht h.1]
    · obtain ⟨x, e', h1, h2, hx, h3, h4, h5⟩ := Enc.setLenPos_err hok ht (fun hr => h ⟨hr, fun _ hh => by cases hh⟩)
      refine ⟨x, e', ?_, h2, h3, h4, fun h => (by cases h), fun _ => h5⟩
      unfold Enc.restartWith
      rw [h1]
      have := hx rfl
      cases x <;> first | rfl | exact absurd rfl this
  | zeroize => cases hc
  | write o => cases hc
  | writeAll os => cases hc
  | fill b => cases hc

/-- Which error: a message too long for the buffer is reported as such. -/
theorem too_long_message_reported (rel : Bool) (e : Enc) (hok : e.Ok) (len : Nat) (h64 : len < 2 ^ 64)
    (hl : e.buf.length < len) :
    (e.call rel (.setMessageLen len)).1 = .error .tooLarge ∧ (e.call rel (.restartWith len)).1 = .error .tooLarge := by
  constructor
  · show (Enc.keep e (e.setHeader (toLE 8 len))).1 = _
    rw [Enc.setHeader_err (by rw [Enc.le8 h64]; exact fun h => absurd h.1 (by omega)), Enc.le8 h64, if_pos hl]
    rfl
  · show (e.restartWith len).1 = _
    unfold Enc.restartWith Enc.setLenPos Enc.setMessageLen
    dsimp only
    rw [Enc.setHeader_err (by rw [Enc.le8 h64]; exact fun h => absurd h.1 (by dsimp only; omega)), Enc.le8 h64, if_pos hl]

namespace Enc

theorem writeAll_ok {e : Enc} (h : e.Ok) (os : List IoOut) : ∃ r e' w, e.writeAll os = (r, e', w) ∧ e'.Ok ∧ r ≠ some (.error .panic) ∧ e'.buf = e.buf := by
  induction os generalizing e with
  | nil => exact ⟨_, _, _, rfl, h, by simp, rfl⟩
  | cons o os ih =>
    obtain ⟨r, e', w, hw, hok, hb, _, _, _, hr⟩ := write_spec h o
    unfold writeAll
    rw [hw]
    obtain ⟨r2, e2, w2, h1, h2, h3, h4⟩ := ih hok
    rcases hr with ⟨n, d, rfl, _⟩ | ⟨k, _, rfl, _⟩
    · cases d with
      | true => exact ⟨_, _, _, rfl, hok, by simp, hb⟩
      | false => dsimp only; rw [h1]; exact ⟨_, _, _, rfl, h2, h3, h4.trans hb⟩
    · cases k <;> dsimp only
      · rw [h1]; exact ⟨_, _, _, rfl, h2, h3, h4.trans hb⟩
      all_goals exact ⟨_, _, _, rfl, hok, by simp, hb⟩

end Enc

/-- An encoder built by one of the constructors (encoder.rs:180-211). -/
inductive Enc.Built : Enc → Prop
  | buffer {b e} : Enc.fromBuffer b = .ok e → Enc.Built e
  | message {b e} : b.length < 2 ^ 64 → Enc.fromMessage b = .ok e → Enc.Built e
  | short {b n e} : b.length < 2 ^ 64 → n < 2 ^ 64 → Enc.fromShortMessage b n = .ok e → Enc.Built e
  | parts {b n p e} : n < 2 ^ 64 → p < 2 ^ 64 → Enc.fromParts b n p = .ok e → Enc.Built e

theorem built_ok {e : Enc} (h : e.Built) : e.Ok := by
  cases h with
  | buffer h => rw [Enc.fromBuffer_spec] at h; cases h; exact (Enc.ok_mk _ 0 8 (by decide) (Nat.zero_le _) (by omega)).1
  | message h8 h => rw [Enc.fromMessage_spec _ h8] at h; cases h; exact (Enc.ok_mk _ _ 0 h8 (Nat.le_refl _) (by omega)).1
  | @short b n e h8 hn h =>
    unfold Enc.fromShortMessage at h
    rw [Enc.fromMessage_spec _ h8] at h
    dsimp only at h
    unfold Enc.setMessageLen at h
    by_cases hr : n ≤ b.length
    · rw [Enc.setHeader_ok (by rw [Enc.le8 hn]; exact ⟨hr, Nat.zero_le _⟩)] at h
      cases h; exact (Enc.ok_mk _ _ 0 hn hr (by omega)).1
    · rw [Enc.setHeader_err (by rw [Enc.le8 hn]; exact fun h => hr h.1)] at h
      cases h
  | @parts b n p e hn hp h =>
    unfold Enc.fromParts at h
    rw [Enc.fromBuffer_spec] at h
    dsimp only at h
    by_cases hr : InRange b.length n p
    · rw [Enc.setLenPos_ok hn hr] at h
      cases h; exact (Enc.ok_mk _ _ _ hn hr.1 hr.2).1
    · obtain ⟨x, e', h1, _⟩ := Enc.setLenPos_err (e := ⟨b, toLE 8 0, 8⟩) (Enc.ok_mk b 0 8 (by decide) (Nat.zero_le _) (by omega)).1 hn hr
      rw [h1] at h; cases h

/-- The constructors that check: refused exactly when out of range, never a panic; the others always
succeed. -/
theorem constructors_exact (b : Bytes) (n p : Nat) (h8 : b.length < 2 ^ 64) (hn : n < 2 ^ 64) :
    Enc.fromBuffer b = .ok ⟨b, toLE 8 0, 8⟩ ∧ Enc.fromMessage b = .ok ⟨b, toLE 8 b.length, 0⟩ ∧
    (n ≤ b.length → Enc.fromShortMessage b n = .ok ⟨b, toLE 8 n, 0⟩) ∧
    (¬ n ≤ b.length → Enc.fromShortMessage b n = .error .tooLarge) ∧
    (InRange b.length n p → Enc.fromParts b n p = .ok ⟨b, toLE 8 n, p⟩) ∧
    (¬ InRange b.length n p → ∃ x, Enc.fromParts b n p = .error x ∧ x ≠ .panic) := by
  refine ⟨Enc.fromBuffer_spec b, Enc.fromMessage_spec b h8, ?_, ?_, fun h => Enc.fromParts_spec b n p hn h.1 h.2, ?_⟩
  · intro hr
    unfold Enc.fromShortMessage
    rw [Enc.fromMessage_spec _ h8]
    dsimp only
    unfold Enc.setMessageLen
    rw [Enc.setHeader_ok (by rw [Enc.le8 hn]; exact ⟨hr, Nat.zero_le _⟩)]
  · intro hr
    unfold Enc.fromShortMessage
    rw [Enc.fromMessage_spec _ h8]
    dsimp only
    unfold Enc.setMessageLen
    rw [Enc.setHeader_err (by rw [Enc.le8 hn]; exact fun h => hr h.1), Enc.le8 hn, if_pos (by dsimp only; omega)]
  · intro hr
    unfold Enc.fromParts
    rw [Enc.fromBuffer_spec]
    dsimp only
    obtain ⟨x, e', h1, h2, _⟩ := Enc.setLenPos_err (e := ⟨b, toLE 8 0, 8⟩) (Enc.ok_mk b 0 8 (by decide) (Nat.zero_le _) (by omega)).1 hn hr
    rw [h1]; exact ⟨x, rfl, h2⟩

/-- A history of calls, each with typed arguments; the two calls that add to a position are not given
sums that exceed 64 bits. -/
inductive Enc.Calls (rel : Bool) : Enc → List (Except EncErr Unit) → Enc → Prop
  | start (e) : Enc.Calls rel e [] e
  | call {e e' rs} (c : Enc.Call) : Enc.Calls rel e rs e' → c.Typed e' →
      (c.wants e'.messageLen e'.pos).2 < 2 ^ 64 → Enc.Calls rel e (rs ++ [(e'.call rel c).1]) (e'.call rel c).2

theorem call_ok (rel : Bool) (e : Enc) (c : Enc.Call) (hok : e.Ok) (ht : c.Typed e)
    (hw : (c.wants e.messageLen e.pos).2 < 2 ^ 64) :
    (e.call rel c).2.Ok ∧ (e.call rel c).1 ≠ .error .panic ∧ (e.call rel c).2.buf.length = e.buf.length := by
  cases hc : c.positioning with
  | true =>
    have hx := positioning_exact rel e c hok ht hc _ _ rfl hw
    dsimp only at hx
    by_cases hl : InRange e.buf.length (c.wants e.messageLen e.pos).1 (c.wants e.messageLen e.pos).2 ∧ ∀ o, c = .setHeaderOffset o → o ≤ 8
    · obtain ⟨e', h1, h2, h3, h4, h5⟩ := hx.1 hl
      rw [h1]
      refine ⟨(Enc.ok_iff e').2 ⟨h3, ?_⟩, by simp, by dsimp only; rw [h2]⟩
      rw [h2, h4, h5]; exact hl.1
    · obtain ⟨x, e', h1, h2, h3, h4, _⟩ := hx.2 hl
      rw [h1]
      exact ⟨h3, by simpa using h2, by dsimp only; rw [h4]⟩
  | false =>
    cases c with
    | zeroize =>
      have : e.call rel .zeroize = (.ok (), ⟨List.replicate e.buf.length 0, toLE 8 0, 8⟩) := by
        show Enc.keep e e.zeroize = _
        unfold Enc.zeroize
        rw [Enc.clear_ok']; rfl
      rw [this]
      exact ⟨(Enc.ok_mk _ 0 8 (by decide) (Nat.zero_le _) (by omega)).1, by simp, by simp⟩
    | write o =>
      obtain ⟨r, e', w, h1, h2, h3, _, _, _, hr⟩ := Enc.write_spec hok o
      simp only [Enc.call, h1]
      rcases hr with ⟨n, d, rfl, _⟩ | ⟨k, _, rfl, _⟩
      · exact ⟨h2, by simp, by dsimp only; rw [h3]⟩
      · exact ⟨h2, by simp, by dsimp only; rw [h3]⟩
    | writeAll os =>
      obtain ⟨r, e', w, h1, h2, h3, h4⟩ := Enc.writeAll_ok hok os
      simp only [Enc.call, h1]
      cases r with
      | none => exact ⟨h2, by simp, by dsimp only; rw [h4]⟩
      | some r => exact ⟨h2, fun h => h3 (by rw [← h]), by dsimp only; rw [h4]⟩
    | fill b =>
      have hb : b.length = e.buf.length := ht
      exact ⟨⟨hok.header, by show leNat e.header ≤ b.length; rw [hb]; exact hok.len, hok.pos⟩, by simp [Enc.call], hb⟩
    | _ => cases hc

/-- **C86.** Whatever calls are made on an encoder, in whatever order: none panics, and the message
stays within the buffer and the position within the frame. -/
theorem encoder_calls_safe_partial (rel : Bool) {e e' : Enc} {rs : List (Except EncErr Unit)} (hb : e.Built)
    (h : Enc.Calls rel e rs e') :
    InRange e'.buf.length e'.messageLen e'.pos ∧ e'.buf.length = e.buf.length ∧ ∀ r ∈ rs, r ≠ .error .panic := by
  suffices hs : e'.Ok ∧ e'.buf.length = e.buf.length ∧ ∀ r ∈ rs, r ≠ .error .panic from
    ⟨((Enc.ok_iff e').1 hs.1).2, hs.2⟩
  induction h with
  | start => exact ⟨built_ok hb, rfl, by simp⟩
  | @call e' rs c _ ht hw ih =>
    obtain ⟨h1, h2, h3⟩ := ih
    obtain ⟨k1, k2, k3⟩ := call_ok rel e' c h1 ht hw
    refine ⟨k1, k3.trans h2, ?_⟩
    intro r hr
    rcases List.mem_append.1 hr with hr | hr
    · exact h3 r hr
    · rw [List.mem_singleton] at hr; rw [hr]; exact k2

/-- In that state the views of the encoder fit together and none of them is out of bounds: what has
been written and what is left make up the frame, split at the position; `exhausted` says that nothing
is left. -/
theorem encoder_views {e : Enc} (h : e.Ok) :
    e.message = some (e.buf.take e.messageLen) ∧
    ∃ mw ml s, e.messageWritten = some mw ∧ e.messageLeft = some ml ∧ e.nextSlice = some s ∧
      mw ++ ml = e.buf.take e.messageLen ∧
      e.headerWritten ++ e.headerLeft = e.header ∧
      e.headerWritten ++ mw = (e.header ++ e.buf.take e.messageLen).take e.pos ∧
      e.headerLeft ++ ml = (e.header ++ e.buf.take e.messageLen).drop e.pos ∧
      (s = [] ↔ e.headerLeft ++ ml = []) ∧ s <+: e.headerLeft ++ ml ∧
      e.exhausted = some (decide (e.pos = 8 + e.messageLen)) := by
  have h1 := h.header; have h2 : e.messageLen ≤ e.buf.length := h.len; have h3 : e.pos ≤ 8 + e.messageLen := h.pos
  have hm : e.message = some (e.buf.take e.messageLen) := by unfold Enc.message; rw [if_pos h2]
  have hl : (e.buf.take e.messageLen).length = e.messageLen := by simp; omega
  refine ⟨hm, (e.buf.take e.messageLen).take (e.pos - 8), (e.buf.take e.messageLen).drop (e.pos - 8), ?_⟩
  obtain ⟨s, hs, hp, hn⟩ := Enc.nextSlice_eq h
  have hw : e.headerLeft ++ (e.buf.take e.messageLen).drop (e.pos - 8) = (e.header ++ e.buf.take e.messageLen).drop e.pos := by
    unfold Enc.headerLeft Enc.headerOffset headerSize
    rw [List.drop_append, h1]
    congr 1
    by_cases hc : e.pos ≤ 8
    · rw [Nat.min_eq_left hc]
    · rw [Nat.min_eq_right (by omega), List.drop_eq_nil_of_le (by omega), List.drop_eq_nil_of_le (by omega)]
  refine ⟨s, ?_, ?_, hs, List.take_append_drop _ _, List.take_append_drop _ _, ?_, hw, ?_, ?_, ?_⟩
  · unfold Enc.messageWritten Enc.messageOffset headerSize; rw [hm]; dsimp only; rw [if_pos (by omega)]
  · unfold Enc.messageLeft Enc.messageOffset headerSize; rw [hm]; dsimp only; rw [if_pos (by omega)]
  · unfold Enc.headerWritten Enc.headerOffset headerSize
    rw [List.take_append, h1]
    congr 1
    by_cases hc : e.pos ≤ 8
    · rw [Nat.min_eq_left hc]
    · rw [Nat.min_eq_right (by omega), List.take_of_length_le (by omega), List.take_of_length_le (by omega)]
  · rw [hw, hn]
    have hlen := Enc.wire_length h
    unfold Enc.wire Enc.sending at hlen
    constructor
    · intro h; apply List.drop_eq_nil_of_le; rw [show e.messageLen = leNat e.header from rfl, hlen]; omega
    · intro hh
      have := congrArg List.length hh
      rw [List.length_drop, show e.messageLen = leNat e.header from rfl, hlen] at this
      simp at this; unfold Enc.messageLen at h3; omega
  · rw [hw]; exact hp
  · unfold Enc.exhausted; rw [hs]
    simp only [Option.map_some, Option.some.injEq]
    unfold Enc.messageLen
    by_cases hc : e.pos = 8 + leNat e.header
    · rw [hn.2 hc]; simp [hc]
    · have : s ≠ [] := fun h => hc (hn.1 h)
      simp [hc, this]

/-- An offset near the end of the address space, on the other hand, is not refused: with overflow
checks `set_message_offset` panics, without them it takes the offset for a position at the start of
the frame. -/
theorem offset_overflow (e : Enc) (hok : e.Ok) :
    (e.call false (.setMessageOffset (2 ^ 64 - 8))).1 = .error .panic ∧
    (e.call true (.setMessageOffset (2 ^ 64 - 8))) = (.ok (), { e with pos := 0 }) := by
  constructor
  · rfl
  · show Enc.keep e (e.setPos 0) = _
    rw [Enc.setPos_ok ⟨hok.len, Nat.zero_le _⟩]; rfl

/-- Non-vacuity: an encoder over a 4 byte buffer; a message of 5 bytes is refused, of 3 taken, the
position then runs to the end of the frame and not beyond. -/
example : ∃ e, Enc.Built e ∧ Enc.Calls true e
    [.error .tooLarge, .ok (), .ok (), .error .outOfMessage, .ok ()] ⟨[1, 2, 3, 4], toLE 8 3, 11⟩ := by
  refine ⟨_, .buffer (Enc.fromBuffer_spec [1, 2, 3, 4]), ?_⟩
  have h0 := Enc.Calls.start (rel := true) ⟨[1, 2, 3, 4], toLE 8 0, 8⟩
  have h1 := h0.call (.setMessageLen 5) (show 5 < 2 ^ 64 by decide) (by decide)
  have h2 := h1.call (.setMessageLen 3) (show 3 < 2 ^ 64 by decide) (by decide)
  have h3 := h2.call (.setMessageOffset 1) (show 1 < 2 ^ 64 by decide) (by decide)
  have h4 := h3.call (.advance 3) (show 3 < 2 ^ 64 by decide) (by decide)
  have h5 := h4.call (.advance 2) (show 2 < 2 ^ 64 by decide) (by decide)
  exact h5

/-! ### Decoder -/

/-- The calls that feed a decoder (decoder.rs:181, 257-323); `rest` is what the stream holds. -/
inductive Dec.Call where
  | clear
  | read (src : Bytes) (o : IoOut)
  | readAll (src : Bytes) (os : List IoOut)
  deriving DecidableEq, Repr, Inhabited

/-- The error of a call, if any, and the decoder afterwards. -/
def Dec.call (d : Dec) : Dec.Call → Option DecErr × Dec
  | .clear => (none, d.clear)
  | .read src o =>
    match d.read src o with
    | (.ok _, d1, _) => (none, d1)
    | (.error x, d1, _) => (some x, d1)
  | .readAll src os =>
    match d.readAll src os with
    | (some (.error x), d1, _) => (some x, d1)
    | (_, d1, _) => (none, d1)

inductive Dec.Calls : Dec → List (Option DecErr) → Dec → Prop
  | start (d) : Dec.Calls d [] d
  | call {d d' rs} (c : Dec.Call) : Dec.Calls d rs d' → Dec.Calls d (rs ++ [(d'.call c).1]) (d'.call c).2

theorem Dec.read_ok {d : Dec} (h : d.Ok) (src : Bytes) (o : IoOut) :
    (d.read src o).2.1.Ok ∧ (d.read src o).1 ≠ .error .panic ∧ (d.read src o).2.1.buf.length = d.buf.length := by
  obtain ⟨r, d', src', h1, h2⟩ := Dec.read_spec h src o
  rw [h1]
  refine ⟨h2.ok, ?_, h2.size⟩
  rcases h2.res with ⟨k, _, hr, _⟩ | ⟨_, _, hr, _⟩ | ⟨n, hr, _⟩ | ⟨n, hr, _⟩ <;> rw [hr] <;> simp

theorem Dec.readAll_ok {d : Dec} (h : d.Ok) (src : Bytes) (os : List IoOut) :
    (d.readAll src os).2.1.Ok ∧ (d.readAll src os).1 ≠ some (.error .panic) ∧ (d.readAll src os).2.1.buf.length = d.buf.length := by
  induction os generalizing d src with
  | nil => exact ⟨h, by simp [Dec.readAll], rfl⟩
  | cons o os ih =>
    obtain ⟨r, d', src', h1, h2⟩ := Dec.read_spec h src o
    unfold Dec.readAll
    rw [h1]
    have hrec := ih h2.ok src'
    rw [h2.size] at hrec
    rcases h2.res with ⟨k, _, rfl, _⟩ | ⟨_, _, rfl, _⟩ | ⟨n, rfl, h8, hdl, hf, _⟩ | ⟨n, rfl, _⟩
    · cases k <;> dsimp only
      · exact hrec
      all_goals exact ⟨h2.ok, by simp, h2.size⟩
    · exact ⟨h2.ok, by simp, h2.size⟩
    · dsimp only
      have hoff : d'.off = 8 + leNat d'.header := by
        rw [Dec.data_length h2.ok, Dec.data_take h2.ok h8] at hdl; exact hdl
      have hfit : leNat d'.header ≤ d'.buf.length := by rw [Dec.data_take h2.ok h8] at hf; rw [h2.size]; exact hf
      rcases Dec.message_spec h2.ok with ⟨a, _⟩ | ⟨_, a, _⟩ | ⟨_, _, a, _⟩ | ⟨_, _, hm⟩
      · omega
      · omega
      · omega
      · rw [hm]; exact ⟨h2.ok, by simp, h2.size⟩
    · cases n with
      | zero => exact ⟨h2.ok, by simp, h2.size⟩
      | succ n => exact hrec

/-- **C86.** A decoder fed from any streams in any way never panics, and its views never go out of
bounds: `has_header`, `message_size`, `has_message` and `message` say what has been received. -/
theorem decoder_calls_safe {b : Bytes} {d : Dec} {rs : List (Option DecErr)} (h : Dec.Calls (Dec.new b) rs d) :
    (∀ r ∈ rs, r ≠ some .panic) ∧ d.buf.length = b.length ∧
    (d.hasHeader = true ↔ 8 ≤ d.data.length) ∧
    (∀ n, d.getHeader = some n ↔ 8 ≤ d.data.length ∧ n = leNat (d.data.take 8)) ∧
    (d.hasMessage = .ok true ↔ ∃ m, d.message = .ok (some m)) ∧
    (∀ m, d.message = .ok (some m) ↔ (8 ≤ d.data.length ∧ m = d.data.drop 8 ∧ m.length = leNat (d.data.take 8))) ∧
    d.message ≠ .error .panic ∧ d.hasMessage ≠ .error .panic ∧ d.nextSlice ≠ .error .panic := by
  suffices hs : d.Ok ∧ d.buf.length = b.length ∧ ∀ r ∈ rs, r ≠ some .panic by
    obtain ⟨hok, hbl, hr⟩ := hs
    have hdl := Dec.data_length hok
    have hh : d.hasHeader = true ↔ 8 ≤ d.data.length := by
      rw [hdl]; unfold Dec.hasHeader Dec.headerOffset headerSize; rw [decide_eq_true_iff]; omega
    have h4 : ∀ n, d.getHeader = some n ↔ 8 ≤ d.data.length ∧ n = leNat (d.data.take 8) := by
      intro n
      rw [hdl]
      unfold Dec.getHeader Dec.headerOffset headerSize
      by_cases h8 : 8 ≤ d.off
      · rw [if_pos (by omega), Dec.data_take hok h8]
        constructor
        · intro h; cases h; exact ⟨h8, rfl⟩
        · rintro ⟨_, rfl⟩; rfl
      · rw [if_neg (by omega)]
        constructor
        · intro h; cases h
        · rintro ⟨h, _⟩; exact absurd h h8
    have hmb := hok.buf
    have hav : d.availLen = .ok (d.off - 8) := by
      unfold Dec.availLen Dec.messageOffset headerSize; rw [if_pos (by omega)]
    rcases Dec.message_spec hok with ⟨a, hm⟩ | ⟨a, a2, hm⟩ | ⟨a, a2, a3, hm⟩ | ⟨a, a2, hm⟩
    · have hg : d.getHeader = none := by unfold Dec.getHeader Dec.headerOffset headerSize; rw [if_neg (by omega)]
      have hhm : d.hasMessage = .ok false := by unfold Dec.hasMessage Dec.ensureBuf; rw [hg]
      refine ⟨hr, hbl, hh, h4, ?_, ?_, by rw [hm]; simp, by rw [hhm]; simp, ?_⟩
      · rw [hhm, hm]; simp
      · intro m; rw [hm, hdl]
        constructor
        · intro h; cases h
        · rintro ⟨h, _⟩; omega
      · rcases Dec.nextSlice_spec hok with ⟨_, h⟩ | ⟨_, _, h⟩ | ⟨_, _, _, h⟩ | ⟨_, _, h⟩ <;> rw [h] <;> simp
    · have hg : d.getHeader = some (leNat d.header) := by unfold Dec.getHeader Dec.headerOffset headerSize; rw [if_pos (by omega)]
      have hhm : d.hasMessage = .error (.tooLarge (leNat d.header) d.buf.length) := by
        unfold Dec.hasMessage Dec.ensureBuf; rw [hg]; dsimp only; rw [if_neg (by omega)]
      refine ⟨hr, hbl, hh, h4, ?_, ?_, by rw [hm]; simp, by rw [hhm]; simp, ?_⟩
      · rw [hhm, hm]; simp
      · intro m; rw [hm, Dec.data_take hok a, Dec.data_drop hok a]
        constructor
        · intro h; cases h
        · rintro ⟨_, rfl, h⟩
          simp only [List.length_take] at h
          omega
      · rcases Dec.nextSlice_spec hok with ⟨_, h⟩ | ⟨_, _, h⟩ | ⟨_, _, _, h⟩ | ⟨_, _, h⟩ <;> rw [h] <;> simp
    · have hg : d.getHeader = some (leNat d.header) := by unfold Dec.getHeader Dec.headerOffset headerSize; rw [if_pos (by omega)]
      have hhm : d.hasMessage = .ok false := by
        unfold Dec.hasMessage Dec.ensureBuf; rw [hg]; dsimp only; rw [if_pos a2, hav]; dsimp only
        rw [decide_eq_false (by omega)]
      refine ⟨hr, hbl, hh, h4, ?_, ?_, by rw [hm]; simp, by rw [hhm]; simp, ?_⟩
      · rw [hhm, hm]; simp
      · intro m; rw [hm, Dec.data_take hok a, Dec.data_drop hok a]
        constructor
        · intro h; cases h
        · rintro ⟨_, rfl, h⟩
          simp only [List.length_take] at h
          omega
      · rcases Dec.nextSlice_spec hok with ⟨_, h⟩ | ⟨_, _, h⟩ | ⟨_, _, _, h⟩ | ⟨_, _, h⟩ <;> rw [h] <;> simp
    · have hg : d.getHeader = some (leNat d.header) := by unfold Dec.getHeader Dec.headerOffset headerSize; rw [if_pos (by omega)]
      have hhm : d.hasMessage = .ok true := by
        unfold Dec.hasMessage Dec.ensureBuf; rw [hg]; dsimp only; rw [if_pos a2, hav]; dsimp only
        rw [decide_eq_true (by omega)]
      refine ⟨hr, hbl, hh, h4, ?_, ?_, by rw [hm]; simp, by rw [hhm]; simp, ?_⟩
      · rw [hhm, hm]; simp
      · intro m; rw [hm, hdl, Dec.data_take hok (by omega), Dec.data_drop hok (by omega), a]
        rw [show 8 + leNat d.header - 8 = leNat d.header by omega]
        constructor
        · intro h; cases h; exact ⟨by omega, rfl, by simp; omega⟩
        · rintro ⟨_, rfl, _⟩; rfl
      · rcases Dec.nextSlice_spec hok with ⟨_, h⟩ | ⟨_, _, h⟩ | ⟨_, _, _, h⟩ | ⟨_, _, h⟩ <;> rw [h] <;> simp
  generalize hd0 : Dec.new b = d0 at h
  induction h with
  | start => rw [← hd0]; exact ⟨Dec.new_ok b, rfl, by simp⟩
  | @call d' rs c _ ih =>
    obtain ⟨h1, h2, h3⟩ := ih
    have key : (d'.call c).2.Ok ∧ (d'.call c).1 ≠ some .panic ∧ (d'.call c).2.buf.length = d'.buf.length := by
      cases c with
      | clear => exact ⟨Dec.clear_ok h1, by simp [Dec.call], by simp [Dec.call, Dec.clear]⟩
      | read src o =>
        obtain ⟨a, b, c⟩ := Dec.read_ok h1 src o
        dsimp only [Dec.call]
        generalize d'.read src o = x at *
        obtain ⟨r, d1, s⟩ := x
        dsimp only at a b c ⊢
        cases r with
        | ok v => exact ⟨a, by simp, c⟩
        | error v => exact ⟨a, fun h => b (by rw [Option.some.inj h]), c⟩
      | readAll src os =>
        obtain ⟨a, b, c⟩ := Dec.readAll_ok h1 src os
        dsimp only [Dec.call]
        generalize d'.readAll src os = x at *
        obtain ⟨r, d1, s⟩ := x
        dsimp only at a b c ⊢
        rcases r with _ | (v | v)
        · exact ⟨a, by simp, c⟩
        · exact ⟨a, fun h => b (by rw [Option.some.inj h]), c⟩
        · exact ⟨a, by simp, c⟩
    refine ⟨key.1, key.2.2.trans h2, ?_⟩
    intro r hr
    rcases List.mem_append.1 hr with hr | hr
    · exact h3 r hr
    · rw [List.mem_singleton] at hr; rw [hr]; exact key.2.1

/-- The decoder's `advance`, offered for feeding a decoder by hand, does not keep that promise: a step
that completes the header is not checked against the length in it, so the offset may run past the end
of the message, and looking at the message then panics. -/
theorem advance_past_message (buf : Bytes) (n : Nat) (hb : n < buf.length) (h64 : buf.length < 2 ^ 64) :
    ∃ d', Dec.advance { Dec.new buf with header := toLE 8 n } (9 + n) = .ok d' ∧ d'.message = .error .panic := by
  have hv : leNat (toLE 8 n) = n := Enc.le8 (by omega)
  refine ⟨{ header := toLE 8 n, buf := buf, off := 9 + n }, ?_, ?_⟩
  · unfold Dec.advance Dec.new Dec.getHeader Dec.headerOffset headerSize
    dsimp only
    rw [if_neg (by omega), if_neg (by rw [if_neg (by decide)]; simp)]
    simp
  · unfold Dec.message Dec.fragmentAvail Dec.availLen Dec.fragment Dec.ensureBuf Dec.getHeader Dec.messageOffset Dec.headerOffset headerSize
    dsimp only
    rw [if_pos (by omega), if_pos (by omega), hv]
    dsimp only
    rw [if_pos (by omega)]
    simp only [Option.map_some]
    rw [if_neg (by rw [List.length_take]; omega)]

/-- Non-vacuity: a decoder that has read one frame in two pieces. -/
example : ∃ rs d, Dec.Calls (Dec.new [0, 0, 0]) rs d ∧ d.message = .ok (some [7, 8]) := by
  have h1 := (Dec.Calls.start (Dec.new [0, 0, 0])).call (.read (toLE 8 2 ++ [7, 8]) (.ok 8))
  have h2 := h1.call (.read [7, 8] (.ok 5))
  exact ⟨_, _, h2, rfl⟩

end Verif.LengthPrefix
