import Verif.Thm.ApiLive
import Verif.Thm.BrokerClient
import Verif.Thm.LengthPrefixApi
import Verif.Thm.Broker
/-
C121: what is left of messages in the buffers they passed through.
-/
namespace Verif.LengthPrefix

/-- all bytes are zero -/
def Blank (b : Bytes) : Prop := ∀ x ∈ b, x = 0

theorem blank_replicate (n : Nat) : Blank (List.replicate n 0) := fun _ h => List.eq_of_mem_replicate h
theorem Blank.drop {b : Bytes} (h : Blank b) (n : Nat) : Blank (b.drop n) := fun x hx => h x (List.mem_of_mem_drop hx)

/-- **C121.** Whatever a decoder went through, after `clear` it is a new decoder over a buffer of zeros: nothing of any message is left in it. -/
theorem cleared_decoder_blank {b : Bytes} {d : Dec} {rs : List (Option DecErr)} (h : Dec.Calls (Dec.new b) rs d) : d.clear = Dec.new (List.replicate b.length 0) := by
  have hl := (decoder_calls_safe h).2.1
  have hh : d.header.length = 8 := by
    suffices hs : d.Ok from hs.header
    clear hl
    generalize hd0 : Dec.new b = d0 at h
    induction h with
    | start => rw [← hd0]; exact Dec.new_ok b
    | @call d' rs c _ ih =>
      cases c with
      | clear => exact Dec.clear_ok ih
      | read src o =>
        have := (Dec.read_ok ih src o).1
        dsimp only [Dec.call]
        generalize d'.read src o = x at *
        obtain ⟨r, d1, s⟩ := x
        cases r <;> exact this
      | readAll src os =>
        have := (Dec.readAll_ok ih src os).1
        dsimp only [Dec.call]
        generalize d'.readAll src os = x at *
        obtain ⟨r, d1, s⟩ := x
        rcases r with _ | (v | v) <;> exact this
  unfold Dec.clear Dec.new
  rw [hh, hl]

/-- **C121.** An encoder that was zeroized is empty, and its buffer holds zeros only, whatever it was before. -/
theorem zeroized_encoder_blank (e : Enc) : ∃ e', e.zeroize = .ok e' ∧ Blank e'.buf ∧ Blank e'.header ∧ e'.buf.length = e.buf.length ∧ e'.message = some [] ∧ e'.exhausted = some true := by
  refine ⟨_, Enc.fromBuffer_spec _, blank_replicate _, ?_, by simp, ?_, ?_⟩
  · have : toLE 8 0 = List.replicate 8 0 := by decide
    rw [this]; exact blank_replicate _
  · simp [Enc.message, Enc.messageLen, leNat_toLE]
  · simp [Enc.exhausted, Enc.nextSlice, Enc.headerLeft, Enc.headerOffset, headerSize, Enc.messageLeft, Enc.message, Enc.messageLen, Enc.messageOffset, leNat_toLE, toLE_length]

/-- `clear` of an encoder, other than that of a decoder, leaves the bytes of the message in the buffer. -/
theorem cleared_encoder_keeps_bytes (e : Enc) : ∃ e', e.clear = .ok e' ∧ e'.message = some [] ∧ e'.buf = e.buf := by
  refine ⟨_, Enc.clear_ok', ?_, rfl⟩
  simp [Enc.message, Enc.messageLen, leNat_toLE]

/-- beyond what was received, the memory of the decoder is blank -/
def Dec.Clean (d : Dec) : Prop := Blank (d.header.drop d.off) ∧ Blank (d.buf.drop (d.off - 8))
/-- beyond the message, the memory of the encoder is blank; and everything is if nothing is left to send -/
def Enc.Clean (e : Enc) : Prop := Blank (e.buf.drop e.messageLen) ∧ (e.exhausted = some true → Blank e.buf)

theorem Dec.clear_clean (d : Dec) : d.clear.Clean := ⟨(blank_replicate _).drop _, (blank_replicate _).drop _⟩

theorem drop_fill (b bs : Bytes) (n m : Nat) (hn : n ≤ b.length) : ((b.take n ++ bs ++ b.drop (n + m))).drop (n + bs.length) = b.drop (n + m) := by
  have : (b.take n ++ bs).length = n + bs.length := by simp; omega
  rw [← this, List.drop_left]

theorem Dec.read_clean {d : Dec} (hok : d.Ok) (h : d.Clean) (src : Bytes) (o : IoOut) : (d.read src o).2.1.Clean := by
  obtain ⟨h1, h2⟩ := h
  have e1 := hok.header
  have e2 := hok.buf
  have e3 := hok.msg
  have hnp := (Dec.read_ok hok src o).2.1
  unfold Dec.read at hnp ⊢
  rcases Dec.nextSlice_spec hok with ⟨a, b⟩ | ⟨a, b, c⟩ | ⟨a, b, c, e⟩ | ⟨a, b, c⟩
  · rw [b] at hnp ⊢
    dsimp only at hnp ⊢
    cases o with
    | err k => exact ⟨h1, h2⟩
    | ok n =>
      dsimp only at hnp ⊢
      generalize hm : min n (min (8 - d.off) src.length) = k at hnp ⊢
      have hk : k ≤ 8 - d.off ∧ k ≤ src.length := by omega
      have hl : (src.take k).length = k := by simp; omega
      cases hadv : (d.fill .header (src.take k)).advance k with
      | error x => rw [hadv] at hnp; exact absurd rfl hnp
      | ok d2 =>
        dsimp only
        have hd2 : d2 = { d.fill .header (src.take k) with off := (d.fill .header (src.take k)).off + k } := by
          unfold Dec.advance at hadv
          dsimp only at hadv
          split at hadv
          · cases hadv
          · split at hadv
            · cases hadv
            · cases hadv; rfl
        have hc : d2.Clean := by
          subst hd2
          simp only [Dec.fill, Dec.headerOffset, headerSize]
          rw [show min d.off 8 = d.off from by omega]
          refine ⟨?_, ?_⟩
          · dsimp only
            rw [hl, show d.off + k = d.off + (src.take k).length from by rw [hl], drop_fill _ _ _ _ (by omega), hl, ← List.drop_drop]
            exact h1.drop _
          · dsimp only
            rw [show d.off + k - 8 = d.off - 8 from by omega]
            exact h2
        split <;> exact hc
  · rw [c]; exact ⟨h1, h2⟩
  · rw [e] at hnp ⊢
    dsimp only at hnp ⊢
    cases o with
    | err k => exact ⟨h1, h2⟩
    | ok n =>
      dsimp only at hnp ⊢
      generalize hm : min n (min (8 + leNat d.header - d.off) src.length) = k at hnp ⊢
      have hk : k ≤ 8 + leNat d.header - d.off ∧ k ≤ src.length := by omega
      have hl : (src.take k).length = k := by simp; omega
      cases hadv : (d.fill .message (src.take k)).advance k with
      | error x => rw [hadv] at hnp; exact absurd rfl hnp
      | ok d2 =>
        dsimp only
        have hd2 : d2 = { d.fill .message (src.take k) with off := (d.fill .message (src.take k)).off + k } := by
          unfold Dec.advance at hadv
          dsimp only at hadv
          split at hadv
          · cases hadv
          · split at hadv
            · cases hadv
            · cases hadv; rfl
        have hc : d2.Clean := by
          subst hd2
          simp only [Dec.fill, Dec.messageOffset, headerSize]
          refine ⟨?_, ?_⟩
          · dsimp only
            rw [← List.drop_drop]
            exact h1.drop _
          · dsimp only
            rw [hl, show d.off + k - 8 = (d.off - 8) + (src.take k).length from by rw [hl]; omega, drop_fill _ _ _ _ (by omega), ← List.drop_drop]
            exact h2.drop _
        split <;> exact hc
  · rw [c]
    dsimp only
    split <;> exact ⟨h1, h2⟩

/-- `write` changes only the position; it says whether the encoder is exhausted -/
theorem Enc.write_frame (e : Enc) (o : IoOut) : (e.write o).2.1.buf = e.buf ∧ (e.write o).2.1.header = e.header ∧
    (∀ n, (e.write o).1 = .ok (n, false) → (e.write o).2.1.exhausted = some false) ∧ (∀ k, (e.write o).1 = .error (.io k) → (e.write o).2.1 = e) := by
  unfold Enc.write
  split
  · exact ⟨rfl, rfl, fun _ h => (by cases h), fun _ h => (by cases h)⟩
  · split
    · exact ⟨rfl, rfl, fun _ h => (by cases h), fun _ h => (by cases h)⟩
    · split
      · exact ⟨rfl, rfl, fun _ h => (by cases h), fun _ _ => rfl⟩
      · dsimp only
        split
        · exact ⟨rfl, rfl, fun _ h => (by cases h), fun _ h => (by cases h)⟩
        · rename_i e1 hadv
          have : e1.buf = e.buf ∧ e1.header = e.header := by
            unfold Enc.advance Enc.setPos at hadv
            dsimp only at hadv
            split at hadv
            · cases hadv
            · split at hadv
              · cases hadv
              · cases hadv; exact ⟨rfl, rfl⟩
          split
          · exact ⟨this.1, this.2, fun _ h => (by cases h), fun _ h => (by cases h)⟩
          · rename_i done hd
            exact ⟨this.1, this.2, fun _ h => (by cases h; exact hd), fun _ h => (by cases h)⟩

end Verif.LengthPrefix

namespace Verif.Api
open LengthPrefix (IoKind IoOut Enc Dec Blank blank_replicate)
open FdPass (Chan RdOut)

theorem flushLoop_clean (os : List IoOut) : ∀ c : Conn, c.enc.Clean → (∀ f, (c.flushLoop os).1 ≠ .fail f) → (c.flushLoop os).2.1.enc.Clean ∧ (c.flushLoop os).2.1.dec = c.dec := by
  induction os with
  | nil => intro c h _; exact ⟨h, rfl⟩
  | cons o os ih =>
    intro c h hf
    obtain ⟨h1, h2, h3, h4⟩ := Enc.write_frame c.enc o
    rw [Conn.flushLoop] at hf ⊢
    generalize c.enc.write o = x at h1 h2 h3 h4 hf ⊢
    obtain ⟨r, e, b⟩ := x
    dsimp only at h1 h2 h3 h4
    have hlen : e.messageLen = c.enc.messageLen := by unfold Enc.messageLen; rw [h2]
    have keep : ∀ n, r = .ok (n, false) → e.Clean := fun n hr => ⟨by rw [h1, hlen]; exact h.1, fun hx => (by rw [h3 n hr] at hx; cases hx)⟩
    rcases r with x | ⟨n, d⟩
    · cases x with
      | io k =>
        cases k with
        | interrupted =>
          have he := h4 _ rfl
          subst he
          exact ih { c with enc := c.enc } h hf
        | wouldBlock => have he := h4 _ rfl; subst he; exact ⟨h, rfl⟩
        | unexpectedEof => exact absurd rfl (hf _)
        | other => exact absurd rfl (hf _)
      | _ => exact absurd rfl (hf _)
    · cases d with
      | true =>
        dsimp only at hf ⊢
        rw [zeroize_eq] at hf ⊢
        dsimp only
        exact ⟨⟨(blank_replicate _).drop _, fun _ => blank_replicate _⟩, rfl⟩
      | false =>
        cases n with
        | zero => exact ⟨keep _ rfl, rfl⟩
        | succ n => exact ih { c with enc := e } (keep _ rfl) hf

theorem flush_clean (c : Conn) (os : List IoOut) (h : c.enc.Clean) (hf : ∀ f, (c.flush os).1 ≠ .fail f) : (c.flush os).2.1.enc.Clean ∧ (c.flush os).2.1.dec = c.dec := by
  unfold Conn.flush at hf ⊢
  split
  · exact ⟨h, rfl⟩
  · exact ⟨h, rfl⟩
  · rename_i hx
    rw [hx] at hf
    exact flushLoop_clean os c h hf

theorem fill_none (d : Dec) (g : LengthPrefix.Region) : d.fill g [] = d := fill_nil d g

theorem readOnce_clean (c : Conn) (chan : Chan) (o : RdOut) (hs : RdOut.Sane o) (hok : c.dec.Ok) (h : c.dec.Clean) :
    (c.readOnce chan o).2.1.enc = c.enc ∧
    ((∀ k, (c.readOnce chan o).1 = .error (.io k) → k = .wouldBlock ∨ k = .interrupted) → (c.readOnce chan o).2.1.dec.Ok ∧ (c.readOnce chan o).2.1.dec.Clean) := by
  unfold Conn.readOnce
  split
  · rename_i g len hn
    dsimp only
    cases hr : (FdPass.read 2 c.fds chan len o).res with
    | ok b => exact ⟨rfl, fun _ => ⟨(Dec.read_ok hok _ _).1, Dec.read_clean hok h _ _⟩⟩
    | error k =>
      refine ⟨rfl, fun hk => ?_⟩
      dsimp only at hk ⊢
      have hk' := hk k rfl
      rcases read_error 2 c.fds chan len o k hr with e | e
      · rw [e]; dsimp only; rw [fill_none]; exact ⟨hok, h⟩
      · have := hs _ e
        rcases hk' with rfl | rfl
        · exact absurd rfl this.2
        · exact absurd rfl this.1
  · exact ⟨rfl, fun _ => ⟨(Dec.read_ok hok _ _).1, Dec.read_clean hok h _ _⟩⟩

theorem recvLoop_clean (os : List RdOut) : ∀ (c : Conn) (chan : Chan), (∀ o ∈ os, RdOut.Sane o) → c.dec.Ok → c.dec.Clean → (∀ f, (c.recvLoop chan os).1 ≠ .fail f) →
    (c.recvLoop chan os).2.1.enc = c.enc ∧ (c.recvLoop chan os).2.1.dec.Ok ∧ (c.recvLoop chan os).2.1.dec.Clean := by
  induction os with
  | nil =>
    intro c chan _ hok h hf
    rw [Conn.recvLoop] at hf ⊢
    split at hf
    · exact ⟨rfl, hok, h⟩
    · have h1 := (Dec.read_ok hok [] (.ok 0)).1
      have h2 := Dec.read_clean hok h [] (.ok 0)
      generalize c.dec.read [] (.ok 0) = x at h1 h2 hf ⊢
      split <;> exact ⟨rfl, h1, h2⟩
  | cons o os ih =>
    intro c chan hs hok h hf
    obtain ⟨h1, h2⟩ := readOnce_clean c chan o (hs o (List.mem_cons_self ..)) hok h
    rw [Conn.recvLoop] at hf ⊢
    generalize c.readOnce chan o = x at h1 h2 hf ⊢
    obtain ⟨r, c', chan'⟩ := x
    dsimp only at h1 h2
    have rec_ : (c'.dec.Ok ∧ c'.dec.Clean) → (∀ f, (c'.recvLoop chan' os).1 ≠ .fail f) →
        (c'.recvLoop chan' os).2.1.enc = c.enc ∧ (c'.recvLoop chan' os).2.1.dec.Ok ∧ (c'.recvLoop chan' os).2.1.dec.Clean := by
      intro hc hg
      obtain ⟨e1, e2, e3⟩ := ih c' chan' (fun o ho => hs o (List.mem_cons_of_mem _ ho)) hc.1 hc.2 hg
      exact ⟨e1.trans h1, e2, e3⟩
    rcases r with x | ⟨n, m⟩
    · cases x with
      | tooLarge a b => obtain ⟨e1, e2⟩ := h2 (fun k hk => by cases hk); exact ⟨h1, e1, e2⟩
      | io k =>
        cases k with
        | interrupted => exact rec_ (h2 (fun k hk => by cases hk; exact .inr rfl)) hf
        | wouldBlock => obtain ⟨e1, e2⟩ := h2 (fun k hk => by cases hk; exact .inl rfl); exact ⟨h1, e1, e2⟩
        | unexpectedEof => exact absurd rfl (hf _)
        | other => exact absurd rfl (hf _)
      | _ => exact absurd rfl (hf _)
    · have hc := h2 (fun k hk => by cases hk)
      cases m with
      | some m => exact ⟨h1, hc⟩
      | none =>
        cases n with
        | zero => exact ⟨h1, hc⟩
        | succ n => exact rec_ hc hf

theorem recv_clean (c : Conn) (chan : Chan) (os : List RdOut) (hs : ∀ o ∈ os, RdOut.Sane o) (hok : c.dec.Ok) (h : c.dec.Clean) (hf : ∀ f, (c.recv chan os).1 ≠ .fail f) :
    (c.recv chan os).2.1.enc = c.enc ∧ (c.recv chan os).2.1.dec.Ok ∧ (c.recv chan os).2.1.dec.Clean := by
  unfold Conn.recv at hf ⊢
  split at hf
  · exact absurd rfl (hf _)
  · split at hf
    · rename_i hx
      rw [if_pos hx]
      exact ⟨rfl, hok, h⟩
    · rename_i hx
      rw [if_neg hx]
      exact recvLoop_clean os c chan hs hok h hf

theorem handle_clean (C : Crypto) (checks : Bool) (a : App) (c : Conn) (w : ReqWorld) (hok : c.dec.Ok) (he : c.enc.Clean) (hf : (c.handle C checks a w).1 = .go) :
    (c.handle C checks a w).2.2.enc.Clean ∧ (c.handle C checks a w).2.2.dec.Ok ∧ (c.handle C checks a w).2.2.dec.Clean := by
  unfold Conn.handle at hf ⊢
  split at hf
  · rename_i req hex hmsg
    have hb := he.2 hex
    obtain ⟨hbl, -, hrs⟩ := handleMessage_spec C checks a req c.fds c.enc.buf w _ rfl
    dsimp only at hf ⊢
    generalize (handleMessage C checks a req c.fds c.enc.buf w) = r at hf hbl hrs ⊢
    cases hres : r.res with
    | error f => rw [hres] at hf; cases hf
    | ok n =>
      obtain ⟨resp, hrb, hrl, hn, hnb, -⟩ := hrs n hres
      subst hrl
      have hlen : resp.length ≤ r.buf.length := by rw [hbl]; exact hnb
      have hset := Enc.setLenPos_spec r.buf c.enc.header c.enc.pos resp.length 0 (by omega) hlen (by omega)
      have hrw : Enc.restartWith { c.enc with buf := r.buf } resp.length = (.ok (), ⟨r.buf, toLE 8 resp.length, 0⟩) := by
        unfold Enc.restartWith
        rw [hset]
      dsimp only
      rw [hrw]
      dsimp only
      refine ⟨⟨?_, fun hx => ?_⟩, Dec.clear_ok hok, Dec.clear_clean _⟩
      · show Blank (r.buf.drop (leNat (toLE 8 resp.length)))
        rw [leNat_toLE _ _ (by omega), hrb, List.drop_left]
        exact hb.drop _
      · exfalso
        have : Enc.headerLeft ⟨r.buf, toLE 8 resp.length, 0⟩ ≠ [] := by
          show (toLE 8 resp.length).drop 0 ≠ []
          intro h
          have := congrArg List.length h
          rw [List.drop_zero, toLE_length] at this
          cases this
        unfold Enc.exhausted Enc.nextSlice at hx
        rw [if_pos this, Option.map_some, Option.some.injEq, List.isEmpty_iff] at hx
        exact this hx
  · cases hf

theorem handle_no_wait (C : Crypto) (checks : Bool) (a : App) (c : Conn) (w : ReqWorld) : (c.handle C checks a w).1 ≠ .wait := by
  unfold Conn.handle
  split
  · dsimp only
    split
    · intro h; cases h
    · split <;> (intro h; cases h)
  · intro h; cases h

theorem poll_clean (C : Crypto) (checks : Bool) (a : App) (c : Conn) (chan : Chan) (w : PollWorld) (hs : ∀ o ∈ w.reads, RdOut.Sane o) (he : c.enc.Clean) (hok : c.dec.Ok) (hd : c.dec.Clean)
    (hr : (c.poll C checks a chan w).res = .ok ()) : (c.poll C checks a chan w).conn.enc.Clean ∧ (c.poll C checks a chan w).conn.dec.Ok ∧ (c.poll C checks a chan w).conn.dec.Clean := by
  have nofail : ∀ {s : Stage}, Conn.Stage.result s = .ok () → ∀ f, s ≠ .fail f := fun h f e => by rw [e] at h; cases h
  unfold Conn.poll at hr ⊢
  have f1 := flush_clean c w.flush0 he
  generalize c.flush w.flush0 = x at f1 hr ⊢
  obtain ⟨s1, c1, b1⟩ := x
  dsimp only at f1
  have stop : Conn.Stage.result s1 = .ok () → c1.enc.Clean ∧ c1.dec.Ok ∧ c1.dec.Clean := fun h => by
    obtain ⟨g1, g2⟩ := f1 (nofail h); rw [g2]; exact ⟨g1, hok, hd⟩
  cases s1 with
  | wait => exact stop hr
  | fail f => exact stop hr
  | go =>
    obtain ⟨g1, g2, g3⟩ := stop rfl
    dsimp only at hr ⊢
    have f2 := recv_clean c1 chan w.reads hs g2 g3
    generalize c1.recv chan w.reads = y at f2 hr ⊢
    obtain ⟨s2, c2, chan2⟩ := y
    dsimp only at f2
    have stop2 : Conn.Stage.result s2 = .ok () → c2.enc.Clean ∧ c2.dec.Ok ∧ c2.dec.Clean := fun h => by
      obtain ⟨k1, k2, k3⟩ := f2 (nofail h); rw [k1]; exact ⟨g1, k2, k3⟩
    cases s2 with
    | wait => exact stop2 hr
    | fail f => exact stop2 hr
    | go =>
      obtain ⟨k1, k2, k3⟩ := stop2 rfl
      dsimp only at hr ⊢
      have f3 := handle_clean C checks a c2 w.req k2 k1
      generalize hz : c2.handle C checks a w.req = z at f3 hr ⊢
      obtain ⟨s3, a3, c3⟩ := z
      dsimp only at f3
      cases s3 with
      | go =>
        obtain ⟨m1, m2, m3⟩ := f3 rfl
        dsimp only at hr ⊢
        obtain ⟨n1, n2⟩ := flush_clean c3 w.flush1 m1 (nofail hr)
        rw [n2]
        exact ⟨n1, m2, m3⟩
      | wait =>
        exfalso
        have := handle_no_wait C checks a c2 w.req
        rw [hz] at this
        exact this rfl
      | fail f => cases hr

theorem run_clean (C : Crypto) (checks : Bool) (es : List Ev) : ∀ (l l' : Link) (recs : List Rec), (∀ a w, Ev.poll a w ∈ es → ∀ o ∈ w.reads, RdOut.Sane o) → l.conn.enc.Clean → l.conn.dec.Ok → l.conn.dec.Clean →
    l.run C checks es = some (l', recs) → (∀ r ∈ recs, r.res = .ok ()) → l'.conn.enc.Clean ∧ l'.conn.dec.Ok ∧ l'.conn.dec.Clean := by
  induction es with
  | nil => intro l l' recs _ h1 h2 h3 hr _; cases hr; exact ⟨h1, h2, h3⟩
  | cons e es ih =>
    intro l l' recs hs h1 h2 h3 hr hok
    cases e with
    | arrive ch => exact ih { l with chan := l.chan ++ ch } l' recs (fun a w h => hs a w (List.mem_cons_of_mem _ h)) h1 h2 h3 hr hok
    | poll a w =>
      rw [Link.run] at hr
      split at hr
      · cases hr
      · rw [Option.map_eq_some_iff] at hr
        obtain ⟨⟨l1, rs⟩, hr1, hr2⟩ := hr
        cases hr2
        obtain ⟨g1, g2, g3⟩ := poll_clean C checks a l.conn l.chan w (hs a w (List.mem_cons_self ..)) h1 h2 h3 (hok _ (List.mem_cons_self ..))
        exact ih _ l1 rs (fun a w h => hs a w (List.mem_cons_of_mem _ h)) g1 g2 g3 hr1 (fun r h => hok r (List.mem_cons_of_mem _ h))

/-- **C121.** At every moment of the life of an API connection on which no call failed: the read buffer holds what has been received of the current request and otherwise
zeros, the write buffer holds the response that is being sent and otherwise zeros. In particular nothing of an earlier request or of its response is left. -/
theorem connection_buffers_hold_current_only_partial (C : Crypto) (checks : Bool) (token : Nat) (es : List Ev) (l : Link) (recs : List Rec)
    (hs : ∀ a w, Ev.poll a w ∈ es → ∀ o ∈ w.reads, RdOut.Sane o) (hr : (Link.new token).run C checks es = some (l, recs)) (hok : ∀ r ∈ recs, r.res = .ok ()) :
    (∃ n m, l.conn.dec.header ++ l.conn.dec.buf = (l.conn.dec.header.take l.conn.dec.off ++ List.replicate n 0) ++ (l.conn.dec.buf.take (l.conn.dec.off - 8) ++ List.replicate m 0)) ∧
    (∃ n, l.conn.enc.buf = l.conn.enc.buf.take l.conn.enc.messageLen ++ List.replicate n 0) ∧
    (l.conn.enc.exhausted = some true → ∃ n, l.conn.enc.buf = List.replicate n 0) := by
  obtain ⟨⟨h1, h2⟩, -, h3, h4⟩ := run_clean C checks es (Link.new token) l recs hs ⟨(blank_replicate _).drop _, fun _ => blank_replicate _⟩ (Dec.new_ok _)
    ⟨(blank_replicate _).drop _, (blank_replicate _).drop _⟩ hr hok
  have rep : ∀ {b : Bytes}, Blank b → b = List.replicate b.length 0 := fun h => List.eq_replicate_iff.mpr ⟨rfl, h⟩
  refine ⟨⟨(l.conn.dec.header.drop l.conn.dec.off).length, (l.conn.dec.buf.drop (l.conn.dec.off - 8)).length, ?_⟩, ⟨(l.conn.enc.buf.drop l.conn.enc.messageLen).length, ?_⟩, fun h => ⟨_, rep (h2 h)⟩⟩
  · rw [← rep h3, ← rep h4, List.take_append_drop, List.take_append_drop]
  · rw [← rep h1, List.take_append_drop]

/-- A client sends any number of pings, all of them are answered and then nothing of them is left in the write buffer if everything has been sent. -/
example (C : Crypto) (checks : Bool) (token : Nat) (chunk : Chan) (ps : List (App × PollWorld)) (reqs : List Bytes)
    (hreqs : ∀ q ∈ reqs, q.length ≤ 4096 ∧ Harmless q) (hb : FdPass.bytes chunk = LengthPrefix.frames reqs) (hc : ∀ p ∈ ps, p.2.Coop chunk.length) (hl : reqs.length ≤ ps.length)
    (hs : ∀ p ∈ ps, ∀ o ∈ p.2.reads, RdOut.Sane o) :
    ∃ l recs, (Link.new token).run C checks (.arrive chunk :: ps.map (fun p => .poll p.1 p.2)) = some (l, recs) ∧ ∃ n, l.conn.enc.buf = l.conn.enc.buf.take l.conn.enc.messageLen ++ List.replicate n 0 := by
  obtain ⟨l, recs, h1, h2, -⟩ := harmless_requests_answered C checks token chunk ps reqs hreqs hb hc hl
  refine ⟨l, recs, h1, (connection_buffers_hold_current_only_partial C checks token _ l recs ?_ h1 h2).2.1⟩
  intro a w h
  rcases List.mem_cons.mp h with h | h
  · cases h
  · obtain ⟨p, hp, he⟩ := List.mem_map.mp h
    cases he
    exact hs p hp

end Verif.Api

namespace Verif.LengthPrefix

theorem Enc.setHeader_buf {e e1 : Enc} {h : Bytes} (hh : e.setHeader h = .ok e1) : e1.buf = e.buf := by
  unfold Enc.setHeader at hh
  dsimp only at hh
  split at hh
  · cases hh
  · split at hh
    · cases hh
    · cases hh; rfl

theorem Enc.setPos_buf {e e1 : Enc} {p : Nat} (hh : e.setPos p = .ok e1) : e1.buf = e.buf := by
  unfold Enc.setPos at hh
  dsimp only at hh
  split at hh
  · cases hh
  · split at hh
    · cases hh
    · cases hh; rfl

theorem Enc.setLenPos_buf (e : Enc) (n p : Nat) : (e.setLenPos n p).2.buf = e.buf := by
  unfold Enc.setLenPos Enc.setMessageLen
  dsimp only
  split
  · rfl
  · rename_i e1 h1
    have h1 := Enc.setHeader_buf h1
    split
    · exact h1
    · rename_i e2 h2
      exact (Enc.setPos_buf h2).trans h1

theorem Enc.restartWith_buf (e : Enc) (n : Nat) : (e.restartWith n).2.buf = e.buf := by
  have h := Enc.setLenPos_buf e n 0
  unfold Enc.restartWith
  split
  · rename_i h1; rw [h1] at h; exact h
  · exact h

end Verif.LengthPrefix

namespace Verif.Broker
open LengthPrefix (IoKind IoOut Enc Dec Blank)

theorem flush_buf (os : List IoOut) : ∀ c : Client, (c.flush os).2.enc.buf = c.enc.buf := by
  induction os with
  | nil =>
    intro c
    have h := (Enc.write_frame c.enc (.err .wouldBlock)).1
    rw [Client.flush]
    generalize c.enc.write (.err .wouldBlock) = x at h ⊢
    split <;> exact h
  | cons o os ih =>
    intro c
    have h := (Enc.write_frame c.enc o).1
    rw [Client.flush]
    generalize c.enc.write o = x at h ⊢
    split
    · exact h
    · exact h
    · rw [ih]; exact h
    · exact h
    · exact h

/-- **C121 does not hold of the client of the broker socket:** its write buffer (which is in secret memory) keeps the key it was given, even once the whole request is on the
wire, until the next request overwrites it. -/
theorem broker_client_keeps_key (c : Client) (cfg : Cfg) (hp : cfg.psk.length = 32) (w : Client.World) (h : (c.setPsk cfg w).2.1 = true) (os : List IoOut) :
    (((c.setPsk cfg w).2.2.flush os).2.enc.buf.drop 4).take 32 = cfg.psk := by
  rw [flush_buf]
  unfold Client.setPsk at h ⊢
  cases hb : buildRequest cfg with
  | error x => rw [hb] at h; cases h
  | ok m =>
    rw [hb] at h
    dsimp only at h ⊢
    have hm : ∃ f, m = envelope (cfg.psk ++ f) := by
      unfold buildRequest at hb
      split at hb
      · split at hb
        · cases hb
        · cases hb; exact ⟨_, by rw [List.append_assoc]⟩
      · cases hb
    obtain ⟨f, hm⟩ := hm
    unfold Client.sendMsg at h ⊢
    split
    · rename_i hf; rw [hf] at h; cases h
    · rename_i c1 hf
      rw [hf] at h
      dsimp only at h ⊢
      split
      · rename_i hx
        rw [if_pos hx] at h
        split
        · rename_i hl; rw [if_pos hl] at h; cases h
        · rename_i hl
          rw [if_neg hl] at h
          have key : ∀ {r e}, Enc.restartWith { c1.enc with buf := m ++ c1.enc.buf.drop m.length } m.length = (r, e) → e.buf = m ++ c1.enc.buf.drop m.length := by
            intro r e hr
            have := Enc.restartWith_buf { c1.enc with buf := m ++ c1.enc.buf.drop m.length } m.length
            rw [hr] at this
            exact this
          split
          · rename_i hr; rw [hr] at h; simp at h
          · rename_i hr; rw [hr] at h; simp at h
          · rename_i hr
            dsimp only
            rw [flush_buf]
            dsimp only
            rw [key hr, hm]
            show ((setPskType :: [0, 0, 0] ++ (cfg.psk ++ f) ++ _).drop 4).take 32 = cfg.psk
            simp [List.append_assoc, ← hp]
      · rename_i hx; rw [if_neg hx] at h; cases h

set_option maxRecDepth 20000 in
/-- a key is sent completely, in two pieces -/
example : ∃ c, Client.new = .ok c ∧ (c.setPsk Ex.cfg ⟨[], [], [.ok 100, .ok 400], []⟩).2.1 = true ∧
    ((c.setPsk Ex.cfg ⟨[], [], [.ok 100, .ok 400], []⟩).2.2.enc.buf.drop 4).take 32 = List.replicate 32 9 :=
  ⟨_, rfl, by decide +kernel, by decide +kernel⟩

end Verif.Broker
