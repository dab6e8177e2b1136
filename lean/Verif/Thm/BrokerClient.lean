import Verif.Thm.Broker
/-
The broker client of the daemon on its socket: C74 (keys are set in order and unaltered) and C44 (what the client sees of
the results), for every sequence of calls and every behaviour of the socket.
-/
namespace Verif.Broker
open LengthPrefix (IoKind IoOut Enc Dec DecErr EncErr frame frames)

/-- Two lists whose elements are related one by one. -/
inductive All2 {α β : Type} (R : α → β → Prop) : List α → List β → Prop where
  | nil : All2 R [] []
  | cons {a : α} {b : β} {l : List α} {l' : List β} (h : R a b) (t : All2 R l l') : All2 R (a :: l) (b :: l')

theorem exhausted_eq {e : Enc} (h : e.Ok) : ∃ b, e.exhausted = some b ∧ (b = true ↔ e.wire.drop e.pos = []) := by
  obtain ⟨s, hs, hpre, hnil⟩ := Enc.nextSlice_eq h
  refine ⟨s.isEmpty, by unfold Enc.exhausted; rw [hs]; rfl, ?_⟩
  rw [List.isEmpty_iff, hnil, List.drop_eq_nil_iff, Enc.wire_length h]
  have := h.pos
  omega

namespace Client

/-- The bytes of the current message that are still to be sent. -/
def left (c : Client) : Bytes := c.enc.wire.drop c.enc.pos

/-- Invariant of a client: `q` are the messages placed in the write buffer so far. -/
structure Inv (c : Client) (q : List Bytes) : Prop where
  enc : c.enc.Ok
  buf : c.enc.buf.length = 4096
  stream : c.out ++ c.left = frames q
  /-- all messages but the last one are out -/
  older : frames q.dropLast <+: c.out

/-- how one call changes a client: only bytes of the current message go out -/
structure Moved (c c' : Client) : Prop where
  dec : c'.dec = c.dec
  inp : c'.inp = c.inp
  enc : c'.enc.Ok
  buf : c'.enc.buf = c.enc.buf
  out : c.out <+: c'.out
  stream : c'.out ++ c'.left = c.out ++ c.left

theorem Moved.refl {c : Client} (h : c.enc.Ok) : Moved c c := ⟨rfl, rfl, h, rfl, List.prefix_refl _, rfl⟩
theorem Moved.trans {a b c : Client} (h : Moved a b) (h' : Moved b c) : Moved a c :=
  ⟨h'.dec.trans h.dec, h'.inp.trans h.inp, h'.enc, h'.buf.trans h.buf, h.out.trans h'.out, h'.stream.trans h.stream⟩

theorem Moved.inv {c c' : Client} {q : List Bytes} (h : Moved c c') (hi : c.Inv q) : c'.Inv q :=
  ⟨h.enc, by rw [h.buf]; exact hi.buf, h.stream.trans hi.stream, hi.older.trans h.out⟩

theorem write_moved {c : Client} (h : c.enc.Ok) (o : IoOut) :
    ∃ r e b, c.enc.write o = (r, e, b) ∧ Moved c { c with enc := e, out := c.out ++ b } ∧
      ((∃ x, r = .ok x) ∨ ∃ k, o = .err k ∧ r = .error (.io k)) := by
  obtain ⟨r, e, b, he, hok, hbuf, hhdr, hpos, ⟨t, ht⟩, hr⟩ := Enc.write_spec h o
  refine ⟨r, e, b, he, ⟨rfl, rfl, hok, hbuf, List.prefix_append _ _, ?_⟩, ?_⟩
  · have hw : e.wire = c.enc.wire := by unfold Enc.wire Enc.sending; rw [hhdr, hbuf]
    show c.out ++ b ++ e.wire.drop e.pos = c.out ++ c.enc.wire.drop c.enc.pos
    have h2 : c.enc.wire.drop (c.enc.pos + b.length) = t := by
      rw [← List.drop_drop, ← ht]; simp
    rw [hw, hpos, List.append_assoc, h2, ht]
  · rcases hr with ⟨n, d, hx, _⟩ | ⟨k, hk, hx, _⟩
    · exact .inl ⟨_, hx⟩
    · exact .inr ⟨k, hk, hx⟩

theorem flush_spec (os : List IoOut) : ∀ {c : Client}, c.enc.Ok →
    Moved c (c.flush os).2 ∧ ((c.flush os).1 = .ok () ∨ (c.flush os).1 = .error .error) := by
  induction os with
  | nil =>
    intro c h
    obtain ⟨r, e, b, he, hm, hr⟩ := write_moved h (.err .wouldBlock)
    unfold flush
    rw [he]
    rcases hr with ⟨x, rfl⟩ | ⟨k, _, rfl⟩
    · exact ⟨hm, .inl rfl⟩
    · exact ⟨hm, .inl rfl⟩
  | cons o os ih =>
    intro c h
    obtain ⟨r, e, b, he, hm, hr⟩ := write_moved h o
    unfold flush
    rw [he]
    rcases hr with ⟨x, rfl⟩ | ⟨k, _, rfl⟩
    · exact ⟨hm, .inl rfl⟩
    · cases k with
      | wouldBlock => exact ⟨hm, .inl rfl⟩
      | interrupted =>
        dsimp only
        obtain ⟨h1, h2⟩ := ih hm.enc
        exact ⟨hm.trans h1, h2⟩
      | unexpectedEof => exact ⟨hm, .inr rfl⟩
      | other => exact ⟨hm, .inr rfl⟩

theorem flushAll_spec (os : List IoOut) : ∀ {c : Client}, c.enc.Ok →
    Moved c (c.flushAll os).2 ∧
      ((c.flushAll os).1 = .ok () ∧ (c.flushAll os).2.left = [] ∨ (c.flushAll os).1 = .error .error ∨ (c.flushAll os).1 = .error .hang) := by
  induction os with
  | nil =>
    intro c h
    obtain ⟨x, hx, hl⟩ := exhausted_eq h
    unfold flushAll
    rw [hx]
    cases x with
    | true => exact ⟨Moved.refl h, .inl ⟨rfl, hl.1 rfl⟩⟩
    | false => exact ⟨Moved.refl h, .inr (.inr rfl)⟩
  | cons o os ih =>
    intro c h
    obtain ⟨x, hx, hl⟩ := exhausted_eq h
    unfold flushAll
    rw [hx]
    cases x with
    | true => exact ⟨Moved.refl h, .inl ⟨rfl, hl.1 rfl⟩⟩
    | false =>
      dsimp only
      obtain ⟨r, e, b, he, hm, hr⟩ := write_moved h o
      rw [he]
      obtain ⟨h1, h2⟩ := ih hm.enc
      rcases hr with ⟨x, rfl⟩ | ⟨k, _, rfl⟩
      · exact ⟨hm.trans h1, h2⟩
      · cases k with
        | wouldBlock => exact ⟨hm.trans h1, h2⟩
        | interrupted => exact ⟨hm.trans h1, h2⟩
        | unexpectedEof => exact ⟨hm, .inr (.inl rfl)⟩
        | other => exact ⟨hm, .inr (.inl rfl)⟩

theorem flushBlocking_spec (os0 os1 : List IoOut) {c : Client} (h : c.enc.Ok) :
    Moved c (c.flushBlocking os0 os1).2 ∧
      ((c.flushBlocking os0 os1).1 = .ok () ∧ (c.flushBlocking os0 os1).2.left = [] ∨ (c.flushBlocking os0 os1).1 = .error .error ∨
        (c.flushBlocking os0 os1).1 = .error .hang) := by
  obtain ⟨h1, h2⟩ := flush_spec os0 h
  unfold flushBlocking
  cases hf : c.flush os0 with
  | mk r c1 =>
    rw [hf] at h1 h2
    dsimp only at h1 h2
    rcases h2 with rfl | rfl
    · obtain ⟨x, hx, hl⟩ := exhausted_eq h1.enc
      dsimp only
      rw [hx]
      cases x with
      | true => exact ⟨h1, .inl ⟨rfl, hl.1 rfl⟩⟩
      | false =>
        obtain ⟨h3, h4⟩ := flushAll_spec os1 h1.enc
        exact ⟨h1.trans h3, h4⟩
    · exact ⟨h1, .inr (.inl rfl)⟩

theorem sendMsg_spec {c : Client} {q : List Bytes} (hi : c.Inv q) (m : Bytes) (hm : m.length ≤ 4096) (w : World) :
    (c.sendMsg m w).2.2.dec = c.dec ∧ (c.sendMsg m w).2.2.inp = c.inp ∧ (c.sendMsg m w).1 ≠ .error .panic ∧
      (((c.sendMsg m w).2.1 = true ∧ (c.sendMsg m w).2.2.Inv (q ++ [m])) ∨
       ((c.sendMsg m w).2.1 = false ∧ (c.sendMsg m w).1 ≠ .ok () ∧ (c.sendMsg m w).2.2.Inv q)) := by
  obtain ⟨h1, h2⟩ := flushBlocking_spec w.flush0 w.flush1 hi.enc
  unfold sendMsg
  cases hf : c.flushBlocking w.flush0 w.flush1 with
  | mk r c1 =>
    rw [hf] at h1 h2
    dsimp only at h1 h2
    have hi1 := h1.inv hi
    rcases h2 with ⟨rfl, hl⟩ | rfl | rfl
    · dsimp only
      obtain ⟨x, hx, hxl⟩ := exhausted_eq h1.enc
      have : x = true := hxl.2 hl
      subst this
      rw [if_pos hx, if_neg (by rw [hi1.buf]; omega)]
      have hblen : (m ++ c1.enc.buf.drop m.length).length = 4096 := by
        rw [List.length_append, List.length_drop, hi1.buf]; omega
      have hr : Enc.restartWith { c1.enc with buf := m ++ c1.enc.buf.drop m.length } m.length
          = (.ok (), ⟨m ++ c1.enc.buf.drop m.length, toLE 8 m.length, 0⟩) := by
        unfold Enc.restartWith
        rw [Enc.setLenPos_spec _ _ _ _ _ (by omega) (by omega) (by omega)]
      rw [hr]
      dsimp only
      obtain ⟨hok, hwire⟩ := Enc.ok_mk (m ++ c1.enc.buf.drop m.length) m.length 0 (by omega) (by omega) (by omega)
      rw [take_left _ _ _ rfl] at hwire
      obtain ⟨h3, h4⟩ := flush_spec w.flush2 (c := { c1 with enc := ⟨m ++ c1.enc.buf.drop m.length, toLE 8 m.length, 0⟩ }) hok
      refine ⟨h3.dec.trans h1.dec, h3.inp.trans h1.inp, ?_, .inl ⟨rfl, h3.inv ⟨hok, hblen, ?_, ?_⟩⟩⟩
      · rcases h4 with h | h <;> (rw [h]; intro h'; cases h')
      · show c1.out ++ Enc.wire _ = _
        rw [hwire]
        have := hi1.stream
        rw [hl, List.append_nil] at this
        rw [this]; simp [frames]
      · have := hi1.stream
        rw [hl, List.append_nil] at this
        rw [List.dropLast_concat, ← this]; exact List.prefix_refl _
    · exact ⟨h1.dec, h1.inp, nofun, .inr ⟨rfl, nofun, hi1⟩⟩
    · exact ⟨h1.dec, h1.inp, nofun, .inr ⟨rfl, nofun, hi1⟩⟩

theorem setPsk_spec {c : Client} {q : List Bytes} (hi : c.Inv q) (cfg : Cfg) (hw : cfg.WF) (w : World) :
    (c.setPsk cfg w).2.2.dec = c.dec ∧ (c.setPsk cfg w).2.2.inp = c.inp ∧ (c.setPsk cfg w).1 ≠ .error .panic ∧
      (((c.setPsk cfg w).2.1 = true ∧ ∃ m, IsRequest m cfg ∧ (c.setPsk cfg w).2.2.Inv (q ++ [m])) ∨
       ((c.setPsk cfg w).2.1 = false ∧ (c.setPsk cfg w).1 ≠ .ok () ∧ (c.setPsk cfg w).2.2.Inv q)) := by
  unfold setPsk
  rcases buildRequest_spec cfg hw with ⟨_, _, _, m, hm, hr⟩ | ⟨_, e, he⟩
  · rw [hm]
    dsimp only
    have hlen : m.length ≤ 4096 := by have := hr.fields.1; have e : requestSize = 324 := rfl; omega
    obtain ⟨h1, h2, h3, h4⟩ := sendMsg_spec hi m hlen w
    refine ⟨h1, h2, h3, ?_⟩
    rcases h4 with ⟨h4, h5⟩ | h4
    · exact .inl ⟨h4, m, hr, h5⟩
    · exact .inr h4
  · rw [he]
    exact ⟨rfl, rfl, nofun, .inr ⟨rfl, nofun, hi⟩⟩

/-- reading does not touch the write side -/
theorem recvMsg_out (os : List IoOut) : ∀ (c : Client), (c.recvMsg os).2.enc = c.enc ∧ (c.recvMsg os).2.out = c.out := by
  induction os with
  | nil =>
    intro c
    unfold recvMsg
    rcases c.dec.read c.inp (.err .wouldBlock) with ⟨r | r, d, i⟩
    · cases r <;> exact ⟨rfl, rfl⟩
    · dsimp only
      rcases d.message with e | m
      · cases e <;> exact ⟨rfl, rfl⟩
      · exact ⟨rfl, rfl⟩
  | cons o os ih =>
    intro c
    unfold recvMsg
    rcases c.dec.read c.inp o with ⟨r | r, d, i⟩
    · rcases r with _ | (_ | _ | _ | _) | _ | _ | _
      · exact ⟨rfl, rfl⟩
      · exact ih _
      all_goals exact ⟨rfl, rfl⟩
    · dsimp only
      rcases d.message with e | m
      · cases e <;> exact ⟨rfl, rfl⟩
      · exact ⟨rfl, rfl⟩

theorem pollResponse_out (os : List IoOut) (c : Client) : (c.pollResponse os).2.enc = c.enc ∧ (c.pollResponse os).2.out = c.out := by
  have h := recvMsg_out os c
  unfold pollResponse
  rcases hr : c.recvMsg os with ⟨f | (_ | m), c1⟩
  · rw [hr] at h; exact h
  · rw [hr] at h; exact h
  · rw [hr] at h
    dsimp only
    cases parseResponse m <;> exact h

theorem poll_inv {c : Client} {q : List Bytes} (hi : c.Inv q) (w : World) : (c.poll w).2.Inv q := by
  obtain ⟨h1, h2⟩ := flush_spec w.flush0 hi.enc
  unfold poll
  rcases hf : c.flush w.flush0 with ⟨f | ⟨⟨⟩⟩, c1⟩
  · rw [hf] at h1; exact h1.inv hi
  · rw [hf] at h1
    dsimp only
    have hi1 := h1.inv hi
    obtain ⟨h3, h4⟩ := pollResponse_out w.reads c1
    exact ⟨by rw [h3]; exact hi1.enc, by rw [h3]; exact hi1.buf, by unfold left; rw [h3, h4]; exact hi1.stream, by rw [h4]; exact hi1.older⟩

/-! ### Histories -/

/-- Specification: the keys whose requests were placed in the write buffer, in order of the calls. -/
def queued : List Seen → List Cfg
  | [] => []
  | .set cfg _ true :: l => cfg :: queued l
  | _ :: l => queued l

/-- Specification: peers and keys have the sizes their types prescribe. -/
def Op.WF : Op → Prop
  | .setPsk cfg _ => cfg.WF
  | _ => True

theorem run_inv (ops : List Op) : ∀ {c : Client} {q : List Bytes}, c.Inv q → (∀ o ∈ ops, o.WF) →
    ∃ ms, (c.run ops).2.Inv (q ++ ms) ∧ All2 IsRequest ms (queued (c.run ops).1) ∧
      ∀ cfg r b, Seen.set cfg r b ∈ (c.run ops).1 → r ≠ .error .panic ∧ (r = .ok () → b = true) := by
  induction ops with
  | nil => intro c q hi _; exact ⟨[], by rw [List.append_nil]; exact hi, .nil, nofun⟩
  | cons o os ih =>
    intro c q hi hw
    have hw' : ∀ o ∈ os, o.WF := fun x hx => hw x (List.mem_cons_of_mem _ hx)
    cases o with
    | setPsk cfg w =>
      obtain ⟨_, _, h3, h4⟩ := setPsk_spec hi cfg (hw _ List.mem_cons_self) w
      rcases h4 with ⟨hq, m, hm, hi'⟩ | ⟨hq, hr, hi'⟩
      · obtain ⟨ms, h5, h6, h7⟩ := ih hi' hw'
        refine ⟨m :: ms, ?_, ?_, ?_⟩
        · rw [show q ++ m :: ms = q ++ [m] ++ ms by simp]; exact h5
        · show All2 IsRequest (m :: ms) (queued (Seen.set cfg (c.setPsk cfg w).1 (c.setPsk cfg w).2.1 :: _))
          rw [hq]; exact .cons hm h6
        · intro cfg' r b hb
          rcases List.mem_cons.1 hb with h | h
          · cases h; exact ⟨h3, fun _ => hq⟩
          · exact h7 _ _ _ h
      · obtain ⟨ms, h5, h6, h7⟩ := ih hi' hw'
        refine ⟨ms, h5, ?_, ?_⟩
        · show All2 IsRequest ms (queued (Seen.set cfg (c.setPsk cfg w).1 (c.setPsk cfg w).2.1 :: _))
          rw [hq]; exact h6
        · intro cfg' r b hb
          rcases List.mem_cons.1 hb with h | h
          · cases h; exact ⟨h3, fun h => absurd h hr⟩
          · exact h7 _ _ _ h
    | poll w =>
      obtain ⟨ms, h5, h6, h7⟩ := ih (poll_inv hi w) hw'
      refine ⟨ms, h5, h6, ?_⟩
      intro cfg' r b hb
      rcases List.mem_cons.1 hb with h | h
      · cases h
      · exact h7 _ _ _ h
    | arrive x =>
      obtain ⟨ms, h5, h6, h7⟩ := ih (c := { c with inp := c.inp ++ x }) (q := q) ⟨hi.enc, hi.buf, hi.stream, hi.older⟩ hw'
      refine ⟨ms, h5, h6, ?_⟩
      intro cfg' r b hb
      rcases List.mem_cons.1 hb with h | h
      · cases h
      · exact h7 _ _ _ h

theorem new_spec : ∃ c, Client.new = .ok c ∧ c.Inv [] ∧ c.out = [] ∧ c.inp = [] ∧ c.dec = Dec.new (List.replicate 4096 0) := by
  unfold Client.new
  rw [Enc.fromBuffer_spec]
  refine ⟨_, rfl, ⟨?_, List.length_replicate, ?_, List.nil_prefix⟩, rfl, rfl, rfl⟩
  · exact (Enc.ok_mk _ 0 8 (by decide) (by omega) (by omega)).1
  · obtain ⟨h1, h2⟩ := Enc.ok_mk (List.replicate 4096 0) 0 8 (by decide) (Nat.zero_le _) (by omega)
    show [] ++ (Enc.wire _).drop 8 = frames []
    rw [h2]
    rw [List.nil_append, List.drop_eq_nil_of_le (by rw [LengthPrefix.frame_length, List.length_take]; omega)]
    rfl

end Client

/-- Specification: the state of a broker after it was told to set a sequence of keys. -/
def applyAll {σ : Type} (inner : Inner σ) (s : σ) (cs : List Cfg) : σ := cs.foldl (fun s c => (inner s c).2) s

/-- Specification: the results of setting a sequence of keys. -/
def resultsOf {σ : Type} (inner : Inner σ) : σ → List Cfg → List PskRes
  | _, [] => []
  | s, c :: cs => (inner s c).1 :: resultsOf inner (inner s c).2 cs

theorem handleAll_requests {σ : Type} (inner : Inner σ) {ms : List Bytes} {cs : List Cfg} (h : All2 IsRequest ms cs) :
    ∀ s, (handleAll inner s ms).2 = applyAll inner s cs ∧
      (handleAll inner s ms).1 = (resultsOf inner s cs).map (fun r => envelope [code r]) := by
  induction h with
  | nil => intro s; exact ⟨rfl, rfl⟩
  | @cons m c ms cs hm _ ih =>
    intro s
    obtain ⟨h1, h2⟩ := ih (inner s c).2
    constructor
    · unfold handleAll
      rw [handle_request inner s hm]
      exact h1
    · unfold handleAll
      rw [handle_request inner s hm]
      dsimp only
      rw [h2]; rfl

/-- a prefix of a sequence of frames: some whole frames and a proper part of the next one -/
theorem prefix_frames (ms : List Bytes) : ∀ (p : Bytes), p <+: frames ms →
    ∃ n t, p = frames (ms.take n) ++ t ∧ n ≤ ms.length ∧ ((n = ms.length ∧ t = []) ∨ ∃ m, ms[n]? = some m ∧ t <+: frame m ∧ t ≠ frame m) := by
  induction ms with
  | nil =>
    intro p hp
    have : p = [] := by simpa [frames] using hp
    subst this
    exact ⟨0, [], rfl, Nat.le_refl _, .inl ⟨rfl, rfl⟩⟩
  | cons m ms ih =>
    intro p hp
    have hf : frames (m :: ms) = frame m ++ frames ms := by simp [frames]
    rw [hf] at hp
    by_cases hl : (frame m).length ≤ p.length
    · obtain ⟨t, ht⟩ := hp
      have h1 : p = frame m ++ p.drop (frame m).length := by
        have h2 := congrArg (List.take (frame m).length) ht
        rw [List.take_append_of_le_length hl, take_left _ _ _ rfl] at h2
        conv => lhs; rw [← List.take_append_drop (frame m).length p]
        rw [h2]
      have h3 : p.drop (frame m).length <+: frames ms := by
        refine ⟨t, ?_⟩
        rw [h1, List.append_assoc] at ht
        exact List.append_cancel_left ht
      obtain ⟨n, t', h4, h5, h6⟩ := ih _ h3
      refine ⟨n + 1, t', ?_, by simpa using h5, ?_⟩
      · conv => lhs; rw [h1, h4]
        simp [frames]
      · rcases h6 with ⟨rfl, rfl⟩ | ⟨m', h7, h8⟩
        · exact .inl ⟨by simp, rfl⟩
        · exact .inr ⟨m', by simpa using h7, h8⟩
    · refine ⟨0, p, by simp [frames], Nat.zero_le _, .inr ⟨m, rfl, ?_, ?_⟩⟩
      · exact List.prefix_of_prefix_length_le hp (List.prefix_append _ _) (by omega)
      · rintro rfl; omega

theorem forall₂_take {α β : Type} {R : α → β → Prop} {l : List α} {l' : List β} (h : All2 R l l') :
    ∀ n, All2 R (l.take n) (l'.take n) := by
  induction h with
  | nil => intro n; simp; exact .nil
  | cons h _ ih =>
    intro n
    cases n with
    | zero => simp; exact .nil
    | succ n => simp only [List.take_succ_cons]; exact .cons h (ih n)

theorem forall₂_length {α β : Type} {R : α → β → Prop} {l : List α} {l' : List β} (h : All2 R l l') :
    l.length = l'.length := by
  induction h with
  | nil => rfl
  | cons _ _ ih => simp [ih]

theorem forall₂_left {α β : Type} {R : α → β → Prop} {l : List α} {l' : List β} (h : All2 R l l') :
    ∀ a ∈ l, ∃ b ∈ l', R a b := by
  induction h with
  | nil => exact nofun
  | @cons a b l l' h _ ih =>
    intro x hx
    rcases List.mem_cons.1 hx with rfl | hx
    · exact ⟨b, List.mem_cons_self, h⟩
    · obtain ⟨y, hy, hr⟩ := ih x hx; exact ⟨y, List.mem_cons_of_mem _ hy, hr⟩

/-- **C74.** For every sequence of calls on a new broker client and every behaviour of its socket: what the broker process
has done with the bytes it received is to set the first `n` of the keys that the client has accepted, in order, each
exactly once and unaltered, and its answers are their results. Every key for which `set_psk` reported success was
accepted; all accepted keys are set except possibly the last one, whose request may be partly in the write buffer. -/
theorem keys_set_in_order {σ : Type} (inner : Inner σ) (s : σ) (c : Client) (hc : Client.new = .ok c) (ops : List Client.Op)
    (hw : ∀ o ∈ ops, o.WF) :
    ∃ n, n ≤ (Client.queued (c.run ops).1).length ∧ (Client.queued (c.run ops).1).length ≤ n + 1 ∧
      (serve inner s (c.run ops).2.out).state = applyAll inner s ((Client.queued (c.run ops).1).take n) ∧
      (serve inner s (c.run ops).2.out).out =
        frames ((resultsOf inner s ((Client.queued (c.run ops).1).take n)).map (fun r => envelope [code r])) ∧
      (∀ cfg r b, Client.Seen.set cfg r b ∈ (c.run ops).1 → r = .ok () → b = true) := by
  obtain ⟨c0, h0, hi, _⟩ := Client.new_spec
  rw [hc] at h0; cases h0
  obtain ⟨ms, h1, h2, h3⟩ := Client.run_inv ops hi hw
  rw [List.nil_append] at h1
  have hl := forall₂_length h2
  have hsz : ∀ m ∈ ms, m.length ≤ 324 := by
    intro m hm
    obtain ⟨x, _, hx⟩ := forall₂_left h2 m hm
    exact Nat.le_of_eq hx.fields.1
  obtain ⟨n, t, h4, h5, h6⟩ := prefix_frames ms _ ⟨_, h1.stream⟩
  have hn : ms.length ≤ n + 1 := by
    rcases h6 with ⟨rfl, _⟩ | ⟨m, hm, ht, hne⟩
    · omega
    · by_cases hlt : ms.length ≤ n + 1
      · exact hlt
      · exfalso
        have h7 := h1.older
        rw [h4] at h7
        have h8 := h7.length_le
        have h9 : frames ms.dropLast = frames (ms.take n) ++ frame m ++ frames ((ms.dropLast).drop (n + 1)) := by
          have e1 : ms.dropLast = (ms.dropLast).take n ++ (ms.dropLast).drop n := (List.take_append_drop _ _).symm
          have e2 : (ms.dropLast).take n = ms.take n := by
            rw [List.dropLast_eq_take, List.take_take, Nat.min_eq_left (by omega)]
          have e3 : (ms.dropLast).drop n = m :: (ms.dropLast).drop (n + 1) := by
            have h10 : n < ms.dropLast.length := by rw [List.length_dropLast]; omega
            have h11 : n < ms.length := by omega
            have h12 : ms.dropLast[n] = m := by
              rw [List.getElem?_eq_getElem h11] at hm
              rw [List.getElem_dropLast]
              exact Option.some.inj hm
            rw [List.drop_eq_getElem_cons h10, h12]
          conv => lhs; rw [e1, e2, e3]
          simp [frames]
        rw [h9] at h8
        have h12 : t.length < (frame m).length := by
          obtain ⟨u, hu⟩ := ht
          have : u ≠ [] := by rintro rfl; simp at hu; exact hne hu
          have := List.length_pos_iff.2 this
          rw [← hu, List.length_append]; omega
        simp only [List.length_append] at h8
        omega
  refine ⟨n, by omega, by omega, ?_⟩
  have h7 := forall₂_take h2 n
  have h8 : serve inner (handleAll inner s (ms.take n)).2 t = ⟨[], (handleAll inner s (ms.take n)).2, t, false⟩ := by
    rcases h6 with ⟨_, rfl⟩ | ⟨m, hm, ht, hne⟩
    · rfl
    · exact serve_incomplete inner _ m t (hsz m (List.mem_of_getElem? hm)) ht hne
  have h9 := privileged_in_order inner (ms.take n) s t (fun m hm => hsz m (List.mem_of_mem_take hm))
  rw [← h4, h8] at h9
  obtain ⟨h10, h11⟩ := handleAll_requests inner h7 s
  refine ⟨?_, ?_, fun cfg r b hb hr => (h3 cfg r b hb).2 hr⟩
  · rw [h9]; exact h10
  · rw [h9]; dsimp only; rw [h11, List.append_nil]

/-- **C74.** `set_psk` never panics. -/
theorem set_psk_never_panics (c : Client) (hc : Client.new = .ok c) (ops : List Client.Op) (hw : ∀ o ∈ ops, o.WF) (cfg : Cfg)
    (r : Except Fail Unit) (b : Bool) (h : Client.Seen.set cfg r b ∈ (c.run ops).1) : r ≠ .error .panic := by
  obtain ⟨c0, h0, hi, _⟩ := Client.new_spec
  rw [hc] at h0; cases h0
  obtain ⟨ms, _, _, h3⟩ := Client.run_inv ops hi hw
  exact (h3 cfg r b h).1

/-! ### What the client sees of the results -/
namespace Client

theorem mid_message {d : Dec} {src t a rest : Bytes} (h : d.Mid src t a rest) : d.message = .ok none ∨ d.message = .ok (some a) := by
  rcases Dec.message_spec h.ok with ⟨_, h1⟩ | ⟨h8, h1, _⟩ | ⟨_, _, _, h1⟩ | ⟨h8, _, h1⟩
  · exact .inl h1
  · exfalso
    have := h.head h8
    rw [Dec.data_take h.ok h8] at this
    have := h.fits
    omega
  · exact .inl h1
  · have h8' : 8 ≤ d.off := by omega
    have e1 := Dec.data_take h.ok h8'
    obtain ⟨e2, _⟩ := h.complete h8' (by rw [Dec.data_length h.ok, e1, h8])
    refine .inr ?_
    rw [h1]
    congr 2
    have e3 := Dec.data_drop h.ok h8'
    rw [e2, frame, drop_left _ _ _ (toLE_length 8 _).symm, h8] at e3
    rw [e3]; congr 1; omega

theorem recvMsg_spec (os : List IoOut) : ∀ (c : Client) (t a rest : Bytes), c.dec.Mid c.inp t a rest →
    (c.recvMsg os).2.dec.Mid (c.recvMsg os).2.inp t a rest ∧ ∀ m, (c.recvMsg os).1 = .ok (some m) → m = a := by
  have fin : ∀ (c : Client) (d : Dec) (i t a rest : Bytes), d.Mid i t a rest →
      ∀ r c', (match d.message with
        | .ok m => ((.ok m : Except Fail (Option Bytes)), { c with dec := d, inp := i })
        | .error .panic => (.error .panic, { c with dec := d, inp := i })
        | .error _ => (.error .error, { c with dec := d, inp := i })) = (r, c') →
      c'.dec.Mid c'.inp t a rest ∧ ∀ m, r = .ok (some m) → m = a := by
    intro c d i t a rest hm r c' h
    rcases mid_message hm with e | e
    · rw [e] at h; cases h; exact ⟨hm, nofun⟩
    · rw [e] at h; cases h; exact ⟨hm, fun m h => by cases h; rfl⟩
  induction os with
  | nil =>
    intro c t a rest hm
    obtain ⟨r, d, i, he, hm', _, hr⟩ := hm.read (.err .wouldBlock)
    unfold recvMsg
    rw [he]
    rcases hr with ⟨k, _, rfl, _, _⟩ | ⟨n, rfl, _⟩ | ⟨n, rfl, _⟩
    · exact ⟨hm', nofun⟩
    · exact fin c d i t a rest hm' _ _ rfl
    · exact fin c d i t a rest hm' _ _ rfl
  | cons o os ih =>
    intro c t a rest hm
    obtain ⟨r, d, i, he, hm', _, hr⟩ := hm.read o
    unfold recvMsg
    rw [he]
    rcases hr with ⟨k, _, rfl, _, _⟩ | ⟨n, rfl, _⟩ | ⟨n, rfl, _⟩
    · cases k with
      | interrupted => exact ih { c with dec := d, inp := i } t a rest hm'
      | wouldBlock => exact ⟨hm', nofun⟩
      | unexpectedEof => exact ⟨hm', nofun⟩
      | other => exact ⟨hm', nofun⟩
    · exact fin c d i t a rest hm' _ _ rfl
    · exact fin c d i t a rest hm' _ _ rfl

theorem pollResponse_spec (os : List IoOut) (c : Client) (t a rest : Bytes) (hm : c.dec.Mid c.inp t a rest) :
    (c.pollResponse os).2.dec.Mid (c.pollResponse os).2.inp t a rest ∧
      ∀ r, (c.pollResponse os).1 = .ok (some r) → parseResponse a = some r := by
  obtain ⟨h1, h2⟩ := recvMsg_spec os c t a rest hm
  unfold pollResponse
  rcases hr : c.recvMsg os with ⟨f | (_ | m), c1⟩
  · rw [hr] at h1; exact ⟨h1, nofun⟩
  · rw [hr] at h1; exact ⟨h1, nofun⟩
  · rw [hr] at h1 h2
    have := h2 m rfl
    subst this
    dsimp only
    cases hp : parseResponse m with
    | none => exact ⟨h1, nofun⟩
    | some r => exact ⟨h1, fun r' h => by cases h; rfl⟩

theorem poll_spec (w : World) {c : Client} (he : c.enc.Ok) (t a rest : Bytes) (hm : c.dec.Mid c.inp t a rest) :
    (c.poll w).2.dec.Mid (c.poll w).2.inp t a rest ∧ ∀ r, (c.poll w).1 = .ok (some r) → parseResponse a = some r := by
  obtain ⟨h1, h2⟩ := flush_spec w.flush0 he
  unfold poll
  rcases hf : c.flush w.flush0 with ⟨f | ⟨⟨⟩⟩, c1⟩
  · rw [hf] at h1
    exact ⟨by rw [h1.dec, h1.inp]; exact hm, nofun⟩
  · rw [hf] at h1
    exact pollResponse_spec w.reads c1 t a rest (by rw [h1.dec, h1.inp]; exact hm)

/-- Specification: the bytes the broker sent to the client. -/
def fromBroker : List Op → Bytes
  | [] => []
  | .arrive b :: os => b ++ fromBroker os
  | _ :: os => fromBroker os

theorem run_results (ops : List Op) : ∀ {c : Client} {q : List Bytes} (t a rest : Bytes), c.Inv q → (∀ o ∈ ops, o.WF) →
    c.dec.Mid c.inp (fromBroker ops ++ t) a rest → ∀ r, Seen.polled (.ok (some r)) ∈ (c.run ops).1 → parseResponse a = some r := by
  induction ops with
  | nil => intro c q t a rest _ _ _; exact nofun
  | cons o os ih =>
    intro c q t a rest hi hw hm r hr
    have hw' : ∀ o ∈ os, o.WF := fun x hx => hw x (List.mem_cons_of_mem _ hx)
    cases o with
    | setPsk cfg w =>
      obtain ⟨h1, h2, _, h4⟩ := setPsk_spec hi cfg (hw _ List.mem_cons_self) w
      rcases List.mem_cons.1 hr with h | h
      · cases h
      · rcases h4 with ⟨_, m, _, hi'⟩ | ⟨_, _, hi'⟩
        · exact ih t a rest hi' hw' (by rw [h1, h2]; exact hm) r h
        · exact ih t a rest hi' hw' (by rw [h1, h2]; exact hm) r h
    | poll w =>
      obtain ⟨h1, h2⟩ := poll_spec w hi.enc _ a rest hm
      rcases List.mem_cons.1 hr with h | h
      · exact h2 r (Seen.polled.inj h).symm
      · exact ih t a rest (poll_inv hi w) hw' h1 r h
    | arrive x =>
      rcases List.mem_cons.1 hr with h | h
      · cases h
      · refine ih (c := { c with inp := c.inp ++ x }) t a rest ⟨hi.enc, hi.buf, hi.stream, hi.older⟩ hw' ?_ r h
        refine ⟨hm.ok, ?_, hm.fits, hm.size⟩
        have := hm.stream
        show c.dec.data ++ (c.inp ++ x) ++ (fromBroker os ++ t) = _
        rw [← this]; simp [fromBroker]

/-- the decoder of a client is in the middle of, or at the end of, the first answer -/
theorem run_mid (ops : List Op) : ∀ {c : Client} {q : List Bytes} (t a rest : Bytes), c.Inv q → (∀ o ∈ ops, o.WF) →
    c.dec.Mid c.inp (fromBroker ops ++ t) a rest → (c.run ops).2.dec.Mid (c.run ops).2.inp t a rest ∧ ∃ q', (c.run ops).2.Inv q' := by
  induction ops with
  | nil => intro c q t a rest hi _ hm; exact ⟨hm, q, hi⟩
  | cons o os ih =>
    intro c q t a rest hi hw hm
    have hw' : ∀ o ∈ os, o.WF := fun x hx => hw x (List.mem_cons_of_mem _ hx)
    cases o with
    | setPsk cfg w =>
      obtain ⟨h1, h2, _, h4⟩ := setPsk_spec hi cfg (hw _ List.mem_cons_self) w
      rcases h4 with ⟨_, m, _, hi'⟩ | ⟨_, _, hi'⟩
      · exact ih (c := (c.setPsk cfg w).2.2) t a rest hi' hw' (by rw [h1, h2]; exact hm)
      · exact ih (c := (c.setPsk cfg w).2.2) t a rest hi' hw' (by rw [h1, h2]; exact hm)
    | poll w =>
      obtain ⟨h1, -⟩ := poll_spec w hi.enc _ a rest hm
      exact ih t a rest (poll_inv hi w) hw' h1
    | arrive x =>
      refine ih (c := { c with inp := c.inp ++ x }) t a rest ⟨hi.enc, hi.buf, hi.stream, hi.older⟩ hw' ?_
      refine ⟨hm.ok, ?_, hm.fits, hm.size⟩
      have := hm.stream
      show c.dec.data ++ (c.inp ++ x) ++ (fromBroker os ++ t) = _
      rw [← this]; simp [fromBroker]

/-- an answer that is complete and means nothing is an error -/
theorem poll_rejects (w : World) {c : Client} (he : c.enc.Ok) (t a rest : Bytes) (hm : c.dec.Mid c.inp t a rest) (hp : parseResponse a = none)
    (hf : (c.flush w.flush0).1 = .ok ()) {n : Nat} (hr : w.reads = [.ok n]) (hall : (c.poll w).2.dec.message = .ok (some a)) : (c.poll w).1 = .error .error := by
  obtain ⟨h1, -⟩ := flush_spec w.flush0 he
  unfold poll at hall ⊢
  rcases hfl : c.flush w.flush0 with ⟨f | ⟨⟨⟩⟩, c1⟩
  · rw [hfl] at hf; cases hf
  rw [hfl] at h1 hall
  dsimp only at hall ⊢
  have hm1 : c1.dec.Mid c1.inp t a rest := by rw [h1.dec, h1.inp]; exact hm
  obtain ⟨r, d, i, e, hm', -, hres⟩ := hm1.read (.ok n)
  have hrec : c1.recvMsg w.reads = (match d.message with
        | .ok m => ((.ok m : Except Fail (Option Bytes)), { c1 with dec := d, inp := i })
        | .error .panic => (.error .panic, { c1 with dec := d, inp := i })
        | .error _ => (.error .error, { c1 with dec := d, inp := i })) := by
    rw [hr, recvMsg, e]
    rcases hres with ⟨k, hk, -⟩ | ⟨n', rfl, -⟩ | ⟨n', rfl, -⟩
    · cases hk
    · rfl
    · rfl
  unfold pollResponse at hall ⊢
  rw [hrec] at hall ⊢
  rcases mid_message hm' with h | h
  · rw [h] at hall
    dsimp only at hall
    rw [h] at hall
    cases hall
  · rw [h]
    dsimp only
    rw [hp]

end Client

/-- **C44.** If the first answer of the broker is not a valid response, then a poll that leaves the client with the whole of it reports an error. -/
theorem invalid_answer_is_error (c : Client) (hc : Client.new = .ok c) (ops : List Client.Op) (hw : ∀ o ∈ ops, o.WF)
    (a rest t : Bytes) (ha : a.length ≤ 4096) (hs : Client.fromBroker ops ++ t = frame a ++ rest) (hp : parseResponse a = none) (w : Client.World)
    (hf : ((c.run ops).2.flush w.flush0).1 = .ok ()) {n : Nat} (hr : w.reads = [.ok n]) (hall : ((c.run ops).2.poll w).2.dec.message = .ok (some a)) :
    ((c.run ops).2.poll w).1 = .error .error := by
  obtain ⟨c0, h0, hi, _, h2, h3⟩ := Client.new_spec
  rw [hc] at h0; cases h0
  obtain ⟨hm, q, hi'⟩ := Client.run_mid ops t a rest hi hw (by
    rw [h2, h3]
    exact Dec.mid_new (Dec.new_ok _) rfl _ _ _ _ hs (by show _ ≤ (List.replicate 4096 0).length; rw [List.length_replicate]; exact ha) (by omega))
  exact Client.poll_rejects w hi'.enc t a rest hm hp hf hr hall

/-- **C44, false of the code.** Whatever a broker client does, every result it ever gets to see is the one in the first
answer of the broker: the answers to all later requests are never looked at. -/
theorem only_first_answer_seen (c : Client) (hc : Client.new = .ok c) (ops : List Client.Op) (hw : ∀ o ∈ ops, o.WF)
    (a rest t : Bytes) (ha : a.length ≤ 4096) (hs : Client.fromBroker ops ++ t = frame a ++ rest) (r : PskRes)
    (hr : Client.Seen.polled (.ok (some r)) ∈ (c.run ops).1) : parseResponse a = some r := by
  obtain ⟨c0, h0, hi, _, h2, h3⟩ := Client.new_spec
  rw [hc] at h0; cases h0
  refine Client.run_results ops t a rest hi hw ?_ r hr
  rw [h2, h3]
  exact Dec.mid_new (Dec.new_ok _) rfl _ _ _ _ hs (by show _ ≤ (List.replicate 4096 0).length; rw [List.length_replicate]; exact ha) (by omega)

/-- **C44.** Put together with the broker process: if what the client has received is part of the answers of a broker
that has set the keys `cs`, the client sees nothing but the result of the first one. -/
theorem result_of_first_key_only {σ : Type} (inner : Inner σ) (s : σ) (k : Cfg) (cs : List Cfg) (c : Client)
    (hc : Client.new = .ok c) (ops : List Client.Op) (hw : ∀ o ∈ ops, o.WF)
    (hs : Client.fromBroker ops <+: frames ((resultsOf inner s (k :: cs)).map (fun r => envelope [code r]))) (r : PskRes)
    (hr : Client.Seen.polled (.ok (some r)) ∈ (c.run ops).1) : r = (inner s k).1 := by
  obtain ⟨t, ht⟩ := hs
  have h := only_first_answer_seen c hc ops hw (envelope [code (inner s k).1]) (frames ((resultsOf inner (inner s k).2 cs).map (fun r => envelope [code r]))) t
    (by show 5 ≤ 4096; omega) (by rw [ht]; simp [resultsOf, frames]) r hr
  have h' : parseResponse (envelope [code (inner s k).1]) = some (inner s k).1 := (parseResponse_exact _ _).2 ⟨0, 0, 0, rfl⟩
  rw [h'] at h
  exact (Option.some.inj h).symm

/-! ### Examples -/
namespace Ex

def cfg : Cfg := ⟨strBytes "wg0", List.replicate 32 7, List.replicate 32 9⟩
def cfg2 : Cfg := ⟨strBytes "wg0", List.replicate 32 8, List.replicate 32 1⟩
theorem cfg_wf : cfg.WF := ⟨rfl, rfl⟩
theorem cfg2_wf : cfg2.WF := ⟨rfl, rfl⟩

/-- a request is a request -/
example : ∃ m, IsRequest m cfg := by
  rcases buildRequest_spec cfg cfg_wf with ⟨_, _, _, m, _, h⟩ | ⟨h, _⟩
  · exact ⟨m, h⟩
  · exact absurd ⟨"wg0", rfl⟩ (h (by decide))
/-- a name that is not UTF-8 -/
example : utf8 [0xff] = false := by decide
/-- there are long names -/
example : 255 < (strBytes (String.ofList (List.replicate 256 'a'))).length := by decide +kernel

/-- the first call sends the length only; the second one sends the rest after some refusals, and part of its own request -/
def w0 : Client.World := ⟨[], [], [.ok 100], []⟩
def w1 : Client.World := ⟨[.ok 200], [.err .wouldBlock, .ok 200], [.ok 3], []⟩
set_option maxRecDepth 20000 in
example : ∃ c, Client.new = .ok c ∧ (c.run [.setPsk cfg w0, .setPsk cfg2 w1]).2.out.length = 335 ∧
    Client.queued (c.run [.setPsk cfg w0, .setPsk cfg2 w1]).1 = [cfg, cfg2] :=
  ⟨_, rfl, by decide +kernel, by decide +kernel⟩

/-- the answers to two requests, the second one failed -/
def answers : Bytes := frames [envelope [code (.ok ())], envelope [code (.error .noSuchPeer)]]
def rd : Client.World := ⟨[], [], [], [.ok 100]⟩
/-- the client is polled again and again: it sees the first answer only -/
def polls : List Client.Op := [.arrive answers, .poll rd, .poll rd, .poll rd, .poll rd, .poll rd]
def results (l : List Client.Seen) : List PskRes := l.filterMap (fun | .polled (.ok r) => r | _ => none)
instance : DecidableEq PskRes := fun a b => match a, b with
  | .ok (), .ok () => isTrue rfl
  | .ok (), .error _ => isFalse nofun
  | .error _, .ok () => isFalse nofun
  | .error x, .error y => if h : x = y then isTrue (by rw [h]) else isFalse (fun e => by cases e; exact h rfl)
set_option maxRecDepth 20000 in
example : ∃ c, Client.new = .ok c ∧ results (c.run polls).1 = [.ok (), .ok (), .ok (), .ok ()] ∧ (c.run polls).2.inp.length = 13 :=
  ⟨_, rfl, by decide +kernel, by decide +kernel⟩

/-- an answer of 3 bytes is no response -/
example : parseResponse [1, 2, 3] = none := by decide
def okUnit (x : Except Fail Unit) : Bool := match x with | .ok _ => true | .error _ => false
def okMsg (x : Except DecErr (Option Bytes)) : Option Bytes := match x with | .ok m => m | .error _ => none
set_option maxRecDepth 20000 in
example : ∃ c, Client.new = .ok c ∧ okUnit ((c.run [.arrive (frame [1, 2, 3]), .poll rd]).2.flush rd.flush0).1 = true ∧
    okMsg ((c.run [.arrive (frame [1, 2, 3]), .poll rd]).2.poll rd).2.dec.message = some [1, 2, 3] :=
  ⟨_, rfl, by decide +kernel, by decide +kernel⟩

end Ex
end Verif.Broker
