import Verif.Model.Api
import Verif.Thm.ApiMsgs
import Verif.Thm.FdPass
/-
C39: one API connection: requests are answered once, in order, with a response of the right type.
-/
namespace Verif.Api
open LengthPrefix (IoKind IoOut Enc Dec DecErr frame frames frame_length)
open FdPass (Chan RdOut bytes rights)

/-! ### Handling a request -/

/-- Specification: `resp` is an answer to the request in `req` (bytes after the request are ignored): same kind, and a ping
is echoed. -/
def Answers (req resp : Bytes) : Prop :=
  ∃ k p q rest, req = encode .request k p ++ rest ∧ p.length = payloadSize .request k ∧
    resp = encode .response k q ∧ q.length = payloadSize .response k ∧ (k = .ping → q = p)

theorem answers_mk (k : Kind) (req bq resp q : Bytes) (hq : IsMsg .request k bq) (hpre : bq <+: req)
    (hr : resp = encode .response k q) (hl : q.length = payloadSize .response k) (hp : k = .ping → q = payload bq) :
    Answers req resp := by
  obtain ⟨p, rfl, hpl⟩ := hq
  obtain ⟨rest, rfl⟩ := hpre
  unfold Answers
  refine ⟨k, p, q, rest, by simp only [encode, tag], hpl, hr, hl, fun hk => ?_⟩
  rw [hp hk]
  simp only [payload, tag]
  rw [List.drop_append_of_le_length (by simp [toLE_length]), List.drop_of_length_le (by simp [toLE_length]), List.nil_append]

theorem size_le (d : Dir) (k : Kind) : size d k ≤ 272 := by cases d <;> cases k <;> decide
theorem size_ge (d : Dir) (k : Kind) : 16 ≤ size d k := by cases d <;> cases k <;> decide

theorem init_eq (d : Dir) (k : Kind) (m : Bytes) : init d k m = tag d k ++ m.drop 16 := by simp only [init, tag]

theorem setPayload_init (d : Dir) (k : Kind) (m p : Bytes) : setPayload (init d k m) p = encode d k p := by
  simp only [setPayload, init, encode]
  rw [List.take_append_of_le_length (by simp [toLE_length]), List.take_of_length_le (by simp [toLE_length])]

/-- what `dispatch` puts into the response -/
theorem dispatch_resp (C : Crypto) (checks : Bool) (a : App) (k : Kind) (req : Bytes) (fds : List Nat) (m0 : Bytes)
    (w : ReqWorld) (hreq : IsMsg .request k req) (m : Bytes) (a' : App) (fds' : List Nat)
    (h : dispatch C checks a ⟨k, req⟩ fds (init .response k m0) w = (.ok m, a', fds')) :
    ∃ q, m = encode .response k q ∧ q.length = payloadSize .response k ∧ (k = .ping → q = payload req) := by
  obtain ⟨p, rfl, hp⟩ := hreq
  cases k with
  | ping =>
    simp only [dispatch, setPayload_init] at h
    cases h
    refine ⟨_, rfl, ?_, fun _ => rfl⟩
    simp only [payload, tag]
    rw [List.drop_append_of_le_length (by simp [toLE_length]), List.drop_of_length_le (by simp [toLE_length])]
    simpa [payloadSize] using hp
  | supplyKeypair =>
    simp only [dispatch] at h
    cases hs : supplyKeypair C a fds w with
    | mk r a1 =>
      rw [hs] at h
      cases r with
      | error f => cases h
      | ok st =>
        simp only [withStatus, setPayload_init] at h
        cases h
        exact ⟨_, rfl, by simp [toLE_length, payloadSize], fun h => (nomatch h)⟩
  | addListenSocket =>
    simp only [dispatch, withStatus, setPayload_init] at h
    cases h
    exact ⟨_, rfl, by simp [toLE_length, payloadSize], fun h => (nomatch h)⟩
  | addPskBroker =>
    simp only [dispatch] at h
    cases hs : addPskBroker checks a fds w with
    | mk r x =>
      obtain ⟨a1, f1⟩ := x
      rw [hs] at h
      cases r with
      | error f => cases h
      | ok st =>
        simp only [withStatus, setPayload_init] at h
        cases h
        exact ⟨_, rfl, by simp [toLE_length, payloadSize], fun h => (nomatch h)⟩

theorem dispatch_error_fds (C : Crypto) (checks : Bool) (a : App) (q : Msg) (fds : List Nat) (m : Bytes) (w : ReqWorld)
    (a' : App) (fds' : List Nat) (h : dispatch C checks a q fds m w = (.error .error, a', fds')) : fds' = fds := by
  unfold dispatch at h
  cases hk : q.kind with
  | ping => simp only [hk] at h; cases h
  | supplyKeypair =>
    simp only [hk] at h
    cases hs : supplyKeypair C a fds w with
    | mk r a1 =>
      rw [hs] at h
      cases r <;> cases h
      rfl
  | addListenSocket => simp only [hk] at h; cases h
  | addPskBroker =>
    simp only [hk] at h
    have key : ∀ f x, addPskBroker checks a fds w = (.error f, x) → f = .panic := by
      intro f x h
      unfold addPskBroker at h
      cases fds with
      | nil => cases h
      | cons fd fds =>
        dsimp only at h
        split at h
        · split at h
          · cases h; rfl
          · cases hr : replaceBroker a fd (if a.brokers.store.length = 0 then 2 ^ 64 - 1 else a.brokers.store.length - 1) w with
            | mk o a1 =>
              rw [hr] at h
              cases o <;> cases h
              rfl
        · cases h
    cases hs : addPskBroker checks a fds w with
    | mk r x =>
      obtain ⟨a1, f1⟩ := x
      rw [hs] at h
      cases r with
      | ok st => cases h
      | error f =>
        have := key f _ hs
        subst this
        cases h

/-- Handling a request: the buffer keeps its size; an error leaves the queued descriptors; on success the buffer starts
with an answer to the request, of the length returned. -/
theorem handleMessage_spec (C : Crypto) (checks : Bool) (a : App) (req : Bytes) (fds : List Nat) (buf : Bytes)
    (w : ReqWorld) (r : ReqRes) (h : r = handleMessage C checks a req fds buf w) :
    r.buf.length = buf.length ∧ (r.res = .error .error → r.fds = fds) ∧
    (∀ n, r.res = .ok n → ∃ resp, r.buf = resp ++ buf.drop n ∧ resp.length = n ∧ n ≤ 272 ∧ n ≤ buf.length ∧ Answers req resp) := by
  subst h
  unfold handleMessage
  cases hp : parseFromPrefix .request 0 req with
  | none => exact ⟨rfl, fun _ => rfl, fun n h => (nomatch h)⟩
  | some q =>
    obtain ⟨hq, hpre⟩ := (parse_prefix_exact .request 0 rfl req q).mp hp
    dsimp only
    unfold slot
    by_cases hs : size .response q.kind ≤ buf.length
    · rw [if_pos hs]
      dsimp only
      have hm : (init .response q.kind (buf.take (size .response q.kind))).length = size .response q.kind := by
        rw [init_eq, List.length_append, tag_length, List.length_drop, List.length_take]
        have := size_ge .response q.kind
        omega
      cases hd : dispatch C checks a q fds (init .response q.kind (buf.take (size .response q.kind))) w with
      | mk x y =>
        obtain ⟨a', fds'⟩ := y
        cases x with
        | error f =>
          refine ⟨?_, ?_, fun n h => (nomatch h)⟩
          · simp only [intoBuf, List.length_append, List.length_drop, hm]; omega
          · intro hf
            cases hf
            exact dispatch_error_fds _ _ _ _ _ _ _ _ _ hd
        | ok m =>
          obtain ⟨kq, bq⟩ := q
          dsimp only at hq hpre hs hm hd ⊢
          obtain ⟨v, hv, hvl, hping⟩ := dispatch_resp C checks a kq bq fds _ w hq m a' fds' hd
          have hml : m.length = size .response kq := by
            rw [hv, encode, List.length_append, toLE_length, hvl, size]
          have := size_le .response kq
          refine ⟨?_, ?_, ?_⟩
          · simp only [intoBuf, List.length_append, List.length_drop]; omega
          · intro hf; cases hf
          · intro n hn
            cases hn
            exact ⟨m, rfl, rfl, by omega, by omega, answers_mk kq req bq m v hq hpre hv hvl hping⟩
    · rw [if_neg hs]
      exact ⟨rfl, fun _ => rfl, fun n h => (nomatch h)⟩

/-! ### The buffers -/

theorem exhausted_eq {e : Enc} (h : e.Ok) : ∃ b, e.exhausted = some b ∧ (b = true ↔ e.wire.drop e.pos = []) := by
  obtain ⟨s, hs, -, hnil⟩ := Enc.nextSlice_eq h
  refine ⟨s.isEmpty, by unfold Enc.exhausted; rw [hs]; rfl, ?_⟩
  rw [List.isEmpty_iff, hnil, List.drop_eq_nil_iff, Enc.wire_length h]
  have := h.pos
  omega

theorem zeroize_eq (e : Enc) : e.zeroize = .ok ⟨List.replicate e.buf.length 0, toLE 8 0, 8⟩ := Enc.fromBuffer_spec _

theorem idle_ok (b : Bytes) : (Enc.Ok ⟨b, toLE 8 0, 8⟩) ∧ (Enc.wire ⟨b, toLE 8 0, 8⟩).drop 8 = [] := by
  obtain ⟨h1, h2⟩ := Enc.ok_mk b 0 8 (by decide) (by omega) (by omega)
  refine ⟨h1, ?_⟩
  rw [h2]
  simp [frame, toLE_length]

/-- the encoder side of a connection: `pending` bytes are still to be sent -/
structure EncInv (c : Conn) (pending : Bytes) : Prop where
  ok : c.enc.Ok
  size : c.enc.buf.length = 4096
  pending : c.enc.wire.drop c.enc.pos = pending

/-- Specification: writes that make progress. -/
def CoopW (os : List IoOut) : Prop := ∀ o ∈ os, ∃ k, o = .ok (k + 1)

theorem CoopW.tail {o : IoOut} {os : List IoOut} (h : CoopW (o :: os)) : CoopW os := fun x hx => h x (List.mem_cons_of_mem _ hx)

theorem flushLoop_spec (os : List IoOut) : ∀ (c : Conn) (pending : Bytes), EncInv c pending →
    ∃ s e b pending', c.flushLoop os = (s, { c with enc := e }, b) ∧ EncInv { c with enc := e } pending' ∧
      b ++ pending' = pending ∧ (s = .go → pending' = []) ∧ (∀ f, s = .fail f → f = .error) ∧
      (CoopW os → pending ≠ [] → pending.length ≤ os.length → s = .go) := by
  induction os with
  | nil =>
    intro c p h
    refine ⟨.wait, c.enc, [], p, rfl, h, rfl, fun h => (nomatch h), fun _ h => (nomatch h), fun _ hne hl => ?_⟩
    exact absurd (List.length_eq_zero_iff.mp (Nat.le_zero.mp hl)) hne
  | cons o os ih =>
    intro c p h
    obtain ⟨r, e', w, hw, hok, hb, hh, hp, ⟨t, ht⟩, hr⟩ := Enc.write_spec h.ok o
    have hwire : e'.wire = c.enc.wire := by simp only [Enc.wire, Enc.sending, hb, hh]
    have hdrop : e'.wire.drop e'.pos = t := by
      rw [hwire, hp, ← List.drop_drop, ← ht, List.drop_left]
    have hwt : w ++ t = p := by rw [ht, h.pending]
    have hinv : EncInv { c with enc := e' } t := ⟨hok, by rw [hb]; exact h.size, hdrop⟩
    rcases hr with ⟨n, d, rfl, hn, hd, hprog⟩ | ⟨k, rfl, rfl, rfl⟩
    · have hpl : p.length = c.enc.wire.length - c.enc.pos := by rw [← h.pending, List.length_drop]
      have hprog' : CoopW (o :: os) → p ≠ [] → w ≠ [] := by
        intro hc hne
        obtain ⟨k, hk⟩ := hc o (by simp)
        refine hprog ?_ k hk
        have : p.length ≠ 0 := fun x => hne (List.length_eq_zero_iff.mp x)
        omega
      cases d with
      | true =>
        have hz := zeroize_eq e'
        obtain ⟨hi1, hi2⟩ := idle_ok (List.replicate e'.buf.length 0)
        have ht0 : t = [] := by
          rw [← hdrop, List.drop_eq_nil_iff, hd.mp rfl, hwire]
          exact Nat.le_refl _
        refine ⟨.go, ⟨List.replicate e'.buf.length 0, toLE 8 0, 8⟩, w, [], ?_, ⟨hi1, ?_, hi2⟩, ?_, fun _ => rfl, fun _ h => (nomatch h), fun _ _ _ => rfl⟩
        · rw [Conn.flushLoop, hw]
          dsimp only
          rw [hz]
        · simp only [List.length_replicate, hb]; exact h.size
        · rw [← hwt, ht0]
      | false =>
        cases n with
        | zero =>
          refine ⟨.wait, e', w, t, ?_, hinv, hwt, fun h => (nomatch h), fun _ h => (nomatch h), fun hc hne _ => ?_⟩
          · rw [Conn.flushLoop, hw]
          · exact absurd (List.length_eq_zero_iff.mp hn.symm) (hprog' hc hne)
        | succ n =>
          obtain ⟨s, e2, b, p2, h1, h2, h3, h4, h5, h6⟩ := ih _ _ hinv
          refine ⟨s, e2, w ++ b, p2, ?_, h2, by rw [List.append_assoc, h3, hwt], h4, h5, fun hc hne hl => h6 hc.tail ?_ ?_⟩
          · rw [Conn.flushLoop, hw]
            dsimp only
            rw [h1]
          · intro ht0
            have hpe : e'.pos = c.enc.wire.length := by
              have h7 := congrArg List.length hwt
              rw [ht0, List.append_nil] at h7
              have h8 : c.enc.pos ≤ c.enc.wire.length := by rw [Enc.wire_length h.ok]; exact h.ok.pos
              omega
            exact nomatch hd.mpr hpe
          · have h7 := congrArg List.length hwt
            rw [List.length_append] at h7
            rw [List.length_cons] at hl
            omega
    · have hbad : ∀ k, ¬ CoopW (.err k :: os) := fun k hc => by obtain ⟨x, hx⟩ := hc _ (List.mem_cons_self ..); cases hx
      have hw0 : w = [] := by
        have : w.length = 0 := by omega
        exact List.length_eq_zero_iff.mp this
      subst hw0
      cases k with
      | wouldBlock =>
        refine ⟨.wait, c.enc, [], p, ?_, h, rfl, fun h => (nomatch h), fun _ h => (nomatch h), fun hc => absurd hc (hbad _)⟩
        rw [Conn.flushLoop, hw]
      | interrupted =>
        obtain ⟨s, e2, b, p2, h1, h2, h3, h4, h5, -⟩ := ih _ _ h
        refine ⟨s, e2, b, p2, ?_, h2, h3, h4, h5, fun hc => absurd hc (hbad _)⟩
        rw [Conn.flushLoop, hw]
        dsimp only
        rw [h1]
        rfl
      | unexpectedEof =>
        refine ⟨.fail .error, c.enc, [], p, ?_, h, rfl, fun h => (nomatch h), fun _ h => by cases h; rfl, fun hc => absurd hc (hbad _)⟩
        rw [Conn.flushLoop, hw]
      | other =>
        refine ⟨.fail .error, c.enc, [], p, ?_, h, rfl, fun h => (nomatch h), fun _ h => by cases h; rfl, fun hc => absurd hc (hbad _)⟩
        rw [Conn.flushLoop, hw]

theorem flush_spec (c : Conn) (os : List IoOut) (pending : Bytes) (h : EncInv c pending) :
    ∃ s e b pending', c.flush os = (s, { c with enc := e }, b) ∧ EncInv { c with enc := e } pending' ∧
      b ++ pending' = pending ∧ (s = .go → pending' = []) ∧ (∀ f, s = .fail f → f = .error) ∧
      (CoopW os → pending.length ≤ os.length → s = .go) := by
  obtain ⟨x, hx, hb⟩ := exhausted_eq h.ok
  unfold Conn.flush
  rw [hx]
  cases x with
  | true =>
    have hp : pending = [] := by rw [← h.pending]; exact hb.mp rfl
    exact ⟨.go, c.enc, [], pending, rfl, h, rfl, fun _ => hp, fun _ h => (nomatch h), fun _ _ => rfl⟩
  | false =>
    have hp : pending ≠ [] := fun e => by
      rw [← h.pending] at e
      exact nomatch hb.mpr e
    obtain ⟨s, e, b, p', h1, h2, h3, h4, h5, h6⟩ := flushLoop_spec os c pending h
    exact ⟨s, e, b, p', h1, h2, h3, h4, h5, fun hc hl => h6 hc hp hl⟩

/-- the decoder side of a connection: `cur` was read since the last request -/
structure DecInv (c : Conn) (cur : Chan) : Prop where
  ok : c.dec.Ok
  size : c.dec.buf.length = 4096
  data : c.dec.data = bytes cur
  fds : c.fds = (rights cur).take 2

theorem fill_nil (d : Dec) (g : LengthPrefix.Region) : d.fill g [] = d := by
  cases g <;> simp [Dec.fill, List.take_append_drop]

/-- Claiming received descriptors never fails in a way that is taken for "try again". -/
def RdOut.Sane (o : RdOut) : Prop := ∀ x ∈ o.claim, x ≠ some .interrupted ∧ x ≠ some .wouldBlock

theorem claimAll_fail (fds : List Nat) : ∀ c k x, (FdPass.claimAll fds c).2 = some (k, x) → some k ∈ c := by
  induction fds with
  | nil => intro c k x h; cases h
  | cons fd fds ih =>
    intro c k x h
    unfold FdPass.claimAll at h
    cases c with
    | nil =>
      dsimp only [List.headD] at h
      exact absurd (ih _ _ _ h) (by simp)
    | cons y ys =>
      cases y with
      | some k' =>
        dsimp only [List.headD] at h
        cases h
        simp
      | none =>
        dsimp only [List.headD] at h
        exact List.mem_cons_of_mem _ (ih _ _ _ h)

theorem read_error (maxFds : Nat) (held : List Nat) (c : Chan) (len : Nat) (o : RdOut) (k : IoKind)
    (h : (FdPass.read maxFds held c len o).res = .error k) :
    (FdPass.read maxFds held c len o = ⟨.error k, held, c, [], []⟩) ∨ some k ∈ o.claim := by
  unfold FdPass.read at h ⊢
  cases hio : o.io with
  | err k' =>
    rw [hio] at h
    cases h
    exact .inl rfl
  | ok n =>
    right
    rw [hio] at h
    dsimp only at h
    cases hcl : FdPass.claimAll (List.take (maxFds - held.length) (rights (List.take (min n (min len (FdPass.stops false c))) c))) o.claim with
    | mk got r =>
      rw [hcl] at h
      cases r with
      | none => cases h
      | some x =>
        obtain ⟨k', rest⟩ := x
        cases h
        exact claimAll_fail _ _ _ rest (by rw [hcl])

theorem read_rest (d : Dec) (b : Bytes) (g : LengthPrefix.Region) (len : Nat) (h : d.nextSlice = .ok (some (g, len)))
    (hl : b.length ≤ len) : (d.read b (.ok b.length)).2.2 = [] := by
  unfold Dec.read
  rw [h]
  dsimp only
  have : List.drop (min b.length (min len b.length)) b = [] := List.drop_of_length_le (by omega)
  split
  · exact this
  · split <;> exact this

/-- Specification: `b` does not announce a message larger than the buffer. -/
def Fits (b : Bytes) : Prop := 8 ≤ b.length → leNat (b.take 8) ≤ 4096

/-- what one read of a connection can do -/
inductive ReadRes (c : Conn) (cur : Chan) (chan : Chan) (o : RdOut) :
    Except DecErr (Nat × Option Bytes) × Conn × Chan → Prop where
  | retry (k : IoKind) (hk : k = .interrupted ∨ k = .wouldBlock) (ho : o.io = .err k) (hfit : Fits (bytes cur)) : ReadRes c cur chan o (.error (.io k), c, chan)
  | broken (k : IoKind) (hk : k ≠ .interrupted ∧ k ≠ .wouldBlock) (hb : o.io = .err k ∨ some k ∈ o.claim) (d : Dec) (fds : List Nat) (n : Nat) :
      ReadRes c cur chan o (.error (.io k), { c with dec := d, fds := fds }, chan.drop n)
  | tooLarge (a b : Nat) (h8 : 8 ≤ (bytes cur).length) (hb : 4096 < leNat ((bytes cur).take 8)) : ReadRes c cur chan o (.error (.tooLarge a b), c, chan)
  | complete (m : Nat) (d : Dec) (fds : List Nat) (n : Nat) (req : Bytes) (hi : DecInv { c with dec := d, fds := fds } (cur ++ chan.take n))
      (hm : d.message = .ok (some req)) (hreq : bytes (cur ++ chan.take n) = frame req) (hl : req.length ≤ 4096) :
      ReadRes c cur chan o (.ok (m, some req), { c with dec := d, fds := fds }, chan.drop n)
  | partly (d : Dec) (fds : List Nat) (n : Nat) (hi : DecInv { c with dec := d, fds := fds } (cur ++ chan.take n))
      (hz : n = 0 → chan = [] ∨ o.io = .ok 0) (hfit : Fits (bytes cur)) (hnc : (bytes (cur ++ chan.take n)).length < 8 ∨ (bytes (cur ++ chan.take n)).length < 8 + leNat ((bytes (cur ++ chan.take n)).take 8)) :
      ReadRes c cur chan o (.ok (n, none), { c with dec := d, fds := fds }, chan.drop n)

/-- the decoder holds a complete message -/
theorem complete_frame {d : Dec} (h : d.Ok) (h8 : 8 ≤ d.off) (hl : d.data.length = 8 + leNat (d.data.take 8)) :
    d.data = frame (d.data.drop 8) := by
  have h1 : d.data.take 8 = toLE 8 (d.data.drop 8).length := by
    have hlen : (d.data.take 8).length = 8 := by rw [List.length_take, Dec.data_length h]; omega
    have := toLE_leNat (d.data.take 8)
    rw [hlen] at this
    rw [← this, List.length_drop, hl]
    congr 1
    omega
  rw [frame, ← h1, List.take_append_drop]

theorem message_complete {d : Dec} (h : d.Ok) (h8 : 8 ≤ d.off) (hl : d.data.length = 8 + leNat (d.data.take 8))
    (hs : leNat (d.data.take 8) ≤ d.buf.length) : d.message = .ok (some (d.data.drop 8)) := by
  have ht := Dec.data_take h h8
  have hd := Dec.data_drop h h8
  rw [Dec.data_length h, ht] at hl
  rw [ht] at hs
  rcases Dec.message_spec h with ⟨a, -⟩ | ⟨-, a, -⟩ | ⟨-, -, a, -⟩ | ⟨a, b, c⟩
  · omega
  · omega
  · omega
  · rw [c, hd, hl]
    congr 3
    omega

theorem stops_pos (c : Chan) (h : FdPass.stops false c = 0) : c = [] := by
  cases c with
  | nil => rfl
  | cons x xs =>
    obtain ⟨b, fds⟩ := x
    simp [FdPass.stops] at h

theorem take_two (a b : List Nat) : a.take 2 ++ b.take (2 - (a.take 2).length) = (a ++ b).take 2 := by
  rw [List.take_append, List.length_take]
  congr 2
  omega

/-- the decoder after taking `b` from the socket -/
theorem decRead_spec (c : Conn) (cur chan : Chan) (o : RdOut) (n : Nat) (h : DecInv c cur) (g : LengthPrefix.Region) (len : Nat)
    (hns : c.dec.nextSlice = .ok (some (g, len))) (hn : n ≤ len) (hnl : n ≤ chan.length)
    (hz : n = 0 → chan = [] ∨ o.io = .ok 0) (hfit : Fits (bytes cur)) (held : List Nat) (hh : held = c.fds ++ (rights (chan.take n)).take (2 - c.fds.length)) :
    ReadRes c cur chan o ((c.dec.read (bytes (chan.take n)) (.ok (bytes (chan.take n)).length)).1,
      { c with dec := (c.dec.read (bytes (chan.take n)) (.ok (bytes (chan.take n)).length)).2.1, fds := held }, chan.drop n) := by
  have hbl : (bytes (chan.take n)).length = n := by simp [bytes, hnl]
  have hrest := read_rest c.dec (bytes (chan.take n)) g len hns (by omega)
  obtain ⟨r, d', src', hr, S⟩ := Dec.read_spec h.ok (bytes (chan.take n)) (.ok (bytes (chan.take n)).length)
  rw [hr] at hrest ⊢
  dsimp only at hrest
  subst hrest
  have hdata : d'.data = bytes (cur ++ chan.take n) := by
    have := S.moved
    rw [List.append_nil] at this
    rw [this, h.data, FdPass.bytes_append]
  have hfds : held = (rights (cur ++ chan.take n)).take 2 := by
    rw [hh, FdPass.rights_append, ← take_two, h.fds]
  have hi : DecInv { c with dec := d', fds := held } (cur ++ chan.take n) := ⟨S.ok, by rw [← h.size]; exact S.size, hdata, hfds⟩
  have hoff : d'.off = c.dec.off + n := by
    rw [← Dec.data_length S.ok, ← Dec.data_length h.ok, hdata, h.data, FdPass.bytes_append, List.length_append, hbl]
  rcases S.res with ⟨k, a, -⟩ | ⟨a, b, -⟩ | ⟨m, rfl, h8, hl, hle, -⟩ | ⟨m, rfl, hnc, hm, -⟩
  · cases a
  · -- the decoder would not have offered a slice
    rcases Dec.nextSlice_spec h.ok with ⟨x, -⟩ | ⟨-, -, x⟩ | ⟨-, x, -⟩ | ⟨-, x, -⟩
    · omega
    · rw [x] at hns; cases hns
    · omega
    · omega
  · dsimp only
    refine .complete m d' held n _ hi (message_complete S.ok h8 hl (by rw [S.size]; exact hle)) ?_ ?_
    · rw [← hdata]; exact complete_frame S.ok h8 hl
    · rw [List.length_drop, hl]
      have := h.size
      omega
  · dsimp only
    have hmn : m = n := by omega
    subst hmn
    refine .partly d' held m hi hz hfit ?_
    rw [← hdata, Dec.data_length S.ok]
    exact hnc

theorem read_cases (maxFds : Nat) (held : List Nat) (c : Chan) (len : Nat) (o : RdOut) (n0 : Nat) (hio : o.io = .ok n0) :
    (∃ k n, (FdPass.read maxFds held c len o).res = .error k ∧ some k ∈ o.claim ∧ (FdPass.read maxFds held c len o).chan = c.drop n) ∨
    (∃ n, (FdPass.read maxFds held c len o).res = .ok (bytes (c.take n)) ∧
      (FdPass.read maxFds held c len o).held = held ++ (rights (c.take n)).take (maxFds - held.length) ∧
      (FdPass.read maxFds held c len o).chan = c.drop n ∧ n ≤ len ∧ n ≤ c.length ∧
      (n = 0 → n0 = 0 ∨ len = 0 ∨ FdPass.stops false c = 0)) := by
  have hst : FdPass.stops false c ≤ c.length := by
    have : ∀ (seen : Bool) (c : Chan), FdPass.stops seen c ≤ c.length := by
      intro seen c
      induction c generalizing seen with
      | nil => simp [FdPass.stops]
      | cons x xs ih =>
        obtain ⟨b, fds⟩ := x
        unfold FdPass.stops
        split
        · simp
        · have := ih (seen || !fds.isEmpty)
          simp only [List.length_cons]; omega
    exact this false c
  unfold FdPass.read
  rw [hio]
  dsimp only
  cases hcl : FdPass.claimAll (List.take (maxFds - held.length) (rights (List.take (min n0 (min len (FdPass.stops false c))) c))) o.claim with
  | mk got r =>
    cases r with
    | none =>
      right
      have hg := FdPass.claimAll_spec _ o.claim (by rw [hcl])
      rw [hcl] at hg
      dsimp only at hg ⊢
      exact ⟨_, rfl, by rw [hg], rfl, by omega, by omega, fun h => by omega⟩
    | some x =>
      left
      obtain ⟨k, rest⟩ := x
      exact ⟨k, _, rfl, claimAll_fail _ _ _ rest (by rw [hcl]), rfl⟩

theorem nextSlice_fits {c : Conn} {cur : Chan} (h : DecInv c cur) (x : LengthPrefix.Region × Nat) (hx : c.dec.nextSlice = .ok (some x)) :
    Fits (bytes cur) := by
  intro h8
  rw [← h.data] at h8 ⊢
  rw [Dec.data_length h.ok] at h8
  rw [Dec.data_take h.ok h8]
  rcases Dec.nextSlice_spec h.ok with ⟨a, -⟩ | ⟨-, -, e⟩ | ⟨-, b, -⟩ | ⟨-, -, e⟩
  · omega
  · rw [e] at hx; cases hx
  · rw [← h.size]; exact b
  · rw [e] at hx; cases hx

/-- One read of a connection. -/
theorem readOnce_spec (c : Conn) (cur chan : Chan) (o : RdOut) (h : DecInv c cur) (hs : RdOut.Sane o) :
    ReadRes c cur chan o (c.readOnce chan o) := by
  unfold Conn.readOnce
  -- a slice of `len` bytes is to be filled
  have hfit : ∀ x, c.dec.nextSlice = .ok (some x) → Fits (bytes cur) := fun x hx => nextSlice_fits h x hx
  have fill : ∀ g len, 0 < len → c.dec.nextSlice = .ok (some (g, len)) →
      ReadRes c cur chan o (match (FdPass.read 2 c.fds chan len o).res with
        | .ok b => ((c.dec.read b (.ok b.length)).1, { c with dec := (c.dec.read b (.ok b.length)).2.1, fds := (FdPass.read 2 c.fds chan len o).held }, (FdPass.read 2 c.fds chan len o).chan)
        | .error k => (.error (.io k), { c with dec := c.dec.fill g (FdPass.read 2 c.fds chan len o).taken, fds := (FdPass.read 2 c.fds chan len o).held }, (FdPass.read 2 c.fds chan len o).chan)) := by
    intro g len hlen hns
    cases hio : o.io with
    | err k =>
      have hrd : FdPass.read 2 c.fds chan len o = ⟨.error k, c.fds, chan, [], []⟩ := by unfold FdPass.read; rw [hio]
      rw [hrd]
      dsimp only
      rw [fill_nil]
      by_cases hk : k = .interrupted ∨ k = .wouldBlock
      · exact .retry k hk hio (hfit _ hns)
      · exact .broken k ⟨fun e => hk (.inl e), fun e => hk (.inr e)⟩ (.inl hio) c.dec c.fds 0
    | ok n0 =>
      rcases read_cases 2 c.fds chan len o n0 hio with ⟨k, n, h1, h2, h3⟩ | ⟨n, h1, h2, h3, h4, h5, h6⟩
      · have := hs _ h2
        rw [h1, h3]
        exact .broken k ⟨fun e => this.1 (by rw [e]), fun e => this.2 (by rw [e])⟩ (.inr h2) _ _ n
      · rw [h1, h2, h3]
        refine decRead_spec c cur chan o n h g len hns h4 h5 (fun hn => ?_) (hfit _ hns) _ rfl
        rcases h6 hn with x | x | x
        · right; rw [hio, x]
        · omega
        · exact .inl (stops_pos _ x)
  rcases Dec.nextSlice_spec h.ok with ⟨a, b⟩ | ⟨a, b, e⟩ | ⟨a, b, e, f⟩ | ⟨a, b, e⟩
  · rw [b]
    exact fill .header _ (by omega) b
  · have hr : c.dec.read [] (.ok 0) = (.error (.tooLarge (leNat c.dec.header) c.dec.buf.length), c.dec, []) := by
      unfold Dec.read; rw [e]
    rw [e]
    dsimp only
    rw [hr]
    have h8 : 8 ≤ (bytes cur).length := by rw [← h.data, Dec.data_length h.ok]; exact a
    exact .tooLarge _ _ h8 (by rw [← h.data, Dec.data_take h.ok a, ← h.size]; exact b)
  · rw [f]
    exact fill .message _ (by omega) f
  · have h8 : 8 ≤ c.dec.off := by omega
    have hl : c.dec.data.length = 8 + leNat (c.dec.data.take 8) := by
      rw [Dec.data_length h.ok, Dec.data_take h.ok h8]; exact a
    have hm := message_complete h.ok h8 hl (by rw [Dec.data_take h.ok h8]; exact b)
    have hr : c.dec.read [] (.ok 0) = (.ok (0, some (c.dec.data.drop 8)), c.dec, []) := by
      unfold Dec.read; rw [e]; dsimp only; rw [hm]
    rw [e]
    dsimp only
    rw [hr]
    have hcur : cur ++ chan.take 0 = cur := by simp
    refine .complete 0 c.dec c.fds 0 _ (by rw [hcur]; exact h) hm ?_ ?_
    · rw [hcur, ← h.data]; exact complete_frame h.ok h8 hl
    · rw [List.length_drop, Dec.data_length h.ok]
      have := h.size
      omega

/-- Specification: reads that make progress: each returns at least a byte (if there is one) and claims descriptors. -/
def Coop (os : List RdOut) : Prop := ∀ o ∈ os, (∃ k, o.io = .ok (k + 1)) ∧ ∀ x ∈ o.claim, x = none

/-- Specification: `b` does not contain a whole frame. -/
def Incomplete (b : Bytes) : Prop := b.length < 8 ∨ b.length < 8 + leNat (b.take 8)

/-- what receiving can do -/
inductive RecvRes (c : Conn) (cur chan : Chan) (os : List RdOut) : Stage × Conn × Chan → Prop where
  | go (d : Dec) (fds : List Nat) (t chan' : Chan) (req : Bytes) (hsplit : t ++ chan' = chan)
      (hi : DecInv { c with dec := d, fds := fds } (cur ++ t)) (hm : d.message = .ok (some req))
      (hreq : bytes (cur ++ t) = frame req) (hl : req.length ≤ 4096) : RecvRes c cur chan os (.go, { c with dec := d, fds := fds }, chan')
  | wait (d : Dec) (fds : List Nat) (t chan' : Chan) (hsplit : t ++ chan' = chan)
      (hi : DecInv { c with dec := d, fds := fds } (cur ++ t)) (hc : Coop os → chan' = [] ∨ os.length ≤ t.length)
      (hnc : Coop os → Incomplete (bytes (cur ++ t))) (hfit : Fits (bytes (cur ++ t))) : RecvRes c cur chan os (.wait, { c with dec := d, fds := fds }, chan')
  | tooLarge (d : Dec) (fds : List Nat) (t chan' : Chan) (hsplit : t ++ chan' = chan) (h8 : 8 ≤ (bytes (cur ++ t)).length)
      (hb : 4096 < leNat ((bytes (cur ++ t)).take 8)) :
      RecvRes c cur chan os (.wait, { c with dec := d, fds := fds, invalid := true }, chan')
  | broken (d : Dec) (fds : List Nat) (t chan' : Chan) (hsplit : t ++ chan' = chan) (hc : ¬ Coop os) :
      RecvRes c cur chan os (.fail .error, { c with dec := d, fds := fds, invalid := true }, chan')

theorem Coop.tail {o : RdOut} {os : List RdOut} (h : Coop (o :: os)) : Coop os := fun x hx => h x (List.mem_cons_of_mem _ hx)

theorem recvLoop_spec (os : List RdOut) : ∀ (c : Conn) (cur chan : Chan), DecInv c cur → (∀ o ∈ os, RdOut.Sane o) →
    RecvRes c cur chan os (c.recvLoop chan os) := by
  induction os with
  | nil =>
    intro c cur chan h _
    have hcur : cur ++ [] = cur := by simp
    unfold Conn.recvLoop
    have fill : ∀ x, c.dec.nextSlice = .ok (some x) → Incomplete (bytes cur) → RecvRes c cur chan [] (.wait, c, chan) := by
      intro x hx hi
      exact .wait c.dec c.fds [] chan rfl (by rw [hcur]; exact h) (fun _ => .inr (Nat.zero_le _)) (fun _ => by rw [hcur]; exact hi) (by rw [hcur]; exact nextSlice_fits h x hx)
    rcases Dec.nextSlice_spec h.ok with ⟨a, b⟩ | ⟨a, b, e⟩ | ⟨a, b, e, f⟩ | ⟨a, b, e⟩
    · rw [b]
      exact fill _ b (.inl (by rw [← h.data, Dec.data_length h.ok]; exact a))
    · have hr : c.dec.read [] (.ok 0) = (.error (.tooLarge (leNat c.dec.header) c.dec.buf.length), c.dec, []) := by
        unfold Dec.read; rw [e]
      rw [e]
      dsimp only
      rw [hr]
      have h8 : 8 ≤ (bytes cur).length := by rw [← h.data, Dec.data_length h.ok]; exact a
      exact .tooLarge c.dec c.fds [] chan rfl (by rw [hcur]; exact h8)
        (by rw [hcur, ← h.data, Dec.data_take h.ok a, ← h.size]; exact b)
    · rw [f]
      refine fill _ f (.inr ?_)
      rw [← h.data, Dec.data_length h.ok, Dec.data_take h.ok a]
      exact e
    · have h8 : 8 ≤ c.dec.off := by omega
      have hl : c.dec.data.length = 8 + leNat (c.dec.data.take 8) := by
        rw [Dec.data_length h.ok, Dec.data_take h.ok h8]; exact a
      have hm := message_complete h.ok h8 hl (by rw [Dec.data_take h.ok h8]; exact b)
      have hr : c.dec.read [] (.ok 0) = (.ok (0, some (c.dec.data.drop 8)), c.dec, []) := by
        unfold Dec.read; rw [e]; dsimp only; rw [hm]
      rw [e]
      dsimp only
      rw [hr]
      refine .go c.dec c.fds [] chan _ rfl (by rw [hcur]; exact h) hm ?_ ?_
      · rw [hcur, ← h.data]; exact complete_frame h.ok h8 hl
      · rw [List.length_drop, Dec.data_length h.ok]
        have := h.size
        omega
  | cons o os ih =>
    intro c cur chan h hs
    have hs' : ∀ x ∈ os, RdOut.Sane x := fun x hx => hs x (List.mem_cons_of_mem _ hx)
    have hcur : cur ++ [] = cur := by simp
    have H := readOnce_spec c cur chan o h (hs o (by simp))
    unfold Conn.recvLoop
    generalize c.readOnce chan o = z at H ⊢
    cases H with
    | retry k hk ho hfit =>
      have hnc : ¬ Coop (o :: os) := by
        intro hc
        obtain ⟨⟨n, hn⟩, -⟩ := hc o (by simp)
        rw [ho] at hn
        cases hn
      rcases hk with rfl | rfl
      · dsimp only
        have H2 := ih c cur chan h hs'
        generalize c.recvLoop chan os = y at H2 ⊢
        cases H2 with
        | go d fds t chan' req a b e f g => exact .go d fds t chan' req a b e f g
        | wait d fds t chan' a b e f g => exact .wait d fds t chan' a b (fun x => absurd x hnc) (fun x => absurd x hnc) g
        | tooLarge d fds t chan' a b e => exact .tooLarge d fds t chan' a b e
        | broken d fds t chan' a b => exact .broken d fds t chan' a hnc
      · dsimp only
        exact .wait c.dec c.fds [] chan rfl (by rw [hcur]; exact h) (fun x => absurd x hnc) (fun x => absurd x hnc) (by rw [hcur]; exact hfit)
    | broken k hk hb d fds n =>
      have hnc : ¬ Coop (o :: os) := by
        intro hc
        obtain ⟨⟨n, hn⟩, hcl⟩ := hc o (by simp)
        rcases hb with hb | hb
        · rw [hb] at hn; cases hn
        · exact nomatch hcl _ hb
      have : RecvRes c cur chan (o :: os) (.fail .error, { c with dec := d, fds := fds, invalid := true }, chan.drop n) :=
        .broken d fds (chan.take n) (chan.drop n) (List.take_append_drop _ _) hnc
      cases k with
      | interrupted => exact absurd rfl hk.1
      | wouldBlock => exact absurd rfl hk.2
      | unexpectedEof => exact this
      | other => exact this
    | tooLarge a b h8 hb =>
      exact .tooLarge c.dec c.fds [] chan rfl (by rw [hcur]; exact h8) (by rw [hcur]; exact hb)
    | complete m d fds n req hi hm hreq hl =>
      exact .go d fds (chan.take n) (chan.drop n) req (List.take_append_drop _ _) hi hm hreq hl
    | partly d fds n hi hz hfit hnc =>
      cases n with
      | zero =>
        refine .wait d fds (chan.take 0) (chan.drop 0) (List.take_append_drop _ _) hi (fun hc => ?_) (fun _ => hnc) (by simpa using hfit)
        left
        rcases hz rfl with e | e
        · rw [e]; rfl
        · obtain ⟨⟨n, hn⟩, -⟩ := hc o (by simp)
          rw [e] at hn
          cases hn
      | succ n =>
        dsimp only
        have H2 := ih { c with dec := d, fds := fds } (cur ++ chan.take (n + 1)) (chan.drop (n + 1)) hi hs'
        generalize Conn.recvLoop { c with dec := d, fds := fds } (chan.drop (n + 1)) os = y at H2 ⊢
        have hsp : ∀ t chan', t ++ chan' = chan.drop (n + 1) → (chan.take (n + 1) ++ t) ++ chan' = chan := by
          intro t chan' ht
          rw [List.append_assoc, ht, List.take_append_drop]
        cases H2 with
        | go d fds t chan' req a b e f g =>
          rw [List.append_assoc] at b f
          exact .go d fds (chan.take (n + 1) ++ t) chan' req (hsp _ _ a) b e f g
        | wait d fds t chan' a b e f g =>
          rw [List.append_assoc] at b g
          refine .wait d fds (chan.take (n + 1) ++ t) chan' (hsp _ _ a) b (fun x => ?_) (fun x => by rw [← List.append_assoc]; exact f x.tail) g
          rcases e x.tail with y | y
          · exact .inl y
          · by_cases hch : chan.length ≤ n
            · left
              have : chan.drop (n + 1) = [] := List.drop_of_length_le (by omega)
              rw [this] at a
              exact (List.append_eq_nil_iff.mp a).2
            · right
              rw [List.length_append, List.length_take, List.length_cons]
              omega
        | tooLarge d fds t chan' a b e =>
          rw [List.append_assoc] at b e
          exact .tooLarge d fds (chan.take (n + 1) ++ t) chan' (hsp _ _ a) b e
        | broken d fds t chan' a b => exact .broken d fds (chan.take (n + 1) ++ t) chan' (hsp _ _ a) (fun x => b x.tail)

theorem bytes_nil : bytes ([] : Chan) = [] := rfl
theorem rights_nil : rights ([] : Chan) = [] := rfl

theorem EncInv.congr {c c' : Conn} {p : Bytes} (h : EncInv c p) (he : c'.enc = c.enc) : EncInv c' p :=
  ⟨by rw [he]; exact h.ok, by rw [he]; exact h.size, by rw [he]; exact h.pending⟩

theorem DecInv.congr {c c' : Conn} {cur : Chan} (h : DecInv c cur) (hd : c'.dec = c.dec) (hf : c'.fds = c.fds) : DecInv c' cur :=
  ⟨by rw [hd]; exact h.ok, by rw [hd]; exact h.size, by rw [hd]; exact h.data, by rw [hf]; exact h.fds⟩

/-- Handling a request on a connection. -/
theorem handle_spec (C : Crypto) (checks : Bool) (a : App) (c : Conn) (cur : Chan) (w : ReqWorld) (req : Bytes)
    (he : EncInv c []) (hd : DecInv c cur) (hm : c.dec.message = .ok (some req)) (r : ReqRes)
    (hr : r = handleMessage C checks a req c.fds c.enc.buf w) :
    ∃ s c', c.handle C checks a w = (s, r.app, c') ∧ c'.token = c.token ∧ c'.invalid = c.invalid ∧
      ((∃ f, r.res = .error f ∧ s = .fail f ∧ (f = .error → EncInv c' [] ∧ DecInv c' cur)) ∨
       (∃ resp, r.res = .ok resp.length ∧ s = .go ∧ r.buf = resp ++ c.enc.buf.drop resp.length ∧ Answers req resp ∧
          EncInv c' (frame resp) ∧ DecInv c' [])) := by
  obtain ⟨hbl, hef, hok⟩ := handleMessage_spec C checks a req c.fds c.enc.buf w r hr
  obtain ⟨b, hb, hbt⟩ := exhausted_eq he.ok
  have hb1 : b = true := hbt.mpr he.pending
  subst hb1
  unfold Conn.handle
  rw [hb, hm]
  dsimp only
  rw [← hr]
  cases hres : r.res with
  | error f =>
    refine ⟨_, _, rfl, rfl, rfl, .inl ⟨f, rfl, rfl, ?_⟩⟩
    intro hf
    subst hf
    refine ⟨⟨⟨he.ok.header, ?_, he.ok.pos⟩, ?_, ?_⟩, hd.congr rfl (hef hres)⟩
    · dsimp only; rw [hbl]; exact he.ok.len
    · dsimp only; rw [hbl]; exact he.size
    · have h1 := he.pending
      rw [List.drop_eq_nil_iff] at h1 ⊢
      rw [Enc.wire_length he.ok] at h1
      have hx : Enc.Ok ⟨r.buf, c.enc.header, c.enc.pos⟩ := ⟨he.ok.header, by dsimp only; rw [hbl]; exact he.ok.len, he.ok.pos⟩
      have hy := Enc.wire_length hx
      dsimp only at hy ⊢
      rw [hy]
      exact h1
  | ok n =>
    obtain ⟨resp, hrb, hrl, hn, hnb, hans⟩ := hok n hres
    subst hrl
    have hlen : resp.length ≤ r.buf.length := by rw [hbl]; exact hnb
    have hset := Enc.setLenPos_spec r.buf c.enc.header c.enc.pos resp.length 0 (by omega) hlen (by omega)
    obtain ⟨hi, hw⟩ := Enc.ok_mk r.buf resp.length 0 (by omega) hlen (by omega)
    have hrw : Enc.restartWith { c.enc with buf := r.buf } resp.length = (.ok (), ⟨r.buf, toLE 8 resp.length, 0⟩) := by
      unfold Enc.restartWith
      rw [hset]
    dsimp only
    rw [hrw]
    refine ⟨_, _, rfl, rfl, rfl, .inr ⟨resp, rfl, rfl, hrb, hans, ⟨hi, ?_, ?_⟩, ?_⟩⟩
    · dsimp only; rw [hbl]; exact he.size
    · dsimp only
      rw [hw, List.drop_zero, hrb, List.take_left]
    · refine ⟨Dec.clear_ok hd.ok, ?_, ?_, rfl⟩
      · simp only [Dec.clear, List.length_replicate]; exact hd.size
      · simp [Dec.clear, Dec.data, bytes]

theorem recv_spec (c : Conn) (cur chan : Chan) (os : List RdOut) (he : EncInv c []) (hd : c.invalid = false → DecInv c cur)
    (hs : ∀ o ∈ os, RdOut.Sane o) :
    (c.invalid = true ∧ c.recv chan os = (.wait, c, chan)) ∨ (c.invalid = false ∧ RecvRes c cur chan os (c.recv chan os)) := by
  obtain ⟨b, hb, hbt⟩ := exhausted_eq he.ok
  have hb1 : b = true := hbt.mpr he.pending
  subst hb1
  unfold Conn.recv
  rw [hb]
  cases hi : c.invalid with
  | true => exact .inl ⟨rfl, rfl⟩
  | false => exact .inr ⟨rfl, recvLoop_spec os c cur chan (hd hi) hs⟩

/-! ### Polling a connection -/

/-- Specification: one answered request: the part of the incoming stream it came in, the request, the response, the
application and environment it met and the application afterwards. -/
structure Served where
  chunk : Chan
  req : Bytes
  resp : Bytes
  app : App
  w : ReqWorld
  after : App

/-- Specification: the request is the whole chunk, the response is a response to it, and its effect is that of the
request's handler, given the (first two) descriptors that came with the request, no others. -/
structure Served.Ok (C : Crypto) (checks : Bool) (s : Served) : Prop where
  framed : bytes s.chunk = frame s.req
  small : s.req.length ≤ 4096
  answers : Answers s.req s.resp
  handled : ∃ buf r, r = handleMessage C checks s.app s.req ((rights s.chunk).take 2) buf s.w ∧ r.res = .ok s.resp.length ∧
    r.buf = s.resp ++ buf.drop s.resp.length ∧ r.app = s.after

/-- the invariant of a connection: `pending` is to be sent, `cur` was received -/
structure ConnInv (c : Conn) (cur : Chan) (pending : Bytes) : Prop where
  enc : EncInv c pending
  dec : c.invalid = false → DecInv c cur

/-- What a poll of a connection can do. -/
inductive PollRes (C : Crypto) (checks : Bool) (a : App) (c : Conn) (cur chan : Chan) (pending : Bytes) (w : PollWorld) (p : Conn.Polled) :
    Chan → Bytes → Option Served → Prop where
  /-- no request is handled -/
  | idle (cur' : Chan) (pending' : Bytes) (ha : p.app = a) (hsent : p.sent ++ pending' = pending)
      (hchan : cur' ++ p.chan = cur ++ chan) (hres : p.res = .ok () ∨ p.res = .error .error) (hi : ConnInv p.conn cur' pending')
      (hmono : p.conn.invalid = false → c.invalid = false)
      (hbad : p.conn.invalid = true → c.invalid = true ∨ (p.res = .error .error ∧ ¬ Coop w.reads) ∨ (8 ≤ (bytes cur').length ∧ 4096 < leNat ((bytes cur').take 8) ∧ p.res = .ok ()))
      (hclosed : p.conn.invalid = true → c.invalid = false → pending' = [])
      (hcoop : p.conn.invalid = false → CoopW w.flush0 → pending.length ≤ w.flush0.length → Coop w.reads → chan.length < w.reads.length →
        p.chan = [] ∧ Incomplete (bytes cur') ∧ pending' = [] ∧ p.res = .ok () ∧ Fits (bytes cur')) :
      PollRes C checks a c cur chan pending w p cur' pending' none
  /-- a request is answered -/
  | served (s : Served) (pending' : Bytes) (hs : s.Ok C checks) (hsa : s.app = a) (hsw : s.w = w.req) (ha : p.app = s.after)
      (hsent : p.sent ++ pending' = pending ++ frame s.resp) (hsuf : ∃ t, t ++ pending' = frame s.resp) (hchan : s.chunk ++ p.chan = cur ++ chan)
      (hres : p.res = .ok () ∨ p.res = .error .error) (hi : ConnInv p.conn [] pending') (hinv : p.conn.invalid = false) (hc : c.invalid = false)
      (hcoop : CoopW w.flush1 → (frame s.resp).length ≤ w.flush1.length → pending' = [] ∧ p.res = .ok ()) :
      PollRes C checks a c cur chan pending w p [] pending' (some s)
  /-- the handler fails -/
  | failed (req : Bytes) (cur' : Chan) (r : ReqRes) (f : Fail) (buf : Bytes) (hbl : buf.length = 4096) (hr : r = handleMessage C checks a req ((rights cur').take 2) buf w.req)
      (hf : r.res = .error f) (ha : p.app = r.app) (hres : p.res = .error f) (hsent : p.sent = pending) (hreq : bytes cur' = frame req) (hl : req.length ≤ 4096)
      (hchan : cur' ++ p.chan = cur ++ chan) (hi : f = .error → ConnInv p.conn cur' []) (hinv : p.conn.invalid = false) (hc : c.invalid = false) :
      PollRes C checks a c cur chan pending w p cur' [] none

theorem Stage.result_fail {s : Stage} (h : ∀ f, s = .fail f → f = .error) :
    Conn.Stage.result s = .ok () ∨ Conn.Stage.result s = .error .error := by
  cases s with
  | go => exact .inl rfl
  | wait => exact .inl rfl
  | fail f => rw [h f rfl]; exact .inr rfl

theorem poll_spec (C : Crypto) (checks : Bool) (a : App) (c : Conn) (cur chan : Chan) (pending : Bytes) (w : PollWorld)
    (h : ConnInv c cur pending) (hs : ∀ o ∈ w.reads, RdOut.Sane o) :
    ∃ cur' pending' s, PollRes C checks a c cur chan pending w (c.poll C checks a chan w) cur' pending' s := by
  obtain ⟨s, e, b, pending', hf, hei, hbp, hgo, hfail, hco⟩ := flush_spec c w.flush0 pending h.enc
  unfold Conn.poll
  rw [hf]
  have hdi : c.invalid = false → DecInv { c with enc := e } cur := fun hi => (h.dec hi).congr rfl rfl
  cases s with
  | wait => exact ⟨cur, pending', none, .idle cur pending' rfl hbp rfl (.inl rfl) ⟨hei, hdi⟩ id .inl (fun x y => by dsimp only at x; rw [y] at x; cases x) (fun _ h1 h2 => nomatch hco h1 h2)⟩
  | fail f =>
    have := hfail f rfl
    subst this
    exact ⟨cur, pending', none, .idle cur pending' rfl hbp rfl (.inr rfl) ⟨hei, hdi⟩ id .inl (fun x y => by dsimp only at x; rw [y] at x; cases x) (fun _ h1 h2 => nomatch hco h1 h2)⟩
  | go =>
    have := hgo rfl
    subst this
    rw [List.append_nil] at hbp
    subst hbp
    dsimp only
    rcases recv_spec { c with enc := e } cur chan w.reads hei hdi hs with ⟨hi, hr⟩ | ⟨hi, hr⟩
    · rw [hr]
      dsimp only
      exact ⟨cur, [], none, .idle cur [] rfl (by simp) rfl (.inl rfl) ⟨hei, hdi⟩ id .inl (fun _ _ => rfl) (fun x => by dsimp only at x hi; rw [hi] at x; cases x)⟩
    · generalize Conn.recv { c with enc := e } chan w.reads = z at hr ⊢
      cases hr with
      | wait d fds t chan' hsplit hi2 hc hnc hfit =>
        dsimp only
        refine ⟨cur ++ t, [], none, .idle (cur ++ t) [] rfl (by simp) (by dsimp only; rw [List.append_assoc, hsplit]) (.inl rfl) ⟨hei.congr rfl, fun _ => hi2⟩ id .inl (fun _ _ => rfl) ?_⟩
        intro _ _ _ hcr hlen
        refine ⟨?_, hnc hcr, rfl, rfl, hfit⟩
        rcases hc hcr with x | x
        · exact x
        · have := congrArg List.length hsplit
          rw [List.length_append] at this
          omega
      | tooLarge d fds t chan' hsplit h8 hb =>
        dsimp only
        refine ⟨cur ++ t, [], none, .idle (cur ++ t) [] rfl (by simp) (by dsimp only; rw [List.append_assoc, hsplit]) (.inl rfl) ⟨hei.congr rfl, fun x => nomatch x⟩ (fun x => nomatch x) (fun _ => .inr (.inr ⟨h8, hb, rfl⟩)) (fun _ _ => rfl) (fun x => nomatch x)⟩
      | broken d fds t chan' hsplit hc =>
        dsimp only
        refine ⟨cur ++ t, [], none, .idle (cur ++ t) [] rfl (by simp) (by dsimp only; rw [List.append_assoc, hsplit]) (.inr rfl) ⟨hei.congr rfl, fun x => nomatch x⟩ (fun x => nomatch x) (fun _ => .inr (.inl ⟨rfl, hc⟩)) (fun _ _ => rfl) (fun x => nomatch x)⟩
      | go d fds t chan' req hsplit hi2 hm hreq hl =>
        dsimp only
        obtain ⟨s, c', hh, htok, hinv, hcase⟩ := handle_spec C checks a { c with enc := e, dec := d, fds := fds } (cur ++ t) w.req req
          (hei.congr rfl) hi2 hm _ rfl
        rw [hh]
        have hfds : fds = (rights (cur ++ t)).take 2 := hi2.fds
        rcases hcase with ⟨f, h1, rfl, h3⟩ | ⟨resp, h1, rfl, h3, h4, h5, h6⟩
        · dsimp only
          refine ⟨cur ++ t, [], none, .failed req (cur ++ t) _ f e.buf hei.size ?_ h1 rfl rfl rfl hreq hl (by dsimp only; rw [List.append_assoc, hsplit])
            (fun x => ⟨(h3 x).1, fun _ => (h3 x).2⟩) (hinv.trans hi) hi⟩
          dsimp only
          rw [← hfds]
        · dsimp only
          obtain ⟨s2, e2, b2, p2, hf2, hei2, hbp2, hgo2, hfail2, hco2⟩ := flush_spec c' w.flush1 (frame resp) h5
          rw [hf2]
          dsimp only
          refine ⟨[], p2, some ⟨cur ++ t, req, resp, a, w.req, _⟩, .served ⟨cur ++ t, req, resp, a, w.req, _⟩ p2 ⟨hreq, hl, h4, e.buf, _, ?_, h1, h3, rfl⟩ rfl rfl rfl ?_ ⟨b2, hbp2⟩ ?_ (Stage.result_fail hfail2) ?_ (hinv.trans hi) hi (fun h1 h2 => ⟨hgo2 (hco2 h1 h2), by dsimp only; rw [hco2 h1 h2]; rfl⟩)⟩
          · dsimp only
            rw [← hfds]
          · dsimp only; rw [List.append_assoc, hbp2]
          · dsimp only; rw [List.append_assoc, hsplit]
          · exact ⟨hei2, fun _ => h6.congr rfl rfl⟩
