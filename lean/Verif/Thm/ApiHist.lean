import Verif.Thm.ApiConn
/-
C39: whole histories of one API connection.
-/
namespace Verif.Api
open LengthPrefix (IoKind IoOut Enc Dec DecErr frame frames frame_length)
open FdPass (Chan RdOut bytes rights)

/-- Specification: what happens to a connection: bytes (with descriptors) arrive from the client, or the daemon polls the
connection. The application a poll meets is arbitrary: the rest of the daemon goes on between polls. -/
inductive Ev where
  | arrive (chunk : Chan)
  | poll (a : App) (w : PollWorld)

/-- What a poll met and did. -/
structure Rec where
  app : App
  w : ReqWorld
  res : Except Fail Unit
  after : App

/-- A history; `none` if a poll panics or never returns. -/
def Link.run (C : Crypto) (checks : Bool) (l : Link) : List Ev → Option (Link × List Rec)
  | [] => some (l, [])
  | .arrive c :: es => Link.run C checks { l with chan := l.chan ++ c } es
  | .poll a w :: es =>
    let p := l.conn.poll C checks a l.chan w
    if p.res = .error .panic ∨ p.res = .error .blocked then none
    else (Link.run C checks ⟨p.conn, p.chan, l.out ++ p.sent⟩ es).map (fun x => (x.1, ⟨a, w.req, p.res, p.app⟩ :: x.2))

/-- Specification: everything the client sent. -/
def arrived : List Ev → Chan
  | [] => []
  | .arrive c :: es => c ++ arrived es
  | .poll _ _ :: es => arrived es

/-- Specification: what the polls did, one by one: answered a request, or did nothing to the application, or failed
because the handler of a request failed. -/
inductive Explains (C : Crypto) (checks : Bool) : List Rec → List Served → Prop where
  | nil : Explains C checks [] []
  | served (r : Rec) (s : Served) (rs : List Rec) (ss : List Served) (h1 : s.app = r.app) (h2 : s.w = r.w) (h3 : s.after = r.after)
      (h : Explains C checks rs ss) : Explains C checks (r :: rs) (s :: ss)
  | idle (r : Rec) (rs : List Rec) (ss : List Served) (h1 : r.after = r.app) (h : Explains C checks rs ss) : Explains C checks (r :: rs) ss
  | failed (r : Rec) (rs : List Rec) (ss : List Served) (req : Bytes) (fds : List Nat) (buf : Bytes)
      (h1 : (handleMessage C checks r.app req fds buf r.w).res = .error .error) (h2 : r.res = .error .error)
      (h3 : r.after = (handleMessage C checks r.app req fds buf r.w).app) (h : Explains C checks rs ss) : Explains C checks (r :: rs) ss

/-- The state of a connection after a history. -/
structure LinkInv (C : Crypto) (checks : Bool) (l : Link) (arr : Chan) (served : List Served) (cur : Chan) (pending : Bytes) : Prop where
  conn : ConnInv l.conn cur pending
  stream : (served.map (·.chunk)).flatten ++ cur ++ l.chan = arr
  out : l.out ++ pending = frames (served.map (·.resp))
  last : pending = [] ∨ ∃ s, served.getLast? = some s ∧ ∃ t, t ++ pending = frame s.resp
  ok : ∀ s ∈ served, s.Ok C checks

theorem frames_append (a b : List Bytes) : frames (a ++ b) = frames a ++ frames b := by simp [frames]
theorem frames_single (a : Bytes) : frames [a] = frame a := by simp [frames]

theorem LinkInv.poll {C : Crypto} {checks : Bool} {l : Link} {arr : Chan} {served : List Served} {cur : Chan} {pending : Bytes}
    (h : LinkInv C checks l arr served cur pending) (a : App) (w : PollWorld) (cur' : Chan) (pending' : Bytes) (s : Option Served)
    (hp : PollRes C checks a l.conn cur l.chan pending w (l.conn.poll C checks a l.chan w) cur' pending' s)
    (hne : (l.conn.poll C checks a l.chan w).res ≠ .error .panic ∧ (l.conn.poll C checks a l.chan w).res ≠ .error .blocked) :
    LinkInv C checks ⟨(l.conn.poll C checks a l.chan w).conn, (l.conn.poll C checks a l.chan w).chan, l.out ++ (l.conn.poll C checks a l.chan w).sent⟩
      arr (served ++ s.toList) cur' pending' := by
  generalize l.conn.poll C checks a l.chan w = p at hp hne ⊢
  have happ : ∀ x y : List Served, x = y → x ++ (none : Option Served).toList = y := by intro x y h; simp [h]
  cases hp with
  | idle cur' pending' ha hsent hchan hres hi hmono hbad hclosed hcoop =>
    rw [happ _ _ rfl]
    refine ⟨hi, ?_, ?_, ?_, h.ok⟩
    · dsimp only
      rw [List.append_assoc, hchan, ← List.append_assoc]
      exact h.stream
    · dsimp only
      rw [List.append_assoc, hsent]
      exact h.out
    · rcases h.last with e | ⟨s, h1, t, h2⟩
      · left
        rw [e] at hsent
        exact (List.append_eq_nil_iff.mp hsent).2
      · exact .inr ⟨s, h1, t ++ p.sent, by rw [List.append_assoc, hsent]; exact h2⟩
  | served s pending' hs hsa hsw ha hsent hsuf hchan hres hi hinv hc hcoop =>
    refine ⟨hi, ?_, ?_, ?_, ?_⟩
    · simp only [List.map_append, List.flatten_append, Option.toList, List.map_cons, List.map_nil, List.flatten_cons, List.flatten_nil, List.append_nil]
      rw [List.append_assoc, hchan, ← List.append_assoc]
      exact h.stream
    · simp only [List.map_append, Option.toList, List.map_cons, List.map_nil, frames_append, frames_single]
      rw [List.append_assoc, hsent, ← List.append_assoc, h.out]
    · exact .inr ⟨s, by simp, hsuf⟩
    · intro x hx
      rcases List.mem_append.mp hx with hx | hx
      · exact h.ok x hx
      · rw [Option.toList, List.mem_singleton] at hx
        rw [hx]
        exact hs
  | failed req cur' r f buf hbl hr hf ha hres hsent hreq hl hchan hi hinv hc =>
    rw [happ _ _ rfl]
    have hfe : f = .error := by
      cases f with
      | error => rfl
      | panic => exact absurd hres hne.1
      | blocked => exact absurd hres hne.2
    refine ⟨hi hfe, ?_, ?_, .inl rfl, h.ok⟩
    · dsimp only
      rw [List.append_assoc, hchan, ← List.append_assoc]
      exact h.stream
    · dsimp only
      rw [hsent, List.append_nil]
      exact h.out

theorem explains_append {C : Crypto} {checks : Bool} {r1 r2 : List Rec} {s1 s2 : List Served} (h1 : Explains C checks r1 s1) (h2 : Explains C checks r2 s2) :
    Explains C checks (r1 ++ r2) (s1 ++ s2) := by
  induction h1 with
  | nil => exact h2
  | served r s rs ss a b c _ ih => exact .served r s _ _ a b c ih
  | idle r rs ss a _ ih => exact .idle r _ _ a ih
  | failed r rs ss req fds buf a b c _ ih => exact .failed r _ _ req fds buf a b c ih

theorem poll_explains {C : Crypto} {checks : Bool} {a : App} {c : Conn} {cur chan : Chan} {pending : Bytes} {w : PollWorld} {p : Conn.Polled}
    {cur' : Chan} {pending' : Bytes} {s : Option Served} (hp : PollRes C checks a c cur chan pending w p cur' pending' s)
    (hne : p.res ≠ .error .panic ∧ p.res ≠ .error .blocked) : Explains C checks [⟨a, w.req, p.res, p.app⟩] s.toList := by
  cases hp with
  | idle cur' pending' ha => exact .idle _ _ _ ha .nil
  | served s pending' hs hsa hsw ha => exact .served _ s _ _ hsa hsw ha.symm .nil
  | failed req cur' r f buf hbl hr hf ha hres =>
    have hfe : f = .error := by
      cases f with
      | error => rfl
      | panic => exact absurd hres hne.1
      | blocked => exact absurd hres hne.2
    subst hfe
    exact .failed _ _ _ req _ buf (by rw [← hr]; exact hf) hres (by rw [← hr]; exact ha) .nil

/-- a history from any state -/
theorem run_inv (C : Crypto) (checks : Bool) (es : List Ev) : ∀ (l : Link) (arr : Chan) (served : List Served) (cur : Chan) (pending : Bytes),
    LinkInv C checks l arr served cur pending → (∀ a w, Ev.poll a w ∈ es → ∀ o ∈ w.reads, RdOut.Sane o) →
    ∀ r recs, l.run C checks es = some (r, recs) →
    ∃ more cur' pending', Explains C checks recs more ∧ LinkInv C checks r (arr ++ arrived es) (served ++ more) cur' pending' := by
  induction es with
  | nil =>
    intro l arr served cur pending h _ r recs hr
    cases hr
    exact ⟨[], cur, pending, .nil, by simpa [arrived] using h⟩
  | cons e es ih =>
    intro l arr served cur pending h hs r recs hr
    have hs' : ∀ a w, Ev.poll a w ∈ es → ∀ o ∈ w.reads, RdOut.Sane o := fun a w hm => hs a w (List.mem_cons_of_mem _ hm)
    cases e with
    | arrive ch =>
      have h2 : LinkInv C checks { l with chan := l.chan ++ ch } (arr ++ ch) served cur pending :=
        ⟨h.conn, by dsimp only; rw [← List.append_assoc, h.stream], h.out, h.last, h.ok⟩
      obtain ⟨more, cur', pending', h3, h4⟩ := ih _ _ _ _ _ h2 hs' r recs hr
      refine ⟨more, cur', pending', h3, ?_⟩
      rw [arrived, ← List.append_assoc]
      exact h4
    | poll a w =>
      unfold Link.run at hr
      dsimp only at hr
      obtain ⟨cur1, pending1, s, hp⟩ := poll_spec C checks a l.conn cur l.chan pending w h.conn (hs a w (by simp))
      by_cases hne : (l.conn.poll C checks a l.chan w).res = .error .panic ∨ (l.conn.poll C checks a l.chan w).res = .error .blocked
      · rw [if_pos hne] at hr
        cases hr
      · rw [if_neg hne] at hr
        have hne' : (l.conn.poll C checks a l.chan w).res ≠ .error .panic ∧ (l.conn.poll C checks a l.chan w).res ≠ .error .blocked :=
          ⟨fun e => hne (.inl e), fun e => hne (.inr e)⟩
        have h2 := h.poll a w cur1 pending1 s hp hne'
        have h3 := poll_explains hp hne'
        obtain ⟨⟨r1, rs1⟩, hr1, hr2⟩ := Option.map_eq_some_iff.mp hr
        cases hr2
        obtain ⟨more, cur', pending', h4, h5⟩ := ih _ _ _ _ _ h2 hs' _ _ hr1
        refine ⟨s.toList ++ more, cur', pending', ?_, ?_⟩
        · exact explains_append h3 h4
        · rw [← List.append_assoc]
          exact h5

/-- A new connection. -/
def Link.new (token : Nat) : Link := ⟨{ token := token, invalid := false, dec := Dec.new (List.replicate 4096 0), enc := ⟨List.replicate 4096 0, toLE 8 0, 8⟩, fds := [] }, [], []⟩

theorem Link.new_eq (token : Nat) : Conn.new token = .ok (Link.new token).conn := by
  unfold Conn.new
  rw [Enc.fromBuffer_spec]
  rfl

theorem new_data (b : Bytes) : (Dec.new b).data = [] := by simp [Dec.new, Dec.data]

theorem Link.new_inv (C : Crypto) (checks : Bool) (token : Nat) : LinkInv C checks (Link.new token) [] [] [] [] := by
  obtain ⟨h1, h2⟩ := idle_ok (List.replicate 4096 0)
  refine ⟨⟨⟨h1, ?_, h2⟩, fun _ => ⟨Dec.new_ok _, ?_, ?_, rfl⟩⟩, rfl, rfl, .inl rfl, fun s hs => nomatch hs⟩
  · rw [Link.new]; dsimp only; rw [List.length_replicate]
  · rw [Link.new]; dsimp only [Dec.new]; rw [List.length_replicate]
  · exact new_data _

/-- C39: on every history of a connection, for every splitting of the stream and every way reads and writes go (including
errors), the requests that were answered are exactly the first frames of the stream, in order, each handled once (by the
poll that answers it) with (up to two of) the descriptors that came with its own bytes; what was sent is exactly their
responses, in order, except for the rest of the last one that is still to be sent. -/
theorem requests_answered_once_in_order_partial (C : Crypto) (checks : Bool) (token : Nat) (es : List Ev) (l : Link) (recs : List Rec)
    (hs : ∀ a w, Ev.poll a w ∈ es → ∀ o ∈ w.reads, RdOut.Sane o) (hr : (Link.new token).run C checks es = some (l, recs)) :
    ∃ (served : List Served) (cur : Chan) (pending : Bytes),
      (∀ s ∈ served, s.Ok C checks) ∧ Explains C checks recs served ∧
      (served.map (·.chunk)).flatten ++ cur ++ l.chan = arrived es ∧
      l.out ++ pending = frames (served.map (·.resp)) ∧
      (pending = [] ∨ ∃ s, served.getLast? = some s ∧ ∃ t, t ++ pending = frame s.resp) := by
  obtain ⟨more, cur, pending, h1, h2⟩ := run_inv C checks es _ _ _ _ _ (Link.new_inv C checks token) hs l recs hr
  exact ⟨more, cur, pending, h2.ok, h1, h2.stream, h2.out, h2.last⟩

/-- C41 (descriptors): on every history of a connection, however the stream was split, the stream is a sequence of pieces
(and an unanswered rest), each one framed request; the polls that did anything successfully are exactly the ones that
handled these requests, one each, and the effect of a request is that of its handler given the first two descriptors that
came with the bytes of this very request: none of an earlier one, none of a later one, no third one. -/
theorem request_uses_own_descriptors (C : Crypto) (checks : Bool) (token : Nat) (es : List Ev) (l : Link) (recs : List Rec)
    (hs : ∀ a w, Ev.poll a w ∈ es → ∀ o ∈ w.reads, RdOut.Sane o) (hr : (Link.new token).run C checks es = some (l, recs)) :
    ∃ (served : List Served) (rest : Chan), Explains C checks recs served ∧ (served.map (·.chunk)).flatten ++ rest = arrived es ∧
      ∀ s ∈ served, bytes s.chunk = frame s.req ∧
        ∃ buf, s.after = (handleMessage C checks s.app s.req ((rights s.chunk).take 2) buf s.w).app := by
  obtain ⟨served, cur, _, h1, h2, h3, _⟩ := requests_answered_once_in_order_partial C checks token es l recs hs hr
  refine ⟨served, cur ++ l.chan, h2, by rw [← h3, List.append_assoc], fun s hm => ⟨(h1 s hm).framed, ?_⟩⟩
  obtain ⟨buf, r, hr', _, _, ha⟩ := (h1 s hm).handled
  exact ⟨buf, by rw [← ha, hr']⟩
