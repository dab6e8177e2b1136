import Verif.Thm.ApiHist
/-
C39: every request is answered if the I/O makes progress; what makes a connection or the daemon fail.
-/
namespace Verif.Api
open LengthPrefix (IoKind IoOut Enc Dec DecErr frame frames frame_length)
open FdPass (Chan RdOut bytes rights)

theorem frame_take (a x : Bytes) : (frame a ++ x).take 8 = toLE 8 a.length := by
  rw [frame, List.append_assoc, List.take_left' (toLE_length 8 _)]

theorem frame_inj (a b x y : Bytes) (ha : a.length < 2 ^ 64) (hb : b.length < 2 ^ 64) (h : frame a ++ x = frame b ++ y) : a = b ∧ x = y := by
  have h1 : toLE 8 a.length = toLE 8 b.length := by rw [← frame_take a x, ← frame_take b y, h]
  have h2 : a.length = b.length := by
    have := congrArg leNat h1
    rwa [leNat_toLE 8 _ (by simpa using ha), leNat_toLE 8 _ (by simpa using hb)] at this
  rw [frame, frame, h1, List.append_assoc, List.append_assoc, List.append_cancel_left_eq] at h
  exact List.append_inj h h2

/-- what is left of the stream after some frames -/
theorem rest_frames (as : List Bytes) : ∀ (bs : List Bytes) (x : Bytes), (∀ a ∈ as, a.length < 2 ^ 64) → (∀ b ∈ bs, b.length < 2 ^ 64) →
    frames as ++ x = frames bs → ∃ rest, bs = as ++ rest ∧ x = frames rest := by
  induction as with
  | nil => intro bs x _ _ h; exact ⟨bs, rfl, by simpa [frames] using h⟩
  | cons a as ih =>
    intro bs x ha hb h
    cases bs with
    | nil =>
      exfalso
      have h1 : frames (a :: as) = frame a ++ frames as := by simp [frames]
      have h2 := congrArg List.length h
      rw [h1, List.length_append, List.length_append, frame_length] at h2
      have h3 : (frames []).length = 0 := rfl
      omega
    | cons b bs =>
      have h2 : frame a ++ (frames as ++ x) = frame b ++ frames bs := by
        simpa [frames, List.append_assoc] using h
      obtain ⟨rfl, h3⟩ := frame_inj a b _ _ (ha a (by simp)) (hb b (by simp)) h2
      obtain ⟨rest, rfl, h6⟩ := ih bs x (fun z hz => ha z (by simp [hz])) (fun z hz => hb z (by simp [hz])) h3
      exact ⟨rest, rfl, h6⟩

theorem bytes_flatten (ss : List Served) (C : Crypto) (checks : Bool) (h : ∀ s ∈ ss, s.Ok C checks) :
    bytes (ss.map (·.chunk)).flatten = frames (ss.map (·.req)) := by
  induction ss with
  | nil => rfl
  | cons s ss ih =>
    rw [List.map_cons, List.flatten_cons, FdPass.bytes_append, (h s (by simp)).framed, ih (fun x hx => h x (by simp [hx]))]
    simp [frames]

theorem answers_length {req resp : Bytes} (h : Answers req resp) : resp.length ≤ 272 := by
  obtain ⟨k, p, q, rest, -, -, h3, h4, -⟩ := h
  have : resp.length = size .response k := by rw [h3, encode, List.length_append, toLE_length, h4, size]
  have := size_le .response k
  omega

/-- the requests still to be answered -/
theorem LinkInv.rest {C : Crypto} {checks : Bool} {l : Link} {arr : Chan} {served : List Served} {cur : Chan} {pending : Bytes}
    (h : LinkInv C checks l arr served cur pending) (more : Bytes) (reqs : List Bytes) (hreqs : ∀ q ∈ reqs, q.length ≤ 4096)
    (hb : bytes arr ++ more = frames reqs) :
    ∃ rest, reqs = served.map (·.req) ++ rest ∧ bytes (cur ++ l.chan) ++ more = frames rest := by
  refine rest_frames (served.map (·.req)) reqs _ ?_ (fun b hb => by have := hreqs b hb; omega) ?_
  · intro a ha
    obtain ⟨s, hs, rfl⟩ := List.mem_map.mp ha
    have := (h.ok s hs).small
    omega
  · rw [← hb, ← h.stream, ← bytes_flatten served C checks h.ok, ← List.append_assoc, ← FdPass.bytes_append, List.append_assoc]

theorem first_header (b x : Bytes) (rest : List Bytes) (h8 : 8 ≤ b.length) (h : b ++ x = frames rest) :
    ∃ q rest', rest = q :: rest' ∧ b.take 8 = toLE 8 q.length := by
  cases rest with
  | nil =>
    have h2 := congrArg List.length h
    have h3 : (frames []).length = 0 := rfl
    rw [List.length_append] at h2
    omega
  | cons q rest' =>
    refine ⟨q, rest', rfl, ?_⟩
    have h2 : b ++ x = frame q ++ frames rest' := by rw [h]; simp [frames]
    rw [← frame_take q (frames rest'), ← h2, List.take_append_of_le_length h8]

/-- Specification: all these polls succeeded. -/
def AllOk (recs : List Rec) : Prop := ∀ r ∈ recs, r.res = .ok ()

/-- A connection stays usable while the stream consists of frames that fit the buffer and no poll fails. -/
theorem run_valid (C : Crypto) (checks : Bool) (reqs : List Bytes) (hreqs : ∀ q ∈ reqs, q.length ≤ 4096) (es : List Ev) :
    ∀ (l : Link) (arr : Chan) (served : List Served) (cur : Chan) (pending : Bytes),
    LinkInv C checks l arr served cur pending → (∀ a w, Ev.poll a w ∈ es → ∀ o ∈ w.reads, RdOut.Sane o) → l.conn.invalid = false →
    ∀ more, bytes (arr ++ arrived es) ++ more = frames reqs → ∀ r recs, l.run C checks es = some (r, recs) → AllOk recs → r.conn.invalid = false := by
  induction es with
  | nil =>
    intro l arr served cur pending h _ hv more _ r recs hr _
    cases hr
    exact hv
  | cons e es ih =>
    intro l arr served cur pending h hs hv more hb r recs hr hok
    have hs' : ∀ a w, Ev.poll a w ∈ es → ∀ o ∈ w.reads, RdOut.Sane o := fun a w hm => hs a w (List.mem_cons_of_mem _ hm)
    cases e with
    | arrive ch =>
      have h2 : LinkInv C checks { l with chan := l.chan ++ ch } (arr ++ ch) served cur pending :=
        ⟨h.conn, by dsimp only; rw [← List.append_assoc, h.stream], h.out, h.last, h.ok⟩
      rw [arrived, ← List.append_assoc] at hb
      exact ih _ _ _ _ _ h2 hs' hv more hb r recs hr hok
    | poll a w =>
      unfold Link.run at hr
      dsimp only at hr
      obtain ⟨cur1, pending1, s, hp⟩ := poll_spec C checks a l.conn cur l.chan pending w h.conn (hs a w (by simp))
      by_cases hne : (l.conn.poll C checks a l.chan w).res = .error .panic ∨ (l.conn.poll C checks a l.chan w).res = .error .blocked
      · rw [if_pos hne] at hr
        cases hr
      · rw [if_neg hne] at hr
        have hne' : (l.conn.poll C checks a l.chan w).res ≠ .error .panic ∧ (l.conn.poll C checks a l.chan w).res ≠ .error .blocked :=
          ⟨fun e => hne (.inl e), fun e => hne (.inr e)⟩
        have h2 := h.poll a w cur1 pending1 s hp hne'
        obtain ⟨⟨r1, rs1⟩, hr1, hr2⟩ := Option.map_eq_some_iff.mp hr
        cases hr2
        have hres : (l.conn.poll C checks a l.chan w).res = .ok () := hok _ List.mem_cons_self
        have hok' : AllOk rs1 := fun x hx => hok x (by simp [hx])
        rw [arrived] at hb
        refine ih _ _ _ _ _ h2 hs' ?_ more hb _ _ hr1 hok'
        dsimp only
        cases hp with
        | idle _ _ ha hsent hchan hres' hi hmono hbad hclosed hcoop =>
          cases hinv : (l.conn.poll C checks a l.chan w).conn.invalid with
          | false => rfl
          | true =>
            exfalso
            rcases hbad hinv with x | ⟨x, hnc⟩ | ⟨x, y, -⟩
            · rw [hv] at x; cases x
            · rw [hres] at x; cases x
            · rw [FdPass.bytes_append, List.append_assoc] at hb
              obtain ⟨rest, hreq, hrest⟩ := h2.rest (bytes (arrived es) ++ more) reqs hreqs hb
              dsimp only at hrest
              rw [FdPass.bytes_append, List.append_assoc] at hrest
              obtain ⟨q, rest', rfl, hq⟩ := first_header _ _ rest x hrest
              have hql : q.length ≤ 4096 := hreqs q (by rw [hreq]; simp)
              rw [hq, leNat_toLE 8 _ (by omega)] at y
              omega
        | served s _ hs hsa hsw ha hsent hsuf hchan hres' hi hinv hc hcoop => exact hinv
        | failed req _ r' f buf hbl hr' hf ha hres' hsent hreq hl hchan hi hinv hc => exact hinv

/-- Specification: the I/O of a poll makes progress and is not cut short: at most 280 bytes are to be written and
`n` bytes are waiting. -/
structure PollWorld.Coop (w : PollWorld) (n : Nat) : Prop where
  w0 : CoopW w.flush0
  l0 : 280 ≤ w.flush0.length
  w1 : CoopW w.flush1
  l1 : 280 ≤ w.flush1.length
  r : Api.Coop w.reads
  lr : n < w.reads.length

theorem Coop.sane {os : List RdOut} (h : Coop os) : ∀ o ∈ os, RdOut.Sane o := by
  intro o ho x hx
  rw [(h o ho).2 x hx]
  exact ⟨nofun, nofun⟩

theorem not_incomplete (q : Bytes) (rest : List Bytes) (hq : q.length ≤ 4096) : ¬ Incomplete (frames (q :: rest)) := by
  have h1 : frames (q :: rest) = frame q ++ frames rest := by simp [frames]
  rw [h1]
  unfold Incomplete
  rw [frame_take, leNat_toLE 8 _ (by omega), List.length_append, frame_length]
  omega

/-- polls that make progress -/
theorem polls_answer (C : Crypto) (checks : Bool) (ps : List (App × PollWorld)) :
    ∀ (l : Link) (arr : Chan) (served : List Served) (cur : Chan) (pending : Bytes) (rest : List Bytes) (n : Nat),
    LinkInv C checks l arr served cur pending → l.conn.invalid = false → (∀ q ∈ rest, q.length ≤ 4096) → bytes (cur ++ l.chan) = frames rest →
    (cur ++ l.chan).length ≤ n → (∀ p ∈ ps, p.2.Coop n) → rest.length ≤ ps.length → (pending = [] ∨ ps ≠ []) →
    ∀ r recs, l.run C checks (ps.map (fun p => .poll p.1 p.2)) = some (r, recs) → AllOk recs →
    ∃ more cur', Explains C checks recs more ∧ LinkInv C checks r arr (served ++ more) cur' [] ∧ more.map (·.req) = rest := by
  induction ps with
  | nil =>
    intro l arr served cur pending rest n h hv hreq hb hn hc hl hp r recs hr hok
    cases hr
    have : rest = [] := List.length_eq_zero_iff.mp (Nat.le_zero.mp hl)
    subst this
    rcases hp with rfl | hp
    · exact ⟨[], cur, .nil, by simpa using h, rfl⟩
    · exact absurd rfl hp
  | cons p ps ih =>
    intro l arr served cur pending rest n h hv hreq hb hn hc hl _ r recs hr hok
    obtain ⟨a, w⟩ := p
    have hw := hc (a, w) (by simp)
    dsimp only at hw
    rw [List.map_cons] at hr
    unfold Link.run at hr
    dsimp only at hr
    obtain ⟨cur1, pending1, s, hpr⟩ := poll_spec C checks a l.conn cur l.chan pending w h.conn (Coop.sane hw.r)
    by_cases hne : (l.conn.poll C checks a l.chan w).res = .error .panic ∨ (l.conn.poll C checks a l.chan w).res = .error .blocked
    · rw [if_pos hne] at hr
      cases hr
    · rw [if_neg hne] at hr
      have hne' : (l.conn.poll C checks a l.chan w).res ≠ .error .panic ∧ (l.conn.poll C checks a l.chan w).res ≠ .error .blocked :=
        ⟨fun e => hne (.inl e), fun e => hne (.inr e)⟩
      have h2 := h.poll a w cur1 pending1 s hpr hne'
      have hex := poll_explains hpr hne'
      obtain ⟨⟨r1, rs1⟩, hr1, hr2⟩ := Option.map_eq_some_iff.mp hr
      cases hr2
      have hres : (l.conn.poll C checks a l.chan w).res = .ok () := hok _ List.mem_cons_self
      have hok' : AllOk rs1 := fun x hx => hok x (by simp [hx])
      have hc' : ∀ p ∈ ps, p.2.Coop n := fun p hp => hc p (by simp [hp])
      have hpl : pending.length ≤ 280 := by
        rcases h.last with rfl | ⟨s0, hs0, t, ht⟩
        · simp
        · have := congrArg List.length ht
          rw [List.length_append, frame_length] at this
          have := answers_length (h.ok s0 (List.mem_of_getLast? hs0)).answers
          omega
      rw [List.length_append] at hn
      cases hpr with
      | idle _ _ ha hsent hchan hres' hi hmono hbad hclosed hcoop =>
        have hinv : (l.conn.poll C checks a l.chan w).conn.invalid = false := by
          cases hinv : (l.conn.poll C checks a l.chan w).conn.invalid with
          | false => rfl
          | true =>
            exfalso
            rcases hbad hinv with x | ⟨x, hnc⟩ | ⟨x, y, -⟩
            · rw [hv] at x; cases x
            · rw [hres] at x; cases x
            · rw [← hchan, FdPass.bytes_append] at hb
              obtain ⟨q, rest', rfl, hq⟩ := first_header _ _ rest x hb
              have hql : q.length ≤ 4096 := hreq q (by simp)
              rw [hq, leNat_toLE 8 _ (by omega)] at y
              omega
        obtain ⟨h3, h4, h5, -⟩ := hcoop hinv hw.w0 (by have := hw.l0; omega) hw.r (by have := hw.lr; omega)
        have hb' : bytes cur1 = frames rest := by rw [← hb, ← hchan, h3, List.append_nil]
        have hrest : rest = [] := by
          cases rest with
          | nil => rfl
          | cons q rest =>
            rw [hb'] at h4
            exact absurd h4 (not_incomplete q rest (hreq q (by simp)))
        subst hrest
        obtain ⟨more, cur', h6, h7, h8⟩ := ih _ _ _ _ _ [] n h2 hinv (by simp) (by dsimp only; rw [h3, List.append_nil]; exact hb')
          (by
            have := congrArg List.length hchan
            dsimp only
            rw [List.length_append] at this ⊢
            rw [List.length_append] at this
            omega) hc' (by simp) (.inl h5) _ _ hr1 hok'
        have hmore : more = [] := List.map_eq_nil_iff.mp h8
        subst hmore
        exact ⟨[], cur', explains_append hex h6, by simpa using h7, rfl⟩
      | served s _ hs hsa hsw ha hsent hsuf hchan hres' hi hinv hc2 hcoop =>
        have hp0 : pending1 = [] := And.left <| hcoop hw.w1 (by
          have := answers_length hs.answers
          have := hw.l1
          rw [frame_length]
          omega)
        have hb2 : frame s.req ++ bytes (l.conn.poll C checks a l.chan w).chan = frames rest := by
          rw [← hb, ← hchan, FdPass.bytes_append, hs.framed]
        have hrest : ∃ rest', rest = s.req :: rest' ∧ bytes (l.conn.poll C checks a l.chan w).chan = frames rest' := by
          have := rest_frames [s.req] rest (bytes (l.conn.poll C checks a l.chan w).chan)
            (fun x hx => by rw [List.mem_singleton] at hx; rw [hx]; have := hs.small; omega)
            (fun x hx => by have := hreq x hx; omega) (by rw [frames_single]; exact hb2)
          exact this
        obtain ⟨rest', rfl, hb3⟩ := hrest
        have hlen : ([] ++ (l.conn.poll C checks a l.chan w).chan).length ≤ n := by
          have := congrArg List.length hchan
          rw [List.length_append, List.length_append] at this
          rw [List.nil_append]
          omega
        obtain ⟨more, cur', h6, h7, h8⟩ := ih _ _ _ _ _ rest' n h2 hinv (fun q hq => hreq q (by simp [hq])) (by simpa using hb3)
          hlen hc' (by simpa using hl) (.inl hp0) _ _ hr1 hok'
        refine ⟨s :: more, cur', explains_append hex h6, ?_, by simp [h8]⟩
        simpa [List.append_assoc] using h7
      | failed req _ r' f buf hbl hr' hf ha hres' hsent hreq hl hchan hi hinv hc2 =>
        rw [hres] at hres'
        cases hres'

theorem run_poll (C : Crypto) (checks : Bool) (l : Link) (a : App) (w : PollWorld) (es : List Ev) :
    l.run C checks (.poll a w :: es) = if (l.conn.poll C checks a l.chan w).res = .error .panic ∨ (l.conn.poll C checks a l.chan w).res = .error .blocked then none
      else (Link.run C checks ⟨(l.conn.poll C checks a l.chan w).conn, (l.conn.poll C checks a l.chan w).chan, l.out ++ (l.conn.poll C checks a l.chan w).sent⟩ es).map
        (fun x => (x.1, ⟨a, w.req, (l.conn.poll C checks a l.chan w).res, (l.conn.poll C checks a l.chan w).app⟩ :: x.2)) := rfl

theorem run_append (C : Crypto) (checks : Bool) (es fs : List Ev) : ∀ l r recs, Link.run C checks l (es ++ fs) = some (r, recs) →
    ∃ m rs1 rs2, l.run C checks es = some (m, rs1) ∧ m.run C checks fs = some (r, rs2) ∧ recs = rs1 ++ rs2 := by
  induction es with
  | nil => intro l r recs h; exact ⟨l, [], recs, rfl, h, rfl⟩
  | cons e es ih =>
    intro l r recs h
    cases e with
    | arrive c => exact ih _ _ _ h
    | poll a w =>
      rw [List.cons_append, run_poll] at h
      rw [run_poll]
      by_cases hne : (l.conn.poll C checks a l.chan w).res = .error .panic ∨ (l.conn.poll C checks a l.chan w).res = .error .blocked
      · rw [if_pos hne] at h
        cases h
      · rw [if_neg hne] at h ⊢
        obtain ⟨⟨r1, rs1⟩, hr1, hr2⟩ := Option.map_eq_some_iff.mp h
        cases hr2
        obtain ⟨m, s1, s2, h1, h2, rfl⟩ := ih _ _ _ hr1
        exact ⟨m, _, s2, by rw [h1]; rfl, h2, rfl⟩

/-- C39, progress: whatever the history (`es`: any splitting of the stream, any partial or interrupted I/O) so far, after as
many further polls with working I/O as there were requests, every request has been answered, once and in order, and the
client has all responses. -/
theorem all_requests_answered (C : Crypto) (checks : Bool) (token : Nat) (es : List Ev) (ps : List (App × PollWorld)) (reqs : List Bytes)
    (l : Link) (recs : List Rec) (hreqs : ∀ q ∈ reqs, q.length ≤ 4096) (hb : bytes (arrived es) = frames reqs)
    (hs : ∀ a w, Ev.poll a w ∈ es → ∀ o ∈ w.reads, RdOut.Sane o) (hc : ∀ p ∈ ps, p.2.Coop (arrived es).length) (hl : reqs.length ≤ ps.length)
    (hr : (Link.new token).run C checks (es ++ ps.map (fun p => .poll p.1 p.2)) = some (l, recs)) (hok : AllOk recs) :
    ∃ served : List Served, (∀ s ∈ served, s.Ok C checks) ∧ Explains C checks recs served ∧ served.map (·.req) = reqs ∧
      l.out = frames (served.map (·.resp)) := by
  obtain ⟨m, rs1, rs2, h1, h2, rfl⟩ := run_append C checks es _ _ _ _ hr
  obtain ⟨served, cur, pending, h3, h4⟩ := run_inv C checks es _ _ _ _ _ (Link.new_inv C checks token) hs m rs1 h1
  rw [List.nil_append, List.nil_append] at h4
  have hok1 : AllOk rs1 := fun x hx => hok x (List.mem_append_left _ hx)
  have hok2 : AllOk rs2 := fun x hx => hok x (List.mem_append_right _ hx)
  have hv : m.conn.invalid = false := run_valid C checks reqs hreqs es _ _ _ _ _ (Link.new_inv C checks token) hs rfl []
    (by rw [List.nil_append, List.append_nil]; exact hb) m rs1 h1 hok1
  obtain ⟨rest, hreq, hrest⟩ := h4.rest [] reqs hreqs (by rw [List.append_nil]; exact hb)
  rw [List.append_nil] at hrest
  have hlen : (cur ++ m.chan).length ≤ (arrived es).length := by
    have := congrArg List.length h4.stream
    rw [List.append_assoc, List.length_append] at this
    omega
  have hrl : rest.length ≤ ps.length := by
    have := congrArg List.length hreq
    rw [List.length_append] at this
    omega
  have hpend : pending = [] ∨ ps ≠ [] := by
    by_cases hps : ps = []
    · left
      rcases h4.last with h | ⟨s, hs, -⟩
      · exact h
      · exfalso
        have hm := List.mem_of_getLast? hs
        have := congrArg List.length hreq
        rw [List.length_append, List.length_map] at this
        have h5 := List.length_pos_of_mem hm
        rw [hps] at hl
        simp at hl
        rw [hl] at this
        simp at this
        omega
    · exact .inr hps
  obtain ⟨more, cur', h5, h6, h7⟩ := polls_answer C checks ps m (arrived es) served cur pending rest (arrived es).length h4 hv
    (fun q hq => hreqs q (by rw [hreq]; simp [hq])) hrest hlen hc hrl hpend l rs2 h2 hok2
  refine ⟨served ++ more, h6.ok, explains_append h3 h5, by rw [List.map_append, h7, hreq], ?_⟩
  have := h6.out
  rwa [List.append_nil] at this

/-! ### When a poll fails -/

/-- Specification: the bytes start with no request. -/
def Malformed (req : Bytes) : Prop := ∀ k p rest, p.length = payloadSize .request k → req ≠ encode .request k p ++ rest

theorem malformed_parse {req : Bytes} (h : Malformed req) : parseFromPrefix .request 0 req = none := by
  cases hp : parseFromPrefix .request 0 req with
  | none => rfl
  | some q =>
    obtain ⟨⟨p, hq, hl⟩, rest, hrest⟩ := (parse_prefix_exact .request 0 rfl req q).mp hp
    refine absurd ?_ (h q.kind p rest hl)
    rw [← hrest, hq]
    simp only [encode, tag]

theorem malformed_error {req : Bytes} (h : Malformed req) (C : Crypto) (checks : Bool) (a : App) (fds : List Nat) (buf : Bytes) (w : ReqWorld) :
    handleMessage C checks a req fds buf w = ⟨.error .error, a, fds, buf⟩ := by
  unfold handleMessage
  rw [malformed_parse h]

/-- A poll of a connection that holds a malformed request: nothing but an error. -/
theorem poisoned_poll (C : Crypto) (checks : Bool) (c : Conn) (cur : Chan) (req : Bytes) (hm : Malformed req) (he : EncInv c []) (hd : DecInv c cur)
    (hreq : bytes cur = frame req) (hl : req.length ≤ 4096) (hv : c.invalid = false) (a : App) (chan : Chan) (w : PollWorld) :
    c.poll C checks a chan w = ⟨.error .error, a, c, chan, []⟩ := by
  obtain ⟨b, hb, hbt⟩ := exhausted_eq he.ok
  have hb1 : b = true := hbt.mpr he.pending
  subst hb1
  have hflush : c.flush w.flush0 = (.go, c, []) := by unfold Conn.flush; rw [hb]
  -- the decoder holds the whole request
  have hoff : c.dec.off = 8 + req.length := by rw [← Dec.data_length hd.ok, hd.data, hreq, frame_length]
  have h8 : 8 ≤ c.dec.off := by omega
  have hhd : leNat c.dec.header = req.length := by
    rw [← Dec.data_take hd.ok h8, hd.data, hreq]
    have := frame_take req []
    rw [List.append_nil] at this
    rw [this, leNat_toLE 8 _ (by omega)]
  have hns : c.dec.nextSlice = .ok none := by
    rcases Dec.nextSlice_spec hd.ok with ⟨x, -⟩ | ⟨-, x, -⟩ | ⟨-, -, x, -⟩ | ⟨-, -, x⟩
    · omega
    · rw [hd.size] at x; omega
    · omega
    · exact x
  have hmsg : c.dec.message = .ok (some req) := by
    have hdl : c.dec.data.length = 8 + leNat (c.dec.data.take 8) := by
      rw [Dec.data_length hd.ok, Dec.data_take hd.ok h8, hhd]; exact hoff
    rw [message_complete hd.ok h8 hdl (by rw [Dec.data_take hd.ok h8, hhd, hd.size]; exact hl), hd.data, hreq, frame,
      List.drop_left' (toLE_length 8 _)]
  have hread : c.dec.read [] (.ok 0) = (.ok (0, some req), c.dec, []) := by
    unfold Dec.read; rw [hns]; dsimp only; rw [hmsg]
  have hrecv : c.recv chan w.reads = (.go, c, chan) := by
    unfold Conn.recv
    rw [hb]
    dsimp only
    rw [hv]
    rw [if_neg (by decide)]
    cases w.reads with
    | nil =>
      unfold Conn.recvLoop
      rw [hns]
      dsimp only
      rw [hread]
    | cons o os =>
      unfold Conn.recvLoop
      have : c.readOnce chan o = (.ok (0, some req), c, chan) := by
        unfold Conn.readOnce
        rw [hns]
        dsimp only
        rw [hread]
      rw [this]
  unfold Conn.poll
  rw [hflush]
  dsimp only
  rw [hrecv]
  dsimp only
  have hh : c.handle C checks a w.req = (.fail .error, a, c) := by
    unfold Conn.handle
    rw [hb, hmsg]
    dsimp only
    rw [malformed_error hm]
  rw [hh]
  rfl

/-- Specification: every poll failed, and did nothing else. -/
def AllFail (recs : List Rec) : Prop := ∀ r ∈ recs, r.res = .error .error ∧ r.after = r.app

theorem poisoned_run (C : Crypto) (checks : Bool) (cur : Chan) (req : Bytes) (hm : Malformed req)
    (hreq : bytes cur = frame req) (hl : req.length ≤ 4096) (es : List Ev) : ∀ l : Link, EncInv l.conn [] → DecInv l.conn cur → l.conn.invalid = false →
    ∃ r recs, l.run C checks es = some (r, recs) ∧ AllFail recs ∧ r.out = l.out := by
  induction es with
  | nil => intro l _ _ _; exact ⟨l, [], rfl, fun r hr => (nomatch hr), rfl⟩
  | cons e es ih =>
    intro l he hd hv
    cases e with
    | arrive c => exact ih { l with chan := l.chan ++ c } he hd hv
    | poll a w =>
      unfold Link.run
      dsimp only
      rw [poisoned_poll C checks l.conn cur req hm he hd hreq hl hv a l.chan w]
      dsimp only
      rw [if_neg (by rintro (x | x) <;> cases x)]
      obtain ⟨r, recs, h1, h2, h3⟩ := ih ⟨l.conn, l.chan, l.out ++ []⟩ he hd hv
      rw [h1]
      refine ⟨r, _, rfl, ?_, by rw [h3]; simp⟩
      intro x hx
      rcases List.mem_cons.mp hx with rfl | hx
      · exact ⟨rfl, rfl⟩
      · exact h2 x hx

/-- Finding: a client that sends one malformed request (and anything after it) makes the poll that reads it and every later
poll of that connection fail, whatever happens then; the connection is never closed. (Each failure makes the daemon's poll
fail, and eleven failures stop the daemon, C47.) -/
theorem malformed_request_fails_forever (C : Crypto) (checks : Bool) (token : Nat) (bad : Bytes) (rest : Bytes) (chunk : Chan)
    (hm : Malformed bad) (hl : bad.length ≤ 4096) (hb : bytes chunk = frame bad ++ rest)
    (a : App) (w : PollWorld) (hc : w.Coop chunk.length) (es : List Ev) :
    ∃ l recs, (Link.new token).run C checks (.arrive chunk :: .poll a w :: es) = some (l, recs) ∧ AllFail recs ∧ l.out = [] := by
  have h0 : LinkInv C checks { Link.new token with chan := [] ++ chunk } chunk [] [] [] := by
    have := Link.new_inv C checks token
    exact ⟨this.conn, rfl, rfl, .inl rfl, fun s hs => nomatch hs⟩
  obtain ⟨cur', pending', s, hp⟩ := poll_spec C checks a (Link.new token).conn [] chunk [] w h0.conn (Coop.sane hc.r)
  have key : ∃ cur, (Conn.poll C checks a (Link.new token).conn chunk w).res = .error .error ∧ (Conn.poll C checks a (Link.new token).conn chunk w).app = a ∧
      (Conn.poll C checks a (Link.new token).conn chunk w).sent = [] ∧ ConnInv (Conn.poll C checks a (Link.new token).conn chunk w).conn cur [] ∧
      bytes cur = frame bad ∧ (Conn.poll C checks a (Link.new token).conn chunk w).conn.invalid = false := by
    generalize Conn.poll C checks a (Link.new token).conn chunk w = p at hp ⊢
    cases hp with
    | idle _ _ ha hsent hchan hres hi hmono hbad hclosed hcoop =>
      exfalso
      have h8 : ∀ b x : Bytes, 8 ≤ b.length → b ++ x = frame bad ++ rest → leNat (b.take 8) = bad.length := by
        intro b x hx he
        have := frame_take bad rest
        rw [← he, List.take_append_of_le_length hx] at this
        rw [this, leNat_toLE 8 _ (by omega)]
      have hbb : bytes cur' ++ bytes p.chan = frame bad ++ rest := by
        rw [← FdPass.bytes_append, hchan, List.nil_append, hb]
      cases hinv : p.conn.invalid with
      | true =>
        rcases hbad hinv with x | ⟨x, hnc⟩ | ⟨x, y, -⟩
        · cases x
        · exact hnc hc.r
        · rw [h8 _ _ x hbb] at y; omega
      | false =>
        obtain ⟨h1, h2, -, -⟩ := hcoop hinv hc.w0 (by simp) hc.r hc.lr
        rw [h1, bytes_nil, List.append_nil] at hbb
        rcases h2 with h2 | h2
        · rw [hbb, List.length_append, frame_length] at h2; omega
        · have h9 : 8 ≤ (bytes cur').length := by rw [hbb, List.length_append, frame_length]; omega
          rw [h8 _ [] h9 (by simpa using hbb), hbb, List.length_append, frame_length] at h2
          omega
    | served s _ hs hsa hsw ha hsent hsuf hchan hres hi hinv hc2 hcoop =>
      exfalso
      have hbb : frame s.req ++ bytes p.chan = frame bad ++ rest := by
        rw [← hs.framed, ← FdPass.bytes_append, hchan, List.nil_append, hb]
      obtain ⟨h1, -⟩ := frame_inj _ _ _ _ (by have := hs.small; omega) (by omega) hbb
      obtain ⟨k, p', q, rest', h2, h3, -⟩ := hs.answers
      exact hm k p' rest' h3 (h1 ▸ h2)
    | failed req _ r f buf hbl hr hf ha hres hsent hreq hl' hchan hi hinv hc2 =>
      have hbb : frame req ++ bytes p.chan = frame bad ++ rest := by
        rw [← hreq, ← FdPass.bytes_append, hchan, List.nil_append, hb]
      obtain ⟨rfl, -⟩ := frame_inj _ _ _ _ (by omega) (by omega) hbb
      rw [malformed_error hm] at hr
      subst hr
      cases hf
      exact ⟨cur', hres, ha, hsent, hi rfl, hreq, hinv⟩
  obtain ⟨cur, h1, h2, h3, h4, h5, h6⟩ := key
  obtain ⟨r, recs, h7, h8, h9⟩ := poisoned_run C checks cur bad hm h5 hl es
    ⟨(Conn.poll C checks a (Link.new token).conn chunk w).conn, (Conn.poll C checks a (Link.new token).conn chunk w).chan, []⟩ h4.enc (h4.dec h6) h6
  refine ⟨r, ⟨a, w.req, .error .error, a⟩ :: recs, ?_, ?_, h9⟩
  · rw [show (Link.new token).run C checks (.arrive chunk :: .poll a w :: es) =
      Link.run C checks { Link.new token with chan := (Link.new token).chan ++ chunk } (.poll a w :: es) from rfl, run_poll]
    dsimp only
    have : (Link.new token).chan ++ chunk = chunk := rfl
    rw [this, h1, h2, h3]
    rw [if_neg (by rintro (x | x) <;> cases x)]
    have : (Link.new token).out ++ [] = [] := rfl
    rw [this, h7]
    rfl
  · intro x hx
    rcases List.mem_cons.mp hx with rfl | hx
    · exact ⟨rfl, rfl⟩
    · exact h8 x hx

/-! ### Which requests are answered -/

theorem dispatch_total (C : Crypto) (checks : Bool) (a : App) (q : Msg) (fds : List Nat) (m : Bytes) (w : ReqWorld) :
    (∃ m' x, dispatch C checks a q fds m w = (.ok m', x)) ∨
    (q.kind = .supplyKeypair ∧ ∃ f x, dispatch C checks a q fds m w = (.error f, x) ∧ (f = .blocked ∨ f = .error)) ∨
    (q.kind = .addPskBroker ∧ ∃ x, dispatch C checks a q fds m w = (.error .panic, x)) := by
  unfold dispatch
  cases hkind : q.kind with
  | ping => exact .inl ⟨_, _, rfl⟩
  | addListenSocket => exact .inl ⟨_, _, rfl⟩
  | supplyKeypair =>
    dsimp only
    unfold supplyKeypair
    cases hk : readKeys fds w with
    | error o =>
      cases o with
      | none => exact .inl ⟨_, _, rfl⟩
      | some f =>
        have : f = .blocked := by
          unfold readKeys at hk
          cases fds with
          | nil => cases hk
          | cons f0 fds =>
            cases fds with
            | nil => cases hk
            | cons f1 fds =>
              dsimp only at hk
              cases h0 : FileIO.readExactToEnd sskLen (w.content f0) w.reads0 with
              | none => rw [h0] at hk; cases hk; rfl
              | some x0 =>
                rw [h0] at hk
                cases x0 with
                | error e => cases hk
                | ok sk =>
                  dsimp only at hk
                  cases h1 : FileIO.readExactToEnd spkLen (w.content f1) w.reads1 with
                  | none => rw [h1] at hk; cases hk; rfl
                  | some x1 =>
                    rw [h1] at hk
                    cases x1 <;> cases hk
        subst this
        exact .inr (.inl ⟨rfl, _, _, rfl, .inl rfl⟩)
    | ok kp =>
      dsimp only
      rcases hs : a.supply C kp w.rnd with ⟨x, a'⟩
      cases x with
      | ok => exact .inl ⟨_, _, rfl⟩
      | already => exact .inl ⟨_, _, rfl⟩
      | internal => exact .inr (.inl ⟨rfl, _, _, rfl, .inr rfl⟩)
  | addPskBroker =>
    dsimp only
    rcases hs : addPskBroker checks a fds w with ⟨x, a', f'⟩
    cases x with
    | ok st => exact .inl ⟨_, _, rfl⟩
    | error f =>
      have : f = .panic := by
        unfold addPskBroker at hs
        cases fds with
        | nil => cases hs
        | cons fd fds =>
          dsimp only at hs
          split at hs
          · split at hs
            · cases hs; rfl
            · cases hr : replaceBroker a fd (if a.brokers.store.length = 0 then 2 ^ 64 - 1 else a.brokers.store.length - 1) w with
              | mk o a1 =>
                rw [hr] at hs
                cases o <;> cases hs
                rfl
          · cases hs
      subst this
      exact .inr (.inr ⟨rfl, _, rfl⟩)

theorem parsed_answered (C : Crypto) (checks : Bool) (a : App) (req : Bytes) (q : Msg) (hparse : parseFromPrefix .request 0 req = some q)
    (fds : List Nat) (buf : Bytes) (hb : 272 ≤ buf.length) (w : ReqWorld) (r : ReqRes) (hr : r = handleMessage C checks a req fds buf w) :
    (∃ n, r.res = .ok n) ∨ (q.kind = .supplyKeypair ∧ (r.res = .error .blocked ∨ r.res = .error .error)) ∨ (q.kind = .addPskBroker ∧ r.res = .error .panic) := by
  subst hr
  unfold handleMessage
  rw [hparse]
  dsimp only
  unfold slot
  rw [if_pos (Nat.le_trans (size_le _ _) hb)]
  dsimp only
  rcases dispatch_total C checks a q fds (init .response q.kind (buf.take (size .response q.kind))) w with
    ⟨m', x, hd⟩ | ⟨hk, f, x, hd, hf⟩ | ⟨hk, x, hd⟩
  · rw [hd]; exact .inl ⟨_, rfl⟩
  · rw [hd]
    rcases hf with rfl | rfl
    · exact .inr (.inl ⟨hk, .inl rfl⟩)
    · exact .inr (.inl ⟨hk, .inr rfl⟩)
  · rw [hd]; exact .inr (.inr ⟨hk, rfl⟩)

/-- What the handler does with a well-formed request: a ping and a listen socket are always answered; supplying a key pair
is answered unless reading a key blocks or the server cannot be built; adding a broker is answered unless it panics. -/
theorem wellformed_answered (C : Crypto) (checks : Bool) (a : App) (k : Kind) (p rest : Bytes) (hp : p.length = payloadSize .request k)
    (fds : List Nat) (buf : Bytes) (hb : 272 ≤ buf.length) (w : ReqWorld) (r : ReqRes)
    (hr : r = handleMessage C checks a (encode .request k p ++ rest) fds buf w) :
    (∃ n, r.res = .ok n) ∨ (k = .supplyKeypair ∧ (r.res = .error .blocked ∨ r.res = .error .error)) ∨ (k = .addPskBroker ∧ r.res = .error .panic) := by
  have hmsg : IsMsg .request k (encode .request k p) := ⟨p, by simp only [encode, tag], hp⟩
  have hparse : parseFromPrefix .request 0 (encode .request k p ++ rest) = some ⟨k, encode .request k p⟩ :=
    (parse_prefix_exact .request 0 rfl _ ⟨k, encode .request k p⟩).mpr ⟨hmsg, List.prefix_append _ _⟩
  exact parsed_answered C checks a _ ⟨k, _⟩ hparse fds buf hb w r hr

/-- Specification: a request that is always answered. -/
def Harmless (req : Bytes) : Prop :=
  ∃ k p rest, (k = .ping ∨ k = .addListenSocket) ∧ p.length = payloadSize .request k ∧ req = encode .request k p ++ rest

/-- Polls that make progress do not fail on such requests. -/
theorem polls_ok (C : Crypto) (checks : Bool) (ps : List (App × PollWorld)) :
    ∀ (l : Link) (arr : Chan) (served : List Served) (cur : Chan) (pending : Bytes) (rest : List Bytes) (n : Nat),
    LinkInv C checks l arr served cur pending → l.conn.invalid = false → (∀ q ∈ rest, q.length ≤ 4096 ∧ Harmless q) → bytes (cur ++ l.chan) = frames rest →
    (cur ++ l.chan).length ≤ n → (∀ p ∈ ps, p.2.Coop n) →
    ∃ r recs, l.run C checks (ps.map (fun p => .poll p.1 p.2)) = some (r, recs) ∧ AllOk recs := by
  induction ps with
  | nil => intro l _ _ _ _ _ _ _ _ _ _ _ _; exact ⟨l, [], rfl, fun r hr => nomatch hr⟩
  | cons p ps ih =>
    intro l arr served cur pending rest n h hv hreq hb hn hc
    obtain ⟨a, w⟩ := p
    have hw := hc (a, w) (by simp)
    dsimp only at hw
    rw [List.map_cons]
    dsimp only
    rw [run_poll]
    obtain ⟨cur1, pending1, s, hpr⟩ := poll_spec C checks a l.conn cur l.chan pending w h.conn (Coop.sane hw.r)
    have hc' : ∀ p ∈ ps, p.2.Coop n := fun p hp => hc p (by simp [hp])
    have hpl : pending.length ≤ 280 := by
      rcases h.last with rfl | ⟨s0, hs0, t, ht⟩
      · simp
      · have := congrArg List.length ht
        rw [List.length_append, frame_length] at this
        have := answers_length (h.ok s0 (List.mem_of_getLast? hs0)).answers
        omega
    have hlen : ∀ x y : Chan, x ++ y = cur ++ l.chan → (x ++ y).length ≤ n := fun x y e => by rw [e]; exact hn
    rw [List.length_append] at hn
    -- what is left to show once the poll is known to succeed
    have fin : (l.conn.poll C checks a l.chan w).res = .ok () → (l.conn.poll C checks a l.chan w).conn.invalid = false →
        (∃ rest', (∀ q ∈ rest', q.length ≤ 4096 ∧ Harmless q) ∧ bytes (cur1 ++ (l.conn.poll C checks a l.chan w).chan) = frames rest') →
        (cur1 ++ (l.conn.poll C checks a l.chan w).chan).length ≤ n →
        ∃ r recs, (if (l.conn.poll C checks a l.chan w).res = .error .panic ∨ (l.conn.poll C checks a l.chan w).res = .error .blocked then none
          else (Link.run C checks ⟨(l.conn.poll C checks a l.chan w).conn, (l.conn.poll C checks a l.chan w).chan, l.out ++ (l.conn.poll C checks a l.chan w).sent⟩ (ps.map (fun p => .poll p.1 p.2))).map
            (fun x => (x.1, (⟨a, w.req, (l.conn.poll C checks a l.chan w).res, (l.conn.poll C checks a l.chan w).app⟩ : Rec) :: x.2))) = some (r, recs) ∧ AllOk recs := by
      intro h1 h2 ⟨rest', h3, h4⟩ h5
      have hne : (l.conn.poll C checks a l.chan w).res ≠ .error .panic ∧ (l.conn.poll C checks a l.chan w).res ≠ .error .blocked := by
        rw [h1]; exact ⟨nofun, nofun⟩
      obtain ⟨r, recs, h6, h7⟩ := ih _ _ _ _ _ rest' n (h.poll a w cur1 pending1 s hpr hne) h2 h3 h4 h5 hc'
      rw [if_neg (fun x => x.elim hne.1 hne.2), h6]
      refine ⟨r, _, rfl, ?_⟩
      intro x hx
      rcases List.mem_cons.mp hx with rfl | hx
      · exact h1
      · exact h7 x hx
    cases hpr with
    | idle _ _ ha hsent hchan hres' hi hmono hbad hclosed hcoop =>
      have hinv : (l.conn.poll C checks a l.chan w).conn.invalid = false := by
        cases hinv : (l.conn.poll C checks a l.chan w).conn.invalid with
        | false => rfl
        | true =>
          exfalso
          rcases hbad hinv with x | ⟨x, hnc⟩ | ⟨x, y, -⟩
          · rw [hv] at x; cases x
          · exact hnc hw.r
          · rw [← hchan, FdPass.bytes_append] at hb
            obtain ⟨q, rest', rfl, hq⟩ := first_header _ _ rest x hb
            have hql : q.length ≤ 4096 := (hreq q (by simp)).1
            rw [hq, leNat_toLE 8 _ (by omega)] at y
            omega
      obtain ⟨-, -, -, h6, -⟩ := hcoop hinv hw.w0 (by have := hw.l0; omega) hw.r (by have := hw.lr; omega)
      exact fin h6 hinv ⟨rest, hreq, by rw [hchan]; exact hb⟩ (hlen _ _ hchan)
    | served s _ hs hsa hsw ha hsent hsuf hchan hres' hi hinv hc2 hcoop =>
      have hp0 := And.right <| hcoop hw.w1 (by
        have := answers_length hs.answers
        have := hw.l1
        rw [frame_length]
        omega)
      have hb2 : frame s.req ++ bytes (l.conn.poll C checks a l.chan w).chan = frames rest := by
        rw [← hb, ← hchan, FdPass.bytes_append, hs.framed]
      obtain ⟨rest', rfl, hb3⟩ := rest_frames [s.req] rest (bytes (l.conn.poll C checks a l.chan w).chan)
        (fun x hx => by rw [List.mem_singleton] at hx; rw [hx]; have := hs.small; omega)
        (fun x hx => by have := (hreq x hx).1; omega) (by rw [frames_single]; exact hb2)
      refine fin hp0 hinv ⟨rest', fun q hq => hreq q (by simp [hq]), by simpa using hb3⟩ ?_
      have := congrArg List.length hchan
      rw [List.length_append, List.length_append] at this
      rw [List.nil_append]
      omega
    | failed req _ r' f buf hbl hr' hf ha hres' hsent hreq' hl hchan hi hinv hc2 =>
      exfalso
      have hb2 : frame req ++ bytes (l.conn.poll C checks a l.chan w).chan = frames rest := by
        rw [← hb, ← hchan, FdPass.bytes_append, hreq']
      obtain ⟨rest', rfl, hb3⟩ := rest_frames [req] rest (bytes (l.conn.poll C checks a l.chan w).chan)
        (fun x hx => by rw [List.mem_singleton] at hx; rw [hx]; omega)
        (fun x hx => by have := (hreq x hx).1; omega) (by rw [frames_single]; exact hb2)
      obtain ⟨-, k, p, rest2, hk, hpk, rfl⟩ := hreq req (by simp)
      rcases wellformed_answered C checks a k p rest2 hpk _ buf (by rw [hbl]; decide) w.req r' hr' with ⟨n', h1⟩ | ⟨h1, -⟩ | ⟨h1, -⟩
      · rw [hf] at h1; cases h1
      · rw [h1] at hk; rcases hk with hk | hk <;> cases hk
      · rw [h1] at hk; rcases hk with hk | hk <;> cases hk

/-- Non-vacuity of `all_requests_answered`, and more: a client that sends any number of pings (and listen sockets) gets all
its answers from as many polls with working I/O; no poll fails. -/
theorem harmless_requests_answered (C : Crypto) (checks : Bool) (token : Nat) (chunk : Chan) (ps : List (App × PollWorld)) (reqs : List Bytes)
    (hreqs : ∀ q ∈ reqs, q.length ≤ 4096 ∧ Harmless q) (hb : bytes chunk = frames reqs) (hc : ∀ p ∈ ps, p.2.Coop chunk.length) (hl : reqs.length ≤ ps.length) :
    ∃ l recs, (Link.new token).run C checks (.arrive chunk :: ps.map (fun p => .poll p.1 p.2)) = some (l, recs) ∧ AllOk recs ∧
      ∃ served : List Served, (∀ s ∈ served, s.Ok C checks) ∧ Explains C checks recs served ∧ served.map (·.req) = reqs ∧ l.out = frames (served.map (·.resp)) := by
  have h0 : LinkInv C checks { Link.new token with chan := (Link.new token).chan ++ chunk } chunk [] [] [] := by
    have := Link.new_inv C checks token
    exact ⟨this.conn, rfl, rfl, .inl rfl, fun s hs => nomatch hs⟩
  have hch : [] ++ ((Link.new token).chan ++ chunk) = chunk := rfl
  obtain ⟨l, recs, h1, h2⟩ := polls_ok C checks ps _ _ _ _ _ reqs chunk.length h0 rfl hreqs (by rw [hch]; exact hb) (by rw [hch]; exact Nat.le_refl _) hc
  refine ⟨l, recs, h1, h2, ?_⟩
  have harr : arrived [Ev.arrive chunk] = chunk := by simp [arrived]
  exact all_requests_answered C checks token [.arrive chunk] ps reqs l recs (fun q hq => (hreqs q hq).1) (by rw [harr]; exact hb)
    (fun a w h => by simp at h) (by rw [harr]; exact hc) hl h1 h2

/-- An environment in which everything works: the hypotheses above can be met. -/
example (n : Nat) (w : ReqWorld) : PollWorld.Coop ⟨List.replicate 280 (.ok 1), List.replicate (n + 1) ⟨.ok 5, []⟩, w, List.replicate 280 (.ok 100)⟩ n := by
  have h : ∀ (m k : Nat), CoopW (List.replicate m (.ok (k + 1))) := fun m k o ho => ⟨k, List.eq_of_mem_replicate ho⟩
  refine ⟨h _ 0, by rw [List.length_replicate]; exact Nat.le_refl _, h _ 99, by rw [List.length_replicate]; exact Nat.le_refl _, ?_, by rw [List.length_replicate]; exact Nat.lt_succ_self n⟩
  intro o ho
  rw [List.eq_of_mem_replicate ho]
  exact ⟨⟨4, rfl⟩, fun x hx => nomatch hx⟩

/-- a ping with any content -/
example (p : Bytes) (hp : p.length = 256) : Harmless (encode .request .ping p) :=
  ⟨.ping, p, [], .inl rfl, hp, (List.append_nil _).symm⟩

/-- the empty request is malformed -/
example : Malformed [] := by
  intro k p rest hp h
  have := congrArg List.length h
  rw [List.length_append, encode, List.length_append, toLE_length, List.length_nil] at this
  omega

/-- A request that does not fit the buffer: the poll that reads its header succeeds, does nothing, and the connection is then
to be closed. -/
theorem oversized_request_closes (C : Crypto) (checks : Bool) (l : Link) (arr : Chan) (served : List Served) (cur : Chan) (pending : Bytes)
    (h : LinkInv C checks l arr served cur pending) (hv : l.conn.invalid = false) (h8 : 8 ≤ (bytes (cur ++ l.chan)).length)
    (hb : 4096 < leNat ((bytes (cur ++ l.chan)).take 8)) (a : App) (w : PollWorld) (hw : w.Coop l.chan.length) (p : Conn.Polled)
    (hp : p = l.conn.poll C checks a l.chan w) :
    p.res = .ok () ∧ p.app = a ∧ p.sent = pending ∧ p.conn.shouldClose = some true := by
  obtain ⟨cur', pending', s, hpr⟩ := poll_spec C checks a l.conn cur l.chan pending w h.conn (Coop.sane hw.r)
  rw [← hp] at hpr
  have hframe : ∀ (x : Chan) (req : Bytes), bytes x = frame req → x ++ p.chan = cur ++ l.chan → req.length ≤ 4096 → False := by
    intro x req h1 h2 h3
    rw [← h2, FdPass.bytes_append, h1, frame_take, leNat_toLE 8 _ (by omega)] at hb
    omega
  have hpl : pending.length ≤ 280 := by
    rcases h.last with rfl | ⟨s0, hs0, t, ht⟩
    · simp
    · have := congrArg List.length ht
      rw [List.length_append, frame_length] at this
      have := answers_length (h.ok s0 (List.mem_of_getLast? hs0)).answers
      omega
  cases hpr with
  | idle _ _ ha hsent hchan hres' hi hmono hbad hclosed hcoop =>
    cases hinv : p.conn.invalid with
    | false =>
      exfalso
      obtain ⟨h1, -, -, -, h2⟩ := hcoop hinv hw.w0 (by have := hw.l0; omega) hw.r hw.lr
      rw [h1, List.append_nil] at hchan
      rw [hchan] at h2
      have := h2 h8
      omega
    | true =>
      have hp0 := hclosed hinv hv
      rcases hbad hinv with x | ⟨-, x⟩ | ⟨-, -, x⟩
      · rw [hv] at x; cases x
      · exact absurd hw.r x
      · refine ⟨x, ha, by rw [hp0, List.append_nil] at hsent; exact hsent, ?_⟩
        obtain ⟨b, hb1, hb2⟩ := exhausted_eq hi.enc.ok
        unfold Conn.shouldClose
        rw [hb1, hinv, hb2.mpr (by rw [hi.enc.pending]; exact hp0)]
        rfl
  | served s _ hs hsa hsw ha hsent hsuf hchan => exact absurd hs.small (fun x => hframe _ _ hs.framed hchan x)
  | failed req _ r' f buf hbl hr' hf ha hres' hsent hreq' hl hchan => exact absurd hl (fun x => hframe _ _ hreq' hchan x)
