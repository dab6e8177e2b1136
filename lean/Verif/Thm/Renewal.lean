import Verif.Thm.Recovery
/-
C126: a key stays in force until it is renewed, renewal is requested in time, and it can go on for ever.
-/
namespace Verif
open HashDomain Server

section
variable {C : Crypto}

/-- **Specification.** Server `s` has session `x` with peer `p` and is not in the middle of a handshake; `f`: it has asked for an initiation. -/
def AtRest (s : Server) (p : Nat) (x : Session) (f : Bool) : Prop :=
  ∃ q, s.peers[p]? = some q ∧ q.session = some x ∧ q.handshake = none ∧ q.initReq = f

/-- when the next thing is to be done about a session: renewal, or, if that was requested, erasure -/
def deadline (x : Session) (f : Bool) : Time := if f then x.createdAt + secs 180 else rekeyTime x

/-- In state `s` the call `o` is made while nothing is to be done about the session with peer `p` (which is the case until `d`): the application does not
start a handshake of its own accord, `poll` is called before `d`, and no authentic InitConf of that very peer is processed. -/
structure LeavesRest (C : Crypto) (p : Nat) (d : Time) (s : Server) (o : Op) : Prop where
  initiate : ∀ t r x, o ≠ .initiate p t r x
  early : ∀ t r, o = .poll t r → t + eventGrace ≤ d
  message : ∀ rx, o.received = some rx → ∀ q, s.peers[p]? = some q → ∀ rej, ¬ InitConfFor C s rx p q rej
  twice : ∀ rx, o.received = some rx → ¬ (rx.head? = some 0x83 ∧ OpensTwice C s rx)

theorem rekeyTime_le (x : Session) : rekeyTime x ≤ x.createdAt + secs 180 := by
  have k : ∀ c : Int, c + 1300000 ≤ c + 1800000 ∧ c + 1200000 ≤ c + 1800000 := by intro c; omega
  unfold rekeyTime
  cases x.role
  · exact (k x.createdAt).1
  · exact (k x.createdAt).2

theorem deadline_le (x : Session) (f : Bool) : deadline x f ≤ x.createdAt + secs 180 := by
  unfold deadline
  split
  · exact Int.le_refl _
  · exact rekeyTime_le x

/-- nothing is due for a peer at rest before the deadline -/
theorem rest_not_due {s : Server} {p : Nat} {x : Session} {f : Bool} (hs : AtRest s p x f) {t : Time} (ht : t + eventGrace ≤ deadline x f) {e : PollResult}
    (he : e.peer = some p) : ¬ Due s t e := by
  rintro ⟨p', q', hq', hd⟩
  obtain ⟨q, hq, h1, h2, h3⟩ := hs
  have := hd.peer
  rw [he] at this
  cases this
  rw [hq] at hq'; cases hq'
  cases hd with
  | deleteKey y hy hl =>
    rw [h1] at hy; cases hy
    exact absurd hl (Int.not_lt.mpr (Int.le_trans ht (deadline_le _ _)))
  | sendInitiation hi hr _ =>
    rw [h3] at hi; subst hi
    exact absurd (hr x h1) (Int.not_lt.mpr ht)
  | sendRetransmission h hh _ => rw [h2] at hh; cases hh

/-- one call -/
theorem rest_step (L : C.Lawful) {s : Server} (hr : Reachable C s) {o : Op} {p : Nat} {x : Session} {f : Bool} (hs : AtRest s p x f)
    (hl : LeavesRest C p (deadline x f) s o) : AtRest (s.step C o) p x f := by
  have hs' := hs
  obtain ⟨q, hq, h1, h2, h3⟩ := hs
  have same : (s.step C o).peers[p]? = s.peers[p]? → AtRest (s.step C o) p x f := fun e => ⟨q, e.trans hq, h1, h2, h3⟩
  have msg : ∀ rx, o.received = some rx → AtRest (s.step C o) p x f := by
    intro rx hrx
    rcases step_changes L hr hrx with g | ⟨p', q1, hq1, hoth, hcase⟩ | g
    · exact same (by rw [g])
    · by_cases hp : p = p'
      · subst hp
        rw [hq] at hq1; cases hq1
        exfalso
        rcases hcase with ⟨-, e, hs, -, hh, -⟩ | g | ⟨-, e, hs, ses, -, hh, -⟩ | ⟨-, cr, hs, mac, -, hh, -⟩
        · rw [h2] at hh; cases hh
        · exact hl.message rx hrx q hq _ g
        · rw [h2] at hh; cases hh
        · rw [h2] at hh; cases hh
      · exact same (hoth p hp)
    · exact absurd g (hl.twice rx hrx)
  cases o with
  | addPeer psk pk v osk => exact same (by rw [addPeer_keeps hq, hq])
  | initiate p' t r y =>
    by_cases hp : p' = p
    · subst hp; exact absurd rfl (hl.initiate t r y)
    · exact same (initiate_other hp t r y)
  | handleMsg rx tx now r => exact msg rx rfl
  | handleMsgUnderLoad rx tx host now r => exact msg rx rfl
  | retransmit p' tx => exact same (by simp only [Server.step, retransmit_state])
  | poll t r =>
    have ht := hl.early t r rfl
    simp only [Server.step]
    cases hpo : s.poll t r with
    | none => exact hs'
    | some y =>
      obtain ⟨c, s'⟩ := y
      obtain ⟨q', hq', E⟩ := poll_effect hpo hq
      have nd : ∀ e, c = e → e.saturated = true → e.peer ≠ some p := by
        rintro e rfl he hp
        exact rest_not_due hs' ht hp ((poll_exact hpo).1 he).1
      refine ⟨q', hq', ?_, ?_, ?_⟩
      · rcases E.session with g | ⟨g, -⟩
        · rw [g]; exact h1
        · exact absurd rfl (nd _ g rfl)
      · rcases E.handshake with ⟨-, g | ⟨g, -⟩⟩ | ⟨-, h, g, -⟩
        · rw [g]; exact h2
        · exact g
        · rw [h2] at g; cases g
      · rcases E.initReq with g | ⟨g, -⟩
        · rw [g]; exact h3
        · exact absurd rfl (nd _ g rfl)

theorem rest_run (L : C.Lawful) {p : Nat} {x : Session} {f : Bool} : ∀ {s : Server} {ops : List Op}, Reachable C s → AtRest s p x f →
    Along C (LeavesRest C p (deadline x f)) s ops → AtRest (s.run C ops) p x f ∧ Reachable C (s.run C ops)
  | _, [], hr, hs, _ => ⟨hs, hr⟩
  | s, o :: ops, hr, hs, al => rest_run L (s := s.step C o) (.step _ _ hr al.1) (rest_step L hr hs al.2.2.1) al.2.2.2

/-! ### While nothing is due -/

/-- the key is in force as long as the peer is at rest: two states at rest with the same session give the same key -/
theorem rest_key {s s' : Server} {p : Nat} {x : Session} {f f' : Bool} (h : AtRest s p x f) (h' : AtRest s' p x f') (hl : Later s s') : s'.osk C p = s.osk C p := by
  obtain ⟨q, hq, h1, -⟩ := h
  obtain ⟨q', hq', h1', -⟩ := h'
  obtain ⟨q2, hq2, hst, -⟩ := hl.peers p q hq
  rw [hq'] at hq2; cases hq2
  unfold osk oskWith
  rw [hq, hq']
  simp only [h1, h1', hst.2.2.1, hst.2.2.2]

/-- the calls of `poll` that a run consists of -/
theorem pollRun_run {t : Time} {rs : Nat → PollRnd} {s s' : Server} {evs : List PollResult} {w : Time} (h : PollRun t rs s evs s' w) (hw : ∀ n, (Op.poll t (rs n)).WF C) :
    ∃ ops, s' = s.run C ops ∧ (∀ o ∈ ops, o.WF C) ∧ (∀ o ∈ ops, ∃ n, o = .poll t (rs n)) := by
  induction h with
  | sleep rs s t' s' hp =>
    refine ⟨[.poll t (rs 0)], ?_, ?_, ?_⟩
    · show s' = s.step C (.poll t (rs 0))
      simp only [Server.step, hp]
    · intro o ho
      cases List.mem_singleton.mp ho
      exact hw 0
    · intro o ho
      exact ⟨0, List.mem_singleton.mp ho⟩
  | event rs s c s1 cs s' t' hc hp _ ih =>
    obtain ⟨ops, h1, h2, h3⟩ := ih (fun n => hw (n + 1))
    refine ⟨.poll t (rs 0) :: ops, ?_, ?_, ?_⟩
    · show s' = (s.step C (.poll t (rs 0))).run C ops
      rw [h1]; simp only [Server.step, hp]
    · intro o ho
      rcases List.mem_cons.mp ho with rfl | g
      · exact hw 0
      · exact h2 o g
    · intro o ho
      rcases List.mem_cons.mp ho with rfl | g
      · exact ⟨0, rfl⟩
      · obtain ⟨n, rfl⟩ := h3 o g
        exact ⟨n + 1, rfl⟩

theorem fresh_polls {s : Server} (hf : FreshReachable C s) {t : Time} : ∀ {ops : List Op}, (∀ o ∈ ops, o.WF C) → (∀ o ∈ ops, ∃ r, o = .poll t r) → FreshReachable C (s.run C ops) := by
  intro ops
  induction ops generalizing s with
  | nil => exact fun _ _ => hf
  | cons o ops ih =>
    intro h1 h2
    obtain ⟨r, rfl⟩ := h2 o (List.mem_cons_self ..)
    refine ih (s := s.step C _) (.step s _ hf (h1 _ (List.mem_cons_self ..)) trivial) (fun o ho => h1 o (List.mem_cons_of_mem _ ho)) (fun o ho => h2 o (List.mem_cons_of_mem _ ho))

/-- polling changes the session only by erasing it, the request flag only by asking -/
theorem pollRun_rest {t : Time} {rs : Nat → PollRnd} {s s' : Server} {evs : List PollResult} {w : Time} (h : PollRun t rs s evs s' w) {p : Nat} {q : Peer}
    (hq : s.peers[p]? = some q) (hh : q.handshake = none) (hd : .deleteKey p ∉ evs) :
    ∃ q', s'.peers[p]? = some q' ∧ q'.session = q.session ∧ q'.handshake = none ∧ q'.initReq = (q.initReq || decide (.sendInitiation p ∈ evs)) := by
  induction h generalizing q with
  | sleep rs s t' s' hp =>
    obtain ⟨q', hq', E⟩ := poll_effect hp hq
    refine ⟨q', hq', ?_, ?_, ?_⟩
    · rcases E.session with g | ⟨g, -⟩
      · exact g
      · cases g
    · rcases E.handshake with ⟨-, g | ⟨g, -⟩⟩ | ⟨g, -⟩
      · rw [g]; exact hh
      · exact g
      · cases g
    · rcases E.initReq with g | ⟨g, -⟩
      · rw [g]; simp
      · cases g
  | event rs s c s1 cs s' t' hc hp _ ih =>
    obtain ⟨q1, hq1, E⟩ := poll_effect hp hq
    have e1 : q1.handshake = none := by
      rcases E.handshake with ⟨-, g | ⟨g, -⟩⟩ | ⟨-, h, g, -⟩
      · rw [g]; exact hh
      · exact g
      · rw [hh] at g; cases g
    obtain ⟨q', hq', h1, h2, h3⟩ := ih hq1 e1 (fun g => hd (List.mem_cons_of_mem _ g))
    refine ⟨q', hq', ?_, h2, ?_⟩
    · rw [h1]
      rcases E.session with g | ⟨rfl, -⟩
      · exact g
      · exact absurd (List.mem_cons_self ..) hd
    · rw [h3]
      by_cases hcp : c = .sendInitiation p
      · subst hcp
        rcases E.initReq with g | ⟨-, g⟩
        · obtain ⟨-, -, -⟩ := poll_exact hp |>.1 rfl |>.1
          have : q1.initReq = true := by
            have := ((poll_exact hp).1 rfl).2 (.sendInitiation p)
            cases hx : q1.initReq with
            | true => rfl
            | false =>
              exfalso
              rw [hx] at g
              have nd : ¬ Due s1 t (.sendInitiation p) := fun d => (this.mp d).2 rfl
              obtain ⟨p', q2, hq2, hdue⟩ := ((poll_exact hp).1 rfl).1
              have hpp := hdue.peer
              simp only [PollResult.peer, Option.some.injEq] at hpp
              subst hpp
              rw [hq] at hq2; cases hq2
              cases hdue with
              | sendInitiation i1 i2 i3 =>
                refine nd ⟨p, q1, hq1, .sendInitiation hx ?_ (by rw [e1]; intro h hh; cases hh)⟩
                intro y hy
                rcases E.session with k | ⟨k, -⟩
                · rw [k] at hy; exact i2 y hy
                · cases k
          rw [this]; simp
        · rw [g]; simp
      · have : q1.initReq = q.initReq := by
          rcases E.initReq with g | ⟨g, -⟩
          · exact g
          · exact absurd g hcp
        rw [this]
        simp only [List.mem_cons, Ne.symm hcp, false_or]

/-- **C126** (request). If the application polls when the renewal is due, but before the session is 180 s old, it is asked to start a handshake with the peer, it is
told nothing else about that peer, and the session stays. -/
theorem rest_request {s s' : Server} {p : Nat} {x : Session} (hs : AtRest s p x false) {t : Time} {rs : Nat → PollRnd} {evs : List PollResult} {w : Time}
    (h : PollRun t rs s evs s' w) (h1 : rekeyTime x < t + eventGrace) (h2 : t + eventGrace ≤ x.createdAt + secs 180) :
    (∀ e, (e ∈ evs ∧ e.peer = some p) ↔ e = .sendInitiation p) ∧ AtRest s' p x true := by
  obtain ⟨q, hq, g1, g2, g3⟩ := hs
  obtain ⟨-, hev, -⟩ := poll_run_exact h
  have key : ∀ e, (e ∈ evs ∧ e.peer = some p) ↔ e = .sendInitiation p := by
    intro e
    rw [hev e]
    constructor
    · rintro ⟨⟨p', q', hq', hd⟩, hp⟩
      have := hd.peer
      rw [hp] at this; cases this
      rw [hq] at hq'; cases hq'
      cases hd with
      | deleteKey y hy hl =>
        rw [g1] at hy; cases hy
        exact absurd hl (Int.not_lt.mpr h2)
      | sendInitiation _ _ _ => rfl
      | sendRetransmission h hh _ => rw [g2] at hh; cases hh
    · rintro rfl
      exact ⟨⟨p, q, hq, .sendInitiation g3 (fun y hy => by rw [g1] at hy; cases hy; exact h1) (fun h hh => by rw [g2] at hh; cases hh)⟩, rfl⟩
  refine ⟨key, ?_⟩
  obtain ⟨q', hq', k1, k2, k3⟩ := pollRun_rest h hq g2 (fun hm => by have := (key (.deleteKey p)).mp ⟨hm, rfl⟩; cases this)
  refine ⟨q', hq', k1.trans g1, k2, ?_⟩
  rw [k3, g3]
  simp [((key (.sendInitiation p)).mpr rfl).1]

/-- **C126** (silence). While nothing is due, no call of `poll` reports anything about the peer. -/
theorem rest_silent (L : C.Lawful) {p : Nat} {x : Session} {f : Bool} {s : Server} {pre post : List Op} {t : Time} {r : PollRnd} {c : PollResult} {s' : Server}
    (hr : Reachable C s) (hs : AtRest s p x f) (al : Along C (LeavesRest C p (deadline x f)) s (pre ++ .poll t r :: post))
    (hp : (s.run C pre).poll t r = some (c, s')) : c.peer ≠ some p := by
  induction pre generalizing s with
  | nil =>
    intro hc
    cases hsat : c.saturated with
    | true => exact rest_not_due hs (al.2.2.1.early t r rfl) hc ((poll_exact hp).1 hsat).1
    | false => cases c with
      | sleep _ => cases hc
      | deleteKey _ => cases hsat
      | sendInitiation _ => cases hsat
      | sendRetransmission _ => cases hsat
  | cons o pre ih => exact ih (s := s.step C o) (.step _ _ hr al.1) (rest_step L hr hs al.2.2.1) al.2.2.2 hp

/-! ### The handshake -/

/-- a pending handshake that is not disturbed keeps the request flag -/
theorem leaves_initReq (L : C.Lawful) {s : Server} {o : Op} {p : Nat} {q : Peer} {h : IniHs} (hl : LeavesHandshake C p s o)
    (hq : s.peers[p]? = some q) (hh : q.handshake = some h) : ∃ q', (s.step C o).peers[p]? = some q' ∧ q'.initReq = q.initReq := by
  obtain ⟨T, h1, h2, h3⟩ : ∃ T : Time, (∀ u, o.time = some u → u ≤ T) ∧ (∀ x, q.session = some x → x.createdAt ≤ T) ∧ h.createdAt ≤ T := by
    have k : ∀ a b c : Int, ∃ T : Int, a ≤ T ∧ b ≤ T ∧ c ≤ T := fun a b c => ⟨max a (max b c), by omega, by omega, by omega⟩
    obtain ⟨T, i1, i2, i3⟩ := k (o.time.getD 0) ((q.session.map (·.createdAt)).getD 0) h.createdAt
    exact ⟨T, (fun u hu => by rw [hu] at i1; exact i1), (fun x hx => by rw [hx] at i2; exact i2), i3⟩
  obtain ⟨q', hq', -, -, -, h6⟩ := step_request (C := C) s o T h1 hq ⟨h2, fun h' hh' => by rw [hh] at hh'; cases hh'; exact h3⟩
  refine ⟨q', hq', h6 ?_ ?_⟩
  · cases o with
    | initiate p' t r x =>
      rintro ⟨rfl, -⟩
      exact hl.initiate t r x rfl
    | _ => exact id
  · cases o with
    | poll t r =>
      rintro ⟨s', hp⟩
      obtain ⟨p', q1, hq1, hd⟩ := ((poll_exact hp).1 rfl).1
      have hpp := hd.peer
      simp only [PollResult.peer, Option.some.injEq] at hpp
      subst hpp
      rw [hq] at hq1; cases hq1
      cases hd with
      | sendInitiation i1 i2 i3 =>
        exact absurd (i3 h hh) (Int.not_lt.mpr (hl.expiry t r rfl h (by unfold handshake; rw [hq]; exact hh)))
    | _ => exact id

/-- … and so does the session, during any number of calls -/
theorem handshake_run (L : C.Lawful) {p : Nat} : ∀ {s : Server} {ops : List Op}, Reachable C s → Along C (LeavesSession C p) s ops →
    ∀ {q : Peer} {h : IniHs}, s.peers[p]? = some q → q.handshake = some h →
    ∃ q' h', (s.run C ops).peers[p]? = some q' ∧ q'.handshake = some h' ∧ q'.session = q.session ∧ q'.initReq = q.initReq
  | _, [], _, _, q, h, hq, hh => ⟨q, h, hq, hh, rfl, rfl⟩
  | s, o :: ops, hr, al, q, h, hq, hh => by
    have hl := al.2.2.1
    obtain ⟨q1, h1, e1, e2, e3, e4⟩ := session_run L (ops := [o]) hr ⟨al.1, al.2.1, al.2.2.1, trivial⟩ hq hh
    obtain ⟨q1', e1', e5⟩ := leaves_initReq L hl.toLeavesHandshake hq hh
    have e1 : (s.step C o).peers[p]? = some q1 := e1
    rw [e1] at e1'; cases e1'
    obtain ⟨q2, h2, g1, g2, g3, g4⟩ := handshake_run L (s := s.step C o) (.step _ _ hr al.1) al.2.2.2 e1 e2
    exact ⟨q2, h2, g1, g2, g3.trans e4, g4.trans e5⟩

/-- the key while a handshake is pending -/
theorem session_key {s s' : Server} {p : Nat} {q q' : Peer} (hq : s.peers[p]? = some q) (hq' : s'.peers[p]? = some q') (hs : q'.session = q.session) (hl : Later s s') :
    s'.osk C p = s.osk C p := by
  obtain ⟨q2, hq2, hst, -⟩ := hl.peers p q hq
  rw [hq'] at hq2; cases hq2
  unfold osk oskWith
  rw [hq, hq']
  simp only [hs, hst.2.2.1, hst.2.2.2]

/-- the answer to an InitConf is an EmptyData -/
theorem accept_ack (L : C.Lawful) {s s' : Server} {rx tx m : Bytes} {now : Time} {r : HashChoice → Rnd} {p : Nat} (h83 : rx.head? = some 0x83)
    (hok : s.handleMsg C rx tx now r = (.ok ⟨some p, some m⟩, s')) : m.head? = some 0x84 ∧ 16 < m.length := by
  rcases handleMsg_exchanged hok with ⟨e, out, c, ic, peer, hs, bs, hty, -⟩ | ⟨e, out, h, s0, no, c, peer, bs, hty, he, hc, hn, hA, hver, hck, R⟩
  · rw [hty] at h83; cases h83
  · have hwout := castTx_WF hc
    have hwf : ({ out with payload := (ackOf C (c.enterLive C now .responder peer.version.hash)).encode } : Env).WF EmptyData.size :=
      ⟨hwout.1, ackOf_length L _ _ _ (by
        rw [(icrVerify_core R.verify R.hpeer).2.1]
        exact (InitConf.decode_WF ((Env.decode_eq_some he).2 ▸ (Env.view_WF (Env.decode_eq_some he).1).2.1)).1), hwout.2.2.1, hwout.2.2.2⟩
    rcases R.result with ⟨⟨x, -, h1⟩, -⟩ | ⟨h1, -⟩ | ⟨h1, -⟩ | ⟨h1, -⟩ | ⟨s2, h1, -⟩
    · cases h1
    · cases h1
    · cases h1
    · cases h1
    · obtain ⟨h2, -⟩ := Prod.mk.inj h1
      simp only [Except.ok.injEq, MsgResult.mk.injEq, true_and, Option.some.injEq] at h2
      have S := sealMsg_sealed L { peer with biscuitUsed := no, session := some { c.enterLive C now .responder peer.version.hash with txnm := (c.enterLive C now .responder peer.version.hash).txnm + 1 }, handshake := none, known := some { receivedAt := now, requestMac := s0.knownHash C e, response := { out with payload := (ackOf C (c.enterLive C now .responder peer.version.hash)).encode } } }
        .emptyData { out with payload := (ackOf C (c.enterLive C now .responder peer.version.hash)).encode } hwf
      refine ⟨?_, ?_⟩
      · obtain ⟨bs', hbs⟩ := S.cons
        rw [h2, hbs]; rfl
      · rw [h2, Env.encode_length S.wf]
        unfold Env.size; omega

/-- the EmptyData that ends the handshake leaves the session, but for the counter, and the request flag -/
theorem ack_rest {s s' : Server} {rx tx : Bytes} {now : Time} {r : HashChoice → Rnd} {p : Nat} {q : Peer} {h : IniHs} {x : Session} (h84 : rx.head? = some 0x84)
    (hok : s.handleMsg C rx tx now r = (.ok ⟨none, none⟩, s')) (hq : s.peers[p]? = some q) (hh : q.handshake = some h) (hx : q.session = some x)
    (hend : s'.handshake p = none) : ∃ n, AtRest s' p { x with txnt := n } q.initReq := by
  rcases handleMsg_dispatch C s rx tx now r with ⟨y, hy, -⟩ | ⟨t, bs, out, hrx, hout, hd⟩
  · rw [hok] at hy; cases hy
  rcases hd with ⟨rfl, -⟩ | ⟨rfl, -⟩ | ⟨rfl, -⟩ | ⟨rfl, e, he, hm⟩ | ⟨rfl, -⟩
  · rw [hrx] at h84; cases h84
  · rw [hrx] at h84; cases h84
  · rw [hrx] at h84; cases h84
  · rw [hok] at hm
    obtain ⟨hm1, hm2⟩ := Prod.mk.inj hm
    rcases handleRespConf_cases C s e with ⟨y, hy⟩ | ⟨p', peer, ses, hl, hp, hses, hn, hck, hct, hres⟩
    · rw [hy] at hm1; cases hm1
    · rcases hres with ⟨h2, -⟩ | ⟨h2, -⟩
      · rw [h2] at hm1; cases hm1
      · rw [h2] at hm2
        by_cases hpp : p = p'
        · subst hpp
          rw [hq] at hp; cases hp
          rw [hx] at hses; cases hses
          refine ⟨leNat (EmptyData.decode e.payload).ctr, { q with session := some { x with txnt := leNat (EmptyData.decode e.payload).ctr }, handshake := none }, ?_, rfl, rfl, rfl⟩
          rw [hm2, hsTake_get, if_pos rfl, modPeer_get, if_pos rfl, hq]
          rfl
        · exfalso
          unfold handshake at hend
          rw [hm2, hsTake_get, if_neg hpp, modPeer_get, if_neg hpp, hq] at hend
          have hend : q.handshake = none := hend
          rw [hh] at hend; cases hend
  · rw [hrx] at h84; cases h84

theorem Mutual.lasts {A B A' B' : Server} {pa pb : Nat} {eb ea : Peer} (M : Mutual C A B pa pb eb ea) (la : Later A A') (lb : Later B B') (ra : Reachable C A') (rb : Reachable C B') :
    ∃ eb' ea', Mutual C A' B' pa pb eb' ea' := by
  obtain ⟨eb', h1, ⟨s1, s2, s3, s4⟩, -⟩ := la.peers pa eb M.atA
  obtain ⟨ea', g1, ⟨t1, t2, t3, t4⟩, -⟩ := lb.peers pb ea M.atB
  refine ⟨eb', ea', ra, rb, ?_, ?_, h1, g1, ?_, ?_, ?_, ?_, ?_⟩
  · rw [la.sskm, la.spkm]; exact M.pairA
  · rw [lb.sskm, lb.spkm]; exact M.pairB
  · rw [s2, lb.spkm, M.keyB]
  · rw [t2, la.spkm, M.keyA]
  · rw [t1, s1, M.psk]
  · rw [t3, s3, M.version]
  · rw [t4, s4, M.osk]

theorem Mutual.symm {A B : Server} {pa pb : Nat} {eb ea : Peer} (M : Mutual C A B pa pb eb ea) : Mutual C B A pb pa ea eb :=
  ⟨M.reachB, M.reachA, M.pairB, M.pairA, M.atB, M.atA, M.keyA, M.keyB, M.psk.symm, M.version.symm, M.osk.symm⟩

/-! ### The claim -/

/-- **Specification.** Two servers that have peered with each other, use the keys `ka` and `kb` (normally the same) in sessions `x` and `y`, and are not in the middle of a handshake. `fa`, `fb`: whether
they have asked for an initiation. -/
structure Link (C : Crypto) (pa pb : Nat) (A B : Server) (x y : Session) (fa fb : Bool) (ka kb : Bytes) : Prop where
  peered : ∃ eb ea, Mutual C A B pa pb eb ea
  freshA : FreshReachable C A
  freshB : FreshReachable C B
  restA : AtRest A pa x fa
  restB : AtRest B pb y fb
  keyA : A.osk C pa = .ok ka
  keyB : B.osk C pb = .ok kb

theorem Link.symm {pa pb : Nat} {A B : Server} {x y : Session} {fa fb : Bool} {ka kb : Bytes} (h : Link C pa pb A B x y fa fb ka kb) : Link C pb pa B A y x fb fa kb ka := by
  obtain ⟨eb, ea, M⟩ := h.peered
  exact ⟨⟨ea, eb, M.symm⟩, h.freshB, h.freshA, h.restB, h.restA, h.keyB, h.keyA⟩

/-- **Specification.** One round in which A renews the key it shares with B, whatever else happens to the two servers: at each point the key in force is the old one
or, from the moment on at which that side has processed the message that gives it the new one, the new one. `Next` is required of the state afterwards.

* until A's session is due, both make any calls that do not concern the session;
* then A's application polls, in time: it is asked to initiate, and told nothing else about B;
* it initiates; any calls may be made at A, as long as they leave the handshake alone and do not come too late; B gets any copy of the first message;
* A gets the answer; any calls may be made at B, as long as they leave its answer open; B gets the third message;
* any calls may be made at A; A gets any copy of the fourth message. -/
def Renews (C : Crypto) (pa pb : Nat) (A B : Server) (x y : Session) (fb : Bool) (ka kb : Bytes) (Next : Server → Server → Session → Session → Bytes → Prop) : Prop :=
  ∀ opsA opsB, Along C (LeavesRest C pa (rekeyTime x)) A opsA → Along C (LeavesRest C pb (deadline y fb)) B opsB →
  (A.run C opsA).osk C pa = .ok ka ∧ (B.run C opsB).osk C pb = .ok kb ∧
  ∀ t rs evs A0 w, rekeyTime x < t + eventGrace → t + eventGrace ≤ x.createdAt + secs 180 → (∀ n, (Op.poll t (rs n)).WF C) → PollRun t rs (A.run C opsA) evs A0 w →
  (∀ e, (e ∈ evs ∧ e.peer = some pa) ↔ e = .sendInitiation pa) ∧ A0.osk C pa = .ok ka ∧
  ∀ (rA : Rnd) (rB r3 r4 r5 : HashChoice → Rnd) (t1 t2 t3 t4 t5 : Time) (x1 x2 x3 x4 x5 : Bytes), rA.WF C → (∀ h, (rB h).WF C) → (∀ h, (r3 h).WF C) → (∀ h, (r4 h).WF C) → (∀ h, (r5 h).WF C) →
  0 ≤ t2 → A0.index (.sid rA.sid) = none → (∀ q, (B.run C opsB).peers[pb]? = some q → leNat q.biscuitUsed < leNat (B.run C opsB).biscuitCtr) →
  Env.size (InitHello.size C) ≤ x1.length → Env.size (RespHello.size C) ≤ x2.length → Env.size (RespHello.size C) ≤ x3.length → Env.size (RespHello.size C) ≤ x4.length →
  Env.size (RespHello.size C) ≤ x5.length →
  ∃ m1 A1, A0.initiate C pa t1 rA x1 = (.ok m1, A1) ∧
  ∀ opsA1, Along C (LeavesSession C pa) A1 opsA1 → (A1.run C opsA1).osk C pa = .ok ka ∧
  ∀ m1' ea, SameButCookie m1 m1' → (B.run C opsB).peers[pb]? = some ea → HelloUnambiguous C (B.run C opsB) ea.version m1' →
  ∃ m2 B1, (B.run C opsB).handleMsg C m1' x2 t2 rB = (.ok ⟨none, some m2⟩, B1) ∧ B1.osk C pb = .ok kb ∧
  ∃ m3 A2 k', (A1.run C opsA1).handleMsg C m2 x3 t3 r3 = (.ok ⟨some pa, some m3⟩, A2) ∧ A2.osk C pa = .ok k' ∧
  ∀ opsB1, Along C (fun s o => LeavesRest C pb (deadline y fb) s o ∧ LeavesOpen C pb t2 s o) B1 opsB1 → (B1.run C opsB1).osk C pb = .ok kb ∧
  (¬ SidTaken (B1.run C opsB1) pb (rB ea.version.hash).sid → ConfUnambiguous C (B1.run C opsB1) ea.version m3 →
  ∃ m4 B2, (B1.run C opsB1).handleMsg C m3 x4 t4 r4 = (.ok ⟨some pb, some m4⟩, B2) ∧ B2.osk C pb = .ok k' ∧
  ∀ opsA2, Along C (LeavesSession C pa) A2 opsA2 → (A2.run C opsA2).osk C pa = .ok k' ∧
  ∀ m4', SameButCookie m4 m4' → ∃ A3 x' y', (A2.run C opsA2).handleMsg C m4' x5 t5 r5 = (.ok ⟨none, none⟩, A3) ∧ A3.osk C pa = .ok k' ∧
  x'.createdAt = t3 ∧ x'.role = .initiator ∧ y'.createdAt = t4 ∧ y'.role = .responder ∧ Next A3 B2 x' y' k')

/-- the state after a call that returned `s'` -/
theorem fresh_msg {s s' : Server} {rx tx : Bytes} {now : Time} {r : HashChoice → Rnd} {res : Except Err MsgResult} (h : s.handleMsg C rx tx now r = (res, s')) (hr : ∀ h, (r h).WF C) :
    (FreshReachable C s → FreshReachable C s') ∧ (Reachable C s → Reachable C s') := by
  refine ⟨fun g => ?_, fun g => ?_⟩
  · have := FreshReachable.step s (.handleMsg rx tx now r) g hr trivial
    simpa only [Server.step, h] using this
  · have := Reachable.step s (.handleMsg rx tx now r) g hr
    simpa only [Server.step, h] using this

theorem later_msg (L : C.Lawful) {s s' : Server} {rx tx : Bytes} {now : Time} {r : HashChoice → Rnd} {res : Except Err MsgResult} (h : s.handleMsg C rx tx now r = (res, s'))
    (hr : ∀ h, (r h).WF C) : Later s s' := by
  have := run_later L [.handleMsg rx tx now r] (fun o ho => by cases List.mem_singleton.mp ho; exact hr) s
  simpa only [Server.run, List.foldl_cons, List.foldl_nil, Server.step, h] using this

/-- **C126** (one round). -/
theorem link_renews (L : C.Lawful) (K : C.KemTotal) {pa pb : Nat} {A B : Server} {x y : Session} {fb : Bool} {ka kb : Bytes} (H : Link C pa pb A B x y false fb ka kb)
    {Next : Server → Server → Session → Session → Bytes → Prop} (hN : ∀ A' B' x' y' k', Link C pa pb A' B' x' y' false fb k' k' → Next A' B' x' y' k') :
    Renews C pa pb A B x y fb ka kb Next := by
  obtain ⟨eb, ea0, M⟩ := H.peered
  intro opsA opsB alA alB
  obtain ⟨rA1, reA1⟩ := rest_run L M.reachA H.restA alA
  obtain ⟨rB1, reB1⟩ := rest_run L M.reachB H.restB alB
  have lA1 := run_later L opsA alA.wf A
  have lB1 := run_later L opsB alB.wf B
  have kA1 : (A.run C opsA).osk C pa = .ok ka := (rest_key H.restA rA1 lA1).trans H.keyA
  have kB1 : (B.run C opsB).osk C pb = .ok kb := (rest_key H.restB rB1 lB1).trans H.keyB
  refine ⟨kA1, kB1, ?_⟩
  intro t rs evs A0 w ht1 ht2 hrs hrun
  obtain ⟨hev, rA0⟩ := rest_request rA1 hrun ht1 ht2
  obtain ⟨pops, rfl, hpw, hpp⟩ := pollRun_run (C := C) hrun hrs
  have lA0 := run_later L pops hpw (A.run C opsA)
  have reA0 := run_reachable pops hpw _ reA1
  have fA0 : FreshReachable C ((A.run C opsA).run C pops) := fresh_polls (alA.fresh H.freshA) hpw (fun o ho => by obtain ⟨n, e⟩ := hpp o ho; exact ⟨_, e⟩)
  have kA0 : ((A.run C opsA).run C pops).osk C pa = .ok ka := (rest_key rA1 rA0 lA0).trans kA1
  refine ⟨hev, kA0, ?_⟩
  intro rA rB r3 r4 r5 t1 t2 t3 t4 t5 x1 x2 x3 x4 x5 hrA hrB hr3 hr4 hr5 h0 hsid hused h1 h2 h3 h4 h5
  obtain ⟨eb', ea, M'⟩ := M.lasts (lA1.trans lA0) lB1 reA0 reB1
  generalize (A.run C opsA).run C pops = A0 at *
  generalize hB0 : B.run C opsB = B0 at *
  obtain ⟨qa, hqa, g1, g2, g3⟩ := rA0
  have hnew : (A0.handshake pa).map (·.core.sidi) ≠ some rA.sid := by
    have : A0.handshake pa = none := by unfold handshake; rw [hqa]; exact g2
    rw [this]; exact fun h => nomatch h
  have hqa' := hqa
  rw [M'.atA] at hqa'; cases hqa'
  obtain ⟨m1, A1, hc1, g⟩ := completes_despite_loss L K fA0 M' hrA hrB hsid hnew (hused ea M'.atB) t1 t2 t3 t4 t5 h0 r3 r4 r5 hr3 hr4 h1 h2 h3 h4 h5
  obtain ⟨ih, hs0, hs, e1, A1', hini, hcall, S1, hp1, hcore, hnext, -⟩ := initiate_ok (now := t1) L K hrA M'.atA hsid hnew h1
  rw [hc1] at hcall
  obtain ⟨hm, rfl⟩ := Prod.mk.inj hcall
  simp only [Except.ok.injEq] at hm
  have hlen1 : m1.length = Env.size (InitHello.size C) := by rw [hm]; exact Env.encode_length S1.wf
  obtain ⟨-, -, -, -, -, -, -, hhead1, -⟩ := initiate_pending L K hrA M'.atA hsid hnew hc1
  have hrA1 : Reachable C A1 := by
    have := Reachable.step A0 (.initiate pa t1 rA x1) reA0 hrA
    simpa only [Server.step, hc1] using this
  have hfA1 : FreshReachable C A1 := by
    have := FreshReachable.step A0 (.initiate pa t1 rA x1) fA0 hrA hnew
    simpa only [Server.step, hc1] using this
  have lA01 : Later A0 A1 := by
    have := run_later L [.initiate pa t1 rA x1] (fun o ho => by cases List.mem_singleton.mp ho; exact hrA) A0
    simpa only [Server.run, List.foldl_cons, List.foldl_nil, Server.step, hc1] using this
  refine ⟨m1, A1, hc1, ?_⟩
  intro opsA1 alA1
  obtain ⟨q1, hh1, hq1, hhs1, hses1, hreq1⟩ := handshake_run L hrA1 alA1 hp1 rfl
  have lA1' := run_later L opsA1 alA1.wf A1
  have kA1' : (A1.run C opsA1).osk C pa = .ok ka := (session_key hqa hq1 hses1 (lA01.trans lA1')).trans kA0
  refine ⟨kA1', ?_⟩
  intro m1' ea' hm1' hea' hun
  rw [M'.atB] at hea'; cases hea'
  obtain ⟨-, g⟩ := g opsA1 (alA1.mono (fun s o h => h.toLeavesHandshake))
  obtain ⟨m2, B1, hc2, m3, A2, hc3, -, g⟩ := g m1' hm1' hun
  have hhead1' : m1'.head? = some 0x81 := by
    rw [hm1'.head (by rw [hlen1]; unfold Env.size; omega), hhead1]
  have rB1' : AtRest B1 pb y fb := by
    have := rest_step L reB1 (o := .handleMsg m1' x2 t2 rB) rB1 ⟨fun _ _ _ => nofun, fun _ _ => nofun,
      (fun rx hrx q hq rej hI => by cases hrx; have := hI.1; rw [hhead1'] at this; cases this), (fun rx hrx hI => by cases hrx; have := hI.1; rw [hhead1'] at this; cases this)⟩
    simpa only [Server.step, hc2] using this
  have lB12 := later_msg L hc2 hrB
  have reB1' := (fresh_msg hc2 hrB).2 reB1
  have kB1' : B1.osk C pb = .ok kb := (rest_key rB1 rB1' lB12).trans kB1
  refine ⟨m2, B1, hc2, kB1', m3, A2, ?_⟩
  -- the initiator after the answer
  have h82 : m2.head? = some 0x82 := by
    obtain ⟨m, A', i1, i2⟩ := key_agreement_resent L K M' hrA hrB hsid hnew t1 t2 t3 t4 t5 r3 r4 r5 h1 h2 h3 h4 h5
    rw [hc1] at i1; cases i1
    obtain ⟨m', B', j1, j2, -⟩ := i2 m1' hm1' hun
    rw [hc2] at j1; cases j1
    exact j2
  have reA1' := run_reachable opsA1 alA1.wf A1 hrA1
  have reA2 := (fresh_msg hc3 hr3).2 reA1'
  have fA2 := (fresh_msg hc3 hr3).1 (alA1.fresh hfA1)
  have lA2 := later_msg L hc3 hr3
  obtain ⟨q2, x', hq2, hx', hcr, hrole, k', hk'⟩ := exchange_session (C := C) (s := A1.run C opsA1) (.handleMsg m2 x3 t3 r3) m2 rfl t3 rfl pa (some m3)
    (by show (Server.handleMsg _ _ _ _ _ _).1 = _; rw [hc3])
  have hst : (A1.run C opsA1).step C (.handleMsg m2 x3 t3 r3) = A2 := by simp only [Server.step, hc3]
  rw [hst] at hq2 hk'
  have hrole : x'.role = .initiator := by
    rcases hrole with ⟨r1, r2⟩ | ⟨r1, r2⟩
    · exact r1
    · rw [h82] at r2; cases r2
  obtain ⟨-, -, -, -, h83, -, q2', hs2, hq2', hh2, -⟩ := accept_stored L h82 hc3
  rw [hq2] at hq2'; cases hq2'
  have hreq2 : q2.initReq = false := by
    have := handleMsg_keeps (C := C) (A1.run C opsA1) m2 x3 t3 r3 pa q1 hq1
    rw [hc3] at this
    obtain ⟨q', hq', kp⟩ := this
    rw [hq2] at hq'; cases hq'
    rw [kp.initReq, hreq1]
  refine ⟨k', hc3, hk', ?_⟩
  intro opsB1 alB1
  obtain ⟨rB2, reB2⟩ := rest_run L reB1' rB1' (alB1.mono (fun s o h => h.1))
  have lB2 := run_later L opsB1 alB1.wf B1
  refine ⟨(rest_key rB1' rB2 lB2).trans kB1', ?_⟩
  intro hfree hcu
  obtain ⟨m4, B2, hc4, k2, kk1, kk2, -, g⟩ := g opsB1 (alB1.mono (fun s o h => h.2)) hfree hcu
  have hkk : k2 = k' := by rw [hk'] at kk1; cases kk1; rfl
  subst hkk
  refine ⟨m4, B2, hc4, kk2, ?_⟩
  intro opsA2 alA2
  obtain ⟨q3, hh3, hq3, hhs3, hses3, hreq3⟩ := handshake_run L reA2 alA2 hq2 hh2
  refine ⟨(session_key hq2 hq3 hses3 (run_later L opsA2 alA2.wf A2)).trans hk', ?_⟩
  intro m4' hm4'
  obtain ⟨A3, hc5, hend, hk3⟩ := g opsA2 alA2 m4' hm4'
  obtain ⟨h84, hlen4⟩ := accept_ack L h83 hc4
  obtain ⟨n, rA3⟩ := ack_rest (by rw [hm4'.head hlen4, h84]) hc5 hq3 hhs3 (hses3.trans hx') hend
  rw [hreq3, hreq2] at rA3
  -- the responder
  obtain ⟨qb, y', hqb, hy', hycr, hyrole, -⟩ := exchange_session (C := C) (s := B1.run C opsB1) (.handleMsg m3 x4 t4 r4) m3 rfl t4 rfl pb (some m4)
    (by show (Server.handleMsg _ _ _ _ _ _).1 = _; rw [hc4])
  have hstB : (B1.run C opsB1).step C (.handleMsg m3 x4 t4 r4) = B2 := by simp only [Server.step, hc4]
  rw [hstB] at hqb
  have hyrole : y'.role = .responder := by
    rcases hyrole with ⟨r1, r2⟩ | ⟨r1, r2⟩
    · rw [h83] at r2; cases r2
    · exact r1
  have rB3 : AtRest B2 pb y' fb := by
    obtain ⟨q', hq', hnone⟩ := initConf_ends_handshake (C := C) (B1.run C opsB1) m3 x4 t4 r4 h83 pb (some m4) (by rw [hc4])
    rw [hc4] at hq'
    dsimp only at hq'
    rw [hqb] at hq'; cases hq'
    refine ⟨qb, hqb, hy', hnone, ?_⟩
    obtain ⟨qo, hqo, -, -, hfo⟩ := rB2
    have := handleMsg_keeps (C := C) (B1.run C opsB1) m3 x4 t4 r4 pb qo hqo
    rw [hc4] at this
    obtain ⟨q', hq', kp⟩ := this
    rw [hqb] at hq'; cases hq'
    rw [kp.initReq, hfo]
  refine ⟨A3, { x' with txnt := n }, y', hc5, hk3, hcr, hrole, hycr, hyrole, hN _ _ _ _ _ ?_⟩
  have lA3 : Later A0 A3 := ((lA01.trans lA1').trans lA2).trans ((run_later L opsA2 alA2.wf A2).trans (later_msg L hc5 hr5))
  have lB3 : Later B0 B2 := (lB12.trans lB2).trans (later_msg L hc4 hr4)
  exact ⟨M'.lasts lA3 lB3 ((fresh_msg hc5 hr5).2 (run_reachable opsA2 alA2.wf A2 reA2)) ((fresh_msg hc4 hr4).2 reB2),
    (fresh_msg hc5 hr5).1 (alA2.fresh fA2), (fresh_msg hc4 hr4).1 (alB1.fresh ((fresh_msg hc2 hrB).1 (hB0 ▸ alB.fresh H.freshB))), rA3, rB3, hk3, kk2⟩

/-- **Specification.** The key can be renewed `n` times, each time by whichever side has no request outstanding. -/
def RenewsOften (C : Crypto) (pa pb : Nat) : Nat → Server → Server → Session → Session → Bool → Bool → Bytes → Bytes → Prop
  | 0, _, _, _, _, _, _, _, _ => True
  | n + 1, A, B, x, y, fa, fb, ka, kb =>
    (fa = false → Renews C pa pb A B x y fb ka kb (fun A' B' x' y' k' => RenewsOften C pa pb n A' B' x' y' false fb k' k')) ∧
    (fb = false → Renews C pb pa B A y x fa kb ka (fun B' A' y' x' k' => RenewsOften C pa pb n A' B' x' y' fa false k' k'))

/-- **C126.** Two servers that share a key can renew it any number of times, whatever else is going on. (And if their keys differ, the first round mends that.) -/
theorem renewal_for_ever (L : C.Lawful) (K : C.KemTotal) {pa pb : Nat} (n : Nat) : ∀ {A B : Server} {x y : Session} {fa fb : Bool} {ka kb : Bytes}, Link C pa pb A B x y fa fb ka kb →
    RenewsOften C pa pb n A B x y fa fb ka kb := by
  induction n with
  | zero => exact fun _ => trivial
  | succ n ih =>
    intro A B x y fa fb ka kb H
    refine ⟨?_, ?_⟩
    · rintro rfl
      exact link_renews L K H (fun A' B' x' y' k' H' => ih H')
    · rintro rfl
      exact link_renews L K H.symm (fun B' A' y' x' k' H' => ih H'.symm)

end
end Verif

namespace Verif
open Server

/-! ### An example -/

namespace Ex

theorem A3_fresh (v) : FreshReachable Toy.crypto (A3 v) := by
  have h1 : FreshReachable Toy.crypto (A1 v) := .step _ (.initiate 0 0 (rnd 9) buf) (server_fresh _ _ _) (rnd_WF 9) (by
    show ((A0 v).handshake 0).map _ ≠ _
    have : (A0 v).handshake 0 = none := by cases v <;> rfl
    rw [this]; exact fun h => nomatch h)
  have h2 : FreshReachable Toy.crypto (A2 v) := .step _ (.handleMsg (m2 v) buf 2 (fun _ => rnd 30)) h1 (fun _ => rnd_WF 30) trivial
  exact .step _ (.handleMsg (m4 v) buf 4 (fun _ => rnd 50)) h2 (fun _ => rnd_WF 50) trivial

theorem B2_fresh (v) : FreshReachable Toy.crypto (B2 v) := by
  have h1 : FreshReachable Toy.crypto (B1 v) := .step _ (.handleMsg (m1 v) buf 1 (fun _ => rnd 20)) (server_fresh _ _ _) (fun _ => rnd_WF 20) trivial
  exact .step _ (.handleMsg (m3 v) buf 3 (fun _ => rnd 40)) h1 (fun _ => rnd_WF 40) trivial

theorem A3_later (v) : Later (A0 v) (A3 v) :=
  run_later Toy.lawful [.initiate 0 0 (rnd 9) buf, .handleMsg (m2 v) buf 2 (fun _ => rnd 30), .handleMsg (m4 v) buf 4 (fun _ => rnd 50)]
    (by intro o ho; rcases List.mem_cons.mp ho with rfl | ho
        · exact rnd_WF 9
        rcases List.mem_cons.mp ho with rfl | ho
        · exact fun _ => rnd_WF 30
        cases List.mem_singleton.mp ho
        exact fun _ => rnd_WF 50) (A0 v)

theorem B2_later (v) : Later (B0 v) (B2 v) :=
  run_later Toy.lawful [.handleMsg (m1 v) buf 1 (fun _ => rnd 20), .handleMsg (m3 v) buf 3 (fun _ => rnd 40)]
    (by intro o ho; rcases List.mem_cons.mp ho with rfl | ho
        · exact fun _ => rnd_WF 20
        cases List.mem_singleton.mp ho
        exact fun _ => rnd_WF 40) (B0 v)

/-- after the run, peer 0 of the server -/
def rests (s : Server) (role : Role) (t : Time) : Bool :=
  match s.peers[0]? with
  | some q => match q.session, q.handshake, q.initReq with
    | some x, none, false => decide (x.role = role) && decide (x.createdAt = t)
    | _, _, _ => false
  | none => false

theorem rests_atRest {s : Server} {role : Role} {t : Time} (h : rests s role t = true) : ∃ x, AtRest s 0 x false ∧ x.role = role ∧ x.createdAt = t := by
  unfold rests at h
  split at h
  · rename_i q hq
    split at h
    · rename_i x hx hh hi
      simp only [Bool.and_eq_true, decide_eq_true_eq] at h
      exact ⟨x, ⟨q, hq, hx, hh, hi⟩, h⟩
    · cases h
  · cases h

end Ex

/-- C126: two servers that have just completed a handshake form a `Link`: the hypothesis of `renewal_for_ever` and, with either side as initiator, of `link_renews` is met … -/
example (v : Version) : ∃ x y k, Link Toy.crypto 0 0 (Ex.A3 v) (Ex.B2 v) x y false false k k ∧ x.role = .initiator ∧ x.createdAt = 2 ∧ y.role = .responder ∧ y.createdAt = 3 := by
  obtain ⟨x, hx, hx1, hx2⟩ := Ex.rests_atRest (s := Ex.A3 v) (role := .initiator) (t := 2) (by cases v <;> decide +kernel)
  obtain ⟨y, hy, hy1, hy2⟩ := Ex.rests_atRest (s := Ex.B2 v) (role := .responder) (t := 3) (by cases v <;> decide +kernel)
  obtain ⟨q, hq, hs, -⟩ := id hx
  obtain ⟨k, hk⟩ := (osk_of_session (C := Toy.crypto) hq).mpr ⟨x, hs⟩
  have hsame : (Ex.A3 v).osk Toy.crypto 0 = (Ex.B2 v).osk Toy.crypto 0 := by cases v <;> decide +kernel
  exact ⟨x, y, k, ⟨(Ex.registered v).lasts (Ex.A3_later v) (Ex.B2_later v) (Ex.A3_reach v) (Ex.B2_reach v), Ex.A3_fresh v, Ex.B2_fresh v, hx, hy, hk, by rw [← hsame]; exact hk⟩, hx1, hx2, hy1, hy2⟩

/-- … and polled after 120 s the responder asks its application to initiate, polled just before it does not. -/
example (v : Version) : ((Ex.B2 v).poll (secs 120) Ex.prnd).map (·.1) = some (.sendInitiation 0) ∧
    ((Ex.B2 v).poll (secs 119) Ex.prnd).map (·.1) ≠ some (.sendInitiation 0) := by cases v <;> exact ⟨by decide +kernel, by decide +kernel⟩

end Verif
