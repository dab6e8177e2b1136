import Verif.Thm.Timers
import Verif.Thm.Total
/-
C17, C19, C20: session life cycle, rekeying and retransmission.
-/
namespace Verif
open HashDomain Server

section
variable {C : Crypto}

/-! ### Effect of one poll on a peer -/

/-- what a poll at `now` that reports `c` may do to peer `p` -/
structure PollEffect (now : Time) (jit : Nat) (c : PollResult) (p : Nat) (q q' : Peer) : Prop where
  static : Static q q' ∧ q'.biscuitUsed = q.biscuitUsed
  session : q'.session = q.session ∨ c = .deleteKey p ∧ q'.session = none
  initReq : q'.initReq = q.initReq ∨ c = .sendInitiation p ∧ q'.initReq = true
  handshake : (c ≠ .sendRetransmission p ∧ (q'.handshake = q.handshake ∨ q'.handshake = none ∧ ∃ h, q.handshake = some h ∧ h.createdAt + secs 180 < now + eventGrace)) ∨
    c = .sendRetransmission p ∧ ∃ h, q.handshake = some h ∧ q'.handshake = some (regRetransmit now jit h)

theorem PollEffect.same (now : Time) (jit : Nat) {c : PollResult} {p : Nat} (q : Peer) (h : c ≠ .sendRetransmission p) : PollEffect now jit c p q q :=
  ⟨⟨⟨rfl, rfl, rfl, rfl⟩, rfl⟩, Or.inl rfl, Or.inl rfl, Or.inl ⟨h, Or.inl rfl⟩⟩

theorem keptHs_effect {now : Time} {q : Peer} :
    keptHs now q = q.handshake ∨ keptHs now q = none ∧ ∃ h, q.handshake = some h ∧ h.createdAt + secs 180 < now + eventGrace := by
  unfold keptHs
  by_cases hw : hasHappened (hsWait q now) 0 = true
  · rw [if_pos hw]; exact Or.inr ⟨rfl, hsWait_happened.mp hw⟩
  · rw [if_neg hw]; exact Or.inl rfl

/-- what polling a peer does to it -/
theorem pollPeer_effect {now : Time} {r : PollRnd} {p : Nat} {s s' : Server} {c : PollResult} {q : Peer} (hp : s.peers[p]? = some q)
    (h : pollPeer now r p s = some (c, s')) : ∃ q', s'.peers[p]? = some q' ∧ PollEffect now r.jit c p q q' := by
  obtain ⟨x, hx⟩ : ∃ x, pollPeer now r p s = x := ⟨_, rfl⟩
  obtain ⟨-, hcase⟩ := pollPeer_cases hp h
  have hst : ∀ t, pollPeer now r p s = some (.sleep t, s') → ∀ q', s'.peers[p]? = some q' → Static q q' ∧ q'.biscuitUsed = q.biscuitUsed := by
    intro t ht q' hq'
    have hm := pollPeer_moves (now := now) (r := r) p s _ _ ht
    have := hm.inv (P := fun t => ∃ q', t.peers[p]? = some q' ∧ Static q q' ∧ q'.biscuitUsed = q.biscuitUsed) ?_ ⟨q, hp, ⟨rfl, rfl, rfl, rfl⟩, rfl⟩
    · obtain ⟨q1, h1, h2⟩ := this
      rw [hq'] at h1; cases h1; exact h2
    · rintro a b hab ⟨q1, h1, ⟨e1, e2, e3, e4⟩, h3⟩
      have upd : ∀ {n : Nat} {f : Peer → Peer}, Upd a b n f → (∀ x, Static x (f x) ∧ (f x).biscuitUsed = x.biscuitUsed) →
          ∃ q', b.peers[p]? = some q' ∧ Static q q' ∧ q'.biscuitUsed = q.biscuitUsed := by
        intro n f hu hf
        have := hu p
        by_cases hn : p = n
        · rw [if_pos hn, h1] at this
          obtain ⟨⟨g1, g2, g3, g4⟩, g⟩ := hf q1
          exact ⟨_, this, ⟨g1.trans e1, g2.trans e2, g3.trans e3, g4.trans e4⟩, g.trans h3⟩
        · rw [if_neg hn, h1] at this
          exact ⟨_, this, ⟨e1, e2, e3, e4⟩, h3⟩
      cases hab with
      | biscuit j t => exact ⟨q1, h1, ⟨e1, e2, e3, e4⟩, h3⟩
      | cookie j t => exact ⟨q1, h1, ⟨e1, e2, e3, e4⟩, h3⟩
      | hsTake n => exact upd (hsTake_get a n) (fun x => ⟨⟨rfl, rfl, rfl, rfl⟩, rfl⟩)
      | sessTake n => exact upd (sessTake_get a n) (fun x => ⟨⟨rfl, rfl, rfl, rfl⟩, rfl⟩)
      | initReq n => exact upd (modPeer_get a n _) (fun x => ⟨⟨rfl, rfl, rfl, rfl⟩, rfl⟩)
      | retry n => exact upd (modPeer_get a n _) (fun x => ⟨⟨rfl, rfl, rfl, rfl⟩, rfl⟩)
      | known n kk _ hk' hlt hr => exact upd (knownRemove_upd hr) (fun x => ⟨⟨rfl, rfl, rfl, rfl⟩, rfl⟩)
  rcases hcase with ⟨rfl, hw, hq⟩ | ⟨rfl, hns, hw, hq⟩ | ⟨rfl, hw, hq⟩ | ⟨q', t, rfl, hq, hses, hini, hhs, -⟩
  · exact ⟨_, hq, ⟨⟨rfl, rfl, rfl, rfl⟩, rfl⟩, Or.inr ⟨rfl, rfl⟩, Or.inl rfl, Or.inl ⟨(fun h => nomatch h), keptHs_effect⟩⟩
  · exact ⟨_, hq, ⟨⟨rfl, rfl, rfl, rfl⟩, rfl⟩, Or.inl rfl, Or.inr ⟨rfl, rfl⟩, Or.inl ⟨(fun h => nomatch h), keptHs_effect⟩⟩
  · obtain ⟨hs, hhs, -⟩ := retryWait_happened.mp hw
    have hhs' : keptHs now q = some hs := hhs
    refine ⟨_, hq, ⟨⟨rfl, rfl, rfl, rfl⟩, rfl⟩, Or.inl rfl, Or.inl rfl, Or.inr ⟨rfl, hs, (keptHs_some.mp hhs').1, ?_⟩⟩
    show (keptHs now q).map _ = _
    rw [hhs']; rfl
  · refine ⟨q', hq, hst t h q' hq, Or.inl hses, Or.inl hini, Or.inl ⟨(fun h => nomatch h), ?_⟩⟩
    rw [hhs]; exact keptHs_effect

theorem PollEffect.mono {now : Time} {jit : Nat} {p : Nat} {q q' : Peer} {t : Time} {c : PollResult} (h : PollEffect now jit (.sleep t) p q q')
    (hc : c ≠ .sendRetransmission p) : PollEffect now jit c p q q' := by
  refine ⟨h.static, ?_, ?_, ?_⟩
  · rcases h.session with h | ⟨h, -⟩
    · exact Or.inl h
    · cases h
  · rcases h.initReq with h | ⟨h, -⟩
    · exact Or.inl h
    · cases h
  · rcases h.handshake with ⟨-, h⟩ | ⟨h, -⟩
    · exact Or.inl ⟨hc, h⟩
    · cases h

theorem pollPeers_effect {now : Time} {r : PollRnd} (ps : List Nat) : ∀ {s : Server} {t0 : Time}, (∀ p ∈ ps, p < s.peers.length) → ps.Nodup →
    ∀ {c : PollResult} {s' : Server}, pollChildren (ps.map (fun p => pollPeer now r p)) (some (.sleep t0, s)) = some (c, s') →
    (∀ p, c = .sendRetransmission p → p ∈ ps) ∧
    ∀ p q, s.peers[p]? = some q → ∃ q', s'.peers[p]? = some q' ∧ (p ∉ ps → q' = q) ∧ (p ∈ ps → PollEffect now r.jit c p q q') := by
  induction ps with
  | nil =>
    intro s t0 _ _ c s' h
    cases h
    exact ⟨fun p h => (nomatch h), fun p q hq => ⟨q, hq, fun _ => rfl, fun h => nomatch h⟩⟩
  | cons n ps ih =>
    intro s t0 hps hnd c s' h
    obtain ⟨q0, hq0⟩ : ∃ q, s.peers[n]? = some q := ⟨_, List.getElem?_eq_getElem (hps n (by simp))⟩
    rw [List.map_cons, pollChildren_sleep, pollChild_sleep] at h
    have hn : n ∉ ps := (List.nodup_cons.mp hnd).1
    cases hpp : pollPeer now r n s with
    | none => rw [hpp] at h; cases ps <;> cases h
    | some x =>
      obtain ⟨b, s1⟩ := x
      rw [hpp] at h
      simp only at h
      have ho := (pollPeer_cases hq0 hpp).1
      obtain ⟨q0', hq0', heff⟩ := pollPeer_effect hq0 hpp
      cases hf : PollResult.fold (.sleep t0) b with
      | none => rw [hf] at h; cases ps <;> cases h
      | some a =>
        rw [hf] at h
        simp only [Option.map_some] at h
        rcases fold_sleep hf with ⟨hsat, rfl⟩ | ⟨u, rfl, rfl⟩
        · rw [pollChildren_event hsat] at h
          cases h
          obtain ⟨q', hq', hd, -⟩ := pollPeer_due hq0 hpp hsat
          have hcn : ∀ m, c = .sendRetransmission m → m = n := by
            rintro m rfl
            have := hd.peer
            simpa [PollResult.peer] using this
          refine ⟨fun p hp => by rw [hcn p hp]; exact List.mem_cons_self, fun p q hq => ?_⟩
          by_cases hpn : p = n
          · subst hpn
            rw [hq0] at hq; cases hq
            exact ⟨q0', hq0', fun h => absurd List.mem_cons_self h, fun _ => heff⟩
          · exact ⟨q, (ho.others p hpn).trans hq, fun _ => rfl, fun _ => PollEffect.same _ _ q (fun h => hpn (hcn p h))⟩
        · obtain ⟨i1, i2⟩ := ih (s := s1) (fun x hx => ho.length ▸ hps x (by simp [hx])) (List.nodup_cons.mp hnd).2 h
          refine ⟨fun p hp => List.mem_cons_of_mem _ (i1 p hp), fun p q hq => ?_⟩
          by_cases hpn : p = n
          · subst hpn
            rw [hq0] at hq; cases hq
            obtain ⟨q', hq', h1, -⟩ := i2 p q0' hq0'
            refine ⟨q', hq', fun h => absurd List.mem_cons_self h, fun _ => ?_⟩
            rw [h1 hn]
            exact heff.mono (fun h => hn (i1 p h))
          · obtain ⟨q', hq', h1, h2⟩ := i2 p q ((ho.others p hpn).trans hq)
            refine ⟨q', hq', fun h => h1 (fun h' => h (List.mem_cons_of_mem _ h')), fun h => ?_⟩
            rcases List.mem_cons.mp h with h | h
            · exact absurd h hpn
            · exact h2 h

/-- what a poll does to a peer -/
theorem poll_effect {now : Time} {r : PollRnd} {s s' : Server} {c : PollResult} (h : s.poll now r = some (c, s')) {p : Nat} {q : Peer}
    (hq : s.peers[p]? = some q) : ∃ q', s'.peers[p]? = some q' ∧ PollEffect now r.jit c p q q' := by
  unfold poll at h
  simp only [Option.map_eq_some_iff, Prod.mk.injEq] at h
  obtain ⟨⟨res, s1⟩, h1, rfl, rfl⟩ := h
  obtain ⟨t0, s0, e0, p0, -⟩ := poll_keys (now := now) (r := r) s
  rw [e0] at h1
  obtain ⟨hmem, hnd⟩ := peerPtrsOff_spec s s.pollOff
  obtain ⟨-, i2⟩ := pollPeers_effect _ (s := s0) (fun p hp => by rw [p0]; exact (hmem p).mp hp) hnd h1
  obtain ⟨q', hq', -, h2⟩ := i2 p q (p0 ▸ hq)
  exact ⟨q', hq', h2 ((hmem p).mpr (List.getElem?_eq_some_iff.mp hq).1)⟩

/-! ### Polling until there is nothing left to do -/

/-- The application polls at time `now` until it is told to sleep: `evs` are the events it gets, `s'` is
the state afterwards and `t` the time to sleep. `rs` supplies the randomness. -/
inductive PollRun (now : Time) : (Nat → PollRnd) → Server → List PollResult → Server → Time → Prop
  | sleep (rs s t s') : s.poll now (rs 0) = some (.sleep t, s') → PollRun now rs s [] s' t
  | event (rs s c s1 cs s' t) : c.saturated = true → s.poll now (rs 0) = some (c, s1) →
      PollRun now (fun n => rs (n + 1)) s1 cs s' t → PollRun now rs s (c :: cs) s' t

/-- **C18** (draining). Polling until `Sleep` reports exactly the events that are due, each once. -/
theorem poll_run_exact {now : Time} {rs : Nat → PollRnd} {s s' : Server} {evs : List PollResult} {t : Time} (h : PollRun now rs s evs s' t) :
    evs.Nodup ∧ (∀ e, e ∈ evs ↔ Due s now e) ∧ (∀ e, ¬ Due s' now e) := by
  induction h with
  | sleep rs s t s' hp =>
    obtain ⟨-, h2⟩ := poll_exact hp
    obtain ⟨h3, h4, -, h5, -⟩ := h2 t rfl
    have k : ∀ n t g : Int, g ≤ t → n ≤ n + t - g := by intros; omega
    exact ⟨List.nodup_nil, fun e => ⟨fun h => (nomatch h), fun h => absurd h (h3 e)⟩, h5 now (k _ _ _ h4)⟩
  | event rs s c s1 cs s' t hc hp _ ih =>
    obtain ⟨h1, -⟩ := poll_exact hp
    obtain ⟨h3, h4⟩ := h1 hc
    obtain ⟨i1, i2, i3⟩ := ih
    refine ⟨List.nodup_cons.mpr ⟨fun h => ((h4 c).mp ((i2 c).mp h)).2 rfl, i1⟩, fun e => ?_, i3⟩
    rw [List.mem_cons, i2 e, h4 e]
    constructor
    · rintro (rfl | h)
      · exact h3
      · exact h.1
    · intro h
      by_cases he : e = c
      · exact Or.inl he
      · exact Or.inr ⟨h, he⟩

/-- the events that could possibly be due -/
def allEvents (n : Nat) : List PollResult :=
  (List.range n).map .deleteKey ++ (List.range n).map .sendInitiation ++ (List.range n).map .sendRetransmission

theorem due_mem_allEvents {s : Server} {now : Time} {e : PollResult} (h : Due s now e) : e ∈ allEvents s.peers.length := by
  obtain ⟨p, q, hq, hd⟩ := h
  have hp : p < s.peers.length := (List.getElem?_eq_some_iff.mp hq).1
  unfold allEvents
  cases hd <;> simp [hp]

/-- **C18** (termination). Polling reaches `Sleep` after at most three events per peer. -/
theorem poll_run_terminates (L : C.Lawful) {s : Server} (hr : Reachable C s) (now : Time) (rs : Nat → PollRnd)
    (hrs : ∀ n, (Op.poll now (rs n)).WF C) : ∃ evs s' t, PollRun now rs s evs s' t ∧ evs.length ≤ 3 * s.peers.length := by
  have main : ∀ (n : Nat) (s : Server) (rs : Nat → PollRnd), Reachable C s → (∀ n, (Op.poll now (rs n)).WF C) →
      (∃ l : List PollResult, l.length = n ∧ ∀ e, Due s now e → e ∈ l) → ∃ evs s' t, PollRun now rs s evs s' t ∧ evs.length ≤ n := by
    intro n
    induction n with
    | zero =>
      rintro s rs hr hrs ⟨l, hl, hd⟩
      obtain ⟨⟨c, s'⟩, hp⟩ := Option.isSome_iff_exists.mp (poll_no_panic L hr now (rs 0))
      cases hc : c.saturated with
      | true =>
        have := hd c ((poll_exact hp).1 hc).1
        rw [List.length_eq_zero_iff.mp hl] at this
        cases this
      | false =>
        cases c with
        | sleep t => exact ⟨[], s', t, .sleep rs s t s' hp, Nat.le_refl _⟩
        | deleteKey p => cases hc
        | sendInitiation p => cases hc
        | sendRetransmission p => cases hc
    | succ n ih =>
      rintro s rs hr hrs ⟨l, hl, hd⟩
      obtain ⟨⟨c, s'⟩, hp⟩ := Option.isSome_iff_exists.mp (poll_no_panic L hr now (rs 0))
      cases hc : c.saturated with
      | true =>
        obtain ⟨h1, h2⟩ := (poll_exact hp).1 hc
        have hmem := hd c h1
        have hstep : s.step C (.poll now (rs 0)) = s' := by simp [step, hp]
        have hr' : Reachable C s' := hstep ▸ Reachable.step s _ hr (hrs 0)
        obtain ⟨evs, s2, t, hrun, hlen⟩ := ih s' (fun n => rs (n + 1)) hr' (fun n => hrs (n + 1))
          ⟨l.erase c, by rw [List.length_erase_of_mem hmem, hl]; rfl, fun e he => by
            obtain ⟨g1, g2⟩ := (h2 e).mp he
            exact (List.mem_erase_of_ne g2).mpr (hd e g1)⟩
        exact ⟨c :: evs, s2, t, .event rs s c s' evs s2 t hc hp hrun, by simpa using hlen⟩
      | false =>
        cases c with
        | sleep t => exact ⟨[], s', t, .sleep rs s t s' hp, Nat.zero_le _⟩
        | deleteKey p => cases hc
        | sendInitiation p => cases hc
        | sendRetransmission p => cases hc
  exact main _ s rs hr hrs ⟨allEvents s.peers.length, by simp [allEvents]; omega, fun e he => due_mem_allEvents he⟩

/-! ### C17 -/

theorem pollRun_session {now : Time} {rs : Nat → PollRnd} {s s' : Server} {evs : List PollResult} {t : Time} (h : PollRun now rs s evs s' t)
    {p : Nat} {q : Peer} (hq : s.peers[p]? = some q) :
    ∃ q', s'.peers[p]? = some q' ∧ Static q q' ∧ (q'.session = q.session ∨ q'.session = none ∧ .deleteKey p ∈ evs) := by
  induction h generalizing q with
  | sleep rs s t s' hp =>
    obtain ⟨q', hq', heff⟩ := poll_effect hp hq
    refine ⟨q', hq', heff.static.1, ?_⟩
    rcases heff.session with h | ⟨h, -⟩
    · exact Or.inl h
    · cases h
  | event rs s c s1 cs s' t hc hp _ ih =>
    obtain ⟨q1, hq1, heff⟩ := poll_effect hp hq
    obtain ⟨q', hq', hst, hses⟩ := ih hq1
    obtain ⟨a1, a2, a3, a4⟩ := heff.static.1
    obtain ⟨b1, b2, b3, b4⟩ := hst
    refine ⟨q', hq', ⟨b1.trans a1, b2.trans a2, b3.trans a3, b4.trans a4⟩, ?_⟩
    rcases heff.session with h | ⟨h, h'⟩
    · rcases hses with h2 | ⟨h2, h3⟩
      · exact Or.inl (h2.trans h)
      · exact Or.inr ⟨h2, List.mem_cons_of_mem _ h3⟩
    · right
      refine ⟨?_, h ▸ List.mem_cons_self⟩
      rcases hses with h2 | ⟨h2, -⟩
      · rw [h2, h']
      · exact h2

theorem osk_of_session {s : Server} {p : Nat} {q : Peer} (hq : s.peers[p]? = some q) :
    (∃ k, s.osk C p = .ok k) ↔ ∃ x, q.session = some x := by
  unfold osk oskWith
  simp only [hq]
  cases q.session with
  | none => simp
  | some x => simp

/-- **C17.** A session created at time `x.createdAt` is usable exactly until it is 180 s old: after the
application has polled at time `now` until told to sleep, `osk` still gives the same key if the session
is younger (up to the clock granularity), and fails if it is older. `DeleteKey` is reported for the peer
exactly in the latter case. A new exchange is requested exactly when the session is 130 s (initiator) or
120 s (responder) old, no handshake younger than 180 s is in progress, and no request is outstanding. -/
theorem session_lifecycle {now : Time} {rs : Nat → PollRnd} {s s' : Server} {evs : List PollResult} {t : Time} (h : PollRun now rs s evs s' t)
    {p : Nat} {q : Peer} (hq : s.peers[p]? = some q) {x : Session} (hx : q.session = some x) :
    (PollResult.deleteKey p ∈ evs ↔ x.createdAt + secs 180 < now + eventGrace) ∧
    ((∃ k, s'.osk C p = .ok k) ↔ now + eventGrace ≤ x.createdAt + secs 180) ∧
    (now + eventGrace ≤ x.createdAt + secs 180 → s'.osk C p = s.osk C p) ∧
    (PollResult.sendInitiation p ∈ evs ↔ q.initReq = false ∧
      x.createdAt + (match x.role with | .initiator => secs 130 | .responder => secs 120) < now + eventGrace ∧
      (∀ hs, q.handshake = some hs → hs.createdAt + secs 180 < now + eventGrace)) := by
  obtain ⟨-, hev, hnd⟩ := poll_run_exact h
  obtain ⟨q', hq', hst, hses⟩ := pollRun_session h hq
  have a : ∀ x y : Int, ¬ x < y ↔ y ≤ x := by intros; omega
  have hdel : PollResult.deleteKey p ∈ evs ↔ x.createdAt + secs 180 < now + eventGrace := by
    rw [hev]
    constructor
    · rintro ⟨p', q1, hq1, hd⟩
      cases hd with
      | deleteKey y hy hlt =>
        rw [hq] at hq1; cases hq1
        rw [hx] at hy; cases hy
        exact hlt
    · exact fun hlt => ⟨p, q, hq, .deleteKey x hx hlt⟩
  have hrk : rekeyTime x = x.createdAt + (match x.role with | .initiator => secs 130 | .responder => secs 120) := by
    unfold rekeyTime; cases x.role <;> rfl
  have hkeep : now + eventGrace ≤ x.createdAt + secs 180 → q'.session = q.session := by
    intro hle
    rcases hses with h | ⟨-, h⟩
    · exact h
    · exact absurd (hdel.mp h) ((a _ _).mpr hle)
  refine ⟨hdel, ?_, ?_, ?_⟩
  · rw [osk_of_session hq']
    constructor
    · rintro ⟨y, hy⟩
      refine (a _ _).mp fun hlt => ?_
      rcases hses with h | ⟨h, -⟩
      · exact hnd _ ⟨p, q', hq', .deleteKey x (h.trans hx) hlt⟩
      · rw [h] at hy; cases hy
    · intro hle
      exact ⟨x, (hkeep hle).trans hx⟩
  · intro hle
    have h1 := hkeep hle
    unfold osk oskWith
    simp only [hq, hq', h1, hst.2.2.1, hst.2.2.2]
  · rw [hev, ← hrk]
    constructor
    · rintro ⟨p', q1, hq1, hd⟩
      cases hd with
      | sendInitiation hi h1 h2 =>
        rw [hq] at hq1; cases hq1
        exact ⟨hi, h1 x hx, h2⟩
    · rintro ⟨hi, h1, h2⟩
      exact ⟨p, q, hq, .sendInitiation hi (fun y hy => by rw [hx] at hy; cases hy; exact h1) h2⟩

/-- **C17** (creation). The session of a reported exchange is created at the time of the call, as initiator if
the message was a RespHello, as responder if it was an InitConf; `osk` succeeds for it. -/
theorem exchange_session {s : Server} (o : Op) (rx : Bytes) (hrx : o.received = some rx) (now : Time) (ht : o.time = some now)
    (p : Nat) (m : Option Bytes) (hok : o.result C s = .ok ⟨some p, m⟩) :
    ∃ q x, (s.step C o).peers[p]? = some q ∧ q.session = some x ∧ x.createdAt = now ∧
      (x.role = .initiator ∧ rx.head? = some 0x82 ∨ x.role = .responder ∧ rx.head? = some 0x83) ∧ ∃ k, (s.step C o).osk C p = .ok k := by
  have direct : ∀ (s : Server) (tx : Bytes) (r : HashChoice → Rnd) (s' : Server), s.handleMsg C rx tx now r = (.ok ⟨some p, m⟩, s') →
      ∃ q x, s'.peers[p]? = some q ∧ q.session = some x ∧ x.createdAt = now ∧
      (x.role = .initiator ∧ rx.head? = some 0x82 ∨ x.role = .responder ∧ rx.head? = some 0x83) ∧ ∃ k, s'.osk C p = .ok k := by
    intro s tx r s' h
    rcases handleMsg_exchanged h with ⟨e, out, c, ic, peer, hs, bs, hrx', -, -, -, R⟩ | ⟨e, out, h', s0, no, c, peer, bs, hrx', -, -, -, -, -, -, R⟩
    · have hh : rx.head? = some 0x82 := by rw [hrx']; rfl
      rcases R.result with ⟨h1, -⟩ | ⟨h1, -⟩ | ⟨h1, -⟩
      · cases h1
      · cases h1
      · cases h1
        have hg : ∀ f, ((s.accepted p (c.enterLive C now .initiator peer.version.hash)).modHs p f).peers[p]?.map (·.session) =
            some (some (c.enterLive C now .initiator peer.version.hash)) := by
          intro f
          rw [modHs_get, if_pos rfl, accepted_get, if_pos rfl, R.hpeer]; rfl
        simp only [Option.map_eq_some_iff] at hg
        obtain ⟨q, hq, hqs⟩ := hg _
        exact ⟨q, _, hq, hqs, rfl, Or.inl ⟨rfl, hh⟩, (osk_of_session hq).mpr ⟨_, hqs⟩⟩
    · have hh : rx.head? = some 0x83 := by rw [hrx']; rfl
      rcases R.result with ⟨⟨x, -, h1⟩, -⟩ | ⟨h1, -⟩ | ⟨h1, -⟩ | ⟨h1, -⟩ | ⟨s2, h1, hk, -⟩
      · cases h1
      · cases h1
      · cases h1
      · cases h1
      · cases h1
        have hg := knownInsert_upd hk p
        rw [if_pos rfl, confirmed_get, if_pos rfl, R.hpeer] at hg
        exact ⟨_, _, hg, rfl, rfl, Or.inr ⟨rfl, hh⟩, (osk_of_session hg).mpr ⟨_, rfl⟩⟩
  cases o with
  | addPeer psk pk v osk => cases hrx
  | initiate p now r tx => cases hrx
  | poll now r => cases hrx
  | retransmit p tx => cases hrx
  | handleMsg rx tx now r =>
    cases hrx; cases ht
    exact direct s tx r _ (Prod.ext hok rfl)
  | handleMsgUnderLoad rx tx host now r =>
    cases hrx; cases ht
    have hok' : (s.handleMsgUnderLoad C rx tx host now r).1 = .ok ⟨some p, m⟩ := hok
    show ∃ q x, (s.handleMsgUnderLoad C rx tx host now r).2.peers[p]? = some q ∧ q.session = some x ∧ x.createdAt = now ∧
      (x.role = .initiator ∧ rx.head? = some 0x82 ∨ x.role = .responder ∧ rx.head? = some 0x83) ∧ ∃ k, (s.handleMsgUnderLoad C rx tx host now r).2.osk C p = .ok k
    rcases underLoad_cases C s rx tx host now r with ⟨x, -, hx, -⟩ | ⟨-, hx⟩ | ⟨h81, i, ids, s1, -, hs1, ⟨-, hx⟩ |
      ⟨e, -, ⟨-, hx⟩ | ⟨-, ⟨-, hx⟩ | ⟨-, hx⟩⟩⟩⟩
    · rw [hx] at hok'; cases hok'
    · rw [hx] at hok' ⊢
      exact direct s tx r _ (Prod.ext hok' rfl)
    · rw [hx] at hok'; cases hok'
    · rw [hx] at hok' ⊢
      exact direct s1 tx r _ (Prod.ext hok' rfl)
    · rw [hx] at hok'; cases hok'
    · rw [hx] at hok'; cases hok'

end
end Verif
