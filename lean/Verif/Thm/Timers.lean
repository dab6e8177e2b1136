import Verif.Thm.Biscuits
import Mathlib.Data.List.Nodup
import Mathlib.Data.Nat.ModEq
/-
C17, C18: what `poll` reports, and when.

Specification: `Due s now e` says that the event `e` is due at time `now`; `Timer s d` that some timer
of the server runs out at time `d`. Neither refers to the polling machinery. An event counts as due
when its time is at most the clock granularity (`EVENT_GRACE`, 2.5 ms) away.
-/
namespace Verif
open HashDomain Server

/-- when the owner of a session should start a new exchange -/
def rekeyTime (x : Session) : Time :=
  match x.role with
  | .initiator => x.createdAt + secs 130
  | .responder => x.createdAt + secs 120

/-- **Specification**: the events that are due for a peer. -/
inductive PeerDue (q : Peer) (now : Time) (p : Nat) : PollResult → Prop
  /-- the session is 180 s old -/
  | deleteKey (x : Session) : q.session = some x → x.createdAt + secs 180 < now + eventGrace → PeerDue q now p (.deleteKey p)
  /-- the session (if any) should be renewed, no handshake younger than 180 s is in progress, and the
  application was not asked already -/
  | sendInitiation : q.initReq = false → (∀ x, q.session = some x → rekeyTime x < now + eventGrace) →
      (∀ h, q.handshake = some h → h.createdAt + secs 180 < now + eventGrace) → PeerDue q now p (.sendInitiation p)
  /-- a handshake younger than 180 s is in progress and its retransmission timer ran out -/
  | sendRetransmission (h : IniHs) : q.handshake = some h → now + eventGrace ≤ h.createdAt + secs 180 →
      h.txRetryAt < now + eventGrace → PeerDue q now p (.sendRetransmission p)

/-- **Specification**: event `e` is due at time `now`. -/
def Due (s : Server) (now : Time) (e : PollResult) : Prop := ∃ p q, s.peers[p]? = some q ∧ PeerDue q now p e

/-- **Specification**: a timer of a peer runs out at time `d`. -/
inductive PeerTimer (q : Peer) : Time → Prop
  | handshake (h : IniHs) : q.handshake = some h → PeerTimer q (h.createdAt + secs 180)
  | session (x : Session) : q.session = some x → PeerTimer q (x.createdAt + secs 180)
  | retry (h : IniHs) : q.handshake = some h → PeerTimer q h.txRetryAt
  | known (k : Known) : q.known = some k → 0 ≤ k.receivedAt → PeerTimer q (k.receivedAt + secs 120)
  /-- renewal of the session, which waits for the handshake in progress -/
  | rekey (d : Time) : q.initReq = false → (∀ x, q.session = some x → rekeyTime x ≤ d) →
      (∀ h, q.handshake = some h → h.createdAt + secs 180 ≤ d) →
      ((∃ x, q.session = some x ∧ d = rekeyTime x) ∨ ∃ h, q.handshake = some h ∧ d = h.createdAt + secs 180) → PeerTimer q d

/-- **Specification**: a timer of the server runs out at time `d`. -/
inductive Timer (s : Server) : Time → Prop
  | peer (p : Nat) (q : Peer) (d : Time) : s.peers[p]? = some q → PeerTimer q d → Timer s d
  | biscuit (i : Bool) : 0 ≤ (s.biscuitKeys.get i).createdAt → Timer s ((s.biscuitKeys.get i).createdAt + secs 600)
  | cookie (i : Bool) : 0 ≤ (s.cookieSecrets.get i).createdAt → Timer s ((s.cookieSecrets.get i).createdAt + secs 240)

section
variable {now : Time} {r : PollRnd}

/-! ### Evaluation of the polling combinators -/

theorem sched_event {acc : PollResult} (h : acc.saturated = true) (s : Server) (w : Server → Time) (act : Server → PollSt) :
    sched (some (acc, s)) w act = some (acc, s) := by
  unfold sched
  exact if_pos h

theorem pollChild_event {acc : PollResult} (h : acc.saturated = true) (s : Server) (f : Server → PollSt) :
    pollChild (some (acc, s)) f = some (acc, s) := by
  unfold pollChild
  exact if_pos h

theorem pollChildren_event {acc : PollResult} (h : acc.saturated = true) (s : Server) (fs : List (Server → PollSt)) :
    pollChildren fs (some (acc, s)) = some (acc, s) := by
  cases fs with
  | nil => rfl
  | cons f fs => rw [pollChildren]; exact if_pos h

/-- the wait of the five timers of a peer -/
def hsWait (q : Peer) (now : Time) : Time := waitOrHibernate ((IniHs.mortal q.handshake).lifeLeft now)
def sesWait (q : Peer) (now : Time) : Time := waitOrHibernate ((Session.mortal q.session).lifeLeft now)
def iniWait (q : Peer) (now : Time) : Time :=
  waitAnd (waitAnd (waitImmediateUnless q.initReq) (waitOrImmediate ((Session.mortal q.session).youthLeft now)))
    (waitOrImmediate ((IniHs.mortal q.handshake).youthLeft now))
def retryWait (q : Peer) (now : Time) : Time := waitOrHibernate (q.handshake.map (fun h => h.txRetryAt - now))
def knownWait (q : Peer) (now : Time) : Time := waitOrHibernate ((Known.mortal q.known).lifeLeft now)

/-- what polling one peer leaves alone -/
structure OnlyPeer (p : Nat) (s s' : Server) : Prop where
  others : ∀ i : Nat, i ≠ p → s'.peers[i]? = s.peers[i]?
  length : s'.peers.length = s.peers.length
  biscuitKeys : s'.biscuitKeys = s.biscuitKeys
  cookieSecrets : s'.cookieSecrets = s.cookieSecrets

theorem OnlyPeer.refl (p : Nat) (s : Server) : OnlyPeer p s s := ⟨fun _ _ => rfl, rfl, rfl, rfl⟩
theorem OnlyPeer.trans {p : Nat} {a b c : Server} (h : OnlyPeer p a b) (g : OnlyPeer p b c) : OnlyPeer p a c :=
  ⟨fun i hi => (g.others i hi).trans (h.others i hi), g.length.trans h.length, g.biscuitKeys.trans h.biscuitKeys,
   g.cookieSecrets.trans h.cookieSecrets⟩

theorem OnlyPeer.modPeer (p : Nat) (s : Server) (f : Peer → Peer) : OnlyPeer p s (s.modPeer p f) :=
  ⟨fun _ hi => modPeer_get_ne s f hi, modPeer_length s p f, rfl, rfl⟩
theorem OnlyPeer.hsTake (p : Nat) (s : Server) : OnlyPeer p s (s.hsTake p) :=
  ⟨fun i hi => by rw [hsTake_get, if_neg hi], hsTake_length s p, (hsTake_globals s p).biscuitKeys, (hsTake_globals s p).cookieSecrets⟩
theorem OnlyPeer.sessTake (p : Nat) (s : Server) : OnlyPeer p s (s.sessTake p) :=
  ⟨fun i hi => by rw [sessTake_get, if_neg hi], sessTake_length s p, (sessTake_globals s p).biscuitKeys, (sessTake_globals s p).cookieSecrets⟩

theorem knownRemove_some {s s' : Server} {p : Nat} {q : Peer} (hp : s.peers[p]? = some q) (h : s.knownRemove p = some s') :
    OnlyPeer p s s' ∧ s'.peers[p]? = some { q with known := none } := by
  unfold knownRemove at h
  cases hk : s.known p with
  | none =>
    rw [hk] at h
    cases h
    refine ⟨OnlyPeer.refl _ _, ?_⟩
    have : q.known = none := by
      simpa [known, hp] using hk
    rw [hp]; cases q; simp_all
  | some v =>
    rw [hk] at h
    simp only at h
    split at h
    · cases h
    · cases h
      refine ⟨⟨fun _ hi => modPeer_get_ne s _ hi, modPeer_length s p _, rfl, rfl⟩, ?_⟩
      show (s.modPeer p _).peers[p]? = _
      rw [modPeer_get_self, hp]; rfl

/-- the handshake that survives a poll -/
def keptHs (now : Time) (q : Peer) : Option IniHs :=
  if hasHappened (hsWait q now) 0 then none else q.handshake

/-- outcome of polling one peer -/
theorem pollPeer_cases {p : Nat} {s s' : Server} {c : PollResult} {q : Peer} (hp : s.peers[p]? = some q)
    (h : pollPeer now r p s = some (c, s')) :
    OnlyPeer p s s' ∧
    ((c = .deleteKey p ∧ hasHappened (sesWait q now) 0 = true ∧
        s'.peers[p]? = some { q with handshake := keptHs now q, session := none }) ∨
     (c = .sendInitiation p ∧ hasHappened (sesWait q now) 0 = false ∧
        hasHappened (iniWait { q with handshake := keptHs now q } now) 0 = true ∧
        s'.peers[p]? = some { q with handshake := keptHs now q, initReq := true }) ∨
     (c = .sendRetransmission p ∧ hasHappened (retryWait { q with handshake := keptHs now q } now) 0 = true ∧
        s'.peers[p]? = some { q with handshake := (keptHs now q).map (regRetransmit now r.jit) }) ∨
     (∃ q' t, c = .sleep t ∧ s'.peers[p]? = some q' ∧ q'.session = q.session ∧ q'.initReq = q.initReq ∧ q'.handshake = keptHs now q ∧
        (q'.known = q.known ∨ q'.known = none ∧ hasHappened (knownWait q now) 0 = true) ∧
        hasHappened (sesWait q' now) 0 = false ∧ hasHappened (hsWait q' now) 0 = false ∧ hasHappened (iniWait q' now) 0 = false ∧
        hasHappened (retryWait q' now) 0 = false ∧ hasHappened (knownWait q' now) 0 = false ∧
        t = min (min (min (min (min unending (hsWait q' now)) (sesWait q' now)) (iniWait q' now)) (min unending (retryWait q' now)))
              (min unending (knownWait q' now)))) := by
  unfold pollPeer PollResult.hibernate at h
  simp only at h
  have hh : ∀ (a : Server) (x : Peer), a.peers[p]? = some x → a.handshake p = x.handshake := by
    intro a x hx; simp [handshake, hx]
  have hs : ∀ (a : Server) (x : Peer), a.peers[p]? = some x → a.session p = x.session := by
    intro a x hx; simp [session, hx]
  have hkn : ∀ (a : Server) (x : Peer), a.peers[p]? = some x → a.known p = x.known := by
    intro a x hx; simp [known, hx]
  have hini : ∀ (a : Server) (x : Peer), a.peers[p]? = some x → a.initiationWait p now = iniWait x now := by
    intro a x hx; simp [initiationWait, iniWait, hx, hh a x hx, hs a x hx]
  -- the handshake
  obtain ⟨s1, h1, ho1, hq1⟩ : ∃ s1, sched (some (.sleep unending, s)) (fun s => waitOrHibernate ((IniHs.mortal (s.handshake p)).lifeLeft now))
      (fun s => some (.sleep unending, s.hsTake p)) = some (.sleep (min unending (hsWait { q with handshake := keptHs now q } now)), s1) ∧
      OnlyPeer p s s1 ∧ s1.peers[p]? = some { q with handshake := keptHs now q } := by
    rw [sched_sleep]
    simp only [hh s q hp]
    by_cases hw : hasHappened (hsWait q now) 0 = true
    · refine ⟨s.hsTake p, ?_, OnlyPeer.hsTake p s, ?_⟩
      · unfold hsWait at hw ⊢
        rw [if_pos hw]
        have : keptHs now q = none := by unfold keptHs hsWait; rw [if_pos hw]
        rw [this]
        rfl
      · rw [hsTake_get, if_pos rfl, hp]
        have : keptHs now q = none := by unfold keptHs; rw [if_pos hw]
        rw [this]; rfl
    · have hk : keptHs now q = q.handshake := by unfold keptHs; rw [if_neg hw]
      refine ⟨s, ?_, OnlyPeer.refl _ _, ?_⟩
      · rw [hk]
        unfold hsWait at hw ⊢
        rw [if_neg hw]
      · rw [hk]; exact hp
  rw [h1] at h
  have hkw : hasHappened (hsWait { q with handshake := keptHs now q } now) 0 = false := by
    unfold keptHs
    by_cases hw : hasHappened (hsWait q now) 0 = true
    · rw [if_pos hw]; rfl
    · rw [if_neg hw]; simpa using hw
  -- the session
  rw [sched_sleep] at h
  simp only [hs s1 _ hq1] at h
  by_cases hw2 : hasHappened (sesWait q now) 0 = true
  · have hw2' := hw2
    unfold sesWait at hw2'
    rw [if_pos hw2'] at h
    simp only [PollResult.fold, Option.map_some] at h
    rw [sched_event rfl, pollChild_event rfl, pollChild_event rfl] at h
    cases h
    refine ⟨ho1.trans (OnlyPeer.sessTake p s1), Or.inl ⟨rfl, hw2, ?_⟩⟩
    rw [sessTake_get, if_pos rfl, hq1]; rfl
  have hw2' := hw2
  unfold sesWait at hw2'
  rw [if_neg hw2', sched_sleep] at h
  simp only [hini s1 _ hq1] at h
  by_cases hw3 : hasHappened (iniWait { q with handshake := keptHs now q } now) 0 = true
  · rw [if_pos hw3] at h
    simp only [PollResult.fold, Option.map_some] at h
    rw [pollChild_event rfl, pollChild_event rfl] at h
    cases h
    refine ⟨ho1.trans (OnlyPeer.modPeer p s1 _), Or.inr (Or.inl ⟨rfl, eq_false_of_ne_true hw2, hw3, ?_⟩)⟩
    rw [modPeer_get_self, hq1]; rfl
  rw [if_neg hw3, pollChild_sleep] at h
  unfold pollHs PollResult.hibernate at h
  rw [sched_sleep] at h
  simp only [hh s1 _ hq1] at h
  by_cases hw4 : hasHappened (retryWait { q with handshake := keptHs now q } now) 0 = true
  · have hw4' := hw4
    unfold retryWait at hw4'
    rw [if_pos hw4'] at h
    simp only [PollResult.fold, Option.map_some] at h
    rw [pollChild_event rfl] at h
    cases h
    refine ⟨ho1.trans (OnlyPeer.modPeer p s1 _), Or.inr (Or.inr (Or.inl ⟨rfl, hw4, ?_⟩))⟩
    unfold modHs
    rw [modPeer_get_self, hq1]; rfl
  have hw4' := hw4
  unfold retryWait at hw4'
  rw [if_neg hw4'] at h
  simp only [PollResult.fold, Option.map_some] at h
  rw [pollChild_sleep] at h
  unfold pollKnown PollResult.hibernate at h
  rw [sched_sleep] at h
  simp only [hkn s1 _ hq1] at h
  by_cases hw5 : hasHappened (knownWait q now) 0 = true
  · have hw5' := hw5
    unfold knownWait at hw5'
    rw [if_pos hw5'] at h
    cases hk : s1.knownRemove p with
    | none => rw [hk] at h; cases h
    | some s2 =>
      rw [hk] at h
      simp only [Option.map_some, PollResult.fold] at h
      cases h
      obtain ⟨ho2, hq2⟩ := knownRemove_some hq1 hk
      refine ⟨ho1.trans ho2, Or.inr (Or.inr (Or.inr ⟨_, _, rfl, hq2, rfl, rfl, rfl, Or.inr ⟨rfl, hw5⟩, eq_false_of_ne_true hw2, hkw, eq_false_of_ne_true hw3, eq_false_of_ne_true hw4, ?_, rfl⟩))⟩
      rfl
  · have hw5' := hw5
    unfold knownWait at hw5'
    rw [if_neg hw5'] at h
    simp only [Option.map_some, PollResult.fold] at h
    cases h
    exact ⟨ho1, Or.inr (Or.inr (Or.inr ⟨_, _, rfl, hq1, rfl, rfl, rfl, Or.inl rfl, eq_false_of_ne_true hw2, hkw, eq_false_of_ne_true hw3, eq_false_of_ne_true hw4, eq_false_of_ne_true hw5, rfl⟩))⟩

/-! ### The waits in terms of the specification -/

theorem happened_hibernate {o : Option Time} : hasHappened (waitOrHibernate o) 0 = true ↔ ∃ u, o = some u ∧ u < eventGrace := by
  constructor
  · exact waitOrHibernate_happened
  · rintro ⟨u, rfl, h⟩
    have a : ∀ u g : Int, u < g → u - 0 < g := by intros; omega
    simpa [waitOrHibernate, hasHappened] using h

theorem sub_lt_grace {d now : Time} : d - now < eventGrace ↔ d < now + eventGrace := by
  have a : ∀ d n g : Int, d - n < g ↔ d < n + g := by intros; omega
  exact a _ _ _

theorem sesWait_happened {q : Peer} : hasHappened (sesWait q now) 0 = true ↔ ∃ x, q.session = some x ∧ x.createdAt + secs 180 < now + eventGrace := by
  unfold sesWait
  rw [happened_hibernate]
  simp only [Mortal.lifeLeft, Session.mortal, Option.map_map, Option.map_eq_some_iff, Function.comp_apply]
  constructor
  · rintro ⟨u, ⟨x, hx, rfl⟩, h⟩; exact ⟨x, hx, sub_lt_grace.mp h⟩
  · rintro ⟨x, hx, h⟩; exact ⟨_, ⟨x, hx, rfl⟩, sub_lt_grace.mpr h⟩

theorem hsWait_happened {q : Peer} : hasHappened (hsWait q now) 0 = true ↔ ∃ x, q.handshake = some x ∧ x.createdAt + secs 180 < now + eventGrace := by
  unfold hsWait
  rw [happened_hibernate]
  simp only [Mortal.lifeLeft, IniHs.mortal, Option.map_map, Option.map_eq_some_iff, Function.comp_apply]
  constructor
  · rintro ⟨u, ⟨x, hx, rfl⟩, h⟩; exact ⟨x, hx, sub_lt_grace.mp h⟩
  · rintro ⟨x, hx, h⟩; exact ⟨_, ⟨x, hx, rfl⟩, sub_lt_grace.mpr h⟩

theorem retryWait_happened {q : Peer} : hasHappened (retryWait q now) 0 = true ↔ ∃ x, q.handshake = some x ∧ x.txRetryAt < now + eventGrace := by
  unfold retryWait
  rw [happened_hibernate]
  simp only [Option.map_eq_some_iff]
  constructor
  · rintro ⟨u, ⟨x, hx, rfl⟩, h⟩; exact ⟨x, hx, sub_lt_grace.mp h⟩
  · rintro ⟨x, hx, h⟩; exact ⟨_, ⟨x, hx, rfl⟩, sub_lt_grace.mpr h⟩

theorem waitAnd_lt (a b g : Time) : waitAnd a b < g ↔ a < g ∧ b < g := by
  unfold waitAnd
  have k1 : ∀ a b g : Int, a > b → (a < g ↔ a < g ∧ b < g) := by intros; omega
  have k2 : ∀ a b g : Int, ¬ a > b → (b < g ↔ a < g ∧ b < g) := by intros; omega
  split
  · rename_i h; exact k1 _ _ _ h
  · rename_i h; exact k2 _ _ _ h

theorem youth_lt {α : Type} (o : Option α) (f : α → Time) :
    waitOrImmediate ((o.map f).map (· - now)) < eventGrace ↔ ∀ x, o = some x → f x < now + eventGrace := by
  cases o with
  | none =>
    simp only [Option.map_none, waitOrImmediate, Option.getD_none]
    exact Iff.intro (fun _ x hx => nomatch hx) (fun _ => by decide)
  | some x =>
    simp only [Option.map_some, waitOrImmediate, Option.getD_some, Option.some.injEq, forall_eq']
    exact sub_lt_grace

theorem rekeyTime_eq (x : Session) : x.createdAt + rekeyAfter x.role = rekeyTime x := by
  unfold rekeyTime rekeyAfter
  cases x.role <;> rfl

theorem iniWait_happened {q : Peer} : hasHappened (iniWait q now) 0 = true ↔
    q.initReq = false ∧ (∀ x, q.session = some x → rekeyTime x < now + eventGrace) ∧
    (∀ h, q.handshake = some h → h.createdAt + secs 180 < now + eventGrace) := by
  unfold iniWait
  have h0 : ∀ w : Time, hasHappened w 0 = true ↔ w < eventGrace := by
    intro w
    have a : ∀ u g : Int, u - 0 < g ↔ u < g := by intros; omega
    unfold hasHappened
    rw [decide_eq_true_eq]
    exact a _ _
  rw [h0, waitAnd_lt, waitAnd_lt]
  have h1 : waitImmediateUnless q.initReq < eventGrace ↔ q.initReq = false := by
    cases q.initReq <;> decide
  rw [h1, and_assoc]
  simp only [Mortal.youthLeft, Session.mortal, IniHs.mortal]
  rw [youth_lt, youth_lt]
  simp only [rekeyTime_eq]
  rfl

theorem keptHs_some {q : Peer} {h : IniHs} : keptHs now q = some h ↔ q.handshake = some h ∧ now + eventGrace ≤ h.createdAt + secs 180 := by
  have a : ∀ x y : Int, ¬ x < y ↔ y ≤ x := by intros; omega
  unfold keptHs
  by_cases hw : hasHappened (hsWait q now) 0 = true
  · rw [if_pos hw]
    obtain ⟨x, hx, hlt⟩ := hsWait_happened.mp hw
    constructor
    · intro h'; cases h'
    · rintro ⟨hh, hle⟩
      rw [hx] at hh; cases hh
      exact absurd hlt ((a _ _).mpr hle)
  · rw [if_neg hw]
    constructor
    · intro hh
      refine ⟨hh, (a _ _).mp fun hlt => hw (hsWait_happened.mpr ⟨h, hh, hlt⟩)⟩
    · exact fun h' => h'.1

/-- the events due for a peer do not depend on expired handshakes -/
theorem peerDue_congr {q q' : Peer} {p : Nat} {e : PollResult} (h1 : q'.session = q.session) (h2 : q'.initReq = q.initReq)
    (h3 : q'.handshake = keptHs now q) : PeerDue q' now p e ↔ PeerDue q now p e := by
  have a : ∀ x y : Int, ¬ x < y → y ≤ x := by intros; omega
  have b : ∀ x y : Int, y ≤ x → ¬ x < y := by intros; omega
  constructor
  · intro h
    cases h with
    | deleteKey x hx hlt => exact .deleteKey x (h1 ▸ hx) hlt
    | sendInitiation hi hses hhs =>
      refine .sendInitiation (h2 ▸ hi) (fun x hx => hses x (h1.trans hx)) (fun h hh => ?_)
      exact Classical.byContradiction fun hn => hn (hhs h (h3.trans (keptHs_some.mpr ⟨hh, a _ _ hn⟩)))
    | sendRetransmission h hh hle hlt =>
      exact .sendRetransmission h (keptHs_some.mp (h3.symm.trans hh)).1 hle hlt
  · intro h
    cases h with
    | deleteKey x hx hlt => exact .deleteKey x (h1.trans hx) hlt
    | sendInitiation hi hses hhs =>
      refine .sendInitiation (h2.trans hi) (fun x hx => hses x (h1 ▸ hx)) (fun h hh => ?_)
      exact hhs h (keptHs_some.mp (h3.symm.trans hh)).1
    | sendRetransmission h hh hle hlt =>
      exact .sendRetransmission h (h3.trans (keptHs_some.mpr ⟨hh, hle⟩)) hle hlt

/-- the event reported for a peer was due, and is the only one that is not due any more -/
theorem pollPeer_due {p : Nat} {s s' : Server} {c : PollResult} {q : Peer} (hp : s.peers[p]? = some q)
    (h : pollPeer now r p s = some (c, s')) (hc : c.saturated = true) :
    ∃ q', s'.peers[p]? = some q' ∧ PeerDue q now p c ∧ ∀ e, PeerDue q' now p e ↔ PeerDue q now p e ∧ e ≠ c := by
  obtain ⟨-, hcase⟩ := pollPeer_cases hp h
  have b : ∀ x y : Int, y ≤ x → ¬ x < y := by intros; omega
  rcases hcase with ⟨rfl, hw, hq⟩ | ⟨rfl, hns, hw, hq⟩ | ⟨rfl, hw, hq⟩ | ⟨q', t, rfl, -⟩
  · obtain ⟨x, hx, hlt⟩ := sesWait_happened.mp hw
    refine ⟨_, hq, .deleteKey x hx hlt, fun e => ?_⟩
    rw [← peerDue_congr (q := q) (q' := { q with handshake := keptHs now q }) rfl rfl rfl]
    constructor
    · intro hd
      cases hd with
      | deleteKey x hx => cases hx
      | sendInitiation hi hses hhs =>
        refine ⟨.sendInitiation hi (fun y hy => ?_) hhs, by intro h; cases h⟩
        have hxy : x = y := by
          have : q.session = some y := hy
          rw [hx] at this; exact Option.some.inj this
        subst hxy
        have k : ∀ a g n t u : Int, u ≤ t → a + t < n + g → a + u < n + g := by intros; omega
        unfold rekeyTime
        cases x.role
        · exact k _ _ _ _ _ (by decide) hlt
        · exact k _ _ _ _ _ (by decide) hlt
      | sendRetransmission h hh hle hlt => exact ⟨.sendRetransmission h hh hle hlt, by intro h; cases h⟩
    · rintro ⟨hd, hne⟩
      cases hd with
      | deleteKey x hx => exact absurd rfl hne
      | sendInitiation hi hses hhs => exact .sendInitiation hi (fun y hy => by cases hy) hhs
      | sendRetransmission h hh hle hlt => exact .sendRetransmission h hh hle hlt
  · obtain ⟨hi, h2, h3⟩ := iniWait_happened.mp hw
    have hd0 : PeerDue { q with handshake := keptHs now q } now p (.sendInitiation p) := .sendInitiation hi h2 h3
    refine ⟨_, hq, (peerDue_congr (q := q) (q' := { q with handshake := keptHs now q }) rfl rfl rfl).mp hd0, fun e => ?_⟩
    rw [← peerDue_congr (q := q) (q' := { q with handshake := keptHs now q }) rfl rfl rfl]
    constructor
    · intro hd
      cases hd with
      | deleteKey x hx hlt => exact ⟨.deleteKey x hx hlt, by intro h; cases h⟩
      | sendInitiation hi => cases hi
      | sendRetransmission h hh hle hlt => exact ⟨.sendRetransmission h hh hle hlt, by intro h; cases h⟩
    · rintro ⟨hd, hne⟩
      cases hd with
      | deleteKey x hx hlt => exact .deleteKey x hx hlt
      | sendInitiation => exact absurd rfl hne
      | sendRetransmission h hh hle hlt => exact .sendRetransmission h hh hle hlt
  · obtain ⟨hs, hhs, hlt⟩ := retryWait_happened.mp hw
    have hhs' : keptHs now q = some hs := hhs
    have hle := (keptHs_some.mp hhs').2
    have hd0 : PeerDue { q with handshake := keptHs now q } now p (.sendRetransmission p) := .sendRetransmission hs hhs hle hlt
    refine ⟨_, hq, (peerDue_congr (q := q) (q' := { q with handshake := keptHs now q }) rfl rfl rfl).mp hd0, fun e => ?_⟩
    rw [← peerDue_congr (q := q) (q' := { q with handshake := keptHs now q }) rfl rfl rfl, hhs']
    constructor
    · intro hd
      cases hd with
      | deleteKey x hx hlt => exact ⟨.deleteKey x hx hlt, by intro h; cases h⟩
      | sendInitiation hi h2 h3 =>
        refine ⟨.sendInitiation hi h2 (fun h hh => ?_), by intro h; cases h⟩
        cases hh
        exact h3 (regRetransmit now r.jit hs) rfl
      | sendRetransmission h hh hle2 hlt2 =>
        exfalso
        cases hh
        have k : ∀ (n : Int) (d : Nat), 2500 ≤ d → ¬ (n + (d : Int) < n + 25) := by intros; omega
        have hd : 2500 ≤ retransmitDelay hs.txCount r.jit := by
          unfold retransmitDelay
          have : 2500 ≤ retransmitBase hs.txCount / 2 := by
            unfold retransmitBase
            split
            · have : 1 ≤ 2 ^ hs.txCount := Nat.one_le_two_pow
              omega
            · decide
          omega
        exact k _ _ hd hlt2
    · rintro ⟨hd, hne⟩
      cases hd with
      | deleteKey x hx hlt => exact .deleteKey x hx hlt
      | sendInitiation hi h2 h3 =>
        refine .sendInitiation hi h2 (fun h hh => ?_)
        cases hh
        exact h3 hs rfl
      | sendRetransmission h hh hle hlt => exact absurd rfl hne
  · cases hc

/-- `d` is the time at which a new exchange should start -/
def IsRekey (q : Peer) (d : Time) : Prop :=
  (∀ x, q.session = some x → rekeyTime x ≤ d) ∧ (∀ h, q.handshake = some h → h.createdAt + secs 180 ≤ d) ∧
  ((∃ x, q.session = some x ∧ d = rekeyTime x) ∨ ∃ h, q.handshake = some h ∧ d = h.createdAt + secs 180)

theorem IsRekey.unique {q : Peer} {d d' : Time} (h : IsRekey q d) (h' : IsRekey q d') : d = d' := by
  have k : ∀ {d d' : Time}, IsRekey q d → IsRekey q d' → d ≤ d' := by
    intro d d' h h'
    rcases h.2.2 with ⟨x, hx, rfl⟩ | ⟨x, hx, rfl⟩
    · exact h'.1 x hx
    · exact h'.2.1 x hx
  exact Int.le_antisymm (k h h') (k h' h)

theorem waitAnd_max (a b : Time) : waitAnd a b = max a b := by
  have k1 : ∀ a b : Int, a > b → a = max a b := by intros; omega
  have k2 : ∀ a b : Int, ¬ a > b → b = max a b := by intros; omega
  unfold waitAnd
  split
  · rename_i h; exact k1 _ _ h
  · rename_i h; exact k2 _ _ h

theorem iniWait_isRekey {q : Peer} (hi : q.initReq = false) (hg : eventGrace ≤ iniWait q now) : IsRekey q (now + iniWait q now) := by
  have k1 : ∀ a n : Int, 25 ≤ max (max 0 0) (a - n) → a = n + max (max 0 0) (a - n) := by intros; omega
  have k2 : ∀ a n : Int, 25 ≤ max (max 0 (a - n)) 0 → a = n + max (max 0 (a - n)) 0 := by intros; omega
  have k3 : ∀ a b n : Int, 25 ≤ max (max 0 (a - n)) (b - n) →
      a ≤ n + max (max 0 (a - n)) (b - n) ∧ b ≤ n + max (max 0 (a - n)) (b - n) ∧
      (n + max (max 0 (a - n)) (b - n) = a ∨ n + max (max 0 (a - n)) (b - n) = b) := by intros; omega
  unfold iniWait at hg ⊢
  rw [waitAnd_max, waitAnd_max, hi] at *
  simp only [Mortal.youthLeft, Session.mortal, IniHs.mortal, rekeyTime_eq, waitImmediateUnless, Bool.false_eq_true, if_false] at hg ⊢
  cases hs : q.session with
  | none =>
    cases hh : q.handshake with
    | none => rw [hs, hh] at hg; exact absurd hg (show ¬ eventGrace ≤ max (max 0 0) 0 by decide)
    | some h =>
      rw [hs, hh] at hg
      have := k1 _ _ hg
      refine ⟨fun x hx => (nomatch hs.symm.trans hx), fun y hy => ?_, Or.inr ⟨h, hh, this.symm⟩⟩
      rw [hh] at hy; cases hy
      exact Int.le_of_eq this
  | some x =>
    cases hh : q.handshake with
    | none =>
      rw [hs, hh] at hg
      have := k2 _ _ hg
      refine ⟨fun y hy => ?_, fun x hx => (nomatch hh.symm.trans hx), Or.inl ⟨x, hs, this.symm⟩⟩
      rw [hs] at hy; cases hy
      exact Int.le_of_eq this
    | some h =>
      rw [hs, hh] at hg
      obtain ⟨h1, h2, h3⟩ := k3 _ _ _ hg
      refine ⟨fun y hy => ?_, fun y hy => ?_, ?_⟩
      · rw [hs] at hy; cases hy; exact h1
      · rw [hh] at hy; cases hy; exact h2
      · rcases h3 with h3 | h3
        · exact Or.inl ⟨x, hs, h3⟩
        · exact Or.inr ⟨h, hh, h3⟩

/-- nothing is due for the peer, and `t` is the time until its next timer runs out -/
structure Rests (q : Peer) (now t : Time) : Prop where
  grace : eventGrace ≤ t
  unending : t ≤ unending
  bound : ∀ d, PeerTimer q d → now + t ≤ d
  exact' : t = Verif.unending ∨ PeerTimer q (now + t)
  rekey : q.initReq = false → q.session ≠ none ∨ q.handshake ≠ none

theorem hibernate_cases (o : Option Time) : waitOrHibernate o = unending ∧ o = none ∨ ∃ u, o = some u ∧ waitOrHibernate o = u := by
  cases o with
  | none => exact Or.inl ⟨rfl, rfl⟩
  | some u => exact Or.inr ⟨u, rfl, rfl⟩

theorem not_happened {w : Time} (h : hasHappened w 0 = false) : eventGrace ≤ w := by
  have a : ∀ u g : Int, ¬ (u - 0 < g) → g ≤ u := by intros; omega
  unfold hasHappened at h
  exact a _ _ (of_decide_eq_false h)

theorem knownWait_timer (q : Peer) : (knownWait q now = unending ∧ ∀ k, q.known = some k → ¬ 0 ≤ k.receivedAt) ∨
    ∃ k, q.known = some k ∧ 0 ≤ k.receivedAt ∧ knownWait q now = k.receivedAt + secs 120 - now := by
  unfold knownWait Known.mortal Mortal.lifeLeft
  cases hk : q.known with
  | none => exact Or.inl ⟨rfl, fun k h => nomatch h⟩
  | some k =>
    by_cases h0 : k.receivedAt < 0
    · left
      refine ⟨?_, fun k' h' => ?_⟩
      · simp [h0, waitOrHibernate]
      · cases h'; exact Int.not_le.mpr h0
    · right
      refine ⟨k, rfl, Int.not_lt.mp h0, ?_⟩
      simp [h0, waitOrHibernate]
      rfl

theorem rests_of_waits {q : Peer} {t : Time} (h1 : hasHappened (sesWait q now) 0 = false) (h2 : hasHappened (hsWait q now) 0 = false)
    (h3 : hasHappened (iniWait q now) 0 = false) (h4 : hasHappened (retryWait q now) 0 = false) (h5 : hasHappened (knownWait q now) 0 = false)
    (ht : t = min (min (min (min (min unending (hsWait q now)) (sesWait q now)) (iniWait q now)) (min unending (retryWait q now)))
      (min unending (knownWait q now))) : Rests q now t := by
  have g1 := not_happened h1
  have g2 := not_happened h2
  have g3 := not_happened h3
  have g4 := not_happened h4
  have g5 := not_happened h5
  have a : ∀ U a b c d e t g : Int, t = min (min (min (min (min U a) b) c) (min U d)) (min U e) → g ≤ U → g ≤ a → g ≤ b → g ≤ c → g ≤ d → g ≤ e →
      g ≤ t ∧ t ≤ U ∧ t ≤ a ∧ t ≤ b ∧ t ≤ c ∧ t ≤ d ∧ t ≤ e ∧ (t = U ∨ t = a ∨ t = b ∨ t = c ∨ t = d ∨ t = e) := by
    intros; omega
  obtain ⟨b1, b2, b3, b4, b5, b6, b7, b8⟩ := a _ _ _ _ _ _ _ _ ht (by decide : eventGrace ≤ unending) g2 g1 g3 g4 g5
  have k : ∀ n t d : Int, t ≤ d - n → n + t ≤ d := by intros; omega
  have k' : ∀ n t d : Int, t = d - n → n + t = d := by intros; omega
  refine ⟨b1, b2, ?_, ?_, ?_⟩
  · intro d hd
    cases hd with
    | handshake h hh =>
      refine k _ _ _ ?_
      have : hsWait q now = h.createdAt + secs 180 - now := by unfold hsWait; rw [hh]; rfl
      rw [← this]; exact b3
    | session x hx =>
      refine k _ _ _ ?_
      have : sesWait q now = x.createdAt + secs 180 - now := by unfold sesWait; rw [hx]; rfl
      rw [← this]; exact b4
    | retry h hh =>
      refine k _ _ _ ?_
      have : retryWait q now = h.txRetryAt - now := by unfold retryWait; rw [hh]; rfl
      rw [← this]; exact b6
    | known x hx h0 =>
      refine k _ _ _ ?_
      rcases knownWait_timer (now := now) q with ⟨-, h⟩ | ⟨y, hy, -, h⟩
      · exact absurd h0 (h x hx)
      · rw [hx] at hy; cases hy
        rw [← h]; exact b7
    | rekey d hi c1 c2 c3 =>
      have := (iniWait_isRekey hi g3).unique ⟨c1, c2, c3⟩
      rw [← this]
      exact Int.add_le_add_left b5 _
  · rcases b8 with rfl | rfl | rfl | h | rfl | rfl
    · exact Or.inl rfl
    · unfold hsWait Mortal.lifeLeft IniHs.mortal
      cases hh : q.handshake with
      | none => exact Or.inl rfl
      | some h =>
        right
        have := PeerTimer.handshake h hh
        rwa [← k' _ _ _ (rfl : h.createdAt + secs 180 - now = _)] at this
    · unfold sesWait Mortal.lifeLeft Session.mortal
      cases hh : q.session with
      | none => exact Or.inl rfl
      | some h =>
        right
        have := PeerTimer.session h hh
        rwa [← k' _ _ _ (rfl : h.createdAt + secs 180 - now = _)] at this
    · rw [h]
      cases hi : q.initReq with
      | false =>
        right
        obtain ⟨c1, c2, c3⟩ := iniWait_isRekey hi g3
        exact .rekey _ hi c1 c2 c3
      | true =>
        left
        have : unending ≤ iniWait q now := by
          unfold iniWait
          rw [waitAnd_max, waitAnd_max, hi]
          have k : ∀ U a b : Int, U ≤ max (max U a) b := by intros; omega
          exact k _ _ _
        exact Int.le_antisymm (h ▸ b2) this
    · unfold retryWait
      cases hh : q.handshake with
      | none => exact Or.inl rfl
      | some h =>
        right
        have := PeerTimer.retry h hh
        rwa [← k' _ _ _ (rfl : h.txRetryAt - now = _)] at this
    · rcases knownWait_timer (now := now) q with ⟨h, -⟩ | ⟨y, hy, h0, h⟩
      · exact Or.inl h
      · right
        have := PeerTimer.known y hy h0
        rwa [← k' _ _ _ h] at this
  · intro hi
    obtain ⟨-, -, c3⟩ := iniWait_isRekey hi g3
    rcases c3 with ⟨x, hx, -⟩ | ⟨x, hx, -⟩
    · exact Or.inl (by rw [hx]; exact fun h => nomatch h)
    · exact Or.inr (by rw [hx]; exact fun h => nomatch h)

theorem PeerDue.peer {q : Peer} {p : Nat} {e : PollResult} (h : PeerDue q now p e) : e.peer = some p := by
  cases h <;> rfl

theorem PeerDue.saturated {q : Peer} {p : Nat} {e : PollResult} (h : PeerDue q now p e) : e.saturated = true := by
  cases h <;> rfl

theorem isRekey_exists {q : Peer} (h : q.session ≠ none ∨ q.handshake ≠ none) : ∃ d, IsRekey q d := by
  cases hs : q.session with
  | none =>
    cases hh : q.handshake with
    | none => rw [hs, hh] at h; rcases h with h | h <;> exact absurd rfl h
    | some y =>
      refine ⟨y.createdAt + secs 180, fun x hx => (nomatch hs.symm.trans hx), fun x hx => ?_, Or.inr ⟨y, hh, rfl⟩⟩
      rw [hh] at hx; cases hx; exact Int.le_refl _
  | some x =>
    cases hh : q.handshake with
    | none =>
      refine ⟨rekeyTime x, fun y hy => ?_, fun y hy => (nomatch hh.symm.trans hy), Or.inl ⟨x, hs, rfl⟩⟩
      rw [hs] at hy; cases hy; exact Int.le_refl _
    | some y =>
      rcases Int.le_total (rekeyTime x) (y.createdAt + secs 180) with hle | hle
      · refine ⟨y.createdAt + secs 180, fun z hz => ?_, fun z hz => ?_, Or.inr ⟨y, hh, rfl⟩⟩
        · rw [hs] at hz; cases hz; exact hle
        · rw [hh] at hz; cases hz; exact Int.le_refl _
      · refine ⟨rekeyTime x, fun z hz => ?_, fun z hz => ?_, Or.inl ⟨x, hs, rfl⟩⟩
        · rw [hs] at hz; cases hz; exact Int.le_refl _
        · rw [hh] at hz; cases hz; exact hle

/-- nothing is due before the next timer runs out -/
theorem Rests.not_due {q : Peer} {t now' : Time} (h : Rests q now t) (hw : now' ≤ now + t - eventGrace) {p : Nat} {e : PollResult} :
    ¬ PeerDue q now' p e := by
  have a : ∀ n t g n' d : Int, n' ≤ n + t - g → n + t ≤ d → ¬ d < n' + g := by intros; omega
  intro hd
  cases hd with
  | deleteKey x hx hlt => exact a _ _ _ _ _ hw (h.bound _ (.session x hx)) hlt
  | sendRetransmission x hx _ hlt => exact a _ _ _ _ _ hw (h.bound _ (.retry x hx)) hlt
  | sendInitiation hi h1 h2 =>
    obtain ⟨d, c1, c2, c3⟩ := isRekey_exists (h.rekey hi)
    refine a _ _ _ _ _ hw (h.bound _ (.rekey d hi c1 c2 c3)) ?_
    rcases c3 with ⟨x, hx, rfl⟩ | ⟨x, hx, rfl⟩
    · exact h1 x hx
    · exact h2 x hx

theorem pollPeer_rests {p : Nat} {s s' : Server} {t : Time} {q : Peer} (hp : s.peers[p]? = some q)
    (h : pollPeer now r p s = some (.sleep t, s')) :
    ∃ q', s'.peers[p]? = some q' ∧ Rests q' now t ∧ (∀ e, PeerDue q' now p e ↔ PeerDue q now p e) := by
  obtain ⟨-, hcase⟩ := pollPeer_cases hp h
  rcases hcase with ⟨hc, -⟩ | ⟨hc, -⟩ | ⟨hc, -⟩ | ⟨q', t', hc, hq, hses, hini, hhs, -, h1, h2, h3, h4, h5, ht⟩
  · cases hc
  · cases hc
  · cases hc
  cases hc
  exact ⟨q', hq, rests_of_waits h1 h2 h3 h4 h5 ht, fun e => peerDue_congr hses hini hhs⟩

theorem fold_sleep {t : Time} {b c : PollResult} (h : PollResult.fold (.sleep t) b = some c) :
    (b.saturated = true ∧ c = b) ∨ ∃ u, b = .sleep u ∧ c = .sleep (min t u) := by
  cases b with
  | sleep u => cases h; exact Or.inr ⟨u, rfl, rfl⟩
  | deleteKey p => cases h; exact Or.inl ⟨rfl, rfl⟩
  | sendInitiation p => cases h; exact Or.inl ⟨rfl, rfl⟩
  | sendRetransmission p => cases h; exact Or.inl ⟨rfl, rfl⟩

/-- the events due in `s'` and `s` are the same up to those of peer `p` -/
theorem due_of_peer {p : Nat} {s s' : Server} {q q' : Peer} (ho : OnlyPeer p s s') (hq : s.peers[p]? = some q) (hq' : s'.peers[p]? = some q')
    {P : PollResult → Prop} (h : ∀ e, PeerDue q' now p e ↔ PeerDue q now p e ∧ P e) (hP : ∀ e, e.peer ≠ some p → P e) (e : PollResult) :
    Due s' now e ↔ Due s now e ∧ P e := by
  constructor
  · rintro ⟨i, x, hx, hd⟩
    by_cases hi : i = p
    · subst hi
      rw [hq'] at hx; cases hx
      obtain ⟨h1, h2⟩ := (h e).mp hd
      exact ⟨⟨i, q, hq, h1⟩, h2⟩
    · rw [ho.others i hi] at hx
      exact ⟨⟨i, x, hx, hd⟩, hP e (by rw [hd.peer]; simpa using hi)⟩
  · rintro ⟨⟨i, x, hx, hd⟩, hpe⟩
    by_cases hi : i = p
    · subst hi
      rw [hq] at hx; cases hx
      exact ⟨i, q', hq', (h e).mpr ⟨hd, hpe⟩⟩
    · exact ⟨i, x, (ho.others i hi).trans hx, hd⟩

theorem pollPeers_cases (ps : List Nat) : ∀ {s : Server} {t0 : Time}, (∀ p ∈ ps, p < s.peers.length) → ps.Nodup → ∀ {c : PollResult} {s' : Server},
    pollChildren (ps.map (fun p => pollPeer now r p)) (some (.sleep t0, s)) = some (c, s') →
    s'.biscuitKeys = s.biscuitKeys ∧ s'.cookieSecrets = s.cookieSecrets ∧ s'.peers.length = s.peers.length ∧
    (∀ i : Nat, i ∉ ps → s'.peers[i]? = s.peers[i]?) ∧
    (c.saturated = true → Due s now c ∧ ∀ e, Due s' now e ↔ Due s now e ∧ e ≠ c) ∧
    (∀ t, c = .sleep t → (∀ e, Due s' now e ↔ Due s now e) ∧ t ≤ t0 ∧
      (∀ p ∈ ps, ∃ q tp, s'.peers[p]? = some q ∧ Rests q now tp ∧ t ≤ tp) ∧
      (t = t0 ∨ ∃ (p : Nat) (q : Peer), s'.peers[p]? = some q ∧ Rests q now t)) := by
  induction ps with
  | nil =>
    intro s t0 _ _ c s' h
    cases h
    refine ⟨rfl, rfl, rfl, fun _ _ => rfl, fun h => (nomatch h), ?_⟩
    intro t ht
    cases ht
    exact ⟨fun _ => Iff.rfl, Int.le_refl _, fun p hp => (nomatch hp), Or.inl rfl⟩
  | cons p ps ih =>
    intro s t0 hps hnd c s' h
    obtain ⟨q, hq⟩ : ∃ q, s.peers[p]? = some q := ⟨_, List.getElem?_eq_getElem (hps p (by simp))⟩
    rw [List.map_cons, pollChildren_sleep, pollChild_sleep] at h
    cases hpp : pollPeer now r p s with
    | none => rw [hpp] at h; cases ps <;> cases h
    | some x =>
      obtain ⟨b, s1⟩ := x
      rw [hpp] at h
      simp only at h
      have ho := (pollPeer_cases hq hpp).1
      cases hf : PollResult.fold (.sleep t0) b with
      | none => rw [hf] at h; cases ps <;> cases h
      | some a =>
        rw [hf] at h
        simp only [Option.map_some] at h
        rcases fold_sleep hf with ⟨hsat, rfl⟩ | ⟨u, rfl, rfl⟩
        · rw [pollChildren_event hsat] at h
          cases h
          obtain ⟨q', hq', hd, hiff⟩ := pollPeer_due hq hpp hsat
          refine ⟨ho.biscuitKeys, ho.cookieSecrets, ho.length, fun i hi => ho.others i (fun h => hi (h ▸ List.mem_cons_self)), fun _ => ⟨⟨p, q, hq, hd⟩, ?_⟩, ?_⟩
          · exact due_of_peer ho hq hq' hiff (fun e he h => he (h ▸ hd.peer))
          · intro t ht; rw [ht] at hsat; cases hsat
        · obtain ⟨q', hq', hrest, hiff⟩ := pollPeer_rests hq hpp
          have hdue : ∀ e, Due s1 now e ↔ Due s now e := fun e => by
            have := due_of_peer ho hq hq' (P := fun _ => True) (fun e => by rw [hiff e]; simp) (fun _ _ => trivial) e
            simpa using this
          have hnp : p ∉ ps := (List.nodup_cons.mp hnd).1
          obtain ⟨i1, i2, i3, i4, i5, i6⟩ := ih (s := s1) (fun x hx => ho.length ▸ hps x (by simp [hx])) (List.nodup_cons.mp hnd).2 h
          refine ⟨i1.trans ho.biscuitKeys, i2.trans ho.cookieSecrets, i3.trans ho.length, ?_, ?_, ?_⟩
          · intro i hi
            have h1 : i ≠ p := fun h => hi (h ▸ List.mem_cons_self)
            have h2 : i ∉ ps := fun h => hi (List.mem_cons_of_mem _ h)
            exact (i4 i h2).trans (ho.others i h1)
          · intro hsat
            obtain ⟨j1, j2⟩ := i5 hsat
            exact ⟨(hdue c).mp j1, fun e => by rw [j2 e, hdue e]⟩
          · intro t ht
            obtain ⟨j1, j2, j3, j4⟩ := i6 t ht
            have k : ∀ t a b : Int, t ≤ min a b → t ≤ a ∧ t ≤ b := by intros; omega
            have k2 : ∀ a b : Int, min a b = a ∨ min a b = b := by intros; omega
            have hq2 : s'.peers[p]? = some q' := (i4 p hnp).trans hq'
            refine ⟨fun e => (j1 e).trans (hdue e), (k _ _ _ j2).1, ?_, ?_⟩
            · intro x hx
              rcases List.mem_cons.mp hx with rfl | hx
              · exact ⟨q', u, hq2, hrest, (k _ _ _ j2).2⟩
              · exact j3 x hx
            · rcases j4 with j4 | j4
              · rcases k2 t0 u with h | h
                · exact Or.inl (j4.trans h)
                · exact Or.inr ⟨p, q', hq2, by rw [j4.trans h]; exact hrest⟩
              · exact Or.inr j4

/-- a key slot rests until `t` -/
structure StoreRests (x : Store) (life now t : Time) : Prop where
  grace : eventGrace ≤ t
  unending : t ≤ unending
  bound : 0 ≤ x.createdAt → now + t ≤ x.createdAt + life
  exact' : t = Verif.unending ∨ 0 ≤ x.createdAt ∧ now + t = x.createdAt + life

theorem storeRests_of {x : Store} {e : Time} (h : hasHappened (waitOrHibernate ((x.created.map (· + e + e)).map (· - now))) 0 = false) :
    StoreRests x (e + e) now (min unending (waitOrHibernate ((x.created.map (· + e + e)).map (· - now)))) := by
  have g := not_happened h
  have a : ∀ U w g : Int, g ≤ U → g ≤ w → g ≤ min U w ∧ min U w ≤ U := by intros; omega
  obtain ⟨a1, a2⟩ := a _ _ _ (by decide : eventGrace ≤ unending) g
  refine ⟨a1, a2, ?_, ?_⟩
  · intro h0
    have : x.created = some x.createdAt := by unfold Store.created; rw [if_neg (Int.not_lt.mpr h0)]
    rw [this]
    simp only [Option.map_some, waitOrHibernate, Option.getD_some]
    have b : ∀ U c e n : Int, n + min U (c + e + e - n) ≤ c + (e + e) := by intros; omega
    exact b _ _ _ _
  · unfold Store.created
    by_cases h0 : x.createdAt < 0
    · left; rw [if_pos h0]; rfl
    · rw [if_neg h0]
      simp only [Option.map_some, waitOrHibernate, Option.getD_some]
      have b : ∀ U c e n : Int, min U (c + e + e - n) = U ∨ n + min U (c + e + e - n) = c + (e + e) := by intros; omega
      rcases b unending x.createdAt e now with h | h
      · exact Or.inl h
      · exact Or.inr ⟨Int.not_lt.mp h0, h⟩

theorem newStore_rests (v : Bytes) (e : Time) : StoreRests (newStore v) e now unending :=
  ⟨by decide, Int.le_refl _, fun h => absurd h (by decide : ¬ (0 : Int) ≤ bce), Or.inl rfl⟩

theorem pollBiscuit_rests (i : Bool) (s : Server) : ∃ t s', pollBiscuit now r i s = some (.sleep t, s') ∧ s'.peers = s.peers ∧
    s'.cookieSecrets = s.cookieSecrets ∧ s'.biscuitKeys.get (!i) = s.biscuitKeys.get (!i) ∧ StoreRests (s'.biscuitKeys.get i) (secs 600) now t := by
  have hne : (!i) ≠ i := by cases i <;> decide
  unfold pollBiscuit PollResult.hibernate
  rw [sched_sleep]
  by_cases hw : hasHappened (waitOrHibernate ((s.biscuitKeys.get i).biscuitMortal.lifeLeft now)) 0 = true
  · rw [if_pos hw]
    refine ⟨_, _, rfl, rfl, rfl, Two.get_set_ne _ hne _, ?_⟩
    show StoreRests ((s.biscuitKeys.set i _).get i) _ _ _
    rw [Two.get_set]
    exact newStore_rests _ _
  · rw [if_neg hw]
    exact ⟨_, _, rfl, rfl, rfl, rfl, storeRests_of (e := secs 300) (eq_false_of_ne_true hw)⟩

theorem pollCookie_rests (i : Bool) (s : Server) : ∃ t s', pollCookie now r i s = some (.sleep t, s') ∧ s'.peers = s.peers ∧
    s'.biscuitKeys = s.biscuitKeys ∧ s'.cookieSecrets.get (!i) = s.cookieSecrets.get (!i) ∧ StoreRests (s'.cookieSecrets.get i) (secs 240) now t := by
  have hne : (!i) ≠ i := by cases i <;> decide
  unfold pollCookie PollResult.hibernate
  rw [sched_sleep]
  by_cases hw : hasHappened (waitOrHibernate ((s.cookieSecrets.get i).cookieMortal.lifeLeft now)) 0 = true
  · rw [if_pos hw]
    refine ⟨_, _, rfl, rfl, rfl, Two.get_set_ne _ hne _, ?_⟩
    show StoreRests ((s.cookieSecrets.set i _).get i) _ _ _
    rw [Two.get_set]
    exact newStore_rests _ _
  · rw [if_neg hw]
    exact ⟨_, _, rfl, rfl, rfl, rfl, storeRests_of (e := secs 120) (eq_false_of_ne_true hw)⟩

/-- the part of `poll` before the peers -/
theorem poll_keys (s : Server) : ∃ t s', pollChildren [pollCookie now r false, pollCookie now r true]
      (pollChildren [pollBiscuit now r false, pollBiscuit now r true] (some (.hibernate, s))) = some (.sleep t, s') ∧ s'.peers = s.peers ∧
    (∀ i, ∃ u, StoreRests (s'.biscuitKeys.get i) (secs 600) now u ∧ t ≤ u) ∧
    (∀ i, ∃ u, StoreRests (s'.cookieSecrets.get i) (secs 240) now u ∧ t ≤ u) ∧
    (t = unending ∨ (∃ i, StoreRests (s'.biscuitKeys.get i) (secs 600) now t) ∨ ∃ i, StoreRests (s'.cookieSecrets.get i) (secs 240) now t) := by
  obtain ⟨t1, s1, e1, p1, c1, k1, r1⟩ := pollBiscuit_rests (now := now) (r := r) false s
  obtain ⟨t2, s2, e2, p2, c2, k2, r2⟩ := pollBiscuit_rests (now := now) (r := r) true s1
  obtain ⟨t3, s3, e3, p3, c3, k3, r3⟩ := pollCookie_rests (now := now) (r := r) false s2
  obtain ⟨t4, s4, e4, p4, c4, k4, r4⟩ := pollCookie_rests (now := now) (r := r) true s3
  have h : pollChildren [pollCookie now r false, pollCookie now r true]
      (pollChildren [pollBiscuit now r false, pollBiscuit now r true] (some (.hibernate, s))) =
      some (.sleep (min (min (min (min unending t1) t2) t3) t4), s4) := by
    unfold PollResult.hibernate
    rw [pollChildren_sleep, pollChild_sleep, e1]
    show pollChildren _ (pollChildren _ (some (.sleep (min unending t1), s1))) = _
    rw [pollChildren_sleep, pollChild_sleep, e2]
    show pollChildren _ (some (.sleep (min (min unending t1) t2), s2)) = _
    rw [pollChildren_sleep, pollChild_sleep, e3]
    show pollChildren _ (some (.sleep (min (min (min unending t1) t2) t3), s3)) = _
    rw [pollChildren_sleep, pollChild_sleep, e4]
    rfl
  have k : ∀ U a b c d : Int, min (min (min (min U a) b) c) d ≤ a ∧ min (min (min (min U a) b) c) d ≤ b ∧ min (min (min (min U a) b) c) d ≤ c ∧
      min (min (min (min U a) b) c) d ≤ d ∧ (min (min (min (min U a) b) c) d = U ∨ min (min (min (min U a) b) c) d = a ∨ min (min (min (min U a) b) c) d = b ∨
        min (min (min (min U a) b) c) d = c ∨ min (min (min (min U a) b) c) d = d) := by intros; omega
  obtain ⟨k1', k2', k3', k4', k5'⟩ := k unending t1 t2 t3 t4
  have b1 : s4.biscuitKeys = s2.biscuitKeys := c4.trans c3
  have R1 : StoreRests (s4.biscuitKeys.get false) (secs 600) now t1 := by
    rw [b1]
    have : s2.biscuitKeys.get false = s1.biscuitKeys.get false := k2
    rw [this]; exact r1
  have R2 : StoreRests (s4.biscuitKeys.get true) (secs 600) now t2 := by rw [b1]; exact r2
  have R3 : StoreRests (s4.cookieSecrets.get false) (secs 240) now t3 := by
    have : s4.cookieSecrets.get false = s3.cookieSecrets.get false := k4
    rw [this]; exact r3
  refine ⟨_, _, h, p4.trans (p3.trans (p2.trans p1)), ?_, ?_, ?_⟩
  · intro i; cases i
    · exact ⟨t1, R1, k1'⟩
    · exact ⟨t2, R2, k2'⟩
  · intro i; cases i
    · exact ⟨t3, R3, k3'⟩
    · exact ⟨t4, r4, k4'⟩
  · rcases k5' with h | h | h | h | h <;> rw [h]
    · exact Or.inl rfl
    · exact Or.inr (Or.inl ⟨false, R1⟩)
    · exact Or.inr (Or.inl ⟨true, R2⟩)
    · exact Or.inr (Or.inr ⟨false, R3⟩)
    · exact Or.inr (Or.inr ⟨true, r4⟩)

theorem peerPtrsOff_spec (s : Server) (n : Nat) : (∀ p, p ∈ s.peerPtrsOff n ↔ p < s.peers.length) ∧ (s.peerPtrsOff n).Nodup := by
  unfold peerPtrsOff
  constructor
  · intro p
    simp only [List.mem_map, List.mem_range]
    constructor
    · rintro ⟨a, ha, rfl⟩; exact Nat.mod_lt _ (by omega)
    · intro hp
      generalize s.peers.length = l at hp ⊢
      have hn : n % l < l := Nat.mod_lt _ (by omega)
      by_cases hle : n % l ≤ p
      · refine ⟨p - n % l, by omega, ?_⟩
        rw [← Nat.add_mod_mod]
        have : p - n % l + n % l = p := by omega
        rw [this]; exact Nat.mod_eq_of_lt hp
      · refine ⟨p + l - n % l, by omega, ?_⟩
        rw [← Nat.add_mod_mod]
        have : p + l - n % l + n % l = p + l := by omega
        rw [this, Nat.add_mod_right]; exact Nat.mod_eq_of_lt hp
  · generalize s.peers.length = l
    refine List.Nodup.map_on ?_ List.nodup_range
    intro a ha b hb hab
    simp only [List.mem_range] at ha hb
    have h1 : a ≡ b [MOD l] := Nat.ModEq.add_right_cancel' n hab
    have h2 : a % l = b % l := h1
    rwa [Nat.mod_eq_of_lt ha, Nat.mod_eq_of_lt hb] at h2

/-- **C18.** Polling never misses or invents events. An event reported by `poll` is due; after it, exactly
the same events are due except that one. `Sleep(t)` is reported only if nothing is due; then nothing
becomes due before `t` is over, `t` is the time until the next timer runs out, and it lies between the
clock granularity and 8 hours (so that it converts to a valid `Duration`). -/
theorem poll_exact {s s' : Server} {c : PollResult} (h : s.poll now r = some (c, s')) :
    (c.saturated = true → Due s now c ∧ ∀ e, Due s' now e ↔ Due s now e ∧ e ≠ c) ∧
    (∀ t, c = .sleep t → (∀ e, ¬ Due s now e) ∧ eventGrace ≤ t ∧ t ≤ unending ∧
      (∀ now', now' ≤ now + t - eventGrace → ∀ e, ¬ Due s' now' e) ∧
      (∀ d, Timer s' d → now + t ≤ d) ∧ (t = unending ∨ Timer s' (now + t))) := by
  unfold poll at h
  simp only [Option.map_eq_some_iff, Prod.mk.injEq] at h
  obtain ⟨⟨res, s1⟩, h1, rfl, rfl⟩ := h
  obtain ⟨t0, s0, e0, p0, kb, kc, kx⟩ := poll_keys (now := now) (r := r) s
  rw [e0] at h1
  obtain ⟨hmem, hnd⟩ := peerPtrsOff_spec s s.pollOff
  obtain ⟨i1, i2, i3, i4, i5, i6⟩ := pollPeers_cases _ (s := s0) (fun p hp => by rw [p0]; exact (hmem p).mp hp) hnd h1
  have hd0 : ∀ e, Due s0 now e ↔ Due s now e := fun e => by unfold Due; rw [p0]
  have hd1 : ∀ n (o : Nat) e, Due { s1 with pollOff := o } n e ↔ Due s1 n e := fun _ _ _ => Iff.rfl
  have ht1 : ∀ (o : Nat) d, Timer { s1 with pollOff := o } d ↔ Timer s1 d := by
    intro o d
    constructor
    · intro h; cases h with
      | peer p q _ hq hd => exact .peer p q d hq hd
      | biscuit i h => exact .biscuit i h
      | cookie i h => exact .cookie i h
    · intro h; cases h with
      | peer p q _ hq hd => exact .peer p q d hq hd
      | biscuit i h => exact .biscuit (s := { s1 with pollOff := o }) i h
      | cookie i h => exact .cookie (s := { s1 with pollOff := o }) i h
  refine ⟨fun hsat => ?_, fun t ht => ?_⟩
  · obtain ⟨j1, j2⟩ := i5 hsat
    exact ⟨(hd0 _).mp j1, fun e => by rw [hd1, j2 e, hd0 e]⟩
  · obtain ⟨j1, j2, j3, j4⟩ := i6 t ht
    have le_trans' : ∀ n t u d : Int, t ≤ u → n + u ≤ d → n + t ≤ d := by intros; omega
    have hbound : ∀ d, Timer s1 d → now + t ≤ d := by
      intro d hd
      cases hd with
      | peer p q _ hq hd =>
        obtain ⟨q', tp, hq', hr, hle⟩ := j3 p ((hmem p).mpr (by
          rw [← p0, ← i3]; exact (List.getElem?_eq_some_iff.mp hq).1))
        rw [hq] at hq'; cases hq'
        exact le_trans' _ _ _ _ hle (hr.bound d hd)
      | biscuit i h0 =>
        rw [i1] at h0 ⊢
        obtain ⟨u, hu, hle⟩ := kb i
        exact le_trans' _ _ _ _ (Int.le_trans j2 hle) (hu.bound h0)
      | cookie i h0 =>
        rw [i2] at h0 ⊢
        obtain ⟨u, hu, hle⟩ := kc i
        exact le_trans' _ _ _ _ (Int.le_trans j2 hle) (hu.bound h0)
    have hrests : ∀ (p : Nat) q, s1.peers[p]? = some q → ∃ tp, Rests q now tp ∧ t ≤ tp := by
      intro p q hq
      obtain ⟨q', tp, hq', hr, hle⟩ := j3 p ((hmem p).mpr (by
        rw [← p0, ← i3]; exact (List.getElem?_eq_some_iff.mp hq).1))
      rw [hq] at hq'; cases hq'
      exact ⟨tp, hr, hle⟩
    have hexact : t = unending ∨ Timer s1 (now + t) := by
      rcases j4 with h | ⟨p, q, hq, hr⟩
      · rw [h]
        rcases kx with h | ⟨i, hi⟩ | ⟨i, hi⟩
        · exact Or.inl h
        · rcases hi.exact' with h | ⟨h0, h⟩
          · exact Or.inl h
          · right
            rw [h, ← i1]
            rw [← i1] at h0
            exact .biscuit i h0
        · rcases hi.exact' with h | ⟨h0, h⟩
          · exact Or.inl h
          · right
            rw [h, ← i2]
            rw [← i2] at h0
            exact .cookie i h0
      · rcases hr.exact' with h | h
        · exact Or.inl h
        · exact Or.inr (.peer p q _ hq h)
    have hg : eventGrace ≤ t ∧ t ≤ unending := by
      rcases j4 with h | ⟨p, q, hq, hr⟩
      · rw [h]
        rcases kx with h | ⟨i, hi⟩ | ⟨i, hi⟩
        · rw [h]; decide
        · exact ⟨hi.grace, hi.unending⟩
        · exact ⟨hi.grace, hi.unending⟩
      · exact ⟨hr.grace, hr.unending⟩
    have hwin : ∀ now', now' ≤ now + t - eventGrace → ∀ e, ¬ Due s1 now' e := by
      rintro now' hw e ⟨p, q, hq, hd⟩
      obtain ⟨tp, hr, hle⟩ := hrests p q hq
      have k : ∀ n t u g m : Int, t ≤ u → m ≤ n + t - g → m ≤ n + u - g := by intros; omega
      exact hr.not_due (k _ _ _ _ _ hle hw) hd
    refine ⟨fun e hd => ?_, hg.1, hg.2, hwin, fun d hd => hbound d ((ht1 _ d).mp hd), hexact.imp id (ht1 _ _).mpr⟩
    refine hwin now ?_ e ((j1 e).mpr ((hd0 e).mpr hd))
    have k : ∀ n t g : Int, g ≤ t → n ≤ n + t - g := by intros; omega
    exact k _ _ _ hg.1

end
end Verif
