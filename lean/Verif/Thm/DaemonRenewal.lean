import Verif.Thm.Renewal
import Verif.Thm.Daemons
import Verif.Thm.Published
/-
C141: a running daemon leaves the key of a peer alone until it is due for renewal, and then asks for renewal in time. Lifting of C126 and C65 to the event loop. No new model.
-/
namespace Verif
open HashDomain Server FileIO
namespace App
variable {C : Crypto}

/-! ### Specification -/

/-- The message received in this round, if any, is not an authentic InitConf of peer `p` (with which that peer renews the key), nor one whose biscuit opens in two ways. -/
def NoInitConf (C : Crypto) (p : Nat) (a : App) (e : World) : Prop :=
  ∀ t s1 rx sock addr, Polled a e (.sleep t) s1 → e.io = .msg rx sock addr →
    (∀ q, s1.peers[p]? = some q → ∀ rej, ¬ InitConfFor C s1 rx p q rej) ∧ ¬ (rx.head? = some 0x83 ∧ OpensTwice C s1 rx)

/-- … in every round. -/
def NoInitConfs (C : Crypto) (p : Nat) : App → List World → Prop
  | _, [] => True
  | a, e :: es => NoInitConf C p a e ∧ NoInitConfs C p (a.step C e).app es

/-- The daemon has done nothing about peer `p` between the states `a` and `b`, in which its outputs went from `out` to `out'`: the entry of the peer (with its address) is the same, the key of the
protocol server is the same, the output file is the same and the broker was told nothing. -/
structure LeftAlone (C : Crypto) (p : Nat) (a b : App) (out out' : List Output) : Prop where
  entry : b.peers[p]? = a.peers[p]?
  key : ∀ s s', a.site = .product s → b.site = .product s' → s'.osk C p = s.osk C p
  file : ∀ ap f, a.peers[p]? = some ap → ap.outfile = some f → b.fs f = a.fs f
  psk : ∀ ap ptr cfg br, a.peers[p]? = some ap → ap.broker = some (ptr, cfg) → a.brokers.store.lookup ptr = some br → lastPsk br.name cfg out' = lastPsk br.name cfg out

/-! ### One round -/

theorem exchange_source (L : C.Lawful) {s : Server} (hr : Reachable C s) {o : Op} {rx : Bytes} (hrx : o.received = some rx) {p : Nat} {m : Option Bytes}
    (hok : o.result C s = .ok ⟨some p, m⟩) : ∃ peer, s.peers[p]? = some peer ∧ (peer.handshake ≠ none ∨ InitConfFor C s rx p peer false) := by
  have direct : ∀ {tx : Bytes} {now : Time} {r : HashChoice → Rnd}, (s.handleMsg C rx tx now r).1 = .ok ⟨some p, m⟩ →
      ∃ peer, s.peers[p]? = some peer ∧ (peer.handshake ≠ none ∨ InitConfFor C s rx p peer false) := by
    intro tx now r h
    obtain ⟨peer, e, h1, -, ⟨-, -, hs, h2, -⟩ | ⟨h3, h4, b, h5⟩⟩ := exchange_authenticated L hr (s' := (s.handleMsg C rx tx now r).2) (by rw [← h])
    · exact ⟨peer, h1, .inl (by rw [h2]; exact Option.some_ne_none _)⟩
    · exact ⟨peer, h1, .inr ⟨h3, e, _, b, h4, h5, fun h => absurd h Bool.false_ne_true⟩⟩
  cases o with
  | addPeer psk pk v osk => cases hrx
  | initiate p now r tx => cases hrx
  | handleMsg rx' tx now r => cases hrx; exact direct hok
  | handleMsgUnderLoad rx' tx host now r =>
    cases hrx
    rcases underLoad_cases C s rx tx host now r with ⟨x, -, hx, -⟩ | ⟨-, hx⟩ | ⟨h81, -⟩
    · have : (s.handleMsgUnderLoad C rx tx host now r).1 = .ok ⟨some p, m⟩ := hok
      rw [hx] at this; cases this
    · have : (s.handleMsgUnderLoad C rx tx host now r).1 = .ok ⟨some p, m⟩ := hok
      rw [hx] at this
      exact direct this
    · exfalso
      obtain ⟨q, y, -, -, -, ⟨-, h⟩ | ⟨-, h⟩, -⟩ := exchange_session (C := C) (s := s) (.handleMsgUnderLoad rx tx host now r) rx rfl now rfl p m hok
      · rw [h81] at h; cases h
      · rw [h81] at h; cases h
  | poll now r => cases hrx
  | retransmit p tx => cases hrx

/-- Where the turn of peer `p` is. -/
def Turn (s : Server) (p d : Nat) : Prop := d < s.peers.length ∧ p = (d + s.pollOff) % s.peers.length

theorem poll_rest {s s1 : Server} {p : Nat} {x : Session} (hs : AtRest s p x false) {t : Time} {r : PollRnd} {c : PollResult} (hp : s.poll t r = some (c, s1))
    (ht : t + eventGrace ≤ x.createdAt + secs 180) :
    (c = .sendInitiation p ∧ AtRest s1 p x true ∧ rekeyTime x < t + eventGrace) ∨ (c.peer ≠ some p ∧ AtRest s1 p x false) := by
  obtain ⟨q, hq, h1, h2, h3⟩ := hs
  obtain ⟨q', hq', E⟩ := poll_effect hp hq
  have nd : c ≠ .deleteKey p := by
    rintro rfl
    obtain ⟨⟨p', q'', hq'', hd⟩, -⟩ := (poll_exact hp).1 rfl
    cases hd with
    | deleteKey y hy hl => rw [hq] at hq''; cases hq''; rw [h1] at hy; cases hy; exact absurd hl (Int.not_lt.mpr ht)
  have nr : c ≠ .sendRetransmission p := by
    rintro rfl
    obtain ⟨⟨p', q'', hq'', hd⟩, -⟩ := (poll_exact hp).1 rfl
    cases hd with
    | sendRetransmission h hh _ => rw [hq] at hq''; cases hq''; rw [h2] at hh; cases hh
  have e1 : q'.session = some x := by
    rcases E.session with g | ⟨g, -⟩
    · rw [g]; exact h1
    · exact absurd g nd
  have e2 : q'.handshake = none := by
    rcases E.handshake with ⟨-, g | ⟨g, -⟩⟩ | ⟨g, -⟩
    · rw [g]; exact h2
    · exact g
    · exact absurd g nr
  by_cases hc : c = .sendInitiation p
  · subst hc
    left
    obtain ⟨⟨p', q'', hq'', hd⟩, hnot⟩ := (poll_exact hp).1 rfl
    cases hd with
    | sendInitiation hi hr hh =>
      rw [hq] at hq''; cases hq''
      refine ⟨rfl, ⟨q', hq', e1, e2, ?_⟩, hr x h1⟩
      cases hir : q'.initReq with
      | true => rfl
      | false =>
        refine absurd rfl ((hnot (.sendInitiation p)).mp ⟨p, q', hq', .sendInitiation hir (fun y hy => ?_) (fun h hh' => by rw [e2] at hh'; cases hh')⟩).2
        rw [e1] at hy; cases hy; exact hr x h1
  · right
    refine ⟨?_, q', hq', e1, e2, ?_⟩
    · cases c with
      | sleep t => exact nofun
      | deleteKey p' => intro h; cases h; exact nd rfl
      | sendInitiation p' => intro h; cases h; exact hc rfl
      | sendRetransmission p' => intro h; cases h; exact nr rfl
    · rcases E.initReq with g | ⟨g, -⟩
      · rw [g]; exact h3
      · exact absurd g hc

/-- one round -/
theorem round_rest (L : C.Lawful) {a : App} (R : Ready C a) {s : Server} (hs : a.site = .product s) {e : World} (he : e.WF C) {p : Nat} {x : Session}
    (hx : AtRest s p x false) (ht : e.now + eventGrace ≤ x.createdAt + secs 180) (hn : NoInitConf C p a e) :
    (∃ s1, Polled a e (.sendInitiation p) s1 ∧ AtRest s1 p x true ∧ rekeyTime x < e.now + eventGrace) ∨
    (∃ s', (a.step C e).app.site = .product s' ∧ AtRest s' p x false ∧ (∀ w k, ¬ KeyEvent C a e p w k) ∧ (a.step C e).app.peers[p]? = a.peers[p]? ∧
      s'.peers.length = s.peers.length ∧ (rekeyTime x < e.now + eventGrace → ∀ d, Turn s p d → ∃ d' < d, Turn s' p d')) := by
  have hr := R.reach s hs
  obtain ⟨⟨c, s1⟩, hpoll⟩ := Option.isSome_iff_exists.mp (poll_no_panic L hr e.now e.prnd)
  rcases poll_rest hx hpoll ht with ⟨rfl, h1, h2⟩ | ⟨hcp, hx1⟩
  · exact .inl ⟨s1, ⟨s, hs, hpoll⟩, h1, h2⟩
  right
  have hP : Polled a e c s1 := ⟨s, hs, hpoll⟩
  have uniq : ∀ {c' s1'}, Polled a e c' s1' → c' = c ∧ s1' = s1 := by
    rintro c' s1' ⟨s', g1, g2⟩
    rw [hs] at g1; cases g1; rw [hpoll] at g2; cases g2; exact ⟨rfl, rfl⟩
  have hop := poll_op (C := C) s e hpoll
  have hr1 : Reachable C s1 := by rw [hop]; exact .step _ _ hr he.prnd
  have hl1 : s1.peers.length = s.peers.length := by rw [hop]; exact step_length (C := C) s _ (by intros; intro h; cases h)
  -- no exchange
  have noex : ∀ {t s1' rx sock addr m}, Polled a e (.sleep t) s1' → e.io = .msg rx sock addr → (e.receive rx sock addr).result C s1' ≠ .ok ⟨some p, m⟩ := by
    intro t s1' rx sock addr m hP' hio hok
    obtain ⟨-, rfl⟩ := uniq hP'
    obtain ⟨peer, hp, h | h⟩ := exchange_source L hr1 (receive_time e rx sock addr).1 hok
    · obtain ⟨q, hq, -, g, -⟩ := hx1
      rw [hp] at hq; cases hq
      exact h g
    · exact (hn t s1' rx sock addr hP' hio).1 peer hp _ h
  have noev : ∀ w k, ¬ KeyEvent C a e p w k := by
    intro w k hk
    cases hk with
    | stale s' s1' q g1 g2 => exact hcp (by rw [← (uniq ⟨s', g1, g2⟩).1]; rfl)
    | exchanged s' s1' t' rx' sock' addr' q m' l g1 g2 g3 g4 g5 => exact noex ⟨s', g1, g2⟩ g3 g4
  have hentry : (a.step C e).app.peers[p]? = a.peers[p]? := by
    have hal := R.aligned
    unfold Aligned at hal
    rw [hs] at hal
    have hal' : s.peers.length = a.peers.length := hal
    obtain ⟨q, hq, -⟩ := hx
    obtain ⟨ap, hap⟩ : ∃ ap, a.peers[p]? = some ap := ⟨_, List.getElem?_eq_getElem (by have := (List.getElem?_eq_some_iff.mp hq).1; omega)⟩
    obtain ⟨ap', g, hP'⟩ := peer_address_changes (C := C) a e p ap hap
    rw [g, hap]
    cases hP' with
    | learned sock addr resp ha _ =>
      obtain ⟨s1', t, rx, g1, g2, g3⟩ := ha
      exact absurd g3 (noex g1 g2)
    | restarted s1' c' g1 _ _ _ => exact absurd (by rw [← (uniq g1).1]; rfl) hcp
    | scouted s1' res d st g1 g2 _ =>
      refine absurd ?_ hcp
      rw [← (uniq g1).1]
      rcases g2 with rfl | rfl <;> rfl
    | same _ _ => rfl
  -- the state of the protocol server
  have rest1 : ∀ o, (∀ t r y, o ≠ .initiate p t r y) → (∀ t r, o ≠ .poll t r) → (∀ rx, o.received = some rx → (∀ q, s1.peers[p]? = some q → ∀ rej, ¬ InitConfFor C s1 rx p q rej) ∧
      ¬ (rx.head? = some 0x83 ∧ OpensTwice C s1 rx)) → AtRest (s1.step C o) p x false := fun o h1 h2 h3 =>
    rest_step L hr1 hx1 ⟨h1, fun t r h => absurd h (h2 t r), fun rx h => (h3 rx h).1, fun rx h => (h3 rx h).2⟩
  have turn : rekeyTime x < e.now + eventGrace → ∀ s', s'.peers.length = s1.peers.length → s'.pollOff = s1.pollOff → ∀ d, Turn s p d → ∃ d' < d, Turn s' p d' := by
    intro hdue s' g1 g2 d ⟨t1, t2⟩
    obtain ⟨q, hq, k1, k2, k3⟩ := hx
    have hd : PeerDue q e.now p (.sendInitiation p) :=
      .sendInitiation k3 (fun y hy => by rw [k1] at hy; cases hy; exact hdue) (fun h hh => by rw [k2] at hh; cases hh)
    obtain ⟨-, g | ⟨d', hd', hp'⟩⟩ := poll_turn hpoll hq hd t1 t2
    · exact absurd g hcp
    · exact ⟨d', hd', by rw [g1, hl1]; omega, by rw [g1, g2]; exact hp'⟩
  suffices hdone : ∃ s', (a.step C e).app.site = .product s' ∧ AtRest s' p x false ∧ s'.peers.length = s1.peers.length ∧ s'.pollOff = s1.pollOff by
    obtain ⟨s', g1, g2, g3, g4⟩ := hdone
    exact ⟨s', g1, g2, noev, hentry, g3.trans hl1, fun h => turn h s' g3 g4⟩
  have done : ∀ s', (a.step C e).app.site = .product s' → AtRest s' p x false → s'.peers.length = s1.peers.length → s'.pollOff = s1.pollOff →
    ∃ s', (a.step C e).app.site = .product s' ∧ AtRest s' p x false ∧ s'.peers.length = s1.peers.length ∧ s'.pollOff = s1.pollOff := fun s' g1 g2 g3 g4 => ⟨s', g1, g2, g3, g4⟩
  have hstep := step_polled (C := C) hP
  cases c with
  | deleteKey p' => exact done s1 (by rw [hstep]; exact deleteKey_site _ p' e) hx1 rfl rfl
  | sendInitiation p' =>
    have hpp : p' ≠ p := fun h => hcp (by rw [h]; rfl)
    obtain ⟨-, -, h | h⟩ := txMaybe_spec (C := C) { a with site := .product s1 } p' (fun s => s.initiate C p' e.later e.rnd0 e.tx) e s1 rfl
    · exact done s1 (by rw [hstep]; exact h) hx1 rfl rfl
    · obtain ⟨g1, g2⟩ := step_pollOff C s1 (.initiate p' e.later e.rnd0 e.tx) (by intros; simp) (by intros; simp)
      exact done (s1.step C (.initiate p' e.later e.rnd0 e.tx)) (by rw [hstep]; exact h) (rest1 _ (fun t r y h => by cases h; exact hpp rfl) nofun nofun) g2 g1
  | sendRetransmission p' =>
    obtain ⟨-, -, h⟩ := txMaybe_spec (C := C) { a with site := .product s1 } p' (fun s => s.retransmit C p' e.tx) e s1 rfl
    rw [retransmit_state] at h
    exact done s1 (by rw [hstep]; exact h.elim id id) hx1 rfl rfl
  | sleep t =>
    cases hio : e.io with
    | none => exact done s1 (by rw [hstep]; unfold served; rw [hio]) hx1 rfl rfl
    | terminate => exact done s1 (by rw [hstep]; unfold served; rw [hio]) hx1 rfl rfl
    | err => exact done s1 (by rw [hstep]; unfold served; rw [hio]) hx1 rfl rfl
    | msg rx sock addr =>
      have hrx := (receive_time e rx sock addr).1
      obtain ⟨g1, g2⟩ := step_pollOff C s1 (e.receive rx sock addr) (receive_noadd e rx sock addr) (by intro t r h; rw [h] at hrx; cases hrx)
      refine done (s1.step C (e.receive rx sock addr)) ?_ (rest1 _ (by intro t r y h; rw [h] at hrx; cases hrx) (by intro t r h; rw [h] at hrx; cases hrx) ?_) g2 g1
      · rw [hstep]
        unfold served
        rw [hio]
        dsimp only
        rw [message_eq]
        cases (e.receive rx sock addr).result C s1 with
        | error y => cases y <;> rfl
        | ok m => exact received_site _ m sock addr e
      · intro rx' h
        rw [hrx] at h; cases h
        exact hn t s1 rx sock addr hP hio

/-! ### Many rounds -/

theorem LeftAlone.refl (p : Nat) (a : App) (out : List Output) : LeftAlone C p a a out out :=
  ⟨rfl, fun s s' h h' => by rw [h] at h'; cases h'; rfl, fun _ _ _ _ => rfl, fun _ _ _ _ _ _ _ => rfl⟩

theorem LeftAlone.trans {p : Nat} {a b c : App} {o1 o2 o3 : List Output} (hb : ∃ s, b.site = .product s) (hbr : b.brokers = a.brokers) (h : LeftAlone C p a b o1 o2)
    (g : LeftAlone C p b c o2 o3) : LeftAlone C p a c o1 o3 := by
  obtain ⟨sb, hsb⟩ := hb
  refine ⟨g.entry.trans h.entry, fun s s' h1 h2 => (g.key sb s' hsb h2).trans (h.key s sb h1 hsb), fun ap f h1 h2 => ?_, fun ap ptr cfg br h1 h2 h3 => ?_⟩
  · exact (g.file ap f (h.entry.trans h1) h2).trans (h.file ap f h1 h2)
  · exact (g.psk ap ptr cfg br (h.entry.trans h1) h2 (hbr ▸ h3)).trans (h.psk ap ptr cfg br h1 h2 h3)

/-- State and outputs of a daemon that has put out `x.2` so far, after the rounds `es`. -/
def playOn (C : Crypto) (x : App × List Output) (es : List World) : App × List Output :=
  es.foldl (fun x e => ((x.1.step C e).app, x.2 ++ (x.1.step C e).out)) x

theorem playOn_append (x : App × List Output) (es es' : List World) : playOn C x (es ++ es') = playOn C (playOn C x es) es' := List.foldl_append ..

theorem round_left (L : C.Lawful) {a : App} (R : Ready C a) (S : Separate a) {s s' : Server} (hs : a.site = .product s) {e : World} (he : e.WF C) (W : Works e) {p : Nat} {x : Session}
    (hx : AtRest s p x false) (hs' : (a.step C e).app.site = .product s') (hx' : AtRest s' p x false) (hno : ∀ w k, ¬ KeyEvent C a e p w k)
    (hen : (a.step C e).app.peers[p]? = a.peers[p]?) (out : List Output) : LeftAlone C p a (a.step C e).app out (out ++ (a.step C e).out) ∧ Later s s' := by
  obtain ⟨-, h1, -, -⟩ := step_frame (C := C) a e he
  obtain ⟨ops, g1, g2⟩ := h1 s hs
  rw [hs'] at g2
  have g2 : s' = s.run C ops := by cases g2; rfl
  have hl : Later s s' := by rw [g2]; exact run_later L ops (fun o ho => (g1 o ho).1) s
  refine ⟨⟨hen, fun s2 s3 h2 h3 => ?_, fun ap f h2 h3 => ((round_shows L R S he W h2 out).2 hno).1 f h3,
    fun ap ptr cfg br h2 h3 h4 => ((round_shows L R S he W h2 out).2 hno).2 ptr cfg br h3 h4⟩, hl⟩
  rw [hs] at h2; cases h2
  rw [hs'] at h3; cases h3
  exact rest_key hx hx' hl

/-- What is true of the state `b` of a daemon that was in state `a`. -/
structure Resting (C : Crypto) (p : Nat) (x : Session) (a b : App) (s sb : Server) (out out' : List Output) : Prop where
  site : b.site = .product sb
  ready : Ready C b
  separate : Separate b
  rest : AtRest sb p x false
  left : LeftAlone C p a b out out'
  later : Later s sb
  len : sb.peers.length = s.peers.length
  brokers : b.brokers = a.brokers

theorem Resting.refl {p : Nat} {x : Session} {a : App} {s : Server} (R : Ready C a) (S : Separate a) (hs : a.site = .product s) (hx : AtRest s p x false) (out : List Output) :
    Resting C p x a a s s out out := ⟨hs, R, S, hx, .refl p a out, .refl s, rfl, rfl⟩

theorem Resting.trans {p : Nat} {x : Session} {a b c : App} {s sb sc : Server} {o1 o2 o3 : List Output} (h : Resting C p x a b s sb o1 o2) (g : Resting C p x b c sb sc o2 o3) :
    Resting C p x a c s sc o1 o3 :=
  ⟨g.site, g.ready, g.separate, g.rest, .trans ⟨sb, h.site⟩ h.brokers h.left g.left, h.later.trans g.later, g.len.trans h.len, g.brokers.trans h.brokers⟩

theorem round_resting (L : C.Lawful) {a : App} (R : Ready C a) (S : Separate a) {s : Server} (hs : a.site = .product s) {e : World} (he : e.WF C) (W : Works e) {p : Nat} {x : Session}
    (hx : AtRest s p x false) (ht : e.now + eventGrace ≤ x.createdAt + secs 180) (hn : NoInitConf C p a e) (out : List Output) :
    (∃ s1, Polled a e (.sendInitiation p) s1 ∧ AtRest s1 p x true ∧ rekeyTime x < e.now + eventGrace) ∨
    (∃ s', Resting C p x a (a.step C e).app s s' out (out ++ (a.step C e).out) ∧
      (rekeyTime x < e.now + eventGrace → ∀ d, Turn s p d → ∃ d' < d, Turn s' p d')) := by
  rcases round_rest L R hs he hx ht hn with h | ⟨s', h1, h2, h3, h4, h5, h6⟩
  · exact .inl h
  · obtain ⟨g1, g2⟩ := round_left L R S hs he W hx h1 h2 h3 h4 out
    exact .inr ⟨s', ⟨h1, R.step e he, S.step e he, h2, g1, g2, h5, (step_frame (C := C) a e he).1.brokers⟩, h6⟩

/-- **C141** (silence). Until the key is due for renewal, a daemon whose I/O works does nothing about the peer, whatever happens in its rounds, unless the peer itself renews the key. -/
theorem daemon_leaves_alone (L : C.Lawful) {p : Nat} {x : Session} : ∀ (es : List World) {a : App} {s : Server} (out : List Output), Ready C a → Separate a → a.site = .product s →
    AtRest s p x false → (∀ e ∈ es, e.WF C ∧ Works e ∧ e.now + eventGrace ≤ rekeyTime x) → NoInitConfs C p a es →
    ∃ s', Resting C p x a (playOn C (a, out) es).1 s s' out (playOn C (a, out) es).2
  | [], a, s, out, R, S, hs, hx, _, _ => ⟨s, .refl R S hs hx out⟩
  | e :: es, a, s, out, R, S, hs, hx, h, hn => by
    obtain ⟨h1, h2, h3⟩ := h e (List.mem_cons_self ..)
    rcases round_resting L R S hs h1 h2 hx (Int.le_trans h3 (rekeyTime_le x)) hn.1 out with ⟨s1, -, -, h4⟩ | ⟨s', T, -⟩
    · exact absurd h4 (Int.not_lt.mpr h3)
    · obtain ⟨s2, T2⟩ := daemon_leaves_alone L es (out ++ (a.step C e).out) T.ready T.separate T.site T.rest (fun e' he' => h e' (List.mem_cons_of_mem _ he')) hn.2
      exact ⟨s2, T.trans T2⟩

/-- when the renewal is due, no message is read -/
theorem due_noInitConf {a : App} {s : Server} (hs : a.site = .product s) {e : World} {p : Nat} {x : Session} (hx : AtRest s p x false) (hd : rekeyTime x < e.now + eventGrace) :
    NoInitConf C p a e := by
  rintro t s1 rx sock addr ⟨s', g1, g2⟩ -
  rw [hs] at g1; cases g1
  obtain ⟨q, hq, k1, k2, k3⟩ := hx
  exact absurd ⟨p, q, hq, .sendInitiation k3 (fun y hy => by rw [k1] at hy; cases hy; exact hd) (fun h hh => by rw [k2] at hh; cases hh)⟩
    (((poll_exact g2).2 t rfl).1 (.sendInitiation p))

theorem due_rounds (L : C.Lawful) {p : Nat} {x : Session} : ∀ (es : List World) {a : App} {s : Server} (out : List Output) (d : Nat), Ready C a → Separate a → a.site = .product s →
    AtRest s p x false → (∀ e ∈ es, e.WF C ∧ Works e ∧ rekeyTime x < e.now + eventGrace ∧ e.now + eventGrace ≤ x.createdAt + secs 180) → Turn s p d → d < es.length →
    ∃ pre e post s' s1, es = pre ++ e :: post ∧ pre.length ≤ d ∧ Resting C p x a (playOn C (a, out) pre).1 s s' out (playOn C (a, out) pre).2 ∧
      Polled (playOn C (a, out) pre).1 e (.sendInitiation p) s1 ∧ AtRest s1 p x true
  | [], _, _, _, _, _, _, _, _, _, _, h => absurd h (Nat.not_lt_zero _)
  | e :: es, a, s, out, d, R, S, hs, hx, h, ht, hd => by
    obtain ⟨h1, h2, h3, h4⟩ := h e (List.mem_cons_self ..)
    rcases round_resting L R S hs h1 h2 hx h4 (due_noInitConf hs hx h3) out with ⟨s1, g1, g2, -⟩ | ⟨s', T, ht'⟩
    · exact ⟨[], e, es, s, s1, rfl, Nat.zero_le _, .refl R S hs hx out, g1, g2⟩
    · obtain ⟨d', hd', ht'⟩ := ht' h3 d ht
      rw [List.length_cons] at hd
      obtain ⟨pre, e', post, s2, s1, k1, k2, k3, k4, k5⟩ :=
        due_rounds L es (out ++ (a.step C e).out) d' T.ready T.separate T.site T.rest (fun e' he' => h e' (List.mem_cons_of_mem _ he')) ht' (by omega)
      exact ⟨e :: pre, e', post, s2, s1, by rw [k1]; rfl, by rw [List.length_cons]; omega, T.trans k3, k4, k5⟩

theorem turn_exists {s : Server} {p : Nat} (hp : p < s.peers.length) : ∃ d, Turn s p d := by
  obtain ⟨hmem, -⟩ := peerPtrsOff_spec s s.pollOff
  have := (hmem p).mpr hp
  unfold peerPtrsOff at this
  simp only [List.mem_map, List.mem_range] at this
  obtain ⟨d, hd, hpd⟩ := this
  exact ⟨d, hd, hpd.symm⟩

/-- **C141**, the part that holds. A daemon whose I/O works has a session with peer `p`, and no request of its protocol server to start a handshake with `p` was ignored (see
`responder_never_renews`). In the rounds `es1`, which take place before the key is due for renewal (120 s or 130 s after the exchange) and in which the
peer does not renew the key itself, the daemon does nothing about the peer. Then come at least as many rounds as it has peers, while the renewal is due but the key not yet expired (180 s). In
one of them, the `n`-th at the latest if there are `n` peers, the daemon starts a handshake with the peer; until then it has done nothing else about it and the key is in force. -/
theorem daemon_renews_partial (L : C.Lawful) {a : App} (R : Ready C a) (S : Separate a) {s : Server} (hs : a.site = .product s) {p : Nat} {x : Session} (hx : AtRest s p x false)
    {es1 es2 : List World} (h1 : ∀ e ∈ es1, e.WF C ∧ Works e ∧ e.now + eventGrace ≤ rekeyTime x) (hn : NoInitConfs C p a es1)
    (h2 : ∀ e ∈ es2, e.WF C ∧ Works e ∧ rekeyTime x < e.now + eventGrace ∧ e.now + eventGrace ≤ x.createdAt + secs 180) (hl : s.peers.length ≤ es2.length) :
    ∃ pre e post, es2 = pre ++ e :: post ∧ pre.length < s.peers.length ∧
      LeftAlone C p a (played C a (es1 ++ pre)).1 [] (played C a (es1 ++ pre)).2 ∧ Ready C (played C a (es1 ++ pre)).1 ∧
      ∃ s1, Polled (played C a (es1 ++ pre)).1 e (.sendInitiation p) s1 ∧ AtRest s1 p x true ∧ Later s s1 ∧ s1.osk C p = s.osk C p := by
  obtain ⟨s', T⟩ := daemon_leaves_alone L es1 [] R S hs hx h1 hn
  have hp : p < s'.peers.length := by obtain ⟨q, hq, -⟩ := T.rest; exact (List.getElem?_eq_some_iff.mp hq).1
  obtain ⟨d, hd⟩ := turn_exists hp
  have hdl : d < s.peers.length := by rw [← T.len]; exact hd.1
  obtain ⟨pre, e, post, s2, s1, k1, k2, k3, k4, k5⟩ := due_rounds L es2 (playOn C (a, []) es1).2 d T.ready T.separate T.site T.rest h2 hd (by omega)
  have hpl : playOn C ((playOn C (a, []) es1).1, (playOn C (a, []) es1).2) pre = played C a (es1 ++ pre) := (playOn_append (a, []) es1 pre).symm
  rw [hpl] at k3 k4
  have T2 := T.trans k3
  refine ⟨pre, e, post, k1, by omega, T2.left, T2.ready, s1, k4, k5, ?_⟩
  have hl1 : Later s2 s1 := by
    obtain ⟨s3, g1, g2⟩ := k4
    rw [T2.site] at g1; cases g1
    have he := (h2 e (by rw [k1]; exact List.mem_append_right _ (List.mem_cons_self ..))).1
    rw [poll_op (C := C) s2 e g2]
    exact step_later L s2 _ he.prnd
  exact ⟨T2.later.trans hl1, (rest_key T2.rest k5 hl1).trans (T2.left.key s s2 hs T2.site)⟩

/-- **C141** (the handshake; partial, as before). If the peers are set up for each other, the address of the peer is known, the transmit buffer is large enough and the session id that is drawn is not in use, then in that
round the first message of a handshake is sent to the peer (and with `daemons_agree`, C97, and `daemons_agree_despite_loss`, C112, both daemons get to the same new key). The old key is in force meanwhile. -/
theorem daemon_sends_renewal_partial (L : C.Lawful) (K : C.KemTotal) {a : App} (R : Ready C a) (S : Separate a) {s sB : Server} (hs : a.site = .product s) {p pb : Nat} {eb ea : Peer}
    (M : Mutual C s sB p pb eb ea) {x : Session} (hx : AtRest s p x false)
    {ap : AppPeer} (hap : a.peers[p]? = some ap) {sock : Nat} {addr : Addr} (hep : ap.endpoint = some (.bound sock addr))
    {es1 es2 : List World} (h1 : ∀ e ∈ es1, e.WF C ∧ Works e ∧ e.now + eventGrace ≤ rekeyTime x) (hn : NoInitConfs C p a es1)
    (h2 : ∀ e ∈ es2, e.WF C ∧ Works e ∧ rekeyTime x < e.now + eventGrace ∧ e.now + eventGrace ≤ x.createdAt + secs 180) (hl : s.peers.length ≤ es2.length)
    (hf : ∀ e ∈ es2, FitsAll C e.tx) :
    ∃ pre e post, es2 = pre ++ e :: post ∧ pre.length < s.peers.length ∧ ∃ s1, Polled (played C a (es1 ++ pre)).1 e (.sendInitiation p) s1 ∧
      (∃ eb' ea', Mutual C s1 sB p pb eb' ea') ∧
      (s1.index (.sid e.rnd0.sid) = none → ∃ m A1, s1.initiate C p e.later e.rnd0 e.tx = (.ok m, A1) ∧
        (played C a (es1 ++ pre)).1.step C e = ⟨.next, { (played C a (es1 ++ pre)).1 with site := .product A1 }, [.datagram sock addr m]⟩ ∧ A1.osk C p = s.osk C p) := by
  obtain ⟨pre, e, post, k1, k2, k3, k4, s1, k5, k6, k7, k8⟩ := daemon_renews_partial L R S hs hx h1 hn h2 hl
  have hmem : e ∈ es2 := by rw [k1]; exact List.mem_append_right _ (List.mem_cons_self ..)
  obtain ⟨he, hw, -, -⟩ := h2 e hmem
  have hr1 : Reachable C s1 := by
    obtain ⟨s2, g1, g2⟩ := k5
    rw [poll_op (C := C) s2 e g2]
    exact .step _ _ (k4.reach s2 g1) he.prnd
  obtain ⟨eb', ea', M'⟩ := M.lasts k7 (.refl sB) hr1 M.reachB
  refine ⟨pre, e, post, k1, k2, s1, k5, ⟨eb', ea', M'⟩, fun hsid => ?_⟩
  have hnew : (s1.handshake p).map (·.core.sidi) ≠ some e.rnd0.sid := by
    obtain ⟨q, hq, -, g, -⟩ := k6
    unfold Server.handshake
    rw [hq]
    show (q.handshake).map _ ≠ _
    rw [g]; exact nofun
  have F := hf e hmem
  obtain ⟨m, A1, hini, -⟩ := key_agreement_interleaved L K M' (rA := e.rnd0) (rB := e.rnd) he.rnd0 he.rnd hsid hnew e.later 0 0 0 0 e.rnd e.rnd e.rnd
    (F .initHello) (F .respHello) (F .respHello) (F .respHello) (F .respHello)
  refine ⟨m, A1, hini, ?_, ?_⟩
  · have := (due_message_sent (C := C) (played C a (es1 ++ pre)).1 e p s1 _ k5 ap (k3.entry.trans hap) (fun s => s.initiate C p e.later e.rnd0 e.tx) (.inl ⟨rfl, rfl⟩)).2.1
      sock addr m hep (by rw [hini]) hw.send
    rw [this, hini]
  · have := initiate_osk (C := C) s1 p e.later e.rnd0 e.tx p
    rw [hini] at this
    exact this.trans k8

/-! ### A concrete case -/
namespace Ex
open Verif.Ex

theorem separate_one {a : App} (h : a.peers.length = 1) : Separate a := by
  have one : ∀ (i j : Nat) ap aq, a.peers[i]? = some ap → a.peers[j]? = some aq → i = j := by
    intro i j ap aq hi hj
    have hi := (List.getElem?_eq_some_iff.mp hi).1
    have hj := (List.getElem?_eq_some_iff.mp hj).1
    omega
  exact ⟨fun i j ap aq hi hj hij => absurd (one i j ap aq hi hj) hij, fun i j ap aq hi hj hij => absurd (one i j ap aq hi hj) hij⟩

theorem r4_ready : Ready Toy.crypto r4.app := r2_ready.step e4 (w_WF _ _ _)
theorem r5_ready : Ready Toy.crypto r5.app := r3_ready.step e5 (w_WF _ _ _)

end Ex

open Ex Verif.Ex in
/-- **C141 is false as stated.** A daemon has a peer whose address is not configured; the peer starts the exchange. In its first round the daemon was asked to start a handshake, and did nothing as it
knew no address. Now that it knows the address, it never starts a handshake: all its I/O works, 120 s after the exchange nothing is sent, and after 180 s the key is erased. -/
theorem responder_never_renews : (∀ e ∈ [tick 1, e2, e4, tick 1200100, tick 1300100, tick 1700000, tick 1790000, tick 1800100], e.WF Toy.crypto ∧ Works e) ∧
    (app (B0 .v03)).peers.map (·.endpoint) = [none] ∧ (played Toy.crypto (app (B0 .v03)) [tick 1, e2, e4]).1.peers.map (·.endpoint) = [some (.bound 0 addr)] ∧
    (∃ k, (srv (played Toy.crypto (app (B0 .v03)) [tick 1, e2, e4]).1).osk Toy.crypto 0 = .ok k) ∧
    (played Toy.crypto (played Toy.crypto (app (B0 .v03)) [tick 1, e2, e4]).1 [tick 1200100, tick 1300100, tick 1700000, tick 1790000]).2 = [] ∧
    (∀ k, (srv (played Toy.crypto (app (B0 .v03)) [tick 1, e2, e4, tick 1200100, tick 1300100, tick 1700000, tick 1790000, tick 1800100]).1).osk Toy.crypto 0 ≠ .ok k) := by
  refine ⟨?_, by decide +kernel, by decide +kernel, ?_, by decide +kernel, ?_⟩
  · intro e he
    simp only [List.mem_cons, List.not_mem_nil, or_false] at he
    rcases he with rfl | rfl | rfl | rfl | rfl | rfl | rfl | rfl <;> exact ⟨w_WF _ _ _, w_works _ _ _⟩
  · have h : ((srv (played Toy.crypto (app (B0 .v03)) [tick 1, e2, e4]).1).osk Toy.crypto 0).toOption.isSome = true := by decide +kernel
    cases hk : (srv (played Toy.crypto (app (B0 .v03)) [tick 1, e2, e4]).1).osk Toy.crypto 0 with
    | ok k => exact ⟨k, rfl⟩
    | error x => rw [hk] at h; cases h
  · have h : ((srv (played Toy.crypto (app (B0 .v03)) [tick 1, e2, e4, tick 1200100, tick 1300100, tick 1700000, tick 1790000, tick 1800100]).1).osk Toy.crypto 0).toOption.isNone = true := by
      decide +kernel
    intro k hk
    rw [hk] at h; cases h

open Ex Verif.Ex in
/-- C141: the hypotheses of `daemon_renews_partial` are met by the initiator of the exchange of C97 … -/
example : Ready Toy.crypto r5.app ∧ Separate r5.app ∧ r5.app.site = .product (srv r5.app) ∧ (srv r5.app).peers.length = 1 ∧
      ∃ x, AtRest (srv r5.app) 0 x false ∧ NoInitConfs Toy.crypto 0 r5.app [tick 100] ∧
        (∀ e ∈ [tick 100], e.WF Toy.crypto ∧ Works e ∧ e.now + eventGrace ≤ rekeyTime x) ∧
        (∀ e ∈ [tick 1300100], e.WF Toy.crypto ∧ Works e ∧ rekeyTime x < e.now + eventGrace ∧ e.now + eventGrace ≤ x.createdAt + secs 180) := by
  have noconf : ∀ a, NoInitConfs Toy.crypto 0 a [tick 100] := fun a => ⟨fun t s1 rx sock ad _ hio => (by cases hio), trivial⟩
  refine ⟨r5_ready, separate_one (by decide +kernel), site_of (by decide +kernel), by decide +kernel, ?_⟩
  obtain ⟨x, h1, h2, h3⟩ := rests_atRest (s := srv r5.app) (role := .initiator) (t := 3) (by decide +kernel)
  refine ⟨x, h1, noconf _, ?_, ?_⟩
  · intro e he
    rw [List.mem_singleton.mp he]
    refine ⟨w_WF _ _ _, w_works _ _ _, ?_⟩
    unfold rekeyTime; rw [h2, h3]; decide
  · intro e he
    rw [List.mem_singleton.mp he]
    refine ⟨w_WF _ _ _, w_works _ _ _, ?_, ?_⟩
    · unfold rekeyTime; rw [h2, h3]; decide
    · rw [h3]; decide

open Ex Verif.Ex in
/-- … computed: it sends an InitHello to the responder. -/
example : (played Toy.crypto r5.app [tick 100, tick 1300100]).2.map (fun o => match o with | .datagram k ad m => (k, decide (ad = addrB), m.head?) | _ => (9, false, none)) =
    [(0, true, some 0x81)] := by decide +kernel

end App
end Verif
