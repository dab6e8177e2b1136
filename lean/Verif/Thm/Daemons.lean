import Verif.Thm.EndToEnd
import Verif.Thm.Recovery
/-
Two daemons that are configured for each other, over a network that loses, repeats and delays datagrams: both put out the same key.
-/
namespace Verif
open Server FileIO
namespace App
variable {C : Crypto}

/-! ### Specification -/

/-- The protocol server has come from state `s` to state `s'` by calls of its interface (which is all that the rounds of an event loop do to it: `App.step_frame`),
each of which satisfied `P` in the state in which it was made. -/
def After (C : Crypto) (P : Server → Op → Prop) (s s' : Server) : Prop := ∃ ops, Along C P s ops ∧ s' = s.run C ops

/-- The round `e` of the application finds that a retransmission to peer `p` is due, in state `s` of the protocol server; the address of the peer is known, and the
network takes the datagram. -/
structure Resends (C : Crypto) (a : App) (e : World) (s : Server) (p sock : Nat) (addr : Addr) : Prop where
  due : Polled a e (.sendRetransmission p) s
  peer : ∃ ap, a.peers[p]? = some ap ∧ ap.endpoint = some (.bound sock addr)
  send : e.sendTo = true
  buf : FitsAll C e.tx

theorem After.refl (P : Server → Op → Prop) (s : Server) : After C P s s := ⟨[], trivial, rfl⟩

/-- the id of a peer is fixed -/
theorem pid_run (L : C.Lawful) {p : Nat} : ∀ {s : Server} {ops : List Op}, Reachable C s → (∀ o ∈ ops, o.WF C) → ∀ {q : Peer}, s.peers[p]? = some q →
    ∃ q', (s.run C ops).peers[p]? = some q' ∧ pidt C q' = pidt C q := by
  intro s ops
  induction ops generalizing s with
  | nil => intro _ _ q hq; exact ⟨q, hq, rfl⟩
  | cons o ops ih =>
    intro hr ho q hq
    obtain ⟨q1, g1, -, g2, g3, -⟩ := (peer_pointers_stable L hr).1 o (ho o (List.mem_cons_self ..)) p q hq
    obtain ⟨q2, f1, f2⟩ := ih (.step _ _ hr (ho o (List.mem_cons_self ..))) (fun o' h => ho o' (List.mem_cons_of_mem _ h)) g1
    exact ⟨q2, f1, by rw [f2]; unfold pidt; rw [g2, g3]⟩

/-- a due retransmission is sent -/
theorem resends {a : App} {e : World} {s s2 : Server} {p sock : Nat} {addr : Addr} (g : Resends C a e s p sock addr) {m : Bytes}
    (h : s.retransmit C p e.tx = (.ok m, s2)) : a.step C e = ⟨.next, { a with site := .product s2 }, [.datagram sock addr m]⟩ := by
  obtain ⟨ap, hap, hep⟩ := g.peer
  have := (due_message_sent (C := C) a e p s _ g.due ap hap (fun s => s.retransmit C p e.tx) (.inr ⟨rfl, rfl⟩)).2.1 sock addr m hep (by rw [h]) g.send
  rw [this, h]

/-- **C112.** -/
theorem daemons_agree_despite_loss (L : C.Lawful) (K : C.KemTotal) {A B : App} {sA sB : Server} {pa pb : Nat} {eb ea : Peer} (hfA : FreshReachable C sA)
    (M : Mutual C sA sB pa pb eb ea)
    -- A is to initiate a handshake with B, whose address it knows
    {e1 : World} (he1 : e1.WF C) (hb1 : FitsAll C e1.tx) (hP1 : Polled A e1 (.sendInitiation pa) sA) (hw1 : e1.sendTo = true)
    {apA : AppPeer} (hapA : A.peers[pa]? = some apA) {sockA : Nat} {addrB : Addr} (hep : apA.endpoint = some (.bound sockA addrB))
    -- the session id that A draws is not in use; the biscuit that B last accepted is older than the one it gives next
    (hsidA : sA.index (.sid e1.rnd0.sid) = none) (hnewA : (sA.handshake pa).map (·.core.sidi) ≠ some e1.rnd0.sid)
    (hused : leNat ea.biscuitUsed < leNat sB.biscuitCtr) :
    -- it sends InitHello to B
    ∃ m1 A1, A.step C e1 = ⟨.next, { A with site := .product A1 }, [.datagram sockA addrB m1]⟩ ∧
    -- whenever a retransmission falls due while the handshake is left alone, it sends InitHello again, to the current address
    (∀ (A' : App) sA' e sock addr, After C (LeavesHandshake C pa) A1 sA' → Resends C A' e sA' pa sock addr →
      ∃ m1', A'.step C e = ⟨.next, { A' with site := .product sA' }, [.datagram sock addr m1']⟩ ∧ SameButCookie m1 m1') ∧
    -- B receives any of these, from whatever address, and answers to that address
    ∀ m1', SameButCookie m1 m1' → HelloUnambiguous C sB ea.version m1' →
    ∀ e2 : World, e2.WF C → e2.sendTo = true → 0 ≤ e2.later → ∀ sock2 addr2, Gets C B e2 sB m1' sock2 addr2 →
    ∃ m2 B1, B.step C e2 = ⟨.next, { B with site := .product B1 }, [.datagram sock2 addr2 m2]⟩ ∧
    -- A receives the answer, after any rounds that left the handshake alone, and puts out a key
    ∀ (A' : App) sA' e3 sock3 addr3, Ready C A' → e3.WF C → Works e3 → Gets C A' e3 sA' m2 sock3 addr3 → After C (LeavesHandshake C pa) A1 sA' →
    ∃ m3 A2 k, (A'.step C e3).app.site = .product A2 ∧ .datagram sock3 addr3 m3 ∈ (A'.step C e3).out ∧
      PutOut A' (A'.step C e3) pa (pidt C eb) k sock3 addr3 ∧
    -- whenever a retransmission falls due while handshake and session are left alone, it sends the same InitConf again
    (∀ (A'' : App) sA'' e sock addr, After C (LeavesSession C pa) A2 sA'' → Resends C A'' e sA'' pa sock addr →
      A''.step C e = ⟨.next, { A'' with site := .product sA'' }, [.datagram sock addr m3]⟩) ∧
    -- B receives InitConf, after any rounds within 300 s that accept no other one, and puts out the same key
    ∀ (B' : App) sB' e4 sock4 addr4, Ready C B' → e4.WF C → Works e4 → Gets C B' e4 sB' m3 sock4 addr4 → After C (LeavesOpen C pb e2.later) B1 sB' →
      ¬ SidTaken sB' pb (e2.rnd ea.version.hash).sid → ConfUnambiguous C sB' ea.version m3 →
    ∃ m4 B2, (B'.step C e4).app.site = .product B2 ∧ .datagram sock4 addr4 m4 ∈ (B'.step C e4).out ∧
      PutOut B' (B'.step C e4) pb (pidt C ea) k sock4 addr4 ∧
    -- it answers further copies in the same way, and puts out nothing
    (∀ (B'' : App) sB'' e sock addr, After C (fun _ _ => True) B2 sB'' → sB''.known pb = B2.known pb → e.sendTo = true → Gets C B'' e sB'' m3 sock addr →
      ∃ m4', B''.step C e = ⟨.next, { B'' with site := .product sB'' }, [.datagram sock addr m4']⟩ ∧ SameButCookie m4 m4') ∧
    -- A receives any of these answers, after any rounds that left handshake and session alone: the handshake is over, and the key is kept
    ∀ m4', SameButCookie m4 m4' → ∀ (A'' : App) sA'' e5 sock5 addr5, Gets C A'' e5 sA'' m4' sock5 addr5 → After C (LeavesSession C pa) A2 sA'' →
    ∃ A3, A''.step C e5 = ⟨.next, { A'' with site := .product A3 }, []⟩ ∧ A3.handshake pa = none ∧ A3.osk C pa = .ok k := by
  have fits : ∀ {tx : Bytes}, FitsAll C tx → Env.size (InitHello.size C) ≤ tx.length ∧ Env.size (RespHello.size C) ≤ tx.length :=
    fun h => ⟨h .initHello, h .respHello⟩
  obtain ⟨m1, A1, hini, H1⟩ := completes_despite_loss L K hfA M (rA := e1.rnd0) (rB := e1.rnd) he1.rnd0 he1.rnd hsidA hnewA hused e1.later 0 0 0 0 (Int.le_refl 0)
    e1.rnd e1.rnd e1.rnd he1.rnd he1.rnd (fits hb1).1 (fits hb1).2 (fits hb1).2 (fits hb1).2 (fits hb1).2
  refine ⟨m1, A1, ?_, ?_, ?_⟩
  · have := (due_message_sent (C := C) A e1 pa sA _ hP1 apA hapA (fun s => s.initiate C pa e1.later e1.rnd0 e1.tx) (.inl ⟨rfl, rfl⟩)).2.1 sockA addrB m1 hep (by rw [hini]) hw1
    rw [this, hini]
  · rintro A' sA' e sock addr ⟨ops, al, rfl⟩ R
    obtain ⟨m1', h1, h2⟩ := (H1 ops al).1 e.tx (fits R.buf).1
    exact ⟨m1', resends R h1, h2⟩
  intro m1' hm1' hun e2 he2 hs2 h0 sock2 addr2 G2
  obtain ⟨m1x, A1x, hinix, H2⟩ := completes_despite_loss L K hfA M (rA := e1.rnd0) (rB := e2.rnd) he1.rnd0 he2.rnd hsidA hnewA hused e1.later e2.later 0 0 0 h0
    e1.rnd e1.rnd e1.rnd he1.rnd he1.rnd (fits hb1).1 (fits G2.buf).2 (fits hb1).2 (fits hb1).2 (fits hb1).2
  rw [hini] at hinix; cases hinix
  obtain ⟨m2, B1, hm2, -⟩ := (H2 [] trivial).2 m1' hm1' hun
  refine ⟨m2, B1, gets_answer G2 hs2 hm2, ?_⟩
  rintro A' sA' e3 sock3 addr3 R3 he3 W3 G3 ⟨opsA, alA, rfl⟩
  obtain ⟨m1x, A1x, hinix, H3⟩ := completes_despite_loss L K hfA M (rA := e1.rnd0) (rB := e2.rnd) he1.rnd0 he2.rnd hsidA hnewA hused e1.later e2.later e3.later 0 0 h0
    e3.rnd e1.rnd e1.rnd he3.rnd he1.rnd (fits hb1).1 (fits G2.buf).2 (fits G3.buf).2 (fits hb1).2 (fits hb1).2
  rw [hini] at hinix; cases hinix
  obtain ⟨m2x, B1x, hm2x, m3, A2, hm3, hre, -⟩ := (H3 opsA alA).2 m1' hm1' hun
  rw [hm2] at hm2x; cases hm2x
  have hosk : ∃ k, A2.osk C pa = .ok k := by
    obtain ⟨-, hr3, hs3, -⟩ := gets_ok G3 hm3
    obtain ⟨-, -, -, -, -, -, hk⟩ := exchange_session (C := C) (e3.receive m2 sock3 addr3) m2 (receive_time e3 m2 sock3 addr3).1 e3.later (receive_time e3 m2 sock3 addr3).2 pa _ hr3
    rw [hs3] at hk; exact hk
  obtain ⟨k, hk⟩ := hosk
  obtain ⟨hst, hd, qb, hqb, hput⟩ := gets_exchange L R3 he3 W3 G3 hm3 hk
  have hpid : pidt C qb = pidt C eb := by
    obtain ⟨x, g1, g2⟩ := pid_run L M.reachA (ops := .initiate pa e1.later e1.rnd0 e1.tx :: opsA)
      (by intro o ho; rcases List.mem_cons.mp ho with rfl | ho; exact he1.rnd0; exact alA.wf o ho) M.atA
    rw [show sA.run C (.initiate pa e1.later e1.rnd0 e1.tx :: opsA) = A1.run C opsA by show (sA.step C _).run C opsA = _; simp only [Server.step, hini]] at g1
    rw [hqb] at g1; cases g1
    exact g2
  rw [hpid] at hput
  refine ⟨m3, A2, k, hst, hd, hput, ?_, ?_⟩
  · rintro A'' sA'' e sock addr ⟨ops, al, rfl⟩ R
    exact resends R (hre ops al e.tx (fits R.buf).1)
  rintro B' sB' e4 sock4 addr4 R4 he4 W4 G4 ⟨opsB, alB, rfl⟩ hnt hcu
  obtain ⟨m1x, A1x, hinix, H4⟩ := completes_despite_loss L K hfA M (rA := e1.rnd0) (rB := e2.rnd) he1.rnd0 he2.rnd hsidA hnewA hused e1.later e2.later e3.later e4.later 0 h0
    e3.rnd e4.rnd e1.rnd he3.rnd he4.rnd (fits hb1).1 (fits G2.buf).2 (fits G3.buf).2 (fits G4.buf).2 (fits hb1).2
  rw [hini] at hinix; cases hinix
  obtain ⟨m2x, B1x, hm2x, m3x, A2x, hm3x, -, H4⟩ := (H4 opsA alA).2 m1' hm1' hun
  rw [hm2] at hm2x; cases hm2x
  rw [hm3] at hm3x; cases hm3x
  obtain ⟨m4, B2, hm4, k', hk1, hk2, hrep, -⟩ := H4 opsB alB hnt hcu
  rw [hk] at hk1; cases hk1
  obtain ⟨hst4, hd4, qa, hqa, hput4⟩ := gets_exchange L R4 he4 W4 G4 hm4 hk2
  have hpid4 : pidt C qa = pidt C ea := by
    obtain ⟨x, g1, g2⟩ := pid_run L M.reachB (ops := .handleMsg m1' e2.tx e2.later e2.rnd :: opsB)
      (by intro o ho; rcases List.mem_cons.mp ho with rfl | ho; exact he2.rnd; exact alB.wf o ho) M.atB
    rw [show sB.run C (.handleMsg m1' e2.tx e2.later e2.rnd :: opsB) = B1.run C opsB by show (sB.step C _).run C opsB = _; simp only [Server.step, hm2]] at g1
    rw [hqa] at g1; cases g1
    exact g2
  rw [hpid4] at hput4
  refine ⟨m4, B2, hst4, hd4, hput4, ?_, ?_⟩
  · rintro B'' sB'' e sock addr ⟨ops, al, rfl⟩ hkn hs G
    obtain ⟨m4', h1, h2⟩ := hrep ops al.wf hkn e.tx e.later e.rnd (fits G.buf).2
    exact ⟨m4', gets_answer G hs h1, h2⟩
  · rintro m4' hm4' A'' sA'' e5 sock5 addr5 G5 ⟨ops, al, rfl⟩
    obtain ⟨m1x, A1x, hinix, H5⟩ := completes_despite_loss L K hfA M (rA := e1.rnd0) (rB := e2.rnd) he1.rnd0 he2.rnd hsidA hnewA hused e1.later e2.later e3.later e4.later e5.later h0
      e3.rnd e4.rnd e5.rnd he3.rnd he4.rnd (fits hb1).1 (fits G2.buf).2 (fits G3.buf).2 (fits G4.buf).2 (fits G5.buf).2
    rw [hini] at hinix; cases hinix
    obtain ⟨m2x, B1x, hm2x, m3x, A2x, hm3x, -, H5⟩ := (H5 opsA alA).2 m1' hm1' hun
    rw [hm2] at hm2x; cases hm2x
    rw [hm3] at hm3x; cases hm3x
    obtain ⟨m4x, B2x, hm4x, kx, hk1x, -, -, H5⟩ := H5 opsB alB hnt hcu
    rw [hm4] at hm4x; cases hm4x
    rw [hk] at hk1x; cases hk1x
    obtain ⟨A3, hm5, hn, hk3⟩ := H5 ops al m4' hm4'
    exact ⟨A3, gets_silent G5 hm5, hn, hk3⟩

/-! ### A concrete exchange in which every message is lost once -/
namespace Ex
open Verif.Ex

/-- a round in which nothing arrives -/
def tick (t : Time) : World := w t 60 .none

-- the InitHello is lost: after two seconds it is sent again (`l1`), and answered (`l2`)
def l1 : Res := r1.app.step Toy.crypto (tick 20000)
def l2 : Res := dB.step Toy.crypto (w 20001 20 (.msg (firstMsg l1) 0 addr))
-- the initiator accepts the answer (`l3`), and the InitConf is lost: it is sent again (`l4`), and accepted by the responder (`l5`)
def l3 : Res := l1.app.step Toy.crypto (w 20002 30 (.msg (firstMsg l2) 0 addrB))
def l4 : Res := l3.app.step Toy.crypto (tick 60000)
def l5 : Res := l2.app.step Toy.crypto (w 60001 40 (.msg (firstMsg l4) 0 addr))
-- the acknowledgement is lost: the InitConf is sent once more (`l6`), answered once more (`l7`), and the initiator finishes (`l8`)
def l6 : Res := l4.app.step Toy.crypto (tick 120000)
def l7 : Res := l5.app.step Toy.crypto (w 120001 45 (.msg (firstMsg l6) 0 addr))
def l8 : Res := l6.app.step Toy.crypto (w 120002 50 (.msg (firstMsg l7) 0 addrB))

theorem leaves_poll {s : Server} {p : Nat} {t c : Time} {r : PollRnd} (h : (s.handshake p).map (·.createdAt) = some c) (ht : t + eventGrace ≤ c + secs 180) :
    LeavesHandshake Toy.crypto p s (.poll t r) := by
  refine ⟨fun _ _ _ h => (nomatch h), ?_, fun _ h => (nomatch h), fun _ h => (nomatch h)⟩
  intro t' r' e x hx
  cases e
  rw [hx] at h
  simp only [Option.map_some, Option.some.injEq] at h
  rw [h]; exact ht

theorem leaves_retransmit {s : Server} {p i : Nat} {x : Bytes} : LeavesHandshake Toy.crypto p s (.retransmit i x) :=
  ⟨fun _ _ _ h => (nomatch h), fun _ _ h => (nomatch h), fun _ h => (nomatch h), fun _ h => (nomatch h)⟩

theorem session_poll {s : Server} {p : Nat} {t c d : Time} {r : PollRnd} (h : (s.handshake p).map (·.createdAt) = some c) (ht : t + eventGrace ≤ c + secs 180)
    (hs : (s.session p).map (·.createdAt) = some d) (hd : t + eventGrace ≤ d + secs 180) : LeavesSession Toy.crypto p s (.poll t r) := by
  refine ⟨leaves_poll h ht, ?_, fun _ h => (nomatch h)⟩
  intro t' r' e x hx
  cases e
  rw [hx] at hs
  simp only [Option.map_some, Option.some.injEq] at hs
  rw [hs]; exact hd

theorem session_retransmit {s : Server} {p i : Nat} {x : Bytes} : LeavesSession Toy.crypto p s (.retransmit i x) :=
  ⟨leaves_retransmit, fun _ _ h => (nomatch h), fun _ h => (nomatch h)⟩

theorem poll_WF (t : Time) : (Op.poll t Verif.Ex.prnd).WF Toy.crypto := ⟨fun _ => ⟨rfl, rfl⟩, by show 12345 < 2 ^ 53; decide⟩

/-- the protocol server of `a` after a poll and a retransmission -/
def resent (a : App) (t : Time) : Server := (polled a t).step Toy.crypto (.retransmit 0 buf)

def isResend (a : App) (t : Time) : Bool := match (srv a).poll t Verif.Ex.prnd with | some (.sendRetransmission p, _) => p == 0 | _ => false
def endpointOf (a : App) : Option Endpoint := (a.peers[0]?).bind (·.endpoint)

theorem resends_of (a : App) (hp : isProduct a = true) (t : Time) (h : isResend a t = true) (he : endpointOf a = some (.bound 0 addrB)) :
    Resends Toy.crypto a (tick t) (polled a t) 0 0 addrB := by
  refine ⟨⟨srv a, site_of hp, ?_⟩, ?_, rfl, buf_fits⟩
  · unfold isResend at h
    show (srv a).poll t Verif.Ex.prnd = some (_, (srv a).step Toy.crypto (.poll t Verif.Ex.prnd))
    cases hx : (srv a).poll t Verif.Ex.prnd with
    | none => rw [hx] at h; cases h
    | some y =>
      obtain ⟨c, s1⟩ := y
      rw [hx] at h
      cases c with
      | sendRetransmission p =>
        dsimp only at h
        rw [beq_iff_eq] at h
        rw [show (srv a).step Toy.crypto (.poll t Verif.Ex.prnd) = s1 by unfold Server.step; dsimp only; rw [hx], h]
      | _ => cases h
  · unfold endpointOf at he
    cases hq : a.peers[0]? with
    | none => rw [hq] at he; cases he
    | some ap => rw [hq] at he; exact ⟨ap, rfl, he⟩

theorem l1_ready : Ready Toy.crypto l1.app := r1_ready.step _ (w_WF _ _ _)
theorem l2_ready : Ready Toy.crypto l2.app := dB_ready.step _ (w_WF _ _ _)
theorem l3_ready : Ready Toy.crypto l3.app := l1_ready.step _ (w_WF _ _ _)
theorem l5_ready : Ready Toy.crypto l5.app := l2_ready.step _ (w_WF _ _ _)

theorem after_poll {P : Server → Op → Prop} (a : App) (t : Time) (h : P (srv a) (.poll t Verif.Ex.prnd)) : After Toy.crypto P (srv a) (polled a t) :=
  ⟨[.poll t Verif.Ex.prnd], ⟨poll_WF t, trivial, h, trivial⟩, rfl⟩

def resendOk (a : App) (t : Time) : Bool := match ((polled a t).retransmit Toy.crypto 0 buf).1 with | .ok _ => true | _ => false

theorem resend_srv {a : App} {t : Time} (R : Resends Toy.crypto a (tick t) (polled a t) 0 0 addrB) (h : resendOk a t = true) :
    srv (a.step Toy.crypto (tick t)).app = resent a t := by
  unfold resendOk at h
  cases hx : ((polled a t).retransmit Toy.crypto 0 buf).1 with
  | error e => rw [hx] at h; cases h
  | ok m =>
    have : (polled a t).retransmit Toy.crypto 0 buf = (.ok m, resent a t) := by rw [← hx]; rfl
    rw [resends R this]; rfl

/-- a poll, a retransmission and another poll -/
theorem after_resend {P : Server → Op → Prop} {a : App} {t : Time} (R : Resends Toy.crypto a (tick t) (polled a t) 0 0 addrB) (h : resendOk a t = true) (u : Time)
    (h1 : P (srv a) (.poll t Verif.Ex.prnd)) (h2 : P (polled a t) (.retransmit 0 buf)) (h3 : P (srv (a.step Toy.crypto (tick t)).app) (.poll u Verif.Ex.prnd)) :
    After Toy.crypto P (srv a) (polled (a.step Toy.crypto (tick t)).app u) := by
  rw [resend_srv R h] at h3
  refine ⟨[.poll t Verif.Ex.prnd, .retransmit 0 buf, .poll u Verif.Ex.prnd], ⟨poll_WF t, trivial, h1, trivial, trivial, h2, poll_WF u, trivial, h3, trivial⟩, ?_⟩
  unfold polled
  rw [resend_srv R h]
  rfl

theorem fresh_dA : FreshReachable Toy.crypto (polled dA 1) := .step _ _ (server_fresh _ _ _) (poll_WF 1) trivial

end Ex

open _root_.Verif.App.Ex _root_.Verif.Ex in
/-- C112: the hypotheses of `daemons_agree_despite_loss` are met at every stage -/
example : ∃ eb ea, FreshReachable Toy.crypto (polled dA 1) ∧ Mutual Toy.crypto (polled dA 1) (polled dB 20001) 0 0 eb ea ∧
    leNat ea.biscuitUsed < leNat (polled dB 20001).biscuitCtr ∧
    Resends Toy.crypto r1.app (tick 20000) (polled r1.app 20000) 0 0 addrB ∧ After Toy.crypto (LeavesHandshake Toy.crypto 0) (srv r1.app) (polled r1.app 20000) ∧
    Gets Toy.crypto dB (w 20001 20 (.msg (firstMsg l1) 0 addr)) (polled dB 20001) (firstMsg l1) 0 addr ∧
    Gets Toy.crypto l1.app (w 20002 30 (.msg (firstMsg l2) 0 addrB)) (polled l1.app 20002) (firstMsg l2) 0 addrB ∧
    After Toy.crypto (LeavesHandshake Toy.crypto 0) (srv r1.app) (polled l1.app 20002) ∧
    Resends Toy.crypto l3.app (tick 60000) (polled l3.app 60000) 0 0 addrB ∧ After Toy.crypto (LeavesSession Toy.crypto 0) (srv l3.app) (polled l3.app 60000) ∧
    Gets Toy.crypto l2.app (w 60001 40 (.msg (firstMsg l4) 0 addr)) (polled l2.app 60001) (firstMsg l4) 0 addr ∧
    After Toy.crypto (LeavesOpen Toy.crypto 0 20001) (srv l2.app) (polled l2.app 60001) ∧
    Gets Toy.crypto l5.app (w 120001 45 (.msg (firstMsg l6) 0 addr)) (polled l5.app 120001) (firstMsg l6) 0 addr ∧
    Gets Toy.crypto l6.app (w 120002 50 (.msg (firstMsg l7) 0 addrB)) (polled l6.app 120002) (firstMsg l7) 0 addrB := by
  have p1 : isProduct r1.app = true := by decide +kernel
  have p2 : isProduct l1.app = true := by decide +kernel
  have p3 : isProduct l2.app = true := by decide +kernel
  have p4 : isProduct l3.app = true := by decide +kernel
  have p5 : isProduct l5.app = true := by decide +kernel
  have p6 : isProduct l6.app = true := by decide +kernel
  have R1 := resends_of r1.app p1 20000 (by decide +kernel) (by decide +kernel)
  refine ⟨peerOf (polled dA 1), peerOf (polled dB 20001), fresh_dA, ⟨polled_reach dA_ready.reach rfl _, polled_reach dB_ready.reach rfl _, ?_, ?_, by decide +kernel, by decide +kernel, by decide +kernel,
    by decide +kernel, by decide +kernel, by decide +kernel, by decide +kernel⟩, by decide +kernel, R1, after_poll _ _ ?_,
    gets_of dB _ rfl _ _ _ _ _ (by decide +kernel), gets_of l1.app _ (site_of p2) _ _ _ _ _ (by decide +kernel),
    after_resend R1 (by decide +kernel) _ (leaves_poll (c := 1) (by decide +kernel) (by decide)) leaves_retransmit (leaves_poll (c := 1) (by decide +kernel) (by decide)),
    resends_of _ p4 _ (by decide +kernel) (by decide +kernel), after_poll _ _ ?_,
    gets_of l2.app _ (site_of p3) _ _ _ _ _ (by decide +kernel), after_poll _ _ ?_,
    gets_of l5.app _ (site_of p5) _ _ _ _ _ (by decide +kernel), gets_of l6.app _ (site_of p6) _ _ _ _ _ (by decide +kernel)⟩
  · rw [show (polled dA 1).sskm = (polled dA 1).spkm by decide +kernel]; exact Toy.staticPair _
  · rw [show (polled dB 20001).sskm = (polled dB 20001).spkm by decide +kernel]; exact Toy.staticPair _
  · exact leaves_poll (c := 1) (by decide +kernel) (by decide)
  · exact session_poll (c := 1) (d := 20002) (by decide +kernel) (by decide) (by decide +kernel) (by decide)
  · exact ⟨fun u h => (by cases h; decide), fun _ h => (nomatch h), fun _ h => (nomatch h)⟩

open _root_.Verif.App.Ex _root_.Verif.Ex in
/-- C112: the exchange, computed: every message is sent twice, and at the end both key files hold the same key -/
example : (seen l1 = (.next, [(0, addrB)], none) ∧ seen l2 = (.next, [(0, addr)], none)) ∧ (seen l3).1 = .next ∧ (seen l3).2.1 = [(0, addrB)] := by decide +kernel
open _root_.Verif.App.Ex _root_.Verif.Ex in
example : (seen l4).1 = .next ∧ (seen l4).2.1 = [(0, addrB)] ∧ (seen l5).1 = .next ∧ (seen l5).2.1 = [(0, addr)] ∧ (seen l3).2.2.isSome ∧ (seen l5).2.2 = (seen l3).2.2 := by decide +kernel
open _root_.Verif.App.Ex _root_.Verif.Ex in
example : (seen l6).2.1 = [(0, addrB)] ∧ (seen l7).2.1 = [(0, addr)] ∧ (seen l8).1 = .next ∧ (seen l8).2.1 = [] ∧ (seen l8).2.2 = (seen l3).2.2 ∧ (seen l7).2.2 = (seen l3).2.2 := by decide +kernel

end App
end Verif
