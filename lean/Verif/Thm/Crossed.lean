import Verif.Thm.Renewal
/-
C127: what happens if both sides start a handshake at the same time.
-/
namespace Verif
open HashDomain Server

/-- What one side contributes to a handshake that it starts and one that it answers: times, random choices and message buffers of its calls,
1 for the initiation, 2 for the InitHello, 3 for the RespHello, 4 for the InitConf, 5 for the EmptyData it processes. -/
structure SideIn where
  t1 : Time
  t2 : Time
  t3 : Time
  t4 : Time
  t5 : Time
  r1 : Rnd
  r2 : HashChoice → Rnd
  r3 : HashChoice → Rnd
  r4 : HashChoice → Rnd
  r5 : HashChoice → Rnd
  x1 : Bytes
  x2 : Bytes
  x3 : Bytes
  x4 : Bytes
  x5 : Bytes

/-- Right sizes, and the third message comes before 300 s are over. -/
structure SideIn.WF (C : Crypto) (i : SideIn) : Prop where
  r1 : i.r1.WF C
  r2 : ∀ h, (i.r2 h).WF C
  r3 : ∀ h, (i.r3 h).WF C
  r4 : ∀ h, (i.r4 h).WF C
  r5 : ∀ h, (i.r5 h).WF C
  x1 : Env.size (InitHello.size C) ≤ i.x1.length
  x2 : Env.size (RespHello.size C) ≤ i.x2.length
  x3 : Env.size (RespHello.size C) ≤ i.x3.length
  x4 : Env.size (RespHello.size C) ≤ i.x4.length
  x5 : Env.size (RespHello.size C) ≤ i.x5.length
  t2 : 0 ≤ i.t2
  t3 : i.t3 ≤ i.t2 + secs 300 - eventGrace

/-- The session id that the server is about to choose for the handshake with peer `p` is not in use, and its biscuit counter is ahead of the number it last accepted from `p`. -/
structure SideOk (s : Server) (p : Nat) (i : SideIn) : Prop where
  sid : s.index (.sid i.r1.sid) = none
  ctr : ∀ q, s.peers[p]? = some q → leNat q.biscuitUsed < leNat s.biscuitCtr

/-- **Specification.** Servers A and B both start a handshake with each other; then both process the first message of the other; then both process the answer of
the other; then both process the third message of the other; then both process the acknowledgement of the other. Every call but the last ones succeeds, the third
calls give A a key `k1` and B a key `k2`, and the fourth calls swap them. `Next` is required of the state afterwards, in which `x` and `y` are the sessions. -/
def Crosses (C : Crypto) (pa pb : Nat) (A B : Server) (i j : SideIn) (Next : Server → Server → Session → Session → Bytes → Bytes → Prop) : Prop :=
  ∃ m1 n1 A1 B1, A.initiate C pa i.t1 i.r1 i.x1 = (.ok m1, A1) ∧ B.initiate C pb j.t1 j.r1 j.x1 = (.ok n1, B1) ∧
  ∀ eb ea, A1.peers[pa]? = some eb → B1.peers[pb]? = some ea → HelloUnambiguous C B1 ea.version m1 → HelloUnambiguous C A1 eb.version n1 →
  ∃ m2 n2 A2 B2, B1.handleMsg C m1 j.x2 j.t2 j.r2 = (.ok ⟨none, some m2⟩, B2) ∧ A1.handleMsg C n1 i.x2 i.t2 i.r2 = (.ok ⟨none, some n2⟩, A2) ∧
  ∃ m3 n3 A3 B3 k1 k2, A2.handleMsg C m2 i.x3 i.t3 i.r3 = (.ok ⟨some pa, some m3⟩, A3) ∧ A3.osk C pa = .ok k1 ∧
    B2.handleMsg C n2 j.x3 j.t3 j.r3 = (.ok ⟨some pb, some n3⟩, B3) ∧ B3.osk C pb = .ok k2 ∧
  (¬ SidTaken B3 pb (j.r2 ea.version.hash).sid → ConfUnambiguous C B3 ea.version m3 → ¬ SidTaken A3 pa (i.r2 eb.version.hash).sid → ConfUnambiguous C A3 eb.version n3 →
  ∃ m4 n4 A4 B4, B3.handleMsg C m3 j.x4 j.t4 j.r4 = (.ok ⟨some pb, some m4⟩, B4) ∧ B4.osk C pb = .ok k1 ∧
    A3.handleMsg C n3 i.x4 i.t4 i.r4 = (.ok ⟨some pa, some n4⟩, A4) ∧ A4.osk C pa = .ok k2 ∧
  ∃ x y A5 B5, (A4.handleMsg C m4 i.x5 i.t5 i.r5).2 = A5 ∧ (B4.handleMsg C n4 j.x5 j.t5 j.r5).2 = B5 ∧
    x.createdAt = i.t4 ∧ x.role = .responder ∧ y.createdAt = j.t4 ∧ y.role = .responder ∧ Next A5 B5 x y k2 k1)

section
variable {C : Crypto}

/-- one of the two handshakes; the messages of the other one that come in between are `n1` and `n2` -/
theorem crossed_half (L : C.Lawful) (K : C.KemTotal) {A B : Server} {pa pb : Nat} {eb ea : Peer} (hA : FreshReachable C A) (M : Mutual C A B pa pb eb ea)
    (hh : eb.handshake = none) {i j : SideIn} (hi : i.WF C) (hj : j.WF C) (hsid : A.index (.sid i.r1.sid) = none) (hused : leNat ea.biscuitUsed < leNat B.biscuitCtr) :
    ∃ m1 A1, A.initiate C pa i.t1 i.r1 i.x1 = (.ok m1, A1) ∧ m1.head? = some 0x81 ∧
    ∀ n1, n1.head? = some 0x81 → HelloUnambiguous C B ea.version m1 →
    ∃ m2 B2, B.handleMsg C m1 j.x2 j.t2 j.r2 = (.ok ⟨none, some m2⟩, B2) ∧ m2.head? = some 0x82 ∧
    ∃ m3 A3, (A1.step C (.handleMsg n1 i.x2 i.t2 i.r2)).handleMsg C m2 i.x3 i.t3 i.r3 = (.ok ⟨some pa, some m3⟩, A3) ∧ m3.head? = some 0x83 ∧ (∃ k, A3.osk C pa = .ok k) ∧
    ∀ n2, n2.head? = some 0x82 → ¬ SidTaken (B2.step C (.handleMsg n2 j.x3 j.t3 j.r3)) pb (j.r2 ea.version.hash).sid →
      ConfUnambiguous C (B2.step C (.handleMsg n2 j.x3 j.t3 j.r3)) ea.version m3 →
    ∃ m4 B4, (B2.step C (.handleMsg n2 j.x3 j.t3 j.r3)).handleMsg C m3 j.x4 j.t4 j.r4 = (.ok ⟨some pb, some m4⟩, B4) ∧ m4.head? = some 0x84 ∧
    ∃ k, A3.osk C pa = .ok k ∧ B4.osk C pb = .ok k := by
  have hnew : (A.handshake pa).map (·.core.sidi) ≠ some i.r1.sid := by
    have : A.handshake pa = none := by unfold handshake; rw [M.atA]; exact hh
    rw [this]; exact fun h => nomatch h
  obtain ⟨m1, A1, hc1, g⟩ := completes_despite_loss L K hA M hi.r1 hj.r2 hsid hnew hused i.t1 j.t2 i.t3 j.t4 i.t5 hj.t2 i.r3 j.r4 i.r5 hi.r3 hj.r4 hi.x1 hj.x2 hi.x3 hj.x4 hi.x5
  obtain ⟨-, -, -, -, -, -, -, hhead1, -⟩ := initiate_pending L K hi.r1 M.atA hsid hnew hc1
  refine ⟨m1, A1, hc1, hhead1, ?_⟩
  intro n1 hn1 hun
  obtain ⟨-, g⟩ := g [.handleMsg n1 i.x2 i.t2 i.r2] ⟨hi.r2, trivial, ⟨fun _ _ _ => nofun, fun _ _ => nofun,
    (fun rx hrx q hq rej => by cases hrx; exact ⟨(fun h => by have := h.1; rw [hn1] at this; cases this), (fun h => by have := h.1; rw [hn1] at this; cases this)⟩),
    (fun rx hrx h => by cases hrx; have := h.1; rw [hn1] at this; cases this)⟩, trivial⟩
  obtain ⟨m2, B2, hc2, m3, A3, hc3, -, g⟩ := g m1 (.refl m1) hun
  have h82 : m2.head? = some 0x82 := by
    obtain ⟨m, A', i1, i2⟩ := key_agreement_resent L K M hi.r1 hj.r2 hsid hnew i.t1 j.t2 i.t3 j.t4 i.t5 i.r3 j.r4 i.r5 hi.x1 hj.x2 hi.x3 hj.x4 hi.x5
    rw [hc1] at i1; cases i1
    obtain ⟨m', B', j1, j2, -⟩ := i2 m1 (.refl m1) hun
    rw [hc2] at j1; cases j1
    exact j2
  obtain ⟨-, -, -, -, h83, -⟩ := accept_stored L h82 hc3
  refine ⟨m2, B2, hc2, h82, m3, A3, hc3, h83, ?_, ?_⟩
  · obtain ⟨q2, x', hq2, hx', hcr, hrole, k', hk'⟩ := exchange_session (C := C) (.handleMsg m2 i.x3 i.t3 i.r3) m2 rfl i.t3 rfl pa (some m3)
      (by show (Server.handleMsg _ _ _ _ _ _).1 = _; exact congrArg Prod.fst hc3)
    have hst : Server.step C (A1.step C (.handleMsg n1 i.x2 i.t2 i.r2)) (.handleMsg m2 i.x3 i.t3 i.r3) = A3 := congrArg Prod.snd hc3
    exact ⟨k', (congrArg (fun s => Server.osk C s pa) hst).symm.trans hk'⟩
  intro n2 hn2 hfree hcu
  obtain ⟨m4, B4, hc4, k, hk1, hk2, -⟩ := g [.handleMsg n2 j.x3 j.t3 j.r3] ⟨hj.r3, trivial, ⟨(fun u hu => by cases hu; exact hj.t3),
    (fun rx hrx q hq rej h => by cases hrx; have := h.1; rw [hn2] at this; cases this), (fun rx hrx h => by cases hrx; have := h.1; rw [hn2] at this; cases this)⟩, trivial⟩ hfree hcu
  exact ⟨m4, B4, hc4, (accept_ack L h83 hc4).1, k, hk1, hk2⟩

/-- a server that starts a handshake when it has none -/
theorem initiated (L : C.Lawful) (K : C.KemTotal) {A A1 : Server} {p : Nat} {q : Peer} {i : SideIn} (hi : i.WF C) (hf : FreshReachable C A) (hre : Reachable C A) (hq : A.peers[p]? = some q) (hh : q.handshake = none)
    (ok : SideOk A p i) {m : Bytes} (hc : A.initiate C p i.t1 i.r1 i.x1 = (.ok m, A1)) :
    FreshReachable C A1 ∧ Reachable C A1 ∧ Later A A1 ∧ ∃ q1, A1.peers[p]? = some q1 ∧ q1.initReq = false ∧ leNat q1.biscuitUsed < leNat A1.biscuitCtr := by
  have hnew : (A.handshake p).map (·.core.sidi) ≠ some i.r1.sid := by
    have : A.handshake p = none := by unfold handshake; rw [hq]; exact hh
    rw [this]; exact fun h => nomatch h
  obtain ⟨ih, hs0, hs, e1, A1', hini, hcall, S1, hp1, hcore, hnext, -, -, -, -, G⟩ := initiate_ok (now := i.t1) L K hi.r1 hq ok.sid hnew hi.x1
  rw [hc] at hcall
  obtain ⟨-, rfl⟩ := Prod.mk.inj hcall
  refine ⟨?_, ?_, ?_, _, hp1, rfl, ?_⟩
  · have := FreshReachable.step A (.initiate p i.t1 i.r1 i.x1) hf hi.r1 hnew
    simpa only [Server.step, hc] using this
  · have := Reachable.step A (.initiate p i.t1 i.r1 i.x1) hre hi.r1
    simpa only [Server.step, hc] using this
  · have := run_later L [.initiate p i.t1 i.r1 i.x1] (fun o ho => by cases List.mem_singleton.mp ho; exact hi.r1) A
    simpa only [Server.run, List.foldl_cons, List.foldl_nil, Server.step, hc] using this
  · rw [G.biscuitCtr]; exact ok.ctr q hq

/-- the side after it has processed the four messages -/
theorem crossed_side (L : C.Lawful) {i : SideIn} (hi : i.WF C) {A1 A2 A3 A4 : Server} {p : Nat} {q1 : Peer} {n1 n2 m2 m3 n3 n4 m4 : Bytes}
    (hf : FreshReachable C A1) (hre : Reachable C A1) (hq1 : A1.peers[p]? = some q1) (hreq : q1.initReq = false) (hc2 : A1.handleMsg C n1 i.x2 i.t2 i.r2 = (.ok ⟨none, some n2⟩, A2))
    (hc3 : A2.handleMsg C m2 i.x3 i.t3 i.r3 = (.ok ⟨some p, some m3⟩, A3)) (hc4 : A3.handleMsg C n3 i.x4 i.t4 i.r4 = (.ok ⟨some p, some n4⟩, A4)) (h83 : n3.head? = some 0x83)
    (h84 : m4.head? = some 0x84) {k : Bytes} (hk : A4.osk C p = .ok k) :
    ∃ x A5, (A4.handleMsg C m4 i.x5 i.t5 i.r5).2 = A5 ∧ x.createdAt = i.t4 ∧ x.role = .responder ∧ AtRest A5 p x false ∧ A5.osk C p = .ok k ∧ FreshReachable C A5 ∧ Reachable C A5 ∧ Later A1 A5 := by
  have keep : ∀ {s s' : Server} {rx tx : Bytes} {now : Time} {r : HashChoice → Rnd} {res : Except Err MsgResult} {q : Peer}, s.handleMsg C rx tx now r = (res, s') →
      s.peers[p]? = some q → q.initReq = false → ∃ q', s'.peers[p]? = some q' ∧ q'.initReq = false := by
    intro s s' rx tx now r res q hc hq hr
    have := handleMsg_keeps (C := C) s rx tx now r p q hq
    rw [hc] at this
    obtain ⟨q', hq', kp⟩ := this
    exact ⟨q', hq', kp.initReq.trans hr⟩
  obtain ⟨q2, hq2, hr2⟩ := keep hc2 hq1 hreq
  obtain ⟨q3, hq3, hr3⟩ := keep hc3 hq2 hr2
  obtain ⟨q4, hq4, hr4⟩ := keep hc4 hq3 hr3
  obtain ⟨qb, x, hqb, hx, hcr, hrole, -⟩ := exchange_session (C := C) (s := A3) (.handleMsg n3 i.x4 i.t4 i.r4) n3 rfl i.t4 rfl p (some n4)
    (by show (Server.handleMsg _ _ _ _ _ _).1 = _; rw [hc4])
  have hst : A3.step C (.handleMsg n3 i.x4 i.t4 i.r4) = A4 := congrArg Prod.snd hc4
  rw [hst] at hqb
  rw [hq4] at hqb; cases hqb
  have hrole : x.role = .responder := by
    rcases hrole with ⟨r1, r2⟩ | ⟨r1, r2⟩
    · rw [h83] at r2; cases r2
    · exact r1
  obtain ⟨q', hq', hnone⟩ := initConf_ends_handshake (C := C) A3 n3 i.x4 i.t4 i.r4 h83 p (some n4) (by rw [hc4])
  rw [hc4] at hq'
  dsimp only at hq'
  rw [hq4] at hq'; cases hq'
  have re4 := (fresh_msg hc4 hi.r4).2 ((fresh_msg hc3 hi.r3).2 ((fresh_msg hc2 hi.r2).2 hre))
  have fr4 := (fresh_msg hc4 hi.r4).1 ((fresh_msg hc3 hi.r3).1 ((fresh_msg hc2 hi.r2).1 hf))
  have rest4 : AtRest A4 p x false := ⟨q4, hq4, hx, hnone, hr4⟩
  have rest5 := rest_step L re4 (o := .handleMsg m4 i.x5 i.t5 i.r5) rest4 ⟨fun _ _ _ => nofun, fun _ _ => nofun,
      (fun rx hrx q hq rej hI => by cases hrx; have := hI.1; rw [h84] at this; cases this), (fun rx hrx hI => by cases hrx; have := hI.1; rw [h84] at this; cases this)⟩
  have l5 : Later A4 (A4.handleMsg C m4 i.x5 i.t5 i.r5).2 := later_msg L rfl hi.r5
  refine ⟨x, _, rfl, hcr, hrole, rest5, (rest_key rest4 rest5 l5).trans hk, (fresh_msg rfl hi.r5).1 fr4, (fresh_msg rfl hi.r5).2 re4,
    (((later_msg L hc2 hi.r2).trans (later_msg L hc3 hi.r3)).trans (later_msg L hc4 hi.r4)).trans l5⟩

/-- **C127** (one crossing). If two servers that have peered with each other, without a handshake pending, start handshakes at the same time, both handshakes complete, and
A ends up with the key of the handshake that B started, B with the key of the handshake that A started. Both take themselves for the responder. -/
theorem handshakes_cross (L : C.Lawful) (K : C.KemTotal) {pa pb : Nat} {A B : Server} {eb ea : Peer} (M : Mutual C A B pa pb eb ea) (fA : FreshReachable C A) (fB : FreshReachable C B)
    (hA : eb.handshake = none) (hB : ea.handshake = none) {i j : SideIn} (hi : i.WF C) (hj : j.WF C) (oA : SideOk A pa i) (oB : SideOk B pb j)
    {Next : Server → Server → Session → Session → Bytes → Bytes → Prop} (hN : ∀ A' B' x y ka kb, Link C pa pb A' B' x y false false ka kb → Next A' B' x y ka kb) :
    Crosses C pa pb A B i j Next := by
  have hnew : ∀ {s : Server} {p : Nat} {q : Peer} {r : Bytes}, s.peers[p]? = some q → q.handshake = none → (s.handshake p).map (·.core.sidi) ≠ some r := by
    intro s p q r hq hh
    have : s.handshake p = none := by unfold handshake; rw [hq]; exact hh
    rw [this]; exact fun h => nomatch h
  obtain ⟨-, -, -, e1, A1, -, hcA, -⟩ := initiate_ok (now := i.t1) L K hi.r1 M.atA oA.sid (hnew M.atA hA) hi.x1
  obtain ⟨-, -, -, e2, B1, -, hcB, -⟩ := initiate_ok (now := j.t1) L K hj.r1 M.atB oB.sid (hnew M.atB hB) hj.x1
  generalize e1.encode = m1 at hcA
  generalize e2.encode = n1 at hcB
  obtain ⟨fA1, reA1, lA1, qa, hqa, hra, hua⟩ := initiated L K hi fA M.reachA M.atA hA oA hcA
  obtain ⟨fB1, reB1, lB1, qb, hqb, hrb, hub⟩ := initiated L K hj fB M.reachB M.atB hB oB hcB
  refine ⟨m1, n1, A1, B1, hcA, hcB, ?_⟩
  intro eb1 ea1 heb1 hea1 hun1 hun2
  rw [hqa] at heb1; cases heb1
  rw [hqb] at hea1; cases hea1
  obtain ⟨eb', ea', M1⟩ := M.lasts (Later.refl A) lB1 M.reachA reB1
  have h := M1.atA; rw [M.atA] at h; cases h
  have h := M1.atB; rw [hqb] at h; cases h
  obtain ⟨ea', eb', M2⟩ := M.symm.lasts (Later.refl B) lA1 M.reachB reA1
  have h := M2.atA; rw [M.atB] at h; cases h
  have h := M2.atB; rw [hqa] at h; cases h
  obtain ⟨_, _, q1, hm1, g1⟩ := crossed_half L K fA M1 hA hi hj oA.sid hub
  rw [hcA] at q1; cases q1
  obtain ⟨_, _, q1, hn1, g2⟩ := crossed_half L K fB M2 hB hj hi oB.sid hua
  rw [hcB] at q1; cases q1
  obtain ⟨m2, B2, hc2B, hm2, m3, A3, hc3A, hm3, ⟨k1, hk1⟩, g1⟩ := g1 n1 hn1 hun1
  obtain ⟨n2, A2, hc2A, hn2, n3, B3, hc3B, hn3, ⟨k2, hk2⟩, g2⟩ := g2 m1 hm1 hun2
  have sA : A1.step C (.handleMsg n1 i.x2 i.t2 i.r2) = A2 := congrArg Prod.snd hc2A
  have sB : B1.step C (.handleMsg m1 j.x2 j.t2 j.r2) = B2 := congrArg Prod.snd hc2B
  rw [sA] at hc3A
  rw [sB] at hc3B
  refine ⟨m2, n2, A2, B2, hc2B, hc2A, m3, n3, A3, B3, k1, k2, hc3A, hk1, hc3B, hk2, ?_⟩
  intro f1 c1 f2 c2
  have sB3 : B2.step C (.handleMsg n2 j.x3 j.t3 j.r3) = B3 := congrArg Prod.snd hc3B
  have sA3 : A2.step C (.handleMsg m2 i.x3 i.t3 i.r3) = A3 := congrArg Prod.snd hc3A
  have g1 := g1 n2 hn2
  have g2 := g2 m2 hm2
  rw [sB3] at g1
  rw [sA3] at g2
  obtain ⟨m4, B4, hc4B, hm4, _, u1, kB⟩ := g1 f1 c1
  rw [hk1] at u1; cases u1
  obtain ⟨n4, A4, hc4A, hn4, _, u1, kA⟩ := g2 f2 c2
  rw [hk2] at u1; cases u1
  refine ⟨m4, n4, A4, B4, hc4B, kB, hc4A, kA, ?_⟩
  obtain ⟨x, A5, s1, s2, s3, s4, s5, s6, s7, s8⟩ := crossed_side L hi fA1 reA1 hqa hra hc2A hc3A hc4A hn3 hm4 kA
  obtain ⟨y, B5, t1, t2, t3, t4, t5, t6, t7, t8⟩ := crossed_side L hj fB1 reB1 hqb hrb hc2B hc3B hc4B hm3 hn4 kB
  exact ⟨x, y, A5, B5, s1, t1, s2, s3, t2, t3, hN _ _ _ _ _ _ ⟨M.lasts (lA1.trans s8) (lB1.trans t8) s7 t7, s6, t6, s4, t4, s5, t5⟩⟩

/-- **Specification.** From a state with sessions `x` and `y` (in which both sides are idle) it can happen `n` times in a row: both applications poll when their renewal is due, are asked to
initiate, do so, and the handshakes cross again. -/
def CrossesOften (C : Crypto) (pa pb : Nat) : Nat → Server → Server → Session → Session → Prop
  | 0, _, _, _, _ => True
  | n + 1, A, B, x, y =>
    ∀ t rs evs A0 w, rekeyTime x < t + eventGrace → t + eventGrace ≤ x.createdAt + secs 180 → (∀ n, (Op.poll t (rs n)).WF C) → PollRun t rs A evs A0 w →
    ∀ u ss fvs B0 v, rekeyTime y < u + eventGrace → u + eventGrace ≤ y.createdAt + secs 180 → (∀ n, (Op.poll u (ss n)).WF C) → PollRun u ss B fvs B0 v →
    .sendInitiation pa ∈ evs ∧ .sendInitiation pb ∈ fvs ∧
    ∀ i j, i.WF C → j.WF C → SideOk A0 pa i → SideOk B0 pb j →
      Crosses C pa pb A0 B0 i j (fun A' B' x' y' _ _ => CrossesOften C pa pb n A' B' x' y')

/-- **C127** (livelock). After a crossing both sides ask for a renewal at the same age of their sessions, so it can go on like that for ever. -/
theorem crossing_for_ever (L : C.Lawful) (K : C.KemTotal) {pa pb : Nat} (n : Nat) : ∀ {A B : Server} {x y : Session} {ka kb : Bytes}, Link C pa pb A B x y false false ka kb →
    CrossesOften C pa pb n A B x y := by
  induction n with
  | zero => exact fun _ => trivial
  | succ n ih =>
    intro A B x y ka kb H t rs evs A0 w a1 a2 a3 ra u ss fvs B0 v b1 b2 b3 rb
    obtain ⟨hev, rA0⟩ := rest_request H.restA ra a1 a2
    obtain ⟨hfv, rB0⟩ := rest_request H.restB rb b1 b2
    refine ⟨((hev _).mpr rfl).1, ((hfv _).mpr rfl).1, ?_⟩
    intro i j hi hj oA oB
    obtain ⟨eb0, ea0, M⟩ := H.peered
    obtain ⟨pops, rfl, hpw, hpp⟩ := pollRun_run (C := C) ra a3
    obtain ⟨qops, rfl, hqw, hqp⟩ := pollRun_run (C := C) rb b3
    have fA0 : FreshReachable C (A.run C pops) := fresh_polls H.freshA hpw (fun o ho => by obtain ⟨n, e⟩ := hpp o ho; exact ⟨_, e⟩)
    have fB0 : FreshReachable C (B.run C qops) := fresh_polls H.freshB hqw (fun o ho => by obtain ⟨n, e⟩ := hqp o ho; exact ⟨_, e⟩)
    obtain ⟨eb, ea, M0⟩ := M.lasts (run_later L pops hpw A) (run_later L qops hqw B) (run_reachable pops hpw _ M.reachA) (run_reachable qops hqw _ M.reachB)
    obtain ⟨qa, hqa, -, ha, -⟩ := rA0
    obtain ⟨qb, hqb, -, hb, -⟩ := rB0
    rw [M0.atA] at hqa; cases hqa
    rw [M0.atB] at hqb; cases hqb
    exact handshakes_cross L K M0 fA0 fB0 ha hb hi hj oA oB (fun A' B' x' y' _ _ H' => ih H')

/-- **C127** (partial; the full claim, "if both start a handshake at the same time, they end up with the same key", is false, see `crossed_keys_differ`). After a crossing, the first
renewal that only one of them starts gives both the same key again. -/
theorem crossing_heals_partial (L : C.Lawful) (K : C.KemTotal) {pa pb : Nat} {A B : Server} {eb ea : Peer} (M : Mutual C A B pa pb eb ea) (fA : FreshReachable C A) (fB : FreshReachable C B)
    (hA : eb.handshake = none) (hB : ea.handshake = none) {i j : SideIn} (hi : i.WF C) (hj : j.WF C) (oA : SideOk A pa i) (oB : SideOk B pb j) :
    Crosses C pa pb A B i j (fun A' B' x y ka kb =>
      Renews C pa pb A' B' x y false ka kb (fun A2 B2 _ _ k => A2.osk C pa = .ok k ∧ B2.osk C pb = .ok k) ∧
      Renews C pb pa B' A' y x false kb ka (fun B2 A2 _ _ k => A2.osk C pa = .ok k ∧ B2.osk C pb = .ok k)) :=
  handshakes_cross L K M fA fB hA hB hi hj oA oB (fun _ _ _ _ _ _ H =>
    ⟨link_renews L K H (fun _ _ _ _ _ H2 => ⟨H2.keyA, H2.keyB⟩), link_renews L K H.symm (fun _ _ _ _ _ H2 => ⟨H2.keyB, H2.keyA⟩)⟩)

/-- **Specification.** Servers A and B both start a handshake with each other, and both answer the first message of the other; but A's third message reaches B before the answer to
its own first message does. Then B's handshake is over: both have the key of A's handshake, the late answer changes nothing about that, and A's handshake ends. -/
def Overtakes (C : Crypto) (pa pb : Nat) (A B : Server) (i j : SideIn) : Prop :=
  ∃ m1 n1 A1 B1, A.initiate C pa i.t1 i.r1 i.x1 = (.ok m1, A1) ∧ B.initiate C pb j.t1 j.r1 j.x1 = (.ok n1, B1) ∧
  ∀ ea, B1.peers[pb]? = some ea → HelloUnambiguous C B1 ea.version m1 →
  ∃ m2 B2, B1.handleMsg C m1 j.x2 j.t2 j.r2 = (.ok ⟨none, some m2⟩, B2) ∧
  ∀ A2 n2, A1.handleMsg C n1 i.x2 i.t2 i.r2 = (.ok ⟨none, some n2⟩, A2) → n2.head? = some 0x82 →
  ∃ m3 A3, A2.handleMsg C m2 i.x3 i.t3 i.r3 = (.ok ⟨some pa, some m3⟩, A3) ∧
  (¬ SidTaken B2 pb (j.r2 ea.version.hash).sid → ConfUnambiguous C B2 ea.version m3 →
  ∃ m4 B3 k, B2.handleMsg C m3 j.x4 j.t4 j.r4 = (.ok ⟨some pb, some m4⟩, B3) ∧ A3.osk C pa = .ok k ∧ B3.osk C pb = .ok k ∧ B3.handshake pb = none ∧
    (B3.handleMsg C n2 j.x3 j.t3 j.r3).2.osk C pb = .ok k ∧
    ∃ A4, A3.handleMsg C m4 i.x5 i.t5 i.r5 = (.ok ⟨none, none⟩, A4) ∧ A4.osk C pa = .ok k ∧ A4.handshake pa = none)

/-- **C127** (partial, as before). If one of the third messages overtakes an answer, the two sides agree. -/
theorem overtaking_agrees_partial (L : C.Lawful) (K : C.KemTotal) {pa pb : Nat} {A B : Server} {eb ea : Peer} (M : Mutual C A B pa pb eb ea) (fA : FreshReachable C A) (fB : FreshReachable C B)
    (hA : eb.handshake = none) (hB : ea.handshake = none) {i j : SideIn} (hi : i.WF C) (hj : j.WF C) (oA : SideOk A pa i) (oB : SideOk B pb j) :
    Overtakes C pa pb A B i j := by
  have hnew : ∀ {s : Server} {p : Nat} {q : Peer} {r : Bytes}, s.peers[p]? = some q → q.handshake = none → (s.handshake p).map (·.core.sidi) ≠ some r := by
    intro s p q r hq hh
    have : s.handshake p = none := by unfold handshake; rw [hq]; exact hh
    rw [this]; exact fun h => nomatch h
  obtain ⟨-, -, -, e2, B1, -, hcB, -⟩ := initiate_ok (now := j.t1) L K hj.r1 M.atB oB.sid (hnew M.atB hB) hj.x1
  generalize e2.encode = n1 at hcB
  obtain ⟨fB1, reB1, lB1, qb, hqb, hrb, hub⟩ := initiated L K hj fB M.reachB M.atB hB oB hcB
  have hn1 : n1.head? = some 0x81 := by
    obtain ⟨-, -, -, -, -, -, -, hhead1, -⟩ := initiate_pending L K hj.r1 M.atB oB.sid (hnew M.atB hB) hcB
    exact hhead1
  obtain ⟨eb', ea', M1⟩ := M.lasts (Later.refl A) lB1 M.reachA reB1
  have h := M1.atA; rw [M.atA] at h; cases h
  have h := M1.atB; rw [hqb] at h; cases h
  obtain ⟨m1, A1, hcA, g⟩ := completes_despite_loss L K fA M1 hi.r1 hj.r2 oA.sid (hnew M.atA hA) hub i.t1 j.t2 i.t3 j.t4 i.t5 hj.t2 i.r3 j.r4 i.r5 hi.r3 hj.r4 hi.x1 hj.x2 hi.x3 hj.x4 hi.x5
  refine ⟨m1, n1, A1, B1, hcA, hcB, ?_⟩
  intro ea1 hea1 hun
  rw [hqb] at hea1; cases hea1
  obtain ⟨-, g⟩ := g [.handleMsg n1 i.x2 i.t2 i.r2] ⟨hi.r2, trivial, ⟨fun _ _ _ => nofun, fun _ _ => nofun,
    (fun rx hrx q hq rej => by cases hrx; exact ⟨(fun h => by have := h.1; rw [hn1] at this; cases this), (fun h => by have := h.1; rw [hn1] at this; cases this)⟩),
    (fun rx hrx h => by cases hrx; have := h.1; rw [hn1] at this; cases this)⟩, trivial⟩
  obtain ⟨m2, B2, hc2, m3, A3, hc3, -, g⟩ := g m1 (.refl m1) hun
  have h82 : m2.head? = some 0x82 := by
    obtain ⟨m, A', i1, i2⟩ := key_agreement_resent L K M1 hi.r1 hj.r2 oA.sid (hnew M.atA hA) i.t1 j.t2 i.t3 j.t4 i.t5 i.r3 j.r4 i.r5 hi.x1 hj.x2 hi.x3 hj.x4 hi.x5
    rw [hcA] at i1; cases i1
    obtain ⟨m', B', j1, j2, -⟩ := i2 m1 (.refl m1) hun
    rw [hc2] at j1; cases j1
    exact j2
  obtain ⟨-, -, -, -, h83, -⟩ := accept_stored L h82 hc3
  refine ⟨m2, B2, hc2, ?_⟩
  intro A2 n2 hc2A hn2
  have sA : A1.run C [.handleMsg n1 i.x2 i.t2 i.r2] = A2 := congrArg Prod.snd hc2A
  rw [sA] at hc3
  refine ⟨m3, A3, hc3, ?_⟩
  intro hfree hcu
  obtain ⟨m4, B3, hc4, k, hk1, hk2, -, g⟩ := g [] trivial hfree hcu
  have hc4 : B2.handleMsg C m3 j.x4 j.t4 j.r4 = (.ok ⟨some pb, some m4⟩, B3) := hc4
  obtain ⟨A4, hc5, he, hk5⟩ := g [] trivial m4 (.refl m4)
  have hnone : B3.handshake pb = none := by
    obtain ⟨q', hq', hn⟩ := initConf_ends_handshake (C := C) B2 m3 j.x4 j.t4 j.r4 h83 pb (some m4) (by rw [hc4])
    rw [hc4] at hq'
    unfold handshake
    dsimp only at hq'
    rw [hq']; exact hn
  refine ⟨m4, B3, k, hc4, hk1, hk2, hnone, ?_, A4, hc5, hk5, he⟩
  obtain ⟨qo, y, hqo, hy, -, -, -⟩ := exchange_session (C := C) (s := B2) (.handleMsg m3 j.x4 j.t4 j.r4) m3 rfl j.t4 rfl pb (some m4)
    (by show (Server.handleMsg _ _ _ _ _ _).1 = _; rw [hc4])
  have hst : B2.step C (.handleMsg m3 j.x4 j.t4 j.r4) = B3 := congrArg Prod.snd hc4
  rw [hst] at hqo
  have rest : AtRest B3 pb y qo.initReq := ⟨qo, hqo, hy, (by unfold handshake at hnone; rw [hqo] at hnone; exact hnone), rfl⟩
  have re3 := (fresh_msg hc4 hj.r4).2 ((fresh_msg hc2 hj.r2).2 reB1)
  have rest' := rest_step L re3 (o := .handleMsg n2 j.x3 j.t3 j.r3) rest ⟨fun _ _ _ => nofun, fun _ _ => nofun,
      (fun rx hrx q hq rej hI => by cases hrx; have := hI.1; rw [hn2] at this; cases this), (fun rx hrx hI => by cases hrx; have := hI.1; rw [hn2] at this; cases this)⟩
  exact (rest_key rest rest' (later_msg L rfl hj.r3)).trans hk2

end

/-! ### The counterexample -/

namespace Ex

def sideA : SideIn := ⟨0, 1, 2, 3, 4, rnd 9, fun _ => rnd 20, fun _ => rnd 30, fun _ => rnd 40, fun _ => rnd 50, buf, buf, buf, buf, buf⟩
def sideB : SideIn := ⟨0, 1, 2, 3, 4, rnd 109, fun _ => rnd 120, fun _ => rnd 130, fun _ => rnd 140, fun _ => rnd 150, buf, buf, buf, buf, buf⟩

def xa1 (v : Version) := (A0 v).initiate Toy.crypto 0 sideA.t1 sideA.r1 sideA.x1
def xb1 (v : Version) := (B0 v).initiate Toy.crypto 0 sideB.t1 sideB.r1 sideB.x1
def xa2 (v : Version) := (xa1 v).2.handleMsg Toy.crypto (sent (xb1 v)) sideA.x2 sideA.t2 sideA.r2
def xb2 (v : Version) := (xb1 v).2.handleMsg Toy.crypto (sent (xa1 v)) sideB.x2 sideB.t2 sideB.r2
def xa3 (v : Version) := (xa2 v).2.handleMsg Toy.crypto (reply (xb2 v)) sideA.x3 sideA.t3 sideA.r3
def xb3 (v : Version) := (xb2 v).2.handleMsg Toy.crypto (reply (xa2 v)) sideB.x3 sideB.t3 sideB.r3
def xa4 (v : Version) := (xa3 v).2.handleMsg Toy.crypto (reply (xb3 v)) sideA.x4 sideA.t4 sideA.r4
def xb4 (v : Version) := (xb3 v).2.handleMsg Toy.crypto (reply (xa3 v)) sideB.x4 sideB.t4 sideB.r4
def xa5 (v : Version) := (xa4 v).2.handleMsg Toy.crypto (reply (xb4 v)) sideA.x5 sideA.t5 sideA.r5
def xb5 (v : Version) := (xb4 v).2.handleMsg Toy.crypto (reply (xa4 v)) sideB.x5 sideB.t5 sideB.r5

/-- the key a server has for peer 0 -/
def key (s : Server) : Bytes := match s.osk Toy.crypto 0 with | .ok k => k | .error _ => []

theorem ok_sent {x : Except Err Bytes × Server} (h : x.1.toOption.isSome = true) : x = (.ok (sent x), x.2) := by
  obtain ⟨r, s⟩ := x
  cases r with
  | ok m => rfl
  | error e => cases h

theorem ok_reply {x : Except Err MsgResult × Server} {p : Option Nat} (h : x.1.toOption = some ⟨p, some (reply x)⟩) : x = (.ok ⟨p, some (reply x)⟩, x.2) := by
  obtain ⟨r, s⟩ := x
  cases r with
  | ok m => exact congrArg (fun z => (Except.ok z, s)) (Option.some.inj h)
  | error e => cases h

theorem ok_key {s : Server} (h : (s.osk Toy.crypto 0).toOption.isSome = true) : s.osk Toy.crypto 0 = .ok (key s) := by
  unfold key
  cases hx : s.osk Toy.crypto 0 with
  | ok k => rfl
  | error e => rw [hx] at h; cases h

theorem xa1_ok (v) : xa1 v = (.ok (sent (xa1 v)), (xa1 v).2) := ok_sent (by cases v <;> decide +kernel)
theorem xa2_ok (v) : xa2 v = (.ok ⟨none, some (reply (xa2 v))⟩, (xa2 v).2) := ok_reply (by cases v <;> decide +kernel)
theorem xa3_ok (v) : xa3 v = (.ok ⟨some 0, some (reply (xa3 v))⟩, (xa3 v).2) := ok_reply (by cases v <;> decide +kernel)
theorem xa4_ok (v) : xa4 v = (.ok ⟨some 0, some (reply (xa4 v))⟩, (xa4 v).2) := ok_reply (by cases v <;> decide +kernel)
theorem xa5_key (v) : (xa5 v).2.osk Toy.crypto 0 = .ok (key (xa5 v).2) := ok_key (by cases v <;> decide +kernel)
theorem xa5_done (v) : (xa5 v).2.handshake 0 = none := by cases v <;> decide +kernel
theorem xb1_ok (v) : xb1 v = (.ok (sent (xb1 v)), (xb1 v).2) := ok_sent (by cases v <;> decide +kernel)
theorem xb2_ok (v) : xb2 v = (.ok ⟨none, some (reply (xb2 v))⟩, (xb2 v).2) := ok_reply (by cases v <;> decide +kernel)
theorem xb3_ok (v) : xb3 v = (.ok ⟨some 0, some (reply (xb3 v))⟩, (xb3 v).2) := ok_reply (by cases v <;> decide +kernel)
theorem xb4_ok (v) : xb4 v = (.ok ⟨some 0, some (reply (xb4 v))⟩, (xb4 v).2) := ok_reply (by cases v <;> decide +kernel)
theorem xb5_key (v) : (xb5 v).2.osk Toy.crypto 0 = .ok (key (xb5 v).2) := ok_key (by cases v <;> decide +kernel)
theorem xb5_done (v) : (xb5 v).2.handshake 0 = none := by cases v <;> decide +kernel
theorem x5_differ (v) : key (xa5 v).2 ≠ key (xb5 v).2 := by cases v <;> decide +kernel

end Ex

/-- **C127** (the counterexample). For both protocol versions there are two servers that have peered with each other, with right inputs, whose crossing handshakes complete
with two different keys: every call succeeds, the application of each side is told twice that a key is available, and in the end the keys differ and no handshake is pending. -/
theorem crossed_keys_differ (v : Version) : ∃ A B eb ea i j, Mutual Toy.crypto A B 0 0 eb ea ∧ eb.version = v ∧ eb.handshake = none ∧ ea.handshake = none ∧
    FreshReachable Toy.crypto A ∧ FreshReachable Toy.crypto B ∧ SideIn.WF Toy.crypto i ∧ SideIn.WF Toy.crypto j ∧ SideOk A 0 i ∧ SideOk B 0 j ∧
    ∃ m1 n1 A1 B1, A.initiate Toy.crypto 0 i.t1 i.r1 i.x1 = (.ok m1, A1) ∧ B.initiate Toy.crypto 0 j.t1 j.r1 j.x1 = (.ok n1, B1) ∧
    ∃ m2 n2 A2 B2, B1.handleMsg Toy.crypto m1 j.x2 j.t2 j.r2 = (.ok ⟨none, some m2⟩, B2) ∧ A1.handleMsg Toy.crypto n1 i.x2 i.t2 i.r2 = (.ok ⟨none, some n2⟩, A2) ∧
    ∃ m3 n3 A3 B3, A2.handleMsg Toy.crypto m2 i.x3 i.t3 i.r3 = (.ok ⟨some 0, some m3⟩, A3) ∧ B2.handleMsg Toy.crypto n2 j.x3 j.t3 j.r3 = (.ok ⟨some 0, some n3⟩, B3) ∧
    ∃ m4 n4 A4 B4, B3.handleMsg Toy.crypto m3 j.x4 j.t4 j.r4 = (.ok ⟨some 0, some m4⟩, B4) ∧ A3.handleMsg Toy.crypto n3 i.x4 i.t4 i.r4 = (.ok ⟨some 0, some n4⟩, A4) ∧
    ∃ ka kb, (A4.handleMsg Toy.crypto m4 i.x5 i.t5 i.r5).2.osk Toy.crypto 0 = .ok ka ∧ (B4.handleMsg Toy.crypto n4 j.x5 j.t5 j.r5).2.osk Toy.crypto 0 = .ok kb ∧ ka ≠ kb ∧
      (A4.handleMsg Toy.crypto m4 i.x5 i.t5 i.r5).2.handshake 0 = none ∧ (B4.handleMsg Toy.crypto n4 j.x5 j.t5 j.r5).2.handshake 0 = none := by
  refine ⟨Ex.A0 v, Ex.B0 v, _, _, Ex.sideA, Ex.sideB, Ex.registered v, by cases v <;> rfl, by cases v <;> rfl, by cases v <;> rfl, Ex.server_fresh _ _ _, Ex.server_fresh _ _ _, ?_, ?_, ?_, ?_, ?_⟩
  · exact ⟨Ex.rnd_WF _, fun _ => Ex.rnd_WF _, fun _ => Ex.rnd_WF _, fun _ => Ex.rnd_WF _, fun _ => Ex.rnd_WF _, by decide +kernel, by decide +kernel, by decide +kernel, by decide +kernel, by decide +kernel, by decide +kernel, by decide +kernel⟩
  · exact ⟨Ex.rnd_WF _, fun _ => Ex.rnd_WF _, fun _ => Ex.rnd_WF _, fun _ => Ex.rnd_WF _, fun _ => Ex.rnd_WF _, by decide +kernel, by decide +kernel, by decide +kernel, by decide +kernel, by decide +kernel, by decide +kernel, by decide +kernel⟩
  · refine ⟨by cases v <;> decide +kernel, fun q hq => ?_⟩
    have := (Ex.registered v).atA.symm.trans hq
    cases this
    cases v <;> decide +kernel
  · refine ⟨by cases v <;> decide +kernel, fun q hq => ?_⟩
    have := (Ex.registered v).atB.symm.trans hq
    cases this
    cases v <;> decide +kernel
  exact ⟨Ex.sent (Ex.xa1 v), Ex.sent (Ex.xb1 v), (Ex.xa1 v).2, (Ex.xb1 v).2, Ex.xa1_ok v, Ex.xb1_ok v, Ex.reply (Ex.xb2 v), Ex.reply (Ex.xa2 v), (Ex.xa2 v).2, (Ex.xb2 v).2, Ex.xb2_ok v, Ex.xa2_ok v,
    Ex.reply (Ex.xa3 v), Ex.reply (Ex.xb3 v), (Ex.xa3 v).2, (Ex.xb3 v).2, Ex.xa3_ok v, Ex.xb3_ok v, Ex.reply (Ex.xb4 v), Ex.reply (Ex.xa4 v), (Ex.xa4 v).2, (Ex.xb4 v).2, Ex.xb4_ok v, Ex.xa4_ok v,
    Ex.key (Ex.xa5 v).2, Ex.key (Ex.xb5 v).2, Ex.xa5_key v, Ex.xb5_key v, Ex.x5_differ v, Ex.xa5_done v, Ex.xb5_done v⟩

end Verif
