import Verif.Thm.Recovery
import Verif.Thm.Secrets
/-
C106: a handshake with a responder that is under load all the time completes.
-/
namespace Verif
open HashDomain Server

section
variable {C : Crypto}

theorem Along.append {P : Server → Op → Prop} : ∀ {s : Server} {xs ys : List Op}, Along C P s xs → Along C P (s.run C xs) ys → Along C P s (xs ++ ys)
  | _, [], _, _, h => h
  | _, _ :: _, _, hx, hy => ⟨hx.1, hx.2.1, hx.2.2.1, hx.2.2.2.append hy⟩

theorem Mutual.later (L : C.Lawful) {A B B' : Server} {pa pb : Nat} {eb ea : Peer} (M : Mutual C A B pa pb eb ea) (hr : Reachable C B') (hl : Later B B') :
    ∃ ea', Mutual C A B' pa pb eb ea' ∧ Static ea ea' := by
  obtain ⟨ea', h1, st, -⟩ := hl.peers pb ea M.atB
  exact ⟨ea', ⟨M.reachA, hr, M.pairA, by rw [hl.sskm, hl.spkm]; exact M.pairB, M.atA, h1, M.keyB.trans hl.spkm.symm, st.2.1.trans M.keyA,
    st.1.trans M.psk, st.2.2.1.trans M.version, st.2.2.2.trans M.osk⟩, st⟩

theorem answer_type {s s' : Server} {rx tx m : Bytes} {now : Time} {r : HashChoice → Rnd} {x : Option Nat} (h81 : rx.head? = some 0x81)
    (hok : s.handleMsg C rx tx now r = (.ok ⟨x, some m⟩, s')) : m.head? = some 0x82 := by
  rcases handleMsg_dispatch C s rx tx now r with ⟨y, hx, -⟩ | ⟨t, bs, out, hrx, hout, h⟩
  · rw [hx] at hok; cases hok
  · rcases h with ⟨rfl, e, he, hh⟩ | ⟨rfl, -⟩ | ⟨rfl, -⟩ | ⟨rfl, -⟩ | ⟨rfl, -⟩
    · rw [hh] at hok
      rcases msgInitHello_cases C s e out now r with ⟨y, hx⟩ | ⟨h, q, c, peer, rh, R⟩
      · rw [hx] at hok; cases hok
      · rw [hok] at R
        rcases R.result with ⟨h1, -⟩ | ⟨h1, -⟩ | ⟨h1, -⟩
        · cases h1
        · cases h1
        · cases h1
          rw [sealMsg_head]; rfl
    all_goals (rw [hrx] at h81; cases h81)

/-- **C106.** A starts a handshake with B, which is under load throughout and answers the first message, coming from address `host`, with a CookieReply.
Then A accepts the CookieReply, whatever happened meanwhile as long as it left the handshake alone, and its next retransmission is answered by
B, still under load, when it arrives from the same address while the cookie secret may be used, whatever other calls B served in between. A accepts
the answer, and B, still under load, accepts A's third message. Both have the same key. -/
theorem completes_under_load (L : C.Lawful) (K : C.KemTotal) {A A1 B Bc : Server} {pa pb : Nat} {eb ea : Peer} (hA : FreshReachable C A)
    (M : Mutual C A B pa pb eb ea) {rA : Rnd} (hrA : rA.WF C) (hsidA : A.index (.sid rA.sid) = none)
    (hnewA : (A.handshake pa).map (·.core.sidi) ≠ some rA.sid) {t1 : Time} {x1 m1 : Bytes} (hini : A.initiate C pa t1 rA x1 = (.ok m1, A1))
    {host xc c : Bytes} {tc : Time} (h0 : 0 ≤ tc) {rc : HashChoice → Rnd} (hrc : ∀ h, (rc h).WF C)
    (hcookie : B.handleMsgUnderLoad C m1 xc host tc rc = (.ok ⟨none, some c⟩, Bc)) (h86 : c.head? = some 0x86)
    (opsA : List Op) (alA : Along C (LeavesHandshake C pa) A1 opsA) {xa xr : Bytes} (hxa : FitsAll C xa) (hxr : FitsAll C xr) (ta : Time)
    {ra : HashChoice → Rnd} (hra : ∀ h, (ra h).WF C) :
    ∃ A2 m1' i, (A1.run C opsA).handleMsg C c xa ta ra = (.ok ⟨none, none⟩, A2) ∧ A2.retransmit C pa xr = (.ok m1', A2) ∧
    SecretUsable (Bc.cookieSecrets.get i) tc ∧
    ∀ (opsB : List Op) (t2 : Time), (∀ o ∈ opsB, o.WF C) → (∀ o ∈ opsB, ∀ u, o.time = some u → u ≤ t2) → 0 ≤ t2 → SecretUsable (Bc.cookieSecrets.get i) t2 →
    HelloUnambiguous C (Bc.run C opsB) ea.version m1 →
    (∀ q, (Bc.run C opsB).peers[pb]? = some q → leNat q.biscuitUsed < leNat (Bc.run C opsB).biscuitCtr) →
    ∀ x2 rB, FitsAll C x2 → (∀ h, (rB h).WF C) →
    ∃ m2 B1, (Bc.run C opsB).handleMsgUnderLoad C m1' x2 host t2 rB = (.ok ⟨none, some m2⟩, B1) ∧ m2.head? = some 0x82 ∧
    ∀ opsA', Along C (LeavesHandshake C pa) A2 opsA' → ∀ x3 t3 r3, FitsAll C x3 → (∀ h, (r3 h).WF C) →
    ∃ m3 A3, (A2.run C opsA').handleMsg C m2 x3 t3 r3 = (.ok ⟨some pa, some m3⟩, A3) ∧
    ∀ opsB', Along C (LeavesOpen C pb t2) B1 opsB' → ¬ SidTaken (B1.run C opsB') pb (rB ea.version.hash).sid →
    ConfUnambiguous C (B1.run C opsB') ea.version m3 → ∀ x4 host4 t4 r4, FitsAll C x4 → (∀ h, (r4 h).WF C) →
    ∃ m4 B2, (B1.run C opsB').handleMsgUnderLoad C m3 x4 host4 t4 r4 = (.ok ⟨some pb, some m4⟩, B2) ∧
    ∃ k, A3.osk C pa = .ok k ∧ B2.osk C pb = .ok k := by
  have hfA1 : FreshReachable C A1 := by
    have := FreshReachable.step A (.initiate pa t1 rA x1) hA hrA hnewA
    simpa only [Server.step, hini] using this
  have hrA1 : Reachable C A1 := by
    have := Reachable.step A (.initiate pa t1 rA x1) M.reachA hrA
    simpa only [Server.step, hini] using this
  have hrBc : Reachable C Bc := by
    have := Reachable.step B (.handleMsgUnderLoad m1 xc host tc rc) M.reachB hrc
    simpa only [Server.step, hcookie] using this
  have hlBc : Later B Bc := by
    have := step_later L B (.handleMsgUnderLoad m1 xc host tc rc) hrc
    simpa only [Server.step, hcookie] using this
  have hx1 : Env.size (InitHello.size C) ≤ x1.length := by
    have h := hini
    unfold initiate castTx at h
    by_cases h1 : x1.length < Env.size (InitHello.size C)
    · rw [if_pos h1] at h; cases h
    · omega
  have hpend : Pending C A1 pa B.spkm m1 := by
    rw [← M.keyB]
    exact initiate_pending L K hrA M.atA hsidA hnewA hini
  have hpend' : Pending C (A1.run C opsA) pa B.spkm m1 := by
    obtain ⟨q, h, e, hq, hk, hh, he, h81, htl, htb, htake, hsid, hix⟩ := hpend
    have hn : h.next = .respHello := by
      obtain ⟨ih, hs0, hs, e1, A1', -, hcall, -, hp1, -, hnext, -⟩ := initiate_ok (now := t1) L K hrA M.atA hsidA hnewA hx1
      rw [hini] at hcall
      obtain ⟨-, rfl⟩ := Prod.mk.inj hcall
      rw [hp1] at hq; cases hq
      cases hh
      exact hnext
    obtain ⟨q', h', hq', hh', k⟩ := pending_run L hrA1 alA hq hh hn
    obtain ⟨q2, hq2, hst, -⟩ := (run_later L opsA alA.wf A1).peers pa q hq
    rw [hq'] at hq2; cases hq2
    exact ⟨q', h', e, hq', hst.2.1.trans hk, hh', he, h81, k.txLen.trans htl, by rw [k.txBuf]; exact htb, by rw [k.txBuf]; exact htake,
      by rw [k.core]; exact hsid, by rw [fresh_index L (alA.fresh hfA1) hq' hh']⟩
  obtain ⟨A2, m1', i, ha1, ha2, -, -, hus, hacc⟩ := cookie_liveness L hpend' hrc h0 hcookie h86 xa xr hxa hxr ta ra
  refine ⟨A2, m1', i, ha1, ha2, hus, ?_⟩
  intro opsB t2 hwB htB h02 husB hun hused x2 rB hx2 hrB
  have hrB' := run_reachable opsB hwB Bc hrBc
  obtain ⟨ea', M', st⟩ := M.later L hrB' (hlBc.trans (run_later L opsB hwB Bc))
  have hl82 : ∀ {x : Bytes}, FitsAll C x → Env.size (RespHello.size C) ≤ x.length := fun {x} h => by
    have h1 := h .respHello
    have h2 : payloadSize C .respHello = RespHello.size C := rfl
    rw [h2] at h1; unfold Env.size; omega
  have hver : ea'.version = ea.version := st.2.2.1
  have D : ∀ (x3 x4 : Bytes) (t3 t4 : Time) (r3 r4 : HashChoice → Rnd), FitsAll C x3 → FitsAll C x4 → (∀ h, (r3 h).WF C) → (∀ h, (r4 h).WF C) →
      ∀ ops, Along C (LeavesHandshake C pa) A1 ops → ∃ m2 B1, (Bc.run C opsB).handleMsg C m1 x2 t2 rB = (.ok ⟨none, some m2⟩, B1) ∧
      ∃ m3 A3, (A1.run C ops).handleMsg C m2 x3 t3 r3 = (.ok ⟨some pa, some m3⟩, A3) ∧
      ∀ opsB', Along C (LeavesOpen C pb t2) B1 opsB' → ¬ SidTaken (B1.run C opsB') pb (rB ea.version.hash).sid →
      ConfUnambiguous C (B1.run C opsB') ea.version m3 →
      ∃ m4 B2, (B1.run C opsB').handleMsg C m3 x4 t4 r4 = (.ok ⟨some pb, some m4⟩, B2) ∧ ∃ k, A3.osk C pa = .ok k ∧ B2.osk C pb = .ok k := by
    intro x3 x4 t3 t4 r3 r4 h3 h4 hr3 hr4 ops al
    obtain ⟨m, A', e1, g⟩ := completes_despite_loss L K hA M' hrA hrB hsidA hnewA (hused ea' M'.atB) t1 t2 t3 t4 t4 h02 r3 r4 r4 hr3 hr4
      hx1 (hl82 hx2) (hl82 h3) (hl82 h4) (hl82 h4)
    rw [hini] at e1
    cases e1
    obtain ⟨m2, B1, e2, m3, A3, e3, -, g3⟩ := (g ops al).2 m1 (.refl m1) (by rw [hver]; exact hun)
    rw [hver] at g3
    refine ⟨m2, B1, e2, m3, A3, e3, fun opsB' al' hs hc => ?_⟩
    obtain ⟨m4, B2, e4, k, k1, k2, -⟩ := g3 opsB' al' hs hc
    exact ⟨m4, B2, e4, k, k1, k2⟩
  have hheads : m1.head? = some 0x81 := by obtain ⟨_, _, _, -, -, -, -, h81, -⟩ := hpend; exact h81
  obtain ⟨m2, B1, e2, -⟩ := D x2 x2 t2 t2 rB rB hx2 hx2 hrB hrB opsA alA
  have h82 := answer_type hheads e2
  refine ⟨m2, B1, by rw [hacc opsB t2 htB husB]; exact e2, h82, ?_⟩
  · intro opsA' alA' x3 t3 r3 hx3 hr3
    have alc : Along C (LeavesHandshake C pa) (A1.run C opsA) (.handleMsg c xa ta ra :: opsA') := by
      refine ⟨hra, trivial, ?_, by simpa only [Server.step, ha1] using alA'⟩
      exact ⟨fun _ _ _ h => (nomatch h), fun _ _ h => (nomatch h), fun rx' h => (by cases h; exact fun q _ rej => ⟨fun h => (by have := h.1; rw [h86] at this; cases this), fun h => (by have := h.1; rw [h86] at this; cases this)⟩),
        fun rx' h => (by cases h; exact fun h => (by have := h.1; rw [h86] at this; cases this))⟩
    have hrun : A1.run C (opsA ++ .handleMsg c xa ta ra :: opsA') = A2.run C opsA' := by
      rw [run_append]
      show (((A1.run C opsA).step C (.handleMsg c xa ta ra)).run C opsA') = _
      simp only [Server.step, ha1]
    obtain ⟨m2', B1', e2', m3, A3, e3, -⟩ := D x3 x3 t3 t3 r3 r3 hx3 hx3 hr3 hr3 _ (alA.append alc)
    rw [e2] at e2'
    cases e2'
    rw [hrun] at e3
    refine ⟨m3, A3, e3, ?_⟩
    intro opsB' alB' hs hc x4 host4 t4 r4 hx4 hr4
    obtain ⟨m2', B1', e2', m3', A3', e3', g⟩ := D x3 x4 t3 t4 r3 r4 hx3 hx4 hr3 hr4 _ (alA.append alc)
    rw [e2] at e2'
    cases e2'
    rw [hrun, e3] at e3'
    cases e3'
    obtain ⟨m4, B2, e4, k⟩ := g opsB' alB' hs hc
    have h83 : m3.head? = some 0x83 := by
      obtain ⟨-, -, -, -, h83, -⟩ := accept_stored L h82 e3
      exact h83
    refine ⟨m4, B2, ?_, k⟩
    rcases underLoad_cases C (B1.run C opsB') m3 x4 host4 t4 r4 with ⟨x, -, -, -, h⟩ | ⟨-, hx⟩ | ⟨h81, -⟩
    · exact absurd h83 h
    · rw [hx]; exact e4
    · rw [h83] at h81; cases h81

/-! ### An example -/

namespace Ex
/-- the initiator processes the CookieReply after other messages arrived -/
def lc1 (v : Version) := ((A1 v).run Toy.crypto (between v)).handleMsg Toy.crypto (reply (u1 v)) buf 4 (fun _ => rnd 31)
/-- … retransmits its InitHello -/
def lc2 (v : Version) := (lc1 v).2.retransmit Toy.crypto 0 buf
/-- … which the responder, under load, answers, after other messages -/
def lc3 (v : Version) := ((u1 v).2.run Toy.crypto (meanwhile v)).handleMsgUnderLoad Toy.crypto (sent (lc2 v)) buf [10, 0, 0, 1] 5 (fun _ => rnd 32)
def lc4 (v : Version) := (lc1 v).2.handleMsg Toy.crypto (reply (lc3 v)) buf 6 (fun _ => rnd 37)
/-- … and the InitConf is accepted under load as well, from another address -/
def lc5 (v : Version) := (lc3 v).2.handleMsgUnderLoad Toy.crypto (reply (lc4 v)) buf [10, 9, 9, 9] 7 (fun _ => rnd 38)
end Ex

/-- C106: the hypotheses of `completes_under_load` are met … -/
example (v : Version) : FreshReachable Toy.crypto (Ex.A0 v) ∧ (∃ eb ea, Mutual Toy.crypto (Ex.A0 v) (Ex.B0 v) 0 0 eb ea) ∧
    (Ex.A0 v).initiate Toy.crypto 0 0 (Ex.rnd 9) Ex.buf = (.ok (Ex.m1 v), Ex.A1 v) ∧
    (Ex.B0 v).handleMsgUnderLoad Toy.crypto (Ex.m1 v) Ex.buf [10, 0, 0, 1] 0 (fun _ => Ex.rnd 25) = (.ok ⟨none, some (Ex.reply (Ex.u1 v))⟩, (Ex.u1 v).2) ∧
    (Ex.reply (Ex.u1 v)).head? = some 0x86 ∧ Along Toy.crypto (LeavesHandshake Toy.crypto 0) (Ex.A1 v) (Ex.between v) ∧ FitsAll Toy.crypto Ex.buf := by
  refine ⟨Ex.server_fresh _ _ _, ⟨_, _, Ex.registered v⟩, Ex.c1_eq v (by cases v <;> decide +kernel), ?_, by cases v <;> decide +kernel, Ex.between_leaves v, ?_⟩
  · have h : (Ex.u1 v).1 = .ok ⟨none, some (Ex.reply (Ex.u1 v))⟩ := by cases v <;> decide +kernel
    show Ex.u1 v = _
    rw [← h]
  · intro t; cases t <;> decide +kernel

/-- … and the run ends with one key. -/
example (v : Version) : (match (Ex.lc4 v).1 with | .ok r => r.exchanged | _ => none) = some 0 ∧
    (match (Ex.lc5 v).1 with | .ok r => r.exchanged | _ => none) = some 0 ∧
    (match (Ex.lc4 v).2.osk Toy.crypto 0, (Ex.lc5 v).2.osk Toy.crypto 0 with | .ok a, .ok b => a == b | _, _ => false) = true := by
  cases v <;> decide +kernel
end
end Verif
