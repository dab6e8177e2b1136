import Verif.Thm.AppPeers
import Verif.Thm.KeyAgreement
/-
Two daemons that are configured for each other, exchanging datagrams: both put out the same key.
-/
namespace Verif
open Server FileIO
namespace App
variable {C : Crypto}

/-! ### Specification -/

/-- The round `e` of the application finds no event of the protocol server, whose state is `s`, and the datagram `m` from address `addr` on
socket `sock` is handed to it; the application is not under load, and its transmit buffer has the proper size. -/
structure Gets (C : Crypto) (a : App) (e : World) (s : Server) (m : Bytes) (sock : Nat) (addr : Addr) : Prop where
  idle : ∃ t, Polled a e (.sleep t) s
  io : e.io = .msg m sock addr
  load : e.load = false
  buf : FitsAll C e.tx

/-- An application in order: its protocol server has been used through its interface only, there is an entry for every peer, and the brokers
the peers refer to are registered. -/
structure Ready (C : Crypto) (a : App) : Prop where
  reach : ∀ s, a.site = .product s → Reachable C s
  aligned : a.Aligned
  brokers : a.BrokersPresent

/-- I/O of the round works: datagrams are sent, files are opened and written, standard output and the broker take what they are given. -/
structure Works (e : World) : Prop where
  send : e.sendTo = true
  open_ : e.openOk = true
  write : ∀ k : Bytes, k.length = 32 → (writeAll (b64Enc k) e.writes).1 = some (.ok ())
  line : e.lineOk = true
  psk : e.pskOk = true

/-- In the round with outcome `r`, the application `a` put out the key `k` as the result of an exchange with its peer number `p`, whose id is `pid`:
the file of the peer holds the key, the broker of the peer was told the key, it was announced, nothing else was put out. The address of the peer is
now `addr`, and the loop goes on. -/
structure PutOut (a : App) (r : Res) (p : Nat) (pid k : Bytes) (sock : Nat) (addr : Addr) : Prop where
  fate : r.fate = .next
  len : k.length = 32
  entry : ∃ ap, a.peers[p]? = some ap ∧
    r.app.peers[p]? = some { ap with current := some (.bound sock addr) } ∧
    (∀ file, ap.outfile = some file → ∃ mode, r.app.fs file = some ⟨b64Enc k, mode⟩ ∧ (a.fs file = none → mode &&& 0o077 = 0)) ∧
    (∀ path, ap.outfile ≠ some path → r.app.fs path = a.fs path) ∧
    (∀ file, ap.outfile = some file → .line pid file .exchanged ∈ r.out) ∧
    (∀ ptr cfg br, ap.broker = some (ptr, cfg) → a.brokers.store.lookup ptr = some br → .psk br.name cfg k ∈ r.out) ∧
    (∀ x ∈ r.out, ∀ b cfg k', x = .psk b cfg k' → k' = k)

/-! ### Rounds in which a message is received -/

theorem Gets.receive {a : App} {e : World} {s : Server} {m : Bytes} {sock : Nat} {addr : Addr} (g : Gets C a e s m sock addr) :
    e.receive m sock addr = .handleMsg m e.tx e.later e.rnd := by
  unfold World.receive; rw [if_neg]; rw [g.load]; exact Bool.false_ne_true

theorem exchanged_site (a : App) (p sock : Nat) (addr : Addr) (e : World) : (a.exchanged C p sock addr e).app.site = a.site := by
  unfold exchanged
  cases hp : a.peers[p]? with
  | none => rfl
  | some ap =>
    dsimp only
    split
    · rfl
    · split
      · rfl
      · rename_i k _
        obtain ⟨fs, hfs⟩ := outputKey_app (C := C) { a with peers := a.peers.set p { ap with current := some (.bound sock addr) } } p .exchanged k e
        rw [hfs]

theorem received_site (a : App) (m : MsgResult) (sock : Nat) (addr : Addr) (e : World) : (a.received C m sock addr e).app.site = a.site := by
  obtain ⟨ex, resp⟩ := m
  unfold received
  have main : ∀ (f : Fate) (o : List Output), (Res.andThen ⟨f, a, o⟩ fun a => (match (⟨ex, resp⟩ : MsgResult).exchanged with
        | none => (⟨.next, a, []⟩ : Res)
        | some p => a.exchanged C p sock addr e)).app.site = a.site := by
    intro f o
    unfold Res.andThen
    split
    · dsimp only
      cases ex with
      | none => rfl
      | some p => exact exchanged_site a p sock addr e
    · rfl
  cases resp with
  | none => exact main _ _
  | some msg =>
    dsimp only
    split
    · exact main _ _
    · exact main _ _

/-- a message is accepted: the protocol server's state, and the answer -/
theorem gets_ok {a : App} {e : World} {s s2 : Server} {m : Bytes} {sock : Nat} {addr : Addr} (g : Gets C a e s m sock addr)
    {x : MsgResult} (h : s.handleMsg C m e.tx e.later e.rnd = (.ok x, s2)) :
    a.step C e = ({ a with site := .product s2 } : App).received C x sock addr e ∧
    (e.receive m sock addr).result C s = .ok x ∧ s.step C (e.receive m sock addr) = s2 ∧ (a.step C e).app.site = .product s2 := by
  obtain ⟨t, hP⟩ := g.idle
  have hr : (e.receive m sock addr).result C s = .ok x := by rw [g.receive]; simp only [Op.result, h]
  have hs : s.step C (e.receive m sock addr) = s2 := by rw [g.receive]; simp only [Server.step, h]
  have heq : a.step C e = ({ a with site := .product s2 } : App).received C x sock addr e := by
    rw [step_polled hP]
    dsimp only [served]
    rw [g.io]
    dsimp only
    rw [message_eq, hr]
    dsimp only
    rw [hs]
  exact ⟨heq, hr, hs, by rw [heq, received_site]⟩

/-- a message is answered, and no exchange is completed -/
theorem gets_answer {a : App} {e : World} {s s2 : Server} {m : Bytes} {sock : Nat} {addr : Addr} (g : Gets C a e s m sock addr)
    (hsend : e.sendTo = true) {msg : Bytes} (h : s.handleMsg C m e.tx e.later e.rnd = (.ok ⟨none, some msg⟩, s2)) :
    a.step C e = ⟨.next, { a with site := .product s2 }, [.datagram sock addr msg]⟩ := by
  rw [(gets_ok g h).1]
  unfold received
  dsimp only
  rw [if_pos hsend]
  unfold Res.andThen
  simp only [List.append_nil]

/-- a message is accepted without answer, and no exchange is completed -/
theorem gets_silent {a : App} {e : World} {s s2 : Server} {m : Bytes} {sock : Nat} {addr : Addr} (g : Gets C a e s m sock addr)
    (h : s.handleMsg C m e.tx e.later e.rnd = (.ok ⟨none, none⟩, s2)) :
    a.step C e = ⟨.next, { a with site := .product s2 }, []⟩ := by
  rw [(gets_ok g h).1]
  unfold received
  dsimp only
  unfold Res.andThen
  simp only [List.append_nil]

/-- an exchange is completed -/
theorem gets_exchange (L : C.Lawful) {a : App} (R : Ready C a) {e : World} (he : e.WF C) (W : Works e) {s s2 : Server} {m : Bytes} {sock : Nat} {addr : Addr}
    (g : Gets C a e s m sock addr) {p : Nat} {msg k : Bytes} (h : s.handleMsg C m e.tx e.later e.rnd = (.ok ⟨some p, some msg⟩, s2))
    (hk : s2.osk C p = .ok k) :
    (a.step C e).app.site = .product s2 ∧ .datagram sock addr msg ∈ (a.step C e).out ∧
    ∃ q, s.peers[p]? = some q ∧ PutOut a (a.step C e) p (pidt C q) k sock addr := by
  obtain ⟨heq, hr, hs, hsite⟩ := gets_ok g h
  obtain ⟨t, hP⟩ := g.idle
  have hacc : Accepted C a e sock addr ⟨some p, some msg⟩ := ⟨s, t, m, hP, g.io, hr⟩
  have hdat := (datagram_recipient (C := C) a e).2 sock addr _ msg hacc W.send
  have hke : KeyEvent C a e p .exchanged k := by
    obtain ⟨s0, h0, hpoll⟩ := hP
    exact .exchanged s0 s t m sock addr p (some msg) k h0 hpoll g.io hr (by rw [hs]; exact hk)
  have hlen := osk_len L hk
  obtain ⟨hf, -, s0, q, ap, h0, hq, hap, hout, hfile, hother⟩ := key_output_complete L a R.reach e he R.aligned R.brokers p .exchanged k hke W.send W.open_ (W.write k hlen) W.line W.psk
  have hq' : ∃ q', s.peers[p]? = some q' ∧ pidt C q' = pidt C q := by
    obtain ⟨s0', h0', hpoll⟩ := hP
    rw [h0] at h0'; cases h0'
    obtain ⟨q', g1, -, g2, g3, -⟩ := (peer_pointers_stable L (R.reach s0 h0)).1 (.poll e.now e.prnd) he.prnd p q hq
    rw [← poll_op s0 e hpoll] at g1
    exact ⟨q', g1, by unfold pidt; rw [g2, g3]⟩
  obtain ⟨q', hq1, hq2⟩ := hq'
  refine ⟨hsite, hdat, q', hq1, ?_⟩
  rw [hq2]
  refine ⟨hf, hlen, ap, hap, ?_, hfile, hother, ?_, ?_, ?_⟩
  · rw [heq]
    have := (received_peers (C := C) { a with site := .product s2 } ⟨some p, some msg⟩ sock addr e).2.2.2 p ap hap
    rw [this]; simp [W.send]
  · intro file hfl
    have : Output.line (pidt C q) file .exchanged ∈ (a.step C e).out.filter Output.isKey := by
      rw [hout]; unfold announcements; rw [hfl]; simp
    exact (List.mem_filter.mp this).1
  · intro ptr cfg br hb hl
    have : Output.psk br.name cfg k ∈ (a.step C e).out.filter Output.isKey := by
      rw [hout]; unfold announcements brokerUpdate; rw [hb]; dsimp only; rw [hl]; simp
    exact (List.mem_filter.mp this).1
  · intro x hx b cfg k' he'
    subst he'
    have : Output.psk b cfg k' ∈ (a.step C e).out.filter Output.isKey := List.mem_filter.mpr ⟨hx, rfl⟩
    rw [hout] at this
    unfold announcements brokerUpdate at this
    rw [List.mem_append] at this
    rcases this with h1 | h1
    · split at h1 <;> simp at h1
    · split at h1
      · split at h1
        · simp at h1; exact h1.2.2
        · simp at h1
      · simp at h1

/-- a round keeps the application in order -/
theorem Ready.step {a : App} (R : Ready C a) (e : World) (he : e.WF C) : Ready C (a.step C e).app := by
  obtain ⟨F, h1, h2, h3⟩ := step_frame a e he
  refine ⟨fun s hs => ?_, ?_, fun ap' hap ptr cfg hb => ?_⟩
  · cases ha : a.site with
    | product s0 =>
      obtain ⟨ops, g1, g2⟩ := h1 s0 ha
      rw [g2] at hs; cases hs
      exact run_reachable ops (fun o ho => (g1 o ho).1) _ (R.reach s0 ha)
    | builder b => rw [h2 b ha] at hs; cases hs
    | void => rw [h3 ha] at hs; cases hs
  · have hal := R.aligned
    unfold Aligned at hal ⊢
    cases ha : a.site with
    | product s0 =>
      obtain ⟨ops, g1, g2⟩ := h1 s0 ha
      rw [g2]
      rw [ha] at hal
      dsimp only at hal ⊢
      rw [run_length s0 ops (fun o ho => (g1 o ho).2), F.len]; exact hal
    | builder b => rw [h2 b ha]; rw [ha] at hal; dsimp only at hal ⊢; rw [F.len]; exact hal
    | void => rw [h3 ha]; trivial
  · obtain ⟨i, hi⟩ := List.getElem?_of_mem hap
    have hlt : i < a.peers.length := by rw [← F.len]; exact (List.getElem?_eq_some_iff.mp hi).1
    obtain ⟨ap'', g1, g2, g3⟩ := F.peers i _ (List.getElem?_eq_getElem hlt)
    rw [hi] at g1; cases g1
    rw [F.brokers]
    exact R.brokers _ (List.getElem_mem hlt) ptr cfg (g3 ▸ hb)

/-! ### C97 -/

/-- **C97.** -/
theorem daemons_agree (L : C.Lawful) (K : C.KemTotal) {A B : App} {sA sB : Server} {pa pb : Nat} {eb ea : Peer} (M : Mutual C sA sB pa pb eb ea)
    -- A is to initiate a handshake with B, whose address it knows
    {e1 : World} (he1 : e1.WF C) (hb1 : FitsAll C e1.tx) (hP1 : Polled A e1 (.sendInitiation pa) sA) (hw1 : e1.sendTo = true)
    {apA : AppPeer} (hapA : A.peers[pa]? = some apA) {sockA : Nat} {addrB : Addr} (hep : apA.endpoint = some (.bound sockA addrB))
    -- the session id that A draws is not in use
    (hsidA : sA.index (.sid e1.rnd0.sid) = none) (hnewA : (sA.handshake pa).map (·.core.sidi) ≠ some e1.rnd0.sid) :
    -- it sends InitHello to B
    ∃ m1 A1, A.step C e1 = ⟨.next, { A with site := .product A1 }, [.datagram sockA addrB m1]⟩ ∧
    (HelloUnambiguous C sB ea.version m1 →
      -- B receives it, from whatever address, and answers to that address
      ∀ e2 : World, e2.WF C → e2.sendTo = true → ∀ sock2 addr2, Gets C B e2 sB m1 sock2 addr2 →
      ∃ m2 B1, B.step C e2 = ⟨.next, { B with site := .product B1 }, [.datagram sock2 addr2 m2]⟩ ∧
      -- A receives the answer, after any activity that left the handshake pending
      ∀ (A' : App) (sA' : Server) (e3 : World) sock3 addr3, Ready C A' → e3.WF C → Works e3 → Gets C A' e3 sA' m2 sock3 addr3 →
        StillPending A1 sA' pa e1.rnd0.sid →
      ∃ m3 A2 k, (A'.step C e3).app.site = .product A2 ∧ .datagram sock3 addr3 m3 ∈ (A'.step C e3).out ∧
        PutOut A' (A'.step C e3) pa (pidt C eb) k sock3 addr3 ∧
      -- B receives InitConf, after any activity that kept its biscuit key
      ∀ (B' : App) (sB' : Server) (e4 : World) sock4 addr4, Ready C B' → e4.WF C → Works e4 → Gets C B' e4 sB' m3 sock4 addr4 →
        StillOpen C B1 sB' pb sB.biscuitCtr (e2.rnd ea.version.hash).sid m2 → ConfUnambiguous C sB' ea.version m3 →
      -- and puts out the same key
      ∃ m4 B2, (B'.step C e4).app.site = .product B2 ∧ .datagram sock4 addr4 m4 ∈ (B'.step C e4).out ∧
        PutOut B' (B'.step C e4) pb (pidt C ea) k sock4 addr4 ∧
      -- A receives the acknowledgement, after any activity that kept session and handshake: the handshake is over, and the key is kept
      ∀ (A'' : App) (sA'' : Server) (e5 : World) sock5 addr5, Gets C A'' e5 sA'' m4 sock5 addr5 → StillUnconfirmed A2 sA'' pa e1.rnd0.sid →
      ∃ A3, A''.step C e5 = ⟨.next, { A'' with site := .product A3 }, []⟩ ∧ A3.handshake pa = none ∧ A3.osk C pa = .ok k) := by
  have fits : ∀ {tx : Bytes}, FitsAll C tx → Env.size (InitHello.size C) ≤ tx.length ∧ Env.size (RespHello.size C) ≤ tx.length := by
    intro tx h
    exact ⟨h .initHello, h .respHello⟩
  obtain ⟨m1, A1, hini, -⟩ := key_agreement_interleaved L K M (rA := e1.rnd0) (rB := e1.rnd) he1.rnd0 he1.rnd hsidA hnewA e1.later 0 0 0 0 e1.rnd e1.rnd e1.rnd
    (fits hb1).1 (fits hb1).2 (fits hb1).2 (fits hb1).2 (fits hb1).2
  refine ⟨m1, A1, ?_, ?_⟩
  · have := (due_message_sent (C := C) A e1 pa sA _ hP1 apA hapA (fun s => s.initiate C pa e1.later e1.rnd0 e1.tx) (.inl ⟨rfl, rfl⟩)).2.1 sockA addrB m1 hep (by rw [hini]) hw1
    rw [this, hini]
  · intro hun e2 he2 hs2 sock2 addr2 G2
    obtain ⟨m1', A1', hini', H⟩ := key_agreement_interleaved L K M (rA := e1.rnd0) (rB := e2.rnd) he1.rnd0 he2.rnd hsidA hnewA e1.later e2.later 0 0 0 e1.rnd e1.rnd e1.rnd
      (fits hb1).1 (fits G2.buf).2 (fits hb1).2 (fits hb1).2 (fits hb1).2
    rw [hini] at hini'; cases hini'
    obtain ⟨m2, B1, hm2, -⟩ := H hun
    refine ⟨m2, B1, gets_answer G2 hs2 hm2, ?_⟩
    intro A' sA' e3 sock3 addr3 R3 he3 W3 G3 SP
    -- the key
    have H3 : ∀ (t4 t5 : Time) (r4 r5 : HashChoice → Rnd) {x4 x5 : Bytes} (h4 : Env.size (RespHello.size C) ≤ x4.length) (h5 : Env.size (RespHello.size C) ≤ x5.length),
        ∃ m3 A2, sA'.handleMsg C m2 e3.tx e3.later e3.rnd = (.ok ⟨some pa, some m3⟩, A2) ∧
        ∀ B1', StillOpen C B1 B1' pb sB.biscuitCtr (e2.rnd ea.version.hash).sid m2 → ConfUnambiguous C B1' ea.version m3 →
        ∃ m4 B2, B1'.handleMsg C m3 x4 t4 r4 = (.ok ⟨some pb, some m4⟩, B2) ∧
        ∃ k, A2.osk C pa = .ok k ∧ B2.osk C pb = .ok k ∧
        ∀ A2', StillUnconfirmed A2 A2' pa e1.rnd0.sid →
        ∃ A3, A2'.handleMsg C m4 x5 t5 r5 = (.ok ⟨none, none⟩, A3) ∧ A3.handshake pa = none ∧ A3.osk C pa = .ok k := by
      intro t4 t5 r4 r5 x4 x5 h4 h5
      obtain ⟨m1', A1', hini', H⟩ := key_agreement_interleaved L K M (rA := e1.rnd0) (rB := e2.rnd) he1.rnd0 he2.rnd hsidA hnewA e1.later e2.later e3.later t4 t5 e3.rnd r4 r5
        (fits hb1).1 (fits G2.buf).2 (fits G3.buf).2 h4 h5
      rw [hini] at hini'; cases hini'
      obtain ⟨m2', B1', hm2', H⟩ := H hun
      rw [hm2] at hm2'; cases hm2'
      exact H sA' SP
    obtain ⟨m3, A2, hm3, -⟩ := H3 0 0 e1.rnd e1.rnd (fits hb1).2 (fits hb1).2
    -- the initiator has an output key
    have hosk : ∃ k, A2.osk C pa = .ok k := by
      obtain ⟨-, hr3, hs3, -⟩ := gets_ok G3 hm3
      obtain ⟨-, -, -, -, -, -, hk⟩ := exchange_session (C := C) (e3.receive m2 sock3 addr3) m2 (receive_time e3 m2 sock3 addr3).1 e3.later (receive_time e3 m2 sock3 addr3).2 pa _ hr3
      rw [hs3] at hk; exact hk
    obtain ⟨k, hk⟩ := hosk
    obtain ⟨hst, hd, qb, hqb, hput⟩ := gets_exchange L R3 he3 W3 G3 hm3 hk
    have hpid : pidt C qb = pidt C eb := by
      obtain ⟨x, g1, -, g2, g3, -⟩ := (peer_pointers_stable L M.reachA).1 (.initiate pa e1.later e1.rnd0 e1.tx) he1.rnd0 pa eb M.atA
      rw [show sA.step C (.initiate pa e1.later e1.rnd0 e1.tx) = A1 by simp only [Server.step, hini]] at g1
      obtain ⟨y, f1, f2, f3, -⟩ := SP.peer x g1
      rw [hqb] at f1; cases f1
      unfold pidt; rw [f2, f3, g2, g3]
    rw [hpid] at hput
    refine ⟨m3, A2, k, hst, hd, hput, ?_⟩
    intro B' sB' e4 sock4 addr4 R4 he4 W4 G4 SO hcu
    obtain ⟨m3', A2', hm3', H4⟩ := H3 e4.later 0 e4.rnd e1.rnd (fits G4.buf).2 (fits hb1).2
    rw [hm3] at hm3'; cases hm3'
    obtain ⟨m4, B2, hm4, k', hk1, hk2, -⟩ := H4 sB' SO hcu
    rw [hk] at hk1; cases hk1
    obtain ⟨hst4, hd4, qa, hqa, hput4⟩ := gets_exchange L R4 he4 W4 G4 hm4 hk2
    have hpid4 : pidt C qa = pidt C ea := by
      obtain ⟨x, g1, -, g2, g3, -⟩ := (peer_pointers_stable L M.reachB).1 (.handleMsg m1 e2.tx e2.later e2.rnd) he2.rnd pb ea M.atB
      rw [show sB.step C (.handleMsg m1 e2.tx e2.later e2.rnd) = B1 by simp only [Server.step, hm2]] at g1
      obtain ⟨y, f1, f2, f3, -⟩ := SO.peer x g1
      rw [hqa] at f1; cases f1
      unfold pidt; rw [f2, f3, g2, g3]
    rw [hpid4] at hput4
    refine ⟨m4, B2, hst4, hd4, hput4, ?_⟩
    intro A'' sA'' e5 sock5 addr5 G5 SU
    obtain ⟨m3', A2', hm3', H5⟩ := H3 e4.later e5.later e4.rnd e5.rnd (fits G4.buf).2 (fits G5.buf).2
    rw [hm3] at hm3'; cases hm3'
    obtain ⟨m4', B2', hm4', k', hk1, hk2, H5⟩ := H5 sB' SO hcu
    rw [hm4] at hm4'; cases hm4'
    rw [hk] at hk1; cases hk1
    obtain ⟨A3, hm5, hn, hk3⟩ := H5 sA'' SU
    exact ⟨A3, gets_silent G5 hm5, hn, hk3⟩

/-! ### A concrete exchange between two daemons -/
namespace Ex
open Verif.Ex

def addrB : Addr := .v4 [10, 0, 0, 2] 9999

/-- the initiator, which knows the address of the responder; the responder, which does not know that of the initiator and has ignored its own
request to initiate a handshake -/
def dA : App := { app (A0 .v03) with peers := [⟨some "key", some (0, "wg0"), some (.bound 0 addrB), none⟩] }
def dB : App := app ((B0 .v03).step Toy.crypto (.poll 1 Verif.Ex.prnd))

def w (t : Time) (n : Nat) (io : IoEvent) : World := { world t io with rnd := fun _ => rnd n, rnd0 := rnd n }

theorem w_WF (t : Time) (n : Nat) (io : IoEvent) : (w t n io).WF Toy.crypto :=
  ⟨⟨fun _ => ⟨rfl, rfl⟩, by show 12345 < 2 ^ 53; decide⟩, fun _ => rnd_WF n, rnd_WF n, rfl⟩

theorem w_works (t : Time) (n : Nat) (io : IoEvent) : Works (w t n io) := by
  refine ⟨rfl, rfl, fun k hk => ?_, rfl, rfl⟩
  show (writeAll (b64Enc k) [.ok 44]).1 = _
  have hl : (b64Enc k).length = 44 := by rw [b64Enc_length, hk]
  generalize b64Enc k = d at hl
  cases d with
  | nil => cases hl
  | cons x d =>
    unfold writeAll
    simp only [hl]
    rw [List.drop_eq_nil_of_le (by rw [hl]; omega)]
    simp [writeAll]

theorem buf_fits : FitsAll Toy.crypto buf := by intro x; cases x <;> decide +kernel

/-- the message sent first in a round -/
def firstMsg (r : Res) : Bytes := match r.out with | .datagram _ _ m :: _ => m | _ => []
/-- the protocol server of an application -/
def srv (a : App) : Server := match a.site with | .product s => s | _ => A0 .v03
/-- the protocol server after it was polled -/
def polled (a : App) (t : Time) : Server := (srv a).step Toy.crypto (.poll t Verif.Ex.prnd)
def sleeps (a : App) (t : Time) : Bool := match (srv a).poll t Verif.Ex.prnd with | some (.sleep _, _) => true | _ => false

def e1 : World := w 1 9 .none
def r1 : Res := dA.step Toy.crypto e1
def e2 : World := w 2 20 (.msg (firstMsg r1) 0 addr)
def r2 : Res := dB.step Toy.crypto e2
def e3 : World := w 3 30 (.msg (firstMsg r2) 0 addrB)
def r3 : Res := r1.app.step Toy.crypto e3
def e4 : World := w 4 40 (.msg (firstMsg r3) 0 addr)
def r4 : Res := r2.app.step Toy.crypto e4
def e5 : World := w 5 50 (.msg (firstMsg r4) 0 addrB)
def r5 : Res := r3.app.step Toy.crypto e5

theorem gets_of (a : App) (s : Server) (hs : a.site = .product s) (t : Time) (n : Nat) (m : Bytes) (sock : Nat) (ad : Addr) (h : sleeps a t = true) :
    Gets Toy.crypto a (w t n (.msg m sock ad)) (polled a t) m sock ad := by
  refine ⟨?_, rfl, rfl, buf_fits⟩
  have hsrv : srv a = s := by unfold srv; rw [hs]
  unfold sleeps at h
  rw [hsrv] at h
  unfold polled
  rw [hsrv]
  cases hp : s.poll t Verif.Ex.prnd with
  | none => rw [hp] at h; cases h
  | some y =>
    obtain ⟨c, s1⟩ := y
    rw [hp] at h
    cases c with
    | sleep u => exact ⟨u, s, hs, by rw [show s.step Toy.crypto (.poll t Verif.Ex.prnd) = s1 by unfold Server.step; dsimp only; rw [hp]]; exact hp⟩
    | _ => cases h

def pendingB (s s' : Server) (p : Nat) (sid : Bytes) : Bool :=
  s'.sskm == s.sskm && s'.spkm == s.spkm && (match s.peers[p]?, s'.peers[p]? with
    | some q, some q' => decide (q'.spkt = q.spkt ∧ q'.version = q.version ∧ q'.osk = q.osk ∧
        q'.handshake.map (fun h => (h.next, h.core, h.eski, h.epki)) = q.handshake.map (fun h => (h.next, h.core, h.eski, h.epki)))
    | _, _ => false) && decide (s'.index (.sid sid) = s.index (.sid sid))

theorem pending_of {s s' : Server} {p : Nat} {sid : Bytes} (h : pendingB s s' p sid = true) : StillPending s s' p sid := by
  unfold pendingB at h
  simp only [Bool.and_eq_true, beq_iff_eq, decide_eq_true_eq] at h
  obtain ⟨⟨⟨h1, h2⟩, h3⟩, h4⟩ := h
  refine ⟨h1, h2, fun q hq => ?_, h4⟩
  rw [hq] at h3
  cases hq' : s'.peers[p]? with
  | none => rw [hq'] at h3; cases h3
  | some q' => rw [hq'] at h3; exact ⟨q', rfl, of_decide_eq_true h3⟩

def openB (s s' : Server) (p : Nat) (no sid : Bytes) : Bool :=
  s'.spkm == s.spkm && ((s'.biscuitKeys.get false).value == (s.biscuitKeys.get false).value && (s'.biscuitKeys.get true).value == (s.biscuitKeys.get true).value) &&
  (match s.peers[p]?, s'.peers[p]? with
    | some q, some q' => decide (q'.spkt = q.spkt ∧ q'.version = q.version ∧ q'.osk = q.osk ∧ leNat q'.biscuitUsed < leNat no)
    | _, _ => false) && decide (s'.index (.sid sid) = none)

theorem open_of {s s' : Server} {p : Nat} {no sid m : Bytes} (hr : Reachable Toy.crypto s') (h : openB s s' p no sid = true) : StillOpen Toy.crypto s s' p no sid m := by
  unfold openB at h
  simp only [Bool.and_eq_true, beq_iff_eq, decide_eq_true_eq] at h
  obtain ⟨⟨⟨h1, h2, h2'⟩, h3⟩, h4⟩ := h
  refine ⟨hr, h1, (by unfold biscuitKeyFor; generalize biscuitKeyBit _ = i; cases i <;> assumption), fun q hq => ?_, .inl h4⟩
  rw [hq] at h3
  cases hq' : s'.peers[p]? with
  | none => rw [hq'] at h3; cases h3
  | some q' => rw [hq'] at h3; exact ⟨q', rfl, of_decide_eq_true h3⟩

def unconfirmedB (s s' : Server) (p : Nat) (sid : Bytes) : Bool :=
  s'.spkm == s.spkm && (match s.peers[p]?, s'.peers[p]? with
    | some q, some q' => decide (q'.version = q.version ∧ q'.osk = q.osk ∧ q'.session = q.session ∧
        q'.handshake.map (fun h => (h.next, h.core.sidi)) = q.handshake.map (fun h => (h.next, h.core.sidi)))
    | _, _ => false) && decide (s'.index (.sid sid) = s.index (.sid sid))

theorem unconfirmed_of {s s' : Server} {p : Nat} {sid : Bytes} (h : unconfirmedB s s' p sid = true) : StillUnconfirmed s s' p sid := by
  unfold unconfirmedB at h
  simp only [Bool.and_eq_true, beq_iff_eq, decide_eq_true_eq] at h
  obtain ⟨⟨h1, h3⟩, h4⟩ := h
  refine ⟨h1, fun q hq => ?_, h4⟩
  rw [hq] at h3
  cases hq' : s'.peers[p]? with
  | none => rw [hq'] at h3; cases h3
  | some q' => rw [hq'] at h3; exact ⟨q', rfl, of_decide_eq_true h3⟩

/-- what can be computed of the outcome of a round -/
def seen (r : Res) : Fate × List (Nat × Addr) × Option Bytes := (r.fate, recipients r.out, (r.app.fs "key").map (·.content))

def isProduct (a : App) : Bool := match a.site with | .product _ => true | _ => false

theorem site_of {a : App} (h : isProduct a = true) : a.site = .product (srv a) := by
  unfold isProduct at h; unfold srv
  cases hs : a.site with
  | product s => rfl
  | _ => rw [hs] at h; cases h

theorem polled_reach {a : App} (h : ∀ s, a.site = .product s → Reachable Toy.crypto s) (hp : isProduct a = true) (t : Time) : Reachable Toy.crypto (polled a t) :=
  .step _ _ (h _ (site_of hp)) ⟨fun _ => ⟨rfl, rfl⟩, by show 12345 < 2 ^ 53; decide⟩

theorem app_brokers (s : Server) (l : List AppPeer) (h : ∀ ap ∈ l, ap.broker = some (0, "wg0")) : BrokersPresent { app s with peers := l } := by
  intro ap hap ptr cfg hb
  rw [h ap hap] at hb; cases hb; rfl

theorem dA_ready : Ready Toy.crypto dA :=
  ⟨fun s hs => by cases hs; exact A0_reach _, by show (A0 .v03).peers.length = 1; decide +kernel, app_brokers _ _ (by intro ap h; simp at h; subst h; rfl)⟩
theorem dB_ready : Ready Toy.crypto dB :=
  ⟨fun s hs => by cases hs; exact .step _ _ (B0_reach _) ⟨fun _ => ⟨rfl, rfl⟩, by show 12345 < 2 ^ 53; decide⟩, by show ((B0 .v03).step Toy.crypto (.poll 1 Verif.Ex.prnd)).peers.length = 1; decide +kernel,
    app_brokers _ _ (by intro ap h; simp [app] at h; subst h; rfl)⟩
theorem r1_ready : Ready Toy.crypto r1.app := dA_ready.step e1 (w_WF _ _ _)
theorem r2_ready : Ready Toy.crypto r2.app := dB_ready.step e2 (w_WF _ _ _)
theorem r3_ready : Ready Toy.crypto r3.app := r1_ready.step e3 (w_WF _ _ _)

def confB (B : Server) (m : Bytes) : Bool :=
  match Env.decode InitConf.size m with | some e => decide (B.index (.known (B.knownHash Toy.crypto e)) = none) | none => true

theorem conf_of {B : Server} {m : Bytes} (h : confB B m = true) : ConfUnambiguous Toy.crypto B .v03 m := by
  intro e he
  unfold confB at h
  rw [he] at h
  exact ⟨of_decide_eq_true h, fun h => nomatch h⟩

def peerOf (s : Server) : Peer := (s.peers[0]?).getD (freshPeer none [] .v02 .wireguardPsk)

end Ex

open Ex Verif.Ex in
/-- C97: the hypotheses of `daemons_agree` are met at every stage of the exchange of these two daemons -/
example : ∃ eb ea, Mutual Toy.crypto (polled dA 1) (polled dB 2) 0 0 eb ea ∧ e1.WF Toy.crypto ∧ FitsAll Toy.crypto e1.tx ∧
    Polled dA e1 (.sendInitiation 0) (polled dA 1) ∧ e1.sendTo = true ∧ (∃ ap, dA.peers[0]? = some ap ∧ ap.endpoint = some (.bound 0 addrB)) ∧
    (polled dA 1).index (.sid e1.rnd0.sid) = none ∧ ((polled dA 1).handshake 0).map (·.core.sidi) ≠ some e1.rnd0.sid ∧
    HelloUnambiguous Toy.crypto (polled dB 2) ea.version (firstMsg r1) ∧ Gets Toy.crypto dB e2 (polled dB 2) (firstMsg r1) 0 addr ∧
    Ready Toy.crypto r1.app ∧ Gets Toy.crypto r1.app e3 (polled r1.app 3) (firstMsg r2) 0 addrB ∧ StillPending (srv r1.app) (polled r1.app 3) 0 e1.rnd0.sid ∧ Works e3 ∧
    Ready Toy.crypto r2.app ∧ Gets Toy.crypto r2.app e4 (polled r2.app 4) (firstMsg r3) 0 addr ∧
    StillOpen Toy.crypto (srv r2.app) (polled r2.app 4) 0 (polled dB 2).biscuitCtr (e2.rnd ea.version.hash).sid (firstMsg r2) ∧ ConfUnambiguous Toy.crypto (polled r2.app 4) ea.version (firstMsg r3) ∧ Works e4 ∧
    Gets Toy.crypto r3.app e5 (polled r3.app 5) (firstMsg r4) 0 addrB ∧ StillUnconfirmed (srv r3.app) (polled r3.app 5) 0 e1.rnd0.sid := by
  have hv : (peerOf (polled dB 2)).version = .v03 := by decide +kernel
  have p1 : isProduct r1.app = true := by decide +kernel
  have p2 : isProduct r2.app = true := by decide +kernel
  have p3 : isProduct r3.app = true := by decide +kernel
  refine ⟨peerOf (polled dA 1), peerOf (polled dB 2), ⟨polled_reach dA_ready.reach rfl _, polled_reach dB_ready.reach rfl _, ?_, ?_, by decide +kernel, by decide +kernel, by decide +kernel,
    by decide +kernel, by decide +kernel, by decide +kernel, by decide +kernel⟩, w_WF _ _ _, buf_fits, ?_, rfl,
    ⟨_, rfl, rfl⟩, by decide +kernel, by decide +kernel, ?_, gets_of dB _ rfl 2 20 _ 0 addr (by decide +kernel), r1_ready,
    gets_of r1.app _ (site_of p1) 3 30 _ 0 addrB (by decide +kernel), pending_of (by decide +kernel), w_works _ _ _, r2_ready,
    gets_of r2.app _ (site_of p2) 4 40 _ 0 addr (by decide +kernel), open_of (polled_reach r2_ready.reach p2 _) (by decide +kernel), by rw [hv]; exact conf_of (by decide +kernel), w_works _ _ _,
    gets_of r3.app _ (site_of p3) 5 50 _ 0 addrB (by decide +kernel), unconfirmed_of (by decide +kernel)⟩
  · rw [show (polled dA 1).sskm = (polled dA 1).spkm by decide +kernel]; exact Toy.staticPair _
  · rw [show (polled dB 2).sskm = (polled dB 2).spkm by decide +kernel]; exact Toy.staticPair _
  · refine ⟨A0 .v03, rfl, ?_⟩
    have h : ((A0 .v03).poll 1 Verif.Ex.prnd).map (·.1) = some (.sendInitiation 0) := by decide +kernel
    obtain ⟨⟨c, s1⟩, hx, hc⟩ := Option.map_eq_some_iff.mp h
    dsimp only at hc; subst hc
    show (A0 .v03).poll 1 Verif.Ex.prnd = some (_, (A0 .v03).step Toy.crypto (.poll 1 Verif.Ex.prnd))
    rw [show (A0 .v03).step Toy.crypto (.poll 1 Verif.Ex.prnd) = s1 by unfold Server.step; dsimp only; rw [hx]]; exact hx
  · intro h; rw [hv] at h; cases h

open Ex Verif.Ex in
/-- C97: the same exchange, computed: at the end both key files hold the same key -/
example : seen r1 = (.next, [(0, addrB)], none) ∧ seen r2 = (.next, [(0, addr)], none) ∧ (seen r3).1 = .next ∧ (seen r3).2.1 = [(0, addrB)] ∧
    (seen r4).1 = .next ∧ (seen r4).2.1 = [(0, addr)] ∧ (seen r3).2.2.isSome ∧ (seen r4).2.2 = (seen r3).2.2 ∧ (seen r5).1 = .next ∧ (seen r5).2.1 = [] ∧
    (seen r5).2.2 = (seen r3).2.2 := by decide +kernel

end App
end Verif
