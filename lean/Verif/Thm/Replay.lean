import Verif.Thm.Messages
import Verif.Thm.PollMoves
/-
C02 (replay protection), C03 (retransmitted confirmations), C04 (biscuit numbers).
-/
namespace Verif
open HashDomain Server

/-! ### Specification vocabulary -/

/-- The datagram a call processes, if it processes one. -/
def Server.Op.received : Op → Option Bytes
  | .handleMsg rx _ _ _ => some rx
  | .handleMsgUnderLoad rx _ _ _ _ => some rx
  | _ => none

/-- What a call that processes a datagram returns. -/
def Server.Op.result (C : Crypto) (s : Server) : Op → Except Err MsgResult
  | .handleMsg rx tx now r => (s.handleMsg C rx tx now r).1
  | .handleMsgUnderLoad rx tx host now r => (s.handleMsgUnderLoad C rx tx host now r).1
  | _ => .error .noMsg

/-- Call `o` in state `s` accepts the InitConf it received as an exchange with peer `p`, and `b` is
the biscuit in that InitConf. -/
def AcceptsConf (C : Crypto) (s : Server) (o : Op) (p : Nat) (b : Biscuit) : Prop :=
  ∃ rx m peer e pt, o.received = some rx ∧ o.result C s = .ok ⟨some p, m⟩ ∧ rx.head? = some 0x83 ∧
    Env.decode (payloadSize C .initConf) rx = some e ∧ s.peers[p]? = some peer ∧
    let ic := InitConf.decode e.payload
    C.xOpen (s.biscuitKeys.get (biscuitKeyBit ic.biscuitCt)).value
      (biscuitAd C peer.version.hash s.spkm ic.sidi ic.sidr) ic.biscuitCt = some pt ∧ b = Biscuit.decode pt

section
variable {C : Crypto} {F : Prop}

/-! ### Histories -/

theorem prim_used {a b : Server} (h : Prim C F a b) (p : Nat) (q : Peer) (hq : a.peers[p]? = some q) :
    ∃ q', b.peers[p]? = some q' ∧ leNat q.biscuitUsed ≤ leNat q'.biscuitUsed := by
  have key : ∀ {b : Server} {i : Nat} {f : Peer → Peer}, Upd a b i f → (∀ x, (f x).biscuitUsed = x.biscuitUsed) →
      ∃ q', b.peers[p]? = some q' ∧ leNat q.biscuitUsed ≤ leNat q'.biscuitUsed := by
    intro b i f hu hf
    rw [hu p]
    by_cases hi : p = i
    · rw [if_pos hi, hq]; exact ⟨f q, rfl, by rw [hf]; exact Nat.le_refl _⟩
    · rw [if_neg hi]; exact ⟨q, hq, Nat.le_refl _⟩
  cases h with
  | addPeer psk pk v osk hfree =>
    refine ⟨q, ?_, Nat.le_refl _⟩
    have : p < a.peers.length := (List.getElem?_eq_some_iff.mp hq).1
    simp only [List.getElem?_append, this, if_true, hq]
  | hsPut p' peer hs => exact key (hsPut_get a p' hs) (fun x => rfl)
  | hsUpd p f hf => exact key (modHs_get a p f) (fun x => rfl)
  | hsTake p => exact key (hsTake_get a p) (fun x => rfl)
  | sessTake p => exact key (sessTake_get a p) (fun x => rfl)
  | sessPut p peer ses => exact key (sessPut_get a p ses) (fun x => rfl)
  | sesUpd p f => exact key (modPeer_get a p _) (fun x => rfl)
  | used i no hl hno =>
    rw [modPeer_get a i]
    by_cases hi : p = i
    · subst hi; rw [if_pos rfl, hq]; exact ⟨_, rfl, Nat.le_of_lt (hno q hq)⟩
    · rw [if_neg hi]; exact ⟨q, hq, Nat.le_refl _⟩
  | knownPut p peer v _ hp hfree hk => exact key (knownInsert_upd hk) (fun x => rfl)
  | knownRem p _ hk => exact key (knownRemove_upd hk) (fun x => rfl)
  | ctr => exact ⟨q, hq, Nat.le_refl _⟩
  | bkeys i st => exact ⟨q, hq, Nat.le_refl _⟩
  | csecrets i st => exact ⟨q, hq, Nat.le_refl _⟩
  | initReq p => exact key (modPeer_get a p _) (fun x => rfl)
  | pollOff n => exact ⟨q, hq, Nat.le_refl _⟩

theorem prim_keys {a b : Server} (h : Prim C F a b) :
    b.sskm = a.sskm ∧ b.spkm = a.spkm ∧ b.knownKey = a.knownKey := by
  have key : ∀ {b : Server}, SameGlobals a b → b.sskm = a.sskm ∧ b.spkm = a.spkm ∧ b.knownKey = a.knownKey :=
    fun g => ⟨g.sskm, g.spkm, g.knownKey⟩
  cases h with
  | addPeer psk pk v osk hfree => exact ⟨rfl, rfl, rfl⟩
  | hsPut p' peer hs => exact key (hsPut_globals a p' hs)
  | hsUpd p f hf => exact ⟨rfl, rfl, rfl⟩
  | hsTake p => exact key (hsTake_globals a p)
  | sessTake p => exact key (sessTake_globals a p)
  | sessPut p peer ses => exact key (sessPut_globals a p ses)
  | sesUpd p f => exact ⟨rfl, rfl, rfl⟩
  | used i no hl hno => exact ⟨rfl, rfl, rfl⟩
  | knownPut p peer v _ hp hfree hk => exact key (knownInsert_globals hk)
  | knownRem p _ hk =>
    rcases knownRemove_cases hk with ⟨-, rfl⟩ | ⟨w, q, -, -, rfl⟩
    · exact ⟨rfl, rfl, rfl⟩
    · exact ⟨rfl, rfl, rfl⟩
  | ctr => exact ⟨rfl, rfl, rfl⟩
  | bkeys i st => exact ⟨rfl, rfl, rfl⟩
  | csecrets i st => exact ⟨rfl, rfl, rfl⟩
  | initReq p => exact ⟨rfl, rfl, rfl⟩
  | pollOff n => exact ⟨rfl, rfl, rfl⟩

/-- What never changes about a server and its peers over any history. -/
structure Later (s t : Server) : Prop where
  sskm : t.sskm = s.sskm
  spkm : t.spkm = s.spkm
  knownKey : t.knownKey = s.knownKey
  peers : ∀ (p : Nat) q, s.peers[p]? = some q → ∃ q', t.peers[p]? = some q' ∧ Static q q' ∧
    leNat q.biscuitUsed ≤ leNat q'.biscuitUsed

theorem Static.trans {a b c : Peer} (h : Static a b) (g : Static b c) : Static a c :=
  ⟨g.1.trans h.1, g.2.1.trans h.2.1, g.2.2.1.trans h.2.2.1, g.2.2.2.trans h.2.2.2⟩

theorem Later.refl (s : Server) : Later s s :=
  ⟨rfl, rfl, rfl, fun _ q h => ⟨q, h, ⟨rfl, rfl, rfl, rfl⟩, Nat.le_refl _⟩⟩

theorem Later.trans {a b c : Server} (h : Later a b) (g : Later b c) : Later a c := by
  refine ⟨g.sskm.trans h.sskm, g.spkm.trans h.spkm, g.knownKey.trans h.knownKey, ?_⟩
  intro p q hq
  obtain ⟨q1, h1, s1, u1⟩ := h.peers p q hq
  obtain ⟨q2, h2, s2, u2⟩ := g.peers p q1 h1
  exact ⟨q2, h2, Static.trans s1 s2, Nat.le_trans u1 u2⟩

theorem Prims.later {a b : Server} (h : Prims C F a b) : Later a b := by
  induction h with
  | refl => exact .refl _
  | tail _ hp ih =>
    refine ih.trans ?_
    obtain ⟨h1, h2, h3⟩ := prim_keys hp
    refine ⟨h1, h2, h3, ?_⟩
    intro p q hq
    obtain ⟨q1, hq1, hs⟩ := prim_static hp p q hq
    obtain ⟨q2, hq2, hu⟩ := prim_used hp p q hq
    rw [hq1] at hq2; cases hq2
    exact ⟨q1, hq1, hs, hu⟩

theorem step_later (L : C.Lawful) (s : Server) (o : Op) (ho : o.WF C) : Later s (s.step C o) :=
  Prims.later (step_prims (F := False) L s o ho (fun h => h.elim))

theorem run_later (L : C.Lawful) (ops : List Op) (ho : ∀ o ∈ ops, o.WF C) (s : Server) : Later s (s.run C ops) := by
  induction ops generalizing s with
  | nil => exact .refl _
  | cons o ops ih =>
    exact (step_later L s o (ho o (by simp))).trans (ih (fun x hx => ho x (by simp [hx])) (s.step C o))

theorem run_reachable (ops : List Op) (ho : ∀ o ∈ ops, o.WF C) (s : Server) (h : Reachable C s) :
    Reachable C (s.run C ops) := by
  induction ops generalizing s with
  | nil => exact h
  | cons o ops ih => exact ih (fun x hx => ho x (by simp [hx])) _ (.step _ _ h (ho o (by simp)))

/-! ### C02 -/

/-- An accepted InitConf, seen through `handle_msg`. -/
theorem acceptsConf_msg {s : Server} {o : Op} {p : Nat} {b : Biscuit} (h : AcceptsConf C s o p b) :
    ∃ rx tx now r m, o.received = some rx ∧ s.handleMsg C rx tx now r = (.ok ⟨some p, m⟩, s.step C o) ∧
      o.result C s = .ok ⟨some p, m⟩ := by
  obtain ⟨rx, m, peer, e, pt, hrx, hres, hh, -⟩ := h
  cases o with
  | handleMsg rx' tx now r =>
    exact ⟨rx', tx, now, r, m, rfl, Prod.ext hres rfl, hres⟩
  | handleMsgUnderLoad rx' tx host now r =>
    cases hrx
    refine ⟨rx, tx, now, r, m, rfl, ?_, hres⟩
    have : s.handleMsgUnderLoad C rx tx host now r = s.handleMsg C rx tx now r := by
      cases rx with
      | nil => cases hh
      | cons x xs =>
        simp only [List.head?_cons, Option.some.injEq] at hh
        subst hh
        rfl
    simp only [Op.result, this] at hres
    simp only [step, this]
    exact Prod.ext hres rfl
  | _ => cases hrx

theorem acceptsConf_used {s : Server} {o : Op} {p : Nat} {b : Biscuit} (h : AcceptsConf C s o p b) :
    (∀ peer, s.peers[p]? = some peer → leNat peer.biscuitUsed < leNat b.biscuitNo) ∧
    ∃ peer', (s.step C o).peers[p]? = some peer' ∧ peer'.biscuitUsed = b.biscuitNo := by
  obtain ⟨rx, tx, now, r, m, hrx, hok, -⟩ := acceptsConf_msg h
  obtain ⟨rx', m', peer, e, pt, hrx', -, hh, he, hp, hx, rfl⟩ := h
  rw [hrx] at hrx'; cases hrx'
  rcases handleMsg_exchanged hok with ⟨e', out, c, ic, peer', hs, bs, hty, -⟩ |
    ⟨e', out, h, s0, no, c, peer1, bs, hty, he', hout, hn, hA, hver, hck, R⟩
  · rw [hty] at hh; cases hh
  · have : e' = e := by
      have : Env.decode InitConf.size rx = some e := he
      rw [he'] at this; cases this; rfl
    subst this
    obtain ⟨hg, -, hpeers⟩ := AttemptState.facts hA
    obtain ⟨peer0, hp0, hst, -, -, hu⟩ := hpeers p peer1 R.hpeer
    rw [hp] at hp0; cases hp0
    obtain ⟨c0, peer2, pt1, o, hl, -, hp2, hcmp, ho⟩ := icrVerify_ok R.verify
    obtain ⟨pt', peer3, hx', -, -, rfl, -⟩ := loadBiscuit_ok hl
    rw [R.hpeer] at hp2; cases hp2
    rw [hg.biscuitKeys, hg.spkm, ← hver, hst.2.2.1] at hx'
    rw [hx] at hx'; cases hx'
    constructor
    · intro q hq
      rw [hp] at hq; cases hq
      exact Nat.lt_of_le_of_lt hu (compare_pos hcmp ho)
    · rcases R.result with ⟨⟨x, -, h1⟩, -⟩ | ⟨h1, -⟩ | ⟨h1, -⟩ | ⟨h1, -⟩ | ⟨s2, h1, hk, h2, h3⟩
      · cases h1
      · cases h1
      · cases h1
      · cases h1
      · have hst : s.step C _ = s2 := (Prod.mk.inj h1).2
        rw [hst, knownInsert_upd hk p, if_pos rfl, confirmed_get, if_pos rfl, R.hpeer]
        exact ⟨_, rfl, rfl⟩

/-- **C02.** In every history, the numbers of the biscuits accepted from one peer are strictly
increasing. -/
theorem accepted_biscuits_increase (L : C.Lawful) (s : Server) (o : Op) (ho : o.WF C) (ops : List Op)
    (hops : ∀ x ∈ ops, x.WF C) (o' : Op) (p : Nat) (b b' : Biscuit)
    (h1 : AcceptsConf C s o p b) (h2 : AcceptsConf C ((s.step C o).run C ops) o' p b') :
    leNat b.biscuitNo < leNat b'.biscuitNo := by
  obtain ⟨-, peer, hp, hb⟩ := acceptsConf_used h1
  obtain ⟨hlt, -⟩ := acceptsConf_used h2
  obtain ⟨peer', hp', -, hu⟩ := (run_later L ops hops (s.step C o)).peers p peer hp
  have := hlt peer' hp'
  rw [hb] at hu
  omega

/-- **C02** (recorded messages). An InitConf that led to a key exchange with `p` never leads to
another one, as long as the biscuit key it was sealed with is still in its slot. (When that key was
replaced, the recorded biscuit would have to open under a fresh random key.) -/
theorem recorded_conf_not_accepted_again (L : C.Lawful) (s : Server) (o : Op) (ho : o.WF C) (ops : List Op)
    (hops : ∀ x ∈ ops, x.WF C) (o' : Op) (p : Nat) (b : Biscuit) (rx : Bytes)
    (h1 : AcceptsConf C s o p b) (hrx : o.received = some rx) (hrx' : o'.received = some rx)
    (hkeys : ∀ i, (((s.step C o).run C ops).biscuitKeys.get i).value = (s.biscuitKeys.get i).value) :
    ∀ m, o'.result C ((s.step C o).run C ops) ≠ .ok ⟨some p, m⟩ := by
  intro m hres
  have hl := (step_later L s o ho).trans (run_later L ops hops (s.step C o))
  have h2 : AcceptsConf C ((s.step C o).run C ops) o' p b := by
    obtain ⟨rx1, m1, peer, e, pt, hr1, -, hh, he, hp, hx, hb⟩ := h1
    rw [hrx] at hr1; cases hr1
    obtain ⟨peer', hp', hst, -⟩ := hl.peers p peer hp
    refine ⟨rx, m, peer', e, pt, hrx', hres, hh, he, hp', ?_, hb⟩
    rw [hst.2.2.1, hkeys, hl.spkm]
    exact hx
  exact Nat.lt_irrefl _ (accepted_biscuits_increase L s o ho ops hops o' p b b h1 h2)

/-! ### C03 -/

theorem sealMsg_payload (peer : Peer) (t : MsgType) (e : Env) : (sealMsg C peer t e).payload = e.payload := by
  unfold sealMsg sealCookie
  split <;> rfl

theorem sealMsg_congr {p q : Peer} (hs : Static p q) (hh : p.handshake = none) (hh' : q.handshake = none) (t : MsgType) (e : Env) :
    sealMsg C q t e = sealMsg C p t e := by
  unfold sealMsg sealCookie
  rw [hs.2.2.1, hs.2.1]
  simp only [hh, hh']

theorem sealMsg_sameButCookie (L : C.Lawful) {p q : Peer} (hs : Static p q) {n : Nat} {e : Env} (hwf : e.WF n) (t : MsgType) :
    SameButCookie (sealMsg C p t e).encode (sealMsg C q t e).encode := by
  have h1 := Env.encode_length (sealMsg_WF L (peer := p) (t := t) hwf)
  have h2 := Env.encode_length (sealMsg_WF L (peer := q) (t := t) hwf)
  have ht : (sealMsg C q t e).toCookie = (sealMsg C p t e).toCookie := by
    unfold sealMsg sealCookie
    have e1 : q.version = p.version := hs.2.2.1
    have e2 : q.spkt = p.spkt := hs.2.1
    rw [e1, e2]
    cases p.handshake <;> cases q.handshake <;> rfl
  have hc := (sealMsg_WF L (peer := p) (t := t) hwf).2.2.2
  have hlen : (sealMsg C p t e).encode.length - 16 = (sealMsg C p t e).toCookie.length := by
    show ((sealMsg C p t e).toCookie ++ (sealMsg C p t e).cookie).length - 16 = _
    rw [List.length_append, hc]; omega
  refine ⟨h2.trans h1.symm, ?_⟩
  rw [hlen]
  show ((sealMsg C q t e).toCookie ++ _).take _ = ((sealMsg C p t e).toCookie ++ _).take _
  rw [ht, List.take_left' rfl, List.take_left' rfl]

/-- **C03.** After an InitConf was accepted from peer `p`, and whatever happens next, as long as
the response is still cached for `p`: the byte-identical InitConf is answered again with the same
EmptyData payload, the same bytes up to the cookie (with the identical bytes unless a handshake with that peer was started), no
exchange is reported and the state does not change at all. -/
theorem retransmitted_conf_idempotent (L : C.Lawful) {s : Server} (hr : Reachable C s) (o : Op) (ho : o.WF C) (p : Nat)
    (b : Biscuit) (hacc : AcceptsConf C s o p b) (rx : Bytes) (hrx : o.received = some rx)
    (ops : List Op) (hops : ∀ x ∈ ops, x.WF C)
    (hcache : ((s.step C o).run C ops).known p = (s.step C o).known p)
    (tx : Bytes) (htx : Env.size (payloadSize C .respHello) ≤ tx.length) (now : Time) (r : HashChoice → Rnd) :
    ∃ m m', o.result C s = .ok ⟨some p, some m⟩ ∧
      ((s.step C o).run C ops).handleMsg C rx tx now r = (.ok ⟨none, some m'⟩, (s.step C o).run C ops) ∧
      (∃ e e', Env.decode (payloadSize C .emptyData) m = some e ∧ Env.decode (payloadSize C .emptyData) m' = some e' ∧
        e'.payload = e.payload ∧ e'.msgType = e.msgType) ∧ SameButCookie m m' ∧
      (((s.step C o).run C ops).handshake p = none → m' = m) := by
  obtain ⟨rx', tx1, now1, r1, m1, hrx', hok, hres⟩ := acceptsConf_msg hacc
  rw [hrx] at hrx'; cases hrx'
  obtain ⟨rx2, m2, peer, e, pt, hrx2, -, hh, he, hp, -⟩ := hacc
  rw [hrx] at hrx2; cases hrx2
  rcases handleMsg_exchanged hok with ⟨e', out, c, ic, peer', hs, bs, hty, -⟩ |
    ⟨e', out, h, s0, no, c, peer1, bs, hty, he', hout, hn, hA, hver, hck, R⟩
  · rw [hty] at hh; cases hh
  have : e' = e := by
    have : Env.decode InitConf.size rx = some e := he
    rw [he'] at this; cases this; rfl
  subst this
  obtain ⟨hg, -, hpeers⟩ := AttemptState.facts hA
  obtain ⟨peer0, hp0, hst, -, -, hu⟩ := hpeers p peer1 R.hpeer
  rw [hp] at hp0; cases hp0
  rcases R.result with ⟨⟨x, -, h1⟩, -⟩ | ⟨h1, -⟩ | ⟨h1, -⟩ | ⟨h1, -⟩ | ⟨s2, h1, hk, h2, h3⟩
  · cases h1
  · cases h1
  · cases h1
  · cases h1
  obtain ⟨h1a, hs2⟩ := Prod.mk.inj h1
  rw [h1a] at hres
  subst hs2
  have hget := knownInsert_upd hk p
  rw [if_pos rfl, confirmed_get, if_pos rfl, R.hpeer] at hget
  simp only [Option.map_some] at hget
  generalize hS : s.step C o = S at *
  generalize hT : S.run C ops = T at *
  have hlS : Later s S := hS ▸ step_later L s o ho
  have hlT : Later S T := hT ▸ run_later L ops hops S
  have hrT : Reachable C T := hT ▸ run_reachable ops hops S (hS ▸ .step _ _ hr ho)
  obtain ⟨qT, hqT, hstT, -⟩ := hlT.peers p _ hget
  have hkS : S.known p = _ := congrArg (fun x : Option Peer => x.bind (·.known)) hget
  simp only [Option.bind_some] at hkS
  rw [hkS] at hcache
  have hix := (Reachable.knownIdx L hrT _ p).mpr ⟨_, hcache, rfl⟩
  have hkh : T.knownHash C e' = s0.knownHash C e' := by
    unfold knownHash; rw [hlT.knownKey, hlS.knownKey, hg.knownKey]
  have hknT := hcache
  unfold known at hknT
  rw [hqT, Option.bind_some] at hknT
  have hckT : T.checkSeal C qT.version.hash e' = true := by
    have hv : qT.version = peer1.version := hstT.2.2.1
    rw [hv, h2]
    unfold checkSeal at h3 ⊢
    rw [hlT.spkm, hlS.spkm, ← hg.spkm]; exact h3
  obtain ⟨out1, ho1, hwf1⟩ := castTx_some htx
  have hsz : Env.size EmptyData.size ≤ tx.length := by
    refine Nat.le_trans ?_ htx
    simp [Env.size, EmptyData.size, payloadSize]; omega
  obtain ⟨out2, ho2, hwf2⟩ := castTx_some hsz
  have hwout := castTx_WF hout
  have hwr : Env.WF EmptyData.size { out with payload := (ackOf C (c.enterLive C now1 .responder peer1.version.hash)).encode } := by
    refine ⟨hwout.1, ?_, hwout.2.2.1, hwout.2.2.2⟩
    apply EmptyData.encode_length
    refine ⟨?_, toLE_length _ _, ?_⟩
    · have := (icrVerify_core R.verify R.hpeer).2.1
      simp only [ackOf, Core.enterLive, this]
      exact (InitConf.decode_WF ((Env.decode_eq_some he').2 ▸ (Env.view_WF (Env.decode_eq_some he').1).2.1)).1
    · simp [ackOf, L.aead_len]
  have hsd := fun q => sealMsg_sealed L q .emptyData _ hwr
  have hd : ∀ q, Env.decode (payloadSize C .emptyData) (sealMsg C q .emptyData _).encode = some _ := fun q => (hsd q).decode
  refine ⟨_, (sealMsg C qT .emptyData { out with payload := (ackOf C (c.enterLive C now1 .responder peer1.version.hash)).encode }).encode,
    hres, ?_, ⟨_, _, hd _, hd _, ?_, ?_⟩, ?_, ?_⟩
  · rw [hty] at he' ⊢
    simp only [handleMsg, MsgType.ofU8_toU8]
    rw [show castTx (RespHello.size C) tx = some out1 from ho1]
    simp only [he', msgInitConf, ho2, hkh, hix, hqT, hckT, hknT]
    rfl
  · rw [sealMsg_payload, sealMsg_payload]
  · rw [(hsd _).type, (hsd _).type]
  · exact sealMsg_sameButCookie L hstT hwr .emptyData
  · intro hnone
    have : qT.handshake = none := by unfold handshake at hnone; rw [hqT] at hnone; exact hnone
    rw [sealMsg_congr hstT rfl this]

/-! ### C04 -/

/-- The RespHello `m` carries the biscuit `b`: the biscuit ciphertext in `m` opens to `b` under the
biscuit key of `t` it names, for a peer of `t` and the session ids of that RespHello. -/
def CarriesBiscuit (C : Crypto) (t : Server) (m : Bytes) (b : Biscuit) : Prop :=
  ∃ e peer, Env.decode (payloadSize C .respHello) m = some e ∧ peer ∈ t.peers ∧ b.pidi = pidt C peer ∧
    let rh := RespHello.decode C e.payload
    C.xOpen (t.biscuitKeys.get (biscuitKeyBit rh.biscuitCt)).value
      (biscuitAd C peer.version.hash t.spkm rh.sidi rh.sidr) rh.biscuitCt = some b.encode

theorem sealMsg_head (peer : Peer) (t : MsgType) (e : Env) : (sealMsg C peer t e).encode.head? = some t.toU8 := by
  unfold sealMsg sealCookie
  split <;> rfl

theorem handleMsg_ctr (C : Crypto) (s : Server) (rx tx : Bytes) (now : Time) (r : HashChoice → Rnd) :
    (s.handleMsg C rx tx now r).2.biscuitCtr = s.biscuitCtr ∨
    (s.handleMsg C rx tx now r).2.biscuitCtr = ConstantTime.increment s.biscuitCtr := by
  rcases handleMsg_dispatch C s rx tx now r with ⟨x, hx, -⟩ | ⟨t, bs, out, hrx, hout, h⟩
  · rw [hx]; exact Or.inl rfl
  · rcases h with ⟨rfl, e, he, hh⟩ | ⟨rfl, e, he, hh⟩ | ⟨rfl, e, he, hh⟩ | ⟨rfl, e, he, hh⟩ | ⟨rfl, cr, he, hh⟩
    · rw [hh]
      rcases msgInitHello_state C s e out now r with h | ⟨h, hs⟩
      · rw [h]; exact Or.inl rfl
      · rw [hs, issued_eq]; exact Or.inr rfl
    · rw [hh]
      left
      rcases msgRespHello_cases C s e tx now (r .shake) with ⟨x, hx⟩ | ⟨out', q, c, ic, peer, hs, hc, R⟩
      · rw [hx]
      · rcases R.result with ⟨h1, -⟩ | ⟨h1, -⟩ | ⟨h1, h2⟩ <;> rw [h1]
        · exact (sessTake_globals _ _).biscuitCtr
        · exact (accepted_globals _ _ _).biscuitCtr
        · exact ((accepted_globals _ _ _).trans (SameGlobals.modPeer _ _ _)).biscuitCtr
    · rw [hh]
      left
      rcases msgInitConf_cases C s e tx now with ⟨hx, -⟩ | ⟨out', hc, ⟨q, hq, ⟨x, hx, -⟩ | ⟨peer, k, hp, -, hck, hx⟩⟩ | ⟨hn, hf⟩⟩
      · rw [hx]
      · rw [hx]
      · rw [hx]
      · rw [hf]
        rcases msgInitConfFresh_cases C s e out' now with ⟨h, s0, x, hA, hx, -⟩ | ⟨h, s0, q, no, c, peer, hA, R⟩
        · rw [hx]; exact (AttemptState.facts hA).1.biscuitCtr
        · rw [← (AttemptState.facts hA).1.biscuitCtr]
          rcases R.result with ⟨⟨x, -, h1⟩, -⟩ | ⟨h1, -⟩ | ⟨h1, -⟩ | ⟨h1, -⟩ | ⟨s2, h1, hk, h2, h3⟩ <;> rw [h1]
          · exact (burnt_globals _ _ _).biscuitCtr
          · exact (confirmed_globals _ _ _ _).biscuitCtr
          · exact (confirmed_globals _ _ _ _).biscuitCtr
          · exact (confirmed_globals _ _ _ _).biscuitCtr
          · exact ((confirmed_globals _ _ _ _).trans (knownInsert_globals hk)).biscuitCtr
    · rw [hh]
      left
      rcases handleRespConf_cases C s e with ⟨x, hx⟩ | ⟨p, peer, ses, hl, hp, hses, hn, hc, ht, ⟨h, -⟩ | ⟨h, -⟩⟩
      · rw [hx]
      · rw [h]; rfl
      · rw [h]; exact ((SameGlobals.modPeer _ _ _).trans (hsTake_globals _ _)).biscuitCtr
    · rw [hh]
      left
      rcases handleCookieReply_cases C s cr now with ⟨x, hx⟩ | ⟨p, peer, hs, mac, -, -, -, -, ⟨-, h⟩ | ⟨v, -, h⟩⟩
      · rw [hx]
      · rw [h]; rfl
      · rw [h]; rfl

/-- Both outcomes of `initiate_handshake`. -/
theorem initiate_cases (C : Crypto) (s : Server) (p : Nat) (now : Time) (r : Rnd) (tx : Bytes) :
    (∃ x, s.initiate C p now r tx = (.error x, s)) ∨
    (∃ peer ih hs e, s.peers[p]? = some peer ∧ s.initiation C peer now r = some (ih, hs) ∧
      castTx (InitHello.size C) tx = some e ∧
      (s.index (.sid hs.core.sidi) = none ∨ s.index (.sid hs.core.sidi) = some p) ∧
      let m := (sealMsg C { peer with initReq := false, handshake := some hs } .initHello { e with payload := ih.encode }).encode
      s.initiate C p now r tx = (.ok m, (s.hsPut p hs).modHs p (fun hs =>
        regRetransmit now r.jit { hs with txBuf := cpyMin m hs.txBuf, txCount := 0, txLen := m.length }))) := by
  unfold initiate
  cases hc : castTx (InitHello.size C) tx with
  | none => exact Or.inl ⟨_, rfl⟩
  | some e =>
    simp only
    unfold handleInitiation
    cases hp : s.peers[p]? with
    | none => exact Or.inl ⟨_, rfl⟩
    | some peer =>
      simp only
      cases hi : s.initiation C peer now r with
      | none => exact Or.inl ⟨_, rfl⟩
      | some x =>
        obtain ⟨ih, hs⟩ := x
        simp only
        rcases hsInsert_cases s p hs with ⟨hi', -⟩ | ⟨hi', hfree⟩
        · rw [hi']; exact Or.inl ⟨_, rfl⟩
        · rw [hi']
          right
          have hget : (s.hsPut p hs).peers[p]? = some { peer with initReq := false, handshake := some hs } := by
            rw [hsPut_get, if_pos rfl, hp]; rfl
          refine ⟨peer, ih, hs, e, rfl, hi, rfl, hfree, ?_⟩
          simp only [hget]
          rw [storeMsg_ok (hs := hs) (by unfold handshake; rw [hget]; rfl)]

theorem activeCookieSecrets_cons (s : Server) (now : Time) (k : Bytes) :
    ∃ i ids s1, s.activeCookieSecrets now k = (i :: ids, s1) ∧ s1 = { s with cookieSecrets := s1.cookieSecrets } := by
  have h := activeCookieSecrets_eq s now k
  have hne : (s.activeCookieSecrets now k).1 ≠ [] := by
    unfold activeCookieSecrets
    simp only
    generalize (_ ++ _ : List Bool) = l
    by_cases h : l = []
    · rw [if_pos h]; simp
    · rw [if_neg h]; exact h
  cases hx : s.activeCookieSecrets now k with
  | mk l s1 =>
    rw [hx] at h hne
    cases l with
    | nil => exact absurd rfl hne
    | cons i ids => exact ⟨i, ids, s1, rfl, h⟩

/-- The outcomes of `handle_msg_under_load`. -/
theorem underLoad_cases (C : Crypto) (s : Server) (rx tx host : Bytes) (now : Time) (r : HashChoice → Rnd) :
    (∃ x, x ≠ .panic ∧ s.handleMsgUnderLoad C rx tx host now r = (.error x, s) ∧
      rx.head? ≠ some 0x81 ∧ rx.head? ≠ some 0x83) ∨
    (rx.head? = some 0x83 ∧ s.handleMsgUnderLoad C rx tx host now r = s.handleMsg C rx tx now r) ∨
    (rx.head? = some 0x81 ∧ ∃ i ids s1, s.activeCookieSecrets now (r .shake).csecret = (i :: ids, s1) ∧
      s1 = { s with cookieSecrets := s1.cookieSecrets } ∧
      ((Env.decode (InitHello.size C) rx = none ∧ s.handleMsgUnderLoad C rx tx host now r = (.error .badSize, s1)) ∨
       ∃ e, Env.decode (InitHello.size C) rx = some e ∧
        ((s1.cookieValid C (i :: ids) host e = true ∧
            s.handleMsgUnderLoad C rx tx host now r = s1.handleMsg C rx tx now r) ∨
         (s1.cookieValid C (i :: ids) host e = false ∧
          ((tx.length < CookieReply.size C ∧ s.handleMsgUnderLoad C rx tx host now r = (.error .panic, s1)) ∨
           (CookieReply.size C ≤ tx.length ∧ s.handleMsgUnderLoad C rx tx host now r =
            (.ok { exchanged := none, resp := some (s1.cookieReplyTo C
              (cookieValueFor C (s1.cookieSecrets.get i).value host) e tx (r .shake)).encode }, s1))))))) := by
  cases rx with
  | nil => left; exact ⟨.emptyMsg, by decide, rfl, by simp, by simp⟩
  | cons b bs =>
    cases hb : MsgType.ofU8 b with
    | none =>
      left
      refine ⟨.notUnderLoad, by decide, ?_, ?_, ?_⟩
      · simp only [handleMsgUnderLoad, hb]
      · intro h; simp only [List.head?_cons, Option.some.injEq] at h; subst h; revert hb; decide
      · intro h; simp only [List.head?_cons, Option.some.injEq] at h; subst h; revert hb; decide
    | some t =>
      have hb' := (MsgType.ofU8_eq_some_iff b t).mp hb
      have other : t ≠ .initHello → t ≠ .initConf → (∃ x, x ≠ .panic ∧
          s.handleMsgUnderLoad C (b :: bs) tx host now r = (.error x, s) ∧
          (b :: bs).head? ≠ some 0x81 ∧ (b :: bs).head? ≠ some 0x83) := by
        intro h1 h2
        refine ⟨.notUnderLoad, by decide, ?_, ?_, ?_⟩
        · simp only [handleMsgUnderLoad, hb]
          cases t <;> first | exact absurd rfl h1 | exact absurd rfl h2 | rfl
        · simp only [List.head?_cons, ne_eq, Option.some.injEq]
          rw [hb']; cases t <;> first | exact absurd rfl h1 | exact absurd rfl h2 | decide
        · simp only [List.head?_cons, ne_eq, Option.some.injEq]
          rw [hb']; cases t <;> first | exact absurd rfl h1 | exact absurd rfl h2 | decide
      by_cases h1 : t = .initHello
      · subst h1
        right; right
        refine ⟨by rw [hb']; rfl, ?_⟩
        obtain ⟨i, ids, s1, hact, hs1⟩ := activeCookieSecrets_cons s now (r .shake).csecret
        refine ⟨i, ids, s1, hact, hs1, ?_⟩
        simp only [handleMsgUnderLoad, hb, hact]
        cases he : Env.decode (InitHello.size C) (b :: bs) with
        | none => exact Or.inl ⟨rfl, rfl⟩
        | some e =>
          right
          refine ⟨e, rfl, ?_⟩
          simp only
          cases hv : s1.cookieValid C (i :: ids) host e with
          | true => exact Or.inl ⟨rfl, rfl⟩
          | false =>
            right
            refine ⟨rfl, ?_⟩
            by_cases hl : tx.length < CookieReply.size C
            · left; refine ⟨hl, ?_⟩; simp [hl]
            · right; refine ⟨by omega, ?_⟩; simp [hl]
      · by_cases h2 : t = .initConf
        · subst h2
          right; left
          refine ⟨by rw [hb']; rfl, ?_⟩
          simp only [handleMsgUnderLoad, hb]
        · exact Or.inl (other h1 h2)

theorem step_ctr (C : Crypto) (s : Server) (o : Op) :
    (s.step C o).biscuitCtr = s.biscuitCtr ∨ (s.step C o).biscuitCtr = ConstantTime.increment s.biscuitCtr := by
  cases o with
  | addPeer psk pk v osk =>
    left
    simp only [step, addPeer]
    split <;> rfl
  | initiate p now r tx =>
    left
    simp only [step]
    rcases initiate_cases C s p now r tx with ⟨x, hx⟩ | ⟨peer, ih, hs, e, -, -, -, -, hx⟩
    · rw [hx]
    · rw [hx]; exact (hsPut_globals s p hs).biscuitCtr
  | handleMsg rx tx now r => exact handleMsg_ctr C s rx tx now r
  | handleMsgUnderLoad rx tx host now r =>
    simp only [step]
    rcases underLoad_cases C s rx tx host now r with ⟨x, -, hx, -⟩ | ⟨-, hx⟩ | ⟨-, i, ids, s1, -, hs1, ⟨-, hx⟩ |
      ⟨e, -, ⟨-, hx⟩ | ⟨-, ⟨-, hx⟩ | ⟨-, hx⟩⟩⟩⟩
    · rw [hx]; exact Or.inl rfl
    · rw [hx]; exact handleMsg_ctr C s rx tx now r
    · rw [hx, hs1]; exact Or.inl rfl
    · rw [hx]
      have := handleMsg_ctr C s1 rx tx now r
      have hc : s1.biscuitCtr = s.biscuitCtr := by rw [hs1]
      rw [hc] at this
      exact this
    · rw [hx, hs1]; exact Or.inl rfl
    · rw [hx, hs1]; exact Or.inl rfl
  | poll now r =>
    left
    simp only [step]
    split
    · rename_i c s1 h
      obtain ⟨s2, hm, rfl⟩ := poll_moves s _ _ h
      exact hm.fixed.2.2.1
    · rfl
  | retransmit p tx => exact Or.inl (by simp only [step, retransmit_state])

/-- A reply with the type byte of RespHello comes from the InitHello arm. -/
theorem handleMsg_respHello {s s' : Server} {rx tx : Bytes} {now : Time} {r : HashChoice → Rnd} {x : Option Nat} {m : Bytes}
    (hok : s.handleMsg C rx tx now r = (.ok ⟨x, some m⟩, s')) (hm : m.head? = some 0x82) :
    ∃ e out h p c peer rh, Env.decode (InitHello.size C) rx = some e ∧ castTx (RespHello.size C) tx = some out ∧
      HelloRun C s e out now r h p c peer rh (.ok ⟨x, some m⟩, s') := by
  rcases handleMsg_dispatch C s rx tx now r with ⟨y, hx, -⟩ | ⟨t, bs, out, hrx, hout, h⟩
  · rw [hx] at hok; cases hok
  · rcases h with ⟨rfl, e, he, hh⟩ | ⟨rfl, e, he, hh⟩ | ⟨rfl, e, he, hh⟩ | ⟨rfl, e, he, hh⟩ | ⟨rfl, cr, he, hh⟩
    · rw [hh] at hok
      rcases msgInitHello_cases C s e out now r with ⟨y, hx⟩ | ⟨h, q, c, peer, rh, R⟩
      · rw [hx] at hok; cases hok
      · rw [hok] at R
        exact ⟨e, out, h, q, c, peer, rh, he, hout, R⟩
    · rw [hh] at hok
      rcases msgRespHello_cases C s e tx now (r .shake) with ⟨y, hx⟩ | ⟨out', q, c, ic, peer, hs, hc, R⟩
      · rw [hx] at hok; cases hok
      · rw [hok] at R
        rcases R.result with ⟨h1, -⟩ | ⟨h1, -⟩ | ⟨h1, h2⟩
        · cases h1
        · cases h1
        · cases h1
          rw [sealMsg_head] at hm; exact absurd hm (by decide)
    · rw [hh] at hok
      rcases msgInitConf_cases C s e tx now with ⟨hx, -⟩ | ⟨out', hc, ⟨q, hq, ⟨x, hx, -⟩ | ⟨peer, k, hp, -, hck, hx⟩⟩ | ⟨hn, hf⟩⟩
      · rw [hx] at hok; cases hok
      · rw [hx] at hok; cases hok
      · rw [hx] at hok; cases hok
        rw [sealMsg_head] at hm; exact absurd hm (by decide)
      · rw [hf] at hok
        rcases msgInitConfFresh_cases C s e out' now with ⟨h, s0, x, -, hx, -⟩ | ⟨h, s0, q, no, c, peer, hA, R⟩
        · rw [hx] at hok; cases hok
        · rw [hok] at R
          rcases R.result with ⟨⟨x, -, h1⟩, -⟩ | ⟨h1, -⟩ | ⟨h1, -⟩ | ⟨h1, -⟩ | ⟨s2, h1, -, h2, h3⟩
          · cases h1
          · cases h1
          · cases h1
          · cases h1
          · cases h1
            rw [sealMsg_head] at hm; exact absurd hm (by decide)
    · rw [hh] at hok
      rcases hrc : s.handleRespConf C e with ⟨_ | _, _⟩ <;> rw [hrc] at hok <;> cases hok
    · rw [hh] at hok
      rcases hrc : s.handleCookieReply C cr now with ⟨_ | _, _⟩ <;> rw [hrc] at hok <;> cases hok

theorem ihrVerify_sidi {s : Server} {ih : InitHello} {h : HashChoice} {p c} (hok : s.ihrVerify C ih h = .ok (p, c)) :
    c.sidi = ih.sidi := by
  obtain ⟨shk, pid, c1, pt, peer, -, -, -, -, hd⟩ := ihrVerify_ok hok
  rw [decryptAndMix_core hd]; rfl

theorem handleMsg_biscuit (L : C.Lawful) {s s' : Server} {rx tx : Bytes} {now : Time} {r : HashChoice → Rnd} {x : Option Nat}
    {m : Bytes} (hr : ∀ h, (r h).WF C) (hlc : s.biscuitCtr.length = 12)
    (hok : s.handleMsg C rx tx now r = (.ok ⟨x, some m⟩, s')) (hm : m.head? = some 0x82) :
    s'.biscuitCtr = ConstantTime.increment s.biscuitCtr ∧ ∃ b, CarriesBiscuit C s' m b ∧ b.biscuitNo = s.biscuitCtr := by
  obtain ⟨e, out, h, p, c, peer, rh, he, hout, R⟩ := handleMsg_respHello hok hm
  rcases R.result with ⟨h1, -⟩ | ⟨h1, -⟩ | ⟨h1, h2, h3⟩
  · cases h1
  · cases h1
  obtain ⟨ha, rfl⟩ := Prod.mk.inj h1
  refine ⟨by rw [issued_eq], ?_⟩
  have hih := InitHello.decode_WF (C := C) ((Env.decode_eq_some he).2 ▸ (Env.view_WF (Env.decode_eq_some he).1).2.1)
  have hsid := ihrVerify_sidi R.verify
  obtain ⟨-, c', F⟩ := rhr_facts L (hr h) hsid hih hlc R.answer
  have hwout := castTx_WF hout
  have hwe : Env.WF (RespHello.size C) { out with payload := rh.encode } :=
    ⟨hwout.1, RespHello.encode_length F.wf, hwout.2.2.1, hwout.2.2.2⟩
  have S := sealMsg_sealed L peer .respHello _ hwe
  have hm : m = (sealMsg C peer .respHello { out with payload := rh.encode }).encode := by cases ha; rfl
  refine ⟨⟨pidt C peer, s.biscuitCtr, c'.ck⟩, ⟨_, peer, hm ▸ S.decode, ?_, ?_, ?_⟩, ?_⟩
  · rw [issued_peers]
    exact List.mem_of_getElem? R.hpeer
  · rfl
  · rw [S.payload, RespHello.decode_encode F.wf, issued_spkm]
    have := F.open_
    rw [← F.sidi] at this
    exact this
  · rfl

theorem step_biscuit (L : C.Lawful) {s : Server} {o : Op} (ho : o.WF C) (hlc : s.biscuitCtr.length = 12) {x m}
    (hok : o.result C s = .ok ⟨x, some m⟩) (hm : m.head? = some 0x82) :
    (s.step C o).biscuitCtr = ConstantTime.increment s.biscuitCtr ∧
    ∃ b, CarriesBiscuit C (s.step C o) m b ∧ b.biscuitNo = s.biscuitCtr := by
  cases o with
  | addPeer psk pk v osk => cases hok
  | initiate p now r tx => cases hok
  | handleMsg rx tx now r =>
    exact handleMsg_biscuit L (x := x) ho hlc (Prod.ext hok rfl) hm
  | handleMsgUnderLoad rx tx host now r =>
    simp only [Op.result] at hok
    simp only [step]
    rcases underLoad_cases C s rx tx host now r with ⟨x, -, hx, -⟩ | ⟨-, hx⟩ | ⟨-, i, ids, s1, -, hs1, ⟨-, hx⟩ |
      ⟨e, -, ⟨-, hx⟩ | ⟨-, ⟨-, hx⟩ | ⟨-, hx⟩⟩⟩⟩
    · rw [hx] at hok; cases hok
    · rw [hx] at hok ⊢
      exact handleMsg_biscuit L ho hlc (Prod.ext hok rfl) hm
    · rw [hx] at hok; cases hok
    · rw [hx] at hok ⊢
      have hc : s1.biscuitCtr = s.biscuitCtr := by rw [hs1]
      have := handleMsg_biscuit L ho (hc ▸ hlc) (Prod.ext hok rfl) hm
      rw [hc] at this
      exact this
    · rw [hx] at hok; cases hok
    · rw [hx] at hok
      cases hok
      simp only [CookieReply.encode, cookieReplyTo, List.head?_cons, Option.some.injEq] at hm
      exact absurd hm (by decide)
  | poll now r => cases hok
  | retransmit p tx => cases hok

theorem step_ctr_le (s : Server) (o : Op) (hl : s.biscuitCtr.length = 12) (hb : leNat s.biscuitCtr + 1 < 2 ^ 96) :
    (s.step C o).biscuitCtr.length = 12 ∧ leNat s.biscuitCtr ≤ leNat (s.step C o).biscuitCtr ∧
    leNat (s.step C o).biscuitCtr ≤ leNat s.biscuitCtr + 1 := by
  rcases step_ctr C s o with h | h
  · rw [h]; omega
  · have := ConstantTime.increment_is_succ s.biscuitCtr
    rw [h, this.1, this.2, hl, Nat.mod_eq_of_lt (by omega)]
    omega

theorem run_ctr_le (ops : List Op) (s : Server) (hl : s.biscuitCtr.length = 12)
    (hb : leNat s.biscuitCtr + ops.length < 2 ^ 96) :
    (s.run C ops).biscuitCtr.length = 12 ∧ leNat s.biscuitCtr ≤ leNat (s.run C ops).biscuitCtr ∧
    leNat (s.run C ops).biscuitCtr ≤ leNat s.biscuitCtr + ops.length := by
  induction ops generalizing s with
  | nil => simp only [run, List.foldl_nil, List.length_nil]; omega
  | cons o os ih =>
    simp only [List.length_cons] at hb
    obtain ⟨h1, h2, h3⟩ := step_ctr_le (C := C) s o hl (by omega)
    obtain ⟨g1, g2, g3⟩ := ih (s.step C o) h1 (by omega)
    simp only [run, List.foldl_cons, List.length_cons] at g1 g2 g3 ⊢
    refine ⟨g1, ?_, ?_⟩ <;> omega

/-- **C04.** Over the whole life of a server (of fewer than 2^96 - 3 calls), any two RespHellos it
sends carry biscuits with strictly increasing numbers, starting at 1: no biscuit number is ever
issued twice, whichever peers the biscuits are for. -/
theorem issued_biscuits_increase (L : C.Lawful) (sk pk b0 b1 c0 c1 kk : Bytes)
    (pre : List Op) (o : Op) (mid : List Op) (o' : Op)
    (ho : o.WF C) (ho' : o'.WF C)
    (hlen : pre.length + mid.length + 3 < 2 ^ 96) (x x' : Option Nat) (m m' : Bytes)
    (hm : m.head? = some 0x82) (hm' : m'.head? = some 0x82) :
    let s := (new sk pk b0 b1 c0 c1 kk).run C pre
    let t := (s.step C o).run C mid
    o.result C s = .ok ⟨x, some m⟩ → o'.result C t = .ok ⟨x', some m'⟩ →
    ∃ b b', CarriesBiscuit C (s.step C o) m b ∧ CarriesBiscuit C (t.step C o') m' b' ∧
      0 < leNat b.biscuitNo ∧ leNat b.biscuitNo < leNat b'.biscuitNo := by
  intro s t h h'
  have h1 : leNat (new sk pk b0 b1 c0 c1 kk).biscuitCtr = 1 := by simp only [new]; decide
  obtain ⟨l1, a1, u1⟩ := run_ctr_le (C := C) pre (new sk pk b0 b1 c0 c1 kk) rfl (by omega)
  change s.biscuitCtr.length = 12 at l1
  change _ ≤ leNat s.biscuitCtr at a1
  change leNat s.biscuitCtr ≤ _ at u1
  obtain ⟨e1, b, hb, hbn⟩ := step_biscuit L ho l1 h hm
  have hc := ConstantTime.increment_is_succ s.biscuitCtr
  rw [l1, Nat.mod_eq_of_lt (by omega)] at hc
  obtain ⟨l2, a2, u2⟩ := run_ctr_le (C := C) mid (s.step C o) (e1 ▸ hc.2) (by rw [e1]; omega)
  obtain ⟨-, b', hb', hbn'⟩ := step_biscuit L ho' l2 h' hm'
  refine ⟨b, b', hb, hb', ?_, ?_⟩
  · rw [hbn]; omega
  · rw [hbn, hbn']
    rw [e1] at a2
    show leNat s.biscuitCtr < leNat t.biscuitCtr
    have : leNat (ConstantTime.increment s.biscuitCtr) ≤ leNat t.biscuitCtr := a2
    omega

end

namespace Ex

/-- plaintext of the biscuit in the InitConf `rx` -/
def openConf (s : Server) (h : HashChoice) (rx : Bytes) : Bytes :=
  let ic := InitConf.decode (Env.view InitConf.size rx).payload
  (Toy.crypto.xOpen (s.biscuitKeys.get (biscuitKeyBit ic.biscuitCt)).value
    (biscuitAd Toy.crypto h s.spkm ic.sidi ic.sidr) ic.biscuitCt).getD []

theorem accepts (s : Server) (rx : Bytes) (now : Time) (r : HashChoice → Rnd) (v : Version) (b : Biscuit)
    (h : (∃ m ∈ [reply (s.handleMsg Toy.crypto rx buf now r)], (s.handleMsg Toy.crypto rx buf now r).1 = .ok ⟨some 0, some m⟩) ∧
      rx.head? = some 0x83 ∧
      Env.decode (payloadSize Toy.crypto .initConf) rx = some (Env.view InitConf.size rx) ∧
      s.peers.map (·.version) = [v] ∧
      Toy.crypto.xOpen (s.biscuitKeys.get (biscuitKeyBit (InitConf.decode (Env.view InitConf.size rx).payload).biscuitCt)).value
        (biscuitAd Toy.crypto v.hash s.spkm (InitConf.decode (Env.view InitConf.size rx).payload).sidi
          (InitConf.decode (Env.view InitConf.size rx).payload).sidr)
        (InitConf.decode (Env.view InitConf.size rx).payload).biscuitCt = some (openConf s v.hash rx))
    (h6 : b = Biscuit.decode (openConf s v.hash rx)) :
    AcceptsConf Toy.crypto s (.handleMsg rx buf now r) 0 b := by
  obtain ⟨⟨m, -, h1⟩, h2, h3, h4, h5⟩ := h
  cases hp : s.peers with
  | nil => rw [hp] at h4; cases h4
  | cons peer ps =>
    rw [hp] at h4
    have hv : peer.version = v := by simp only [List.map_cons, List.cons.injEq] at h4; exact h4.1
    subst hv
    exact ⟨rx, some m, peer, _, _, rfl, h1, h2, h3, by rw [hp]; rfl, h5, h6⟩

def first (v : Version) : Op := .handleMsg (m3 v) buf 3 (fun _ => rnd 40)
def b1 (v : Version) : Biscuit := Biscuit.decode (openConf (B1 v) v.hash (m3 v))
def b2 (v : Version) : Biscuit := Biscuit.decode (openConf (B3 v) v.hash (m8 v))

/-- C02, C03: a run in which the responder accepts an InitConf ... -/
theorem accepts_first : AcceptsConf Toy.crypto (B1 .v03) (first .v03) 0 (b1 .v03) := by
  refine accepts (B1 .v03) (m3 .v03) 3 (fun _ => rnd 40) .v03 _ ?_ rfl
  decide +kernel

/-- ... and, two calls later in the same history, another one from the same peer. -/
theorem accepts_second : AcceptsConf Toy.crypto
    (((B1 .v03).step Toy.crypto (first .v03)).run Toy.crypto [.handleMsg (m6 .v03) buf 201 (fun _ => rnd 70)])
    (.handleMsg (m8 .v03) buf 203 (fun _ => rnd 90)) 0 (b2 .v03) := by
  have : (((B1 .v03).step Toy.crypto (first .v03)).run Toy.crypto [.handleMsg (m6 .v03) buf 201 (fun _ => rnd 70)]) = B3 .v03 := rfl
  rw [this]
  refine accepts (B3 .v03) (m8 .v03) 203 (fun _ => rnd 90) .v03 _ ?_ rfl
  decide +kernel

/-- C03: the hypotheses of `retransmitted_conf_idempotent` on the cache and the buffer are met. -/
example : (((B1 .v03).step Toy.crypto (first .v03)).run Toy.crypto
      [.handleMsg (m6 .v03) buf 201 (fun _ => rnd 70)]).known 0 = ((B1 .v03).step Toy.crypto (first .v03)).known 0 ∧
    ((B1 .v03).step Toy.crypto (first .v03)).known 0 ≠ none ∧
    Env.size (payloadSize Toy.crypto .respHello) ≤ buf.length := by decide +kernel

/-- C04: the same responder sends two RespHellos. -/
example : (c2 .v03).1 = .ok ⟨none, some (m2 .v03)⟩ ∧ (m2 .v03).head? = some 0x82 ∧
    (c7 .v03).1 = .ok ⟨none, some (m7 .v03)⟩ ∧ (m7 .v03).head? = some 0x82 := by decide +kernel

end Ex
end Verif
