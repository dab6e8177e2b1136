import Verif.Thm.Replay
import Verif.Thm.HashDomain
/-
C24: transcript binding. Equal output keys imply equal transcripts, or a collision of the keyed hash.
-/
namespace Verif
open HashDomain Server

/-! ### Specification -/

/-- Everything the two parties of one handshake put into the chaining key. -/
structure Transcript where
  /-- the responder's static public key -/
  spkr : Bytes
  sidi : Bytes
  /-- the initiator's ephemeral public key -/
  epki : Bytes
  /-- secret and ciphertext encapsulated to the responder's static key -/
  shk : Bytes
  sctr : Bytes
  /-- the initiator's encrypted peer id -/
  pidiCt : Bytes
  /-- the initiator's static public key -/
  spki : Bytes
  psk : Bytes
  /-- authenticator of the InitHello -/
  authI : Bytes
  sidr : Bytes
  /-- secret and ciphertext encapsulated to the ephemeral key -/
  eshk : Bytes
  ecti : Bytes
  /-- secret and ciphertext encapsulated to the initiator's static key -/
  sshk : Bytes
  scti : Bytes
  biscuitCt : Bytes
  /-- authenticators of RespHello and InitConf -/
  authR : Bytes
  authC : Bytes
  deriving DecidableEq

/-- The first part of the values absorbed after `spkr`, up to the InitHello. -/
def Transcript.hello (t : Transcript) : List Bytes :=
  [t.sidi, t.epki, t.spkr, t.shk, t.sctr, t.pidiCt, t.spki, t.psk, t.authI]

/-- The rest of the absorbed values. -/
def Transcript.rest (t : Transcript) : List Bytes :=
  [t.sidr, t.sidi, t.epki, t.eshk, t.ecti, t.spki, t.sshk, t.scti, t.biscuitCt, t.authR, t.sidi, t.sidr, t.authC]

/-- The chaining key at the end of a handshake with this transcript (whitepaper, "chaining key"). -/
def Transcript.ck (C : Crypto) (h : HashChoice) (t : Transcript) : Bytes :=
  chain C h (C.hash h (dom C h .ckinit) t.spkr) (t.hello ++ t.rest)

/-- All labels hashed, starting at the all-zero key, to obtain that chaining key. -/
def Transcript.path (C : Crypto) (h : HashChoice) (t : Transcript) : List Bytes :=
  Purpose.path h .ckinit ++ t.spkr :: (t.hello ++ t.rest).flatMap (fun x => [dom C h .mix, x])

/-- What the initiator - with keys `sskm`, `spkm`, and `peer` as its record of the responder - knows of
the transcript: it sent the InitHello `ih` using the coins `r`, accepted `rh` and sent `authC`. -/
structure InitiatorSees (C : Crypto) (sskm spkm : Bytes) (peer : Peer) (r : Rnd) (ih : InitHello) (rh : RespHello)
    (authC : Bytes) (t : Transcript) : Prop where
  spkr : t.spkr = peer.spkt
  spki : t.spki = spkm
  psk : t.psk = peer.psk
  hello : t.sidi = ih.sidi ∧ t.epki = ih.epki ∧ t.sctr = ih.sctr ∧ t.pidiCt = ih.pidiCt ∧ t.authI = ih.auth
  static : C.sEncaps r.scoins peer.spkt = some (t.shk, t.sctr)
  ephemeral : ∃ eski, C.eKeygen r.kcoins = some (eski, t.epki) ∧ C.eDecaps eski t.ecti = some t.eshk
  decaps : C.sDecaps sskm t.scti = some t.sshk
  message : t.sidi = rh.sidi ∧ t.sidr = rh.sidr ∧ t.ecti = rh.ecti ∧ t.scti = rh.scti ∧ t.biscuitCt = rh.biscuitCt ∧
    t.authR = rh.auth
  authC : t.authC = authC

/-- What the responder knows of the transcript: it received the InitHello `ih`, answered with `rh`
using the coins `r`, and accepted an InitConf with authenticator `authC`. -/
structure ResponderSees (C : Crypto) (sskm spkm : Bytes) (peer : Peer) (r : Rnd) (ih : InitHello) (rh : RespHello)
    (authC : Bytes) (t : Transcript) : Prop where
  spkr : t.spkr = spkm
  spki : t.spki = peer.spkt
  psk : t.psk = peer.psk
  hello : t.sidi = ih.sidi ∧ t.epki = ih.epki ∧ t.sctr = ih.sctr ∧ t.pidiCt = ih.pidiCt ∧ t.authI = ih.auth
  decaps : C.sDecaps sskm ih.sctr = some t.shk
  ephemeral : C.eEncaps r.ecoins ih.epki = some (t.eshk, t.ecti)
  static : C.sEncaps r.scoins peer.spkt = some (t.sshk, t.scti)
  message : t.sidi = rh.sidi ∧ t.sidr = rh.sidr ∧ t.ecti = rh.ecti ∧ t.scti = rh.scti ∧ t.biscuitCt = rh.biscuitCt ∧
    t.authR = rh.auth
  authC : t.authC = authC

/-- Randomness of a call that processes a datagram. -/
def Server.Op.rnd : Op → HashChoice → Rnd
  | .handleMsg _ _ _ r => r
  | .handleMsgUnderLoad _ _ _ _ r => r
  | _ => fun _ => ⟨[], [], [], [], [], [], [], [], [], 0⟩

/-- A run of an initiator: it starts a handshake with peer `p`, anything may happen, and while that
handshake is still pending it accepts a RespHello as an exchange with `p`. -/
structure InitiatorRun (C : Crypto) where
  before : Server
  reachable : Reachable C before
  p : Nat
  now : Time
  r : Rnd
  tx : Bytes
  rWF : r.WF C
  /-- the InitHello it sends -/
  hello : Bytes
  started : (before.initiate C p now r tx).1 = .ok hello
  ops : List Op
  opsWF : ∀ o ∈ ops, o.WF C
  pending : ((((before.initiate C p now r tx).2.run C ops).handshake p).map (fun h => (h.core, h.eski, h.epki))) =
    ((before.initiate C p now r tx).2.handshake p).map (fun h => (h.core, h.eski, h.epki))
  call : Op
  callWF : call.WF C
  /-- the RespHello it receives -/
  rx : Bytes
  received : call.received = some rx
  isRespHello : rx.head? = some 0x82
  reply : Option Bytes
  accepts : call.result C ((before.initiate C p now r tx).2.run C ops) = .ok ⟨some p, reply⟩

/-- the initiator's final state -/
def InitiatorRun.final {C : Crypto} (R : InitiatorRun C) : Server :=
  ((R.before.initiate C R.p R.now R.r R.tx).2.run C R.ops).step C R.call

/-- A run of a responder: it answers an InitHello, anything may happen that leaves its biscuit keys in
place, and it accepts an InitConf that carries the biscuit it had sent, as an exchange with `p`. -/
structure ResponderRun (C : Crypto) where
  before : Server
  reachable : Reachable C before
  call1 : Op
  call1WF : call1.WF C
  /-- the InitHello it receives -/
  rx1 : Bytes
  received1 : call1.received = some rx1
  x : Option Nat
  /-- the RespHello it sends -/
  answer : Bytes
  answers : call1.result C before = .ok ⟨x, some answer⟩
  isRespHello : answer.head? = some 0x82
  ops : List Op
  opsWF : ∀ o ∈ ops, o.WF C
  keysKept : ∀ i, (((before.step C call1).run C ops).biscuitKeys.get i).value = ((before.step C call1).biscuitKeys.get i).value
  call2 : Op
  call2WF : call2.WF C
  /-- the InitConf it receives -/
  rx3 : Bytes
  received3 : call2.received = some rx3
  isInitConf : rx3.head? = some 0x83
  em : Env
  decAnswer : Env.decode (payloadSize C .respHello) answer = some em
  e3 : Env
  dec3 : Env.decode (payloadSize C .initConf) rx3 = some e3
  sameBiscuit : (InitConf.decode e3.payload).biscuitCt = (RespHello.decode C em.payload).biscuitCt
  p : Nat
  reply : Option Bytes
  accepts : call2.result C ((before.step C call1).run C ops) = .ok ⟨some p, reply⟩

/-- the responder's final state -/
def ResponderRun.final {C : Crypto} (R : ResponderRun C) : Server := ((R.before.step C R.call1).run C R.ops).step C R.call2

/-- the biscuit key in which the responder's biscuit is sealed -/
def ResponderRun.key {C : Crypto} (R : ResponderRun C) : Bytes :=
  ((R.before.step C R.call1).biscuitKeys.get (biscuitKeyBit (RespHello.decode C R.em.payload).biscuitCt)).value

/-- The AEAD opens one ciphertext, under one key, for two different additional data: a forgery. -/
def AdConfusion (C : Crypto) (key ct : Bytes) : Prop :=
  ∃ ad ad', ad ≠ ad' ∧ (C.xOpen key ad ct).isSome ∧ (C.xOpen key ad' ct).isSome

/-- Hash queries that bind a biscuit to the responder key and the session ids. -/
def biscuitQueries (C : Crypto) (h : HashChoice) (spkm sidi sidr : Bytes) : List (Bytes × Bytes) :=
  queries C h zero32 (Purpose.path h .biscuitAd ++ [spkm, sidi, sidr])

/-- The biscuit was accepted for other session ids than those it was issued for: an AEAD forgery or a
hash collision. -/
def ResponderRun.Forged {C : Crypto} (R : ResponderRun C) : Prop :=
  AdConfusion C R.key (RespHello.decode C R.em.payload).biscuitCt ∨
  ∃ h, Broken C h zero32
    (biscuitQueries C h R.before.spkm (RespHello.decode C R.em.payload).sidi (RespHello.decode C R.em.payload).sidr ++
     biscuitQueries C h R.before.spkm (InitConf.decode R.e3.payload).sidi (InitConf.decode R.e3.payload).sidr)

section
variable {C : Crypto} {F : Prop}

/-! ### Injectivity -/

theorem chain_eq_mixMany (h : HashChoice) (k : Bytes) (xs : List Bytes) :
    chain C h k xs = mixMany C h k (xs.flatMap (fun x => [dom C h .mix, x])) := by
  induction xs generalizing k with
  | nil => rfl
  | cons x xs ih => exact ih _

theorem ck_eq_path (h : HashChoice) (t : Transcript) : t.ck C h = mixMany C h zero32 (t.path C h) := by
  unfold Transcript.ck Transcript.path
  rw [mixMany_append, ← dom_eq_path, mixMany_cons, chain_eq_mixMany]

/-- The transcript is determined by the label path. -/
theorem path_determines {h : HashChoice} {t u : Transcript} {a b : Bytes}
    (heq : t.path C h ++ [a] = u.path C h ++ [b]) : t = u ∧ a = b := by
  cases t; cases u
  simp only [Transcript.path, Transcript.hello, Transcript.rest, List.cons_append, List.nil_append, List.append_assoc,
    List.flatMap_cons, List.flatMap_nil, List.append_cancel_left_eq, List.cons.injEq, true_and] at heq
  obtain ⟨h1, h2, h3, -, h4, h5, h6, h7, h8, h9, h10, -, -, h11, h12, -, h13, h14, h15, h16, -, -, h17, h18, -⟩ := heq
  subst h1 h2 h3 h4 h5 h6 h7 h8 h9 h10 h11 h12 h13 h14 h15 h16 h17
  exact ⟨rfl, h18⟩

/-- **C24** (pure form). Two transcripts that yield the same output key - for any two domain
separators - are equal, or the keyed hash collides (or hits the all-zero key) on the inputs hashed
in these two computations. -/
theorem output_key_binds_transcript (h : HashChoice) (t u : Transcript) (a b : Bytes)
    (heq : C.hash h (t.ck C h) a = C.hash h (u.ck C h) b) :
    (t = u ∧ a = b) ∨ Broken C h zero32
      (queries C h zero32 (t.path C h ++ [a]) ++ queries C h zero32 (u.path C h ++ [b])) := by
  rw [ck_eq_path, ck_eq_path, ← mixMany_snoc, ← mixMany_snoc] at heq
  rcases path_injective C h zero32 _ _ heq with h1 | h1
  · exact Or.inl (path_determines h1)
  · exact Or.inr h1

/-! ### The two parties' views -/

/-- Each party's view determines the transcript. -/
theorem InitiatorSees.unique {sskm spkm : Bytes} {peer : Peer} {r : Rnd} {ih : InitHello} {rh : RespHello} {authC : Bytes}
    {t u : Transcript} (h : InitiatorSees C sskm spkm peer r ih rh authC t) (g : InitiatorSees C sskm spkm peer r ih rh authC u) :
    t = u := by
  obtain ⟨h1, h2, h3, ⟨h4, h5, h6, h7, h8⟩, h9, ⟨k, h10, h11⟩, h12, ⟨h13, h14, h15, h16, h17, h18⟩, h19⟩ := h
  obtain ⟨g1, g2, g3, ⟨g4, g5, g6, g7, g8⟩, g9, ⟨k', g10, g11⟩, g12, ⟨g13, g14, g15, g16, g17, g18⟩, g19⟩ := g
  rw [h9] at g9
  rw [h10] at g10
  simp only [Option.some.injEq, Prod.mk.injEq] at g9 g10
  rw [← g10.1, g15, ← h15, h11] at g11
  rw [g16, ← h16, h12] at g12
  cases t; cases u
  simp only [Option.some.injEq] at *
  simp only [Transcript.mk.injEq]
  refine ⟨?_, ?_, ?_, ?_, ?_, ?_, ?_, ?_, ?_, ?_, ?_, ?_, ?_, ?_, ?_, ?_, ?_⟩ <;> simp_all

theorem ResponderSees.unique {sskm spkm : Bytes} {peer : Peer} {r : Rnd} {ih : InitHello} {rh : RespHello} {authC : Bytes}
    {t u : Transcript} (h : ResponderSees C sskm spkm peer r ih rh authC t) (g : ResponderSees C sskm spkm peer r ih rh authC u) :
    t = u := by
  obtain ⟨h1, h2, h3, ⟨h4, h5, h6, h7, h8⟩, h9, h11, h12, ⟨h13, h14, h15, h16, h17, h18⟩, h19⟩ := h
  obtain ⟨g1, g2, g3, ⟨g4, g5, g6, g7, g8⟩, g9, g11, g12, ⟨g13, g14, g15, g16, g17, g18⟩, g19⟩ := g
  rw [h9] at g9
  rw [h11] at g11
  rw [h12] at g12
  cases t; cases u
  simp only [Option.some.injEq, Prod.mk.injEq] at *
  simp only [Transcript.mk.injEq]
  refine ⟨?_, ?_, ?_, ?_, ?_, ?_, ?_, ?_, ?_, ?_, ?_, ?_, ?_, ?_, ?_, ?_, ?_⟩ <;> simp_all

theorem initiation_origin {s : Server} {peer : Peer} {now : Time} {r : Rnd} {ih hs}
    (h : s.initiation C peer now r = some (ih, hs)) :
    ∃ shk, C.eKeygen r.kcoins = some (hs.eski, hs.epki) ∧ C.sEncaps r.scoins peer.spkt = some (shk, ih.sctr) ∧
      hs.core.hc = peer.version.hash ∧ hs.core.sidi = ih.sidi ∧ hs.epki = ih.epki ∧
      hs.core.ck = chain C peer.version.hash (C.hash peer.version.hash (dom C peer.version.hash .ckinit) peer.spkt)
        [ih.sidi, ih.epki, peer.spkt, shk, ih.sctr, ih.pidiCt, s.spkm, peer.psk, ih.auth] := by
  unfold initiation at h
  simp only at h
  split at h
  · cases h
  · rename_i eski epki hk
    split at h
    · cases h
    · rename_i shk sctr he
      simp only [Option.some.injEq, Prod.mk.injEq] at h
      obtain ⟨rfl, rfl⟩ := h
      exact ⟨shk, hk, he, rfl, rfl, rfl, rfl⟩

/-- **C24** (initiator). At the end of an initiator's run, the session it holds has the chaining key of
the transcript made of its configuration, the InitHello it sent and the RespHello it accepted. -/
theorem initiator_transcript (L : C.Lawful) (R : InitiatorRun C) :
    ∃ peer e1 e ses ic t, R.before.peers[R.p]? = some peer ∧
      Env.decode (payloadSize C .initHello) R.hello = some e1 ∧ Env.decode (payloadSize C .respHello) R.rx = some e ∧
      R.final.session R.p = some ses ∧ ses.hc = peer.version.hash ∧ ses.ck = t.ck C peer.version.hash ∧
      (∃ e' x, R.reply = some x ∧ Env.decode (payloadSize C .initConf) x = some e' ∧ InitConf.decode e'.payload = ic) ∧
      ic.sidi = t.sidi ∧ ic.sidr = t.sidr ∧ ic.biscuitCt = t.biscuitCt ∧
      InitiatorSees C R.before.sskm R.before.spkm peer R.r (InitHello.decode C e1.payload) (RespHello.decode C e.payload) ic.auth t := by
  obtain ⟨A0, hr0, p, nowI, rI, txI, hrWF, hello, hst, ops, hops, hpend, oA, -, rx, hrx, hty, m, hok⟩ := R
  simp only [InitiatorRun.final] at *
  rcases initiate_cases C A0 p nowI rI txI with ⟨x, hx⟩ | ⟨peer0, ih, hs0, e0, hp0, hini, hcast, -, hini2⟩
  · rw [hx] at hst; cases hst
  simp only at hini2
  obtain ⟨shk, hk, hse, hhc0, hsid0, hepk0, hck0⟩ := initiation_origin hini
  have hihwf := initiation_WF L hrWF hini
  have hw0 := castTx_WF hcast
  have hwp0 : Env.WF (InitHello.size C) { e0 with payload := ih.encode } :=
    ⟨hw0.1, InitHello.encode_length hihwf, hw0.2.2.1, hw0.2.2.2⟩
  have S0 := sealMsg_sealed L { peer0 with initReq := false, handshake := some hs0 } .initHello _ hwp0
  have hdec0 := S0.decode
  have hpay0 : InitHello.decode C (sealMsg C { peer0 with initReq := false, handshake := some hs0 } .initHello { e0 with payload := ih.encode }).payload = ih := by
    rw [S0.payload]; exact InitHello.decode_encode hihwf
  have hhello : hello = (sealMsg C { peer0 with initReq := false, handshake := some hs0 } .initHello { e0 with payload := ih.encode }).encode := by
    rw [hini2] at hst; cases hst; rfl
  rw [← hhello] at hdec0
  have hA1 : (A0.initiate C p nowI rI txI).2 = A0.step C (.initiate p nowI rI txI) := rfl
  have hrA1 : Reachable C (A0.initiate C p nowI rI txI).2 := .step _ (.initiate p nowI rI txI) hr0 hrWF
  have hl : Later A0 ((A0.initiate C p nowI rI txI).2.run C ops) :=
    (step_later L A0 (.initiate p nowI rI txI) hrWF).trans (run_later L ops hops _)
  have hrA := run_reachable ops hops _ hrA1
  have hhs1 : ((A0.initiate C p nowI rI txI).2.handshake p).map (fun h => (h.core, h.eski, h.epki)) = some (hs0.core, hs0.eski, hs0.epki) := by
    rw [hini2]
    unfold handshake
    simp only
    rw [modHs_get, if_pos rfl, hsPut_get, if_pos rfl, hp0]
    rfl
  rw [hhs1] at hpend
  generalize hT : (A0.initiate C p nowI rI txI).2.run C ops = A at *
  have hmsg : ∃ tx now r, A.handleMsg C rx tx now r = (.ok ⟨some p, m⟩, A.step C oA) := by
    cases oA with
    | handleMsg rx' tx now r => cases hrx; exact ⟨tx, now, r, Prod.ext hok rfl⟩
    | handleMsgUnderLoad rx' tx host now r =>
      cases hrx
      have : (A.handleMsgUnderLoad C rx tx host now r).1 = .error .notUnderLoad := by
        cases rx with
        | nil => cases hty
        | cons x xs =>
          simp only [List.head?_cons, Option.some.injEq] at hty
          subst hty
          rfl
      simp only [Op.result, this] at hok
      cases hok
    | _ => cases hrx
  obtain ⟨tx, now, r, hok⟩ := hmsg
  obtain ⟨peerA, hpA, hstA, -⟩ := hl.peers p peer0 hp0
  rcases handleMsg_exchanged hok with ⟨e, out, c, ic, peer, hs, bs, hrx, he, hout, hck, R⟩ |
    ⟨e, out, h, s0, no, c, peer, bs, hrx, he, -, -, hA, hver, hck, R⟩
  · obtain ⟨hs1, eshk, sshk, pt, c1, hlk, hhs, hn, hed, hsd, hd, hc, hic⟩ := rhiVerify_ok R.verify
    obtain ⟨hs2, hhs2, -, -, -, hsid⟩ := rhiVerify_core R.verify
    have hpe := R.hpeer
    rw [hpA] at hpe; cases hpe
    have : hs1 = hs := by
      have := R.hhs
      unfold handshake at hhs
      rw [R.hpeer, Option.bind_some, this] at hhs
      cases hhs; rfl
    subst this
    rw [hhs] at hhs2; cases hhs2
    rw [hhs, Option.map_some] at hpend
    simp only [Option.some.injEq, Prod.mk.injEq] at hpend
    obtain ⟨hcore, heski, hepki⟩ := hpend
    have hc1 := decryptAndMix_core hd
    have hwe := castTx_WF hout
    have hicwf : ic.WF := rhiVerify_ic_WF L (RespHello.decode_WF ((Env.decode_eq_some he).2 ▸ (Env.view_WF (Env.decode_eq_some he).1).2.1)) R.verify
    have hwp : Env.WF InitConf.size { out with payload := ic.encode } :=
      ⟨hwe.1, InitConf.encode_length hicwf, hwe.2.2.1, hwe.2.2.2⟩
    rcases R.result with ⟨h1, -⟩ | ⟨h1, -⟩ | ⟨h1, h2⟩
    · cases h1
    · cases h1
    obtain ⟨h1a, h1b⟩ := Prod.mk.inj h1
    have hses : c.hc = hs1.core.hc := by rw [hc, hc1]; rfl
    have hsid' : ih.sidi = (RespHello.decode C e.payload).sidi := by rw [← hsid0, ← hcore]; exact hsid
    refine ⟨peer0, _, e, c.enterLive C now .initiator peerA.version.hash, ic,
      ⟨peer0.spkt, ih.sidi, ih.epki, shk, ih.sctr, ih.pidiCt, A0.spkm, peer0.psk, ih.auth, (RespHello.decode C e.payload).sidr,
        eshk, (RespHello.decode C e.payload).ecti, sshk, (RespHello.decode C e.payload).scti,
        (RespHello.decode C e.payload).biscuitCt, (RespHello.decode C e.payload).auth, ic.auth⟩,
      hp0, hdec0, he, ?_, ?_, ?_, ?_, ?_, ?_, ?_, ?_⟩
    · rw [h1b]
      unfold session
      rw [modHs_get, if_pos rfl, accepted_get, if_pos rfl, R.hpeer]
      rfl
    · rw [enterLive_hc, hses, hcore, hhc0]
    · have h3 : (c.enterLive C now .initiator peerA.version.hash).ck = c.ck := rfl
      have h4 : ic.auth = (((c1.mix C (RespHello.decode C e.payload).sidi).mix C (RespHello.decode C e.payload).sidr).encryptAndMix C []).1 := by
        rw [hic]
      have h5 : c.ck = chain C hs1.core.hc hs1.core.ck [(RespHello.decode C e.payload).sidr, (RespHello.decode C e.payload).sidi, hs1.epki,
          eshk, (RespHello.decode C e.payload).ecti, A.spkm, sshk, (RespHello.decode C e.payload).scti,
          (RespHello.decode C e.payload).biscuitCt, (RespHello.decode C e.payload).auth, (RespHello.decode C e.payload).sidi,
          (RespHello.decode C e.payload).sidr, ic.auth] := by
        rw [h4, hc, hc1]; rfl
      rw [h3, h5, hcore, hck0, hhc0, ← hsid', hepki, hepk0, hl.spkm]
      rfl
    · have S := sealMsg_sealed L { peerA with session := some (c.enterLive C now .initiator peerA.version.hash), handshake := some { hs1 with core := hs1.core.erase, next := .respConf } }
        .initConf _ hwp
      cases h1a
      exact ⟨_, _, rfl, S.decode, by rw [S.payload]; exact InitConf.decode_encode hicwf⟩
    · rw [hic]; exact hsid'.symm
    · rw [hic]
    · rw [hic]
    · rw [hpay0]
      refine ⟨rfl, rfl, rfl, ⟨rfl, rfl, rfl, rfl, rfl⟩, hse, ⟨hs1.eski, ?_, hed⟩, ?_, ⟨hsid', rfl, rfl, rfl, rfl, rfl⟩, rfl⟩
      · rw [heski, ← hepk0]; exact hk
      · rw [← hl.sskm]; exact hsd
  · rw [hrx] at hty; cases hty

/-- What a server that answers an InitHello has put into the biscuit. -/
theorem hello_answer (L : C.Lawful) {B B1 : Server} (hlc : B.biscuitCtr.length = 12) {rx tx : Bytes} {now : Time}
    {r : HashChoice → Rnd} (hr : ∀ h, (r h).WF C) {x : Option Nat} {m : Bytes}
    (hok : B.handleMsg C rx tx now r = (.ok ⟨x, some m⟩, B1)) (hm : m.head? = some 0x82) :
    ∃ (p : Nat) (peer : Peer) (e em : Env) (t : Transcript), B.peers[p]? = some peer ∧ Env.decode (payloadSize C .initHello) rx = some e ∧
      Env.decode (payloadSize C .respHello) m = some em ∧ B1 = B.issued now (r peer.version.hash) ∧
      (∀ authC, ResponderSees C B.sskm B.spkm peer (r peer.version.hash) (InitHello.decode C e.payload) (RespHello.decode C em.payload) authC { t with authC := authC }) ∧
      (∃ ck, C.xOpen (B1.biscuitKeys.get (biscuitKeyBit t.biscuitCt)).value
          (biscuitAd C peer.version.hash B.spkm t.sidi t.sidr) t.biscuitCt = some (Biscuit.encode ⟨pidt C peer, B.biscuitCtr, ck⟩) ∧
        Biscuit.WF ⟨pidt C peer, B.biscuitCtr, ck⟩ ∧
        t.authR = authTag C peer.version.hash (chain C peer.version.hash ck [t.biscuitCt]) ∧
        ck = chain C peer.version.hash (C.hash peer.version.hash (dom C peer.version.hash .ckinit) t.spkr)
          (t.hello ++ [t.sidr, t.sidi, t.epki, t.eshk, t.ecti, t.spki, t.sshk, t.scti])) := by
  obtain ⟨e, out, h, p, c, peer, rh, he, hout, R⟩ := handleMsg_respHello hok hm
  rcases R.result with ⟨h1, -⟩ | ⟨h1, -⟩ | ⟨h1, h2, h3⟩
  · cases h1
  · cases h1
  subst h2
  obtain ⟨ha, hB1⟩ := Prod.mk.inj h1
  have hih := InitHello.decode_WF (C := C) ((Env.decode_eq_some he).2 ▸ (Env.view_WF (Env.decode_eq_some he).1).2.1)
  have hsid := ihrVerify_sidi R.verify
  obtain ⟨shk, pid, ck1, pt, peer', hsd, hd1, hf, hp', hd2⟩ := ihrVerify_ok R.verify
  rw [R.hpeer] at hp'; cases hp'
  have hans := R.answer
  cases hee : C.eEncaps (r peer.version.hash).ecoins (InitHello.decode C e.payload).epki with
  | none => simp [rhr, hee] at hans
  | some ee =>
  obtain ⟨eshk, ecti⟩ := ee
  cases hse : C.sEncaps (r peer.version.hash).scoins peer.spkt with
  | none => simp [rhr, hee, hse] at hans
  | some se =>
  obtain ⟨sshk, scti⟩ := se
  obtain ⟨rh', hrr, hecti, hscti, hsidr, Fa⟩ := rhr_run L B _ p peer c now _ (hr peer.version.hash) hsid hih hlc hee hse
  rw [hrr] at hans
  have : rh' = rh := by cases (Prod.mk.inj hans).1; rfl
  subst this
  have hwout := castTx_WF hout
  have hwe : Env.WF (RespHello.size C) { out with payload := rh'.encode } :=
    ⟨hwout.1, RespHello.encode_length Fa.wf, hwout.2.2.1, hwout.2.2.2⟩
  have S := sealMsg_sealed L peer .respHello _ hwe
  have hmm : m = (sealMsg C peer .respHello { out with payload := rh'.encode }).encode := by cases ha; rfl
  have hdec : RespHello.decode C (sealMsg C peer .respHello { out with payload := rh'.encode }).payload = rh' := by
    rw [S.payload, RespHello.decode_encode Fa.wf]
  have hc := decryptAndMix_core hd2
  have hck1 : ck1 = chain C peer.version.hash (C.hash peer.version.hash (dom C peer.version.hash .ckinit) B.spkm)
      [(InitHello.decode C e.payload).sidi, (InitHello.decode C e.payload).epki, B.spkm, shk, (InitHello.decode C e.payload).sctr,
        (InitHello.decode C e.payload).pidiCt] := by
    rw [Option.map_eq_some_iff] at hd1
    obtain ⟨⟨y, z⟩, hyz, hz⟩ := hd1
    have := decryptAndMix_core hyz
    subst this
    simp only [Prod.mk.injEq] at hz
    rw [← hz.2]; rfl
  refine ⟨p, peer, e, _, ⟨B.spkm, (InitHello.decode C e.payload).sidi, (InitHello.decode C e.payload).epki, shk,
      (InitHello.decode C e.payload).sctr, (InitHello.decode C e.payload).pidiCt, peer.spkt, peer.psk, (InitHello.decode C e.payload).auth,
      rh'.sidr, eshk, ecti, sshk, scti, rh'.biscuitCt, rh'.auth, []⟩, R.hpeer, he, hmm ▸ S.decode, hB1, ?_, ?_⟩
  · intro authC
    rw [hdec]
    exact ⟨rfl, rfl, rfl, ⟨rfl, rfl, rfl, rfl, rfl⟩, hsd, hee, hse,
      ⟨Fa.sidi.symm, rfl, hecti.symm, hscti.symm, rfl, rfl⟩, rfl⟩
  · refine ⟨_, ?_, ⟨pidt_len L _, hlc, Fa.ckLen⟩, ?_, ?_⟩
    · have := Fa.open_
      rw [hB1]
      exact this
    · rw [Fa.auth]
      have : (coreAtBiscuit C c (r peer.version.hash).sid (InitHello.decode C e.payload).sidi (InitHello.decode C e.payload).epki eshk
        ecti peer.spkt sshk scti).hc = peer.version.hash := by rw [hc]; rfl
      rw [← this]
      rfl
    · rw [hc, hck1, hsidr]; rfl

/-- `hello_answer` for either entry point. -/
theorem hello_answer_op (L : C.Lawful) {B : Server} (hlc : B.biscuitCtr.length = 12) {o : Op} (ho : o.WF C) {rx : Bytes}
    (hrx : o.received = some rx) {x : Option Nat} {m : Bytes} (hok : o.result C B = .ok ⟨x, some m⟩) (hm : m.head? = some 0x82) :
    ∃ (p : Nat) (peer : Peer) (e em : Env) (t : Transcript), B.peers[p]? = some peer ∧
      Env.decode (payloadSize C .initHello) rx = some e ∧ Env.decode (payloadSize C .respHello) m = some em ∧
      (∀ authC, ResponderSees C B.sskm B.spkm peer (o.rnd peer.version.hash) (InitHello.decode C e.payload) (RespHello.decode C em.payload) authC { t with authC := authC }) ∧
      (∃ ck, C.xOpen ((B.step C o).biscuitKeys.get (biscuitKeyBit t.biscuitCt)).value
          (biscuitAd C peer.version.hash B.spkm t.sidi t.sidr) t.biscuitCt = some (Biscuit.encode ⟨pidt C peer, B.biscuitCtr, ck⟩) ∧
        Biscuit.WF ⟨pidt C peer, B.biscuitCtr, ck⟩ ∧
        t.authR = authTag C peer.version.hash (chain C peer.version.hash ck [t.biscuitCt]) ∧
        ck = chain C peer.version.hash (C.hash peer.version.hash (dom C peer.version.hash .ckinit) t.spkr)
          (t.hello ++ [t.sidr, t.sidi, t.epki, t.eshk, t.ecti, t.spki, t.sshk, t.scti])) := by
  cases o with
  | addPeer psk pk v osk => cases hok
  | initiate p now r tx => cases hok
  | handleMsg rx' tx now r =>
    cases hrx
    obtain ⟨p, peer, e, em, t, h1, h2, h3, -, h4, h5⟩ := hello_answer (x := x) L hlc ho (Prod.ext hok rfl) hm
    exact ⟨p, peer, e, em, t, h1, h2, h3, h4, h5⟩
  | handleMsgUnderLoad rx' tx host now r =>
    cases hrx
    simp only [Op.result] at hok
    simp only [step]
    rcases underLoad_cases C B rx tx host now r with ⟨x, -, hx, -⟩ | ⟨-, hx⟩ | ⟨-, i, ids, s1, -, hs1, ⟨-, hx⟩ |
      ⟨e, -, ⟨-, hx⟩ | ⟨-, ⟨-, hx⟩ | ⟨-, hx⟩⟩⟩⟩
    · rw [hx] at hok; cases hok
    · rw [hx] at hok ⊢
      obtain ⟨p, peer, e, em, t, h1, h2, h3, -, h4, h5⟩ := hello_answer (x := x) L hlc ho (Prod.ext hok rfl) hm
      exact ⟨p, peer, e, em, t, h1, h2, h3, h4, h5⟩
    · rw [hx] at hok; cases hok
    · rw [hx] at hok ⊢
      have hc : s1.biscuitCtr = B.biscuitCtr := by rw [hs1]
      obtain ⟨p, peer, e, em, t, h1, h2, h3, -, h4, h5⟩ := hello_answer (x := x) L (hc ▸ hlc) ho (Prod.ext hok rfl) hm
      obtain ⟨ck, j1, j2⟩ := h5
      have hspk : s1.spkm = B.spkm := by rw [hs1]
      have hssk : s1.sskm = B.sskm := by rw [hs1]
      rw [hc, hspk] at j1
      rw [hc] at j2
      refine ⟨p, peer, e, em, t, ?_, h2, h3, ?_, ck, j1, j2⟩
      · rw [hs1] at h1; exact h1
      · intro a
        obtain ⟨k1, k2, k3, k4, k5, k6, k7, k8, k9⟩ := h4 a
        rw [hspk] at k1
        rw [hssk] at k5
        exact ⟨k1, k2, k3, k4, k5, k6, k7, k8, k9⟩
    · rw [hx] at hok; cases hok
    · rw [hx] at hok
      cases hok
      simp only [CookieReply.encode, cookieReplyTo, List.head?_cons, Option.some.injEq] at hm
      exact absurd hm (by decide)
  | poll now r => cases hok
  | retransmit p tx => cases hok

/-- **C24** (responder). At the end of a responder's run, the session it holds has the chaining key of
the transcript made of its configuration, the InitHello it received, the RespHello it sent and the
InitConf it accepted - or the biscuit was forged. -/
theorem responder_transcript (L : C.Lawful) (R : ResponderRun C) :
    (∃ peer e1 ses t, R.before.peers[R.p]? = some peer ∧ Env.decode (payloadSize C .initHello) R.rx1 = some e1 ∧
      R.final.session R.p = some ses ∧ ses.hc = peer.version.hash ∧ ses.ck = t.ck C peer.version.hash ∧
      ResponderSees C R.before.sskm R.before.spkm peer (R.call1.rnd peer.version.hash) (InitHello.decode C e1.payload)
        (RespHello.decode C R.em.payload) (InitConf.decode R.e3.payload).auth t ∧
      (InitConf.decode R.e3.payload).sidi = t.sidi ∧ (InitConf.decode R.e3.payload).sidr = t.sidr) ∨
    R.Forged := by
  obtain ⟨B, hr, o1, ho1, rx1, hrx1, x, m, hok1, hm, ops, hops, hkeys, o2, -, rx3, hrx3, hty, em, hem, e3, he3, hbis, p, m', hok2⟩ := R
  simp only [ResponderRun.final, ResponderRun.Forged, ResponderRun.key] at *
  obtain ⟨q, peer, e1, em', t, hp, he1, hem', hsees, ck, hopen, hbwf, hauthR, hck⟩ :=
    hello_answer_op L (Reachable.ctrLen L hr) ho1 hrx1 hok1 hm
  rw [hem] at hem'; cases hem'
  have hr2 : Reachable C ((B.step C o1).run C ops) := run_reachable ops hops _ (.step _ _ hr ho1)
  have hl : Later B ((B.step C o1).run C ops) := (step_later L B o1 ho1).trans (run_later L ops hops _)
  have hmsg : ∃ tx now r, ((B.step C o1).run C ops).handleMsg C rx3 tx now r =
      (.ok ⟨some p, m'⟩, ((B.step C o1).run C ops).step C o2) := by
    generalize (B.step C o1).run C ops = T at *
    cases o2 with
    | handleMsg rx' tx now r => cases hrx3; exact ⟨tx, now, r, Prod.ext hok2 rfl⟩
    | handleMsgUnderLoad rx' tx host now r =>
      cases hrx3
      have : T.handleMsgUnderLoad C rx3 tx host now r = T.handleMsg C rx3 tx now r := by
        cases rx3 with
        | nil => cases hty
        | cons x xs =>
          simp only [List.head?_cons, Option.some.injEq] at hty
          subst hty
          rfl
      simp only [Op.result, this] at hok2
      simp only [step, this]
      exact ⟨tx, now, r, Prod.ext hok2 rfl⟩
    | _ => cases hrx3
  obtain ⟨tx3, now3, r3, hmsg⟩ := hmsg
  generalize hT : (B.step C o1).run C ops = T at *
  generalize hT3 : T.step C o2 = T3 at *
  rcases handleMsg_exchanged hmsg with ⟨e', out, c, ic, peer', hs, bs, hty', -⟩ |
    ⟨e', out, h, s0, no, c, peer1, bs, hty', he', hout, hn, hA, hver, hck3, R⟩
  · rw [hty'] at hty; cases hty
  have : e' = e3 := by
    have : Env.decode InitConf.size rx3 = some e3 := he3
    rw [he'] at this; cases this; rfl
  subst this
  obtain ⟨hg, -, hpeers⟩ := AttemptState.facts hA
  have hix := AttemptState.peerIdx hA (Reachable.peerIdx L hr2)
  obtain ⟨c0, peer2, pt2, o, hlb, hd, hp2, hcmp, hoo⟩ := icrVerify_ok R.verify
  rw [R.hpeer] at hp2; cases hp2
  obtain ⟨pt, peer3, hx, hf, hp3, hno, hc0⟩ := loadBiscuit_ok hlb
  rw [R.hpeer] at hp3; cases hp3
  obtain ⟨-, -, -, -, -, -, -, ⟨k1, k2, -, -, k5, k6⟩, -⟩ := hsees (InitConf.decode e'.payload).auth
  simp only at k1 k2 k5 k6
  -- the peer of the answer, now
  obtain ⟨peerT, hpT, hstT, -⟩ := hl.peers q peer hp
  have hkey : (s0.biscuitKeys.get (biscuitKeyBit (InitConf.decode e'.payload).biscuitCt)).value =
      ((B.step C o1).biscuitKeys.get (biscuitKeyBit (RespHello.decode C em.payload).biscuitCt)).value := by
    rw [hg.biscuitKeys, hbis, hkeys]
  rw [hkey, hbis, hg.spkm, hl.spkm] at hx
  rw [k5, k1, k2] at hopen
  by_cases had : biscuitAd C h B.spkm (InitConf.decode e'.payload).sidi (InitConf.decode e'.payload).sidr =
      biscuitAd C peer.version.hash B.spkm (RespHello.decode C em.payload).sidi (RespHello.decode C em.payload).sidr
  rotate_left
  · right; left
    exact ⟨_, _, had, by rw [hx]; rfl, by rw [hopen]; rfl⟩
  rw [had, hopen] at hx
  cases hx
  rw [Biscuit.decode_encode hbwf] at hf hno hc0
  simp only at hf hno hc0
  -- the peer of the answer is the peer of the exchange
  have hqp : q = p ∧ Static peer peer1 := by
    obtain ⟨q0, hq0, hpid⟩ := (hix _ p).mp hf
    obtain ⟨q1, hq1, hst1, -⟩ := hpeers p q0 hq0
    have h1 : T.index (.peer (pidt C peer)) = some q := (Reachable.peerIdx L hr2 _ q).mpr ⟨peerT, hpT, hstT.pidt⟩
    have h2 : T.index (.peer (pidt C peer)) = some p := (Reachable.peerIdx L hr2 _ p).mpr ⟨q1, hq1, by rw [← hst1.pidt, hpid]⟩
    rw [h1] at h2; cases h2
    refine ⟨rfl, ?_⟩
    rw [R.hpeer] at hq0; cases hq0
    rw [hpT] at hq1; cases hq1
    exact Static.trans hstT hst1
  obtain ⟨rfl, hst⟩ := hqp
  have hv : peer1.version = peer.version := hst.2.2.1
  rw [hv] at hver hc0
  subst hver
  have hids : ((InitConf.decode e'.payload).sidi = (RespHello.decode C em.payload).sidi ∧
      (InitConf.decode e'.payload).sidr = (RespHello.decode C em.payload).sidr) ∨ Broken C peer.version.hash zero32
      (biscuitQueries C peer.version.hash B.spkm (RespHello.decode C em.payload).sidi (RespHello.decode C em.payload).sidr ++
       biscuitQueries C peer.version.hash B.spkm (InitConf.decode e'.payload).sidi (InitConf.decode e'.payload).sidr) := by
    rcases hash_domain_injective C peer.version.hash .biscuitAd [B.spkm, (RespHello.decode C em.payload).sidi, (RespHello.decode C em.payload).sidr]
      [B.spkm, (InitConf.decode e'.payload).sidi, (InitConf.decode e'.payload).sidr] had.symm with h | h
    · left
      simp only [List.cons.injEq, true_and] at h
      exact ⟨h.1.symm, h.2.1.symm⟩
    · exact Or.inr h
  rcases hids with ⟨hsi, hsr⟩ | hb
  rotate_left
  · exact Or.inr (Or.inr ⟨_, hb⟩)
  left
  rcases R.result with ⟨⟨x, -, h1⟩, -⟩ | ⟨h1, -⟩ | ⟨h1, -⟩ | ⟨h1, -⟩ | ⟨s2, h1, hk, h2, h3⟩
  · cases h1
  · cases h1
  · cases h1
  · cases h1
  obtain ⟨-, rfl⟩ := Prod.mk.inj h1
  have hget := knownInsert_upd hk q
  rw [if_pos rfl, confirmed_get, if_pos rfl, R.hpeer] at hget
  simp only [Option.map_some] at hget
  have hc := decryptAndMix_core hd
  refine ⟨peer, e1, { c.enterLive C now3 .responder peer1.version.hash with txnm := (c.enterLive C now3 .responder peer1.version.hash).txnm + 1 }, { t with authC := (InitConf.decode e'.payload).auth }, hp, he1, ?_, ?_, ?_, hsees _, hsi.trans k1.symm, hsr.trans k2.symm⟩
  · unfold session
    rw [hget]; rfl
  · show (c.enterLive C now3 .responder peer1.version.hash).hc = _
    rw [enterLive_hc, hc, hc0]; rfl
  · show (c.enterLive C now3 .responder peer1.version.hash).ck = _
    have h4 : (c.enterLive C now3 .responder peer1.version.hash).ck = c.ck := rfl
    have h5 : c.ck = chain C peer.version.hash ck [(InitConf.decode e'.payload).biscuitCt,
        authTag C peer.version.hash (chain C peer.version.hash ck [(InitConf.decode e'.payload).biscuitCt]),
        (InitConf.decode e'.payload).sidi, (InitConf.decode e'.payload).sidr, (InitConf.decode e'.payload).auth] := by
      rw [hc, hc0]; rfl
    rw [h4, h5, hbis, hsi, hsr, ← k1, ← k2, ← k5, ← hauthR, hck]
    rfl

/-- **C24.** Take any run of an initiator and any run of a responder, whatever an adversary did to the
messages in between. If afterwards both hand out the same output key, for peers of the same protocol
version, then one transcript describes both runs: each holds the other's public key as its peer's,
they use the same pre-shared key, session ids and shared secrets, the InitHello and RespHello arrived
with the contents with which they were sent, and the InitConf with the authenticator that was sent.
The only exceptions are explicit breaks of the hash or of the biscuit AEAD on the inputs of these very
runs (`InitiatorSees.unique`, `ResponderSees.unique`: the two transcripts are determined by the runs). -/
theorem transcript_binding (L : C.Lawful) (RA : InitiatorRun C) (RB : ResponderRun C) (peerA peerB : Peer)
    (hpA : RA.before.peers[RA.p]? = some peerA) (hpB : RB.before.peers[RB.p]? = some peerB)
    (hver : peerA.version = peerB.version) (dA dB : OskDomain) (k : Bytes)
    (hkA : RA.final.oskFor C RA.p dA = .ok k) (hkB : RB.final.oskFor C RB.p dB = .ok k) :
    RB.Forged ∨
    ∃ ihA eA eB icA tA tB, Env.decode (payloadSize C .initHello) RA.hello = some ihA ∧
      Env.decode (payloadSize C .respHello) RA.rx = some eA ∧
      Env.decode (payloadSize C .initHello) RB.rx1 = some eB ∧
      (∃ e' x, RA.reply = some x ∧ Env.decode (payloadSize C .initConf) x = some e' ∧ InitConf.decode e'.payload = icA) ∧
      InitiatorSees C RA.before.sskm RA.before.spkm peerA RA.r (InitHello.decode C ihA.payload) (RespHello.decode C eA.payload)
        icA.auth tA ∧
      ResponderSees C RB.before.sskm RB.before.spkm peerB (RB.call1.rnd peerB.version.hash) (InitHello.decode C eB.payload)
        (RespHello.decode C RB.em.payload) (InitConf.decode RB.e3.payload).auth tB ∧
      ((tA = tB ∧ peerA.spkt = RB.before.spkm ∧ peerB.spkt = RA.before.spkm ∧ peerA.psk = peerB.psk ∧
          InitHello.decode C ihA.payload = InitHello.decode C eB.payload ∧
          RespHello.decode C eA.payload = RespHello.decode C RB.em.payload ∧
          icA = InitConf.decode RB.e3.payload) ∨
        Broken C peerA.version.hash zero32
          (queries C peerA.version.hash zero32 (tA.path C peerA.version.hash ++ [dA.compress C peerA.version.hash]) ++
           queries C peerA.version.hash zero32 (tB.path C peerA.version.hash ++ [dB.compress C peerA.version.hash]))) := by
  obtain ⟨peerA', ihA, eA, sesA, icA, tA, hpA', hihA, heA, hsesA, hhcA, hckA, hrep, hi1, hi2, hi3, seesA⟩ := initiator_transcript L RA
  rw [hpA] at hpA'; cases hpA'
  rcases responder_transcript L RB with ⟨peerB', eB, sesB, tB, hpB', heB, hsesB, hhcB, hckB, seesB, hj1, hj2⟩ | h
  rotate_left
  · exact Or.inl h
  rw [hpB] at hpB'; cases hpB'
  right
  have lA : Later RA.before RA.final :=
    ((step_later L RA.before (.initiate RA.p RA.now RA.r RA.tx) RA.rWF).trans (run_later L RA.ops RA.opsWF _)).trans
      (step_later L _ RA.call RA.callWF)
  have lB : Later RB.before RB.final :=
    ((step_later L RB.before RB.call1 RB.call1WF).trans (run_later L RB.ops RB.opsWF _)).trans (step_later L _ RB.call2 RB.call2WF)
  have key : ∀ {S0 S : Server} {p : Nat} {peer : Peer} {ses : Session} {d : OskDomain}, Later S0 S → S0.peers[p]? = some peer →
      S.session p = some ses → S.oskFor C p d = .ok k → C.hash ses.hc ses.ck (d.compress C peer.version.hash) = k := by
    intro S0 S p peer ses d hl hp0 hs hk
    obtain ⟨q, hp, hst, -⟩ := hl.peers p peer hp0
    unfold session at hs
    rw [hp, Option.bind_some] at hs
    simp only [oskFor, oskWith, hp, hs, Except.ok.injEq] at hk
    rw [hst.2.2.1] at hk
    exact hk
  have hA := key lA hpA hsesA hkA
  have hB := key lB hpB hsesB hkB
  rw [hhcA, hckA] at hA
  rw [hhcB, hckB, ← hver] at hB
  refine ⟨ihA, eA, eB, icA, tA, tB, hihA, heA, heB, hrep, seesA, seesB, ?_⟩
  rcases output_key_binds_transcript peerA.version.hash tA tB _ _ (hA.trans hB.symm) with ⟨ht, -⟩ | h
  · subst ht
    left
    refine ⟨rfl, seesA.spkr.symm.trans seesB.spkr, seesB.spki.symm.trans seesA.spki, seesA.psk.symm.trans seesB.psk, ?_, ?_, ?_⟩
    · obtain ⟨a1, a2, a3, a4, a5⟩ := seesA.hello
      obtain ⟨b1, b2, b3, b4, b5⟩ := seesB.hello
      generalize InitHello.decode C ihA.payload = u at *
      generalize InitHello.decode C eB.payload = v at *
      cases u; cases v
      simp only [InitHello.mk.injEq]
      exact ⟨a1.symm.trans b1, a2.symm.trans b2, a3.symm.trans b3, a4.symm.trans b4, a5.symm.trans b5⟩
    · obtain ⟨a1, a2, a3, a4, a5, a6⟩ := seesA.message
      obtain ⟨b1, b2, b3, b4, b5, b6⟩ := seesB.message
      generalize RespHello.decode C eA.payload = u at *
      generalize RespHello.decode C RB.em.payload = v at *
      cases u; cases v
      simp only [RespHello.mk.injEq]
      exact ⟨a2.symm.trans b2, a1.symm.trans b1, a3.symm.trans b3, a4.symm.trans b4, a6.symm.trans b6, a5.symm.trans b5⟩
    · have hb := RB.sameBiscuit
      have b5 := seesB.message.2.2.2.2.1
      have ha := seesA.authC
      have hb' := seesB.authC
      generalize InitConf.decode RB.e3.payload = v at *
      cases icA; cases v
      simp only [InitConf.mk.injEq]
      exact ⟨hi1.trans hj1.symm, hi2.trans hj2.symm, hi3.trans (b5.trans hb.symm), ha.symm.trans hb'⟩
  · exact Or.inr h

end

namespace Ex

/-- C24: the initiator of the honest run is an `InitiatorRun` … -/
def initiatorRun : InitiatorRun Toy.crypto where
  before := A0 .v03
  reachable := A0_reach _
  p := 0
  now := 0
  r := rnd 9
  tx := buf
  rWF := rnd_WF 9
  hello := m1 .v03
  started := by decide +kernel
  ops := []
  opsWF := by simp
  pending := rfl
  call := .handleMsg (m2 .v03) buf 2 (fun _ => rnd 30)
  callWF := fun _ => rnd_WF 30
  rx := m2 .v03
  received := rfl
  isRespHello := by decide +kernel
  reply := some (m3 .v03)
  accepts := by decide +kernel

/-- … its responder is a `ResponderRun` … -/
def responderRun : ResponderRun Toy.crypto where
  before := B0 .v03
  reachable := B0_reach _
  call1 := .handleMsg (m1 .v03) buf 1 (fun _ => rnd 20)
  call1WF := fun _ => rnd_WF 20
  rx1 := m1 .v03
  received1 := rfl
  x := none
  answer := m2 .v03
  answers := by decide +kernel
  isRespHello := by decide +kernel
  ops := []
  opsWF := by simp
  keysKept := fun i => by rw [show ∀ s : Server, s.run Toy.crypto [] = s from fun _ => rfl]
  call2 := .handleMsg (m3 .v03) buf 3 (fun _ => rnd 40)
  call2WF := fun _ => rnd_WF 40
  rx3 := m3 .v03
  received3 := rfl
  isInitConf := by decide +kernel
  em := Env.view (RespHello.size Toy.crypto) (m2 .v03)
  decAnswer := by decide +kernel
  e3 := Env.view InitConf.size (m3 .v03)
  dec3 := by decide +kernel
  sameBiscuit := by decide +kernel
  p := 0
  reply := some (m4 .v03)
  accepts := by decide +kernel

end Ex

/-- … and they output the same key. -/
example : Ex.initiatorRun.final.oskFor Toy.crypto 0 .wireguardPsk = Ex.responderRun.final.oskFor Toy.crypto 0 .wireguardPsk ∧
    (Ex.initiatorRun.final.oskFor Toy.crypto 0 .wireguardPsk).isOk = true := by
  decide +kernel

end Verif
