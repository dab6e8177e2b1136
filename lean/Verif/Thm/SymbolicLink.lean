import Verif.Model.Symbolic
import Verif.Thm.Agreement
/-
The symbolic model computes the same as the model over bytes (Model/Handshake.lean): under every interpretation of the atomic values, by all lawful primitives,
whatever the symbolic servers send, accept and derive is what the servers over bytes send, accept and derive.
-/
namespace Verif.Sym
open HashDomain (Purpose)

/-- What the atomic values stand for, and the public keys that belong to secret keys. -/
structure Interp where
  val : Name → Bytes
  pkOf : Bytes → Bytes

section
variable (C : Crypto) (I : Interp)

/-- the bytes that a term stands for -/
def eval : Term → Bytes
  | .const b => b
  | .name n => I.val n
  | .spk sk => I.pkOf (eval sk)
  | .epk r => ((C.eKeygen (eval r)).map (·.2)).getD []
  | .hash h k d => C.hash h (eval k) (eval d)
  | .aead k n ad pt => C.aeadEnc (eval k) (eval n) (eval ad) (eval pt)
  | .xaead k n ad pt => C.xSeal (eval k) (eval n) (eval ad) (eval pt)
  | .bnonce n bit => biscuitNonce (eval n) bit
  | .sct r pk => ((C.sEncaps (eval r) (eval pk)).map (·.2)).getD []
  | .sss r pk => ((C.sEncaps (eval r) (eval pk)).map (·.1)).getD []
  | .srej sk ct => (C.sDecaps (eval sk) (eval ct)).getD []
  | .ect r pk => ((C.eEncaps (eval r) (eval pk)).map (·.2)).getD []
  | .ess r pk => ((C.eEncaps (eval r) (eval pk)).map (·.1)).getD []
  | .erej r ct => (C.eDecaps (((C.eKeygen (eval r)).map (·.1)).getD []) (eval ct)).getD []
  | .bis pid no ck => (Biscuit.mk (eval pid) (eval no) (eval ck)).encode

def Core.eval (c : Core) : Verif.Core := ⟨Sym.eval C I c.sidi, Sym.eval C I c.sidr, Sym.eval C I c.ck, c.hc⟩
def IH.eval (m : IH) : InitHello := ⟨Sym.eval C I m.sidi, Sym.eval C I m.epki, Sym.eval C I m.sctr, Sym.eval C I m.pidiCt, Sym.eval C I m.auth⟩
def RH.eval (m : RH) : RespHello := ⟨Sym.eval C I m.sidr, Sym.eval C I m.sidi, Sym.eval C I m.ecti, Sym.eval C I m.scti, Sym.eval C I m.auth, Sym.eval C I m.biscuitCt⟩
def IC.eval (m : IC) : InitConf := ⟨Sym.eval C I m.sidi, Sym.eval C I m.sidr, Sym.eval C I m.biscuitCt, Sym.eval C I m.auth⟩
def ED.eval (m : ED) : EmptyData := ⟨Sym.eval C I m.sid, Sym.eval C I m.ctr, Sym.eval C I m.auth⟩

/-- `s` has the key pair of server `a` -/
structure IsServer (s : Server) (a : Nat) : Prop where
  sk : s.sskm = I.val (.ssk a)
  pk : s.spkm = eval C I (own a)
  pair : C.StaticPair s.sskm s.spkm

/-- the peer record `q` was made for the entry `p` -/
structure IsPeer (q : Peer) (p : PeerCfg) : Prop where
  pk : q.spkt = eval C I p.pk.term
  psk : q.psk = eval C I p.psk.term
  hash : q.version.hash = p.h
  osk : q.osk = p.osk

/-- `r` are the random values of event `i` -/
structure IsRnd (r : Rnd) (i : Nat) : Prop where
  sid : r.sid = I.val (.rnd i .sid)
  kcoins : r.kcoins = I.val (.rnd i .kcoins)
  ecoins : r.ecoins = I.val (.rnd i .ecoins)
  scoins : r.scoins = I.val (.rnd i .scoins)
  nonce : r.nonce = I.val (.rnd i .nonce)

variable {C I}

theorem eval_mixMany (h : HashChoice) (ls : List Bytes) (k : Term) : eval C I (mixMany h k (ls.map .const)) = HashDomain.mixMany C h (eval C I k) ls := by
  induction ls generalizing k with
  | nil => rfl
  | cons x ls ih => exact ih (k := .hash h k (.const x))

theorem eval_dom (h : HashChoice) (u : Purpose) : eval C I (dom h u) = HashDomain.dom C h u := eval_mixMany h _ _

theorem eval_sep (h : HashChoice) (d : OskDomain) : eval C I (sep h d) = d.compress C h := by
  cases d with
  | wireguardPsk => exact eval_dom h _
  | custom ns ls =>
    show eval C I (mixMany h (.hash h (dom h .ckeUser) (.const ns)) (ls.map .const)) = _
    rw [eval_mixMany]
    show HashDomain.mixMany C h (C.hash h (eval C I (dom h .ckeUser)) ns) ls = _
    rw [eval_dom]; rfl

theorem Core.eval_mix (c : Core) (x : Term) : (c.mix x).eval C I = (c.eval C I).mix C (Sym.eval C I x) := by
  unfold Core.eval Core.mix Verif.Core.mix
  simp only [Sym.eval, eval_dom, HashDomain.mix]

theorem Core.eval_mixKem (c : Core) (x y z : Term) : (c.mixKem x y z).eval C I = (c.eval C I).mixKem C (Sym.eval C I x) (Sym.eval C I y) (Sym.eval C I z) := by
  unfold Core.mixKem Verif.Core.mixKem
  rw [eval_mix, eval_mix, eval_mix]

theorem Core.eval_init (c : Core) (x : Term) : (c.init x).eval C I = (c.eval C I).init C (Sym.eval C I x) := by
  unfold Core.eval Core.init Verif.Core.init
  simp only [Sym.eval, eval_dom, HashDomain.mix]

theorem Core.eval_encKey (c : Core) : Sym.eval C I c.encKey = (c.eval C I).encKey C := by
  unfold Core.encKey Verif.Core.encKey
  simp only [Sym.eval, eval_dom, HashDomain.mix, Core.eval]

theorem Core.eval_enc (c : Core) (pt : Term) :
    (Sym.eval C I (c.encryptAndMix pt).1, (c.encryptAndMix pt).2.eval C I) = (c.eval C I).encryptAndMix C (Sym.eval C I pt) := by
  unfold Core.encryptAndMix Verif.Core.encryptAndMix
  dsimp only
  rw [eval_mix]
  simp only [Sym.eval, eval_encKey, nonce0, Verif.Core.nonce0, empty]

theorem Core.eval_enc1 (c : Core) (pt : Term) : Sym.eval C I (c.encryptAndMix pt).1 = ((c.eval C I).encryptAndMix C (Sym.eval C I pt)).1 := by rw [← eval_enc]
theorem Core.eval_enc2 (c : Core) (pt : Term) : (c.encryptAndMix pt).2.eval C I = ((c.eval C I).encryptAndMix C (Sym.eval C I pt)).2 := by rw [← eval_enc]

theorem Core.eval_dec (L : C.Lawful) {c c' : Core} {ct pt : Term} (h : c.decryptAndMix ct = some (pt, c')) :
    (c.eval C I).decryptAndMix C (Sym.eval C I ct) = some (Sym.eval C I pt, c'.eval C I) := by
  unfold Core.decryptAndMix at h
  split at h
  · split at h
    · rename_i hk
      obtain ⟨rfl, rfl, rfl⟩ := hk
      injection h with h
      injection h with h1 h2
      subst h1 h2
      unfold Verif.Core.decryptAndMix
      rw [eval_mix]
      simp only [Sym.eval, eval_encKey, nonce0, Verif.Core.nonce0, empty, L.aead_dec_enc]
    · cases h
  · cases h

theorem eval_sdec (K : C.KemTotal) {s : Server} {b : Nat} (hs : IsServer C I s b) (ct : Term) :
    C.sDecaps s.sskm (eval C I ct) = some (eval C I (sdec (.name (.ssk b)) ct)) := by
  have hrej : C.sDecaps s.sskm (eval C I ct) = some (eval C I (.srej (.name (.ssk b)) ct)) := by
    have := K.sDec s.sskm (eval C I ct)
    show _ = some ((C.sDecaps (I.val (.ssk b)) (eval C I ct)).getD [])
    rw [← hs.sk]
    cases h : C.sDecaps s.sskm (eval C I ct) with
    | none => rw [h] at this; cases this
    | some x => rfl
  unfold sdec
  split
  · rename_i r sk'
    split
    · rename_i e
      subst e
      have hp := hs.pk
      obtain ⟨⟨shk, c⟩, he⟩ := Option.isSome_iff_exists.mp (K.sEnc (eval C I r) s.spkm)
      have hd := hs.pair _ _ _ he
      rw [hp] at he
      have he : C.sEncaps (eval C I r) (eval C I (.spk (.name (.ssk b)))) = some (shk, c) := he
      have e1 : eval C I (.sct r (.spk (.name (.ssk b)))) = c := by
        show ((C.sEncaps (eval C I r) (eval C I (.spk (.name (.ssk b))))).map (·.2)).getD [] = c
        rw [he]; rfl
      have e2 : eval C I (.sss r (.spk (.name (.ssk b)))) = shk := by
        show ((C.sEncaps (eval C I r) (eval C I (.spk (.name (.ssk b))))).map (·.1)).getD [] = shk
        rw [he]; rfl
      rw [e1, e2, hd]
    · exact hrej
  · exact hrej

theorem eval_edec (L : C.Lawful) (K : C.KemTotal) {r ct : Term} {sk pk : Bytes} (hk : C.eKeygen (eval C I r) = some (sk, pk)) :
    C.eDecaps sk (eval C I ct) = some (eval C I (edec r ct)) := by
  have hrej : C.eDecaps sk (eval C I ct) = some (eval C I (.erej r ct)) := by
    have := K.eDec sk (eval C I ct)
    show _ = some ((C.eDecaps (((C.eKeygen (eval C I r)).map (·.1)).getD []) (eval C I ct)).getD [])
    rw [hk]
    show _ = some ((C.eDecaps sk (eval C I ct)).getD [])
    cases h : C.eDecaps sk (eval C I ct) with
    | none => rw [h] at this; cases this
    | some x => rfl
  unfold edec
  split
  · rename_i r' r0
    split
    · rename_i e
      subst e
      have hpk : eval C I (.epk r0) = pk := by
        show ((C.eKeygen (eval C I r0)).map (·.2)).getD [] = pk
        rw [hk]; rfl
      obtain ⟨⟨shk, c⟩, he⟩ := Option.isSome_iff_exists.mp (K.eEnc (eval C I r') pk)
      have hd := L.eKem _ _ _ _ _ _ hk he
      have e1 : eval C I (.ect r' (.epk r0)) = c := by
        show ((C.eEncaps (eval C I r') (eval C I (.epk r0))).map (·.2)).getD [] = c
        rw [hpk, he]; rfl
      have e2 : eval C I (.ess r' (.epk r0)) = shk := by
        show ((C.eEncaps (eval C I r') (eval C I (.epk r0))).map (·.1)).getD [] = shk
        rw [hpk, he]; rfl
      rw [e1, e2, hd]
    · exact hrej
  · exact hrej

theorem eval_senc (K : C.KemTotal) (r pk : Term) : C.sEncaps (eval C I r) (eval C I pk) = some (eval C I (.sss r pk), eval C I (.sct r pk)) := by
  obtain ⟨⟨x, y⟩, he⟩ := Option.isSome_iff_exists.mp (K.sEnc (eval C I r) (eval C I pk))
  simp only [eval, he, Option.map_some, Option.getD_some]

theorem eval_eenc (K : C.KemTotal) (r pk : Term) : C.eEncaps (eval C I r) (eval C I pk) = some (eval C I (.ess r pk), eval C I (.ect r pk)) := by
  obtain ⟨⟨x, y⟩, he⟩ := Option.isSome_iff_exists.mp (K.eEnc (eval C I r) (eval C I pk))
  simp only [eval, he, Option.map_some, Option.getD_some]

theorem eval_pid (p : PeerCfg) {q : Peer} (hq : IsPeer C I q p) : eval C I p.pid = Server.pidt C q := by
  unfold PeerCfg.pid Server.pidt
  rw [hq.hash, hq.pk]
  simp only [eval, eval_dom, HashDomain.mix]

/-! ### The handlers -/

/-- InitHello: what a server sends, and the state it keeps. -/
theorem initiation_link (K : C.KemTotal) {s : Server} {a : Nat} (hs : IsServer C I s a) {q : Peer} {p : PeerCfg} (hq : IsPeer C I q p) {r : Rnd} {i : Nat} (hr : IsRnd I r i) (now : Time) :
    ∃ hsk, s.initiation C q now r = some ((initiation a p i).1.eval C I, hsk) ∧ hsk.core = (initiation a p i).2.eval C I ∧ hsk.next = .respHello ∧
      C.eKeygen (eval C I (rnd i .kcoins)) = some (hsk.eski, hsk.epki) := by
  obtain ⟨⟨esk, epk⟩, hk⟩ := Option.isSome_iff_exists.mp (K.eGen r.kcoins)
  have hk' : C.eKeygen (eval C I (rnd i .kcoins)) = some (esk, epk) := by rw [← hk, hr.kcoins]; rfl
  have hepk : eval C I (.epk (rnd i .kcoins)) = epk := by
    show ((C.eKeygen (eval C I (rnd i .kcoins))).map (·.2)).getD [] = epk
    rw [hk']; rfl
  have he : C.sEncaps r.scoins q.spkt = some (eval C I (.sss (rnd i .scoins) p.pk.term), eval C I (.sct (rnd i .scoins) p.pk.term)) := by
    rw [hr.scoins, hq.pk]
    exact eval_senc (I := I) K (rnd i .scoins) p.pk.term
  unfold Server.initiation
  simp only [hk, he]
  -- the state before the first ciphertext
  generalize hA : ((({ (Core.zero p.h).init p.pk.term with sidi := rnd i .sid } : Core).mix (rnd i .sid)).mix (.epk (rnd i .kcoins))).mixKem p.pk.term
    (.sss (rnd i .scoins) p.pk.term) (.sct (rnd i .scoins) p.pk.term) = A
  have hA' : ((({ (Verif.Core.zero q.version.hash).init C q.spkt with sidi := r.sid } : Verif.Core).mix C r.sid).mix C epk).mixKem C q.spkt
      (eval C I (.sss (rnd i .scoins) p.pk.term)) (eval C I (.sct (rnd i .scoins) p.pk.term)) = A.eval C I := by
    rw [← hA, Core.eval_mixKem, Core.eval_mix, Core.eval_mix, hq.hash, hq.pk, hr.sid, hepk]
    have : ({ (Core.zero p.h).init p.pk.term with sidi := rnd i .sid } : Core).eval C I =
        { (Verif.Core.zero p.h).init C (eval C I p.pk.term) with sidi := I.val (.rnd i .sid) } := by
      have := Core.eval_init (C := C) (I := I) (Core.zero p.h) p.pk.term
      exact congrArg (fun c : Verif.Core => { c with sidi := I.val (.rnd i .sid) }) this
    rw [this]; rfl
  have hpid : s.pidm C q.version.hash = eval C I (.hash p.h (dom p.h .peerid) (own a)) := by
    unfold Server.pidm
    rw [hq.hash, hs.pk]
    simp only [eval, eval_dom, HashDomain.mix]
  rw [hA', hpid, ← Core.eval_enc1, ← Core.eval_enc2, hs.pk, hq.psk, ← Core.eval_mix, ← Core.eval_mix,
    show ([] : Bytes) = eval C I Core.empty from rfl, ← Core.eval_enc1, ← Core.eval_enc2]
  refine ⟨_, congrArg some (Prod.ext ?_ rfl), ?_, ?_, ?_⟩
  · rw [show epk = eval C I (.epk (rnd i .kcoins)) from hepk.symm, hr.sid, ← hA]; rfl
  · show Core.eval C I _ = _
    rw [← hA]; rfl
  · rfl
  · exact hk'

/-- The checks on an InitHello: what the symbolic server accepts, the server accepts, with the same peer and the same state. -/
theorem ihr_link (L : C.Lawful) (K : C.KemTotal) {s : Server} {b : Nat} (hs : IsServer C I s b) {q : Peer} {p : PeerCfg} (hq : IsPeer C I q p) {n : Nat}
    (hf : s.findPeer (Server.pidt C q) = some n) (hn : s.peers[n]? = some q) {h : HashChoice} {ih : IH} {c : Core} (hr : ihr b p h ih = some c) :
    s.ihrVerify C (ih.eval C I) h = .ok (n, c.eval C I) := by
  unfold ihr at hr
  dsimp only at hr
  have hini : ({ (Core.zero h).init (own b) with sidi := ih.sidi } : Core).eval C I =
      { (Verif.Core.zero h).init C (eval C I (own b)) with sidi := eval C I ih.sidi } := by
    have := Core.eval_init (C := C) (I := I) (Core.zero h) (own b)
    exact congrArg (fun c : Verif.Core => { c with sidi := eval C I ih.sidi }) this
  split at hr
  · cases hr
  · rename_i pid c1 hd
    split at hr
    · rename_i hp
      subst hp
      split at hr
      · cases hr
      · rename_i x c2 hd2
        injection hr with hr
        subst hr
        unfold Server.ihrVerify
        have e1 : C.sDecaps s.sskm (ih.eval C I).sctr = some (eval C I (sdec (.name (.ssk b)) ih.sctr)) := eval_sdec K hs ih.sctr
        simp only [e1]
        have d1 := Core.eval_dec (I := I) L hd
        rw [Core.eval_mixKem, Core.eval_mix, Core.eval_mix, hini] at d1
        rw [hs.pk]
        rw [show (ih.eval C I).pidiCt = eval C I ih.pidiCt from rfl]
        rw [show (ih.eval C I).sidi = eval C I ih.sidi from rfl, show (ih.eval C I).epki = eval C I ih.epki from rfl, show (ih.eval C I).sctr = eval C I ih.sctr from rfl, d1]
        dsimp only
        rw [eval_pid p hq, hf]
        dsimp only
        rw [hn]
        dsimp only
        have d2 := Core.eval_dec (I := I) L hd2
        rw [Core.eval_mix, Core.eval_mix, ← hq.pk, ← hq.psk] at d2
        rw [show (ih.eval C I).auth = eval C I ih.auth from rfl, d2]
    · cases hr

/-- RespHello: what a server answers, when its biscuit counter is `no` and `val (.bkey b k)` is the active biscuit key, in place `bit`. -/
theorem rhr_link (K : C.KemTotal) {s : Server} {b : Nat} (hs : IsServer C I s b) {q : Peer} {p : PeerCfg} (hq : IsPeer C I q p) {r : Rnd} {j : Nat} (hr : IsRnd I r j) (now : Time)
    (n : Nat) {ih : IH} {c : Core} {k : Nat} {bit : Bool} {no : Bytes} (hno : s.biscuitCtr = no)
    (hbit : (({ s with biscuitCtr := ConstantTime.increment s.biscuitCtr } : Server).activeBiscuitKey now r.bkey).1 = bit)
    (hkey : ((afterIssue s now r).biscuitKeys.get bit).value = I.val (.bkey b k)) :
    s.rhr C (ih.eval C I) n q (c.eval C I) now r = (.ok (n, (rhr b p ih c j k bit no).1.eval C I), afterIssue s now r) := by
  have he : C.eEncaps r.ecoins (ih.eval C I).epki = some (eval C I (.ess (rnd j .ecoins) ih.epki), eval C I (.ect (rnd j .ecoins) ih.epki)) := by
    rw [hr.ecoins]; exact eval_eenc (I := I) K (rnd j .ecoins) ih.epki
  have hse : C.sEncaps r.scoins q.spkt = some (eval C I (.sss (rnd j .scoins) p.pk.term), eval C I (.sct (rnd j .scoins) p.pk.term)) := by
    rw [hr.scoins, hq.pk]; exact eval_senc (I := I) K (rnd j .scoins) p.pk.term
  generalize hA : (((({ c with sidr := rnd j .sid } : Core).mix (rnd j .sid)).mix c.sidi).mixKem ih.epki (.ess (rnd j .ecoins) ih.epki) (.ect (rnd j .ecoins) ih.epki)).mixKem
    p.pk.term (.sss (rnd j .scoins) p.pk.term) (.sct (rnd j .scoins) p.pk.term) = A
  have hA' : (((({ c.eval C I with sidr := r.sid } : Verif.Core).mix C r.sid).mix C (c.eval C I).sidi).mixKem C (ih.eval C I).epki
      (eval C I (.ess (rnd j .ecoins) ih.epki)) (eval C I (.ect (rnd j .ecoins) ih.epki))).mixKem C q.spkt
      (eval C I (.sss (rnd j .scoins) p.pk.term)) (eval C I (.sct (rnd j .scoins) p.pk.term)) = A.eval C I := by
    rw [← hA, Core.eval_mixKem, Core.eval_mixKem, Core.eval_mix, Core.eval_mix, hq.pk, hr.sid]; rfl
  unfold Server.rhr
  simp only [he, hse]
  rw [show ({ c.eval C I with sidr := r.sid } : Verif.Core).sidi = (c.eval C I).sidi from rfl, hA']
  unfold Server.storeBiscuit
  dsimp only
  have hb : C.xSeal ((afterIssue s now r).biscuitKeys.get (({ s with biscuitCtr := ConstantTime.increment s.biscuitCtr } : Server).activeBiscuitKey now r.bkey).1).value
      (biscuitNonce r.nonce (({ s with biscuitCtr := ConstantTime.increment s.biscuitCtr } : Server).activeBiscuitKey now r.bkey).1)
      (Verif.biscuitAd C q.version.hash s.spkm (A.eval C I).sidi (A.eval C I).sidr) (Biscuit.mk (Server.pidt C q) s.biscuitCtr (A.eval C I).ck).encode =
      eval C I (rhr b p ih c j k bit no).1.biscuitCt := by
    rw [hbit, hkey, hr.nonce, hno, ← eval_pid p hq, hq.hash, hs.pk, ← hA]
    dsimp only [rhr, eval]
    unfold biscuitAd Verif.biscuitAd
    simp only [eval, eval_dom, HashDomain.mix]
    rfl
  have hau : eval C I (rhr b p ih c j k bit no).1.auth = (((A.eval C I).mix C (eval C I (rhr b p ih c j k bit no).1.biscuitCt)).encryptAndMix C []).1 := by
    rw [← Core.eval_mix, show ([] : Bytes) = eval C I Core.empty from rfl, ← Core.eval_enc1, ← hA]; rfl
  change (Except.ok (n, RespHello.mk _ _ _ _ ((Verif.Core.mix C (A.eval C I) (C.xSeal ((afterIssue s now r).biscuitKeys.get (({ s with biscuitCtr := ConstantTime.increment s.biscuitCtr } : Server).activeBiscuitKey now r.bkey).1).value
      (biscuitNonce r.nonce (({ s with biscuitCtr := ConstantTime.increment s.biscuitCtr } : Server).activeBiscuitKey now r.bkey).1)
      (Verif.biscuitAd C q.version.hash s.spkm (A.eval C I).sidi (A.eval C I).sidr) (Biscuit.mk (Server.pidt C q) s.biscuitCtr (A.eval C I).ck).encode)).encryptAndMix C []).1
      (C.xSeal ((afterIssue s now r).biscuitKeys.get (({ s with biscuitCtr := ConstantTime.increment s.biscuitCtr } : Server).activeBiscuitKey now r.bkey).1).value
      (biscuitNonce r.nonce (({ s with biscuitCtr := ConstantTime.increment s.biscuitCtr } : Server).activeBiscuitKey now r.bkey).1)
      (Verif.biscuitAd C q.version.hash s.spkm (A.eval C I).sidi (A.eval C I).sidr) (Biscuit.mk (Server.pidt C q) s.biscuitCtr (A.eval C I).ck).encode)), afterIssue s now r) = _
  rw [hb, ← hau, hr.sid]
  rfl

/-- RespHello: what the symbolic initiator accepts, the server accepts, for the same handshake; it sends the same InitConf and has the same state. -/
theorem rhi_link (L : C.Lawful) (K : C.KemTotal) {s : Server} {a : Nat} (hs : IsServer C I s a) {p : PeerCfg} {i : Nat} {rh : RH} {c : Core} {ic : IC} {n : Nat} {hsk : IniHs}
    (hl : s.lookupHandshake (eval C I (rnd i .sid)) = some n) (hh : s.handshake n = some hsk) (hnx : hsk.next = .respHello) (hc : hsk.core = (initiation a p i).2.eval C I)
    (hk : C.eKeygen (eval C I (rnd i .kcoins)) = some (hsk.eski, hsk.epki)) (hr : rhi a p i rh = some (c, ic)) :
    s.rhiVerify C (rh.eval C I) = .ok (n, c.eval C I, ic.eval C I) := by
  unfold rhi at hr
  split at hr
  · cases hr
  · rename_i hsid
    simp only [ne_eq, Decidable.not_not] at hsid
    dsimp only at hr
    split at hr
    · cases hr
    · rename_i x c1 hd
      injection hr with hr
      injection hr with h1 h2
      subst h1 h2
      have hepk : eval C I (.epk (rnd i .kcoins)) = hsk.epki := by
        show ((C.eKeygen (eval C I (rnd i .kcoins))).map (·.2)).getD [] = _
        rw [hk]; rfl
      unfold Server.rhiVerify
      have e0 : (rh.eval C I).sidi = eval C I (rnd i .sid) := by rw [← hsid]; rfl
      have e1 : C.eDecaps hsk.eski (rh.eval C I).ecti = _ := eval_edec (I := I) (ct := rh.ecti) L K hk
      have e2 : C.sDecaps s.sskm (rh.eval C I).scti = _ := eval_sdec K hs rh.scti
      have d1 := Core.eval_dec (I := I) L hd
      rw [Core.eval_mix, Core.eval_mixKem, Core.eval_mixKem, Core.eval_mix, Core.eval_mix, hepk, ← hs.pk] at d1
      have hcc : ({ (initiation a p i).2 with sidr := rh.sidr } : Core).eval C I = { hsk.core with sidr := eval C I rh.sidr } := by rw [hc]; rfl
      rw [hcc] at d1
      rw [e0, hl]
      simp only [hh, hnx, ne_eq, not_true_eq_false, if_false, e1, e2]
      rw [show (rh.eval C I).auth = eval C I rh.auth from rfl, show (rh.eval C I).sidr = eval C I rh.sidr from rfl, show (rh.eval C I).biscuitCt = eval C I rh.biscuitCt from rfl,
        show (rh.eval C I).ecti = eval C I rh.ecti from rfl, show (rh.eval C I).scti = eval C I rh.scti from rfl, ← hsid, d1]
      dsimp only
      rw [← Core.eval_mix, ← Core.eval_mix, show ([] : Bytes) = eval C I Core.empty from rfl, ← Core.eval_enc1, ← Core.eval_enc2]
      rfl

/-- InitConf: what the symbolic responder accepts, the server accepts, with the same peer and the same state, if the biscuit number is larger than the last one used and the values in the
biscuit have the right lengths. -/
theorem icr_link (L : C.Lawful) {s : Server} {b : Nat} (hs : IsServer C I s b) {q : Peer} {p : PeerCfg} (hq : IsPeer C I q p) {n : Nat}
    (hf : s.findPeer (Server.pidt C q) = some n) (hn : s.peers[n]? = some q) {h : HashChoice} {k : Nat} {ic : IC} {c : Core} {x : Term} {bit : Bool} {no : Bytes} {ck ad : Term}
    (hb : ic.biscuitCt = .xaead (.name (.bkey b k)) (.bnonce x bit) ad (.bis p.pid (.const no) ck)) (hkey : (s.biscuitKeys.get bit).value = I.val (.bkey b k))
    (hx : (eval C I x).length = 24) (hck : (eval C I ck).length = 32) (hnl : no.length = 12) {o : Int32} (hcmp : ConstantTime.compare no q.biscuitUsed = some o) (ho : o > 0)
    (hr : icr b p h k ic = some c) :
    s.icrVerify C (ic.eval C I) h = .ok (n, no, c.eval C I) := by
  unfold icr at hr
  split at hr
  · cases hr
  · rename_i c1 hl
    dsimp only at hr
    split at hr
    · cases hr
    · rename_i y c2 hd
      injection hr with hr
      subst hr
      unfold loadBiscuit at hl
      rw [hb] at hl
      dsimp only at hl
      split at hl
      · rename_i hk
        obtain ⟨-, rfl, -⟩ := hk
        injection hl with hl
        have hload : s.loadBiscuit C (ic.eval C I).biscuitCt (ic.eval C I).sidi (ic.eval C I).sidr h = .ok (n, no, c1.eval C I) := by
          have hbe : (ic.eval C I).biscuitCt = C.xSeal (I.val (.bkey b k)) (biscuitNonce (eval C I x) bit) (Verif.biscuitAd C h s.spkm (eval C I ic.sidi) (eval C I ic.sidr))
              (Biscuit.mk (Server.pidt C q) no (eval C I ck)).encode := by
            show eval C I ic.biscuitCt = _
            rw [hb, ← eval_pid p hq, hs.pk]
            dsimp only [eval]
            unfold biscuitAd Verif.biscuitAd
            simp only [eval, eval_dom, HashDomain.mix]
          have hbit : biscuitKeyBit (ic.eval C I).biscuitCt = bit := by
            rw [hbe]; exact biscuitKeyBit_nonce _ _ hx bit
          have hop := Crypto.xOpen_xSeal L (I.val (.bkey b k)) (biscuitNonce (eval C I x) bit) (Verif.biscuitAd C h s.spkm (eval C I ic.sidi) (eval C I ic.sidr))
            (Biscuit.mk (Server.pidt C q) no (eval C I ck)).encode (by rw [biscuitNonce_length]; exact hx)
          have hwf : Biscuit.WF ⟨Server.pidt C q, no, eval C I ck⟩ := ⟨pidt_len L _, hnl, hck⟩
          unfold Server.loadBiscuit
          dsimp only
          rw [hbit, hkey, show (ic.eval C I).sidi = eval C I ic.sidi from rfl, show (ic.eval C I).sidr = eval C I ic.sidr from rfl]
          rw [← hbe] at hop
          rw [hop]
          dsimp only
          rw [Biscuit.decode_encode hwf]
          dsimp only
          rw [hf]
          dsimp only
          rw [hn]
          dsimp only
          rw [← hl, Core.eval_mix, ← hb, hq.hash]
          rfl
        unfold Server.icrVerify
        rw [hload]
        dsimp only
        have d1 := Core.eval_dec (I := I) L hd
        rw [Core.eval_mix, Core.eval_mix, Core.eval_enc2] at d1
        rw [show (ic.eval C I).sidi = eval C I ic.sidi from rfl, show (ic.eval C I).sidr = eval C I ic.sidr from rfl, show (ic.eval C I).auth = eval C I ic.auth from rfl,
          show ([] : Bytes) = eval C I Core.empty from rfl, d1]
        dsimp only
        rw [hn]
        dsimp only
        rw [hcmp]
        dsimp only
        rw [if_pos ho]
      · cases hl

/-- The acknowledgement of a new session. -/
theorem ack_link {q : Peer} {p : PeerCfg} (hq : IsPeer C I q p) (c : Core) (now : Time) :
    Server.ackOf C ((c.eval C I).enterLive C now .responder q.version.hash) = (ackOf c p).eval C I := by
  rw [hq.hash]
  unfold Server.ackOf ackOf ED.eval tkr
  simp only [eval, eval_dom, Verif.Core.enterLive, HashDomain.mix, Core.nonce0, Core.empty]
  rfl

/-- The output key of a session. -/
theorem osk_link {s : Server} {n : Nat} {q : Peer} {p : PeerCfg} (hq : IsPeer C I q p) (hn : s.peers[n]? = some q) {ses : Session} (hses : q.session = some ses) {c : Core} {role : Role} {now : Time}
    (he : ses = (c.eval C I).enterLive C now role q.version.hash) : s.osk C n = .ok (eval C I (osk c p)) := by
  unfold Server.osk
  rw [hn]
  dsimp only
  unfold Server.oskWith
  rw [hn]
  dsimp only
  rw [hses]
  dsimp only
  rw [he, hq.osk, hq.hash]
  unfold osk
  simp only [eval, eval_sep, HashDomain.mix]
  cases role <;> rfl

end

/-! ### An interpretation -/

namespace Ex

/-- an interpretation with the primitives of `Toy`: public and secret keys are the same bytes -/
def toy : Interp where
  val n := match n with
    | .ssk a => [UInt8.ofNat a, 1]
    | .psk n => List.replicate 32 (UInt8.ofNat n)
    | .bkey b k => List.replicate 31 (UInt8.ofNat b) ++ [UInt8.ofNat k]
    | .rnd i .sid => [UInt8.ofNat i, 2, 3, 4]
    | .rnd i .nonce => List.replicate 24 (UInt8.ofNat i)
    | .rnd i _ => [UInt8.ofNat i]
    | .adv n => [UInt8.ofNat n, 7]
  pkOf := id

/-- For every server with such a key pair the hypotheses of the links hold. -/
example (s : Server) (a : Nat) (h1 : s.sskm = toy.val (.ssk a)) (h2 : s.spkm = toy.val (.ssk a)) : IsServer Toy.crypto toy s a :=
  ⟨h1, h2, by rw [h1, h2]; exact Toy.staticPair _⟩

example : IsRnd toy { sid := [5, 2, 3, 4], kcoins := [5], ecoins := [5], scoins := [5], nonce := List.replicate 24 5, bkey := [], csecret := [], cookie := [], pad := [], jit := 0 } 5 := ⟨rfl, rfl, rfl, rfl, rfl⟩

end Ex
end Verif.Sym
