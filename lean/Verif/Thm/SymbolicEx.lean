import Verif.Thm.SymbolicAuth
/-
The symbolic model has the runs it should have: honest servers complete handshakes, and the conditions under which the attacker knows a key
cannot be weakened.
-/
namespace Verif.Sym
open Term

theorem Core.dec_enc (c : Core) (pt : Term) : c.decryptAndMix (c.encryptAndMix pt).1 = some (pt, (c.encryptAndMix pt).2) := by
  simp [Core.encryptAndMix, Core.decryptAndMix]

theorem sdec_sct (r sk : Term) : sdec sk (.sct r (.spk sk)) = .sss r (.spk sk) := by simp [sdec]

theorem edec_ect (r r' : Term) : edec r (.ect r' (.epk r)) = .ess r' (.epk r) := by simp [edec]

/-- Two peer entries that fit: each is the other's key, with the same pre-shared key and hash. -/
structure Fits (a : Nat) (p : PeerCfg) (b : Nat) (p' : PeerCfg) : Prop where
  there : p.pk = .server b
  back : p'.pk = .server a
  psk : p'.psk = p.psk
  hash : p'.h = p.h

theorem honest_ihr {a : Nat} {p : PeerCfg} {b : Nat} {p' : PeerCfg} (hf : Fits a p b p') (i : Nat) :
    ihr b p' p'.h (initiation a p i).1 = some (initiation a p i).2 := by
  obtain ⟨h1, h2, h3, h4⟩ := hf
  unfold ihr
  have e1 : sdec (.name (.ssk b)) (initiation a p i).1.sctr = .sss (rnd i .scoins) p.pk.term := by
    show sdec _ (.sct _ p.pk.term) = _
    rw [h1]; exact sdec_sct _ _
  rw [e1, h4]
  have ep : own b = p.pk.term := by rw [h1]; rfl
  rw [ep]
  dsimp only [initiation]
  have e2 := Core.dec_enc
  rw [show Core.decryptAndMix _ _ = _ from Core.dec_enc _ _]
  dsimp only
  have epid : p'.pid = .hash p.h (dom p.h .peerid) (own a) := by
    unfold PeerCfg.pid; rw [h4, h2]; rfl
  rw [if_pos epid.symm, h3, show p'.pk.term = own a by rw [h2]; rfl, Core.dec_enc]

theorem honest_rhi {a : Nat} {p : PeerCfg} {b : Nat} {p' : PeerCfg} (hf : Fits a p b p') (i j k : Nat) (bit : Bool) (no : Bytes) :
    ∃ c ic, rhi a p i (rhr b p' (initiation a p i).1 (initiation a p i).2 j k bit no).1 = some (c, ic) ∧
      icr b p' p'.h k ic = some c := by
  obtain ⟨h1, h2, h3, h4⟩ := hf
  generalize hm : (rhr b p' (initiation a p i).1 (initiation a p i).2 j k bit no).1 = m
  have s1 : m.sidi = rnd i .sid := by subst hm; rfl
  have s2 : m.sidr = rnd j .sid := by subst hm; rfl
  have e1 : edec (rnd i .kcoins) m.ecti = .ess (rnd j .ecoins) (.epk (rnd i .kcoins)) := by
    subst hm; exact edec_ect _ _
  have e2 : sdec (.name (.ssk a)) m.scti = .sss (rnd j .scoins) (own a) := by
    subst hm
    show sdec _ (.sct _ p'.pk.term) = _
    rw [h2]; exact sdec_sct _ _
  -- the state after the biscuit was made
  generalize hc : ((({ (initiation a p i).2 with sidr := rnd j .sid }.mix (rnd j .sid)).mix (rnd i .sid)).mixKem (.epk (rnd i .kcoins)) (.ess (rnd j .ecoins) (.epk (rnd i .kcoins))) m.ecti).mixKem
    (own a) (.sss (rnd j .scoins) (own a)) m.scti = c0
  have c1 : c0.sidi = rnd i .sid := by subst hc; rfl
  have c2 : c0.sidr = rnd j .sid := by subst hc; rfl
  have c3 : c0.hc = p.h := by subst hc; rfl
  have hb : m.biscuitCt = .xaead (.name (.bkey b k)) (.bnonce (rnd j .nonce) bit) (biscuitAd p'.h (own b) (rnd i .sid) (rnd j .sid)) (.bis p'.pid (.const no) c0.ck) := by
    subst hc; subst hm
    dsimp only [rhr]
    rw [show p'.pk.term = own a by rw [h2]; rfl]
    rfl
  have ha : m.auth = ((c0.mix m.biscuitCt).encryptAndMix Core.empty).1 := by
    subst hc; subst hm
    dsimp only [rhr]
    rw [show p'.pk.term = own a by rw [h2]; rfl]
    rfl
  have hr : rhi a p i m = some ((((((c0.mix m.biscuitCt).encryptAndMix Core.empty).2.mix (rnd i .sid)).mix (rnd j .sid)).encryptAndMix Core.empty).2,
      ⟨rnd i .sid, rnd j .sid, m.biscuitCt, (((((c0.mix m.biscuitCt).encryptAndMix Core.empty).2.mix (rnd i .sid)).mix (rnd j .sid)).encryptAndMix Core.empty).1⟩) := by
    unfold rhi
    rw [if_neg (by rw [s1]; simp)]
    dsimp only
    rw [e1, e2, s1, s2, hc, ha, Core.dec_enc]
  refine ⟨_, _, hr, ?_⟩
  unfold icr
  have hl : loadBiscuit b p' p'.h k m.biscuitCt (rnd i .sid) (rnd j .sid) = some (c0.mix m.biscuitCt) := by
    rw [hb]
    dsimp only [loadBiscuit]
    rw [if_pos ⟨rfl, rfl, rfl⟩, h4, ← c3, ← c1, ← c2]
  dsimp only
  rw [hl]
  dsimp only
  rw [Core.dec_enc]

theorem Knows.cons {tr : Run} {t : Term} (e : Ev) (h : Knows tr t) : Knows (e :: tr) t := by
  induction h with
  | sent h => exact .sent (List.mem_append_right _ h)
  | const b => exact .const b
  | adv n => exact .adv n
  | serverKey a => exact .serverKey a
  | corrupt h => exact .corrupt (.tail _ h)
  | reveal h => exact .reveal (.tail _ h)
  | spk _ ih => exact .spk ih
  | epk _ ih => exact .epk ih
  | hash h _ _ i1 i2 => exact .hash h i1 i2
  | aead _ _ _ _ i1 i2 i3 i4 => exact .aead i1 i2 i3 i4
  | open_ _ _ i1 i2 => exact .open_ i1 i2
  | xaead _ _ _ _ i1 i2 i3 i4 => exact .xaead i1 i2 i3 i4
  | xopen _ _ i1 i2 => exact .xopen i1 i2
  | xnonce _ i1 => exact .xnonce i1
  | bnonce bit _ i1 => exact .bnonce bit i1
  | unbnonce _ i1 => exact .unbnonce i1
  | sct _ _ i1 i2 => exact .sct i1 i2
  | sss _ _ i1 i2 => exact .sss i1 i2
  | sdec _ _ i1 i2 => exact .sdec i1 i2
  | ect _ _ i1 i2 => exact .ect i1 i2
  | ess _ _ i1 i2 => exact .ess i1 i2
  | edec _ _ i1 i2 => exact .edec i1 i2
  | bis _ _ _ i1 i2 i3 => exact .bis i1 i2 i3
  | bisPid _ i1 => exact .bisPid i1
  | bisNo _ i1 => exact .bisNo i1
  | bisCk _ i1 => exact .bisCk i1

theorem Knows.append {tr : Run} {t : Term} (new : Run) (h : Knows tr t) : Knows (new ++ tr) t := by
  induction new with
  | nil => exact h
  | cons e new ih => exact ih.cons e

theorem knows_new {tr : Run} {e : Ev} {t : Term} (h : t ∈ sentBy tr.length e) : Knows (e :: tr) t := .sent (List.mem_append_left _ h)

/-- After any run, two servers that have fitting entries for each other can complete a handshake: the initiator starts it, the responder
answers, the initiator confirms, the responder acknowledges. Both have the same session state; with the same domain separator they have the same output key. -/
theorem honest_exchange (N : Net) (tr : Run) (hv : Valid N tr) (a : Nat) (p : PeerCfg) (b : Nat) (p' : PeerCfg) (ha : N.cfg a p) (hb : N.cfg b p') (hf : Fits a p b p')
    (k : Nat) (bit : Bool) (no : Bytes) :
    ∃ c ic, let i := tr.length
      let m := (rhr b p' (initiation a p i).1 (initiation a p i).2 (i + 1) k bit no).1
      Valid N (.iconf (i + 2) a p i m c ic (ackOf c p') :: .rdone b p' p'.h k ic c :: .idone a p i m c ic ::
        .resp b p' (initiation a p i).1 (initiation a p i).2 k bit no :: .init a p :: tr) ∧
      (p'.osk = p.osk → osk c p' = osk c p) := by
  obtain ⟨c, ic, h1, h2⟩ := honest_rhi hf tr.length (tr.length + 1) k bit no
  refine ⟨c, ic, ?_, ?_⟩
  · have v1 := Valid.init a p hv ha
    have v2 := Valid.resp b p' _ _ k bit no v1 hb (fun t ht => knows_new (tr := tr) (e := .init a p) ht) (honest_ihr hf tr.length)
    have v3 := Valid.idone a p tr.length _ c ic v2 (at?_cons _ (at?_head _ _)) (fun t ht => knows_new (e := .resp b p' (initiation a p tr.length).1 (initiation a p tr.length).2 k bit no) ht) h1
    have v4 := Valid.rdone b p' p'.h k ic c v3 hb (fun t ht => knows_new (e := .idone a p tr.length _ c ic) ht) h2
    have hed : tkr c p' = tkr c p := by unfold tkr; rw [hf.hash]
    refine Valid.iconf (tr.length + 2) a p tr.length _ c ic _ v4 (at?_cons _ (at?_head _ _)) (fun t ht => knows_new (e := .rdone b p' p'.h k ic c) ht) ⟨Core.nonce0, Core.empty, ?_⟩
    rw [← hed]; rfl
  · intro h
    unfold osk
    rw [hf.hash, h]

/-! ### The conditions for secrecy are exact -/

theorem Knows.mixMany {tr : Run} (h : HashChoice) (ls : List Bytes) {k : Term} (hk : Knows tr k) : Knows tr (mixMany h k (ls.map .const)) := by
  induction ls generalizing k with
  | nil => exact hk
  | cons x ls ih => exact ih (k := .hash h k (.const x)) (.hash h hk (.const x))

theorem knows_dom (tr : Run) (h : HashChoice) (u : HashDomain.Purpose) : Knows tr (dom h u) := Knows.mixMany h _ (.hash h (.const _) (.const _))

theorem knows_sep (tr : Run) (h : HashChoice) (d : OskDomain) : Knows tr (sep h d) := by
  cases d with
  | wireguardPsk => exact knows_dom tr h _
  | custom ns ls => exact Knows.mixMany h _ (.hash h (knows_dom tr h _) (.const _))

theorem knows_chain {tr : Run} {h : HashChoice} {pk : Term} {l l' : List Term} (hl : Knows tr (chain h pk l)) (h' : ∀ x ∈ l', Knows tr x) : Knows tr (chain h pk (l' ++ l)) := by
  induction l' with
  | nil => exact hl
  | cons x l' ih =>
    exact .hash h (.hash h (ih (fun y hy => h' y (.tail _ hy))) (knows_dom tr h .mix)) (h' x (.head _))

theorem knows_chain0 {tr : Run} {h : HashChoice} {pk : Term} {l : List Term} (hpk : Knows tr pk) (hl : ∀ x ∈ l, Knows tr x) : Knows tr (chain h pk l) := by
  have := knows_chain (l := []) (l' := l) (h := h) (pk := pk) (tr := tr) (.hash h (knows_dom tr h .ckinit) hpk) hl
  rwa [List.append_nil] at this

theorem knows_at {tr : Run} {i : Nat} {e : Ev} (h : at? tr i = some e) {t : Term} (ht : t ∈ sentBy i e) : Knows tr t := by
  obtain ⟨new, old, rfl, rfl⟩ := at?_split h
  exact (knows_new ht).append new

theorem knows_pk (tr : Run) (pk : Pk) : Knows tr pk.term := by
  cases pk with
  | server b => exact .serverKey b
  | adv n => exact .spk (.adv n)
  | raw b => exact .const b

theorem knows_psk {tr : Run} {x : Psk} (h : PskOpen tr x) : Knows tr x.term := by
  cases x with
  | secret n => exact .corrupt h
  | raw b => exact .const b

theorem knows_sss {tr : Run} {i b : Nat} (h : KeyOpen tr i (.server b)) (hc : Knows tr (.sct (rnd i .scoins) (own b))) : Knows tr (.sss (rnd i .scoins) (own b)) := by
  rcases h with h | h
  · have := Knows.sdec (Knows.corrupt h) hc
    rwa [show own b = .spk (.name (.ssk b)) from rfl, sdec_sct] at this
  · exact .sss (.corrupt h) (.serverKey b)

theorem matched_l17 {N : Net} {tr : Run} {a : Nat} {p : PeerCfg} {i b : Nat} {p' : PeerCfg} {j k : Nat} {m : RH} (hA : Answered N tr a p i b p' j k m) (x y : Term) :
    (tI a p i m x).l17 = (tR b p' (initiation a p i).1 j m y).l17 := by
  obtain ⟨c, bit, no, -, rfl⟩ := hA.event
  have e1 : edec (rnd i .kcoins) (rhr b p' (initiation a p i).1 c j k bit no).1.ecti = .ess (rnd j .ecoins) (initiation a p i).1.epki := edec_ect _ _
  have e2 : sdec (.name (.ssk a)) (rhr b p' (initiation a p i).1 c j k bit no).1.scti = .sss (rnd j .scoins) p'.pk.term := by
    show sdec _ (.sct _ p'.pk.term) = _
    rw [hA.back]; exact sdec_sct _ _
  have e3 : sdec (.name (.ssk b)) (initiation a p i).1.sctr = .sss (rnd i .scoins) p.pk.term := by
    show sdec _ (.sct _ p.pk.term) = _
    rw [hA.there]; exact sdec_sct _ _
  have e4 : own a = p'.pk.term := by rw [hA.back]; rfl
  have e5 : own b = p.pk.term := by rw [hA.there]; rfl
  simp only [tI, tR, T.l17, T.l9, T.l8, T.l5, e1, e2, e3, hA.psk, e4, e5]
  rfl

/-- **C93**, exact form. For a session of an initiator whose answer is the one the responder sent: the attacker knows its output key *if and only if* the
biscuit key that the responder used is corrupted, or this output key was given away, or none of the pre-shared key, the two static keys and the ephemeral key protects it.
This holds for each key that can be exported from the session (`q`: the peer entry, or any other domain separator). -/
theorem initiator_key_known_iff (N : Net) (tr : Run) (hv : Valid N tr) (a : Nat) (p : PeerCfg) (i : Nat) (m : RH) (c : Core) (ic : IC) (hd : .idone a p i m c ic ∈ tr)
    (b : Nat) (p' : PeerCfg) (j k : Nat) (hA : Answered N tr a p i b p' j k m) (q : PeerCfg) :
    Knows tr (osk c q) ↔ Corrupt tr (.bkey b k) ∨ Revealed tr (osk c q) ∨ AllOpen tr a p i b j := by
  obtain ⟨d, hd⟩ := mem_at? hd
  obtain ⟨new, old, e1, -, hv1⟩ := hv.at hd
  cases hv1 with
  | idone _ _ _ _ _ _ hv0 hi hk hr =>
  obtain ⟨f1, -, -, -, -, -, f2⟩ := rhi_facts hr
  have hat : at? tr i = some (.init a p) := by rw [e1]; exact at?_append _ (at?_cons _ hi)
  have hl := matched_l17 hA ic.auth Core.empty
  have hown : own b = p.pk.term := by rw [hA.there]; rfl
  have e : c.ck = chain p'.h (own b) ([(tI a p i m ic.auth).auth3, (tI a p i m ic.auth).sidr, (tI a p i m ic.auth).sidi, (tI a p i m ic.auth).auth2, (tI a p i m ic.auth).biscuit] ++
      (tR b p' (initiation a p i).1 j m Core.empty).l17) := by
    rw [← hl, f2, hA.hash, hown]; rfl
  constructor
  · intro hkn
    rcases osk_pub hv (knows_pub hv hkn) with h | h
    · exact .inr (.inl h)
    · rw [e] at h
      rcases matched_secret hv hA h with h | h
      · exact .inl h
      · exact .inr (.inr h)
  · have hfin : Knows tr (chain p'.h (own b) (tR b p' (initiation a p i).1 j m Core.empty).l17) → Knows tr (osk c q) := by
      intro h
      refine .hash _ ?_ (knows_sep tr _ _)
      rw [e]
      obtain ⟨c', bit, no, hj, hm⟩ := hA.event
      have hic : ∀ t ∈ ic.terms, Knows tr t := fun t ht => knows_at hd ht
      have hmt : ∀ t ∈ m.terms, Knows tr t := fun t ht => knows_at hj (by rw [hm] at ht; exact ht)
      refine knows_chain h ?_
      intro x hx
      simp only [List.mem_cons, List.not_mem_nil, or_false] at hx
      rcases hx with rfl | rfl | rfl | rfl | rfl
      · exact hic _ (by simp [tI, IC.terms])
      · exact hmt _ (by simp [tI, RH.terms])
      · exact knows_at hat (by simp [tI, sentBy, IH.terms, initiation])
      · exact hmt _ (by simp [tI, RH.terms])
      · exact hmt _ (by simp [tI, RH.terms])
    rintro (h | ⟨c', q', h1, h2⟩ | ⟨h1, h2, h3, h4⟩)
    · obtain ⟨c', bit, no, hj, hm⟩ := hA.event
      obtain ⟨new2, old2, e2, -, hv2⟩ := hv.at hj
      cases hv2 with
      | resp _ _ _ _ _ _ _ _ _ _ hr2 =>
      obtain ⟨g1, -, g3⟩ := rhr_facts hr2 j k bit no Core.empty
      apply hfin
      rw [hm, ← g1]
      have hb : Knows tr (rhr b p' (initiation a p i).1 c' j k bit no).1.biscuitCt := knows_at hj (by simp [sentBy, RH.terms])
      rw [g3] at hb
      exact .bisCk (.xopen hb (.corrupt h))
    · rw [h2]; exact .reveal h1
    · apply hfin
      obtain ⟨c', bit, no, hj, hm⟩ := hA.event
      have hmt : ∀ t ∈ m.terms, Knows tr t := fun t ht => knows_at hj (by rw [hm] at ht; exact ht)
      have hit : ∀ t ∈ (initiation a p i).1.terms, Knows tr t := fun t ht => knows_at hat ht
      have k1 : Knows tr (.sct (rnd j .scoins) (own a)) := by
        have := hmt m.scti (by simp [RH.terms])
        rw [hm] at this
        rw [show own a = p'.pk.term by rw [hA.back]; rfl]
        exact this
      have k2 : Knows tr (.sct (rnd i .scoins) (own b)) := by
        rw [hown]
        exact hit (.sct (rnd i .scoins) p.pk.term) (by simp [IH.terms, initiation])
      have k3 : Knows tr (.ect (rnd j .ecoins) (.epk (rnd i .kcoins))) := by
        have := hmt m.ecti (by simp [RH.terms])
        rw [hm] at this
        exact this
      have k4 : Knows tr (.ess (rnd j .ecoins) (.epk (rnd i .kcoins))) := by
        rcases h4 with h4 | h4
        · have := Knows.edec (.corrupt h4) k3
          rwa [edec_ect] at this
        · exact .ess (.corrupt h4) (hit (.epk (rnd i .kcoins)) (by simp [IH.terms, initiation]))
      have k5 := knows_sss h2 k2
      have k6 := knows_sss h3 k1
      have k7 := knows_psk h1
      refine knows_chain0 (.serverKey b) ?_
      intro x hx
      rw [← hl] at hx
      simp only [tI, T.l17, T.l9, T.l8, T.l5, List.mem_cons, List.not_mem_nil, or_false] at hx
      have q1 : edec (rnd i .kcoins) m.ecti = .ess (rnd j .ecoins) (.epk (rnd i .kcoins)) := by rw [hm]; exact edec_ect _ _
      have q2 : sdec (.name (.ssk a)) m.scti = .sss (rnd j .scoins) (own a) := by
        rw [hm]; show sdec _ (.sct _ p'.pk.term) = _
        rw [hA.back]; exact sdec_sct _ _
      rw [q1, q2, ← hown] at hx
      rcases hx with rfl | rfl | rfl | rfl | rfl | rfl | rfl | rfl | rfl | rfl | rfl | rfl | rfl | rfl | rfl | rfl | rfl
      · exact hmt _ (by simp [RH.terms])
      · exact k6
      · exact .serverKey a
      · exact hmt _ (by simp [RH.terms])
      · exact k4
      · exact hit _ (by simp [IH.terms, initiation])
      · exact hit _ (by simp [IH.terms, initiation])
      · exact hmt _ (by simp [RH.terms])
      · exact hit _ (by simp [IH.terms])
      · exact k7
      · exact .serverKey a
      · exact hit _ (by simp [IH.terms])
      · exact k2
      · exact k5
      · exact .serverKey b
      · exact hit _ (by simp [IH.terms, initiation])
      · exact hit _ (by simp [IH.terms, initiation])

/-! ### A network of two servers -/

namespace Ex

/-- server 0's entry for server 1 and the reverse -/
def pB : PeerCfg := ⟨.server 1, .secret 0, .blake, .wireguardPsk⟩
def pA : PeerCfg := ⟨.server 0, .secret 0, .blake, .wireguardPsk⟩

/-- an entry of server 0 for a peer of the attacker -/
def pE : PeerCfg := ⟨.adv 0, .raw (List.replicate 32 0), .shake, .wireguardPsk⟩

def net : Net where
  cfg a p := (a = 0 ∧ (p = pB ∨ p = pE)) ∨ (a = 1 ∧ p = pA)
  uniq b p q h1 h2 h := by
    rcases h1 with ⟨rfl, rfl | rfl⟩ | ⟨rfl, rfl⟩ <;> rcases h2 with ⟨h2, rfl | rfl⟩ | ⟨h2, rfl⟩ <;> first | rfl | (exact absurd h2 (by decide)) | skip
    · injection h with _ _ h; injection h with h; injection h with h; cases h
    · injection h with _ _ h; injection h with h; injection h with h; cases h

/-- the answer of server 1 -/
def msg : RH := (rhr 1 pA (initiation 0 pB 0).1 (initiation 0 pB 0).2 1 0 false []).1

theorem fits : Fits 0 pB 1 pA := ⟨rfl, rfl, rfl, rfl⟩

/-- A completed handshake between server 0 and server 1, after which the attacker gets every long-term secret of both. -/
theorem run : ∃ c ic, Valid net (.corrupt (.ssk 0) :: .corrupt (.ssk 1) :: .corrupt (.psk 0) :: .iconf 2 0 pB 0 msg c ic (ackOf c pA) :: .rdone 1 pA .blake 0 ic c :: .idone 0 pB 0 msg c ic ::
      .resp 1 pA (initiation 0 pB 0).1 (initiation 0 pB 0).2 0 false [] :: .init 0 pB :: []) := by
  obtain ⟨c, ic, h, -⟩ := honest_exchange net [] .nil 0 pB 1 pA (.inl ⟨rfl, .inl rfl⟩) (.inr ⟨rfl, rfl⟩) fits 0 false []
  exact ⟨c, ic, .corrupt _ (.corrupt _ (.corrupt _ h))⟩

/-- The hypotheses of the theorems hold in it, and the attacker does not know the output key (forward secrecy). -/
example : ∃ tr c p, Valid net tr ∧ Done tr c p ∧ Corrupt tr (.ssk 0) ∧ Corrupt tr (.ssk 1) ∧ Corrupt tr (.psk 0) ∧ ¬ Knows tr (osk c p) := by
  obtain ⟨c, ic, h⟩ := run
  refine ⟨_, c, pB, h, .inl ⟨0, 0, msg, ic, by simp⟩, by simp [Corrupt], by simp [Corrupt], by simp [Corrupt], ?_⟩
  intro hk
  rw [initiator_key_known_iff net _ h 0 pB 0 msg c ic (by simp) 1 pA 1 0 ⟨⟨(initiation 0 pB 0).2, false, [], rfl, rfl⟩, .inr ⟨rfl, rfl⟩, rfl, rfl, rfl, rfl⟩ pB] at hk
  rcases hk with hk | ⟨_, _, hk, _⟩ | ⟨_, _, _, hk | hk⟩
  · simp [Corrupt] at hk
  · simp at hk
  · simp [Corrupt] at hk
  · simp [Corrupt] at hk

/-- With the biscuit key of the responder he would know it, without any other secret. -/
example : ∃ tr c p, Valid net tr ∧ Done tr c p ∧ (∀ n, Corrupt tr n → n = .bkey 1 0) ∧ (∀ k, ¬ Revealed tr k) ∧ Knows tr (osk c p) := by
  obtain ⟨c, ic, h, -⟩ := honest_exchange net [] .nil 0 pB 1 pA (.inl ⟨rfl, .inl rfl⟩) (.inr ⟨rfl, rfl⟩) fits 0 false []
  have h : Valid net (.corrupt (.bkey 1 0) :: .iconf 2 0 pB 0 msg c ic (ackOf c pA) :: .rdone 1 pA .blake 0 ic c :: .idone 0 pB 0 msg c ic ::
      .resp 1 pA (initiation 0 pB 0).1 (initiation 0 pB 0).2 0 false [] :: .init 0 pB :: []) := Valid.corrupt (.bkey 1 0) h
  refine ⟨_, c, pB, h, .inl ⟨0, 0, msg, ic, by simp⟩, by simp [Corrupt], by simp [Revealed], ?_⟩
  rw [initiator_key_known_iff net _ h 0 pB 0 msg c ic (by simp) 1 pA 1 0 ⟨⟨(initiation 0 pB 0).2, false, [], rfl, rfl⟩, .inr ⟨rfl, rfl⟩, rfl, rfl, rfl, rfl⟩ pB]
  exact .inl (by simp [Corrupt])

end Ex

end Verif.Sym
