import Verif.Model.Symbolic
/-
Secrecy and authentication of the handshake against an attacker who controls the network (Model/Symbolic.lean).
-/
namespace Verif.Sym
open Term

/-! ### Specification -/

/-- the attacker was given the secret `n` -/
def Corrupt (tr : Run) (n : Name) : Prop := .corrupt n ∈ tr

/-- The pre-shared key gives no protection: it is no secret, or the attacker has it. -/
def PskOpen (tr : Run) : Psk → Prop
  | .secret n => Corrupt tr (.psk n)
  | .raw _ => True

/-- The encapsulation that event `i` made to the static key `pk` gives no protection: that is not the key of a server, or the attacker
has that server's secret key, or has the coins. -/
def KeyOpen (tr : Run) (i : Nat) : Pk → Prop
  | .server b => Corrupt tr (.ssk b) ∨ Corrupt tr (.rnd i .scoins)
  | _ => True

/-- the attacker was given the output key -/
def Revealed (tr : Run) (key : Term) : Prop := ∃ c p, .reveal c p ∈ tr ∧ key = osk c p

/-! ### Positions -/

theorem at?_lt {tr : Run} {i : Nat} {e : Ev} (h : at? tr i = some e) : i < tr.length := by
  induction tr with
  | nil => cases h
  | cons x tr ih =>
    unfold at? at h
    split at h
    · subst_vars; simp
    · have := ih h; simp; omega

theorem at?_cons {tr : Run} {i : Nat} {e : Ev} (x : Ev) (h : at? tr i = some e) : at? (x :: tr) i = some e := by
  have := at?_lt h
  unfold at?
  rw [if_neg (by omega), h]

theorem at?_append {tr : Run} {i : Nat} {e : Ev} (new : Run) (h : at? tr i = some e) : at? (new ++ tr) i = some e := by
  induction new with
  | nil => exact h
  | cons x l ih => exact at?_cons x ih

theorem at?_head (tr : Run) (e : Ev) : at? (e :: tr) tr.length = some e := by unfold at?; rw [if_pos rfl]

theorem at?_split {tr : Run} {i : Nat} {e : Ev} (h : at? tr i = some e) : ∃ new old, tr = new ++ e :: old ∧ old.length = i := by
  induction tr with
  | nil => cases h
  | cons x tr ih =>
    unfold at? at h
    split at h
    · injection h with h; subst h; subst_vars; exact ⟨[], tr, rfl, rfl⟩
    · obtain ⟨n, o, h1, h2⟩ := ih h; exact ⟨x :: n, o, by rw [h1]; rfl, h2⟩

theorem at?_mem {tr : Run} {i : Nat} {e : Ev} (h : at? tr i = some e) : e ∈ tr := by
  obtain ⟨n, o, rfl, -⟩ := at?_split h; simp

theorem mem_at? {tr : Run} {e : Ev} (h : e ∈ tr) : ∃ i, at? tr i = some e := by
  induction tr with
  | nil => cases h
  | cons x tr ih =>
    rcases List.mem_cons.mp h with rfl | h
    · exact ⟨_, at?_head tr _⟩
    · obtain ⟨i, hi⟩ := ih h; exact ⟨i, at?_cons x hi⟩

theorem Valid.tail {N : Net} {e : Ev} {tr : Run} (h : Valid N (e :: tr)) : Valid N tr := by cases h <;> assumption

theorem Valid.suffix {N : Net} {new tr : Run} (h : Valid N (new ++ tr)) : Valid N tr := by
  induction new with
  | nil => exact h
  | cons x l ih => exact ih h.tail

/-- the part of the run before an event, with the event -/
theorem Valid.at {N : Net} {tr : Run} (h : Valid N tr) {i : Nat} {e : Ev} (hi : at? tr i = some e) :
    ∃ new old, tr = new ++ e :: old ∧ old.length = i ∧ Valid N (e :: old) := by
  obtain ⟨n, o, rfl, h2⟩ := at?_split hi
  exact ⟨n, o, rfl, h2, h.suffix⟩

/-! ### What may be public -/

/-- values that are sent in the clear, or the attacker's -/
def Name.free : Name → Prop
  | .adv _ => True
  | .rnd _ .sid => True
  | .rnd _ .nonce => True
  | _ => False

/-- An upper bound of what the attacker can know, given the corrupted names, the ciphertexts made by servers, and the hashes that became
known. -/
def Pub (comp : Name → Prop) (iss given : Term → Prop) : Term → Prop
  | .const _ => True
  | .name n => comp n ∨ n.free
  | .spk _ => True
  | .epk _ => True
  | .hash h k d => (Pub comp iss given k ∧ Pub comp iss given d) ∨ given (.hash h k d)
  | .aead k n ad pt => (Pub comp iss given k ∧ Pub comp iss given n ∧ Pub comp iss given ad ∧ Pub comp iss given pt) ∨ iss (.aead k n ad pt)
  | .xaead k n ad pt => (Pub comp iss given k ∧ Pub comp iss given n ∧ Pub comp iss given ad ∧ Pub comp iss given pt) ∨ iss (.xaead k n ad pt)
  | .bnonce n _ => Pub comp iss given n
  | .sct _ _ => True
  | .sss r (.spk sk) => Pub comp iss given r ∨ Pub comp iss given sk
  | .sss _ _ => True
  | .srej sk _ => Pub comp iss given sk
  | .ect _ _ => True
  | .ess r (.epk r') => Pub comp iss given r ∨ Pub comp iss given r'
  | .ess _ _ => True
  | .erej r _ => Pub comp iss given r
  | .bis a b c => Pub comp iss given a ∧ Pub comp iss given b ∧ Pub comp iss given c

theorem Pub.mono {comp comp' : Name → Prop} {iss given iss' given' : Term → Prop} (h1 : ∀ n, comp n → comp' n) (h2 : ∀ t, iss t → iss' t) (h3 : ∀ t, given t → given' t)
    (t : Term) (h : Pub comp iss given t) : Pub comp' iss' given' t := by
  fun_induction Pub comp iss given t with
  | case1 => trivial
  | case2 n => exact h.imp (h1 n) id
  | case3 => trivial
  | case4 => trivial
  | case5 hc k d ih1 ih2 => exact h.imp (fun ⟨a, b⟩ => ⟨ih1 a, ih2 b⟩) (h3 _)
  | case6 k n ad pt i1 i2 i3 i4 => exact h.imp (fun ⟨a, b, c, d⟩ => ⟨i1 a, i2 b, i3 c, i4 d⟩) (h2 _)
  | case7 k n ad pt i1 i2 i3 i4 => exact h.imp (fun ⟨a, b, c, d⟩ => ⟨i1 a, i2 b, i3 c, i4 d⟩) (h2 _)
  | case8 n _ ih => exact ih h
  | case9 => trivial
  | case10 r sk i1 i2 => exact h.imp i1 i2
  | case11 r pk hne =>
    cases pk <;> first | trivial | exact absurd rfl (hne _)
  | case12 sk _ ih => exact ih h
  | case13 => trivial
  | case14 r sk i1 i2 => exact h.imp i1 i2
  | case15 r pk hne =>
    cases pk <;> first | trivial | exact absurd rfl (hne _)
  | case16 sk _ ih => exact ih h
  | case17 a b c i1 i2 i3 => exact ⟨i1 h.1, i2 h.2.1, i3 h.2.2⟩

/-- the ciphertexts that event number `i` makes -/
def issuedBy (i : Nat) : Ev → List Term
  | .init a p => [(initiation a p i).1.pidiCt, (initiation a p i).1.auth]
  | .resp b p ih c k bit no => [(rhr b p ih c i k bit no).1.auth, (rhr b p ih c i k bit no).1.biscuitCt]
  | .idone _ _ _ _ _ ic => [ic.auth]
  | .rdone _ p _ _ _ c => [(ackOf c p).auth]
  | _ => []

def Issued (tr : Run) (t : Term) : Prop := ∃ i e, at? tr i = some e ∧ t ∈ issuedBy i e

/-- chaining keys that were in biscuits under a key that the attacker has -/
def Leaked (tr : Run) (t : Term) : Prop :=
  ∃ i b p ih c k bit no, at? tr i = some (.resp b p ih c k bit no) ∧ Corrupt tr (.bkey b k) ∧ t = (rhr b p ih c i k bit no).2

/-- what may be public after a run -/
def P (tr : Run) : Term → Prop := Pub (Corrupt tr) (Issued tr) (fun t => Leaked tr t ∨ Revealed tr t)

theorem P.append {tr : Run} (new : Run) {t : Term} (h : P tr t) : P (new ++ tr) t := by
  refine Pub.mono ?_ ?_ ?_ t h
  · intro n hn; exact List.mem_append_right _ hn
  · rintro t ⟨i, e, h1, h2⟩; exact ⟨i, e, at?_append new h1, h2⟩
  · rintro t (⟨i, b, p, ih, c, k, bit, no, h1, h2, h3⟩ | ⟨c, p, h1, h2⟩)
    · exact .inl ⟨i, b, p, ih, c, k, bit, no, at?_append new h1, List.mem_append_right _ h2, h3⟩
    · exact .inr ⟨c, p, List.mem_append_right _ h1, h2⟩

theorem P.domain (tr : Run) (h : HashChoice) (l : List Bytes) (k : Term) (hk : P tr k) : P tr (mixMany h k (l.map .const)) := by
  induction l generalizing k with
  | nil => exact hk
  | cons x l ih => exact ih _ (.inl ⟨hk, trivial⟩)

theorem P.purpose (tr : Run) (h : HashChoice) (u : HashDomain.Purpose) : P tr (Sym.dom h u) := P.domain tr h _ _ (.inl ⟨trivial, trivial⟩)

theorem Pk.pub (tr : Run) (pk : Pk) : P tr pk.term := by cases pk <;> trivial

theorem PeerCfg.pub (tr : Run) (p : PeerCfg) : P tr p.pid := .inl ⟨P.purpose tr _ _, Pk.pub tr _⟩

/-! ### What servers accept -/

/-- chaining keys: the values mixed into them, newest first -/
def chain (h : HashChoice) (pk : Term) : List Term → Term
  | [] => .hash h (dom h .ckinit) pk
  | x :: l => .hash h (.hash h (chain h pk l) (dom h .mix)) x

/-- the key for an encryption with chaining key `ck` -/
def key (h : HashChoice) (ck : Term) : Term := .hash h ck (dom h .hsEnc)

/-- a handshake ciphertext -/
def box (h : HashChoice) (ck pt : Term) : Term := .aead (key h ck) Core.nonce0 Core.empty pt

/-- The values of a handshake. -/
structure T where
  spkr : Term
  sidi : Term
  epki : Term
  shk : Term
  sctr : Term
  pidiCt : Term
  spki : Term
  psk : Term
  auth1 : Term
  sidr : Term
  eshk : Term
  ecti : Term
  sshk : Term
  scti : Term
  biscuit : Term
  auth2 : Term
  auth3 : Term

namespace T
def l5 (t : T) : List Term := [t.sctr, t.shk, t.spkr, t.epki, t.sidi]
def l8 (t : T) : List Term := t.psk :: t.spki :: t.pidiCt :: t.l5
def l9 (t : T) : List Term := t.auth1 :: t.l8
def l17 (t : T) : List Term := t.scti :: t.sshk :: t.spki :: t.ecti :: t.eshk :: t.epki :: t.sidi :: t.sidr :: t.l9
def l18 (t : T) : List Term := t.biscuit :: t.l17
def l19 (t : T) : List Term := t.auth2 :: t.l18
def l21 (t : T) : List Term := t.sidr :: t.sidi :: t.l19
def l22 (t : T) : List Term := t.auth3 :: t.l21
end T

theorem dec_box {c : Core} {ct pt : Term} {c' : Core} (h : c.decryptAndMix ct = some (pt, c')) : ct = box c.hc c.ck pt ∧ c' = c.mix ct := by
  unfold Core.decryptAndMix at h
  split at h
  · split at h
    · rename_i hk
      obtain ⟨rfl, rfl, rfl⟩ := hk
      injection h with h; injection h with h1 h2; subst h1; exact ⟨rfl, h2.symm⟩
    · cases h
  · cases h

/-- the values of the handshake that server `a` starts in event `i`; the later ones come from the answer -/
def tI (a : Nat) (p : PeerCfg) (i : Nat) (rh : RH) (auth3 : Term) : T where
  spkr := p.pk.term
  sidi := rnd i .sid
  epki := .epk (rnd i .kcoins)
  shk := .sss (rnd i .scoins) p.pk.term
  sctr := .sct (rnd i .scoins) p.pk.term
  pidiCt := (initiation a p i).1.pidiCt
  spki := own a
  psk := p.psk.term
  auth1 := (initiation a p i).1.auth
  sidr := rh.sidr
  eshk := edec (rnd i .kcoins) rh.ecti
  ecti := rh.ecti
  sshk := sdec (.name (.ssk a)) rh.scti
  scti := rh.scti
  biscuit := rh.biscuitCt
  auth2 := rh.auth
  auth3 := auth3

/-- the values of the handshake that server `b` answers in event `j` -/
def tR (b : Nat) (p : PeerCfg) (ih : IH) (j : Nat) (m : RH) (auth3 : Term) : T where
  spkr := own b
  sidi := ih.sidi
  epki := ih.epki
  shk := sdec (.name (.ssk b)) ih.sctr
  sctr := ih.sctr
  pidiCt := ih.pidiCt
  spki := p.pk.term
  psk := p.psk.term
  auth1 := ih.auth
  sidr := rnd j .sid
  eshk := .ess (rnd j .ecoins) ih.epki
  ecti := .ect (rnd j .ecoins) ih.epki
  sshk := .sss (rnd j .scoins) p.pk.term
  scti := .sct (rnd j .scoins) p.pk.term
  biscuit := m.biscuitCt
  auth2 := m.auth
  auth3 := auth3

theorem initiation_facts (a : Nat) (p : PeerCfg) (i : Nat) (rh : RH) (x : Term) :
    (initiation a p i).1.pidiCt = box p.h (chain p.h p.pk.term (tI a p i rh x).l5) (.hash p.h (dom p.h .peerid) (own a)) ∧
    (initiation a p i).1.auth = box p.h (chain p.h p.pk.term (tI a p i rh x).l8) Core.empty ∧
    (initiation a p i).2.ck = chain p.h p.pk.term (tI a p i rh x).l9 := ⟨rfl, rfl, rfl⟩

theorem rhi_facts {a : Nat} {p : PeerCfg} {i : Nat} {rh : RH} {c : Core} {ic : IC} (h : rhi a p i rh = some (c, ic)) :
    rh.sidi = rnd i .sid ∧ (∃ pt, rh.auth = box p.h (chain p.h p.pk.term (tI a p i rh ic.auth).l18) pt) ∧
    ic.auth = box p.h (chain p.h p.pk.term (tI a p i rh ic.auth).l21) Core.empty ∧ ic.sidi = rnd i .sid ∧ ic.sidr = rh.sidr ∧ ic.biscuitCt = rh.biscuitCt ∧
    c = ⟨rnd i .sid, rh.sidr, chain p.h p.pk.term (tI a p i rh ic.auth).l22, p.h⟩ := by
  unfold rhi at h
  split at h
  · cases h
  · rename_i hs
    simp only [ne_eq, Decidable.not_not] at hs
    dsimp only at h
    split at h
    · cases h
    · rename_i pt c' hd
      obtain ⟨h1, h2⟩ := dec_box hd
      injection h with h; injection h with h3 h4
      subst h4 h3 h2
      dsimp only [Core.encryptAndMix]
      refine ⟨hs, ⟨pt, ?_⟩, ?_, hs, rfl, rfl, ?_⟩
      · rw [h1]; rw [hs]; rfl
      · rw [hs]; rfl
      · rw [hs]; rfl

theorem ihr_facts {b : Nat} {p : PeerCfg} {h : HashChoice} {ih : IH} {c : Core} (hr : ihr b p h ih = some c) (j : Nat) (m : RH) (x : Term) :
    ih.pidiCt = box h (chain h (own b) (tR b p ih j m x).l5) p.pid ∧ (∃ pt, ih.auth = box h (chain h (own b) (tR b p ih j m x).l8) pt) ∧
    c = ⟨ih.sidi, .const (List.replicate 4 0), chain h (own b) (tR b p ih j m x).l9, h⟩ := by
  unfold ihr at hr
  dsimp only at hr
  split at hr
  · cases hr
  · rename_i pid c' hd
    split at hr
    · rename_i hp
      split at hr
      · cases hr
      · rename_i pt c'' hd'
        obtain ⟨h1, h2⟩ := dec_box hd
        obtain ⟨h3, h4⟩ := dec_box hd'
        injection hr with hr
        subst hr h4 h2 hp
        exact ⟨h1, ⟨pt, h3⟩, rfl⟩
    · cases hr

theorem rhr_facts {b : Nat} {p : PeerCfg} {ih : IH} {c : Core} (hr : ihr b p p.h ih = some c) (j k : Nat) (bit : Bool) (no : Bytes) (x : Term) :
    (rhr b p ih c j k bit no).2 = chain p.h (own b) (tR b p ih j (rhr b p ih c j k bit no).1 x).l17 ∧
    (rhr b p ih c j k bit no).1.auth = box p.h (chain p.h (own b) (tR b p ih j (rhr b p ih c j k bit no).1 x).l18) Core.empty ∧
    (rhr b p ih c j k bit no).1.biscuitCt = .xaead (.name (.bkey b k)) (.bnonce (rnd j .nonce) bit) (biscuitAd p.h (own b) ih.sidi (rnd j .sid))
      (.bis p.pid (.const no) (rhr b p ih c j k bit no).2) := by
  obtain ⟨-, -, rfl⟩ := ihr_facts hr j ⟨x, x, x, x, x, x⟩ x
  exact ⟨rfl, rfl, rfl⟩

/-- what `icr` does after the biscuit with contents `ck` was opened -/
theorem icr_facts {b : Nat} {p : PeerCfg} {h : HashChoice} {k : Nat} {ic : IC} {c : Core} (hr : icr b p h k ic = some c) :
    ∃ n no ck pt, ic.biscuitCt = .xaead (.name (.bkey b k)) n (biscuitAd h (own b) ic.sidi ic.sidr) (.bis p.pid no ck) ∧
      (∀ (pk : Term) (t : T), ck = chain p.h pk t.l17 → t.sidi = ic.sidi → t.sidr = ic.sidr → t.biscuit = ic.biscuitCt → t.auth2 = box p.h (chain p.h pk t.l18) Core.empty →
        t.auth3 = ic.auth → ic.auth = box p.h (chain p.h pk t.l21) pt ∧ c = ⟨ic.sidi, ic.sidr, chain p.h pk t.l22, p.h⟩) := by
  unfold icr at hr
  split at hr
  · cases hr
  · rename_i c' hl
    unfold loadBiscuit at hl
    split at hl
    · rename_i key n ad pid no ck heq
      split at hl
      · rename_i hk
        obtain ⟨rfl, rfl, rfl⟩ := hk
        injection hl with hl
        subst hl
        dsimp only [Core.encryptAndMix] at hr
        split at hr
        · cases hr
        · rename_i pt c'' hd
          obtain ⟨h1, h2⟩ := dec_box hd
          injection hr with hr
          subst hr h2
          refine ⟨n, no, ck, pt, heq, ?_⟩
          intro pk t e1 e2 e3 e4 e5 e6
          subst e1
          have e5' : t.auth2 = box p.h (chain p.h pk (ic.biscuitCt :: t.l17)) Core.empty := by
            rw [e5, ← e4]; rfl
          have e7 : t.l21 = ic.sidr :: ic.sidi :: box p.h (chain p.h pk (ic.biscuitCt :: t.l17)) Core.empty :: ic.biscuitCt :: t.l17 := by
            rw [← e2, ← e3, ← e5', ← e4]; rfl
          have e8 : t.l22 = ic.auth :: t.l21 := by rw [← e6]; rfl
          rw [heq] at e7
          refine ⟨?_, ?_⟩
          · rw [e7]; exact h1
          · rw [e8, e7]; rfl
      · cases hl
    · cases hl

/-! ### What the attacker can know -/

theorem issued_aead {N : Net} {tr : Run} (hv : Valid N tr) {k n ad pt : Term} (h : Issued tr (.aead k n ad pt)) : P tr pt := by
  obtain ⟨i, e, h1, h2⟩ := h
  obtain ⟨new, old, rfl, -, hv'⟩ := hv.at h1
  cases e with
  | init a p =>
    simp only [issuedBy, List.mem_cons, List.not_mem_nil, or_false] at h2
    rcases h2 with h2 | h2
    · cases h2; exact .inl ⟨P.purpose _ _ _, trivial⟩
    · cases h2; trivial
  | resp b p ih c k bit no =>
    simp only [issuedBy, List.mem_cons, List.not_mem_nil, or_false] at h2
    rcases h2 with h2 | h2
    · cases h2; trivial
    · cases h2
  | idone a p i rh c ic =>
    simp only [issuedBy, List.mem_cons, List.not_mem_nil, or_false] at h2
    cases hv' with
    | idone _ _ _ _ _ _ _ _ _ hr =>
      rw [(rhi_facts hr).2.2.1] at h2
      cases h2; trivial
  | rdone b p h k ic c =>
    simp only [issuedBy, List.mem_cons, List.not_mem_nil, or_false] at h2
    cases h2; trivial
  | iconf => cases h2
  | corrupt => cases h2
  | reveal => cases h2

theorem issued_xaead {N : Net} {tr : Run} (hv : Valid N tr) {k n ad pt : Term} (h : Issued tr (.xaead k n ad pt)) :
    ∃ j b p ih c i bit no, at? tr j = some (.resp b p ih c i bit no) ∧ ihr b p p.h ih = some c ∧ N.cfg b p ∧ .xaead k n ad pt = (rhr b p ih c j i bit no).1.biscuitCt := by
  obtain ⟨i, e, h1, h2⟩ := h
  obtain ⟨new, old, rfl, -, hv'⟩ := hv.at h1
  cases e with
  | init a p =>
    simp only [issuedBy, List.mem_cons, List.not_mem_nil, or_false] at h2
    rcases h2 with h2 | h2 <;> cases h2
  | resp b p ih c k' bit no =>
    simp only [issuedBy, List.mem_cons, List.not_mem_nil, or_false] at h2
    rcases h2 with h2 | h2
    · cases h2
    · cases hv' with
      | resp _ _ _ _ _ _ _ _ hc _ hr => exact ⟨i, b, p, ih, c, k', bit, no, h1, hr, hc, h2⟩
  | idone a p i rh c ic =>
    simp only [issuedBy, List.mem_cons, List.not_mem_nil, or_false] at h2
    cases hv' with
    | idone _ _ _ _ _ _ _ _ _ hr =>
      rw [(rhi_facts hr).2.2.1] at h2
      cases h2
  | rdone b p h k ic c =>
    simp only [issuedBy, List.mem_cons, List.not_mem_nil, or_false] at h2
    cases h2
  | iconf => cases h2
  | corrupt => cases h2
  | reveal => cases h2

theorem knows_of_sent {N : Net} {tr : Run} (hv : Valid N tr) (hs : ∀ t ∈ sent tr, P tr t) {t : Term} (h : Knows tr t) : P tr t := by
  induction h with
  | sent h => exact hs _ h
  | const b => trivial
  | adv n => exact .inr trivial
  | serverKey a => trivial
  | corrupt h => exact .inl h
  | reveal h => exact .inr (.inr ⟨_, _, h, rfl⟩)
  | spk => trivial
  | epk => trivial
  | hash _ _ _ i1 i2 => exact .inl ⟨i1, i2⟩
  | aead _ _ _ _ i1 i2 i3 i4 => exact .inl ⟨i1, i2, i3, i4⟩
  | open_ _ _ i1 i2 =>
    rcases i1 with i1 | i1
    · exact i1.2.2.2
    · exact issued_aead hv i1
  | xaead _ _ _ _ i1 i2 i3 i4 => exact .inl ⟨i1, i2, i3, i4⟩
  | xopen _ _ i1 i2 =>
    rcases i1 with i1 | i1
    · exact i1.2.2.2
    · obtain ⟨j, b, p, ih, c, i, bit, no, h1, h2, -, h3⟩ := issued_xaead hv i1
      rw [(rhr_facts h2 j i bit no Core.empty).2.2] at h3
      injection h3 with e1 e2 e3 e4
      subst e1 e4
      refine ⟨PeerCfg.pub _ _, trivial, ?_⟩
      have hk : Corrupt tr (.bkey b i) := i2.resolve_right (fun h => h)
      exact .inr (.inl ⟨j, b, p, ih, c, i, bit, no, h1, hk, rfl⟩)
  | xnonce _ i1 =>
    rcases i1 with i1 | i1
    · exact i1.2.1
    · obtain ⟨j, b, p, ih, c, i, bit, no, h1, h2, -, h3⟩ := issued_xaead hv i1
      rw [(rhr_facts h2 j i bit no Core.empty).2.2] at h3
      injection h3 with e1 e2 e3 e4
      subst e2
      exact Or.inr trivial
  | bnonce _ _ i1 => exact i1
  | unbnonce _ i1 => exact i1
  | sct => trivial
  | @sss r pk _ _ i1 i2 => cases pk <;> first | trivial | exact .inl i1
  | sdec _ _ i1 i2 =>
    unfold sdec
    split
    · split
      · exact .inr i1
      · exact i1
    · exact i1
  | ect => trivial
  | @ess r pk _ _ i1 i2 => cases pk <;> first | trivial | exact .inl i1
  | edec _ _ i1 i2 =>
    unfold edec
    split
    · split
      · exact .inr i1
      · exact i1
    · exact i1
  | bis _ _ _ i1 i2 i3 => exact ⟨i1, i2, i3⟩
  | bisPid _ i => exact i.1
  | bisNo _ i => exact i.2.1
  | bisCk _ i => exact i.2.2

theorem sent_pub {N : Net} {tr : Run} (hv : Valid N tr) : ∀ t ∈ sent tr, P tr t := by
  induction hv with
  | nil => intro t h; cases h
  | init a p hv' hc ih =>
    rename_i tr
    intro t h
    rcases List.mem_append.mp h with h | h
    · simp only [sentBy, IH.terms, List.mem_cons, List.not_mem_nil, or_false] at h
      have hat := at?_head tr (.init a p)
      rcases h with rfl | rfl | rfl | rfl | rfl
      · exact .inr trivial
      · trivial
      · trivial
      · exact .inr ⟨_, _, hat, List.Mem.head _⟩
      · exact .inr ⟨_, _, hat, List.Mem.tail _ (List.Mem.head _)⟩
    · exact (ih t h).append [_]
  | resp b p ih c k bit no hv' hc hk hr ih' =>
    rename_i tr
    intro t h
    rcases List.mem_append.mp h with h | h
    · simp only [sentBy, RH.terms, List.mem_cons, List.not_mem_nil, or_false] at h
      have hat := at?_head tr (.resp b p ih c k bit no)
      rcases h with rfl | rfl | rfl | rfl | rfl | rfl
      · exact .inr trivial
      · exact (knows_of_sent hv' ih' (hk ih.sidi (by simp [IH.terms]))).append [_]
      · trivial
      · trivial
      · exact .inr ⟨_, _, hat, List.Mem.head _⟩
      · exact .inr ⟨_, _, hat, List.Mem.tail _ (List.Mem.head _)⟩
    · exact (ih' t h).append [_]
  | idone a p i rh c ic hv' hi hk hr ih =>
    rename_i tr
    intro t h
    rcases List.mem_append.mp h with h | h
    · simp only [sentBy, IC.terms, List.mem_cons, List.not_mem_nil, or_false] at h
      have hat := at?_head tr (.idone a p i rh c ic)
      obtain ⟨f1, -, f2, f3, f4, f5, -⟩ := rhi_facts hr
      rcases h with rfl | rfl | rfl | rfl
      · rw [f3]; exact .inr trivial
      · rw [f4]; exact (knows_of_sent hv' ih (hk rh.sidr (by simp [RH.terms]))).append [_]
      · rw [f5]; exact (knows_of_sent hv' ih (hk rh.biscuitCt (by simp [RH.terms]))).append [_]
      · have : Issued (.idone a p i rh c ic :: tr) ic.auth := ⟨_, _, hat, List.Mem.head _⟩
        obtain ⟨k, n, ad, pt, hf⟩ : ∃ k n ad pt, ic.auth = .aead k n ad pt := ⟨_, _, _, _, f2⟩
        rw [hf] at this ⊢
        exact .inr this
    · exact (ih t h).append [_]
  | rdone b p h k ic c hv' hc hk hr ih =>
    rename_i tr
    intro t h'
    rcases List.mem_append.mp h' with h' | h'
    · simp only [sentBy, ED.terms, List.mem_cons, List.not_mem_nil, or_false] at h'
      have hat := at?_head tr (.rdone b p h k ic c)
      rcases h' with rfl | rfl | rfl
      · have : c.sidi = ic.sidi := by
          unfold icr at hr
          split at hr
          · cases hr
          · rename_i c' hl
            unfold loadBiscuit at hl
            split at hl
            · split at hl
              · injection hl with hl
                subst hl
                dsimp only [Core.encryptAndMix] at hr
                split at hr
                · cases hr
                · rename_i hd
                  obtain ⟨-, h2⟩ := dec_box hd
                  injection hr with hr
                  subst hr h2
                  rfl
              · cases hl
            · cases hl
        show P _ c.sidi
        rw [this]
        exact (knows_of_sent hv' ih (hk ic.sidi (by simp [IC.terms]))).append [_]
      · trivial
      · exact .inr ⟨_, _, hat, List.Mem.head _⟩
    · exact (ih t h').append [_]
  | iconf d a p i rh c ic ed hv' hd hk hr ih => exact fun t h => (ih t h).append [_]
  | corrupt n hv' ih => exact fun t h => (ih t h).append [_]
  | reveal c p hv' hd ih => exact fun t h => (ih t h).append [_]

/-- the attacker knows nothing else -/
theorem knows_pub {N : Net} {tr : Run} (hv : Valid N tr) {t : Term} (h : Knows tr t) : P tr t := knows_of_sent hv (sent_pub hv) h

end Verif.Sym
