import Verif.Thm.Symbolic
/-
Secrecy and authentication of the handshake: what follows from the attacker's knowledge being bounded (Thm/Symbolic.lean).
-/
namespace Verif.Sym
open Term

/-! ### Domains are separated -/

def depth : Term → Nat
  | .hash _ k _ => depth k + 1
  | _ => 0

theorem depth_mixMany (h : HashChoice) (l : List Term) (k : Term) : depth (mixMany h k l) = depth k + l.length := by
  induction l generalizing k with
  | nil => rfl
  | cons x l ih =>
    show depth (mixMany h (.hash h k x) l) = _
    rw [ih]
    simp only [depth, List.length_cons]
    omega

theorem depth_sep (h : HashChoice) (d : OskDomain) : 4 ≤ depth (sep h d) := by
  cases d with
  | wireguardPsk => show 4 ≤ depth (dom h .wireguardPsk); unfold dom; rw [depth_mixMany]; simp [protocol, depth, HashDomain.Purpose.labels]
  | custom ns ls =>
    unfold sep
    rw [depth_mixMany]
    have : depth (dom h .ckeUser) = 3 := rfl
    simp only [depth, this]
    omega

theorem sep_ne_dom (h h' : HashChoice) (d : OskDomain) (u : HashDomain.Purpose) (hu : depth (dom h' u) = 3) : sep h d ≠ dom h' u := by
  intro e
  have := depth_sep h d
  rw [e, hu] at this
  omega

theorem dom_hash (h : HashChoice) (u : HashDomain.Purpose) : ∃ k d, dom h u = .hash h k (.const d) := by
  cases u <;> exact ⟨_, _, rfl⟩

theorem chain_hash (h : HashChoice) (pk : Term) (l : List Term) : ∃ k d, chain h pk l = .hash h k d := by
  cases l <;> exact ⟨_, _, rfl⟩

theorem hsEnc_ne_resEnc (h h' : HashChoice) : dom h .hsEnc ≠ dom h' .resEnc := by
  intro e
  have e : (.hash h _ (.const (lbl ['h','a','n','d','s','h','a','k','e',' ','e','n','c','r','y','p','t','i','o','n'])) : Term) =
    .hash h' _ (.const (lbl ['r','e','s','p','o','n','d','e','r',' ','h','a','n','d','s','h','a','k','e',' ','e','n','c','r','y','p','t','i','o','n'])) := e
  injection e with _ _ e
  injection e with e
  exact absurd (congrArg List.length e) (by decide)

theorem chain_inj {h h' : HashChoice} {pk pk' : Term} {l l' : List Term} (e : chain h pk l = chain h' pk' l') : h = h' ∧ pk = pk' ∧ l = l' := by
  induction l generalizing l' with
  | nil =>
    cases l' with
    | nil =>
      injection e with e1 _ e2
      exact ⟨e1, e2, rfl⟩
    | cons x l' =>
      injection e with e1 e2 e3
      have e2 : (.hash h (protocol h) (.const _) : Term) = .hash h' (chain h' pk' l') (dom h' .mix) := e2
      injection e2 with _ _ e4
      obtain ⟨k, d, hd⟩ := dom_hash h' .mix
      rw [hd] at e4
      cases e4
  | cons x l ih =>
    cases l' with
    | nil =>
      injection e with e1 e2 e3
      have e2 : .hash h (chain h pk l) (dom h .mix) = (.hash h' (protocol h') (.const _) : Term) := e2
      injection e2 with _ _ e4
      obtain ⟨k, d, hd⟩ := dom_hash h .mix
      rw [hd] at e4
      cases e4
    | cons x' l' =>
      injection e with e1 e2 e3
      injection e2 with _ e5 _
      obtain ⟨i1, i2, i3⟩ := ih e5
      exact ⟨i1, i2, by rw [e3, i3]⟩

theorem key_inj {h h' : HashChoice} {ck ck' : Term} (e : key h ck = key h' ck') : h = h' ∧ ck = ck' := by
  injection e with e1 e2 _
  exact ⟨e1, e2⟩

/-! ### What servers computed -/

theorem icr_ck {b : Nat} {p : PeerCfg} {h : HashChoice} {k : Nat} {ic : IC} {c : Core} (hr : icr b p h k ic = some c) :
    ∃ ck pt, ic.auth = box p.h ck pt ∧ c = ⟨ic.sidi, ic.sidr, .hash p.h (.hash p.h ck (dom p.h .mix)) (box p.h ck pt), p.h⟩ := by
  unfold icr at hr
  split at hr
  · cases hr
  · rename_i c' hl
    unfold loadBiscuit at hl
    split at hl
    · split at hl
      · injection hl with hl
        subst hl
        dsimp only [Core.encryptAndMix] at hr
        split at hr
        · cases hr
        · rename_i pt _ hd
          obtain ⟨h1, h2⟩ := dec_box hd
          injection hr with hr
          subst hr h2
          refine ⟨_, pt, h1, ?_⟩
          rw [h1]; rfl
      · cases hl
    · cases hl

theorem done_ck {N : Net} {tr : Run} (hv : Valid N tr) {c : Core} {p : PeerCfg} (h : Done tr c p) :
    ∃ ck pt, c.ck = .hash p.h (.hash p.h ck (dom p.h .mix)) (box p.h ck pt) ∧ c.hc = p.h := by
  rcases h with ⟨a, i, rh, ic, h⟩ | ⟨b, h', k, ic, h⟩
  · obtain ⟨j, hj⟩ := mem_at? h
    obtain ⟨new, old, rfl, -, hv'⟩ := hv.at hj
    cases hv' with
    | idone _ _ _ _ _ _ _ _ _ hr =>
      obtain ⟨-, -, f1, -, -, -, f2⟩ := rhi_facts hr
      refine ⟨chain p.h p.pk.term (tI a p i rh ic.auth).l21, Core.empty, ?_, by rw [f2]⟩
      rw [f2]
      show Term.hash _ _ ic.auth = _
      rw [← f1]
  · obtain ⟨j, hj⟩ := mem_at? h
    obtain ⟨new, old, rfl, -, hv'⟩ := hv.at hj
    cases hv' with
    | rdone _ _ _ _ _ _ _ _ _ hr =>
      obtain ⟨ck, pt, -, e⟩ := icr_ck hr
      exact ⟨ck, pt, by rw [e], by rw [e]⟩

theorem leaked_facts {N : Net} {tr : Run} (hv : Valid N tr) {t : Term} (h : Leaked tr t) (x : Term) :
    ∃ j b p ih c k bit no, at? tr j = some (.resp b p ih c k bit no) ∧ N.cfg b p ∧ ihr b p p.h ih = some c ∧ Corrupt tr (.bkey b k) ∧
      t = chain p.h (own b) (tR b p ih j (rhr b p ih c j k bit no).1 x).l17 := by
  obtain ⟨j, b, p, ih, c, k, bit, no, h1, h2, h3⟩ := h
  obtain ⟨new, old, rfl, -, hv'⟩ := hv.at h1
  cases hv' with
  | resp _ _ _ _ _ _ _ _ hc _ hr => exact ⟨j, b, p, ih, c, k, bit, no, h1, hc, hr, h2, h3.trans (rhr_facts hr j k bit no x).1⟩

theorem revealed_facts {N : Net} {tr : Run} (hv : Valid N tr) {t : Term} (h : Revealed tr t) :
    ∃ c p, Done tr c p ∧ t = osk c p ∧ ∃ ck pt, c.ck = .hash p.h (.hash p.h ck (dom p.h .mix)) (box p.h ck pt) ∧ c.hc = p.h := by
  obtain ⟨c, p, h1, h2⟩ := h
  obtain ⟨j, hj⟩ := mem_at? h1
  obtain ⟨new, old, rfl, -, hv'⟩ := hv.at hj
  cases hv' with
  | reveal _ _ hv'' hd =>
    refine ⟨c, p, ?_, h2, done_ck hv'' hd⟩
    rcases hd with ⟨a, i, rh, ic, h⟩ | ⟨b, h', k, ic, h⟩
    · exact .inl ⟨a, i, rh, ic, by simp [h]⟩
    · exact .inr ⟨b, h', k, ic, by simp [h]⟩

/-- a key derived from a chaining key for use inside the protocol is public only if the chaining key is -/
theorem P.unkey {N : Net} {tr : Run} (hv : Valid N tr) {h h' : HashChoice} {ck : Term} {u : HashDomain.Purpose} (hu : depth (dom h' u) = 3)
    (hp : P tr (.hash h ck (dom h' u))) : P tr ck := by
  rcases hp with hp | hp | hp
  · exact hp.1
  · obtain ⟨j, b, p, ih, c, k, bit, no, -, -, -, -, e⟩ := leaked_facts hv hp Core.empty
    have e : Term.hash h ck (dom h' u) = .hash p.h (.hash p.h _ _) (.sct _ _) := e
    injection e with _ _ e
    obtain ⟨x, y, hd⟩ := dom_hash h' u
    rw [hd] at e
    cases e
  · obtain ⟨c, p, -, e, -⟩ := revealed_facts hv hp
    injection e with _ _ e
    exact absurd e.symm (sep_ne_dom _ _ _ _ hu)

theorem P.unmix {N : Net} {tr : Run} (hv : Valid N tr) {h : HashChoice} {ck x : Term} (hp : P tr (.hash h (.hash h ck (dom h .mix)) x)) :
    (P tr ck ∧ P tr x) ∨ Leaked tr (.hash h (.hash h ck (dom h .mix)) x) := by
  rcases hp with hp | hp | hp
  · exact .inl ⟨P.unkey hv (h' := h) (u := .mix) rfl hp.1, hp.2⟩
  · exact .inr hp
  · obtain ⟨c, p, -, e, ck', pt, e', -⟩ := revealed_facts hv hp
    injection e with _ e _
    rw [e'] at e
    injection e with _ _ e
    obtain ⟨x, y, hd⟩ := dom_hash h .mix
    rw [hd] at e
    cases e

/-- a chaining key is public only if everything mixed into it is, or if it was in a biscuit that the attacker opened -/
theorem chain_pub {N : Net} {tr : Run} (hv : Valid N tr) {h : HashChoice} {pk : Term} {l : List Term} (hp : P tr (chain h pk l)) :
    (∀ x ∈ l, P tr x) ∨ ∃ l1 l2, l = l1 ++ l2 ∧ (∀ x ∈ l1, P tr x) ∧ Leaked tr (chain h pk l2) := by
  induction l with
  | nil => exact .inl (by simp)
  | cons x l ih =>
    rcases P.unmix hv hp with ⟨h1, h2⟩ | h1
    · rcases ih h1 with h3 | ⟨l1, l2, e, h3, h4⟩
      · refine .inl ?_
        intro y hy
        rcases List.mem_cons.mp hy with rfl | hy
        · exact h2
        · exact h3 y hy
      · refine .inr ⟨x :: l1, l2, by rw [e]; rfl, ?_, h4⟩
        intro y hy
        rcases List.mem_cons.mp hy with rfl | hy
        · exact h2
        · exact h3 y hy
    · exact .inr ⟨[], x :: l, rfl, by simp, h1⟩

/-- Who made a ciphertext. -/
inductive Maker (N : Net) (tr : Run) (k n ad pt x : Term) : Prop where
  | hello5 (i a p) (rh : RH) : at? tr i = some (.init a p) → k = key p.h (chain p.h p.pk.term (tI a p i rh x).l5) → Maker N tr k n ad pt x
  | hello8 (i a p) (rh : RH) : at? tr i = some (.init a p) → k = key p.h (chain p.h p.pk.term (tI a p i rh x).l8) → Maker N tr k n ad pt x
  | resp (j b p ih c i bit no) : at? tr j = some (.resp b p ih c i bit no) → N.cfg b p → ihr b p p.h ih = some c →
      k = key p.h (chain p.h (own b) (tR b p ih j (rhr b p ih c j i bit no).1 x).l18) → .aead k n ad pt = (rhr b p ih c j i bit no).1.auth → Maker N tr k n ad pt x
  | conf (d a p i rh c ic) : at? tr d = some (.idone a p i rh c ic) → rhi a p i rh = some (c, ic) → at? tr i = some (.init a p) →
      k = key p.h (chain p.h p.pk.term (tI a p i rh ic.auth).l21) → .aead k n ad pt = ic.auth → Maker N tr k n ad pt x
  | ack (d b p h i ic c) : at? tr d = some (.rdone b p h i ic c) → icr b p h i ic = some c → N.cfg b p → k = tkr c p → Maker N tr k n ad pt x

theorem maker {N : Net} {tr : Run} (hv : Valid N tr) {k n ad pt : Term} (x : Term) (h : Issued tr (.aead k n ad pt)) : Maker N tr k n ad pt x := by
  obtain ⟨i, e, h1, h2⟩ := h
  obtain ⟨new, old, rfl, hlen, hv'⟩ := hv.at h1
  cases e with
  | init a p =>
    simp only [issuedBy, List.mem_cons, List.not_mem_nil, or_false] at h2
    rcases h2 with h2 | h2
    · injection h2 with e
      exact .hello5 i a p ⟨x, x, x, x, x, x⟩ h1 e
    · injection h2 with e
      exact .hello8 i a p ⟨x, x, x, x, x, x⟩ h1 e
  | resp b p ih c k' bit no =>
    simp only [issuedBy, List.mem_cons, List.not_mem_nil, or_false] at h2
    rcases h2 with h2 | h2
    · cases hv' with
      | resp _ _ _ _ _ _ _ _ hc _ hr =>
        refine .resp i b p ih c k' bit no h1 hc hr ?_ h2
        rw [(rhr_facts hr i k' bit no x).2.1] at h2
        injection h2
    · cases h2
  | idone a p i' rh c ic =>
    simp only [issuedBy, List.mem_cons, List.not_mem_nil, or_false] at h2
    cases hv' with
    | idone _ _ _ _ _ _ _ hi _ hr =>
      refine .conf i a p i' rh c ic h1 hr (at?_append _ (at?_cons _ hi)) ?_ h2
      rw [(rhi_facts hr).2.2.1] at h2
      injection h2
  | rdone b p h k' ic c =>
    simp only [issuedBy, List.mem_cons, List.not_mem_nil, or_false] at h2
    cases hv' with
    | rdone _ _ _ _ _ _ _ hc _ hr =>
      injection h2 with e
      exact .ack i b p h k' ic c h1 hr hc e
  | iconf => cases h2
  | corrupt => cases h2
  | reveal => cases h2

theorem key_ne_tkr (h : HashChoice) (ck : Term) (c : Core) (p : PeerCfg) : key h ck ≠ tkr c p := by
  intro e
  injection e with _ _ e
  exact hsEnc_ne_resEnc _ _ e


/-! ### Specification: matching events -/

/-- Event `j`: server `b` received exactly the InitHello that server `a` sent in event `i`, and answered it with `m`, using its biscuit
key `k`. They meant each other, with the same pre-shared key. -/
structure Answered (N : Net) (tr : Run) (a : Nat) (p : PeerCfg) (i : Nat) (b : Nat) (p' : PeerCfg) (j k : Nat) (m : RH) : Prop where
  event : ∃ c bit no, at? tr j = some (.resp b p' (initiation a p i).1 c k bit no) ∧ m = (rhr b p' (initiation a p i).1 c j k bit no).1
  cfg : N.cfg b p'
  there : p.pk = .server b
  back : p'.pk = .server a
  psk : p'.psk = p.psk
  hash : p'.h = p.h

/-- None of the ingredients of the key protects it any more: the pre-shared key, the encapsulations (in events `i` and `j`) to the two static
keys and the one to the ephemeral key. -/
def AllOpen (tr : Run) (a : Nat) (p : PeerCfg) (i b j : Nat) : Prop :=
  PskOpen tr p.psk ∧ KeyOpen tr i (.server b) ∧ KeyOpen tr j (.server a) ∧ (Corrupt tr (.rnd i .kcoins) ∨ Corrupt tr (.rnd j .ecoins))

/-! ### The initiator -/

theorem Pk.of_own {pk : Pk} {a : Nat} (h : pk.term = own a) : pk = .server a := by
  cases pk with
  | server b => injection h with h; injection h with h; injection h with h; rw [h]
  | adv n => injection h with h; injection h with h; cases h
  | raw b => cases h

theorem Psk.inj {x y : Psk} (h : x.term = y.term) : x = y := by
  cases x <;> cases y <;> first | (injection h with h; injection h with h; rw [h]) | (injection h with h; rw [h]) | cases h

theorem psk_pub {tr : Run} {x : Psk} (h : P tr x.term) : PskOpen tr x := by
  cases x with
  | secret n => exact h.resolve_right (fun h => h)
  | raw b => trivial

theorem sss_pub {tr : Run} {i : Nat} {pk : Pk} (h : P tr (.sss (rnd i .scoins) pk.term)) : KeyOpen tr i pk := by
  cases pk with
  | server b =>
    rcases h with h | h
    · exact .inr (h.resolve_right (fun h => h))
    · exact .inl (h.resolve_right (fun h => h))
  | adv n => trivial
  | raw b => trivial

theorem rnd_inj {i j : Nat} {k k' : Kind} (h : rnd i k = rnd j k') : i = j ∧ k = k' := by
  injection h with h; injection h with h1 h2; exact ⟨h1, h2⟩

theorem IH.ext' {x y : IH} (h1 : x.sidi = y.sidi) (h2 : x.epki = y.epki) (h3 : x.sctr = y.sctr) (h4 : x.pidiCt = y.pidiCt) (h5 : x.auth = y.auth) : x = y := by
  cases x; cases y; dsimp only at *; subst h1 h2 h3 h4 h5; rfl

theorem RH.ext' {x y : RH} (h1 : x.sidr = y.sidr) (h2 : x.sidi = y.sidi) (h3 : x.ecti = y.ecti) (h4 : x.scti = y.scti) (h5 : x.auth = y.auth)
    (h6 : x.biscuitCt = y.biscuitCt) : x = y := by
  cases x; cases y; dsimp only at *; subst h1 h2 h3 h4 h5 h6; rfl

theorem IC.ext' {x y : IC} (h1 : x.sidi = y.sidi) (h2 : x.sidr = y.sidr) (h3 : x.biscuitCt = y.biscuitCt) (h4 : x.auth = y.auth) : x = y := by
  cases x; cases y; dsimp only at *; subst h1 h2 h3 h4; rfl

/-- equal values: the two events belong together -/
theorem answered_of {N : Net} {tr : Run} {a : Nat} {p : PeerCfg} {i : Nat} {rh : RH} {x y : Term} {b : Nat} {p' : PeerCfg} {ih : IH} {c : Core} {j k : Nat} {bit : Bool} {no : Bytes}
    (hj : at? tr j = some (.resp b p' ih c k bit no)) (hc : N.cfg b p') (hh : p.h = p'.h) (hpk : p.pk.term = own b) {m : RH}
    (hl : (tI a p i rh x).l17 = (tR b p' ih j m y).l17) :
    ih = (initiation a p i).1 ∧ Answered N tr a p i b p' j k (rhr b p' ih c j k bit no).1 ∧ rh.sidr = rnd j .sid ∧ rh.ecti = .ect (rnd j .ecoins) (.epk (rnd i .kcoins)) ∧
      rh.scti = .sct (rnd j .scoins) (own a) := by
  simp only [T.l17, T.l9, T.l8, T.l5, List.cons.injEq] at hl
  dsimp only [tI, tR] at hl
  obtain ⟨e1, -, e3, e4, -, e6, e7, e8, e9, e10, -, e12, e13, -, -, -, -, -⟩ := hl
  have hih : ih = (initiation a p i).1 := IH.ext' e7.symm e6.symm e13.symm e12.symm e9.symm
  subst hih
  refine ⟨rfl, ⟨⟨c, bit, no, hj, rfl⟩, hc, Pk.of_own hpk, Pk.of_own e3.symm, (Psk.inj e10).symm, hh.symm⟩, e8, e4, ?_⟩
  rw [e1, ← e3]

/-- What the initiator may conclude from an answer it accepts. -/
theorem initiator_core {N : Net} {tr : Run} (hv : Valid N tr) {a : Nat} {p : PeerCfg} {i : Nat} {rh : RH} {c : Core} {ic : IC} (hk : ∀ t ∈ rh.terms, Knows tr t)
    (hr : rhi a p i rh = some (c, ic)) (hs : ¬ (PskOpen tr p.psk ∧ KeyOpen tr i p.pk)) :
    ∃ b p' j k m ih c' bit no, at? tr j = some (.resp b p' ih c' k bit no) ∧ ihr b p' p'.h ih = some c' ∧ p.h = p'.h ∧ p.pk.term = own b ∧ m = (rhr b p' ih c' j k bit no).1 ∧
      (tI a p i rh ic.auth).l17 = (tR b p' ih j m Core.empty).l17 ∧
      Answered N tr a p i b p' j k m ∧ (rh = m ∨ Corrupt tr (.bkey b k)) := by
  obtain ⟨f1, ⟨pt, f2⟩, -⟩ := rhi_facts hr
  have hp := knows_pub hv (hk rh.auth (by simp [RH.terms]))
  rw [f2] at hp
  rcases hp with hp | hp
  · have hck := P.unkey hv (h' := p.h) (u := .hsEnc) rfl hp.1
    have hnot : ¬ ∀ x ∈ (tI a p i rh ic.auth).l18, P tr x := by
      intro h
      exact hs ⟨psk_pub (h (tI a p i rh ic.auth).psk (by simp [T.l18, T.l17, T.l9, T.l8])), sss_pub (h (tI a p i rh ic.auth).shk (by simp [T.l18, T.l17, T.l9, T.l8, T.l5]))⟩
    rcases chain_pub hv hck with h | ⟨l1, l2, h1, h2, h3⟩
    · exact absurd h hnot
    · obtain ⟨j, b, p', ih, c', k, bit, no, g1, g2, g3, g4, g5⟩ := leaked_facts hv h3 Core.empty
      obtain ⟨i1, i2, i3⟩ := chain_inj g5
      have hl1 : l1.length = 1 := by
        have := congrArg List.length h1
        rw [List.length_append, i3] at this
        have a1 : (tI a p i rh ic.auth).l18.length = 18 := rfl
        have a2 : (tR b p' ih j (rhr b p' ih c' j k bit no).1 Core.empty).l17.length = 17 := rfl
        omega
      have hl : (tI a p i rh ic.auth).l17 = (tR b p' ih j (rhr b p' ih c' j k bit no).1 Core.empty).l17 := by
        rw [← i3]
        match l1, hl1 with
        | [z], _ =>
          have h1 : (tI a p i rh ic.auth).biscuit :: (tI a p i rh ic.auth).l17 = z :: l2 := h1
          injection h1
      obtain ⟨-, k2, -⟩ := answered_of g1 g2 i1 i2 hl
      exact ⟨b, p', j, k, _, ih, c', bit, no, g1, g3, i1, i2, rfl, hl, k2, .inr g4⟩
  · cases maker hv Core.empty hp with
    | hello5 i' a' p' rh' h1 h2 => exact absurd (congrArg List.length (chain_inj (key_inj h2).2).2.2) (by simp [T.l18, T.l17, T.l9, T.l8, T.l5])
    | hello8 i' a' p' rh' h1 h2 => exact absurd (congrArg List.length (chain_inj (key_inj h2).2).2.2) (by simp [T.l18, T.l17, T.l9, T.l8, T.l5])
    | conf d a' p' i' rh' c' ic' h1 h2 _ h3 => exact absurd (congrArg List.length (chain_inj (key_inj h3).2).2.2) (by simp [T.l21, T.l19, T.l18, T.l17, T.l9, T.l8, T.l5])
    | ack d b' p' h' i' ic' c' h1 _ _ h2 => exact absurd h2 (key_ne_tkr _ _ _ _)
    | resp j b p' ih c' k bit no g1 g2 g3 g4 g5 =>
      obtain ⟨i1, i2, i3⟩ := chain_inj (key_inj g4).2
      have i3 : (tI a p i rh ic.auth).biscuit :: (tI a p i rh ic.auth).l17 =
        (tR b p' ih j (rhr b p' ih c' j k bit no).1 Core.empty).biscuit :: (tR b p' ih j (rhr b p' ih c' j k bit no).1 Core.empty).l17 := i3
      injection i3 with i4 i5
      have g5' : rh.auth = (rhr b p' ih c' j k bit no).1.auth := by rw [f2]; exact g5
      obtain ⟨k1, k2, k3, k4, k5⟩ := answered_of g1 g2 i1 i2 i5
      refine ⟨b, p', j, k, _, ih, c', bit, no, g1, g3, i1, i2, rfl, i5, k2, .inl ?_⟩
      have hsid : rh.sidi = ih.sidi := by rw [f1, k1]; rfl
      have hec : rh.ecti = (rhr b p' ih c' j k bit no).1.ecti := by rw [k4, k1]; rfl
      have hsc : rh.scti = (rhr b p' ih c' j k bit no).1.scti := by rw [k5, show own a = p'.pk.term by rw [k2.back]; rfl]; rfl
      have hbis : rh.biscuitCt = (rhr b p' ih c' j k bit no).1.biscuitCt := i4
      have hsr : rh.sidr = (rhr b p' ih c' j k bit no).1.sidr := k3
      have hsi : rh.sidi = (rhr b p' ih c' j k bit no).1.sidi := hsid
      exact RH.ext' hsr hsi hec hsc g5' hbis


theorem osk_pub {N : Net} {tr : Run} (hv : Valid N tr) {h h' : HashChoice} {ck : Term} {d : OskDomain} (hp : P tr (.hash h ck (sep h' d))) :
    Revealed tr (.hash h ck (sep h' d)) ∨ P tr ck := by
  rcases hp with hp | hp | hp
  · exact .inr hp.1
  · obtain ⟨j, b, p, ih, c, k, bit, no, -, -, -, -, e⟩ := leaked_facts hv hp Core.empty
    have e : Term.hash h ck (sep h' d) = .hash p.h (.hash p.h _ _) (.sct _ _) := e
    injection e with _ _ e
    have := depth_sep h' d
    rw [e] at this
    exact absurd this (by simp [depth])
  · exact .inl hp

theorem ess_pub {tr : Run} {i j : Nat} (h : P tr (.ess (rnd j .ecoins) (.epk (rnd i .kcoins)))) : Corrupt tr (.rnd i .kcoins) ∨ Corrupt tr (.rnd j .ecoins) := by
  rcases h with h | h
  · exact .inr (h.resolve_right (fun h => h))
  · exact .inl (h.resolve_right (fun h => h))

/-- The chaining key of a matched session, and everything derived from it, is public only if the biscuit key is corrupted or nothing protects
it. -/
theorem matched_secret {N : Net} {tr : Run} (hv : Valid N tr) {a : Nat} {p : PeerCfg} {i b : Nat} {p' : PeerCfg} {j k : Nat} {m : RH} (hA : Answered N tr a p i b p' j k m)
    {y : Term} {l : List Term} (hp : P tr (chain p'.h (own b) (l ++ (tR b p' (initiation a p i).1 j m y).l17))) : Corrupt tr (.bkey b k) ∨ AllOpen tr a p i b j := by
  obtain ⟨c, bit, no, hj, rfl⟩ := hA.event
  rcases chain_pub hv hp with h | ⟨l1, l2, h1, h2, h3⟩
  · refine .inr ⟨?_, ?_, ?_, ?_⟩
    · rw [← hA.psk]
      exact psk_pub (h p'.psk.term (by simp [tR, T.l17, T.l9, T.l8]))
    · have z := h (sdec (.name (.ssk b)) (initiation a p i).1.sctr) (by simp [tR, T.l17, T.l9, T.l8, T.l5])
      have e : sdec (.name (.ssk b)) (initiation a p i).1.sctr = .sss (rnd i .scoins) (Pk.server b).term := by
        show sdec (.name (.ssk b)) (.sct (rnd i .scoins) p.pk.term) = _
        rw [hA.there]
        simp [Pk.term, sdec]
      rw [e] at z
      exact sss_pub z
    · have := h (.sss (rnd j .scoins) p'.pk.term) (by simp [tR, T.l17])
      rw [hA.back] at this
      exact sss_pub this
    · exact ess_pub (h (.ess (rnd j .ecoins) (initiation a p i).1.epki) (by simp [tR, T.l17]))
  · obtain ⟨j', b', q, ih, c', k', bit', no', g1, g2, g3, g4, g5⟩ := leaked_facts hv h3 y
    obtain ⟨i1, i2, i3⟩ := chain_inj g5
    have hl : l2 = (tR b p' (initiation a p i).1 j (rhr b p' (initiation a p i).1 c j k bit no).1 y).l17 := by
      have := List.append_inj' h1 (by rw [i3]; rfl)
      exact this.2.symm
    have : (tR b p' (initiation a p i).1 j (rhr b p' (initiation a p i).1 c j k bit no).1 y).sidr = (tR b' q ih j' (rhr b' q ih c' j' k' bit' no').1 y).sidr := by
      have := hl.symm.trans i3
      simp only [T.l17, List.cons.injEq] at this
      exact this.2.2.2.2.2.2.2.1
    have hjj : j = j' := (rnd_inj this).1
    rw [← hjj, hj] at g1
    injection g1 with g1
    injection g1 with e1 _ _ _ e2
    rw [← e1, ← e2] at g4
    exact .inl g4

/-- **C92** and **C93**, for the initiator. Let server `a` accept an answer to the handshake it started, in event `i`, with the peer `p`. If at that time
the pre-shared key is secret, or the peer's static key and the coins for it, then a server `b` whose key is that of `p` has received exactly
this InitHello, has `a` as a peer with the same pre-shared key, and has sent this answer; only the biscuit and the tag of the answer may be other ones,
and only if the biscuit key it used is corrupted.

Whatever happens afterwards, as long as this biscuit key is not corrupted and the output key not given away: the attacker can
only know the output key if he has *all* of: the pre-shared key, a secret for each of the encapsulations to the two static keys,
and one of the ephemeral secrets. In particular, all long-term secrets together are not enough (forward secrecy). -/
theorem initiator_security (N : Net) (new tr : Run) (a : Nat) (p : PeerCfg) (i : Nat) (rh : RH) (c : Core) (ic : IC)
    (hv : Valid N (new ++ .idone a p i rh c ic :: tr)) (hs : ¬ (PskOpen tr p.psk ∧ KeyOpen tr i p.pk)) :
    ∃ b p' j k m, Answered N tr a p i b p' j k m ∧
      rh.sidr = m.sidr ∧ rh.sidi = m.sidi ∧ rh.ecti = m.ecti ∧ rh.scti = m.scti ∧ (rh = m ∨ Corrupt tr (.bkey b k)) ∧
      (Knows (new ++ .idone a p i rh c ic :: tr) (osk c p) →
        Corrupt (new ++ .idone a p i rh c ic :: tr) (.bkey b k) ∨ Revealed (new ++ .idone a p i rh c ic :: tr) (osk c p) ∨
        AllOpen (new ++ .idone a p i rh c ic :: tr) a p i b j) := by
  have hv1 := hv.suffix
  cases hv1 with
  | idone _ _ _ _ _ _ hv0 hi hk hr =>
    obtain ⟨b, p', j, k, m, ih, c', bit, no, g1, g2, g3, g4, g5, g6, g7, g8⟩ := initiator_core hv0 hk hr hs
    obtain ⟨k1, -, k3, k4, k5⟩ := answered_of g1 g7.cfg g3 g4 g6
    subst g5 k1
    obtain ⟨f1, -, -, -, -, -, f2⟩ := rhi_facts hr
    refine ⟨b, p', j, k, _, g7, k3, f1, k4, ?_, g8, ?_⟩
    · rw [k5, show own a = p'.pk.term by rw [g7.back]; rfl]; rfl
    intro hkn
    have hA' : Answered N (new ++ .idone a p i rh c ic :: tr) a p i b p' j k (rhr b p' (initiation a p i).1 c' j k bit no).1 :=
      ⟨⟨c', bit, no, at?_append new (at?_cons _ g1), rfl⟩, g7.cfg, g7.there, g7.back, g7.psk, g7.hash⟩
    rcases osk_pub hv (knows_pub hv hkn) with h | h
    · exact .inr (.inl h)
    · have e : c.ck = chain p'.h (own b) ([(tI a p i rh ic.auth).auth3, (tI a p i rh ic.auth).sidr, (tI a p i rh ic.auth).sidi, (tI a p i rh ic.auth).auth2, (tI a p i rh ic.auth).biscuit] ++
          (tR b p' (initiation a p i).1 j (rhr b p' (initiation a p i).1 c' j k bit no).1 Core.empty).l17) := by
        rw [← g6, f2, g3, g4]; rfl
      rw [e] at h
      rcases matched_secret hv hA' h with h | h
      · exact .inl h
      · exact .inr (.inr h)

/-! ### The responder -/

/-- **C92** and **C93**, for the responder. Let server `b` accept an InitConf for peer `p`, with biscuit key `k`, which is not corrupted. Then it made
the biscuit itself, in an answer `m` to an InitHello that it had accepted as from `p`. If the pre-shared key is secret, or the static key of `p` and
the coins of the encapsulation in that answer, then a server `a` whose key is that of `p` has started the handshake with exactly that InitHello, has
`b` as a peer with the same pre-shared key, has accepted exactly the answer `m` and has sent exactly this InitConf; both have the same session state, so the same output key.

Afterwards the attacker can only know the output key as in `initiator_security`. -/
theorem responder_security (N : Net) (new tr : Run) (b : Nat) (p : PeerCfg) (h : HashChoice) (k : Nat) (ic : IC) (c : Core)
    (hv : Valid N (new ++ .rdone b p h k ic c :: tr)) (hb : ¬ Corrupt tr (.bkey b k)) :
    ∃ j ih c' bit no, at? tr j = some (.resp b p ih c' k bit no) ∧ ic.sidi = ih.sidi ∧ ic.sidr = rnd j .sid ∧
      ic.biscuitCt = (rhr b p ih c' j k bit no).1.biscuitCt ∧
      (¬ (PskOpen tr p.psk ∧ KeyOpen tr j p.pk) →
        ∃ d a p' i rh, at? tr d = some (.idone a p' i rh c ic) ∧ at? tr i = some (.init a p') ∧ ih = (initiation a p' i).1 ∧ rh = (rhr b p ih c' j k bit no).1 ∧
          Answered N tr a p' i b p j k rh ∧
          (Knows (new ++ .rdone b p h k ic c :: tr) (osk c p) →
            Corrupt (new ++ .rdone b p h k ic c :: tr) (.bkey b k) ∨ Revealed (new ++ .rdone b p h k ic c :: tr) (osk c p) ∨
            AllOpen (new ++ .rdone b p h k ic c :: tr) a p' i b j)) := by
  have hv1 := hv.suffix
  cases hv1 with
  | rdone _ _ _ _ _ _ hv0 hcfg hk hr =>
    obtain ⟨n, no, ck, pt, f1, f2⟩ := icr_facts hr
    have hp := knows_pub hv0 (hk ic.biscuitCt (by simp [IC.terms]))
    rw [f1] at hp
    rcases hp with hp | hp
    · exact absurd (hp.1.resolve_right (fun h => h)) hb
    obtain ⟨j, b', q, ih, c', k', bit, no', g1, g2, g3, g4⟩ := issued_xaead hv0 hp
    have g4' : ic.biscuitCt = (rhr b' q ih c' j k' bit no').1.biscuitCt := f1.trans g4
    rw [(rhr_facts g2 j k' bit no' ic.auth).2.2] at g4
    injection g4 with e1 _ e2 e3
    injection e1 with e1
    injection e1 with e1 e1'
    subst e1 e1'
    injection e3 with e3 _ e4
    have hq : p = q := N.uniq b p q hcfg g3 e3
    subst hq
    have e2 : Term.hash h (.hash h (.hash h (dom h .biscuitAd) (own b)) ic.sidi) ic.sidr = .hash p.h (.hash p.h (.hash p.h (dom p.h .biscuitAd) (own b)) ih.sidi) (rnd j .sid) := e2
    injection e2 with e5 e6 e7
    injection e6 with _ _ e8
    refine ⟨j, ih, c', bit, no', g1, e8, e7, g4', ?_⟩
    intro hs
    have fr := rhr_facts g2 j k bit no' ic.auth
    obtain ⟨f3, f4⟩ := f2 (own b) (tR b p ih j (rhr b p ih c' j k bit no').1 ic.auth) (e4.trans fr.1) e8.symm e7.symm g4'.symm fr.2.1 rfl
    have hp2 := knows_pub hv0 (hk ic.auth (by simp [IC.terms]))
    rw [f3] at hp2
    rcases hp2 with hp2 | hp2
    · -- the key is public
      exfalso
      have hck := P.unkey hv0 (h' := p.h) (u := .hsEnc) rfl hp2.1
      have hnot : ¬ ∀ x ∈ (tR b p ih j (rhr b p ih c' j k bit no').1 ic.auth).l21, P tr x := by
        intro h
        refine hs ⟨psk_pub (h p.psk.term (by simp [tR, T.l21, T.l19, T.l18, T.l17, T.l9, T.l8])), sss_pub (h (.sss (rnd j .scoins) p.pk.term) (by simp [tR, T.l21, T.l19, T.l18, T.l17]))⟩
      rcases chain_pub hv0 hck with h | ⟨l1, l2, h1, h2, h3⟩
      · exact hnot h
      · obtain ⟨j2, b2, q2, ih2, c2, k2, bit2, no2, a1, a2, a3, a4, a5⟩ := leaked_facts hv0 h3 ic.auth
        obtain ⟨i1, i2, i3⟩ := chain_inj a5
        have h1' : [_, _, _, _] ++ (tR b p ih j (rhr b p ih c' j k bit no').1 ic.auth).l17 = l1 ++ l2 := h1
        have hl := (List.append_inj' h1' (by rw [i3]; rfl)).2
        have : (tR b p ih j (rhr b p ih c' j k bit no').1 ic.auth).sidr = (tR b2 q2 ih2 j2 (rhr b2 q2 ih2 c2 j2 k2 bit2 no2).1 ic.auth).sidr := by
          have := hl.trans i3
          simp only [T.l17, List.cons.injEq] at this
          exact this.2.2.2.2.2.2.2.1
        have hjj : j = j2 := (rnd_inj this).1
        rw [← hjj, g1] at a1
        injection a1 with a1
        injection a1 with z1 _ _ _ z2
        rw [← z1, ← z2] at a4
        exact hb a4
    · cases maker hv0 Core.empty hp2 with
      | hello5 i' a' p' rh' h1 h2 => exact absurd (congrArg List.length (chain_inj (key_inj h2).2).2.2) (by simp [T.l21, T.l19, T.l18, T.l17, T.l9, T.l8, T.l5])
      | hello8 i' a' p' rh' h1 h2 => exact absurd (congrArg List.length (chain_inj (key_inj h2).2).2.2) (by simp [T.l21, T.l19, T.l18, T.l17, T.l9, T.l8, T.l5])
      | resp j b p' ih c' k bit no g1 g2 g3 g4 g5 => exact absurd (congrArg List.length (chain_inj (key_inj g4).2).2.2) (by simp [T.l21, T.l19, T.l18, T.l17, T.l9, T.l8, T.l5])
      | ack d b' p' h' i' ic' c' h1 _ _ h2 => exact absurd h2 (key_ne_tkr _ _ _ _)
      | conf d a p' i rh ci ic' c1 c2 c0 c3 c4 =>
        obtain ⟨i1, i2, i3⟩ := chain_inj (key_inj c3).2
        have hauth : ic.auth = ic'.auth := by rw [f3]; exact c4
        have i3 : [_, _, (rhr b p ih c' j k bit no').1.auth, (rhr b p ih c' j k bit no').1.biscuitCt] ++ (tR b p ih j (rhr b p ih c' j k bit no').1 ic.auth).l17 =
          [_, _, rh.auth, rh.biscuitCt] ++ (tI a p' i rh ic'.auth).l17 := i3
        obtain ⟨i4, i5⟩ := List.append_inj i3 rfl
        simp only [List.cons.injEq, and_true] at i4
        obtain ⟨k1, k2, k3, k4, k5⟩ := answered_of g1 g3 i1.symm i2.symm i5.symm
        obtain ⟨r1, -, -, r2, r3, r4, r5⟩ := rhi_facts c2
        have hrh : rh = (rhr b p ih c' j k bit no').1 := by
          have hec : rh.ecti = (rhr b p ih c' j k bit no').1.ecti := by rw [k4, k1]; rfl
          have hsc : rh.scti = (rhr b p ih c' j k bit no').1.scti := by rw [k5, show own a = p.pk.term by rw [k2.back]; rfl]; rfl
          have hbis : rh.biscuitCt = (rhr b p ih c' j k bit no').1.biscuitCt := i4.2.2.2.symm
          have hau : rh.auth = (rhr b p ih c' j k bit no').1.auth := i4.2.2.1.symm
          have hsr : rh.sidr = (rhr b p ih c' j k bit no').1.sidr := k3
          have hsi : rh.sidi = (rhr b p ih c' j k bit no').1.sidi := by rw [r1]; show _ = ih.sidi; rw [k1]; rfl
          exact RH.ext' hsr hsi hec hsc hau hbis
        have hsidi : ic.sidi = rnd i .sid := by rw [e8, k1]; rfl
        have hsidr : ic.sidr = rh.sidr := by rw [e7, k3]
        have hic : ic' = ic := by
          have q1 : ic'.sidi = ic.sidi := by rw [r2, hsidi]
          have q2 : ic'.sidr = ic.sidr := by rw [r3, hsidr]
          have q3 : ic'.biscuitCt = ic.biscuitCt := by rw [r4, g4', hrh]
          exact IC.ext' q1 q2 q3 hauth.symm
        subst hic
        have e22 : (tI a p' i rh ic'.auth).l22 = (tR b p ih j (rhr b p ih c' j k bit no').1 ic'.auth).l22 := by
          show ic'.auth :: ([_, _, rh.auth, rh.biscuitCt] ++ (tI a p' i rh ic'.auth).l17) = ic'.auth :: ([_, _, (rhr b p ih c' j k bit no').1.auth, (rhr b p ih c' j k bit no').1.biscuitCt] ++ _)
          rw [← i3]
          rfl
        have hci : ci = c := by
          rw [r5, f4, hsidi, hsidr, ← i1, ← i2, e22]
        subst hci
        refine ⟨d, a, p', i, rh, c1, c0, k1, hrh, hrh ▸ k2, ?_⟩
        intro hkn
        subst k1
        have hA' : Answered N (new ++ .rdone b p h k ic' ci :: tr) a p' i b p j k (rhr b p (initiation a p' i).1 c' j k bit no').1 :=
          ⟨⟨c', bit, no', at?_append new (at?_cons _ g1), rfl⟩, g3, k2.there, k2.back, k2.psk, k2.hash⟩
        rcases osk_pub hv (knows_pub hv hkn) with h | h
        · exact .inr (.inl h)
        · have e : ci.ck = chain p.h (own b) ([ic'.auth, rnd j .sid, (initiation a p' i).1.sidi, (rhr b p (initiation a p' i).1 c' j k bit no').1.auth, (rhr b p (initiation a p' i).1 c' j k bit no').1.biscuitCt] ++ (tR b p (initiation a p' i).1 j (rhr b p (initiation a p' i).1 c' j k bit no').1 ic'.auth).l17) := by
            rw [f4]; rfl
          rw [e] at h
          rcases matched_secret hv hA' h with h | h
          · exact .inl h
          · exact .inr (.inr h)


/-! ### Confirmation -/

/-- one step of the chaining key -/
def mixT (h : HashChoice) (ck x : Term) : Term := .hash h (.hash h ck (dom h .mix)) x

theorem mixT_inj {h h' : HashChoice} {ck ck' x x' : Term} (e : mixT h ck x = mixT h' ck' x') : h = h' ∧ ck = ck' ∧ x = x' := by
  injection e with e1 e2 e3
  injection e2 with _ e4 _
  exact ⟨e1, e4, e3⟩

theorem icr_shape {b : Nat} {p : PeerCfg} {h : HashChoice} {k : Nat} {ic : IC} {c : Core} (hr : icr b p h k ic = some c) :
    ∃ n no ck a2, ic.biscuitCt = .xaead (.name (.bkey b k)) n (biscuitAd h (own b) ic.sidi ic.sidr) (.bis p.pid no ck) ∧
      c = ⟨ic.sidi, ic.sidr, mixT p.h (mixT p.h (mixT p.h (mixT p.h (mixT p.h ck ic.biscuitCt) a2) ic.sidi) ic.sidr) ic.auth, p.h⟩ := by
  unfold icr at hr
  split at hr
  · cases hr
  · rename_i c' hl
    unfold loadBiscuit at hl
    split at hl
    · rename_i key n ad pid no ck heq
      split at hl
      · rename_i hk
        obtain ⟨rfl, rfl, rfl⟩ := hk
        injection hl with hl
        subst hl
        dsimp only [Core.encryptAndMix] at hr
        split at hr
        · cases hr
        · rename_i pt c'' hd
          obtain ⟨-, h2⟩ := dec_box hd
          injection hr with hr
          subst hr h2
          exact ⟨n, no, ck, _, heq, by rw [heq]; rfl⟩
      · cases hl
    · cases hl

theorem Corrupt.append {tr : Run} {n : Name} (new : Run) (h : Corrupt tr n) : Corrupt (new ++ tr) n := List.mem_append_right _ h

theorem PskOpen.append {tr : Run} {x : Psk} (new : Run) (h : PskOpen tr x) : PskOpen (new ++ tr) x := by
  cases x with
  | secret n => exact List.mem_append_right _ h
  | raw b => trivial

theorem KeyOpen.append {tr : Run} {x : Pk} {i : Nat} (new : Run) (h : KeyOpen tr i x) : KeyOpen (new ++ tr) i x := by
  cases x with
  | server b => exact Or.imp (List.mem_append_right _) (List.mem_append_right _) h
  | adv b => trivial
  | raw b => trivial

/-- **C92**, confirmation. When server `a` accepts an acknowledgement for its session, and the pre-shared key or the key of the peer is still secret, then
the server `b` that answered has a session with the same state (so the same output key), unless the biscuit key is corrupted. -/
theorem initiator_confirmation (N : Net) (tr : Run) (d a : Nat) (p : PeerCfg) (i : Nat) (rh : RH) (c : Core) (ic : IC) (ed : ED)
    (hv : Valid N (.iconf d a p i rh c ic ed :: tr)) (hs : ¬ (PskOpen tr p.psk ∧ KeyOpen tr i p.pk)) :
    ∃ b p' j k m, Answered N tr a p i b p' j k m ∧ (Corrupt tr (.bkey b k) ∨ ∃ e h ic', at? tr e = some (.rdone b p' h k ic' c)) := by
  cases hv with
  | iconf _ _ _ _ _ _ _ _ hv hd hk hr =>
    obtain ⟨new, old, rfl, -, hv'⟩ := hv.at hd
    cases hv' with
    | idone _ _ _ _ _ _ hv0 hi hk' hr' =>
      have hs' : ¬ (PskOpen old p.psk ∧ KeyOpen old i p.pk) :=
        fun ⟨h1, h2⟩ => hs ⟨by have := h1.append (new ++ [.idone a p i rh c ic]); simpa using this, by have := h2.append (new ++ [.idone a p i rh c ic]); simpa using this⟩
      obtain ⟨b, p', j, k, m, ih, c', bit, no, g1, g2, g3, g4, g5, g6, g7, g8⟩ := initiator_core hv0 hk' hr' hs'
      obtain ⟨k1, -, k3, -, -⟩ := answered_of g1 g7.cfg g3 g4 g6
      subst g5 k1
      obtain ⟨f1, -, -, -, -, -, f2⟩ := rhi_facts hr'
      have hat := at?_append new (at?_cons (.idone a p i rh c ic) g1)
      have hA : Answered N (new ++ .idone a p i rh c ic :: old) a p i b p' j k (rhr b p' (initiation a p i).1 c' j k bit no).1 :=
        ⟨⟨c', bit, no, hat, rfl⟩, g7.cfg, g7.there, g7.back, g7.psk, g7.hash⟩
      refine ⟨b, p', j, k, _, hA, ?_⟩
      have hno : ¬ AllOpen (new ++ .idone a p i rh c ic :: old) a p i b j := fun ⟨h1, h2, _⟩ => hs ⟨h1, by rw [g7.there]; exact h2⟩
      have e22 : c.ck = chain p'.h (own b) ([ic.auth, rh.sidr, rnd i .sid, rh.auth, rh.biscuitCt] ++
          (tR b p' (initiation a p i).1 j (rhr b p' (initiation a p i).1 c' j k bit no).1 Core.empty).l17) := by
        rw [← g6, f2, g3, g4]; rfl
      obtain ⟨nonce, pt, hed⟩ := hr
      have hp := knows_pub hv (hk ed.auth (by simp [ED.terms]))
      rw [hed] at hp
      rcases hp with hp | hp
      · have h := P.unkey hv (h' := p.h) (u := .resEnc) rfl hp.1
        rw [e22] at h
        rcases matched_secret hv hA h with h | h
        · exact .inl h
        · exact absurd h hno
      · cases maker hv Core.empty hp with
        | hello5 i' a' p' rh' h1 h2 => exact absurd h2.symm (key_ne_tkr _ _ _ _)
        | hello8 i' a' p' rh' h1 h2 => exact absurd h2.symm (key_ne_tkr _ _ _ _)
        | resp j b p' ih c' k bit no g1 g2 g3 g4 g5 => exact absurd g4.symm (key_ne_tkr _ _ _ _)
        | conf d a p' i rh ci ic' c1 c2 c0 c3 c4 => exact absurd c3.symm (key_ne_tkr _ _ _ _)
        | ack e b2 p2 h2 kk ic2 c2 a1 a2 a0 a3 =>
          injection a3 with q1 q2 _
          obtain ⟨n, no2, ck, x2, s1, s2⟩ := icr_shape a2
          have q3 : mixT p2.h (mixT p2.h (mixT p2.h (mixT p2.h (mixT p2.h ck ic2.biscuitCt) x2) ic2.sidi) ic2.sidr) ic2.auth =
            mixT p'.h (mixT p'.h (mixT p'.h (mixT p'.h (mixT p'.h (chain p'.h (own b) (tR b p' (initiation a p i).1 j (rhr b p' (initiation a p i).1 c' j k bit no).1 Core.empty).l17)
              rh.biscuitCt) rh.auth) (rnd i .sid)) rh.sidr) ic.auth := by
            have : c2.ck = mixT p2.h (mixT p2.h (mixT p2.h (mixT p2.h (mixT p2.h ck ic2.biscuitCt) x2) ic2.sidi) ic2.sidr) ic2.auth := by rw [s2]
            rw [← this, ← q2, e22]; rfl
          obtain ⟨m0, m1, -⟩ := mixT_inj q3
          obtain ⟨-, m2, m3⟩ := mixT_inj m1
          obtain ⟨-, m4, m5⟩ := mixT_inj m2
          obtain ⟨-, m6, -⟩ := mixT_inj m4
          obtain ⟨-, m7, m8⟩ := mixT_inj m6
          obtain ⟨new2, old2, hsp, -, hv2⟩ := hv.at a1
          cases hv2 with
          | rdone _ _ _ _ _ _ hv3 _ hk3 _ =>
            have hb := knows_pub hv3 (hk3 ic2.biscuitCt (by simp [IC.terms]))
            have hb := hb.append (new2 ++ [.rdone b2 p2 h2 kk ic2 c2])
            rw [List.append_assoc, List.singleton_append, ← hsp, s1] at hb
            rcases hb with hb | hb
            · have h : P (new ++ .idone a p i rh c ic :: old) ck := hb.2.2.2.2.2
              rw [m7] at h
              rcases matched_secret (l := []) hv hA h with h | h
              · exact .inl h
              · exact absurd h hno
            · obtain ⟨j3, b3, q, ih3, c3, k3', bit3, no3, t1, t2, t3, t4⟩ := issued_xaead hv hb
              rw [(rhr_facts t2 j3 k3' bit3 no3 Core.empty).2.2] at t4
              injection t4 with e1 _ _ e3
              injection e1 with e1
              injection e1 with e1 e1'
              subst e1 e1'
              injection e3 with e3 _ e4
              have e5 := e4.symm.trans m7
              rw [(rhr_facts t2 j3 kk bit3 no3 Core.empty).1] at e5
              obtain ⟨-, -, e6⟩ := chain_inj e5
              simp only [T.l17, List.cons.injEq] at e6
              have hj := (rnd_inj e6.2.2.2.2.2.2.2.1).1
              rw [hj, hat] at t1
              injection t1 with t1
              injection t1 with z1 z2 _ _ z3
              subst z1 z2 z3
              have : p2 = p' := N.uniq b p2 p' a0 g7.cfg e3
              subst this
              have hc : c2 = c := by
                rw [s2, f2]
                have : mixT p2.h (mixT p2.h (mixT p2.h (mixT p2.h (mixT p2.h ck ic2.biscuitCt) x2) ic2.sidi) ic2.sidr) ic2.auth = chain p.h p.pk.term (tI a p i rh ic.auth).l22 := by
                  have h1 : c2.ck = mixT p2.h (mixT p2.h (mixT p2.h (mixT p2.h (mixT p2.h ck ic2.biscuitCt) x2) ic2.sidi) ic2.sidr) ic2.auth := by rw [s2]
                  rw [← h1, ← q2, f2]
                rw [this, m3, m5, g3]
              subst hc
              exact .inr ⟨e, h2, ic2, a1⟩

/-! ### Fresh keys -/

/-- **C94.** Sessions that belong to different handshakes have different output keys, whatever the attacker does: two completed sessions of
initiators have the same key only if they come from the same handshake of the same server. -/
theorem initiator_keys_fresh (N : Net) (tr : Run) (hv : Valid N tr) (a p i rh c ic a' p' i' rh' c' ic') (h : .idone a p i rh c ic ∈ tr) (h' : .idone a' p' i' rh' c' ic' ∈ tr)
    (hk : osk c p = osk c' p') : i = i' ∧ a = a' ∧ p = p' ∧ c = c' ∧ ic = ic' := by
  obtain ⟨d, hd⟩ := mem_at? h
  obtain ⟨d', hd'⟩ := mem_at? h'
  obtain ⟨new, old, e1, -, hv1⟩ := hv.at hd
  obtain ⟨new', old', e2, -, hv2⟩ := hv.at hd'
  cases hv1 with
  | idone _ _ _ _ _ _ _ hi _ hr =>
    cases hv2 with
    | idone _ _ _ _ _ _ _ hi' _ hr' =>
      obtain ⟨-, -, x0, x1, x2, x3, x4⟩ := rhi_facts hr
      obtain ⟨-, -, y0, y1, y2, y3, y4⟩ := rhi_facts hr'
      have hk' : c.ck = c'.ck := by injection hk
      have hc := hk'
      rw [x4, y4] at hc
      obtain ⟨z1, z2, z3⟩ := chain_inj hc
      simp only [T.l22, T.l21, T.l19, T.l18, T.l17, T.l9, T.l8, T.l5, List.cons.injEq] at z3
      dsimp only [tI] at z3
      have hii : i = i' := (rnd_inj z3.2.2.1).1
      subst hii
      have hat : at? tr i = some (.init a p) := by rw [e1]; exact at?_append _ (at?_cons _ hi)
      have hat' : at? tr i = some (.init a' p') := by rw [e2]; exact at?_append _ (at?_cons _ hi')
      rw [hat] at hat'
      injection hat' with hat'
      injection hat' with w1 w2
      subst w1 w2
      refine ⟨rfl, rfl, rfl, ?_, IC.ext' (x1.trans y1.symm) ?_ ?_ z3.1⟩
      · rw [x4, y4] at hk' ⊢
        rw [Core.mk.injEq]
        exact ⟨rfl, z3.2.1, hk', rfl⟩
      · rw [x2, y2]; exact z3.2.1
      · rw [x3, y3]; exact z3.2.2.2.2.1

/-- Likewise for responders: sessions with the same output key come from the same InitConf, at the same server, for the same peer. (That the same InitConf
is not accepted twice is `recorded_conf_not_accepted_again`.) -/
theorem responder_keys_fresh (N : Net) (tr : Run) (hv : Valid N tr) (b p h k ic c b' p' h' k' ic' c') (hm : .rdone b p h k ic c ∈ tr) (hm' : .rdone b' p' h' k' ic' c' ∈ tr)
    (hk : osk c p = osk c' p') : b = b' ∧ p = p' ∧ h = h' ∧ k = k' ∧ ic = ic' ∧ c = c' := by
  obtain ⟨d, hd⟩ := mem_at? hm
  obtain ⟨d', hd'⟩ := mem_at? hm'
  obtain ⟨new, old, -, -, hv1⟩ := hv.at hd
  obtain ⟨new', old', -, -, hv2⟩ := hv.at hd'
  cases hv1 with
  | rdone _ _ _ _ _ _ _ hc _ hr =>
    cases hv2 with
    | rdone _ _ _ _ _ _ _ hc' _ hr' =>
      obtain ⟨n, no, ck, a2, x1, x2⟩ := icr_shape hr
      obtain ⟨n', no', ck', a2', y1, y2⟩ := icr_shape hr'
      have hck : c.ck = c'.ck := by injection hk
      rw [x2, y2] at hck
      obtain ⟨m1, m2, m3⟩ := mixT_inj hck
      obtain ⟨-, m4, m5⟩ := mixT_inj m2
      obtain ⟨-, m6, m7⟩ := mixT_inj m4
      obtain ⟨-, m8, m9⟩ := mixT_inj m6
      obtain ⟨-, -, m10⟩ := mixT_inj m8
      have hic : ic = ic' := IC.ext' m7 m5 m10 m3
      subst hic
      rw [x1] at y1
      injection y1 with e1 _ e2 e3
      injection e1 with e1
      injection e1 with e1 e4
      subst e1 e4
      injection e3 with e3 _ _
      have hp := N.uniq b p p' hc hc' e3
      subst hp
      injection e2 with e5
      refine ⟨rfl, rfl, e5, rfl, rfl, ?_⟩
      rw [x2, y2, m2]

/-- A session of an initiator and one of a responder have the same output key only if they belong together: same InitConf, same session state. -/
theorem cross_keys_fresh (N : Net) (tr : Run) (hv : Valid N tr) (a p i rh c ic b p' h' k' ic' c') (hm : .idone a p i rh c ic ∈ tr) (hm' : .rdone b p' h' k' ic' c' ∈ tr)
    (hk : osk c p = osk c' p') : ic = ic' ∧ c = c' ∧ p'.h = p.h := by
  obtain ⟨d, hd⟩ := mem_at? hm
  obtain ⟨d', hd'⟩ := mem_at? hm'
  obtain ⟨new, old, -, -, hv1⟩ := hv.at hd
  obtain ⟨new', old', -, -, hv2⟩ := hv.at hd'
  cases hv1 with
  | idone _ _ _ _ _ _ _ hi _ hr =>
    cases hv2 with
    | rdone _ _ _ _ _ _ _ hc' _ hr' =>
      obtain ⟨-, -, x0, x1, x2, x3, x4⟩ := rhi_facts hr
      obtain ⟨n', no', ck', a2', y1, y2⟩ := icr_shape hr'
      have hck : c.ck = c'.ck := by injection hk
      have hck' := hck
      rw [x4, y2] at hck
      have hck : mixT p.h (mixT p.h (mixT p.h (mixT p.h (mixT p.h (chain p.h p.pk.term (tI a p i rh ic.auth).l17) rh.biscuitCt) rh.auth) (rnd i .sid)) rh.sidr) ic.auth = _ := hck
      obtain ⟨m1, m2, m3⟩ := mixT_inj hck
      obtain ⟨-, m4, m5⟩ := mixT_inj m2
      obtain ⟨-, m6, m7⟩ := mixT_inj m4
      obtain ⟨-, m8, m9⟩ := mixT_inj m6
      obtain ⟨-, -, m10⟩ := mixT_inj m8
      have hic : ic = ic' := IC.ext' (x1.trans m7) (x2.trans m5) (x3.trans m10) m3
      subst hic
      refine ⟨rfl, ?_, m1.symm⟩
      have c1 : c = ⟨ic.sidi, ic.sidr, c.ck, p.h⟩ := by rw [x1, x2]; rw [x4]
      have c2 : c' = ⟨ic.sidi, ic.sidr, c'.ck, p'.h⟩ := by rw [y2]
      rw [c1, c2, hck', m1]

end Verif.Sym
