import Verif.Thm.Anonymity
/-
Companions of C110: recipes compute exactly what the attacker can know; runs with every visible course exist and are runs of the protocol; who has the responder's secret key
can tell runs apart.
-/
namespace Verif.Sym
open Term
open Core (empty)

theorem Computes.functional {G : Name → Prop} {seen : List Term} {M : Recipe} {t t' : Term} (h : Computes G seen M t) (h' : Computes G seen M t') : t = t' := by
  induction h generalizing t' with
  | handle h => cases h' with | handle h' => rw [h] at h'; injection h'
  | const => cases h'; rfl
  | given => cases h'; rfl
  | server => cases h'; rfl
  | spk _ i1 => cases h' with | spk a => rw [i1 a]
  | epk _ i1 => cases h' with | epk a => rw [i1 a]
  | hash _ _ _ i1 i2 => cases h' with | hash _ a b => rw [i1 a, i2 b]
  | aead _ _ _ _ i1 i2 i3 i4 => cases h' with | aead a b c d => rw [i1 a, i2 b, i3 c, i4 d]
  | open_ _ _ i1 _ => cases h' with | open_ a b => have := i1 a; injection this
  | xaead _ _ _ _ i1 i2 i3 i4 => cases h' with | xaead a b c d => rw [i1 a, i2 b, i3 c, i4 d]
  | xopen _ _ i1 _ => cases h' with | xopen a b => have := i1 a; injection this
  | xnonce _ i1 => cases h' with | xnonce a => have := i1 a; injection this
  | bnonce _ _ i1 => cases h' with | bnonce _ a => rw [i1 a]
  | unbnonce _ i1 => cases h' with | unbnonce a => have := i1 a; injection this
  | sct _ _ i1 i2 => cases h' with | sct a b => rw [i1 a, i2 b]
  | sss _ _ i1 i2 => cases h' with | sss a b => rw [i1 a, i2 b]
  | sdec _ _ i1 i2 => cases h' with | sdec a b => rw [i1 a, i2 b]
  | ect _ _ i1 i2 => cases h' with | ect a b => rw [i1 a, i2 b]
  | ess _ _ i1 i2 => cases h' with | ess a b => rw [i1 a, i2 b]
  | edec _ _ i1 i2 => cases h' with | edec a b => rw [i1 a, i2 b]
  | bis _ _ _ i1 i2 i3 => cases h' with | bis a b c => rw [i1 a, i2 b, i3 c]
  | bisPid _ i1 => cases h' with | bisPid a => have := i1 a; injection this
  | bisNo _ i1 => cases h' with | bisNo a => have := i1 a; injection this
  | bisCk _ i1 => cases h' with | bisCk a => have := i1 a; injection this

/-- Recipes over the messages of a run, with the corrupted secrets, compute exactly what the attacker of C92 knows. -/
theorem knows_iff_computes (tr : Run) (hr : ∀ c p, .reveal c p ∉ tr) (t : Term) :
    Knows tr t ↔ ∃ M, Computes (fun n => .corrupt n ∈ tr ∨ ∃ k, n = .adv k) (sent tr) M t := by
  constructor
  · intro h
    induction h with
    | sent h => obtain ⟨i, h⟩ := List.mem_iff_getElem?.mp h; exact ⟨_, .handle h⟩
    | const b => exact ⟨_, .const b⟩
    | adv n => exact ⟨_, .given (.inr ⟨n, rfl⟩)⟩
    | serverKey a => exact ⟨_, .server a⟩
    | corrupt h => exact ⟨_, .given (.inl h)⟩
    | reveal h => exact absurd h (hr _ _)
    | spk _ i1 => obtain ⟨_, c1⟩ := i1; exact ⟨_, .spk c1⟩
    | epk _ i1 => obtain ⟨_, c1⟩ := i1; exact ⟨_, .epk c1⟩
    | hash h _ _ i1 i2 => obtain ⟨_, c1⟩ := i1; obtain ⟨_, c2⟩ := i2; exact ⟨_, .hash h c1 c2⟩
    | aead _ _ _ _ i1 i2 i3 i4 => obtain ⟨_, c1⟩ := i1; obtain ⟨_, c2⟩ := i2; obtain ⟨_, c3⟩ := i3; obtain ⟨_, c4⟩ := i4; exact ⟨_, .aead c1 c2 c3 c4⟩
    | open_ _ _ i1 i2 => obtain ⟨_, c1⟩ := i1; obtain ⟨_, c2⟩ := i2; exact ⟨_, .open_ c1 c2⟩
    | xaead _ _ _ _ i1 i2 i3 i4 => obtain ⟨_, c1⟩ := i1; obtain ⟨_, c2⟩ := i2; obtain ⟨_, c3⟩ := i3; obtain ⟨_, c4⟩ := i4; exact ⟨_, .xaead c1 c2 c3 c4⟩
    | xopen _ _ i1 i2 => obtain ⟨_, c1⟩ := i1; obtain ⟨_, c2⟩ := i2; exact ⟨_, .xopen c1 c2⟩
    | xnonce _ i1 => obtain ⟨_, c1⟩ := i1; exact ⟨_, .xnonce c1⟩
    | bnonce bit _ i1 => obtain ⟨_, c1⟩ := i1; exact ⟨_, .bnonce bit c1⟩
    | unbnonce _ i1 => obtain ⟨_, c1⟩ := i1; exact ⟨_, .unbnonce c1⟩
    | sct _ _ i1 i2 => obtain ⟨_, c1⟩ := i1; obtain ⟨_, c2⟩ := i2; exact ⟨_, .sct c1 c2⟩
    | sss _ _ i1 i2 => obtain ⟨_, c1⟩ := i1; obtain ⟨_, c2⟩ := i2; exact ⟨_, .sss c1 c2⟩
    | sdec _ _ i1 i2 => obtain ⟨_, c1⟩ := i1; obtain ⟨_, c2⟩ := i2; exact ⟨_, .sdec c1 c2⟩
    | ect _ _ i1 i2 => obtain ⟨_, c1⟩ := i1; obtain ⟨_, c2⟩ := i2; exact ⟨_, .ect c1 c2⟩
    | ess _ _ i1 i2 => obtain ⟨_, c1⟩ := i1; obtain ⟨_, c2⟩ := i2; exact ⟨_, .ess c1 c2⟩
    | edec _ _ i1 i2 => obtain ⟨_, c1⟩ := i1; obtain ⟨_, c2⟩ := i2; exact ⟨_, .edec c1 c2⟩
    | bis _ _ _ i1 i2 i3 => obtain ⟨_, c1⟩ := i1; obtain ⟨_, c2⟩ := i2; obtain ⟨_, c3⟩ := i3; exact ⟨_, .bis c1 c2 c3⟩
    | bisPid _ i1 => obtain ⟨_, c1⟩ := i1; exact ⟨_, .bisPid c1⟩
    | bisNo _ i1 => obtain ⟨_, c1⟩ := i1; exact ⟨_, .bisNo c1⟩
    | bisCk _ i1 => obtain ⟨_, c1⟩ := i1; exact ⟨_, .bisCk c1⟩
  · rintro ⟨M, h⟩
    induction h with
    | handle h => exact .sent (List.mem_iff_getElem?.mpr ⟨_, h⟩)
    | const b => exact .const b
    | given h =>
      rcases h with h | ⟨k, rfl⟩
      · exact .corrupt h
      · exact .adv k
    | server a => exact .serverKey a
    | spk _ i1 => exact .spk i1
    | epk _ i1 => exact .epk i1
    | hash h _ _ i1 i2 => exact .hash h i1 i2
    | aead _ _ _ _ i1 i2 i3 i4 => exact .aead i1 i2 i3 i4
    | open_ _ _ i1 i2 => exact .open_ i1 i2
    | xaead _ _ _ _ i1 i2 i3 i4 => exact .xaead i1 i2 i3 i4
    | xopen _ _ i1 i2 => exact .xopen i1 i2
    | xnonce _ i1 => exact .xnonce i1
    | bnonce bit _ i1 => exact .bnonce bit i1
    | unbnonce _ i1 => exact .unbnonce i1
    | sct _ _ i1 i2 => exact .sct i1 i2
    | sss _ _ i1 i2 => exact .sss i1 i2
    | sdec _ _ i1 i2 => exact .sdec i1 i2
    | ect _ _ i1 i2 => exact .ect i1 i2
    | ess _ _ i1 i2 => exact .ess i1 i2
    | edec _ _ i1 i2 => exact .edec i1 i2
    | bis _ _ _ i1 i2 i3 => exact .bis i1 i2 i3
    | bisPid _ i1 => exact .bisPid i1
    | bisNo _ i1 => exact .bisNo i1
    | bisCk _ i1 => exact .bisCk i1

/-- the servers are configured for what they do in the run -/
def Configured (N : Net) (tr : Run) : Prop :=
  ∀ e ∈ tr, match e with
    | .init a p => N.cfg a p
    | .resp b p' _ _ _ _ _ => N.cfg b p'
    | .rdone b p' _ _ _ _ => N.cfg b p'
    | _ => True

/-- The runs of C110 are runs of the protocol (those in which the attacker only watches). -/
theorem Follows.valid {N : Net} {s : List Act} {tr : Run} (h : Follows s tr) (hc : Configured N tr) : Valid N tr := by
  induction h with
  | nil => exact .nil
  | start a p _ ih => exact .init a p (ih fun e he => hc e (.tail _ he)) (hc _ (.head _))
  | answer b p' c k bit no _ hi hr ih =>
    exact .resp b p' _ c k bit no (ih fun e he => hc e (.tail _ he)) (hc _ (.head _)) (fun t ht => knows_at hi ht) hr
  | finish a p i c ic _ hj hi hr ih =>
    exact .idone a p i _ c ic (ih fun e he => hc e (.tail _ he)) hi (fun t ht => knows_at hj ht) hr
  | confirm b p' h k c' _ hd hr ih =>
    exact .rdone b p' h k _ c' (ih fun e he => hc e (.tail _ he)) (hc _ (.head _)) (fun t ht => knows_at hd ht) hr

/-- Any two servers with fitting entries can complete a handshake that is only watched. -/
theorem follows_exchange {a : Nat} {p : PeerCfg} {b : Nat} {p' : PeerCfg} (hf : Fits a p b p') (k : Nat) (bit : Bool) (no : Bytes) {s : List Act} {tr : Run} (h : Follows s tr) :
    ∃ c ic, Follows (.confirm (s.length + 2) :: .finish (s.length + 1) :: .answer s.length bit :: .start :: s)
      (.rdone b p' p'.h k ic c :: .idone a p s.length (mOf (s.length + 1) s.length a p b p' k bit no) c ic ::
        .resp b p' (initiation a p s.length).1 (initiation a p s.length).2 k bit no :: .init a p :: tr) := by
  obtain ⟨c, ic, h1, h2⟩ := honest_rhi hf s.length (s.length + 1) k bit no
  refine ⟨c, ic, ?_⟩
  have hl := h.length
  rw [← hl] at h1 ⊢
  have f1 := Follows.start a p h
  have f2 := Follows.answer b p' _ k bit no f1 (at?_head _ _) (honest_ihr hf tr.length)
  have f3 := Follows.finish a p tr.length c ic f2 (at?_head _ _) (at?_cons _ (at?_head _ _)) h1
  exact Follows.confirm b p' p'.h k c f3 (at?_head _ _) h2

/-! ### The keys must be hidden -/

/-- a public value, computed from constants -/
def domR (h : HashChoice) (u : HashDomain.Purpose) : Recipe :=
  (u.labels.map Recipe.const).foldl (fun k v => .hash h k v) (.hash h (.const zero32) (.const (HashDomain.protocolLabel h)))

theorem domR_computes (G : Name → Prop) (seen : List Term) (h : HashChoice) (u : HashDomain.Purpose) : Computes G seen (domR h u) (dom h u) := by
  have : ∀ (l : List Bytes) (k : Recipe) (t : Term), Computes G seen k t →
      Computes G seen ((l.map Recipe.const).foldl (fun k v => .hash h k v) k) (mixMany h t (l.map .const)) := by
    intro l
    induction l with
    | nil => intro k t h; exact h
    | cons x l ih => intro k t hk; exact ih _ _ (.hash h hk (.const x))
  exact this _ _ _ (.hash h (.const _) (.const _))

/-- the key of the first ciphertext of InitHello, as computed by server `b` -/
def pidiKeyR (h : HashChoice) (b : Nat) : Recipe :=
  let mix := fun k x => Recipe.hash h (.hash h k (domR h .mix)) x
  .hash h (mix (mix (mix (mix (mix (.hash h (domR h .ckinit) (.server b)) (.handle 0)) (.handle 1)) (.server b)) (.sdec (.given (.ssk b)) (.handle 2))) (.handle 2)) (domR h .hsEnc)

theorem pidiKeyR_computes {G : Name → Prop} {seen : List Term} {h : HashChoice} {b : Nat} (hg : G (.ssk b)) {x y z : Term} (h0 : seen[0]? = some x) (h1 : seen[1]? = some y)
    (h2 : seen[2]? = some z) : Computes G seen (pidiKeyR h b) (key h (chain h (own b) [z, sdec (.name (.ssk b)) z, own b, y, x])) := by
  have d := domR_computes G seen h
  have m : ∀ {k x : Recipe} {t u : Term}, Computes G seen k t → Computes G seen x u → Computes G seen (.hash h (.hash h k (domR h .mix)) x) (.hash h (.hash h t (dom h .mix)) u) :=
    fun a b => .hash h (.hash h a (d _)) b
  exact .hash h (m (m (m (m (m (.hash h (d _) (.server b)) (.handle h0)) (.handle h1)) (.server b)) (.sdec (.given hg) (.handle h2))) (.handle h2)) (d _)

/-- With the secret key of a responder, handshakes with it and handshakes with others are told apart: the hypothesis of `observer_blind_partial` is needed. -/
theorem insider_tells (G : Name → Prop) (a a' : Nat) (p p' : PeerCfg) (b b' : Nat) (hp : p.pk = .server b) (hp' : p'.pk = .server b') (hne : b ≠ b') (hg : G (.ssk b)) :
    Follows [.start] [.init a p] ∧ Follows [.start] [.init a' p'] ∧ ¬ Indistinguishable G (sent [.init a p]) (sent [.init a' p']) := by
  refine ⟨.start a p .nil, .start a' p' .nil, fun hi => ?_⟩
  have h1 : Computes G (sent [.init a p]) (.open_ (.handle 3) (pidiKeyR p.h b)) (.hash p.h (dom p.h .peerid) (own a)) := by
    refine .open_ (k := key p.h (chain p.h p.pk.term (tI a p 0 rh0 empty).l5)) (n := Core.nonce0) (ad := Core.empty) (.handle rfl) ?_
    have := pidiKeyR_computes (seen := sent [.init a p]) (h := p.h) hg rfl rfl rfl
    rw [show (initiation a p [].length).1.sctr = .sct (rnd 0 .scoins) (own b) by show Term.sct _ p.pk.term = _; rw [hp]; rfl] at this
    rw [show sdec (.name (.ssk b)) (.sct (rnd 0 .scoins) (own b)) = .sss (rnd 0 .scoins) (own b) from sdec_sct _ _] at this
    rw [show p.pk.term = own b by rw [hp]; rfl, show (tI a p 0 rh0 empty).l5 = [.sct (rnd 0 .scoins) (own b), .sss (rnd 0 .scoins) (own b), own b, .epk (rnd 0 .kcoins), rnd 0 .sid] by
      simp only [T.l5, tI]; rw [hp]; rfl]
    exact this
  obtain ⟨t, h2, -⟩ := (hi (.open_ (.handle 3) (pidiKeyR p.h b)) (.open_ (.handle 3) (pidiKeyR p.h b))).mp ⟨_, h1, h1⟩
  cases h2 with
  | open_ ha hb =>
    cases ha with
    | handle ha =>
      have ha : some (box p'.h (chain p'.h p'.pk.term (tI a' p' 0 rh0 empty).l5) (.hash p'.h (dom p'.h .peerid) (own a'))) = some _ := ha
      injection ha with ha
      injection ha with ha
      have hk := pidiKeyR_computes (seen := sent [.init a' p']) (h := p.h) hg rfl rfl rfl
      have e := hk.functional hb
      rw [← ha] at e
      obtain ⟨-, e⟩ := key_inj e
      obtain ⟨-, e, -⟩ := chain_inj e
      rw [show p'.pk.term = own b' by rw [hp']; rfl] at e
      have e : Term.spk (.name (.ssk b)) = .spk (.name (.ssk b')) := e
      injection e with e
      injection e with e
      injection e with e
      exact hne e

/-- The hypotheses of `observer_blind_partial` are met: server 1 talks to server 2 in one run, server 3 to server 4 in the other, with different pre-shared keys and hash functions; the observer
has all pre-shared keys and the secret keys of all other servers. -/
example : ∃ tr tr' : Run, Indistinguishable (fun n => (∃ k, n = .psk k) ∨ (∃ k, n = .adv k) ∨ ∃ c, 4 < c ∧ n = .ssk c) (sent tr) (sent tr') ∧
    (∃ p, p.pk = .server 2 ∧ .init 1 p ∈ tr) ∧ (∃ p, p.pk = .server 4 ∧ .init 3 p ∈ tr') ∧ (sent tr).length = 18 := by
  obtain ⟨c, ic, h⟩ := follows_exchange (a := 1) (p := ⟨.server 2, .secret 0, .shake, .wireguardPsk⟩) (b := 2) (p' := ⟨.server 1, .secret 0, .shake, .wireguardPsk⟩) ⟨rfl, rfl, rfl, rfl⟩ 0 false [1] .nil
  obtain ⟨c', ic', h'⟩ := follows_exchange (a := 3) (p := ⟨.server 4, .secret 1, .blake, .wireguardPsk⟩) (b := 4) (p' := ⟨.server 3, .secret 1, .blake, .wireguardPsk⟩) ⟨rfl, rfl, rfl, rfl⟩ 5 false [2] .nil
  refine ⟨_, _, observer_blind_partial _ _ _ _ h h' ⟨?_, ?_, ?_⟩ ⟨?_, ?_, ?_⟩, ⟨_, rfl, .tail _ (.tail _ (.tail _ (.head _)))⟩, ⟨_, rfl, .tail _ (.tail _ (.tail _ (.head _)))⟩, rfl⟩
  · rintro i k (⟨_, h⟩ | ⟨_, h⟩ | ⟨_, _, h⟩) <;> cases h
  · intro a p hm
    simp only [List.mem_cons, List.not_mem_nil, or_false, reduceCtorEq, false_or, Ev.init.injEq] at hm
    obtain ⟨rfl, rfl⟩ := hm
    refine ⟨?_, 2, rfl, ?_⟩
    · rintro (⟨_, h⟩ | ⟨_, h⟩ | ⟨c, hc, h⟩) <;> cases h; omega
    · rintro (⟨_, h⟩ | ⟨_, h⟩ | ⟨c, hc, h⟩) <;> cases h; omega
  · rintro b p' ih c k bit no - (⟨_, h⟩ | ⟨_, h⟩ | ⟨_, _, h⟩) <;> cases h
  · rintro i k (⟨_, h⟩ | ⟨_, h⟩ | ⟨_, _, h⟩) <;> cases h
  · intro a p hm
    simp only [List.mem_cons, List.not_mem_nil, or_false, reduceCtorEq, false_or, Ev.init.injEq] at hm
    obtain ⟨rfl, rfl⟩ := hm
    refine ⟨?_, 4, rfl, ?_⟩
    · rintro (⟨_, h⟩ | ⟨_, h⟩ | ⟨c, hc, h⟩) <;> cases h; omega
    · rintro (⟨_, h⟩ | ⟨_, h⟩ | ⟨c, hc, h⟩) <;> cases h; omega
  · rintro b p' ih c k bit no - (⟨_, h⟩ | ⟨_, h⟩ | ⟨_, _, h⟩) <;> cases h

end Verif.Sym
