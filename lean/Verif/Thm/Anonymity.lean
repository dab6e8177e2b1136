import Verif.Thm.SymbolicEx
/-
Identity hiding, for an observer of the network: what the payloads of the handshake messages say about who talks to whom.

Recipes are the computations an observer can do on what it has seen; two lists of messages are indistinguishable if no test "these two
computations give the same value" tells them apart (static equivalence).
-/
namespace Verif.Sym
open Term
open Core (empty)

/-! ### Specification -/

/-- A computation on observed values: `handle i` is the `i`-th of them. -/
inductive Recipe where
  | handle (i : Nat)
  | const (b : Bytes)
  | given (n : Name)
  | server (a : Nat)
  | spk (x : Recipe)
  | epk (x : Recipe)
  | hash (h : HashChoice) (k d : Recipe)
  | aead (k n ad pt : Recipe)
  | open_ (ct k : Recipe)
  | xaead (k n ad pt : Recipe)
  | xopen (ct k : Recipe)
  | xnonce (ct : Recipe)
  | bnonce (n : Recipe) (bit : Bool)
  | unbnonce (n : Recipe)
  | sct (r pk : Recipe)
  | sss (r pk : Recipe)
  | sdec (sk ct : Recipe)
  | ect (r pk : Recipe)
  | ess (r pk : Recipe)
  | edec (r ct : Recipe)
  | bis (a b c : Recipe)
  | bisPid (x : Recipe)
  | bisNo (x : Recipe)
  | bisCk (x : Recipe)

/-- The value of a computation, for someone who has seen the values `seen` and has the secrets `G`; it has none if a decryption in it fails. -/
inductive Computes (G : Name → Prop) (seen : List Term) : Recipe → Term → Prop where
  | handle {i t} : seen[i]? = some t → Computes G seen (.handle i) t
  | const (b) : Computes G seen (.const b) (.const b)
  | given {n} : G n → Computes G seen (.given n) (.name n)
  | server (a) : Computes G seen (.server a) (own a)
  | spk {x t} : Computes G seen x t → Computes G seen (.spk x) (.spk t)
  | epk {x t} : Computes G seen x t → Computes G seen (.epk x) (.epk t)
  | hash (h) {x y k d} : Computes G seen x k → Computes G seen y d → Computes G seen (.hash h x y) (.hash h k d)
  | aead {x y z w k n ad pt} : Computes G seen x k → Computes G seen y n → Computes G seen z ad → Computes G seen w pt → Computes G seen (.aead x y z w) (.aead k n ad pt)
  | open_ {x y k n ad pt} : Computes G seen x (.aead k n ad pt) → Computes G seen y k → Computes G seen (.open_ x y) pt
  | xaead {x y z w k n ad pt} : Computes G seen x k → Computes G seen y n → Computes G seen z ad → Computes G seen w pt → Computes G seen (.xaead x y z w) (.xaead k n ad pt)
  | xopen {x y k n ad pt} : Computes G seen x (.xaead k n ad pt) → Computes G seen y k → Computes G seen (.xopen x y) pt
  | xnonce {x k n ad pt} : Computes G seen x (.xaead k n ad pt) → Computes G seen (.xnonce x) n
  | bnonce {x n} (bit) : Computes G seen x n → Computes G seen (.bnonce x bit) (.bnonce n bit)
  | unbnonce {x n bit} : Computes G seen x (.bnonce n bit) → Computes G seen (.unbnonce x) n
  | sct {x y r pk} : Computes G seen x r → Computes G seen y pk → Computes G seen (.sct x y) (.sct r pk)
  | sss {x y r pk} : Computes G seen x r → Computes G seen y pk → Computes G seen (.sss x y) (.sss r pk)
  | sdec {x y sk ct} : Computes G seen x sk → Computes G seen y ct → Computes G seen (.sdec x y) (sdec sk ct)
  | ect {x y r pk} : Computes G seen x r → Computes G seen y pk → Computes G seen (.ect x y) (.ect r pk)
  | ess {x y r pk} : Computes G seen x r → Computes G seen y pk → Computes G seen (.ess x y) (.ess r pk)
  | edec {x y r ct} : Computes G seen x r → Computes G seen y ct → Computes G seen (.edec x y) (edec r ct)
  | bis {x y z a b c} : Computes G seen x a → Computes G seen y b → Computes G seen z c → Computes G seen (.bis x y z) (.bis a b c)
  | bisPid {x a b c} : Computes G seen x (.bis a b c) → Computes G seen (.bisPid x) a
  | bisNo {x a b c} : Computes G seen x (.bis a b c) → Computes G seen (.bisNo x) b
  | bisCk {x a b c} : Computes G seen x (.bis a b c) → Computes G seen (.bisCk x) c

/-- Nobody who has the secrets `G` can tell the observations apart: whatever two computations he compares, they agree on the one if and only if they agree
on the other. (With twice the same computation: it succeeds on the one if and only if it succeeds on the other.) -/
def Indistinguishable (G : Name → Prop) (seen seen' : List Term) : Prop :=
  ∀ M N, (∃ t, Computes G seen M t ∧ Computes G seen N t) ↔ (∃ t, Computes G seen' M t ∧ Computes G seen' N t)

/-- What an observer sees happening, without the contents: a handshake is started; the InitHello of step `i` is answered, using the biscuit key in place `bit`; the
RespHello of step `j` is answered; the InitConf of step `d` is acknowledged. -/
inductive Act where
  | start
  | answer (i : Nat) (bit : Bool)
  | finish (j : Nat)
  | confirm (d : Nat)

/-- `Follows s tr`: run `tr` has the visible course `s` (newest step first). Every message that is received was sent by a server; it may be lost, delayed,
reordered, delivered several times or to the wrong server (which then does not answer). -/
inductive Follows : List Act → Run → Prop where
  | nil : Follows [] []
  | start {s tr} (a p) : Follows s tr → Follows (.start :: s) (.init a p :: tr)
  | answer {s tr a p i} (b p' c k bit no) : Follows s tr → at? tr i = some (.init a p) → ihr b p' p'.h (initiation a p i).1 = some c →
      Follows (.answer i bit :: s) (.resp b p' (initiation a p i).1 c k bit no :: tr)
  | finish {s tr b p' ih c0 j k bit no} (a p i c ic) : Follows s tr → at? tr j = some (.resp b p' ih c0 k bit no) → at? tr i = some (.init a p) →
      rhi a p i (rhr b p' ih c0 j k bit no).1 = some (c, ic) → Follows (.finish j :: s) (.idone a p i (rhr b p' ih c0 j k bit no).1 c ic :: tr)
  | confirm {s tr d a p i rh c ic} (b p' h k c') : Follows s tr → at? tr d = some (.idone a p i rh c ic) → icr b p' h k ic = some c' →
      Follows (.confirm d :: s) (.rdone b p' h k ic c' :: tr)

/-- The observer does not have the random values of the handshakes, the static secret keys of those who take part in `tr`, and the biscuit keys that were used.
(He may have the pre-shared keys, the keys of everybody else, and knows all public keys.) -/
structure Hidden (G : Name → Prop) (tr : Run) : Prop where
  rnd : ∀ i k, ¬ G (.rnd i k)
  ini : ∀ a p, .init a p ∈ tr → ¬ G (.ssk a) ∧ ∃ b, p.pk = .server b ∧ ¬ G (.ssk b)
  bkey : ∀ b p' ih c k bit no, .resp b p' ih c k bit no ∈ tr → ¬ G (.bkey b k)

/-! ### Two observations that match -/

/-- Values that correspond in two observations: the observed ones (`B`), what is known to everybody, and what can be made of them. -/
inductive Rel (B : Term → Term → Prop) (G : Name → Prop) : Term → Term → Prop where
  | base {t t'} : B t t' → Rel B G t t'
  | const (b) : Rel B G (.const b) (.const b)
  | given {n} : G n → Rel B G (.name n) (.name n)
  | server (a) : Rel B G (own a) (own a)
  | spk {t t'} : Rel B G t t' → Rel B G (.spk t) (.spk t')
  | epk {t t'} : Rel B G t t' → Rel B G (.epk t) (.epk t')
  | hash (h) {k k' d d'} : Rel B G k k' → Rel B G d d' → Rel B G (.hash h k d) (.hash h k' d')
  | aead {k k' n n' ad ad' pt pt'} : Rel B G k k' → Rel B G n n' → Rel B G ad ad' → Rel B G pt pt' → Rel B G (.aead k n ad pt) (.aead k' n' ad' pt')
  | xaead {k k' n n' ad ad' pt pt'} : Rel B G k k' → Rel B G n n' → Rel B G ad ad' → Rel B G pt pt' → Rel B G (.xaead k n ad pt) (.xaead k' n' ad' pt')
  | bnonce {n n'} (bit) : Rel B G n n' → Rel B G (.bnonce n bit) (.bnonce n' bit)
  | sct {r r' k k'} : Rel B G r r' → Rel B G k k' → Rel B G (.sct r k) (.sct r' k')
  | sss {r r' k k'} : Rel B G r r' → Rel B G k k' → Rel B G (.sss r k) (.sss r' k')
  | srej {r r' k k'} : Rel B G r r' → Rel B G k k' → Rel B G (.srej r k) (.srej r' k')
  | ect {r r' k k'} : Rel B G r r' → Rel B G k k' → Rel B G (.ect r k) (.ect r' k')
  | ess {r r' k k'} : Rel B G r r' → Rel B G k k' → Rel B G (.ess r k) (.ess r' k')
  | erej {r r' k k'} : Rel B G r r' → Rel B G k k' → Rel B G (.erej r k) (.erej r' k')
  | bis {a a' b b' c c'} : Rel B G a a' → Rel B G b b' → Rel B G c c' → Rel B G (.bis a b c) (.bis a' b' c')

/-- the observations exchanged -/
def swap (B : Term → Term → Prop) : Term → Term → Prop := fun t t' => B t' t

theorem Rel.swap {B : Term → Term → Prop} {G : Name → Prop} {t t' : Term} (h : Rel B G t t') : Rel (swap B) G t' t := by
  induction h with
  | base h => exact .base h
  | const b => exact .const b
  | given h => exact .given h
  | server a => exact .server a
  | spk _ i1 => exact .spk i1
  | epk _ i1 => exact .epk i1
  | hash h _ _ i1 i2 => exact .hash h i1 i2
  | aead _ _ _ _ i1 i2 i3 i4 => exact .aead i1 i2 i3 i4
  | xaead _ _ _ _ i1 i2 i3 i4 => exact .xaead i1 i2 i3 i4
  | bnonce bit _ i1 => exact .bnonce bit i1
  | sct _ _ i1 i2 => exact .sct i1 i2
  | sss _ _ i1 i2 => exact .sss i1 i2
  | srej _ _ i1 i2 => exact .srej i1 i2
  | ect _ _ i1 i2 => exact .ect i1 i2
  | ess _ _ i1 i2 => exact .ess i1 i2
  | erej _ _ i1 i2 => exact .erej i1 i2
  | bis _ _ _ i1 i2 i3 => exact .bis i1 i2 i3

/-- nothing corresponds to this value: it cannot be computed -/
def Dead (B : Term → Term → Prop) (G : Name → Prop) (t : Term) : Prop := ∀ x, ¬ Rel B G t x

/-- Pairs of observed values, of which the observer cannot look into the ciphertexts. -/
inductive Shape (B : Term → Term → Prop) (G : Name → Prop) : Term → Term → Prop where
  | name (n) : Shape B G (.name n) (.name n)
  | epk (n) : Dead B G (.name n) → Dead (swap B) G (.name n) → Shape B G (.epk (.name n)) (.epk (.name n))
  | sct (n b b') : Dead B G (.name n) → Dead (swap B) G (.name n) → Dead B G (.name (.ssk b)) → Dead (swap B) G (.name (.ssk b')) →
      Shape B G (.sct (.name n) (own b)) (.sct (.name n) (own b'))
  | ect (n m) : Dead B G (.name n) → Dead (swap B) G (.name n) → Dead B G (.name m) → Dead (swap B) G (.name m) →
      Shape B G (.ect (.name n) (.epk (.name m))) (.ect (.name n) (.epk (.name m)))
  | aead {k k' n n' ad ad' pt pt'} : Dead B G k → Dead (swap B) G k' → Shape B G (.aead k n ad pt) (.aead k' n' ad' pt')
  | xaead {k k' n bit ad ad' pt pt'} : Dead B G k → Dead (swap B) G k' → B (.name n) (.name n) → Shape B G (.xaead k (.bnonce (.name n) bit) ad pt) (.xaead k' (.bnonce (.name n) bit) ad' pt')

theorem Shape.swap {B : Term → Term → Prop} {G : Name → Prop} {t t' : Term} (h : Shape B G t t') : Shape (swap B) G t' t := by
  cases h with
  | name n => exact .name n
  | epk n h1 h2 => exact .epk n h2 h1
  | sct n b b' h1 h2 h3 h4 => exact .sct n b' b h2 h1 h4 h3
  | ect n m h1 h2 h3 h4 => exact .ect n m h2 h1 h4 h3
  | aead h1 h2 => exact .aead h2 h1
  | xaead h1 h2 h3 => exact .xaead h2 h1 h3

/-- Two observations match. -/
structure Base (B : Term → Term → Prop) (G : Name → Prop) : Prop where
  fwd : ∀ t t1 t2, B t t1 → B t t2 → t1 = t2
  bwd : ∀ t t1 t2, B t1 t → B t2 t → t1 = t2
  shape : ∀ t t', B t t' → Shape B G t t'

variable {B : Term → Term → Prop} {G : Name → Prop}

theorem Base.swap (h : Base B G) : Base (swap B) G := ⟨h.bwd, h.fwd, fun t t' hb => (h.shape t' t hb).swap⟩

theorem Base.name (hB : Base B G) {n : Name} {x : Term} (h : Rel B G (.name n) x) : x = .name n := by
  cases h with
  | base h => cases hB.shape _ _ h; rfl
  | given => rfl

theorem Base.spk (hB : Base B G) {s x : Term} (h : Rel B G (.spk s) x) : ∃ s', x = .spk s' ∧ (Rel B G s s' ∨ ∃ a, s = .name (.ssk a) ∧ s' = .name (.ssk a)) := by
  cases h with
  | base h => cases hB.shape _ _ h
  | server a => exact ⟨_, rfl, .inr ⟨a, rfl, rfl⟩⟩
  | spk h => exact ⟨_, rfl, .inl h⟩

theorem Base.functional (hB : Base B G) {t t1 t2 : Term} (h1 : Rel B G t t1) (h2 : Rel B G t t2) : t1 = t2 := by
  induction h1 generalizing t2 with
  | base h =>
    cases h2 with
    | base h2 => exact hB.fwd _ _ _ h h2
    | const b => cases hB.shape _ _ h
    | given hg => cases hB.shape _ _ h; rfl
    | server a => cases hB.shape _ _ h
    | spk h2 => cases hB.shape _ _ h
    | epk h2 => cases hB.shape _ _ h with | epk n d1 d2 => exact absurd h2 (d1 _)
    | hash _ h2 => cases hB.shape _ _ h
    | aead h2 => cases hB.shape _ _ h with | aead d1 d2 => exact absurd h2 (d1 _)
    | xaead h2 => cases hB.shape _ _ h with | xaead d1 d2 => exact absurd h2 (d1 _)
    | bnonce _ h2 => cases hB.shape _ _ h
    | sct h2 => cases hB.shape _ _ h with | sct n b b' d1 d2 => exact absurd h2 (d1 _)
    | sss h2 => cases hB.shape _ _ h
    | srej h2 => cases hB.shape _ _ h
    | ect h2 => cases hB.shape _ _ h with | ect n m d1 d2 => exact absurd h2 (d1 _)
    | ess h2 => cases hB.shape _ _ h
    | erej h2 => cases hB.shape _ _ h
    | bis h2 => cases hB.shape _ _ h
  | const b => cases h2 with | base h => cases hB.shape _ _ h | const => rfl
  | given hg => exact (hB.name h2).symm
  | server a =>
    obtain ⟨s', rfl, h | ⟨a', h, rfl⟩⟩ := hB.spk h2
    · rw [hB.name h]; rfl
    · rw [← h]; rfl
  | spk h ih =>
    obtain ⟨s', rfl, h' | ⟨a', rfl, rfl⟩⟩ := hB.spk h2
    · rw [ih h']
    · rw [hB.name h]
  | epk h ih =>
    cases h2 with
    | base h2 => cases hB.shape _ _ h2 with | epk n d1 d2 => exact absurd h (d1 _)
    | epk h2 => rw [ih h2]
  | hash _ _ _ i1 i2 =>
    cases h2 with
    | base h2 => cases hB.shape _ _ h2
    | hash _ a b => rw [i1 a, i2 b]
  | aead h _ _ _ i1 i2 i3 i4 =>
    cases h2 with
    | base h2 => cases hB.shape _ _ h2 with | aead d1 d2 => exact absurd h (d1 _)
    | aead a b c d => rw [i1 a, i2 b, i3 c, i4 d]
  | xaead h _ _ _ i1 i2 i3 i4 =>
    cases h2 with
    | base h2 => cases hB.shape _ _ h2 with | xaead d1 d2 => exact absurd h (d1 _)
    | xaead a b c d => rw [i1 a, i2 b, i3 c, i4 d]
  | bnonce _ _ i1 =>
    cases h2 with
    | base h2 => cases hB.shape _ _ h2
    | bnonce _ a => rw [i1 a]
  | sct h _ i1 i2 =>
    cases h2 with
    | base h2 => cases hB.shape _ _ h2 with | sct n b b' d1 d2 => exact absurd h (d1 _)
    | sct a b => rw [i1 a, i2 b]
  | sss _ _ i1 i2 =>
    cases h2 with
    | base h2 => cases hB.shape _ _ h2
    | sss a b => rw [i1 a, i2 b]
  | srej _ _ i1 i2 =>
    cases h2 with
    | base h2 => cases hB.shape _ _ h2
    | srej a b => rw [i1 a, i2 b]
  | ect h _ i1 i2 =>
    cases h2 with
    | base h2 => cases hB.shape _ _ h2 with | ect n m d1 d2 => exact absurd h (d1 _)
    | ect a b => rw [i1 a, i2 b]
  | ess _ _ i1 i2 =>
    cases h2 with
    | base h2 => cases hB.shape _ _ h2
    | ess a b => rw [i1 a, i2 b]
  | erej _ _ i1 i2 =>
    cases h2 with
    | base h2 => cases hB.shape _ _ h2
    | erej a b => rw [i1 a, i2 b]
  | bis _ _ _ i1 i2 i3 =>
    cases h2 with
    | base h2 => cases hB.shape _ _ h2
    | bis a b c => rw [i1 a, i2 b, i3 c]

theorem Base.injective (hB : Base B G) {t t1 t2 : Term} (h1 : Rel B G t1 t) (h2 : Rel B G t2 t) : t1 = t2 := hB.swap.functional h1.swap h2.swap

/-! Decapsulation -/

theorem Base.sdec_fits (hB : Base B G) {sk sk' r ct' : Term} (h1 : Rel B G sk sk') (h2 : Rel B G (.sct r (.spk sk)) ct') :
    ∃ r', ct' = .sct r' (.spk sk') ∧ Rel B G r r' := by
  cases h2 with
  | base h => cases hB.shape _ _ h with | sct n b b' d1 d2 d3 d4 => exact absurd h1 (d3 _)
  | sct hr hk =>
    obtain ⟨s', rfl, h | ⟨a, rfl, rfl⟩⟩ := hB.spk hk
    · rw [hB.functional h1 h]; exact ⟨_, rfl, hr⟩
    · rw [hB.name h1]; exact ⟨_, rfl, hr⟩

theorem Base.edec_fits (hB : Base B G) {sk sk' r ct' : Term} (h1 : Rel B G sk sk') (h2 : Rel B G (.ect r (.epk sk)) ct') :
    ∃ r', ct' = .ect r' (.epk sk') ∧ Rel B G r r' := by
  cases h2 with
  | base h => cases hB.shape _ _ h with | ect n m d1 d2 d3 d4 => exact absurd h1 (d3 _)
  | ect hr hk =>
    cases hk with
    | base h => cases hB.shape _ _ h with | epk n d1 d2 => exact absurd h1 (d1 _)
    | epk h => rw [hB.functional h1 h]; exact ⟨_, rfl, hr⟩

theorem sdec_else {sk ct : Term} (h : ∀ r, ct ≠ .sct r (.spk sk)) : sdec sk ct = .srej sk ct := by
  unfold sdec
  split
  · rename_i r sk'
    by_cases he : sk' = sk
    · exact absurd (he ▸ rfl) (h r)
    · rw [if_neg he]
  · rfl

theorem edec_else {sk ct : Term} (h : ∀ r, ct ≠ .ect r (.epk sk)) : edec sk ct = .erej sk ct := by
  unfold edec
  split
  · rename_i r sk'
    by_cases he : sk' = sk
    · exact absurd (he ▸ rfl) (h r)
    · rw [if_neg he]
  · rfl

theorem Base.sdec (hB : Base B G) {sk sk' ct ct' : Term} (h1 : Rel B G sk sk') (h2 : Rel B G ct ct') : Rel B G (sdec sk ct) (sdec sk' ct') := by
  by_cases h : ∃ r, ct = .sct r (.spk sk)
  · obtain ⟨r, rfl⟩ := h
    obtain ⟨r', rfl, hr⟩ := hB.sdec_fits h1 h2
    rw [sdec_sct, sdec_sct]
    exact .sss hr (.spk h1)
  · have h' : ∀ r, ct' ≠ .sct r (.spk sk') := by
      rintro r rfl
      obtain ⟨r', e, -⟩ := hB.swap.sdec_fits h1.swap h2.swap
      exact h ⟨r', e⟩
    rw [sdec_else (fun r e => h ⟨r, e⟩), sdec_else h']
    exact .srej h1 h2

theorem Base.edec (hB : Base B G) {sk sk' ct ct' : Term} (h1 : Rel B G sk sk') (h2 : Rel B G ct ct') : Rel B G (edec sk ct) (edec sk' ct') := by
  by_cases h : ∃ r, ct = .ect r (.epk sk)
  · obtain ⟨r, rfl⟩ := h
    obtain ⟨r', rfl, hr⟩ := hB.edec_fits h1 h2
    rw [edec_ect, edec_ect]
    exact .ess hr (.epk h1)
  · have h' : ∀ r, ct' ≠ .ect r (.epk sk') := by
      rintro r rfl
      obtain ⟨r', e, -⟩ := hB.swap.edec_fits h1.swap h2.swap
      exact h ⟨r', e⟩
    rw [edec_else (fun r e => h ⟨r, e⟩), edec_else h']
    exact .erej h1 h2

/-- corresponding observations give corresponding results -/
theorem Base.computes (hB : Base B G) {seen seen' : List Term} (hs : ∀ (i : Nat) t, seen[i]? = some t → ∃ t', seen'[i]? = some t' ∧ Rel B G t t') {M : Recipe} {t : Term}
    (h : Computes G seen M t) : ∃ t', Computes G seen' M t' ∧ Rel B G t t' := by
  induction h with
  | handle h => obtain ⟨t', h1, h2⟩ := hs _ _ h; exact ⟨t', .handle h1, h2⟩
  | const b => exact ⟨_, .const b, .const b⟩
  | given h => exact ⟨_, .given h, .given h⟩
  | server a => exact ⟨_, .server a, .server a⟩
  | spk _ i1 => obtain ⟨a, c1, r1⟩ := i1; exact ⟨_, .spk c1, .spk r1⟩
  | epk _ i1 => obtain ⟨a, c1, r1⟩ := i1; exact ⟨_, .epk c1, .epk r1⟩
  | hash h _ _ i1 i2 => obtain ⟨a, c1, r1⟩ := i1; obtain ⟨b, c2, r2⟩ := i2; exact ⟨_, .hash h c1 c2, .hash h r1 r2⟩
  | aead _ _ _ _ i1 i2 i3 i4 =>
    obtain ⟨a, c1, r1⟩ := i1; obtain ⟨b, c2, r2⟩ := i2; obtain ⟨c, c3, r3⟩ := i3; obtain ⟨d, c4, r4⟩ := i4
    exact ⟨_, .aead c1 c2 c3 c4, .aead r1 r2 r3 r4⟩
  | xaead _ _ _ _ i1 i2 i3 i4 =>
    obtain ⟨a, c1, r1⟩ := i1; obtain ⟨b, c2, r2⟩ := i2; obtain ⟨c, c3, r3⟩ := i3; obtain ⟨d, c4, r4⟩ := i4
    exact ⟨_, .xaead c1 c2 c3 c4, .xaead r1 r2 r3 r4⟩
  | open_ _ _ i1 i2 =>
    obtain ⟨a, c1, r1⟩ := i1; obtain ⟨b, c2, r2⟩ := i2
    cases r1 with
    | base h => cases hB.shape _ _ h with | aead d1 d2 => exact absurd r2 (d1 _)
    | aead q1 q2 q3 q4 => cases hB.functional r2 q1; exact ⟨_, .open_ c1 c2, q4⟩
  | xopen _ _ i1 i2 =>
    obtain ⟨a, c1, r1⟩ := i1; obtain ⟨b, c2, r2⟩ := i2
    cases r1 with
    | base h => cases hB.shape _ _ h with | xaead d1 d2 => exact absurd r2 (d1 _)
    | xaead q1 q2 q3 q4 => cases hB.functional r2 q1; exact ⟨_, .xopen c1 c2, q4⟩
  | xnonce _ i1 =>
    obtain ⟨a, c1, r1⟩ := i1
    cases r1 with
    | base h => cases hB.shape _ _ h with | xaead d1 d2 d3 => exact ⟨_, .xnonce c1, .bnonce _ (.base d3)⟩
    | xaead q1 q2 q3 q4 => exact ⟨_, .xnonce c1, q2⟩
  | bnonce bit _ i1 => obtain ⟨a, c1, r1⟩ := i1; exact ⟨_, .bnonce bit c1, .bnonce bit r1⟩
  | unbnonce _ i1 =>
    obtain ⟨a, c1, r1⟩ := i1
    cases r1 with
    | base h => cases hB.shape _ _ h
    | bnonce _ q => exact ⟨_, .unbnonce c1, q⟩
  | sct _ _ i1 i2 => obtain ⟨a, c1, r1⟩ := i1; obtain ⟨b, c2, r2⟩ := i2; exact ⟨_, .sct c1 c2, .sct r1 r2⟩
  | sss _ _ i1 i2 => obtain ⟨a, c1, r1⟩ := i1; obtain ⟨b, c2, r2⟩ := i2; exact ⟨_, .sss c1 c2, .sss r1 r2⟩
  | sdec _ _ i1 i2 => obtain ⟨a, c1, r1⟩ := i1; obtain ⟨b, c2, r2⟩ := i2; exact ⟨_, .sdec c1 c2, hB.sdec r1 r2⟩
  | ect _ _ i1 i2 => obtain ⟨a, c1, r1⟩ := i1; obtain ⟨b, c2, r2⟩ := i2; exact ⟨_, .ect c1 c2, .ect r1 r2⟩
  | ess _ _ i1 i2 => obtain ⟨a, c1, r1⟩ := i1; obtain ⟨b, c2, r2⟩ := i2; exact ⟨_, .ess c1 c2, .ess r1 r2⟩
  | edec _ _ i1 i2 => obtain ⟨a, c1, r1⟩ := i1; obtain ⟨b, c2, r2⟩ := i2; exact ⟨_, .edec c1 c2, hB.edec r1 r2⟩
  | bis _ _ _ i1 i2 i3 => obtain ⟨a, c1, r1⟩ := i1; obtain ⟨b, c2, r2⟩ := i2; obtain ⟨c, c3, r3⟩ := i3; exact ⟨_, .bis c1 c2 c3, .bis r1 r2 r3⟩
  | bisPid _ i1 =>
    obtain ⟨a, c1, r1⟩ := i1
    cases r1 with
    | base h => cases hB.shape _ _ h
    | bis q1 q2 q3 => exact ⟨_, .bisPid c1, q1⟩
  | bisNo _ i1 =>
    obtain ⟨a, c1, r1⟩ := i1
    cases r1 with
    | base h => cases hB.shape _ _ h
    | bis q1 q2 q3 => exact ⟨_, .bisNo c1, q2⟩
  | bisCk _ i1 =>
    obtain ⟨a, c1, r1⟩ := i1
    cases r1 with
    | base h => cases hB.shape _ _ h
    | bis q1 q2 q3 => exact ⟨_, .bisCk c1, q3⟩

/-- two lists of the same length whose elements correspond -/
inductive Pairs (R : Term → Term → Prop) : List Term → List Term → Prop where
  | nil : Pairs R [] []
  | cons {x y l l'} : R x y → Pairs R l l' → Pairs R (x :: l) (y :: l')

theorem Pairs.append {R : Term → Term → Prop} {l1 l1' l2 l2' : List Term} (h1 : Pairs R l1 l1') (h2 : Pairs R l2 l2') : Pairs R (l1 ++ l2) (l1' ++ l2') := by
  induction h1 with
  | nil => exact h2
  | cons h _ ih => exact .cons h ih

theorem Base.half (hB : Base B G) {seen seen' : List Term} (hs : ∀ (i : Nat) t, seen[i]? = some t → ∃ t', seen'[i]? = some t' ∧ Rel B G t t') {M N : Recipe}
    (h : ∃ t, Computes G seen M t ∧ Computes G seen N t) : ∃ t, Computes G seen' M t ∧ Computes G seen' N t := by
  obtain ⟨t, h1, h2⟩ := h
  obtain ⟨t1, c1, r1⟩ := hB.computes hs h1
  obtain ⟨t2, c2, r2⟩ := hB.computes hs h2
  cases hB.functional r1 r2
  exact ⟨_, c1, c2⟩

theorem Base.indistinguishable (hB : Base B G) {seen seen' : List Term} (hs : Pairs (Rel B G) seen seen') : Indistinguishable G seen seen' := by
  have key : ∀ {C : Term → Term → Prop} {l l' : List Term}, Pairs (Rel C G) l l' → ∀ (i : Nat) t, l[i]? = some t → ∃ t', l'[i]? = some t' ∧ Rel C G t t' := by
    intro C l l' h
    induction h with
    | nil => intro i t h; simp at h
    | cons h _ ih =>
      intro i t hi
      cases i with
      | zero => simp only [List.getElem?_cons_zero, Option.some.injEq] at hi; subst hi; exact ⟨_, rfl, h⟩
      | succ i => exact ih i t hi
  have hs' : Pairs (Rel (Sym.swap B) G) seen' seen := by
    induction hs with
    | nil => exact .nil
    | cons h _ ih => exact .cons h.swap ih
  exact fun M N => ⟨hB.half (key hs), hB.swap.half (key hs')⟩

/-! ### The handshake -/

theorem fits_of_ihr {a : Nat} {p : PeerCfg} {i b : Nat} {p' : PeerCfg} {c : Core} (h : ihr b p' p'.h (initiation a p i).1 = some c) :
    Fits a p b p' ∧ c = (initiation a p i).2 := by
  have hf : Fits a p b p' := by
    obtain ⟨h1, ⟨pt, h2⟩, -⟩ := ihr_facts h 0 ⟨empty, empty, empty, empty, empty, empty⟩ empty
    obtain ⟨f1, f2, -⟩ := initiation_facts a p i ⟨empty, empty, empty, empty, empty, empty⟩ empty
    rw [f1] at h1
    rw [f2] at h2
    injection h1 with k1 _ _ e1
    injection h2 with k2 _ _ e2
    obtain ⟨hh, k1⟩ := key_inj k1
    obtain ⟨-, hpk, -⟩ := chain_inj k1
    obtain ⟨-, k2⟩ := key_inj k2
    obtain ⟨-, -, hl⟩ := chain_inj k2
    simp only [T.l8, tI, tR, List.cons.injEq] at hl
    refine ⟨Pk.of_own hpk, Pk.of_own ?_, (Psk.inj hl.1).symm, hh.symm⟩
    injection e1 with _ _ e3
    exact e3.symm
  refine ⟨hf, ?_⟩
  rw [honest_ihr hf i] at h
  injection h with h
  exact h.symm

/-- event `j` of `tr` answers the InitHello of event `i` -/
structure Res (tr : Run) (j i a : Nat) (p : PeerCfg) (b : Nat) (p' : PeerCfg) (k : Nat) (bit : Bool) (no : Bytes) : Prop where
  ini : at? tr i = some (.init a p)
  res : at? tr j = some (.resp b p' (initiation a p i).1 (initiation a p i).2 k bit no)
  fits : Fits a p b p'

/-- the answer -/
def mOf (j i a : Nat) (p : PeerCfg) (b : Nat) (p' : PeerCfg) (k : Nat) (bit : Bool) (no : Bytes) : RH :=
  (rhr b p' (initiation a p i).1 (initiation a p i).2 j k bit no).1

/-- the values of the handshake -/
abbrev tOf (j i a : Nat) (p : PeerCfg) (b : Nat) (p' : PeerCfg) (k : Nat) (bit : Bool) (no : Bytes) (x : Term) : T := tI a p i (mOf j i a p b p' k bit no) x

/-- the observable values of a run -/
inductive Ix where
  | sid (i : Nat)
  | nonce (j : Nat)
  | epk (i : Nat)
  | ect (j i : Nat)
  | sctr (i : Nat)
  | scti (j : Nat)
  | pidi (i : Nat)
  | auth1 (i : Nat)
  | auth2 (j : Nat)
  | auth3 (j : Nat)
  | ack (j : Nat)
  | bct (j : Nat) (bit : Bool)

def rh0 : RH := ⟨empty, empty, empty, empty, empty, empty⟩

inductive Val (tr : Run) : Ix → Term → Prop where
  | sid (i) : Val tr (.sid i) (rnd i .sid)
  | nonce (j) : Val tr (.nonce j) (rnd j .nonce)
  | epk (i) : Val tr (.epk i) (.epk (rnd i .kcoins))
  | ect (j i) : Val tr (.ect j i) (.ect (rnd j .ecoins) (.epk (rnd i .kcoins)))
  | sctr {i a p} : at? tr i = some (.init a p) → Val tr (.sctr i) (.sct (rnd i .scoins) p.pk.term)
  | pidi {i a p} : at? tr i = some (.init a p) → Val tr (.pidi i) (box p.h (chain p.h p.pk.term (tI a p i rh0 empty).l5) (.hash p.h (dom p.h .peerid) (own a)))
  | auth1 {i a p} : at? tr i = some (.init a p) → Val tr (.auth1 i) (box p.h (chain p.h p.pk.term (tI a p i rh0 empty).l8) Core.empty)
  | scti {j i a p b p' k bit no} : Res tr j i a p b p' k bit no → Val tr (.scti j) (.sct (rnd j .scoins) p'.pk.term)
  | auth2 {j i a p b p' k bit no} : Res tr j i a p b p' k bit no →
      Val tr (.auth2 j) (box p.h (chain p.h p.pk.term (tOf j i a p b p' k bit no empty).l18) Core.empty)
  | auth3 {j i a p b p' k bit no} : Res tr j i a p b p' k bit no →
      Val tr (.auth3 j) (box p.h (chain p.h p.pk.term (tOf j i a p b p' k bit no empty).l21) Core.empty)
  | ack {j i a p b p' k bit no} : Res tr j i a p b p' k bit no →
      Val tr (.ack j) (.aead (.hash p.h (chain p.h p.pk.term (tOf j i a p b p' k bit no (box p.h (chain p.h p.pk.term (tOf j i a p b p' k bit no empty).l21) Core.empty)).l22)
        (dom p.h .resEnc)) Core.nonce0 Core.empty Core.empty)
  | bct {j i a p b p' k bit no} : Res tr j i a p b p' k bit no → Val tr (.bct j bit) (mOf j i a p b p' k bit no).biscuitCt

theorem Res.unique {tr : Run} {j i a : Nat} {p : PeerCfg} {b : Nat} {p' : PeerCfg} {k : Nat} {bit : Bool} {no : Bytes} (h : Res tr j i a p b p' k bit no)
    {i2 a2 : Nat} {p2 : PeerCfg} {b2 : Nat} {p2' : PeerCfg} {k2 : Nat} {bit2 : Bool} {no2 : Bytes} (h2 : Res tr j i2 a2 p2 b2 p2' k2 bit2 no2) :
    i2 = i ∧ a2 = a ∧ p2 = p ∧ b2 = b ∧ p2' = p' ∧ k2 = k ∧ bit2 = bit ∧ no2 = no := by
  have e := h.res
  rw [h2.res] at e
  injection e with e
  injection e with e1 e2 e3 e4 e5 e6 e7
  have e8 : rnd i2 .sid = rnd i .sid := congrArg IH.sidi e3
  obtain ⟨rfl, -⟩ := rnd_inj e8
  have e := h.ini
  rw [h2.ini] at e
  injection e with e
  injection e with e9 e10
  exact ⟨rfl, e9, e10, e1, e2, e5, e6, e7⟩

theorem ini_unique {tr : Run} {i a a2 : Nat} {p p2 : PeerCfg} (h : at? tr i = some (.init a p)) (h2 : at? tr i = some (.init a2 p2)) : a2 = a ∧ p2 = p := by
  rw [h2] at h
  injection h with h
  injection h with e1 e2
  exact ⟨e1, e2⟩

theorem Val.functional {tr : Run} {x : Ix} {t t' : Term} (h : Val tr x t) (h' : Val tr x t') : t = t' := by
  cases h with
  | sid => cases h'; rfl
  | nonce => cases h'; rfl
  | epk => cases h'; rfl
  | ect => cases h'; rfl
  | sctr e => cases h' with | sctr e' => obtain ⟨rfl, rfl⟩ := ini_unique e e'; rfl
  | pidi e => cases h' with | pidi e' => obtain ⟨rfl, rfl⟩ := ini_unique e e'; rfl
  | auth1 e => cases h' with | auth1 e' => obtain ⟨rfl, rfl⟩ := ini_unique e e'; rfl
  | scti e => cases h' with | scti e' => obtain ⟨rfl, rfl, rfl, rfl, rfl, rfl, rfl, rfl⟩ := e.unique e'; rfl
  | auth2 e => cases h' with | auth2 e' => obtain ⟨rfl, rfl, rfl, rfl, rfl, rfl, rfl, rfl⟩ := e.unique e'; rfl
  | auth3 e => cases h' with | auth3 e' => obtain ⟨rfl, rfl, rfl, rfl, rfl, rfl, rfl, rfl⟩ := e.unique e'; rfl
  | ack e => cases h' with | ack e' => obtain ⟨rfl, rfl, rfl, rfl, rfl, rfl, rfl, rfl⟩ := e.unique e'; rfl
  | bct e => cases h' with | bct e' => obtain ⟨rfl, rfl, rfl, rfl, rfl, rfl, -, rfl⟩ := e.unique e'; rfl

theorem sidr_mOf (j i a : Nat) (p : PeerCfg) (b : Nat) (p' : PeerCfg) (k : Nat) (bit : Bool) (no : Bytes) : (mOf j i a p b p' k bit no).sidr = rnd j .sid := rfl


theorem box_tags {h h' : HashChoice} {ck ck' pt pt' : Term} (e : box h ck pt = box h' ck' pt') : ck = ck' := by
  injection e with e
  exact (key_inj e).2

theorem l5_inj {a a2 i i2 : Nat} {p p2 : PeerCfg} {m m2 : RH} {x x2 : Term} (e : (tI a p i m x).l5 = (tI a2 p2 i2 m2 x2).l5) : i = i2 := by
  simp only [T.l5, tI, List.cons.injEq] at e
  exact (rnd_inj e.2.2.2.2.1).1

theorem l8_inj {a a2 i i2 : Nat} {p p2 : PeerCfg} {m m2 : RH} {x x2 : Term} (e : (tI a p i m x).l8 = (tI a2 p2 i2 m2 x2).l8) : i = i2 := by
  unfold T.l8 at e
  injection e with _ e; injection e with _ e; injection e with _ e
  exact l5_inj e

theorem l17_sidr {t t2 : T} (e : t.l17 = t2.l17) : t.sidr = t2.sidr := by
  unfold T.l17 at e
  simp only [List.cons.injEq] at e
  exact e.2.2.2.2.2.2.2.1

theorem l18_sidr {t t2 : T} (e : t.l18 = t2.l18) : t.sidr = t2.sidr := by
  unfold T.l18 at e
  injection e with _ e
  exact l17_sidr e

theorem l21_sidr {t t2 : T} (e : t.l21 = t2.l21) : t.sidr = t2.sidr := by
  unfold T.l21 at e
  injection e with e

theorem l22_sidr {t t2 : T} (e : t.l22 = t2.l22) : t.sidr = t2.sidr := by
  unfold T.l22 at e
  injection e with _ e
  exact l21_sidr e

theorem len5 (t : T) : t.l5.length = 5 := rfl
theorem len8 (t : T) : t.l8.length = 8 := rfl
theorem len18 (t : T) : t.l18.length = 18 := rfl
theorem len21 (t : T) : t.l21.length = 21 := rfl

theorem Val.aead_ne_ack {h h' : HashChoice} {ck ck' pt pt' n ad : Term} : box h ck pt ≠ .aead (.hash h' ck' (dom h' .resEnc)) n ad pt' := by
  intro e
  injection e with e
  injection e with _ _ e
  exact hsEnc_ne_resEnc _ _ e

theorem Val.injective {tr : Run} {x y : Ix} {t : Term} (h : Val tr x t) (h' : Val tr y t) : x = y := by
  generalize ht : t = t' at h'
  cases h with
  | sid i => cases h' <;> first | (cases ht; rfl) | cases ht | (rename_i e; cases ht)
  | nonce i => cases h' <;> first | (cases ht; rfl) | cases ht
  | epk i => cases h' <;> first | (cases ht; rfl) | cases ht
  | ect j i => cases h' <;> first | (cases ht; rfl) | cases ht
  | sctr e =>
    cases h' with
    | sctr e' => injection ht with ht; rw [(rnd_inj ht).1]
    | scti e' => injection ht with ht; obtain ⟨rfl, -⟩ := rnd_inj ht; rw [e'.res] at e; cases e
    | _ => cases ht
  | scti e =>
    cases h' with
    | scti e' => injection ht with ht; rw [(rnd_inj ht).1]
    | sctr e' => injection ht with ht; obtain ⟨rfl, -⟩ := rnd_inj ht; rw [e.res] at e'; cases e'
    | _ => cases ht
  | bct e =>
    cases h' with
    | bct e' =>
      injection ht with _ ht
      injection ht with h1 h2
      rw [(rnd_inj h1).1, h2]
    | _ => cases ht
  | pidi e =>
    cases h' with
    | pidi e' => rw [l5_inj (chain_inj (box_tags ht)).2.2]
    | auth1 e' => exact absurd (congrArg List.length (chain_inj (box_tags ht)).2.2) (by simp only [len5, len8]; decide)
    | auth2 e' => exact absurd (congrArg List.length (chain_inj (box_tags ht)).2.2) (by simp only [len5, len18]; decide)
    | auth3 e' => exact absurd (congrArg List.length (chain_inj (box_tags ht)).2.2) (by simp only [len5, len21]; decide)
    | ack e' => exact absurd ht Val.aead_ne_ack
    | _ => cases ht
  | auth1 e =>
    cases h' with
    | auth1 e' => rw [l8_inj (chain_inj (box_tags ht)).2.2]
    | pidi e' => exact absurd (congrArg List.length (chain_inj (box_tags ht)).2.2) (by simp only [len5, len8]; decide)
    | auth2 e' => exact absurd (congrArg List.length (chain_inj (box_tags ht)).2.2) (by simp only [len8, len18]; decide)
    | auth3 e' => exact absurd (congrArg List.length (chain_inj (box_tags ht)).2.2) (by simp only [len8, len21]; decide)
    | ack e' => exact absurd ht Val.aead_ne_ack
    | _ => cases ht
  | auth2 e =>
    cases h' with
    | auth2 e' => rw [(rnd_inj (l18_sidr (chain_inj (box_tags ht)).2.2)).1]
    | pidi e' => exact absurd (congrArg List.length (chain_inj (box_tags ht)).2.2) (by simp only [len5, len18]; decide)
    | auth1 e' => exact absurd (congrArg List.length (chain_inj (box_tags ht)).2.2) (by simp only [len8, len18]; decide)
    | auth3 e' => exact absurd (congrArg List.length (chain_inj (box_tags ht)).2.2) (by simp only [len18, len21]; decide)
    | ack e' => exact absurd ht Val.aead_ne_ack
    | _ => cases ht
  | auth3 e =>
    cases h' with
    | auth3 e' => rw [(rnd_inj (l21_sidr (chain_inj (box_tags ht)).2.2)).1]
    | pidi e' => exact absurd (congrArg List.length (chain_inj (box_tags ht)).2.2) (by simp only [len5, len21]; decide)
    | auth1 e' => exact absurd (congrArg List.length (chain_inj (box_tags ht)).2.2) (by simp only [len8, len21]; decide)
    | auth2 e' => exact absurd (congrArg List.length (chain_inj (box_tags ht)).2.2) (by simp only [len18, len21]; decide)
    | ack e' => exact absurd ht Val.aead_ne_ack
    | _ => cases ht
  | ack e =>
    cases h' with
    | ack e' =>
      injection ht with ht
      injection ht with _ ht
      rw [(rnd_inj (l22_sidr (chain_inj ht).2.2)).1]
    | pidi e' => exact absurd ht.symm Val.aead_ne_ack
    | auth1 e' => exact absurd ht.symm Val.aead_ne_ack
    | auth2 e' => exact absurd ht.symm Val.aead_ne_ack
    | auth3 e' => exact absurd ht.symm Val.aead_ne_ack
    | _ => cases ht

/-- corresponding observable values of two runs -/
def Obs (tr tr' : Run) (t t' : Term) : Prop := ∃ x, Val tr x t ∧ Val tr' x t'

theorem swap_obs (tr tr' : Run) : swap (Obs tr tr') = Obs tr' tr := by
  funext t t'
  exact propext ⟨fun ⟨x, h1, h2⟩ => ⟨x, h2, h1⟩, fun ⟨x, h1, h2⟩ => ⟨x, h2, h1⟩⟩

theorem Val.name {tr : Run} {x : Ix} {n : Name} (h : Val tr x (.name n)) : (∃ i, n = .rnd i .sid) ∨ ∃ i, n = .rnd i .nonce := by
  generalize ht : Term.name n = t at h
  cases h with
  | sid i => injection ht with ht; exact .inl ⟨i, ht⟩
  | nonce i => injection ht with ht; exact .inr ⟨i, ht⟩
  | _ => cases ht

theorem Val.not_hash {tr : Run} {x : Ix} {h : HashChoice} {k d : Term} (hv : Val tr x (.hash h k d)) : False := by
  generalize ht : Term.hash h k d = t at hv
  cases hv <;> cases ht

theorem Val.not_sss {tr : Run} {x : Ix} {k d : Term} (hv : Val tr x (.sss k d)) : False := by
  generalize ht : Term.sss k d = t at hv
  cases hv <;> cases ht

theorem dead_name {tr tr' : Run} {G : Name → Prop} {n : Name} (hg : ¬ G n) (h1 : ∀ i, n ≠ .rnd i .sid) (h2 : ∀ i, n ≠ .rnd i .nonce) : Dead (Obs tr tr') G (.name n) := by
  intro x h
  cases h with
  | base h =>
    obtain ⟨y, h, -⟩ := h
    rcases h.name with ⟨i, rfl⟩ | ⟨i, rfl⟩
    · exact h1 i rfl
    · exact h2 i rfl
  | given h => exact hg h

theorem rel_hash {tr tr' : Run} {G : Name → Prop} {h : HashChoice} {k d x : Term} (hr : Rel (Obs tr tr') G (.hash h k d) x) : (∃ y, Rel (Obs tr tr') G k y) ∧ ∃ y, Rel (Obs tr tr') G d y := by
  cases hr with
  | base h => obtain ⟨y, h, -⟩ := h; exact h.not_hash.elim
  | hash _ h1 h2 => exact ⟨⟨_, h1⟩, _, h2⟩

theorem rel_chain {tr tr' : Run} {G : Name → Prop} {h : HashChoice} {pk : Term} {l : List Term} {x : Term} (hr : Rel (Obs tr tr') G (chain h pk l) x) :
    ∀ y ∈ l, ∃ z, Rel (Obs tr tr') G y z := by
  induction l generalizing x with
  | nil => intro y hy; cases hy
  | cons a l ih =>
    obtain ⟨⟨z, h1⟩, h2⟩ := rel_hash hr
    obtain ⟨⟨z, h1⟩, -⟩ := rel_hash h1
    intro y hy
    cases hy with
    | head => exact h2
    | tail _ hy => exact ih h1 y hy

theorem dead_chain {tr tr' : Run} {G : Name → Prop} (hg : ∀ i k, ¬ G (.rnd i k)) {h h' : HashChoice} {pk pk' : Term} {l : List Term} {i : Nat} (hl : .sss (rnd i .scoins) pk' ∈ l) (d : Term) :
    Dead (Obs tr tr') G (.hash h' (chain h pk l) d) := by
  intro x hr
  obtain ⟨⟨z, h1⟩, -⟩ := rel_hash hr
  obtain ⟨z, h1⟩ := rel_chain h1 _ hl
  cases h1 with
  | base h => obtain ⟨y, h, -⟩ := h; exact h.not_sss.elim
  | sss h1 h2 => exact dead_name (hg i .scoins) (by intro i h; cases h) (by intro i h; cases h) _ h1

theorem at_mem {tr : Run} {i : Nat} {e : Ev} (h : at? tr i = some e) : e ∈ tr := at?_mem h

theorem obs_shape {G : Name → Prop} {tr tr' : Run} (hh : Hidden G tr) (hh' : Hidden G tr') {t t' : Term} (h : Obs tr tr' t t') : Shape (Obs tr tr') G t t' := by
  have dr : ∀ {tr tr' : Run} (i : Nat) (k : Kind), k ≠ .sid → k ≠ .nonce → Dead (Obs tr tr') G (.name (.rnd i k)) := by
    intro tr tr' i k h1 h2
    exact dead_name (hh.rnd i k) (fun j e => by cases e; exact h1 rfl) (fun j e => by cases e; exact h2 rfl)
  have ds : ∀ {tr tr' : Run} (b : Nat), ¬ G (.ssk b) → Dead (Obs tr tr') G (.name (.ssk b)) := fun b hb => dead_name hb (by intro i h; cases h) (by intro i h; cases h)
  have db : ∀ {tr tr' : Run} (b k : Nat), ¬ G (.bkey b k) → Dead (Obs tr tr') G (.name (.bkey b k)) := fun b k hb => dead_name hb (by intro i h; cases h) (by intro i h; cases h)
  obtain ⟨x, h1, h2⟩ := h
  cases h1 with
  | sid => cases h2; exact .name _
  | nonce => cases h2; exact .name _
  | epk => cases h2; exact .epk _ (dr _ _ (by decide) (by decide)) (by rw [swap_obs]; exact dr _ _ (by decide) (by decide))
  | ect =>
    cases h2
    exact .ect _ _ (dr _ _ (by decide) (by decide)) (by rw [swap_obs]; exact dr _ _ (by decide) (by decide)) (dr _ _ (by decide) (by decide)) (by rw [swap_obs]; exact dr _ _ (by decide) (by decide))
  | sctr e =>
    cases h2 with
    | sctr e' =>
      obtain ⟨-, b, hb, hg⟩ := hh.ini _ _ (at_mem e)
      obtain ⟨-, b', hb', hg'⟩ := hh'.ini _ _ (at_mem e')
      rw [hb, hb']
      exact .sct _ _ _ (dr _ _ (by decide) (by decide)) (by rw [swap_obs]; exact dr _ _ (by decide) (by decide)) (ds _ hg) (by rw [swap_obs]; exact ds _ hg')
  | scti e =>
    cases h2 with
    | scti e' =>
      obtain ⟨hg, -⟩ := hh.ini _ _ (at_mem e.ini)
      obtain ⟨hg', -⟩ := hh'.ini _ _ (at_mem e'.ini)
      rw [e.fits.back, e'.fits.back]
      exact .sct _ _ _ (dr _ _ (by decide) (by decide)) (by rw [swap_obs]; exact dr _ _ (by decide) (by decide)) (ds _ hg) (by rw [swap_obs]; exact ds _ hg')
  | pidi e =>
    cases h2 with
    | pidi e' =>
      exact .aead (dead_chain (pk' := _) (i := _) hh.rnd (.tail _ (.head _)) _) (by rw [swap_obs]; exact dead_chain hh.rnd (.tail _ (.head _)) _)
  | auth1 e =>
    cases h2 with
    | auth1 e' =>
      exact .aead (dead_chain hh.rnd (List.mem_append_right [_, _, _] (.tail _ (.head _))) _) (by rw [swap_obs]; exact dead_chain hh.rnd (List.mem_append_right [_, _, _] (.tail _ (.head _))) _)
  | auth2 e =>
    cases h2 with
    | auth2 e' =>
      exact .aead (dead_chain hh.rnd (List.mem_append_right [_, _, _, _, _, _, _, _, _, _, _, _, _] (.tail _ (.head _))) _)
        (by rw [swap_obs]; exact dead_chain hh.rnd (List.mem_append_right [_, _, _, _, _, _, _, _, _, _, _, _, _] (.tail _ (.head _))) _)
  | auth3 e =>
    cases h2 with
    | auth3 e' =>
      exact .aead (dead_chain hh.rnd (List.mem_append_right [_, _, _, _, _, _, _, _, _, _, _, _, _, _, _, _] (.tail _ (.head _))) _)
        (by rw [swap_obs]; exact dead_chain hh.rnd (List.mem_append_right [_, _, _, _, _, _, _, _, _, _, _, _, _, _, _, _] (.tail _ (.head _))) _)
  | ack e =>
    cases h2 with
    | ack e' =>
      exact .aead (dead_chain hh.rnd (List.mem_append_right [_, _, _, _, _, _, _, _, _, _, _, _, _, _, _, _, _] (.tail _ (.head _))) _)
        (by rw [swap_obs]; exact dead_chain hh.rnd (List.mem_append_right [_, _, _, _, _, _, _, _, _, _, _, _, _, _, _, _, _] (.tail _ (.head _))) _)
  | bct e =>
    cases h2 with
    | bct e' =>
      exact .xaead (db _ _ (hh.bkey _ _ _ _ _ _ _ (at_mem e.res))) (by rw [swap_obs]; exact db _ _ (hh'.bkey _ _ _ _ _ _ _ (at_mem e'.res))) ⟨.nonce _, .nonce _, .nonce _⟩

theorem obs_base {G : Name → Prop} {tr tr' : Run} (hh : Hidden G tr) (hh' : Hidden G tr') : Base (Obs tr tr') G where
  fwd := fun t t1 t2 ⟨x, a, b⟩ ⟨y, c, d⟩ => by cases a.injective c; exact b.functional d
  bwd := fun t t1 t2 ⟨x, a, b⟩ ⟨y, c, d⟩ => by cases b.injective d; exact a.functional c
  shape := fun t t' h => obs_shape hh hh' h

/-! ### Runs -/

theorem Res.cons {tr : Run} {j i a : Nat} {p : PeerCfg} {b : Nat} {p' : PeerCfg} {k : Nat} {bit : Bool} {no : Bytes} (e : Ev) (h : Res tr j i a p b p' k bit no) :
    Res (e :: tr) j i a p b p' k bit no := ⟨at?_cons e h.ini, at?_cons e h.res, h.fits⟩

theorem Val.cons {tr : Run} {x : Ix} {t : Term} (e : Ev) (h : Val tr x t) : Val (e :: tr) x t := by
  cases h with
  | sid => exact .sid _
  | nonce => exact .nonce _
  | epk => exact .epk _
  | ect => exact .ect _ _
  | sctr h => exact .sctr (at?_cons e h)
  | pidi h => exact .pidi (at?_cons e h)
  | auth1 h => exact .auth1 (at?_cons e h)
  | scti h => exact .scti (h.cons e)
  | auth2 h => exact .auth2 (h.cons e)
  | auth3 h => exact .auth3 (h.cons e)
  | ack h => exact .ack (h.cons e)
  | bct h => exact .bct (h.cons e)

theorem Rel.mono {B B' : Term → Term → Prop} {G : Name → Prop} (hB : ∀ t t', B t t' → B' t t') {t t' : Term} (h : Rel B G t t') : Rel B' G t t' := by
  induction h with
  | base h => exact .base (hB _ _ h)
  | const b => exact .const b
  | given h => exact .given h
  | server a => exact .server a
  | spk _ i1 => exact .spk i1
  | epk _ i1 => exact .epk i1
  | hash h _ _ i1 i2 => exact .hash h i1 i2
  | aead _ _ _ _ i1 i2 i3 i4 => exact .aead i1 i2 i3 i4
  | xaead _ _ _ _ i1 i2 i3 i4 => exact .xaead i1 i2 i3 i4
  | bnonce bit _ i1 => exact .bnonce bit i1
  | sct _ _ i1 i2 => exact .sct i1 i2
  | sss _ _ i1 i2 => exact .sss i1 i2
  | srej _ _ i1 i2 => exact .srej i1 i2
  | ect _ _ i1 i2 => exact .ect i1 i2
  | ess _ _ i1 i2 => exact .ess i1 i2
  | erej _ _ i1 i2 => exact .erej i1 i2
  | bis _ _ _ i1 i2 i3 => exact .bis i1 i2 i3

theorem Pairs.mono {R R' : Term → Term → Prop} (h : ∀ t t', R t t' → R' t t') {l l' : List Term} (hl : Pairs R l l') : Pairs R' l l' := by
  induction hl with
  | nil => exact .nil
  | cons a _ ih => exact .cons (h _ _ a) ih

theorem Follows.length {s : List Act} {tr : Run} (h : Follows s tr) : tr.length = s.length := by
  induction h <;> simp_all

theorem at?_head_eq {tr : Run} {e e' : Ev} (h : at? (e :: tr) tr.length = some e') : e' = e := by rw [at?_head] at h; injection h with h; exact h.symm

theorem at?_uncons {tr : Run} {e e' : Ev} {i : Nat} (h : at? (e :: tr) i = some e') (hn : i ≠ tr.length) : at? tr i = some e' := by
  unfold at? at h
  rwa [if_neg hn] at h

/-- the answers of a run -/
theorem Follows.resp {s : List Act} {tr : Run} (h : Follows s tr) {j b : Nat} {p' : PeerCfg} {ih : IH} {c : Core} {k : Nat} {bit : Bool} {no : Bytes}
    (hj : at? tr j = some (.resp b p' ih c k bit no)) : ∃ i a p, Res tr j i a p b p' k bit no ∧ ih = (initiation a p i).1 ∧ c = (initiation a p i).2 ∧ s[s.length - 1 - j]? = some (.answer i bit) := by
  have hidx : ∀ (x : Act) (s : List Act) (i j : Nat), j < s.length → s[s.length - 1 - j]? = some (.answer i bit) → (x :: s)[(x :: s).length - 1 - j]? = some (.answer i bit) := by
    intro x s i j hj h
    rw [show (x :: s).length - 1 - j = (s.length - 1 - j) + 1 by simp only [List.length_cons]; omega]
    exact h
  induction h with
  | nil => cases hj
  | @start s tr a p h ih =>
    by_cases hn : j = tr.length
    · subst hn; cases at?_head_eq hj
    · have hj := at?_uncons hj hn
      obtain ⟨i, a, p, h1, h2, h3, h4⟩ := ih hj
      exact ⟨i, a, p, h1.cons _, h2, h3, hidx _ _ _ _ (by rw [← h.length]; exact at?_lt hj) h4⟩
  | @answer s tr a0 p0 i0 b p' c k bit no h hi hr ih =>
    by_cases hn : j = tr.length
    · subst hn
      cases at?_head_eq hj
      obtain ⟨hf, rfl⟩ := fits_of_ihr hr
      exact ⟨_, _, _, ⟨at?_cons _ hi, hj, hf⟩, rfl, rfl, by simp [h.length]⟩
    · have hj := at?_uncons hj hn
      obtain ⟨i, a, p, h1, h2, h3, h4⟩ := ih hj
      exact ⟨i, a, p, h1.cons _, h2, h3, hidx _ _ _ _ (by rw [← h.length]; exact at?_lt hj) h4⟩
  | @finish s tr b0 p0' ih0 c00 j0 k0 bit0 no0 a p i c ic h _ _ _ ih =>
    by_cases hn : j = tr.length
    · subst hn; cases at?_head_eq hj
    · have hj := at?_uncons hj hn
      obtain ⟨i, a, p, h1, h2, h3, h4⟩ := ih hj
      exact ⟨i, a, p, h1.cons _, h2, h3, hidx _ _ _ _ (by rw [← h.length]; exact at?_lt hj) h4⟩
  | @confirm s tr d0 a0 p0 i0 rh0 c0 ic0 b p' hh k c' h _ _ ih =>
    by_cases hn : j = tr.length
    · subst hn; cases at?_head_eq hj
    · have hj := at?_uncons hj hn
      obtain ⟨i, a, p, h1, h2, h3, h4⟩ := ih hj
      exact ⟨i, a, p, h1.cons _, h2, h3, hidx _ _ _ _ (by rw [← h.length]; exact at?_lt hj) h4⟩

/-- an answered answer -/
theorem Follows.finished {s : List Act} {tr : Run} (h : Follows s tr) {b : Nat} {p' : PeerCfg} {ih : IH} {c0 : Core} {j k : Nat} {bit : Bool} {no : Bytes}
    (hj : at? tr j = some (.resp b p' ih c0 k bit no)) {a : Nat} {p : PeerCfg} {i : Nat} {c : Core} {ic : IC} (hi : at? tr i = some (.init a p))
    (hr : rhi a p i (rhr b p' ih c0 j k bit no).1 = some (c, ic)) :
    Res tr j i a p b p' k bit no ∧ (rhr b p' ih c0 j k bit no).1 = mOf j i a p b p' k bit no ∧ s[s.length - 1 - j]? = some (.answer i bit) := by
  obtain ⟨i0, a0, p0, h1, rfl, rfl, h4⟩ := h.resp hj
  obtain ⟨e, -⟩ := rhi_facts hr
  have e : rnd i0 .sid = rnd i .sid := e
  obtain ⟨rfl, -⟩ := rnd_inj e
  obtain ⟨rfl, rfl⟩ := ini_unique hi h1.ini
  exact ⟨h1, rfl, h4⟩

/-- the last messages of a handshake -/
theorem Follows.done {s : List Act} {tr : Run} (h : Follows s tr) {d a : Nat} {p : PeerCfg} {i : Nat} {rh : RH} {c : Core} {ic : IC}
    (hd : at? tr d = some (.idone a p i rh c ic)) : ∃ j b p' k bit no, Res tr j i a p b p' k bit no ∧ rh = mOf j i a p b p' k bit no ∧ rhi a p i rh = some (c, ic) ∧
      s[s.length - 1 - d]? = some (.finish j) ∧ s[s.length - 1 - j]? = some (.answer i bit) ∧ j < s.length := by
  have hidx : ∀ (x y : Act) (s : List Act) (j : Nat), j < s.length → s[s.length - 1 - j]? = some y → (x :: s)[(x :: s).length - 1 - j]? = some y := by
    intro x y s j hj h
    rw [show (x :: s).length - 1 - j = (s.length - 1 - j) + 1 by simp only [List.length_cons]; omega]
    exact h
  induction h with
  | nil => cases hd
  | @start s tr _ _ h ih =>
    by_cases hn : d = tr.length
    · subst hn; cases at?_head_eq hd
    · have hd := at?_uncons hd hn
      obtain ⟨j, b, p', k, bit, no, h1, h2, h3, h4, h5, h6⟩ := ih hd
      exact ⟨j, b, p', k, bit, no, h1.cons _, h2, h3, hidx _ _ _ _ (by rw [← h.length]; exact at?_lt hd) h4, hidx _ _ _ _ h6 h5, by simp only [List.length_cons]; omega⟩
  | @answer s tr _ _ _ _ _ _ _ _ _ h _ _ ih =>
    by_cases hn : d = tr.length
    · subst hn; cases at?_head_eq hd
    · have hd := at?_uncons hd hn
      obtain ⟨j, b, p', k, bit, no, h1, h2, h3, h4, h5, h6⟩ := ih hd
      exact ⟨j, b, p', k, bit, no, h1.cons _, h2, h3, hidx _ _ _ _ (by rw [← h.length]; exact at?_lt hd) h4, hidx _ _ _ _ h6 h5, by simp only [List.length_cons]; omega⟩
  | @finish s tr _ _ _ _ _ _ _ _ _ _ _ _ _ h hj hi hr ih =>
    by_cases hn : d = tr.length
    · subst hn
      cases at?_head_eq hd
      obtain ⟨h1, h2, h3⟩ := h.finished hj hi hr
      refine ⟨_, _, _, _, _, _, h1.cons _, h2, hr, by simp [h.length], hidx _ _ _ _ (by rw [← h.length]; exact at?_lt hj) h3, ?_⟩
      have := at?_lt hj
      rw [h.length] at this
      simp only [List.length_cons]; omega
    · have hd := at?_uncons hd hn
      obtain ⟨j, b, p', k, bit, no, h1, h2, h3, h4, h5, h6⟩ := ih hd
      exact ⟨j, b, p', k, bit, no, h1.cons _, h2, h3, hidx _ _ _ _ (by rw [← h.length]; exact at?_lt hd) h4, hidx _ _ _ _ h6 h5, by simp only [List.length_cons]; omega⟩
  | @confirm s tr _ _ _ _ _ _ _ _ _ _ _ _ h _ _ ih =>
    by_cases hn : d = tr.length
    · subst hn; cases at?_head_eq hd
    · have hd := at?_uncons hd hn
      obtain ⟨j, b, p', k, bit, no, h1, h2, h3, h4, h5, h6⟩ := ih hd
      exact ⟨j, b, p', k, bit, no, h1.cons _, h2, h3, hidx _ _ _ _ (by rw [← h.length]; exact at?_lt hd) h4, hidx _ _ _ _ h6 h5, by simp only [List.length_cons]; omega⟩

theorem icr_congr {b : Nat} {p q : PeerCfg} {h : HashChoice} {k : Nat} {ic : IC} (h1 : p.pid = q.pid) (h2 : p.h = q.h) : icr b p h k ic = icr b q h k ic := by
  unfold icr loadBiscuit
  rw [h1, h2]

/-- the responder's acknowledgement -/
theorem confirmed {tr : Run} {j i a : Nat} {p : PeerCfg} {b : Nat} {p' : PeerCfg} {k : Nat} {bit : Bool} {no : Bytes} (hR : Res tr j i a p b p' k bit no)
    {c : Core} {ic : IC} (hr : rhi a p i (mOf j i a p b p' k bit no) = some (c, ic)) {b2 : Nat} {q : PeerCfg} {h : HashChoice} {k2 : Nat} {c' : Core} (hc : icr b2 q h k2 ic = some c') :
    (ackOf c' q).sid = rnd i .sid ∧ Val tr (.ack j) (ackOf c' q).auth := by
  obtain ⟨c1, ic1, g1, g2⟩ := honest_rhi hR.fits i j k bit no
  have g1 : rhi a p i (mOf j i a p b p' k bit no) = some (c1, ic1) := g1
  rw [hr] at g1
  injection g1 with g1
  injection g1 with e1 e2
  subst e1 e2
  obtain ⟨f1, -, f3, f4, f5, f6, f7⟩ := rhi_facts hr
  obtain ⟨-, -, f8⟩ := rhr_facts (honest_ihr hR.fits i) j k bit no empty
  obtain ⟨n, no2, ck, pt, f9, -⟩ := icr_facts hc
  rw [f6] at f9
  have f8 : (mOf j i a p b p' k bit no).biscuitCt = _ := f8
  rw [f8] at f9
  injection f9 with e1 _ e2 e3
  injection e1 with e1
  injection e1 with e1 e1'
  subst e1 e1'
  injection e3 with e3
  have hh : p'.h = q.h := by injection e3
  have hh2 : p'.h = h := by
    injection e2
  subst hh2
  rw [icr_congr (q := p') e3.symm hh.symm, g2] at hc
  injection hc with hc
  subst hc
  refine ⟨by rw [f7]; rfl, ?_⟩
  have := Val.ack hR
  unfold ackOf tkr
  rw [f7, ← hh, hR.fits.hash]
  dsimp only
  rw [f3]
  exact this

theorem observed {G : Name → Prop} {s : List Act} {tr tr' : Run} (h : Follows s tr) (h' : Follows s tr') : Pairs (Rel (Obs tr tr') G) (sent tr) (sent tr') := by
  have hm : ∀ {tr tr' : Run} {e e' : Ev} {l l' : List Term}, Pairs (Rel (Obs tr tr') G) l l' → Pairs (Rel (Obs (e :: tr) (e' :: tr')) G) l l' := by
    intro tr tr' e e' l l' h
    exact h.mono (fun t t' h => h.mono (fun t t' ⟨x, h1, h2⟩ => ⟨x, h1.cons _, h2.cons _⟩))
  induction h generalizing tr' with
  | nil => cases h'; exact .nil
  | @start s tr a p h ih =>
    cases h' with
    | @start _ tr' a' p' h' =>
      have hlen : tr'.length = tr.length := by rw [h.length, h'.length]
      refine Pairs.append ?_ (hm (ih h'))
      have e1 := at?_head tr (.init a p)
      have e2 := at?_head tr' (.init a' p')
      rw [hlen] at e2
      unfold sentBy
      rw [hlen]
      exact .cons (.base ⟨_, .sid _, .sid _⟩) (.cons (.base ⟨_, .epk _, .epk _⟩) (.cons (.base ⟨_, .sctr e1, .sctr e2⟩)
        (.cons (.base ⟨_, .pidi e1, .pidi e2⟩) (.cons (.base ⟨_, .auth1 e1, .auth1 e2⟩) .nil))))
  | @answer s tr a p i b p' c k bit no h hi hr ih =>
    cases h' with
    | @answer _ tr' a2 p2 _ b2 p2' c2 k2 _ no2 h' hi' hr' =>
      have hlen : tr'.length = tr.length := by rw [h.length, h'.length]
      refine Pairs.append ?_ (hm (ih h'))
      obtain ⟨hf, rfl⟩ := fits_of_ihr hr
      obtain ⟨hf', rfl⟩ := fits_of_ihr hr'
      have e1 : Res (.resp b p' (initiation a p i).1 (initiation a p i).2 k bit no :: tr) tr.length i a p b p' k bit no := ⟨at?_cons _ hi, at?_head _ _, hf⟩
      have e2 : Res (.resp b2 p2' (initiation a2 p2 i).1 (initiation a2 p2 i).2 k2 bit no2 :: tr') tr'.length i a2 p2 b2 p2' k2 bit no2 := ⟨at?_cons _ hi', at?_head _ _, hf'⟩
      rw [hlen] at e2
      unfold sentBy
      rw [hlen]
      have a1 : ∀ {tr : Run} {j i a : Nat} {p : PeerCfg} {b : Nat} {p' : PeerCfg} {k : Nat} {bit : Bool} {no : Bytes}, Res tr j i a p b p' k bit no →
          Val tr (.auth2 j) (rhr b p' (initiation a p i).1 (initiation a p i).2 j k bit no).1.auth := by
        intro tr j i a p b p' k bit no hR
        have := Val.auth2 hR
        obtain ⟨c, ic, g1, -⟩ := honest_rhi hR.fits i j k bit no
        obtain ⟨-, ⟨pt, g2⟩, -⟩ := rhi_facts g1
        obtain ⟨-, g3, -⟩ := rhr_facts (honest_ihr hR.fits i) j k bit no empty
        have g4 := g2
        rw [g3] at g4
        injection g4 with _ _ _ g4
        rw [g2, ← g4]
        exact this
      exact .cons (.base ⟨_, .sid _, .sid _⟩) (.cons (.base ⟨_, .sid _, .sid _⟩) (.cons (.base ⟨_, .ect _ _, .ect _ _⟩) (.cons (.base ⟨_, .scti e1, .scti e2⟩)
        (.cons (.base ⟨_, a1 e1, a1 e2⟩) (.cons (.base ⟨_, .bct e1, .bct e2⟩) .nil)))))
  | @finish s tr b p' ih0 c0 j k bit no a p i c ic h hj hi hr ih =>
    cases h' with
    | @finish _ tr' b2 p2' ih2 c2 _ k2 bit2 no2 a2 p2 i2 c2' ic2 h' hj' hi' hr' =>
      refine Pairs.append ?_ (hm (ih h'))
      obtain ⟨r1, m1, x1⟩ := h.finished hj hi hr
      obtain ⟨r2, m2, x2⟩ := h'.finished hj' hi' hr'
      rw [x1] at x2
      injection x2 with x2
      injection x2 with x2 x3
      subst x2 x3
      rw [m1] at hr
      rw [m2] at hr'
      obtain ⟨-, -, f3, f4, f5, f6, -⟩ := rhi_facts hr
      obtain ⟨-, -, g3, g4, g5, g6, -⟩ := rhi_facts hr'
      simp only [sentBy, IC.terms]
      rw [f3, f4, f5, f6, g3, g4, g5, g6]
      exact .cons (.base ⟨_, .sid _, .sid _⟩) (.cons (.base ⟨_, .sid _, .sid _⟩) (.cons (.base ⟨_, .bct (r1.cons _), .bct (r2.cons _)⟩) (.cons (.base ⟨_, .auth3 (r1.cons _), .auth3 (r2.cons _)⟩) .nil)))
  | @confirm s tr d a p i rh c ic b p' hh k c' h hd hr ih =>
    cases h' with
    | @confirm _ tr' _ a2 p2 i2 rh2 c2 ic2 b2 p2' hh2 k2 c2' h' hd' hr' =>
      refine Pairs.append ?_ (hm (ih h'))
      obtain ⟨j, bb, pp, kk, bit, no, r1, rfl, q1, x1, y1, -⟩ := h.done hd
      obtain ⟨j2, bb2, pp2, kk2, bit2, no2, r2, rfl, q2, x2, y2, -⟩ := h'.done hd'
      rw [x1] at x2
      injection x2 with x2
      injection x2 with x2
      subst x2
      rw [y1] at y2
      injection y2 with y2
      injection y2 with y2 y3
      subst y2 y3
      obtain ⟨s1, v1⟩ := confirmed r1 q1 hr
      obtain ⟨s2, v2⟩ := confirmed r2 q2 hr'
      simp only [sentBy, ED.terms]
      rw [s1, s2]
      exact .cons (.base ⟨_, .sid _, .sid _⟩) (.cons (.const _) (.cons (.base ⟨_, v1.cons _, v2.cons _⟩) .nil))

/-- **C110** Whoever watches the network, and knows all public keys and pre-shared keys, sees the same from the payloads, whoever talks to whom: if two runs have the same
visible course, he cannot tell them apart. (What is missing: the envelope, see `envelope_names_receiver`, and active attackers.) -/
theorem observer_blind_partial (G : Name → Prop) (s : List Act) (tr tr' : Run) (h : Follows s tr) (h' : Follows s tr') (hh : Hidden G tr) (hh' : Hidden G tr') :
    Indistinguishable G (sent tr) (sent tr') := (obs_base hh hh').indistinguishable (observed h h')

end Verif.Sym
