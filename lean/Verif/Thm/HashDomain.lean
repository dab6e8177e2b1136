import Verif.Model.Handshake
/-
C13, C23, C24 (hash part), C25: domain separation. All statements are reductions: *either* the
values differ *or* an explicit collision of the keyed hash (or a preimage of the all-zero root key)
occurs among the finitely many queries of the two computations. Nothing is assumed about the hash.
-/
namespace Verif
open HashDomain

/-! ### Specification: queries of a chain of hashes, and collisions -/

/-- The (key, data) pairs hashed when the labels `vs` are mixed, one after the other, into `k`. -/
def queries (C : Crypto) (h : HashChoice) (k : Bytes) : List Bytes → List (Bytes × Bytes)
  | [] => []
  | v :: vs => (k, v) :: queries C h (C.hash h k v) vs

/-- Two different queries of `qs` hash to the same value, or one hashes to the root key. -/
def Broken (C : Crypto) (h : HashChoice) (root : Bytes) (qs : List (Bytes × Bytes)) : Prop :=
  (∃ q ∈ qs, ∃ q' ∈ qs, q ≠ q' ∧ C.hash h q.1 q.2 = C.hash h q'.1 q'.2) ∨
  (∃ q ∈ qs, C.hash h q.1 q.2 = root)

theorem Broken.mono {C h root qs qs'} (hs : ∀ q ∈ qs, q ∈ qs') (b : Broken C h root qs) :
    Broken C h root qs' := by
  rcases b with ⟨q, hq, q', hq', h1, h2⟩ | ⟨q, hq, h1⟩
  · exact Or.inl ⟨q, hs q hq, q', hs q' hq', h1, h2⟩
  · exact Or.inr ⟨q, hs q hq, h1⟩

theorem mixMany_snoc (C : Crypto) (h : HashChoice) (k : Bytes) (vs : List Bytes) (v : Bytes) :
    mixMany C h k (vs ++ [v]) = C.hash h (mixMany C h k vs) v := by
  simp [mixMany, mix, List.foldl_append]

theorem mixMany_cons (C : Crypto) (h : HashChoice) (k v : Bytes) (vs : List Bytes) :
    mixMany C h k (v :: vs) = mixMany C h (C.hash h k v) vs := rfl

theorem mixMany_append (C : Crypto) (h : HashChoice) (k : Bytes) (vs ws : List Bytes) :
    mixMany C h k (vs ++ ws) = mixMany C h (mixMany C h k vs) ws := by
  simp [mixMany, List.foldl_append]

theorem queries_append (C : Crypto) (h : HashChoice) (k : Bytes) (vs ws : List Bytes) :
    queries C h k (vs ++ ws) = queries C h k vs ++ queries C h (mixMany C h k vs) ws := by
  induction vs generalizing k with
  | nil => rfl
  | cons v vs ih => simp [queries, ih, mixMany_cons]

theorem last_query_mem (C : Crypto) (h : HashChoice) (k : Bytes) (vs : List Bytes) (v : Bytes) :
    (mixMany C h k vs, v) ∈ queries C h k (vs ++ [v]) := by
  rw [queries_append]
  simp [queries]

/-- Main lemma: different label paths below the same root give different values, or the hash is
broken on the queries of the two paths. -/
theorem path_injective (C : Crypto) (h : HashChoice) (root : Bytes) (l1 l2 : List Bytes)
    (heq : mixMany C h root l1 = mixMany C h root l2) :
    l1 = l2 ∨ Broken C h root (queries C h root l1 ++ queries C h root l2) := by
  obtain ⟨n, hn⟩ : ∃ n, n = l1.length := ⟨_, rfl⟩
  induction n generalizing l1 l2 with
  | zero =>
    have h1 : l1 = [] := List.length_eq_zero_iff.mp hn.symm
    subst h1
    rcases List.eq_nil_or_concat l2 with rfl | ⟨l, v, rfl⟩
    · exact Or.inl rfl
    · right; right
      refine ⟨(mixMany C h root l, v), ?_, ?_⟩
      · exact List.mem_append_right _ (by simpa using last_query_mem C h root l v)
      · simpa [mixMany, mix] using heq.symm
  | succ n ih =>
    rcases List.eq_nil_or_concat l1 with rfl | ⟨a, x, rfl⟩
    · simp at hn
    rcases List.eq_nil_or_concat l2 with rfl | ⟨b, y, rfl⟩
    · right; right
      refine ⟨(mixMany C h root a, x), ?_, ?_⟩
      · exact List.mem_append_left _ (by simpa using last_query_mem C h root a x)
      · simpa [mixMany, mix] using heq
    · simp only [List.concat_eq_append] at heq hn ⊢
      rw [mixMany_snoc, mixMany_snoc] at heq
      by_cases hq : (mixMany C h root a, x) = (mixMany C h root b, y)
      · have ha : mixMany C h root a = mixMany C h root b := congrArg Prod.fst hq
        have hx : x = y := congrArg Prod.snd hq
        have hlen : n = a.length := by simp at hn; exact hn
        rcases ih a b ha hlen with hab | hbr
        · left; rw [hab, hx]
        · right
          refine hbr.mono ?_
          intro q hq
          rw [queries_append, queries_append]
          rcases List.mem_append.mp hq with h1 | h1
          · exact List.mem_append_left _ (List.mem_append_left _ h1)
          · exact List.mem_append_right _ (List.mem_append_left _ h1)
      · right; left
        refine ⟨_, List.mem_append_left _ (last_query_mem C h root a x),
          _, List.mem_append_right _ (last_query_mem C h root b y), hq, heq⟩

/-! ### C25 -/

/-- The full label path of a domain, from the all-zero root. -/
def Purpose.path (h : HashChoice) (p : Purpose) : List Bytes := protocolLabel h :: p.labels

theorem dom_eq_path (C : Crypto) (h : HashChoice) (p : Purpose) :
    dom C h p = mixMany C h zero32 (Purpose.path h p) := rfl

/-- The domains reserved for output keys, which share their first labels. -/
def IsOsk : Purpose → Bool
  | .ckeUser | .ckeUserRosenpass | .wireguardPsk => true
  | _ => false

theorem purpose_prefix_free {p q : Purpose} (hne : p ≠ q) (h : IsOsk p = false ∨ IsOsk q = false)
    (xs ys : List Bytes) : p.labels ++ xs ≠ q.labels ++ ys := by
  cases p <;> cases q <;>
    first
    | exact absurd rfl hne
    | (simp [IsOsk] at h; done)
    | (simp [Purpose.labels, Purpose.labels.ckextract, lbl]; done)

/-- C25. Values derived under two different domains - with any data mixed in after the domain's own
labels - are different, unless the keyed hash collides (or hits the zero key) on the queries made.
The three output-key domains extend one another by design; for them see C23. -/
theorem hash_domains_separated (C : Crypto) (h : HashChoice) (p q : Purpose) (hne : p ≠ q)
    (hosk : IsOsk p = false ∨ IsOsk q = false) (xs ys : List Bytes)
    (heq : mixMany C h (dom C h p) xs = mixMany C h (dom C h q) ys) :
    Broken C h zero32
      (queries C h zero32 (Purpose.path h p ++ xs) ++ queries C h zero32 (Purpose.path h q ++ ys)) := by
  rw [dom_eq_path, dom_eq_path, ← mixMany_append, ← mixMany_append] at heq
  rcases path_injective C h zero32 _ _ heq with h1 | h1
  · exfalso
    simp only [Purpose.path, List.cons_append, List.cons.injEq, true_and] at h1
    exact purpose_prefix_free hne hosk xs ys h1
  · exact h1

/-- C25, between the two protocol versions: their labels differ from the first one on. Even if both used the same hash function, values of one version (of any domain, with any data) would
differ from those of the other, unless the hash collides. -/
theorem versions_separated (C : Crypto) (h : HashChoice) (p q : Purpose) (xs ys : List Bytes)
    (heq : mixMany C h zero32 (Purpose.path .shake p ++ xs) = mixMany C h zero32 (Purpose.path .blake q ++ ys)) :
    Broken C h zero32 (queries C h zero32 (Purpose.path .shake p ++ xs) ++ queries C h zero32 (Purpose.path .blake q ++ ys)) := by
  rcases path_injective C h zero32 _ _ heq with h1 | h1
  · exfalso
    simp only [Purpose.path, List.cons_append, List.cons.injEq] at h1
    exact absurd h1.1 (by decide)
  · exact h1

/-- C25, same domain: within one domain, different data give different values. -/
theorem hash_domain_injective (C : Crypto) (h : HashChoice) (p : Purpose) (xs ys : List Bytes)
    (heq : mixMany C h (dom C h p) xs = mixMany C h (dom C h p) ys) :
    xs = ys ∨ Broken C h zero32
      (queries C h zero32 (Purpose.path h p ++ xs) ++ queries C h zero32 (Purpose.path h p ++ ys)) := by
  rw [dom_eq_path, ← mixMany_append, ← mixMany_append] at heq
  rcases path_injective C h zero32 _ _ heq with h1 | h1
  · left; exact List.append_cancel_left h1
  · right; exact h1

/-- C25: keys derived from one chaining key for its five uses (next chaining key, handshake
encryption, initiator and responder transport keys) differ pairwise, or the hash is broken. -/
theorem chaining_key_uses_separated (C : Crypto) (h : HashChoice) (ck : Bytes) (p q : Purpose)
    (hne : p ≠ q) (hosk : IsOsk p = false ∨ IsOsk q = false)
    (heq : C.hash h ck (dom C h p) = C.hash h ck (dom C h q)) :
    Broken C h zero32 ((ck, dom C h p) :: (ck, dom C h q) ::
      (queries C h zero32 (Purpose.path h p) ++ queries C h zero32 (Purpose.path h q))) := by
  by_cases hd : dom C h p = dom C h q
  · have := hash_domains_separated C h p q hne hosk [] [] (by simpa [mixMany] using hd)
    refine this.mono ?_
    intro x hx; simp at hx ⊢; exact Or.inr (Or.inr hx)
  · left
    exact ⟨(ck, dom C h p), by simp, (ck, dom C h q), by simp, by simpa using hd, heq⟩

-- Non-vacuity: for the toy hash the listed queries do not collide, so the domains really differ.
example : dom Toy.crypto .shake .mac ≠ dom Toy.crypto .shake .cookie := by decide +kernel
example : dom Toy.crypto .blake .iniEnc ≠ dom Toy.crypto .blake .resEnc := by decide +kernel
example : ¬ Broken Toy.crypto .shake zero32
    (queries Toy.crypto .shake zero32 (Purpose.path .shake .mac) ++
     queries Toy.crypto .shake zero32 (Purpose.path .shake .cookie)) := by
  unfold Broken; decide +kernel

/-! ### C13: cookies -/

/-- C13. The cookie values of two hosts (or of two secrets) differ in their untruncated form unless
the hash collides. -/
theorem cookie_value_bound_to_host (C : Crypto) (s1 s2 host1 host2 : Bytes)
    (heq : mixMany C .shake (dom C .shake .cookieValue) [s1, host1] =
           mixMany C .shake (dom C .shake .cookieValue) [s2, host2]) :
    (s1 = s2 ∧ host1 = host2) ∨ Broken C .shake zero32
      (queries C .shake zero32 (Purpose.path .shake .cookieValue ++ [s1, host1]) ++
       queries C .shake zero32 (Purpose.path .shake .cookieValue ++ [s2, host2])) := by
  rcases hash_domain_injective C .shake .cookieValue _ _ heq with h | h
  · left; simp at h; exact h
  · right; exact h

/-- C13: what the server computes for a host is the 16-byte truncation of that value. -/
theorem cookie_value_is_truncation (C : Crypto) (secret host : Bytes) :
    Server.cookieValueFor C secret host =
      (mixMany C .shake (dom C .shake .cookieValue) [secret, host]).take 16 := rfl

example : Server.cookieValueFor Toy.crypto [1,2,3] [127,0,0,1] ≠
    Server.cookieValueFor Toy.crypto [1,2,3] [127,0,0,2] := by decide +kernel

/-! ### C23: output keys -/

/-- Full label path of an output-key domain separator. -/
def OskDomain.path (h : HashChoice) : OskDomain → List Bytes
  | .wireguardPsk => Purpose.path h .wireguardPsk
  | .custom ns ls => Purpose.path h .ckeUser ++ ns :: ls

theorem compress_eq_path (C : Crypto) (h : HashChoice) (d : OskDomain) :
    d.compress C h = mixMany C h zero32 (OskDomain.path h d) := by
  cases d with
  | wireguardPsk => rfl
  | custom ns ls =>
    simp only [OskDomain.compress, OskDomain.path]
    rw [mixMany_append, ← dom_eq_path]
    rfl

/-- The one custom separator that is, by construction, the WireGuard one:
namespace "rosenpass.eu", label "wireguard psk". -/
def wireguardAlias : OskDomain :=
  .custom (lbl ['r','o','s','e','n','p','a','s','s','.','e','u'])
    [lbl ['w','i','r','e','g','u','a','r','d',' ','p','s','k']]

theorem osk_path_injective {h : HashChoice} {d1 d2 : OskDomain}
    (heq : OskDomain.path h d1 = OskDomain.path h d2) :
    d1 = d2 ∨ (d1 = .wireguardPsk ∧ d2 = wireguardAlias) ∨ (d1 = wireguardAlias ∧ d2 = .wireguardPsk) := by
  cases d1 with
  | wireguardPsk =>
    cases d2 with
    | wireguardPsk => exact Or.inl rfl
    | custom ns ls =>
      right; left
      simp only [OskDomain.path, Purpose.path, Purpose.labels, List.cons_append, List.nil_append,
        List.cons.injEq, true_and] at heq
      exact ⟨rfl, by rw [wireguardAlias, ← heq.1, ← heq.2]⟩
  | custom ns ls =>
    cases d2 with
    | wireguardPsk =>
      right; right
      simp only [OskDomain.path, Purpose.path, Purpose.labels, List.cons_append, List.nil_append,
        List.cons.injEq, true_and] at heq
      exact ⟨by rw [wireguardAlias, heq.1, heq.2], rfl⟩
    | custom ns' ls' =>
      left
      simp only [OskDomain.path] at heq
      have := List.append_cancel_left heq
      simp only [List.cons.injEq] at this
      rw [this.1, this.2]

/-- C23. For one chaining key, two domain separators yield the same output key only if they are the
same separator (up to the documented alias of the WireGuard one), unless the hash collides. -/
theorem osk_domain_separation (C : Crypto) (h : HashChoice) (ck : Bytes) (d1 d2 : OskDomain)
    (heq : C.hash h ck (d1.compress C h) = C.hash h ck (d2.compress C h)) :
    (d1 = d2 ∨ (d1 = .wireguardPsk ∧ d2 = wireguardAlias) ∨ (d1 = wireguardAlias ∧ d2 = .wireguardPsk)) ∨
    Broken C h zero32 ((ck, d1.compress C h) :: (ck, d2.compress C h) ::
      (queries C h zero32 (OskDomain.path h d1) ++ queries C h zero32 (OskDomain.path h d2))) := by
  by_cases hd : d1.compress C h = d2.compress C h
  · rw [compress_eq_path, compress_eq_path] at hd
    rcases path_injective C h zero32 _ _ hd with h1 | h1
    · exact Or.inl (osk_path_injective h1)
    · right; refine h1.mono ?_
      intro x hx; simp at hx ⊢; exact Or.inr (Or.inr hx)
  · right; left
    exact ⟨(ck, d1.compress C h), by simp, (ck, d2.compress C h), by simp, by simpa using hd, heq⟩

/-- C23 at the API: `osk_with_domain_separator` of one server returns equal keys for two separators
only if they are equal (up to the alias) or the hash collides; equal separators give equal keys. -/
theorem osk_for_separated (C : Crypto) (s : Server) (p : Nat) (peer : Peer) (ses : Session)
    (d1 d2 : OskDomain) (hp : s.peers[p]? = some peer) (hs : peer.session = some ses)
    (hver : ses.hc = peer.version.hash) (k : Bytes)
    (h1 : s.oskFor C p d1 = .ok k) (h2 : s.oskFor C p d2 = .ok k) :
    (d1 = d2 ∨ (d1 = .wireguardPsk ∧ d2 = wireguardAlias) ∨ (d1 = wireguardAlias ∧ d2 = .wireguardPsk)) ∨
    Broken C ses.hc zero32 ((ses.ck, d1.compress C ses.hc) :: (ses.ck, d2.compress C ses.hc) ::
      (queries C ses.hc zero32 (OskDomain.path ses.hc d1) ++ queries C ses.hc zero32 (OskDomain.path ses.hc d2))) := by
  simp only [Server.oskFor, Server.oskWith, hp, hs, ← hver, Except.ok.injEq] at h1 h2
  exact osk_domain_separation C ses.hc ses.ck d1 d2 (h1.trans h2.symm)

/-- C23, the negative finding kept in view: the alias is real - a custom separator equal to the
built-in WireGuard one exists, for every hash. -/
theorem osk_wireguard_alias (C : Crypto) (h : HashChoice) :
    OskDomain.wireguardPsk ≠ wireguardAlias ∧
    OskDomain.wireguardPsk.compress C h = wireguardAlias.compress C h :=
  ⟨by simp [wireguardAlias], rfl⟩

example : (OskDomain.custom [1] [[2],[3]]).compress Toy.crypto .shake ≠
    (OskDomain.custom [1] [[2,3]]).compress Toy.crypto .shake := by decide +kernel

end Verif
