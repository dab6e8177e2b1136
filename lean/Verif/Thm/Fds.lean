import Verif.Model.Fds
/-!
C107: claiming descriptors given by number.
-/
namespace Verif.Fds
namespace Proc

/-- the number is within the limit and not open -/
def Free (p : Proc) (n : Nat) : Prop := p.tab[n]? = some none

theorem isFree_iff (p : Proc) (n : Nat) : p.isFree n = true ↔ p.Free n := by unfold isFree Free; simp

theorem Free.lt {p : Proc} {n : Nat} (h : p.Free n) : n < p.tab.length := by
  unfold Free at h; exact (List.getElem?_eq_some_iff.mp h).1

theorem Free.at? {p : Proc} {n : Nat} (h : p.Free n) : p.at? n = none := by
  unfold Free at h; simp [Proc.at?, h]

theorem at?_lt {p : Proc} {n : Nat} {e : Entry} (h : p.at? n = some e) : n < p.tab.length := by
  unfold Proc.at? at h
  cases hh : p.tab[n]? with
  | none => simp [hh] at h
  | some x => exact (List.getElem?_eq_some_iff.mp hh).1

theorem tab_of_at? {p : Proc} {n : Nat} {e : Entry} (h : p.at? n = some e) : p.tab[n]? = some (some e) := by
  unfold Proc.at? at h
  cases hh : p.tab[n]? with
  | none => simp [hh] at h
  | some x => rw [hh] at h; simp at h; rw [h]

theorem lowest_some {p : Proc} {min m : Nat} (h : p.lowest min = some m) :
    min ≤ m ∧ p.Free m ∧ ∀ i, min ≤ i → p.Free i → m ≤ i := by
  unfold lowest at h
  rw [List.find?_range'_eq_some] at h
  obtain ⟨h1, h2, h3⟩ := h
  have hm := List.mem_range'_1.mp h2
  refine ⟨hm.1, (isFree_iff p m).mp h1, fun i hi hf => ?_⟩
  rcases Nat.lt_or_ge i m with hlt | hge
  · have := h3 i hi hlt
    rw [(isFree_iff p i).mpr hf] at this; simp at this
  · exact hge

theorem lowest_none {p : Proc} {min : Nat} (h : p.lowest min = none) : ∀ i, min ≤ i → ¬ p.Free i := by
  intro i hi hf
  unfold lowest at h
  rw [List.find?_eq_none] at h
  have hl := hf.lt
  exact h i (List.mem_range'_1.mpr ⟨hi, by omega⟩) ((isFree_iff p i).mpr hf)

theorem at?_put (p : Proc) (n : Nat) (e : Option Entry) (k : Nat) (hn : n < p.tab.length) :
    (p.put n e).at? k = if k = n then e else p.at? k := by
  unfold put Proc.at?
  rw [List.getElem?_set]
  by_cases h : n = k
  · subst h; simp [hn]
  · simp [h, Ne.symm h]

theorem free_put (p : Proc) (n : Nat) (e : Option Entry) (k : Nat) (hn : n < p.tab.length) :
    (p.put n e).Free k ↔ if k = n then e = none else p.Free k := by
  unfold put Free
  rw [List.getElem?_set]
  by_cases h : n = k
  · subst h; simp [hn]
  · simp [h, Ne.symm h]

theorem put_len (p : Proc) (n : Nat) (e : Option Entry) : (p.put n e).tab.length = p.tab.length := by simp [put]

theorem put_put (p : Proc) (n : Nat) (a b : Option Entry) : (p.put n a).put n b = p.put n b := by simp [put]

theorem put_free {p : Proc} {n : Nat} (h : p.Free n) : p.put n none = p := by
  unfold put
  have : p.tab.set n none = p.tab := by
    apply List.ext_getElem?
    intro i
    rw [List.getElem?_set]
    by_cases hi : n = i
    · subst hi; unfold Free at h; simp [h]; exact (List.getElem?_eq_some_iff.mp h).1
    · simp [hi]
  rw [this]

theorem close_open {p : Proc} {n : Nat} {e : Entry} (h : p.at? n = some e) : p.close n = p.put n none := by simp [close, h]

theorem dupfd_cases (p : Proc) (n min : Nat) (ok : Bool) :
    (∃ e m, p.at? n = some e ∧ p.lowest min = some m ∧ ok = true ∧ p.dupfd n min ok = (some m, p.put m (some ⟨e.file, true⟩))) ∨
    ((p.at? n = none ∨ p.lowest min = none ∨ ok = false) ∧ p.dupfd n min ok = (none, p)) := by
  unfold dupfd
  cases h1 : p.at? n with
  | none => right; simp
  | some e =>
    cases h2 : p.lowest min with
    | none => right; simp
    | some m => cases ok <;> simp

/-- the process with one more file open -/
def withFile (p : Proc) (m : Nat) (k : FKind) (nb : Bool) : Proc := { p with
  tab := p.tab.set m (some ⟨p.next, true⟩)
  kind := fun f => if f = p.next then k else p.kind f
  nonblock := fun f => if f = p.next then nb else p.nonblock f
  next := p.next + 1 }

theorem opens_cases (p : Proc) (k : FKind) (nb ok : Bool) :
    (∃ m, p.lowest 0 = some m ∧ ok = true ∧ p.opens k nb ok = (some m, p.withFile m k nb)) ∨
    ((p.lowest 0 = none ∨ ok = false) ∧ p.opens k nb ok = (none, p)) := by
  unfold opens withFile
  cases h2 : p.lowest 0 with
  | none => right; simp
  | some m => cases ok <;> simp

theorem at?_withFile (p : Proc) (m : Nat) (k : FKind) (nb : Bool) (i : Nat) (hm : m < p.tab.length) :
    (p.withFile m k nb).at? i = if i = m then some ⟨p.next, true⟩ else p.at? i := by
  have := at?_put p m (some ⟨p.next, true⟩) i hm
  simpa [withFile, put, Proc.at?] using this

/-- What `mask_fd` does to an open descriptor. -/
theorem maskFd_open (p : Proc) (n : Nat) (e : Entry) (he : p.at? n = some e) (o d : Bool) :
    ((∃ k, p.Free k) ∧ o = true ∧ d = true ∧ ∃ q, p.maskFd n o d = (true, q) ∧
      q.tab = p.tab.set n (some ⟨p.next, true⟩) ∧ q.kind = (fun f => if f = p.next then .null else p.kind f) ∧
      q.nonblock = (fun f => if f = p.next then false else p.nonblock f) ∧ q.next = p.next + 1 ∧ q.fault = p.fault) ∨
    (¬ ((∃ k, p.Free k) ∧ o = true ∧ d = true) ∧ ∃ q, p.maskFd n o d = (false, q) ∧ q.tab = p.tab ∧ q.fault = p.fault ∧
      (∀ f < p.next, q.kind f = p.kind f ∧ q.nonblock f = p.nonblock f) ∧ p.next ≤ q.next) := by
  unfold maskFd openNull
  rcases opens_cases p .null false o with ⟨m, hm, ho, heq⟩ | ⟨hm, heq⟩
  · obtain ⟨-, hf, -⟩ := lowest_some hm
    have hnm : m ≠ n := by intro h; subst h; rw [hf.at?] at he; simp at he
    have hlt := hf.lt
    have hat : (p.withFile m .null false).at? m = some ⟨p.next, true⟩ := by rw [at?_withFile _ _ _ _ _ hlt]; simp
    have hnl := at?_lt he
    rw [heq]
    simp only [dup3, hat, hnm, false_or]
    have hlen : (p.withFile m .null false).tab.length = p.tab.length := by simp [withFile]
    have hself : p.tab.set m none = p.tab := congrArg Proc.tab (put_free hf)
    cases d with
    | false =>
      right
      refine ⟨by simp, ?_⟩
      simp only [or_true, if_true]
      rw [close_open hat]
      refine ⟨_, rfl, ?_, rfl, ?_, ?_⟩
      · simp [put, withFile, hself]
      · intro f hf'; simp [put, withFile]; constructor <;> intro h <;> omega
      · simp [put, withFile]
    | true =>
      left
      refine ⟨⟨m, hf⟩, ho, rfl, ?_⟩
      have hnot : ¬ ((p.withFile m .null false).tab.length ≤ n ∨ true = false) := by simp [hlen]; omega
      rw [if_neg hnot]
      have hat2 : ((p.withFile m .null false).put n (some ⟨p.next, true⟩)).at? m = some ⟨p.next, true⟩ := by
        rw [at?_put _ _ _ _ (by rw [hlen]; exact hnl), if_neg hnm, hat]
      simp only [close_open hat2]
      refine ⟨_, rfl, ?_, rfl, rfl, rfl, rfl⟩
      simp only [put, withFile]
      rw [List.set_comm _ _ (Ne.symm hnm), List.set_set, hself]
  · right
    rw [heq]
    refine ⟨?_, p, rfl, rfl, rfl, fun f _ => ⟨rfl, rfl⟩, Nat.le_refl _⟩
    rintro ⟨⟨k, hk⟩, h2, -⟩
    rcases hm with h | h
    · exact lowest_none h k (Nat.zero_le _) hk
    · rw [h] at h2; simp at h2

/-- The files of the process as far as they are known are the same in `q`. -/
def SameFiles (p q : Proc) : Prop := (∀ f < p.next, q.kind f = p.kind f ∧ q.nonblock f = p.nonblock f) ∧ p.next ≤ q.next

theorem SameFiles.refl (p : Proc) : SameFiles p p := ⟨fun _ _ => ⟨rfl, rfl⟩, Nat.le_refl _⟩

theorem SameFiles.trans {p q r : Proc} (h : SameFiles p q) (g : SameFiles q r) : SameFiles p r :=
  ⟨fun f hf => by have := h.1 f hf; have g' := g.1 f (by have := h.2; omega); exact ⟨g'.1.trans this.1, g'.2.trans this.2⟩, Nat.le_trans h.2 g.2⟩

/-- **C107** `claim_fd` of a number: refused if it is not open, and then nothing changes. If it is open, either the call succeeds:
a descriptor that was free and is none of the standard streams now refers to the file, the number itself refers to /dev/null, both are
closed on `execve`, and no other descriptor changes. Or it fails and every descriptor is as before. It succeeds exactly if no system
call is made to fail and there are two free descriptors, one of which is not a standard stream. -/
theorem claim_fd_exact (p : Proc) (n : Nat) (w : World) :
    (p.at? n = none → p.claimFd n w = (.error .error, p)) ∧
    (∀ e, p.at? n = some e → ∃ r q, p.claimFd n w = (r, q) ∧ q.fault = p.fault ∧ SameFiles p q ∧
      ((∃ m, r = .ok m ∧ 3 ≤ m ∧ p.Free m ∧ q.at? m = some ⟨e.file, true⟩ ∧
          (∃ z, q.at? n = some ⟨z, true⟩ ∧ p.next ≤ z ∧ q.kind z = .null ∧ z < q.next) ∧
          (∀ k, k ≠ m → k ≠ n → q.at? k = p.at? k) ∧ q.tab.length = p.tab.length) ∨
        (r = .error .error ∧ q.tab = p.tab)) ∧
      ((∃ m, r = .ok m) ↔ (w.dup ∧ w.openNull ∧ w.dup3) ∧ ∃ m k, m ≠ k ∧ 3 ≤ m ∧ p.Free m ∧ p.Free k)) := by
  have h1 : ¬ ((n : Int) = -1) := by omega
  have h2 : ¬ ((n : Int) < 0) := by omega
  have h3 : (n : Int).toNat = n := by simp
  unfold claimFd
  rw [if_neg h1, if_neg h2, h3]
  constructor
  · intro h
    rcases dupfd_cases p n 3 w.dup with ⟨e, m, he, -⟩ | ⟨-, heq⟩
    · rw [h] at he; simp at he
    · rw [heq]
  · intro e he
    rcases dupfd_cases p n 3 w.dup with ⟨e', m, he', hm, hok, heq⟩ | ⟨hno, heq⟩
    · rw [he] at he'; cases he'
      obtain ⟨hm3, hf, hlow⟩ := lowest_some hm
      have hnm : n ≠ m := by intro h; subst h; rw [hf.at?] at he; simp at he
      rw [heq]
      have hn' : (p.put m (some ⟨e.file, true⟩)).at? n = some e := by rw [at?_put _ _ _ _ hf.lt, if_neg hnm, he]
      have hfree : ∀ k, (p.put m (some ⟨e.file, true⟩)).Free k ↔ k ≠ m ∧ p.Free k := by
        intro k; rw [free_put _ _ _ _ hf.lt]; by_cases hk : k = m <;> simp [hk]
      have hiff : (∃ k, (p.put m (some ⟨e.file, true⟩)).Free k) ↔ ∃ m k, m ≠ k ∧ 3 ≤ m ∧ p.Free m ∧ p.Free k := by
        constructor
        · rintro ⟨k, hk⟩; obtain ⟨a, b⟩ := (hfree k).mp hk; exact ⟨m, k, Ne.symm a, hm3, hf, b⟩
        · rintro ⟨a, k, hak, h3', ha, hk⟩
          by_cases hkm : k = m
          · exact ⟨a, (hfree a).mpr ⟨by omega, ha⟩⟩
          · exact ⟨k, (hfree k).mpr ⟨hkm, hk⟩⟩
      rcases maskFd_open _ n e hn' w.openNull w.dup3 with ⟨hk, ho, hd, q, hq, ht, hkind, hnb, hnext, hfault⟩ | ⟨hno, q, hq, ht, hfault, hsame⟩
      · simp only [hq]
        have hlen : n < (p.put m (some ⟨e.file, true⟩)).tab.length := by rw [put_len]; exact at?_lt he
        have hat : ∀ k, q.at? k = if k = n then some ⟨p.next, true⟩ else (p.put m (some ⟨e.file, true⟩)).at? k := by
          intro k
          have := at?_put (p.put m (some ⟨e.file, true⟩)) n (some ⟨p.next, true⟩) k hlen
          rw [← this]; unfold Proc.at?; rw [ht]; simp [put]
        refine ⟨_, _, rfl, hfault, ⟨?_, ?_⟩, Or.inl ⟨m, rfl, hm3, hf, ?_, ⟨p.next, ?_, Nat.le_refl _, ?_, ?_⟩, ?_, ?_⟩, ?_⟩
        · intro f hf'
          rw [hkind, hnb]
          have : f ≠ (p.put m (some ⟨e.file, true⟩)).next := by show f ≠ p.next; omega
          simp only [this, if_false]; exact ⟨rfl, rfl⟩
        · rw [hnext]; show p.next ≤ p.next + 1; omega
        · rw [hat, if_neg (Ne.symm hnm), at?_put _ _ _ _ hf.lt, if_pos rfl]
        · rw [hat, if_pos rfl]
        · rw [hkind]; show (if p.next = p.next then _ else _) = _; simp
        · rw [hnext]; show p.next < p.next + 1; omega
        · intro k hk1 hk2; rw [hat, if_neg hk2, at?_put _ _ _ _ hf.lt, if_neg hk1]
        · rw [ht]; simp [put]
        · exact ⟨fun _ => ⟨⟨hok, ho, hd⟩, hiff.mp hk⟩, fun _ => ⟨m, rfl⟩⟩
      · simp only [hq]
        have hatm : q.at? m = some ⟨e.file, true⟩ := by
          have := at?_put p m (some ⟨e.file, true⟩) m hf.lt
          rw [if_pos rfl] at this; rw [← this]; unfold Proc.at?; rw [ht]
        rw [close_open hatm]
        refine ⟨_, _, rfl, hfault, ⟨fun f hf' => hsame.1 f hf', hsame.2⟩, Or.inr ⟨rfl, ?_⟩, ?_⟩
        · show q.tab.set m none = p.tab
          rw [ht]; show (p.tab.set m _).set m none = p.tab
          rw [List.set_set]; exact congrArg Proc.tab (put_free hf)
        · constructor
          · rintro ⟨m, hm⟩; simp at hm
          · rintro ⟨⟨-, a, b⟩, c⟩; exact absurd ⟨hiff.mpr c, a, b⟩ hno
    · rw [heq]
      refine ⟨_, _, rfl, rfl, SameFiles.refl p, Or.inr ⟨rfl, rfl⟩, ?_⟩
      constructor
      · rintro ⟨m, hm⟩; simp at hm
      · rintro ⟨⟨a, -, -⟩, m, k, -, h3', hf, -⟩
        rcases hno with h | h | h
        · rw [he] at h; simp at h
        · exact absurd hf (lowest_none h m h3')
        · rw [h] at a; simp at a

/-- **C107** `claim_fd_inplace` of an open number takes it over in every case: it then refers to the same file and is closed on `execve`,
or, if a system call fails or no descriptor is free for the temporary copy, it is closed. No other descriptor changes. -/
theorem claim_fd_inplace_exact (p : Proc) (n : Nat) (w : World) (e : Entry) (he : p.at? n = some e) :
    ∃ r q, p.claimFdInplace n w = (r, q) ∧ q.fault = p.fault ∧ SameFiles p q ∧ (∀ k, k ≠ n → q.at? k = p.at? k) ∧
      (r = .ok n ∧ q.at? n = some ⟨e.file, true⟩ ∨ r = .error .error ∧ q.at? n = none) ∧
      (r = .ok n ↔ (w.dup ∧ w.dup3) ∧ ∃ m, 3 ≤ m ∧ p.Free m) := by
  have h1 : ¬ ((n : Int) = -1) := by omega
  have h2 : ¬ ((n : Int) < 0) := by omega
  have h3 : (n : Int).toNat = n := by simp
  unfold claimFdInplace
  rw [if_neg h1, if_neg h2, h3]
  have hnl := at?_lt he
  rcases dupfd_cases p n 3 w.dup with ⟨e', m, he', hm, hok, heq⟩ | ⟨hno, heq⟩
  · rw [he] at he'; cases he'
    obtain ⟨hm3, hf, hlow⟩ := lowest_some hm
    have hnm : n ≠ m := by intro h; subst h; rw [hf.at?] at he; simp at he
    rw [heq]
    have hmm : (p.put m (some ⟨e.file, true⟩)).at? m = some ⟨e.file, true⟩ := by rw [at?_put _ _ _ _ hf.lt, if_pos rfl]
    have hnn : (p.put m (some ⟨e.file, true⟩)).at? n = some e := by rw [at?_put _ _ _ _ hf.lt, if_neg hnm, he]
    simp only [dup3, hmm]
    cases hd : w.dup3 with
    | false =>
      simp only [or_true, if_true]
      rw [close_open hmm, put_put, put_free hf, close_open he]
      refine ⟨_, _, rfl, rfl, SameFiles.refl _, ?_, Or.inr ⟨rfl, ?_⟩, by simp⟩
      · intro k hk; rw [at?_put _ _ _ _ hnl, if_neg hk]
      · rw [at?_put _ _ _ _ hnl, if_pos rfl]
    | true =>
      have hnot : ¬ (m = n ∨ (p.put m (some ⟨e.file, true⟩)).tab.length ≤ n ∨ true = false) := by rw [put_len]; simp; omega
      rw [if_neg hnot]
      have hl' : n < (p.put m (some ⟨e.file, true⟩)).tab.length := by rw [put_len]; exact hnl
      have hm2 : ((p.put m (some ⟨e.file, true⟩)).put n (some ⟨e.file, true⟩)).at? m = some ⟨e.file, true⟩ := by
        rw [at?_put _ _ _ _ hl', if_neg (Ne.symm hnm), hmm]
      simp only [close_open hm2]
      have hat : ∀ k, (((p.put m (some ⟨e.file, true⟩)).put n (some ⟨e.file, true⟩)).put m none).at? k =
          if k = n then some ⟨e.file, true⟩ else p.at? k := by
        intro k
        rw [at?_put _ _ _ _ (by rw [put_len, put_len]; exact hf.lt), at?_put _ _ _ _ hl', at?_put _ _ _ _ hf.lt]
        by_cases ha : k = m
        · subst ha; simp [Ne.symm hnm, hf.at?]
        · simp [ha]
      refine ⟨_, _, rfl, rfl, SameFiles.refl p, ?_, Or.inl ⟨rfl, ?_⟩, ?_⟩
      · intro k hk; rw [hat, if_neg hk]
      · rw [hat, if_pos rfl]
      · simp only [true_iff]; exact ⟨⟨hok, trivial⟩, m, hm3, hf⟩
  · rw [heq]
    simp only [close_open he]
    refine ⟨_, _, rfl, rfl, SameFiles.refl p, ?_, Or.inr ⟨rfl, ?_⟩, ?_⟩
    · intro k hk; rw [at?_put _ _ _ _ hnl, if_neg hk]
    · rw [at?_put _ _ _ _ hnl, if_pos rfl]
    · constructor
      · intro h; simp at h
      · rintro ⟨⟨a, -⟩, m, h3', hf⟩
        rcases hno with h | h | h
        · rw [he] at h; simp at h
        · exact absurd hf (lowest_none h m h3')
        · rw [h] at a; simp at a

/-- A number that cannot be a descriptor: -1 panics, the others are refused; nothing changes. -/
theorem claim_negative (p : Proc) (fd : Int) (h : fd < 0) (w : World) :
    p.claimFd fd w = (.error (if fd = -1 then .panic else .error), p) := by
  unfold claimFd
  by_cases h1 : fd = -1 <;> simp [h1, h]

/-- Claiming the same number twice: the second claim succeeds as well, but what it gets is /dev/null. -/
theorem second_claim_gets_null (p p1 p2 : Proc) (n m1 m2 : Nat) (w1 w2 : World)
    (h1 : p.claimFd n w1 = (.ok m1, p1)) (h2 : p1.claimFd n w2 = (.ok m2, p2)) :
    ∃ z, p2.at? m2 = some ⟨z, true⟩ ∧ p2.kind z = .null ∧ ∃ e, p.at? n = some e ∧ p2.at? m1 = some ⟨e.file, true⟩ := by
  have he : ∃ e, p.at? n = some e := by
    cases he : p.at? n with
    | none => rw [(claim_fd_exact p n w1).1 he] at h1; simp at h1
    | some e => exact ⟨e, rfl⟩
  obtain ⟨e, he⟩ := he
  obtain ⟨r, q, hrq, hflt, hsame, hcase, -⟩ := (claim_fd_exact p n w1).2 e he
  rw [h1] at hrq; cases hrq
  rcases hcase with ⟨m, hm, hm3, hf, hat, ⟨z, hz, hz1, hz2, hz3⟩, hoth, -⟩ | ⟨hbad, -⟩
  · cases hm
    obtain ⟨r, q, hrq, hflt2, hsame2, hcase2, -⟩ := (claim_fd_exact p1 n w2).2 _ hz
    rw [h2] at hrq; cases hrq
    rcases hcase2 with ⟨m', hm', hm3', hf', hat', -, hoth', -⟩ | ⟨hbad, -⟩
    · cases hm'
      refine ⟨z, hat', ?_, e, he, ?_⟩
      · rw [(hsame2.1 z hz3).1]; exact hz2
      · rw [hoth' m1 ?_ ?_]; exact hat
        · intro hh; subst hh; rw [hf'.at?] at hat; simp at hat
        · intro hh; subst hh; rw [hf.at?] at he; simp at he
    · simp at hbad
  · simp at hbad

/-! ### Histories -/

/-- What the program does: claims a number (as a plain descriptor, as a listener, as a stream), opens something, or drops a
descriptor it holds. -/
inductive Op where
  | claim (fd : Int) (w : World)
  | listener (fd : Int) (w : World)
  | stream (fd : Int) (w : World)
  | opens (k : FKind) (nb ok : Bool)
  | drop (n : Nat)

/-- the process and the descriptors the program owns -/
structure Prog where
  p : Proc
  held : List Nat

/-- the program takes what a call returns -/
def Prog.take (s : Prog) (r : Except Fail Nat × Proc) : Prog :=
  match r with
  | (.ok m, p) => ⟨p, m :: s.held⟩
  | (.error _, p) => ⟨p, s.held⟩

def Prog.step (s : Prog) : Op → Prog
  | .claim fd w => s.take (s.p.claimFd fd w)
  | .listener fd w => s.take (s.p.listenerClaim fd w)
  | .stream fd w => s.take (s.p.streamClaim fd w)
  | .opens k nb ok => match s.p.opens k nb ok with
    | (some m, p) => ⟨p, m :: s.held⟩
    | (none, p) => ⟨p, s.held⟩
  | .drop n => if n ∈ s.held then ⟨s.p.close n, s.held.erase n⟩ else s

def Prog.run (s : Prog) (ops : List Op) : Prog := ops.foldl Prog.step s

/-- The descriptors that are open are those that were open at the start and those the program holds; the former are as they were or
refer to /dev/null; nothing was closed twice. -/
structure Ledger (p0 : Proc) (s : Prog) : Prop where
  fault : s.p.fault = p0.fault
  len : s.p.tab.length = p0.tab.length
  nodup : s.held.Nodup
  fresh : ∀ n ∈ s.held, p0.Free n
  isOpen : ∀ k, (s.p.at? k).isSome = true ↔ (p0.at? k).isSome = true ∨ k ∈ s.held
  kept : ∀ k e, p0.at? k = some e → s.p.at? k = some e ∨ ∃ z, s.p.at? k = some ⟨z, true⟩ ∧ s.p.kind z = .null ∧ z < s.p.next
  files : (∀ f < p0.next, s.p.kind f = p0.kind f) ∧ p0.next ≤ s.p.next

theorem ledger_start (p : Proc) : Ledger p ⟨p, []⟩ :=
  ⟨rfl, rfl, List.nodup_nil, fun _ h => by simp at h, fun k => by simp, fun k e h => Or.inl h, fun _ _ => rfl, Nat.le_refl _⟩

/-- the table is unchanged, the files are the same -/
theorem Ledger.same {p0 : Proc} {s : Prog} (h : Ledger p0 s) {q : Proc} (ht : q.tab = s.p.tab) (hf : q.fault = s.p.fault)
    (hk : ∀ f < s.p.next, q.kind f = s.p.kind f) (hn : s.p.next ≤ q.next) : Ledger p0 ⟨q, s.held⟩ := by
  have hat : ∀ k, q.at? k = s.p.at? k := by intro k; unfold Proc.at?; rw [ht]
  refine ⟨hf.trans h.fault, by rw [ht]; exact h.len, h.nodup, h.fresh, fun k => by rw [hat]; exact h.isOpen k, fun k e he => ?_, ?_⟩
  · rcases h.kept k e he with g | ⟨z, g1, g2, g3⟩
    · left; rw [hat]; exact g
    · right; exact ⟨z, by rw [hat]; exact g1, by rw [hk z g3]; exact g2, Nat.lt_of_lt_of_le g3 hn⟩
  · exact ⟨fun f hf => by have := h.files.2; rw [hk f (by omega)]; exact h.files.1 f hf, Nat.le_trans h.files.2 hn⟩

theorem free_of_closed {p : Proc} {k : Nat} (hl : k < p.tab.length) (h : p.at? k = none) : p.Free k := by
  unfold Proc.at? at h; unfold Free
  rw [List.getElem?_eq_getElem hl] at h ⊢
  simp at h; rw [h]

/-- a free number is taken -/
theorem Ledger.taken {p0 : Proc} {s : Prog} (h : Ledger p0 s) {q : Proc} {m : Nat} (hm : s.p.Free m) (hl : q.tab.length = s.p.tab.length)
    (hf : q.fault = s.p.fault) (hk : ∀ f < s.p.next, q.kind f = s.p.kind f) (hn : s.p.next ≤ q.next) (ham : (q.at? m).isSome = true)
    (hat : ∀ k, k ≠ m → q.at? k = s.p.at? k ∨ (s.p.at? k).isSome = true ∧ ∃ z, q.at? k = some ⟨z, true⟩ ∧ q.kind z = .null ∧ z < q.next) :
    Ledger p0 ⟨q, m :: s.held⟩ := by
  have hc := h.isOpen m
  rw [hm.at?] at hc
  have hc' : ¬ ((p0.at? m).isSome = true) ∧ m ∉ s.held := by
    constructor
    · intro hh; have := hc.mpr (Or.inl hh); simp at this
    · intro hh; have := hc.mpr (Or.inr hh); simp at this
  have hnone : p0.at? m = none := by cases hx : p0.at? m with
    | none => rfl
    | some _ => simp [hx] at hc'
  refine ⟨hf.trans h.fault, hl.trans h.len, List.nodup_cons.mpr ⟨hc'.2, h.nodup⟩, ?_, ?_, ?_, ?_⟩
  · intro n hn'
    rcases List.mem_cons.mp hn' with rfl | hn'
    · exact free_of_closed (by rw [← h.len]; exact hm.lt) hnone
    · exact h.fresh n hn'
  · intro k
    by_cases hkm : k = m
    · subst hkm; simp [ham]
    · rw [List.mem_cons]
      simp only [hkm, false_or]
      rw [← h.isOpen k]
      rcases hat k hkm with g | ⟨g1, z, g2, -⟩
      · rw [g]
      · rw [g1, g2]; simp
  · intro k e he
    have hkm : k ≠ m := by intro hh; subst hh; rw [hnone] at he; simp at he
    rcases hat k hkm with g | ⟨g1, z, g2, g3, g4⟩
    · rw [g]
      rcases h.kept k e he with g' | ⟨z, g1, g2, g3⟩
      · exact Or.inl g'
      · exact Or.inr ⟨z, g1, by rw [hk z g3]; exact g2, Nat.lt_of_lt_of_le g3 hn⟩
    · exact Or.inr ⟨z, g2, g3, g4⟩
  · exact ⟨fun f hf => by have := h.files.2; rw [hk f (by omega)]; exact h.files.1 f hf, Nat.le_trans h.files.2 hn⟩

/-- a held descriptor is closed -/
theorem Ledger.dropped {p0 : Proc} {s : Prog} (h : Ledger p0 s) {n : Nat} (hn : n ∈ s.held) : Ledger p0 ⟨s.p.close n, s.held.erase n⟩ := by
  have ho := (h.isOpen n).mpr (Or.inr hn)
  have hfr := h.fresh n hn
  cases hx : s.p.at? n with
  | none => simp [hx] at ho
  | some e =>
    have hl := at?_lt hx
    rw [close_open hx]
    refine ⟨h.fault, by rw [put_len]; exact h.len, h.nodup.erase _, fun m hm => h.fresh m (List.mem_of_mem_erase hm), ?_, ?_, h.files⟩
    · intro k
      show ((s.p.put n none).at? k).isSome = true ↔ _
      rw [at?_put _ _ _ _ hl]
      by_cases hk : k = n
      · subst hk; simp [h.nodup.not_mem_erase, hfr.at?]
      · rw [if_neg hk, h.isOpen k, List.mem_erase_of_ne hk]
    · intro k e' he
      have hk : k ≠ n := by intro hh; subst hh; rw [hfr.at?] at he; simp at he
      show (s.p.put n none).at? k = _ ∨ ∃ z, (s.p.put n none).at? k = _ ∧ _
      rw [at?_put _ _ _ _ hl, if_neg hk]
      exact h.kept k e' he

theorem Ledger.claim {p0 : Proc} {s : Prog} (h : Ledger p0 s) (fd : Int) (w : World) : Ledger p0 (s.take (s.p.claimFd fd w)) := by
  rcases Int.lt_or_le fd 0 with hneg | hpos
  · rw [claim_negative _ _ hneg]; exact h.same rfl rfl (fun _ _ => rfl) (Nat.le_refl _)
  · obtain ⟨n, rfl⟩ := Int.eq_ofNat_of_zero_le hpos
    cases hn : s.p.at? n with
    | none => rw [(claim_fd_exact s.p n w).1 hn]; exact h.same rfl rfl (fun _ _ => rfl) (Nat.le_refl _)
    | some e =>
      obtain ⟨r, q, hrq, hflt, hsame, hcase, -⟩ := (claim_fd_exact s.p n w).2 e hn
      rw [hrq]
      rcases hcase with ⟨m, rfl, hm3, hf, ham, ⟨z, hz1, hz2, hz3, hz4⟩, hoth, hlen⟩ | ⟨rfl, ht⟩
      · refine h.taken hf hlen hflt (fun f hf => (hsame.1 f hf).1) hsame.2 (by rw [ham]; rfl) ?_
        intro k hk
        by_cases hkn : k = n
        · subst hkn; right; exact ⟨by rw [hn]; rfl, z, hz1, hz3, hz4⟩
        · left; exact hoth k hk hkn
      · exact h.same ht hflt (fun f hf => (hsame.1 f hf).1) hsame.2

theorem setNonblocking_cases (p : Proc) (n : Nat) (ok : Bool) :
    (∃ e, p.at? n = some e ∧ ok = true ∧ p.setNonblocking n ok = (true, { p with nonblock := fun f => if f = e.file then true else p.nonblock f })) ∨
    ((p.at? n = none ∨ ok = false) ∧ p.setNonblocking n ok = (false, p)) := by
  unfold setNonblocking
  cases p.at? n with
  | none => right; simp
  | some e => cases ok <;> simp

/-- **C107** Over any history of claims, opened files and dropped descriptors, with any system calls failing: what is open is what was
open at the start and what the program holds, so nothing leaks; nothing is closed twice; a descriptor that was open at the start is
never closed nor made to refer to anything else but /dev/null; a number the program holds was free at the start. -/
theorem no_descriptor_leaks (p0 : Proc) (ops : List Op) : Ledger p0 ((Prog.mk p0 []).run ops) := by
  have key : ∀ (ops : List Op) (s : Prog), Ledger p0 s → Ledger p0 (s.run ops) := by
    intro ops
    induction ops with
    | nil => intro s h; exact h
    | cons o ops ih =>
      intro s h
      refine ih _ ?_
      have after : ∀ (r : Except Fail Nat × Proc), Ledger p0 (s.take r) → ∀ ok : Bool,
          (∀ m p, r = (.ok m, p) → Ledger p0 (s.take (match p.setNonblocking m ok with
            | (false, p) => ((.error .error : Except Fail Nat), p.close m)
            | (true, p) => (.ok m, p)))) := by
        intro r hr ok m p hrm
        subst hrm
        have hr' : Ledger p0 ⟨p, m :: s.held⟩ := hr
        rcases setNonblocking_cases p m ok with ⟨e, he, -, heq⟩ | ⟨-, heq⟩
        · rw [heq]; exact hr'.same rfl rfl (fun _ _ => rfl) (Nat.le_refl _)
        · rw [heq]
          have := hr'.dropped (n := m) (by simp)
          simpa [Prog.take] using this
      cases o with
      | claim fd w => exact h.claim fd w
      | listener fd w =>
        have hc := h.claim fd w
        show Ledger p0 (s.take (s.p.listenerClaim fd w))
        unfold listenerClaim
        cases hr : s.p.claimFd fd w with
        | mk r p =>
          rw [hr] at hc
          cases r with
          | error f => exact hc
          | ok m => exact after _ hc w.setNonblock m p rfl
      | stream fd w =>
        have hc := h.claim fd w
        show Ledger p0 (s.take (s.p.streamClaim fd w))
        unfold streamClaim
        cases hr : s.p.claimFd fd w with
        | mk r p =>
          rw [hr] at hc
          cases r with
          | error f => exact hc
          | ok m =>
            dsimp only
            split
            · have hc' : Ledger p0 ⟨p, m :: s.held⟩ := hc
              have := hc'.dropped (n := m) (by simp)
              simpa [Prog.take] using this
            · exact after _ hc w.setNonblock m p rfl
      | opens k nb ok =>
        show Ledger p0 (match s.p.opens k nb ok with
          | (some m, p) => ⟨p, m :: s.held⟩
          | (none, p) => ⟨p, s.held⟩)
        rcases opens_cases s.p k nb ok with ⟨m, hm, -, heq⟩ | ⟨-, heq⟩
        · rw [heq]
          obtain ⟨-, hf, -⟩ := lowest_some hm
          refine h.taken hf (by simp [withFile]) rfl ?_ (by simp [withFile]) (by rw [at?_withFile _ _ _ _ _ hf.lt]; simp) ?_
          · intro f hf'; simp only [withFile]; rw [if_neg (by omega)]
          · intro i hi; left; rw [at?_withFile _ _ _ _ _ hf.lt, if_neg hi]
        · rw [heq]; exact h
      | drop n =>
        show Ledger p0 (if n ∈ s.held then ⟨s.p.close n, s.held.erase n⟩ else s)
        split
        · exact h.dropped ‹_›
        · exact h
  exact key ops _ (ledger_start p0)

end Proc
end Verif.Fds
