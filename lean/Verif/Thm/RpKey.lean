import Verif.Thm.KeyGen
/-
C56 for `rp genkey`; C78 `rp pubkey`.
-/
namespace Verif.KeyGen
open FileIO

theorem join_ne (d : String) {a b : String} (h : a ≠ b) : join d a ≠ join d b := by
  intro e
  unfold join at e
  apply h
  split at e
  · have e' := congrArg String.toList e
    simp only [String.toList_append] at e'
    exact String.ext (List.append_cancel_left e')
  · have e' := congrArg String.toList e
    simp only [String.toList_append, List.append_assoc] at e'
    exact String.ext (List.append_cancel_left (List.append_cancel_left e'))

theorem putB64_spec (fs : Fs) (umask : Nat) (path : String) (v : Visibility) (key : Bytes) (w : Wr) (hl : key.length = 32) :
    putB64 fs umask path v key w = put fs umask path v (b64Enc key) w := by
  unfold putB64 b64Encode WG_B64_LEN
  rw [if_pos (by rw [b64Enc_length, hl]; decide)]

/-- what `genkeyIn` may do to the file of a path it does not own -/
theorem putB64_frame (fs : Fs) (umask : Nat) (path : String) (v : Visibility) (key : Bytes) (w : Wr) (p : String) (h : p ≠ path) :
    (putB64 fs umask path v key w).2 p = fs p := by
  unfold putB64
  cases b64Encode key WG_B64_LEN with
  | error e => rfl
  | ok s => exact (put_spec fs umask path v s w).1 p h

theorem genkeyIn_keeps (fs : Fs) (umask : Nat) (dir : String) (wgsk pqsk pqpk : Bytes) (w1 w2 w3 : Wr) (p : String) (f : File) (h : fs p = some f) :
    (genkeyIn fs umask dir wgsk pqsk pqpk w1 w2 w3).2 p = some f := by
  unfold genkeyIn
  have first : (if (fs (join dir "wgsk")).isNone then putB64 fs umask (join dir "wgsk") .secret wgsk w1 else (some (.ok ()), fs)).2 p = some f := by
    by_cases hc : (fs (join dir "wgsk")).isNone
    · rw [if_pos hc]
      have hp : p ≠ join dir "wgsk" := by rintro rfl; rw [h] at hc; cases hc
      rw [putB64_frame _ _ _ _ _ _ _ hp]; exact h
    · rw [if_neg hc]; exact h
  revert first
  generalize (if (fs (join dir "wgsk")).isNone then putB64 fs umask (join dir "wgsk") .secret wgsk w1 else (some (.ok ()), fs)) = q
  obtain ⟨r1, fs1⟩ := q
  intro first
  dsimp only at first ⊢
  match r1 with
  | none => exact first
  | some (.error e) => exact first
  | some (.ok ()) =>
    dsimp only
    by_cases hc : ((fs1 (join dir "pqsk")).isNone && (fs1 (join dir "pqpk")).isNone) = true
    · rw [if_pos hc]
      rw [Bool.and_eq_true] at hc
      have h1 : p ≠ join dir "pqpk" := by rintro rfl; rw [first] at hc; cases hc.2
      have h2 : p ≠ join dir "pqsk" := by rintro rfl; rw [first] at hc; cases hc.1
      have a2 := (put_spec fs1 umask (join dir "pqpk") .pub pqpk w2).1 p h1
      revert a2
      generalize put fs1 umask (join dir "pqpk") .pub pqpk w2 = q
      obtain ⟨r2, fs2⟩ := q
      intro a2
      dsimp only at a2 ⊢
      match r2 with
      | none => exact a2.trans first
      | some (.error e) => exact a2.trans first
      | some (.ok ()) => exact ((put_spec fs2 umask (join dir "pqsk") .secret pqsk w3).1 p h2).trans (a2.trans first)
    · rw [if_neg hc]; exact first

/-- **C56.** `rp genkey` never changes an existing file, whatever fails and wherever it is killed. -/
theorem rp_genkey_keeps_existing (fs : Fs) (umask : Nat) (d : DirMode) (dir : String) (wgsk pqsk pqpk : Bytes) (mk : Mk) (w1 w2 w3 : Wr) (p : String) (f : File) (h : fs p = some f) :
    (genkey fs umask d dir wgsk pqsk pqpk mk w1 w2 w3).2.1 p = some f := by
  unfold genkey
  cases d with
  | some m =>
    dsimp only
    by_cases hm : m ≠ 0o700
    · rw [if_pos hm]; exact h
    · rw [if_neg hm]; exact genkeyIn_keeps fs umask dir wgsk pqsk pqpk w1 w2 w3 p f h
  | none =>
    cases mk
    · exact h
    · exact h
    · exact genkeyIn_keeps fs umask dir wgsk pqsk pqpk w1 w2 w3 p f h

/-- **C56, false of the code.** A directory that already exists is refused whatever its permissions, 0700 included, because
the type bits are part of the number that is compared with 0o700. -/
theorem rp_existing_directory_refused (fs : Fs) (umask t perm : Nat) (ht : t ∈ fileTypes) (dir : String) (wgsk pqsk pqpk : Bytes) (mk : Mk) (w1 w2 w3 : Wr) :
    genkey fs umask (some (t + perm)) dir wgsk pqsk pqpk mk w1 w2 w3 = (.refused, fs, some (t + perm)) := by
  unfold genkey
  have : t + perm ≠ 0o700 := by
    simp only [fileTypes, List.mem_cons, List.not_mem_nil, or_false] at ht
    omega
  dsimp only
  rw [if_pos this]

theorem new_mode (a : Nat) : 0o040000 ||| (0o700 &&& a) = 0o040000 + (0o700 &&& a) := by
  have h : 0o700 &&& a < 2 ^ 14 := Nat.lt_of_le_of_lt Nat.and_le_left (by decide)
  have := Nat.two_pow_add_eq_or_of_lt h 1
  simpa using this.symm

/-- **C56, false of the code.** After any run that got as far as creating the directory, successful or not, every later run
is refused and changes nothing. -/
theorem rp_reruns_refused (fs : Fs) (umask : Nat) (dir : String) (wgsk pqsk pqpk : Bytes) (w1 w2 w3 : Wr) (fs' : Fs) (wgsk' pqsk' pqpk' : Bytes) (mk' : Mk) (w1' w2' w3' : Wr) :
    genkey fs' umask (genkey fs umask none dir wgsk pqsk pqpk .created w1 w2 w3).2.2 dir wgsk' pqsk' pqpk' mk' w1' w2' w3' =
      (.refused, fs', (genkey fs umask none dir wgsk pqsk pqpk .created w1 w2 w3).2.2) := by
  have e : (genkey fs umask none dir wgsk pqsk pqpk .created w1 w2 w3).2.2 = some (0o040000 + (0o700 &&& (0o777 ^^^ (umask &&& 0o777)))) := by
    rw [← new_mode]; rfl
  rw [e]
  exact rp_existing_directory_refused fs' umask _ _ (by decide) dir _ _ _ _ _ _ _

/-- the run in a new directory, step by step -/
theorem genkeyIn_fresh (fs : Fs) (umask : Nat) (dir : String) (wgsk pqsk pqpk : Bytes) (hl : wgsk.length = 32) (w1 w2 w3 : Wr)
    (hn : fs (join dir "wgsk") = none ∧ fs (join dir "pqsk") = none ∧ fs (join dir "pqpk") = none) :
    let s1 := put fs umask (join dir "wgsk") .secret (b64Enc wgsk) w1
    let s2 := put s1.2 umask (join dir "pqpk") .pub pqpk w2
    let s3 := put s2.2 umask (join dir "pqsk") .secret pqsk w3
    (s1.1 ≠ some (.ok ()) ∧ genkeyIn fs umask dir wgsk pqsk pqpk w1 w2 w3 = (ended s1.1, s1.2)) ∨
    (s1.1 = some (.ok ()) ∧ s2.1 ≠ some (.ok ()) ∧ genkeyIn fs umask dir wgsk pqsk pqpk w1 w2 w3 = (ended s2.1, s2.2)) ∨
    (s1.1 = some (.ok ()) ∧ s2.1 = some (.ok ()) ∧ genkeyIn fs umask dir wgsk pqsk pqpk w1 w2 w3 = (ended s3.1, s3.2)) := by
  intro s1 s2 s3
  have e1 : (if (fs (join dir "wgsk")).isNone then putB64 fs umask (join dir "wgsk") .secret wgsk w1 else (some (.ok ()), fs)) = s1 := by
    rw [if_pos (by rw [hn.1]; rfl), putB64_spec _ _ _ _ _ _ hl]
  have n2 : s1.2 (join dir "pqsk") = none := ((put_spec fs umask (join dir "wgsk") .secret (b64Enc wgsk) w1).1 _ (join_ne dir (by decide))).trans hn.2.1
  have n3 : s1.2 (join dir "pqpk") = none := ((put_spec fs umask (join dir "wgsk") .secret (b64Enc wgsk) w1).1 _ (join_ne dir (by decide))).trans hn.2.2
  unfold genkeyIn
  rw [e1]
  have e2 : put s1.2 umask (join dir "pqpk") .pub pqpk w2 = s2 := rfl
  have e3 : put s2.2 umask (join dir "pqsk") .secret pqsk w3 = s3 := rfl
  clear_value s3
  revert e3
  clear_value s2
  revert e2
  clear_value s1
  intro e2 e3
  obtain ⟨r1, fs1⟩ := s1
  dsimp only at n2 n3 e2 ⊢
  match r1 with
  | none => exact .inl ⟨(by intro h; cases h), rfl⟩
  | some (.error e) => exact .inl ⟨(by intro h; cases h), rfl⟩
  | some (.ok ()) =>
    dsimp only
    rw [if_pos (by rw [n2, n3]; rfl), e2]
    obtain ⟨r2, fs2⟩ := s2
    dsimp only at e3 ⊢
    match r2 with
    | none => exact .inr (.inl ⟨rfl, (by intro h; cases h), rfl⟩)
    | some (.error e) => exact .inr (.inl ⟨rfl, (by intro h; cases h), rfl⟩)
    | some (.ok ()) => dsimp only; rw [e3]; exact .inr (.inr ⟨rfl, rfl, rfl⟩)

/-- a run in a directory that does not exist yet -/
structure Fresh (fs : Fs) (dir : String) : Prop where
  wgsk : fs (join dir "wgsk") = none
  pqsk : fs (join dir "pqsk") = none
  pqpk : fs (join dir "pqpk") = none

/-- **C56, in part.** When `rp genkey` reports success for a new directory, all three keys are there and match. -/
theorem rp_genkey_success_partial (fs : Fs) (umask : Nat) (dir : String) (wgsk pqsk pqpk : Bytes) (hl : wgsk.length = 32) (mk : Mk) (w1 w2 w3 : Wr) (hn : Fresh fs dir)
    (h : (genkey fs umask none dir wgsk pqsk pqpk mk w1 w2 w3).1 = .ok) :
    (∃ f, (genkey fs umask none dir wgsk pqsk pqpk mk w1 w2 w3).2.1 (join dir "wgsk") = some f ∧ f.content = b64Enc wgsk) ∧
    Pair (genkey fs umask none dir wgsk pqsk pqpk mk w1 w2 w3).2.1 (join dir "pqsk") (join dir "pqpk") pqsk pqpk := by
  cases mk with
  | killed => cases h
  | err => cases h
  | created =>
    have h' : (genkeyIn fs umask dir wgsk pqsk pqpk w1 w2 w3).1 = .ok := h
    show (∃ f, (genkeyIn fs umask dir wgsk pqsk pqpk w1 w2 w3).2 (join dir "wgsk") = some f ∧ f.content = b64Enc wgsk) ∧ Pair (genkeyIn fs umask dir wgsk pqsk pqpk w1 w2 w3).2 (join dir "pqsk") (join dir "pqpk") pqsk pqpk
    rcases genkeyIn_fresh fs umask dir wgsk pqsk pqpk hl w1 w2 w3 ⟨hn.wgsk, hn.pqsk, hn.pqpk⟩ with ⟨o, e⟩ | ⟨_, o, e⟩ | ⟨o1, o2, e⟩
    · rw [e] at h'; obtain ⟨_, h2⟩ := ended_ok h'; exact absurd h2 o
    · rw [e] at h'; obtain ⟨_, h2⟩ := ended_ok h'; exact absurd h2 o
    · rw [e] at h' ⊢
      obtain ⟨_, h2⟩ := ended_ok h'
      obtain ⟨f1, g1, c1⟩ := (put_spec _ _ _ _ _ _).2.2.1 o1
      obtain ⟨f2, g2, c2⟩ := (put_spec _ _ _ _ _ _).2.2.1 o2
      obtain ⟨f3, g3, c3⟩ := (put_spec _ _ _ _ _ _).2.2.1 h2
      refine ⟨⟨f1, ?_, c1⟩, ⟨f3, g3, c3⟩, ⟨f2, ?_, c2⟩⟩
      · rw [(put_spec _ _ _ _ _ _).1 _ (join_ne dir (by decide)), (put_spec _ _ _ _ _ _).1 _ (join_ne dir (by decide))]; exact g1
      · rw [(put_spec _ _ _ _ _ _).1 _ (join_ne dir (by decide))]; exact g2

/-- **C56.** In a new directory success is reported when no file operation fails. -/
theorem rp_genkey_succeeds (fs : Fs) (umask : Nat) (dir : String) (wgsk pqsk pqpk : Bytes) (hl : wgsk.length = 32) (w1 w2 w3 : Wr) (hn : Fresh fs dir)
    (g1 : w1.Good (b64Enc wgsk).length) (g2 : w2.Good pqpk.length) (g3 : w3.Good pqsk.length) : (genkey fs umask none dir wgsk pqsk pqpk .created w1 w2 w3).1 = .ok := by
  show (genkeyIn fs umask dir wgsk pqsk pqpk w1 w2 w3).1 = .ok
  rcases genkeyIn_fresh fs umask dir wgsk pqsk pqpk hl w1 w2 w3 ⟨hn.wgsk, hn.pqsk, hn.pqpk⟩ with ⟨o, e⟩ | ⟨_, o, e⟩ | ⟨o1, o2, e⟩
  · exact absurd ((put_spec _ _ _ _ _ _).2.2.2 g1) o
  · exact absurd ((put_spec _ _ _ _ _ _).2.2.2 g2) o
  · rw [e]
    show ended _ = _
    rw [(put_spec _ _ _ _ _ _).2.2.2 g3]; rfl

/-- **C56, false of the code.** Killed before the last file, `rp genkey` leaves a complete public key (ready to be handed
out) whose secret key does not exist and never will: later runs are refused (`rp_reruns_refused`). -/
theorem rp_public_without_secret (fs : Fs) (umask : Nat) (dir : String) (wgsk pqsk pqpk : Bytes) (hl : wgsk.length = 32) (w1 w2 : Wr) (hn : Fresh fs dir)
    (g1 : w1.Good (b64Enc wgsk).length) (g2 : w2.Good pqpk.length) :
    (∃ f, (genkey fs umask none dir wgsk pqsk pqpk .created w1 w2 .killed).2.1 (join dir "pqpk") = some f ∧ f.content = pqpk) ∧
    (genkey fs umask none dir wgsk pqsk pqpk .created w1 w2 .killed).2.1 (join dir "pqsk") = none := by
  show (∃ f, (genkeyIn fs umask dir wgsk pqsk pqpk w1 w2 .killed).2 (join dir "pqpk") = some f ∧ f.content = pqpk) ∧ (genkeyIn fs umask dir wgsk pqsk pqpk w1 w2 .killed).2 (join dir "pqsk") = none
  rcases genkeyIn_fresh fs umask dir wgsk pqsk pqpk hl w1 w2 .killed ⟨hn.wgsk, hn.pqsk, hn.pqpk⟩ with ⟨o, e⟩ | ⟨_, o, e⟩ | ⟨o1, o2, e⟩
  · exact absurd ((put_spec _ _ _ _ _ _).2.2.2 g1) o
  · exact absurd ((put_spec _ _ _ _ _ _).2.2.2 g2) o
  · rw [e]
    refine ⟨(put_spec _ _ _ _ _ _).2.2.1 o2, ?_⟩
    show (put (put fs umask (join dir "wgsk") .secret (b64Enc wgsk) w1).2 umask (join dir "pqpk") .pub pqpk w2).2 (join dir "pqsk") = none
    rw [(put_spec _ _ _ _ _ _).1 _ (join_ne dir (by decide)), (put_spec _ _ _ _ _ _).1 _ (join_ne dir (by decide))]
    exact hn.pqsk

/-! ### `rp pubkey` -/

theorem copy_spec (fs : Fs) (src dst : String) (w : Wr) :
    (∀ p, p ≠ dst → (copyFile fs src dst w).2 p = fs p) ∧
    ((copyFile fs src dst w).1 = some (.ok ()) → ∃ f, fs src = some f ∧ (copyFile fs src dst w).2 dst = some f) := by
  unfold copyFile
  cases hs : fs src with
  | none => exact ⟨fun _ _ => rfl, fun h => by cases h⟩
  | some f =>
    cases w with
    | killed => exact ⟨fun _ _ => rfl, fun h => by cases h⟩
    | openErr k => exact ⟨fun _ _ => rfl, fun h => by cases h⟩
    | opened os =>
      dsimp only
      refine ⟨fun p hp => ?_, fun h => ⟨f, rfl, ?_⟩⟩
      · show (if p = dst then _ else fs p) = fs p
        rw [if_neg hp]
      · have := (writeAll_spec os f.content).2.1 h
        show (if dst = dst then _ else fs dst) = some f
        rw [if_pos rfl, this]

theorem pubkey_cases (fs : Fs) (umask : Nat) (x25519 : Bytes → Bytes) (priv pub : String) (init : Bytes) (rs : List Out) (w1 w2 : Wr) (hx : ∀ b, (x25519 b).length = 32) :
    let r := pubkey fs umask x25519 none priv pub init .created rs w1 w2
    ((∀ k, loadB64 fs (join priv "wgsk") WG_B64_LEN init rs ≠ some (.ok k)) ∧ r.1 ≠ .ok ∧ r.2.1 = fs) ∨
    ∃ k, loadB64 fs (join priv "wgsk") WG_B64_LEN init rs = some (.ok k) ∧
      let s1 := put fs umask (join pub "wgpk") .pub (b64Enc (x25519 k)) w1
      let s2 := copyFile s1.2 (join priv "pqpk") (join pub "pqpk") w2
      (s1.1 ≠ some (.ok ()) ∧ r.1 ≠ .ok ∧ r.2.1 = s1.2) ∨ (s1.1 = some (.ok ()) ∧ r.1 = ended s2.1 ∧ r.2.1 = s2.2) := by
  intro r
  have hr : r = pubkey fs umask x25519 none priv pub init .created rs w1 w2 := rfl
  clear_value r
  unfold pubkey at hr
  dsimp only at hr
  match hl : loadB64 fs (join priv "wgsk") WG_B64_LEN init rs with
  | none => rw [hl] at hr; subst hr; exact .inl ⟨(by intro k h; cases h), (by intro h; cases h), rfl⟩
  | some (.error e) => rw [hl] at hr; subst hr; exact .inl ⟨(by intro k h; cases h), (by intro h; cases h), rfl⟩
  | some (.ok k) =>
    rw [hl] at hr
    right
    refine ⟨k, rfl, ?_⟩
    dsimp only at hr
    rw [putB64_spec _ _ _ _ _ _ (hx k)] at hr
    intro s1 s2
    have e1 : put fs umask (join pub "wgpk") .pub (b64Enc (x25519 k)) w1 = s1 := rfl
    have e2 : copyFile s1.2 (join priv "pqpk") (join pub "pqpk") w2 = s2 := rfl
    rw [e1] at hr
    clear_value s2
    clear_value s1
    obtain ⟨r1, fs1⟩ := s1
    dsimp only at hr e2
    match r1 with
    | none => subst hr; exact .inl ⟨(by intro h; cases h), (by intro h; cases h), rfl⟩
    | some (.error e) => subst hr; exact .inl ⟨(by intro h; cases h), (by intro h; cases h), rfl⟩
    | some (.ok ()) => dsimp only at hr; rw [e2] at hr; subst hr; exact .inr ⟨rfl, rfl, rfl⟩

/-- **C78.** When `rp pubkey` reports success, the exported WireGuard key is the public key of the secret key that was read,
and the exported Rosenpass key is the same file. -/
theorem pubkey_exports (fs : Fs) (umask : Nat) (x25519 : Bytes → Bytes) (hx : ∀ b, (x25519 b).length = 32) (d : DirMode) (priv pub : String) (hne : join priv "pqpk" ≠ join pub "wgpk") (init : Bytes) (mk : Mk)
    (rs : List Out) (w1 w2 : Wr) (h : (pubkey fs umask x25519 d priv pub init mk rs w1 w2).1 = .ok) :
    d = none ∧ ∃ k, loadB64 fs (join priv "wgsk") WG_B64_LEN init rs = some (.ok k) ∧
      (∃ f, (pubkey fs umask x25519 d priv pub init mk rs w1 w2).2.1 (join pub "wgpk") = some f ∧ f.content = b64Enc (x25519 k)) ∧
      ∃ f, fs (join priv "pqpk") = some f ∧ (pubkey fs umask x25519 d priv pub init mk rs w1 w2).2.1 (join pub "pqpk") = some f := by
  cases d with
  | some m => cases h
  | none =>
    refine ⟨rfl, ?_⟩
    cases mk with
    | killed => cases h
    | err => cases h
    | created =>
      rcases pubkey_cases fs umask x25519 priv pub init rs w1 w2 hx with ⟨_, o, _⟩ | ⟨k, hk, ⟨_, o, _⟩ | ⟨o1, o2, o3⟩⟩
      · exact absurd h o
      · exact absurd h o
      · refine ⟨k, hk, ?_⟩
        rw [o3]
        rw [o2] at h
        obtain ⟨_, h2⟩ := ended_ok h
        obtain ⟨f1, g1, c1⟩ := (put_spec fs umask (join pub "wgpk") .pub (b64Enc (x25519 k)) w1).2.2.1 o1
        obtain ⟨f2, g2, c2⟩ := (copy_spec _ _ _ _).2 h2
        refine ⟨⟨f1, ?_, c1⟩, f2, ?_, c2⟩
        · rw [(copy_spec _ _ _ _).1 _ (join_ne pub (by decide))]; exact g1
        · rw [(put_spec fs umask (join pub "wgpk") .pub (b64Enc (x25519 k)) w1).1 _ hne] at g2; exact g2

/-- **C78.** No file except the two exported ones is changed, whatever happens; nothing at all when the directory exists. -/
theorem pubkey_frame (fs : Fs) (umask : Nat) (x25519 : Bytes → Bytes) (hx : ∀ b, (x25519 b).length = 32) (d : DirMode) (priv pub : String) (init : Bytes) (mk : Mk)
    (rs : List Out) (w1 w2 : Wr) :
    (∀ p, p ≠ join pub "wgpk" → p ≠ join pub "pqpk" → (pubkey fs umask x25519 d priv pub init mk rs w1 w2).2.1 p = fs p) ∧
    (d ≠ none → pubkey fs umask x25519 d priv pub init mk rs w1 w2 = (.refused, fs, d)) := by
  refine ⟨?_, ?_⟩
  · intro p h1 h2
    cases d with
    | some m => rfl
    | none =>
      cases mk with
      | killed => rfl
      | err => rfl
      | created =>
        rcases pubkey_cases fs umask x25519 priv pub init rs w1 w2 hx with ⟨_, _, o⟩ | ⟨k, hk, ⟨_, _, o⟩ | ⟨_, _, o⟩⟩
        · rw [o]
        · rw [o]; exact (put_spec _ _ _ _ _ _).1 p h1
        · rw [o]; exact ((copy_spec _ _ _ _).1 p h2).trans ((put_spec _ _ _ _ _ _).1 p h1)
  · intro hd
    cases d with
    | some m => rfl
    | none => exact absurd rfl hd

/-- **C78, false of the code.** Once a run has created the directory, successful or not, every later run is refused: an
export that failed cannot be repeated. -/
theorem pubkey_cannot_be_repeated (fs : Fs) (umask : Nat) (x25519 : Bytes → Bytes) (hx : ∀ b, (x25519 b).length = 32) (priv pub : String) (init : Bytes) (rs : List Out) (w1 w2 : Wr)
    (fs' : Fs) (init' : Bytes) (mk' : Mk) (rs' : List Out) (w1' w2' : Wr) :
    let d := (pubkey fs umask x25519 none priv pub init .created rs w1 w2).2.2
    pubkey fs' umask x25519 d priv pub init' mk' rs' w1' w2' = (.refused, fs', d) := by
  intro d
  have hd : d ≠ none := by
    show (pubkey fs umask x25519 none priv pub init .created rs w1 w2).2.2 ≠ none
    unfold pubkey
    dsimp only
    split
    · rename_i k _
      rw [putB64_spec _ _ _ _ _ _ (hx _)]
      split <;> (intro h; cases h)
    · intro h; cases h
  exact (pubkey_frame fs' umask x25519 hx d priv pub init' mk' rs' w1' w2').2 hd

/-- **C78.** Together: after a successful `rp genkey`, a successful `rp pubkey` exports the public keys of the keys generated. -/
theorem genkey_then_pubkey (fs : Fs) (umask : Nat) (x25519 : Bytes → Bytes) (hx : ∀ b, (x25519 b).length = 32) (dir pub : String) (hne : join dir "pqpk" ≠ join pub "wgpk")
    (wgsk pqsk pqpk : Bytes) (hl : wgsk.length = 32) (mk mk' : Mk) (w1 w2 w3 : Wr) (hn : Fresh fs dir) (init : Bytes) (hi : init.length = 32) (rs : List Out) (w4 w5 : Wr)
    (h : (genkey fs umask none dir wgsk pqsk pqpk mk w1 w2 w3).1 = .ok)
    (h' : (pubkey (genkey fs umask none dir wgsk pqsk pqpk mk w1 w2 w3).2.1 umask x25519 none dir pub init mk' rs w4 w5).1 = .ok) :
    let fs' := (pubkey (genkey fs umask none dir wgsk pqsk pqpk mk w1 w2 w3).2.1 umask x25519 none dir pub init mk' rs w4 w5).2.1
    (∃ f, fs' (join pub "wgpk") = some f ∧ f.content = b64Enc (x25519 wgsk)) ∧ ∃ f, fs' (join pub "pqpk") = some f ∧ f.content = pqpk := by
  intro fs'
  obtain ⟨⟨fw, gw, cw⟩, _, fp, gp, cp⟩ := rp_genkey_success_partial fs umask dir wgsk pqsk pqpk hl mk w1 w2 w3 hn h
  obtain ⟨_, k, hk, hw, f, hf, hp⟩ := pubkey_exports _ umask x25519 hx none dir pub hne init mk' rs w4 w5 h'
  have hkw : k = wgsk := by
    obtain ⟨e, he, hle, hke, hke'⟩ := b64_load_accepts_partial _ _ _ gw _ _ _ _ hk
    have : e = wgsk := by
      have h1 : b64Enc e = b64Enc wgsk := he.symm.trans cw
      have := congrArg b64DecBlocks h1
      rw [b64DecBlocks_enc, b64DecBlocks_enc] at this
      exact Option.some.inj this
    rw [hke' (by rw [this, hl, hi]), this]
  rw [hkw] at hw
  refine ⟨hw, f, hp, ?_⟩
  rw [gp] at hf
  cases hf
  exact cp

/-! ### The hypotheses are met -/

/-- a schedule in which everything is written at once -/
def Demo.go : Wr := .opened (List.replicate 100 (.ok 99))
theorem Demo.good (n : Nat) (h : n ≤ 100) : Demo.go.Good n := ⟨_, rfl, (by intro k hk; have := List.eq_of_mem_replicate hk; cases this), by simpa using h⟩
def Demo.sk : Bytes := List.replicate 40 7
def Demo.pk : Bytes := List.replicate 50 9
def Demo.wg : Bytes := List.replicate 32 3

/-- gen-keys in an empty directory, killed in the middle of the public key: the secret key is complete -/
example : (genKeys (fun _ => none) 0o022 false "pk" "sk" Demo.sk Demo.pk Demo.go (.opened [.ok 9, .err .interrupted, .ok 4])).1 = .killed ∧
    ((genKeys (fun _ => none) 0o022 false "pk" "sk" Demo.sk Demo.pk Demo.go (.opened [.ok 9, .err .interrupted, .ok 4])).2 "pk").map (·.content.length) = some 15 := by decide +kernel
example : (genKeys (fun p => if p = "other" then some ⟨[1], 0⟩ else none) 0 false "pk" "sk" Demo.sk Demo.pk Demo.go Demo.go).1 = .ok := by decide +kernel
example : (genkey (fun _ => none) 0o077 none "d" Demo.wg Demo.sk Demo.pk .created Demo.go Demo.go Demo.go).1 = .ok ∧
    (pubkey (genkey (fun _ => none) 0o077 none "d" Demo.wg Demo.sk Demo.pk .created Demo.go Demo.go Demo.go).2.1 0o077 (fun b => (b.map (· + 1)).take 32 ++ List.replicate (32 - b.length) 0)
      none "d" "p" (List.replicate 32 0) .created (List.replicate 100 (.ok 99)) Demo.go Demo.go).1 = .ok := by decide +kernel

end Verif.KeyGen
