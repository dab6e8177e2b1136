import Verif.Model.KeyGen
import Verif.Thm.FileIO
/-
C56: key generation and crashes; C78: export of the public keys.
-/
namespace Verif.KeyGen
open FileIO

/-! ### One file -/

/-- an environment in which a write of `n` bytes goes through -/
def Wr.Good (w : Wr) (n : Nat) : Prop := ∃ os, w = .opened os ∧ NoErr os ∧ n ≤ os.length

theorem put_spec (fs : Fs) (umask : Nat) (path : String) (v : Visibility) (data : Bytes) (w : Wr) :
    (∀ p, p ≠ path → (put fs umask path v data w).2 p = fs p) ∧
    ((put fs umask path v data w).2 path = fs path ∨ ∃ f, (put fs umask path v data w).2 path = some f ∧ f.content <+: data) ∧
    ((put fs umask path v data w).1 = some (.ok ()) → ∃ f, (put fs umask path v data w).2 path = some f ∧ f.content = data) ∧
    (w.Good data.length → (put fs umask path v data w).1 = some (.ok ())) := by
  cases w with
  | killed => exact ⟨fun _ _ => rfl, .inl rfl, fun h => by simp [put] at h, fun ⟨_, h, _⟩ => by cases h⟩
  | openErr k => exact ⟨fun _ _ => rfl, .inl rfl, fun h => by simp [put] at h, fun ⟨_, h, _⟩ => by cases h⟩
  | opened os =>
    obtain ⟨m, c, h1, h2, h3, h4, _⟩ := writeFile_spec fs umask path v data os
    obtain ⟨a, b, _, d⟩ := writeAll_spec os data
    refine ⟨h4, .inr ⟨⟨c, m⟩, h1, h2 ▸ a⟩, ?_, ?_⟩
    · intro h
      refine ⟨⟨c, m⟩, h1, ?_⟩
      rw [show (put fs umask path v data (.opened os)).1 = (writeAll data os).1 from h3] at h
      exact h2 ▸ b h
    · rintro ⟨os', e, g, l⟩
      cases e
      exact h3.trans (d g l)

/-- a file that is there after the write is complete, a beginning, or the old one -/
theorem ended_ok {α : Type} {r : R α} (h : ended r = .ok) : ∃ a, r = some (.ok a) := by
  cases r with
  | none => cases h
  | some x => cases x with
    | error e => cases h
    | ok a => exact ⟨a, rfl⟩

/-! ### `gen-keys` -/

theorem saveKeypair_cases (fs : Fs) (umask : Nat) (skf pkf : String) (sk pk : Bytes) (w1 w2 : Wr) :
    (put fs umask skf .secret sk w1).1 = some (.ok ()) ∧
      saveKeypair fs umask skf pkf sk pk w1 w2 = (ended (put (put fs umask skf .secret sk w1).2 umask pkf .pub pk w2).1, (put (put fs umask skf .secret sk w1).2 umask pkf .pub pk w2).2) ∨
    (put fs umask skf .secret sk w1).1 ≠ some (.ok ()) ∧
      saveKeypair fs umask skf pkf sk pk w1 w2 = (ended (put fs umask skf .secret sk w1).1, (put fs umask skf .secret sk w1).2) ∧ ended (put fs umask skf .secret sk w1).1 ≠ .ok := by
  unfold saveKeypair
  cases h : put fs umask skf .secret sk w1 with
  | mk r fs1 =>
    match r with
    | some (.ok ()) => left; exact ⟨rfl, rfl⟩
    | some (.error e) => right; exact ⟨(by intro h; cases h), rfl, (by intro h; cases h)⟩
    | none => right; exact ⟨(by intro h; cases h), rfl, (by intro h; cases h)⟩

/-- only the two files are touched -/
theorem saveKeypair_frame (fs : Fs) (umask : Nat) (skf pkf : String) (sk pk : Bytes) (w1 w2 : Wr) (p : String) (h1 : p ≠ skf) (h2 : p ≠ pkf) :
    (saveKeypair fs umask skf pkf sk pk w1 w2).2 p = fs p := by
  obtain ⟨a1, _⟩ := put_spec fs umask skf .secret sk w1
  obtain ⟨a2, _⟩ := put_spec (put fs umask skf .secret sk w1).2 umask pkf .pub pk w2
  rcases saveKeypair_cases fs umask skf pkf sk pk w1 w2 with ⟨_, e⟩ | ⟨_, e, _⟩
  · rw [e]; exact (a2 p h2).trans (a1 p h1)
  · rw [e]; exact a1 p h1

/-- **C56.** Without `--force` no existing file is changed, whatever fails and wherever the process is killed. -/
theorem gen_keys_keeps_existing (fs : Fs) (umask : Nat) (pkf skf : String) (sk pk : Bytes) (w1 w2 : Wr) (p : String) (f : File) (h : fs p = some f) :
    (genKeys fs umask false pkf skf sk pk w1 w2).2 p = some f := by
  unfold genKeys
  by_cases hc : ((!false && (fs pkf).isSome) || (!false && (fs skf).isSome)) = true
  · rw [if_pos hc]; exact h
  · rw [if_neg hc]
    have h1 : p ≠ pkf := by rintro rfl; apply hc; rw [h]; rfl
    have h2 : p ≠ skf := by rintro rfl; apply hc; rw [h]; simp
    rw [saveKeypair_frame _ _ _ _ _ _ _ _ _ h2 h1]; exact h

/-- a matching pair is on disk -/
def Pair (fs : Fs) (skf pkf : String) (sk pk : Bytes) : Prop := (∃ f, fs skf = some f ∧ f.content = sk) ∧ ∃ f, fs pkf = some f ∧ f.content = pk

/-- **C56, in part.** When `gen-keys` reports success, the pair it generated is in the two files, provided that these are
different. -/
theorem gen_keys_success_partial (fs : Fs) (umask : Nat) (force : Bool) (pkf skf : String) (sk pk : Bytes) (w1 w2 : Wr) (hne : skf ≠ pkf)
    (h : (genKeys fs umask force pkf skf sk pk w1 w2).1 = .ok) : Pair (genKeys fs umask force pkf skf sk pk w1 w2).2 skf pkf sk pk := by
  unfold genKeys at h ⊢
  by_cases hc : ((!force && (fs pkf).isSome) || (!force && (fs skf).isSome)) = true
  · rw [if_pos hc] at h; cases h
  · rw [if_neg hc] at h ⊢
    obtain ⟨_, _, b1, _⟩ := put_spec fs umask skf .secret sk w1
    obtain ⟨a2, _, b2, _⟩ := put_spec (put fs umask skf .secret sk w1).2 umask pkf .pub pk w2
    rcases saveKeypair_cases fs umask skf pkf sk pk w1 w2 with ⟨o, e⟩ | ⟨_, e, ne⟩
    · rw [e] at h ⊢
      obtain ⟨_, h2⟩ := ended_ok h
      obtain ⟨f, hf, hc⟩ := b1 o
      exact ⟨⟨f, (a2 skf hne).trans hf, hc⟩, b2 h2⟩
    · rw [e] at h; exact absurd h ne

/-- **C56.** Success is reported when no file operation fails and nothing stands in the way. -/
theorem gen_keys_succeeds (fs : Fs) (umask : Nat) (force : Bool) (pkf skf : String) (sk pk : Bytes) (w1 w2 : Wr) (hf : force = true ∨ fs pkf = none ∧ fs skf = none)
    (g1 : w1.Good sk.length) (g2 : w2.Good pk.length) : (genKeys fs umask force pkf skf sk pk w1 w2).1 = .ok := by
  unfold genKeys
  rw [if_neg (by rcases hf with rfl | ⟨h1, h2⟩ <;> simp [*])]
  obtain ⟨_, _, _, c1⟩ := put_spec fs umask skf .secret sk w1
  obtain ⟨_, _, _, c2⟩ := put_spec (put fs umask skf .secret sk w1).2 umask pkf .pub pk w2
  rcases saveKeypair_cases fs umask skf pkf sk pk w1 w2 with ⟨_, e⟩ | ⟨ne, _, _⟩
  · rw [e, c2 g2]; rfl
  · exact absurd (c1 g1) ne

/-- **C56.** Crashes and re-runs with `--force`: whatever the runs before did, wherever they were killed, a forced run that
goes through leaves a complete matching pair. -/
theorem forced_rerun_completes (fs : Fs) (umask : Nat) (pkf skf : String) (hne : skf ≠ pkf) (sk pk : Bytes) (w1 w2 : Wr) (g1 : w1.Good sk.length) (g2 : w2.Good pk.length) :
    (genKeys fs umask true pkf skf sk pk w1 w2).1 = .ok ∧ Pair (genKeys fs umask true pkf skf sk pk w1 w2).2 skf pkf sk pk :=
  have h := gen_keys_succeeds fs umask true pkf skf sk pk w1 w2 (.inl rfl) g1 g2
  ⟨h, gen_keys_success_partial fs umask true pkf skf sk pk w1 w2 hne h⟩

/-- **C56.** After a run without `--force`, killed or failed anywhere: when both files have the full length, they are a
matching pair. -/
theorem complete_files_match (fs : Fs) (umask : Nat) (pkf skf : String) (hne : skf ≠ pkf) (sk pk : Bytes) (w1 w2 : Wr) (hn : fs pkf = none ∧ fs skf = none)
    (fsk fpk : File) (h1 : (genKeys fs umask false pkf skf sk pk w1 w2).2 skf = some fsk) (h2 : (genKeys fs umask false pkf skf sk pk w1 w2).2 pkf = some fpk)
    (l1 : fsk.content.length = sk.length) (l2 : fpk.content.length = pk.length) : fsk.content = sk ∧ fpk.content = pk := by
  unfold genKeys at h1 h2
  rw [if_neg (by simp [hn.1, hn.2])] at h1 h2
  obtain ⟨a1, p1, b1, _⟩ := put_spec fs umask skf .secret sk w1
  obtain ⟨a2, p2, b2, _⟩ := put_spec (put fs umask skf .secret sk w1).2 umask pkf .pub pk w2
  rcases saveKeypair_cases fs umask skf pkf sk pk w1 w2 with ⟨o, e⟩ | ⟨_, e, _⟩
  · rw [e] at h1 h2
    have h1' := (a2 skf hne).symm.trans h1
    rcases p1 with p1 | ⟨f, p1, q1⟩
    · rw [p1, hn.2] at h1'; cases h1'
    · rw [h1'] at p1; cases p1
      refine ⟨List.IsPrefix.eq_of_length q1 l1, ?_⟩
      rcases p2 with p2 | ⟨g, p2, q2⟩
      · rw [h2, a1 pkf (Ne.symm hne), hn.1] at p2; cases p2
      · rw [show (put (put fs umask skf .secret sk w1).2 umask pkf .pub pk w2).2 pkf = some fpk from h2] at p2
        cases p2
        exact List.IsPrefix.eq_of_length q2 l2
  · rw [e] at h2
    have := (a1 pkf (Ne.symm hne)).symm.trans h2
    rw [hn.1] at this; cases this

/-- **C56, false of the code.** A run without `--force` that is killed after it has opened the first file makes every later
run without `--force` fail, and these leave everything as it is: the pair is never completed. -/
theorem killed_run_blocks_reruns (fs : Fs) (umask : Nat) (pkf skf : String) (sk pk : Bytes) (os : List Out) (w2 : Wr) (hn : fs pkf = none ∧ fs skf = none)
    (sk' pk' : Bytes) (w1' w2' : Wr) :
    genKeys (genKeys fs umask false pkf skf sk pk (.opened os) w2).2 umask false pkf skf sk' pk' w1' w2' = (.refused, (genKeys fs umask false pkf skf sk pk (.opened os) w2).2) := by
  have key : ((genKeys fs umask false pkf skf sk pk (.opened os) w2).2 skf).isSome = true := by
    unfold genKeys
    rw [if_neg (by simp [hn.1, hn.2])]
    obtain ⟨m, c, s1, _⟩ := writeFile_spec fs umask skf .secret sk os
    have s1' : (put fs umask skf .secret sk (.opened os)).2 skf = some ⟨c, m⟩ := s1
    obtain ⟨a2, p2, _⟩ := put_spec (put fs umask skf .secret sk (.opened os)).2 umask pkf .pub pk w2
    rcases saveKeypair_cases fs umask skf pkf sk pk (.opened os) w2 with ⟨o, e⟩ | ⟨_, e, _⟩
    · rw [e]
      by_cases hne : skf = pkf
      · subst hne
        rcases p2 with p2 | ⟨f, p2, _⟩
        · show ((put (put fs umask skf .secret sk (.opened os)).2 umask skf .pub pk w2).2 skf).isSome = true
          rw [p2, s1']; rfl
        · show ((put (put fs umask skf .secret sk (.opened os)).2 umask skf .pub pk w2).2 skf).isSome = true
          rw [p2]; rfl
      · show ((put (put fs umask skf .secret sk (.opened os)).2 umask pkf .pub pk w2).2 skf).isSome = true
        rw [a2 skf hne, s1']; rfl
    · rw [e]
      show ((put fs umask skf .secret sk (.opened os)).2 skf).isSome = true
      rw [s1']; rfl
  rw [genKeys]
  rw [if_pos (by rw [key]; simp)]

/-- **C56, false of the code.** With the same path for both keys the command reports success, and the secret key is
gone. -/
theorem same_path_loses_secret (fs : Fs) (umask : Nat) (force : Bool) (path : String) (sk pk : Bytes) (w1 w2 : Wr) (hf : force = true ∨ fs path = none)
    (g1 : w1.Good sk.length) (g2 : w2.Good pk.length) :
    (genKeys fs umask force path path sk pk w1 w2).1 = .ok ∧ ∃ f, (genKeys fs umask force path path sk pk w1 w2).2 path = some f ∧ f.content = pk := by
  have h := gen_keys_succeeds fs umask force path path sk pk w1 w2 (hf.imp_right fun h => ⟨h, h⟩) g1 g2
  refine ⟨h, ?_⟩
  unfold genKeys at h ⊢
  have hc : ¬((!force && (fs path).isSome) || (!force && (fs path).isSome)) = true := by rcases hf with rfl | h1 <;> simp [*]
  rw [if_neg hc] at h ⊢
  obtain ⟨_, _, b2, _⟩ := put_spec (put fs umask path .secret sk w1).2 umask path .pub pk w2
  rcases saveKeypair_cases fs umask path path sk pk w1 w2 with ⟨_, e⟩ | ⟨_, e, ne⟩
  · rw [e] at h ⊢
    obtain ⟨_, h2⟩ := ended_ok h
    exact b2 h2
  · rw [e] at h; exact absurd h ne

/-- **C56, false of the code.** A forced run over an existing pair, killed between the two files, leaves two complete files
that do not belong together: the new secret key and the old public key. -/
theorem forced_run_leaves_mixed_pair (fs : Fs) (umask : Nat) (pkf skf : String) (hne : skf ≠ pkf) (sk pk : Bytes) (w1 : Wr) (g1 : w1.Good sk.length) (old : Bytes)
    (ho : ∃ f, fs pkf = some f ∧ f.content = old) :
    (genKeys fs umask true pkf skf sk pk w1 .killed).1 = .killed ∧ Pair (genKeys fs umask true pkf skf sk pk w1 .killed).2 skf pkf sk old := by
  unfold genKeys
  rw [if_neg (by simp)]
  obtain ⟨a1, _, b1, c1⟩ := put_spec fs umask skf .secret sk w1
  rcases saveKeypair_cases fs umask skf pkf sk pk w1 .killed with ⟨o, e⟩ | ⟨ne, _, _⟩
  · rw [e]
    obtain ⟨f, hf, hfo⟩ := ho
    exact ⟨rfl, b1 o, f, (a1 pkf (Ne.symm hne)).trans hf, hfo⟩
  · exact absurd (c1 g1) ne

/-- **C56, false of the code.** The deprecated `keygen` replaces existing keys without being asked to. -/
theorem keygen_overwrites (fs : Fs) (umask : Nat) (pkf skf : String) (hne : skf ≠ pkf) (sk pk : Bytes) (w1 w2 : Wr) (g1 : w1.Good sk.length) (g2 : w2.Good pk.length) :
    (keygen fs umask ["public-key", pkf, "private-key", skf] sk pk w1 w2).1 = .ok ∧ Pair (keygen fs umask ["public-key", pkf, "private-key", skf] sk pk w1 w2).2 skf pkf sk pk := by
  have e : keygen fs umask ["public-key", pkf, "private-key", skf] sk pk w1 w2 = genKeys fs umask true pkf skf sk pk w1 w2 := by
    have : keygenArgs none none ["public-key", pkf, "private-key", skf] = some (some skf, some pkf) := by
      simp [keygenArgs]
    unfold keygen genKeys
    rw [this]; rfl
  rw [e]
  exact forced_rerun_completes fs umask pkf skf hne sk pk w1 w2 g1 g2

/-- **C56.** `gen-config` does not touch an existing file unless forced. -/
theorem gen_config_keeps_existing (fs : Fs) (umask : Nat) (path : String) (text : Bytes) (w : Wr) (p : String) (f : File) (h : fs p = some f) :
    (genConfig fs umask false path text w).2 p = some f := by
  unfold genConfig
  by_cases hc : (false || (fs path).isNone) = true
  · rw [if_pos hc]
    have hp : p ≠ path := by rintro rfl; rw [h] at hc; cases hc
    cases w <;> dsimp only
    · exact h
    · exact h
    · show (if p = path then _ else fs p) = some f
      rw [if_neg hp]; exact h
  · rw [if_neg hc]; exact h

end Verif.KeyGen
