import Verif.Model.Cli
import Verif.Thm.Startup
import Verif.Thm.ConfigEx
import Verif.Thm.KeyGen
/-
The command `rosenpass`: what it runs, what it writes, how it ends.
-/
namespace Verif.Cli
open FileIO KeyGen
open Config (Config Api)

/-! ### Specification: paths -/

/-- the names a path goes through: the pieces between the slashes, except empty ones and `.` -/
def names (p : List Char) : List (List Char) := (split p).filter fun s => decide (s ≠ [] ∧ s ≠ ['.'])

/-- What the path `p` of a configuration file means, where `home` is the home directory: `~` is the home directory, `~/rest` is `rest` below it
(starting at the root if the home directory is given so), every other path is meant literally. -/
structure Means (home : String) (p r : String) : Prop where
  home_ : p = "~" → names r.toList = names home.toList ∧ hasRoot r.toList = hasRoot home.toList
  below : ∀ rest, p.toList = '~' :: '/' :: rest → names r.toList = names home.toList ++ names rest ∧ hasRoot r.toList = hasRoot home.toList
  literal : p ≠ "~" → (∀ rest, p.toList ≠ '~' :: '/' :: rest) → r = p

/-! ### Paths -/

theorem split_ne (p : List Char) : split p ≠ [] := by
  cases p with
  | nil => exact fun h => nomatch h
  | cons c cs =>
    unfold split
    split
    · exact fun h => nomatch h
    · split <;> exact fun h => nomatch h

theorem split_cons {c : Char} {l s : List Char} {ss : List (List Char)} (h : c ≠ '/') (hs : split l = s :: ss) : split (c :: l) = (c :: s) :: ss := by
  rw [split, if_neg h, hs]

theorem split_slash (a b : List Char) : split (a ++ '/' :: b) = split a ++ split b := by
  induction a with
  | nil => rfl
  | cons c cs ih =>
    by_cases h : c = '/'
    · simp only [List.cons_append, split, if_pos h, ih]
    · cases hs : split cs with
      | nil => exact absurd hs (split_ne cs)
      | cons s ss =>
        rw [hs] at ih
        rw [List.cons_append, split_cons h ih, split_cons h hs]; rfl

theorem split_plain (s : List Char) (h : '/' ∉ s) : split s = [s] := by
  induction s with
  | nil => rfl
  | cons c cs ih =>
    rw [split, if_neg (by rintro rfl; exact h (List.mem_cons_self ..)), ih (fun hm => h (List.mem_cons_of_mem _ hm))]

theorem split_mem (p : List Char) : ∀ s ∈ split p, '/' ∉ s := by
  induction p with
  | nil => intro s hs; rw [split, List.mem_singleton] at hs; rw [hs]; exact List.not_mem_nil
  | cons c cs ih =>
    intro s hs
    rw [split] at hs
    split at hs
    · rcases List.mem_cons.mp hs with rfl | hs
      · exact List.not_mem_nil
      · exact ih s hs
    · rename_i hc
      split at hs
      · rw [List.mem_singleton] at hs; rw [hs]
        intro h; rw [List.mem_singleton] at h; exact hc h.symm
      · rename_i x ss hx
        rcases List.mem_cons.mp hs with rfl | hs
        · intro h
          rcases List.mem_cons.mp h with h | h
          · exact hc h.symm
          · exact ih x (by rw [hx]; exact List.mem_cons_self ..) h
        · exact ih s (by rw [hx]; exact List.mem_cons_of_mem _ hs)

/-- the first piece of a path -/
theorem split_head {p s : List Char} {ss : List (List Char)} (h : split p = s :: ss) : (p = s ∧ ss = []) ∨ ∃ rest, p = s ++ '/' :: rest ∧ split rest = ss := by
  induction p generalizing s ss with
  | nil => rw [split] at h; cases h; exact .inl ⟨rfl, rfl⟩
  | cons c cs ih =>
    rw [split] at h
    split at h
    · rename_i hc
      cases h
      exact .inr ⟨cs, by rw [hc]; rfl, rfl⟩
    · cases hx : split cs with
      | nil => exact absurd hx (split_ne cs)
      | cons x xs =>
        rw [hx] at h; cases h
        rcases ih hx with ⟨h1, h2⟩ | ⟨rest, h1, h2⟩
        · exact .inl ⟨by rw [h1], h2⟩
        · exact .inr ⟨rest, by rw [h1]; rfl, h2⟩

theorem names_slash (a b : List Char) : names (a ++ '/' :: b) = names a ++ names b := by
  unfold names; rw [split_slash, List.filter_append]

theorem names_nil : names [] = [] := rfl

theorem names_seg {s : List Char} (h : '/' ∉ s) (h1 : s ≠ []) (h2 : s ≠ ['.']) : names s = [s] := by
  unfold names; rw [split_plain s h, List.filter_cons, if_pos (by simp [h1, h2])]; rfl

theorem hasRoot_append {a b : List Char} (h : a ≠ []) : hasRoot (a ++ b) = hasRoot a := by
  unfold hasRoot; cases a with | nil => exact absurd rfl h | cons x xs => rfl

theorem push_names {buf seg : List Char} (h : '/' ∉ seg) (h1 : seg ≠ []) (h2 : seg ≠ ['.']) :
    names (push buf seg) = names buf ++ [seg] ∧ hasRoot (push buf seg) = hasRoot buf := by
  have hr : hasRoot seg = false := by
    unfold hasRoot
    cases seg with
    | nil => rfl
    | cons c cs =>
      rw [List.head?_cons]
      have : c ≠ '/' := by rintro rfl; exact h (List.mem_cons_self ..)
      simpa using this
  unfold push
  rw [if_neg (by rw [hr]; exact Bool.false_ne_true)]
  by_cases hb : buf = []
  · rw [if_pos (.inl hb), hb, List.nil_append, names_seg h h1 h2, names_nil]
    exact ⟨rfl, by rw [hr]; rfl⟩
  · by_cases hl : buf.getLast? = some '/'
    · rw [if_pos (.inr hl)]
      refine ⟨?_, hasRoot_append hb⟩
      obtain ⟨b', rfl⟩ := List.getLast?_eq_some_iff.mp hl
      rw [List.append_assoc, List.singleton_append, names_slash, names_slash, names_seg h h1 h2, names_nil, List.append_nil]
    · rw [if_neg (fun h => h.elim hb hl)]
      exact ⟨by rw [names_slash, names_seg h h1 h2], hasRoot_append hb⟩

theorem foldl_names (segs : List (List Char)) (hs : ∀ s ∈ segs, '/' ∉ s ∧ s ≠ [] ∧ s ≠ ['.']) : ∀ buf,
    names (segs.foldl push buf) = names buf ++ segs ∧ hasRoot (segs.foldl push buf) = hasRoot buf := by
  induction segs with
  | nil => intro buf; exact ⟨by simp, rfl⟩
  | cons s segs ih =>
    intro buf
    obtain ⟨h1, h2, h3⟩ := hs s (List.mem_cons_self ..)
    obtain ⟨g1, g2⟩ := ih (fun x hx => hs x (List.mem_cons_of_mem _ hx)) (push buf s)
    obtain ⟨f1, f2⟩ := push_names (buf := buf) h1 h2 h3
    rw [List.foldl_cons, g1, g2, f1, f2]
    exact ⟨by simp, rfl⟩

theorem push_nil (h : List Char) : push [] h = h := by
  unfold push; split
  · rfl
  · rw [if_pos (.inl rfl)]; rfl

/-- a path that does not begin with `~` is left as it is, whether or not the home directory is known -/
theorem tilde_literal (home : Option String) {p : String} (h1 : p ≠ "~") (h2 : ∀ rest, p.toList ≠ '~' :: '/' :: rest) : resolveTilde home p = some p := by
  have hlit : ∀ {q : String}, q.toList = ['~'] ↔ q = "~" := by
    intro q; constructor
    · intro h; exact String.toList_injective h
    · rintro rfl; rfl
  unfold resolveTilde
  cases hit : iter p.toList with
  | nil => rfl
  | cons s segs =>
    dsimp only
    by_cases hc : (!hasRoot p.toList && s == ['~']) = true
    · exfalso
      rw [Bool.and_eq_true, Bool.not_eq_true', beq_iff_eq] at hc
      obtain ⟨hr, rfl⟩ := hc
      unfold iter at hit
      dsimp only at hit
      rw [if_neg (by rw [hr]; exact Bool.false_ne_true)] at hit
      cases hsp : split p.toList with
      | nil => exact split_ne _ hsp
      | cons x xs =>
        rw [hsp] at hit
        dsimp only at hit
        by_cases hx : x = []
        · rcases split_head hsp with ⟨e1, e2⟩ | ⟨rest, e1, -⟩
          · rw [hx, e2] at hit; cases hit
          · rw [hx] at e1
            rw [show hasRoot p.toList = true by rw [e1]; rfl] at hr; cases hr
        · rw [if_neg hx] at hit
          cases hit
          rcases split_head hsp with ⟨e1, -⟩ | ⟨rest, e1, -⟩
          · exact h1 (hlit.mp e1)
          · exact h2 rest e1
    · rw [if_neg hc]

/-- **C115** (of a single path). -/
theorem tilde_means (home p : String) : ∃ r, resolveTilde (some home) p = some r ∧ Means home p r := by
  have hlit : ∀ {q : String}, q.toList = ['~'] ↔ q = "~" := by
    intro q; constructor
    · intro h; exact String.toList_injective h
    · rintro rfl; rfl
  -- the two forms
  have below : ∀ rest, p.toList = '~' :: '/' :: rest → resolveTilde (some home) p = some (String.ofList ((names rest).foldl push home.toList)) := by
    intro rest hp
    have hroot : hasRoot ('~' :: '/' :: rest) = false := by unfold hasRoot; rw [List.head?_cons]; decide
    have hit : iter ('~' :: '/' :: rest) = ['~'] :: names rest := by
      unfold iter
      dsimp only
      rw [if_neg (by rw [hroot]; exact Bool.false_ne_true)]
      have : split ('~' :: '/' :: rest) = ['~'] :: split rest := split_slash ['~'] rest
      rw [this]
      rfl
    unfold resolveTilde
    rw [hp, hit]
    dsimp only
    rw [hroot, if_pos (by decide), push_nil]
  have alone : p = "~" → resolveTilde (some home) p = some (String.ofList home.toList) := by
    rintro rfl
    have hit : iter ("~" : String).toList = [['~']] := by decide
    have hroot : hasRoot ("~" : String).toList = false := by decide
    unfold resolveTilde
    rw [hit, hroot]
    dsimp only
    rw [if_pos (by decide), push_nil]; rfl
  have hne : ∀ rest, '~' :: '/' :: rest ≠ ("~" : String).toList := by
    intro rest h; have := congrArg List.length h; simp at this
  by_cases h1 : p = "~"
  · refine ⟨_, alone h1, ⟨fun _ => by rw [String.toList_ofList]; exact ⟨rfl, rfl⟩, fun rest hp => ?_, fun h => absurd h1 h⟩⟩
    rw [h1] at hp; exact absurd hp.symm (hne rest)
  · by_cases h2 : ∃ rest, p.toList = '~' :: '/' :: rest
    · obtain ⟨rest, hp⟩ := h2
      have hs : ∀ s ∈ names rest, '/' ∉ s ∧ s ≠ [] ∧ s ≠ ['.'] := by
        intro s hs
        unfold names at hs
        obtain ⟨hm, hk⟩ := List.mem_filter.mp hs
        exact ⟨split_mem rest s hm, of_decide_eq_true hk⟩
      obtain ⟨g1, g2⟩ := foldl_names _ hs home.toList
      refine ⟨_, below rest hp, ⟨fun h => absurd h h1, fun rest' hp' => ?_, fun _ h => absurd hp (h rest)⟩⟩
      rw [hp] at hp'; cases hp'
      rw [String.toList_ofList]; exact ⟨g1, g2⟩
    · refine ⟨p, ?_, ⟨fun h => absurd h h1, fun rest hp => absurd ⟨rest, hp⟩ h2, fun _ _ => rfl⟩⟩
      exact tilde_literal (some home) h1 (fun rest hp => h2 ⟨rest, hp⟩)

/-- **C115.** If the home directory is not known, a path that begins with `~` is not resolved: the configuration is refused. -/
theorem tilde_no_home (p : String) (h : p = "~" ∨ ∃ rest, p.toList = '~' :: '/' :: rest) : resolveTilde none p = none := by
  rcases h with rfl | ⟨rest, hp⟩
  · decide
  · have hroot : hasRoot ('~' :: '/' :: rest) = false := by unfold hasRoot; rw [List.head?_cons]; decide
    have hit : iter ('~' :: '/' :: rest) = ['~'] :: names rest := by
      unfold iter
      dsimp only
      rw [if_neg (by rw [hroot]; exact Bool.false_ne_true)]
      have : split ('~' :: '/' :: rest) = ['~'] :: split rest := split_slash ['~'] rest
      rw [this]
      rfl
    unfold resolveTilde
    rw [hp, hit]
    dsimp only
    rw [hroot, if_pos (by decide)]

example : Means "/home/u" "~/.config/rp//./key" "/home/u/.config/rp/key" ∧ (resolveTilde (some "/home/u") "~/.config/rp//./key" = some "/home/u/.config/rp/key") ∧
    resolveTilde (some "/home/u") "a~/b" = some "a~/b" ∧ resolveTilde none "~/x" = none := by
  refine ⟨?_, by decide +kernel, by decide +kernel, by decide +kernel⟩
  obtain ⟨r, h1, h2⟩ := tilde_means "/home/u" "~/.config/rp//./key"
  rw [show resolveTilde (some "/home/u") "~/.config/rp//./key" = some "/home/u/.config/rp/key" by decide +kernel] at h1
  cases h1; exact h2

/-! ### Specification: configurations -/

/-- an optional path -/
def OptMeans (home : String) : Option String → Option String → Prop
  | none, none => True
  | some p, some r => Means home p r
  | _, _ => False

/-- a peer of the file, and the peer that was loaded -/
structure PeerMeans (home : String) (p r : Config.Peer) : Prop where
  publicKey : Means home p.publicKey r.publicKey
  psk : OptMeans home p.psk r.psk
  keyOut : OptMeans home p.keyOut r.keyOut
  rest : { r with publicKey := p.publicKey, psk := p.psk, keyOut := p.keyOut } = p

/-- What was read from the file (`c`), and the configuration that was loaded (`c'`): the paths of key pair and peers as they are meant, the rest as it was read. -/
structure ConfigMeans (home : String) (c c' : Config Addr) : Prop where
  keypair : ∀ pk sk, c.keypair = some (pk, sk) → ∃ pk' sk', c'.keypair = some (pk', sk') ∧ Means home pk pk' ∧ Means home sk sk'
  noKeypair : c.keypair = none → c'.keypair = none
  peers : Startup.All2 (PeerMeans home) c.peers c'.peers
  rest : { c' with keypair := c.keypair, peers := c.peers } = c

/-! ### Loading -/

theorem onOpt_means (home : String) (o : Option String) : ∃ r, onOpt (resolveTilde (some home)) o = some r ∧ OptMeans home o r := by
  cases o with
  | none => exact ⟨none, rfl, trivial⟩
  | some p =>
    obtain ⟨r, h, m⟩ := tilde_means home p
    exact ⟨some r, by unfold onOpt; dsimp only; rw [h], m⟩

theorem tildePeer_means (home : String) (p : Config.Peer) : ∃ r, tildePeer (resolveTilde (some home)) p = some r ∧ PeerMeans home p r := by
  obtain ⟨a, ha, ma⟩ := tilde_means home p.publicKey
  obtain ⟨b, hb, mb⟩ := onOpt_means home p.psk
  obtain ⟨c, hc, mc⟩ := onOpt_means home p.keyOut
  exact ⟨{ p with publicKey := a, psk := b, keyOut := c }, by unfold tildePeer; rw [ha, hb, hc], ma, mb, mc, rfl⟩

theorem tildePeers_means (home : String) (ps : List Config.Peer) : ∃ rs, tildePeers (resolveTilde (some home)) ps = some rs ∧ Startup.All2 (PeerMeans home) ps rs := by
  induction ps with
  | nil => exact ⟨[], rfl, .nil⟩
  | cons p ps ih =>
    obtain ⟨r, h, m⟩ := tildePeer_means home p
    obtain ⟨rs, hs, ms⟩ := ih
    exact ⟨r :: rs, by unfold tildePeers; rw [h, hs], .cons m ms⟩

theorem tildeConfig_means (home : String) (c : Config Addr) : ∃ c', tildeConfig (resolveTilde (some home)) c = some c' ∧ ConfigMeans home c c' := by
  obtain ⟨ps, hp, mp⟩ := tildePeers_means home c.peers
  cases hk : c.keypair with
  | none =>
    refine ⟨{ c with keypair := none, peers := ps }, by unfold tildeConfig; rw [hk, hp], fun _ _ h => (by rw [hk] at h; cases h), fun _ => rfl, mp, rfl⟩
  | some k =>
    obtain ⟨pk, sk⟩ := k
    obtain ⟨a, ha, ma⟩ := tilde_means home pk
    obtain ⟨b, hb, mb⟩ := tilde_means home sk
    refine ⟨{ c with keypair := some (a, b), peers := ps }, by unfold tildeConfig; rw [hk]; dsimp only; rw [ha]; dsimp only; rw [hb, hp], ?_, fun h => (by rw [hk] at h; cases h), mp, rfl⟩
    intro _ _ h
    rw [hk] at h; cases h
    exact ⟨a, b, rfl, ma, mb⟩

/-- the three reasons for which a file is not a configuration -/
def Unloadable (w : World) (fs : Fs) (path : String) : Prop := ∀ f, fs path = some f → w.readable path = true → w.toml f.content = none

/-- **C115, in part.** Loading a configuration file: with a known home directory, it is refused exactly if it is missing, unreadable or not of the right form;
otherwise the paths of the key pair and of the peers are taken as they are meant, and everything else as it is written. -/
theorem load_means_partial (w : World) (home : String) (hh : w.home = some home) (fs : Fs) (path : String) :
    (Unloadable w fs path ∧ load w fs path = .bad) ∨
    ∃ f c c', fs path = some f ∧ w.readable path = true ∧ w.toml f.content = some c ∧ load w fs path = .ok c' ∧ ConfigMeans home c c' := by
  unfold load
  cases hf : fs path with
  | none => exact .inl ⟨fun f h => (by rw [hf] at h; cases h), rfl⟩
  | some f =>
    dsimp only
    by_cases hr : w.readable path = true
    · rw [if_neg (by rw [hr]; exact Bool.false_ne_true)]
      cases ht : w.toml f.content with
      | none => exact .inl ⟨fun g h _ => (by rw [hf] at h; cases h; exact ht), rfl⟩
      | some c =>
        obtain ⟨c', h1, h2⟩ := tildeConfig_means home c
        dsimp only
        rw [hh, h1]
        exact .inr ⟨f, c, c', rfl, hr, ht, rfl, h2⟩
    · rw [if_pos (by simpa using hr)]
      exact .inl ⟨fun _ _ h => absurd h hr, rfl⟩

/-- **C115, false of the code.** The paths of the API sockets are taken literally: `~/x` there does not mean a file below the home directory. -/
theorem api_path_literal (w : World) (home : String) (hh : w.home = some home) (fs : Fs) (path : String) (f : File) (c : Config Addr) (hf : fs path = some f)
    (hr : w.readable path = true) (ht : w.toml f.content = some c) : ∃ c', load w fs path = .ok c' ∧ c'.api = c.api ∧
    ∀ p ∈ c.api.listenPath, ∀ rest, p.toList = '~' :: '/' :: rest → hasRoot home.toList = true → ¬ Means home p p := by
  rcases load_means_partial w home hh fs path with ⟨hu, -⟩ | ⟨f', c0, c', h1, -, h3, h4, h5⟩
  · rw [hu f hf hr] at ht; cases ht
  · rw [hf] at h1; cases h1
    rw [ht] at h3; cases h3
    refine ⟨c', h4, ?_, ?_⟩
    · rw [← h5.rest]
    · intro p _ rest hp hroot m
      have := (m.below rest hp).2
      rw [hroot, hp] at this
      exact absurd this (by unfold hasRoot; rw [List.head?_cons]; decide)

end Verif.Cli
