import Verif.Thm.Cli
/-
The command `rosenpass`: what it serves, what it writes, how it ends.
-/
namespace Verif.Cli
open FileIO KeyGen
open Config (Config Api)
variable {C : Crypto}

/-! ### Specification -/

/-- the configuration (before the flags) that a command asks for: that of the file, or that of the arguments -/
inductive Source (w : World) (fs : Fs) : Cmd → Config Addr → Prop
  | file (f : String) (c : Config Addr) : load w fs f = .ok c → Source w fs (.exchangeConfig f) c
  | args (first : String) (rest : List String) (save : Option String) (c : Config Addr) :
      Config.parseArgs (w.disk fs).resolve (first :: rest) = .ok c → Source w fs (.exchange first rest save) c

/-- the file a command is asked to save the configuration to -/
def Cmd.save : Cmd → Option String
  | .exchange _ _ save => save
  | _ => none

/-- the broker asked for by the flags, of which at most one is given -/
structure BrokerAsked (a : Args) (b : Option BrokerInterface) : Prop where
  path : ∀ p, a.brokerPath = some p → b = some (.socket p)
  fd : ∀ n, a.brokerPath = none → a.brokerFd = some n → b = some (.fd n)
  spawn : a.brokerPath = none → a.brokerFd = none → a.brokerSpawn = true → b = some .socketPair
  none : a.brokerPath = none → a.brokerFd = none → a.brokerSpawn = false → b = none

/-- The daemon that serves: application `app`, sockets `socks`, API `api`, broker `b`; asked for were the configuration `c` and the flags of `a`, and the
files are `fs`. -/
structure AsTold (w : World) (a : Args) (fs : Fs) (c : Config Addr) (app : App) (socks : List Startup.Sock) (api : Api) (b : Option BrokerInterface) : Prop where
  /-- own keys: those of the configured files; without any, there is an API through which they can be supplied -/
  keys : ∀ pk sk, c.keypair = some (pk, sk) → ∃ s, app.site = .product s ∧ (w.disk fs).ssk sk = some s.sskm ∧ (w.disk fs).spk pk = some s.spkm
  noKeys : c.keypair = none → (api.listenPath ≠ [] ∨ api.listenFd ≠ [] ∨ api.streamFd ≠ []) ∧ ∃ x, app.site = .builder x ∧ x.keypair = none
  /-- the peers, in order, each with everything that was configured -/
  peers : ∃ xs, Startup.All2 (Startup.Given (w.disk fs) { w.env with fs := fs }) c.peers xs ∧ app.peers = xs.map Startup.entry
  /-- every peer has somewhere its keys go to -/
  output : ∀ ap ∈ app.peers, ap.outfile.isSome ∨ ap.broker.isSome
  /-- the sockets -/
  socks_ : Startup.openSockets { w.env with fs := fs } c.listen = some socks
  /-- the API of the configuration and of the flags -/
  api_ : api = ⟨c.api.listenPath ++ a.api.listenPath, c.api.listenFd ++ a.api.listenFd, c.api.streamFd ++ a.api.streamFd⟩
  broker : BrokerAsked a b
  fs_ : app.fs = fs

/-! ### Serving -/

theorem broker_asked (a : Args) : BrokerAsked a a.broker := by
  unfold Args.broker
  refine ⟨fun p h => by rw [h], fun n h g => by rw [h, g], fun h g s => ?_, fun h g s => ?_⟩
  · rw [h, g]; dsimp only; rw [if_pos s]
  · rw [h, g]; dsimp only; rw [if_neg (by rw [s]; exact Bool.false_ne_true)]

theorem hasSources_iff (x : Api) : x.hasSources = true ↔ x.listenPath ≠ [] ∨ x.listenFd ≠ [] ∨ x.streamFd ≠ [] := by
  obtain ⟨l1, l2, l3⟩ := x
  unfold Api.hasSources Api.count
  dsimp only
  cases l1 <;> cases l2 <;> cases l3 <;> simp <;> omega

/-- What is needed to start: the keys and names the configuration refers to are there (as `validate` asks), there are keys or an API, the operating system grants
what is needed, the pre-shared keys can be loaded, the WireGuard peers are base64, and no two peers of a daemon with keys have the same identity. -/
structure Startable (C : Crypto) (w : World) (a : Args) (fs : Fs) (c : Config Addr) : Prop where
  valid : Config.validate (w.disk fs).probe c = true
  useful : c.keypair.isSome ∨ (a.apply c).api.listenPath ≠ [] ∨ (a.apply c).api.listenFd ≠ [] ∨ (a.apply c).api.streamFd ≠ []
  granted : Startup.EnvOk { w.env with fs := fs } c.listen
  loads : ∀ p ∈ c.peers, Startup.Loads (w.disk fs) p
  distinct : c.keypair.isSome → (c.peers.map (Startup.ident C (w.disk fs))).Nodup

/-- the end of `exchange` and `exchange-config` -/
theorem exchange_exact (L : C.Lawful) {w : World} (a : Args) (fs : Fs) (hw : Startup.WF (w.disk fs) { w.env with fs := fs }) (c : Config Addr) :
    (exchange C w a fs c).fs = fs ∧ (exchange C w a fs c).said = [] ∧
    ((∃ app socks api b, (exchange C w a fs c).done = .serving app socks api b ∧ AsTold w a fs c app socks api b ∧ Startable C w a fs c) ∨
      ((exchange C w a fs c).done = .exit 1 ∧ ¬ Startable C w a fs c)) := by
  have huse : Config.checkUsefullness (a.apply c) = true ↔
      (c.keypair.isSome ∨ (a.apply c).api.listenPath ≠ [] ∨ (a.apply c).api.listenFd ≠ [] ∨ (a.apply c).api.streamFd ≠ []) := by
    unfold Config.checkUsefullness; rw [Bool.or_eq_true, hasSources_iff]; exact Iff.rfl
  unfold exchange
  by_cases hv : Config.validate (w.disk fs).probe c = true
  swap
  · rw [if_pos (by simpa using hv)]; exact ⟨rfl, rfl, .inr ⟨rfl, fun h => hv h.valid⟩⟩
  rw [if_neg (by rw [hv]; exact Bool.false_ne_true)]
  dsimp only
  by_cases hu : Config.checkUsefullness (a.apply c) = true
  swap
  · rw [if_pos (by simpa using hu)]; exact ⟨rfl, rfl, .inr ⟨rfl, fun h => hu (huse.mpr h.useful)⟩⟩
  rw [if_neg (by rw [hu]; exact Bool.false_ne_true)]
  obtain ⟨s1, s2⟩ := Startup.startup_exact (C := C) L hw (a.apply c)
  obtain ⟨v1, v2⟩ := (Config.validate_exact _ _).mp hv
  by_cases hc : Startup.EnvOk { w.env with fs := fs } c.listen ∧ (∀ pk sk, c.keypair = some (pk, sk) → ((w.disk fs).ssk sk).isSome ∧ ((w.disk fs).spk pk).isSome) ∧
      (∀ p ∈ c.peers, Startup.Loads (w.disk fs) p) ∧ (c.keypair.isSome → (c.peers.map (Startup.ident C (w.disk fs))).Nodup)
  · obtain ⟨app, socks, xs, h1, h2, h3, -, -, h6, -, -, h9, h10, h11⟩ := s1 hc
    rw [h1]
    refine ⟨rfl, rfl, .inl ⟨app, socks, (a.apply c).api, a.broker, rfl, ⟨h10, fun hk => ⟨?_, h11 hk⟩, ⟨xs, h3, h6⟩, ?_, h2, rfl, broker_asked a, h9⟩, hv, huse.mp hu, hc.1, hc.2.2.1, hc.2.2.2⟩⟩
    · rcases huse.mp hu with h | h
      · rw [hk] at h; cases h
      · exact h
    · have key : ∀ {ps : List Config.Peer} {xs : List App.NewPeer}, Startup.All2 (Startup.Given (w.disk fs) { w.env with fs := fs }) ps xs →
          (∀ p ∈ ps, p.keyOut.isSome ∨ ∃ y, p.wg = some y ∧ y.device ≠ "" ∧ y.peer ≠ "") → ∀ x ∈ xs, x.outfile.isSome ∨ x.broker.isSome := by
        intro ps xs hall
        induction hall with
        | nil => intro _ x hx; cases hx
        | cons g _ ih =>
          intro hp x hx
          rcases List.mem_cons.mp hx with rfl | hx
          · rcases hp _ (List.mem_cons_self ..) with h | ⟨y, hy, -⟩
            · left; rw [g.out]; exact h
            · right; obtain ⟨id, -, hb⟩ := g.wg y hy; rw [hb]; rfl
          · exact ih (fun p hm => hp p (List.mem_cons_of_mem _ hm)) x hx
      intro ap hap
      rw [h6] at hap
      obtain ⟨x, hx, rfl⟩ := List.mem_map.mp hap
      exact key h3 (fun p hp => (v2 p hp).2.2.1) x hx
  · rw [s2 hc]
    refine ⟨rfl, rfl, .inr ⟨rfl, fun h => hc ⟨h.granted, fun pk sk hk => ?_, h.loads, h.distinct⟩⟩⟩
    obtain ⟨⟨-, q1⟩, -, q2⟩ := v1 pk sk hk
    exact ⟨q2, q1⟩

theorem store_spec (w : World) (fs : Fs) (p : String) (c : Config Addr) :
    (∀ q, q ≠ p → (store w fs p c).2 q = fs q) ∧ (store w fs p c).1 ≠ .refused ∧
    ((store w fs p c).1 = .ok → ∃ f, (store w fs p c).2 p = some f ∧ f.content = w.ser c) := by
  unfold store genConfig
  rw [if_pos (show (true || (fs p).isNone) = true from rfl)]
  cases w.w1 with
  | killed => exact ⟨fun _ _ => rfl, (by intro h; cases h), fun h => nomatch h⟩
  | openErr k => exact ⟨fun _ _ => rfl, (by intro h; cases h), fun h => nomatch h⟩
  | opened os =>
    dsimp only
    refine ⟨fun q hq => if_neg hq, ?_, fun h => ?_⟩
    · unfold ended; split <;> (intro h; cases h)
    · obtain ⟨u, hu⟩ := ended_ok h
      exact ⟨_, if_pos rfl, (writeAll_spec os _).2.1 hu⟩

/-- the size conditions hold whatever the command has written -/
def SizesOk (w : World) : Prop := ∀ fs, Startup.WF (w.disk fs) { w.env with fs := fs }

/-- **C114.** If the process serves, it serves what it was told: there is a configuration, of the file or of the arguments, and the daemon has its keys, its peers with all
that is configured for them, its sockets and its API, together with the API and the broker of the flags; every peer has an output; the only file that was changed is
the one the configuration was to be saved to, which then holds it. -/
theorem serves_as_told (L : C.Lawful) {w : World} (hw : SizesOk w) (a : Args) (fs : Fs) {app : App} {socks : List Startup.Sock} {api : Api} {b : Option BrokerInterface}
    (h : (run C w a fs).done = .serving app socks api b) : ∃ cmd c, a.command = some cmd ∧ Source w fs cmd c ∧ AsTold w a (run C w a fs).fs c app socks api b ∧
      (∀ p, cmd.save ≠ some p → (run C w a fs).fs p = fs p) ∧ (∀ p, cmd.save = some p → ∃ f, (run C w a fs).fs p = some f ∧ f.content = w.ser c) := by
  have hend : ∀ e : End, ofEnd e ≠ .serving app socks api b := by intro e h; cases e <;> cases h
  have hval : ∀ files said, (validateAll w fs said files).done ≠ .serving app socks api b := by
    intro files
    induction files with
    | nil => intro said h; cases h
    | cons f files ih =>
      intro said
      unfold validateAll
      split
      · exact ih _
      · exact ih _
      · intro h; cases h
  have hex : ∀ fs c, (exchange C w a fs c).done = .serving app socks api b → AsTold w a fs c app socks api b ∧ (exchange C w a fs c).fs = fs := by
    intro fs c he
    obtain ⟨f1, -, ⟨_, _, _, _, d1, d2, -⟩ | ⟨d1, -⟩⟩ := exchange_exact (C := C) L a fs (hw fs) c
    · rw [d1] at he; cases he; exact ⟨d2, f1⟩
    · rw [d1] at he; cases he
  unfold run at h ⊢
  split at h <;> rename_i hc
  · exact absurd h (hend _)
  · exact absurd h (hend _)
  · split at h
    · cases h
    · exact absurd h (hend _)
  · rename_i file
    split at h
    · rename_i c hl
      obtain ⟨g1, g2⟩ := hex fs c h
      refine ⟨_, c, hc, .file _ c hl, ?_⟩
      rw [g2]
      exact ⟨g1, fun _ _ => rfl, fun p hp => (by cases hp)⟩
    · cases h
    · cases h
  · rename_i first rest save
    split at h
    · cases h
    · cases h
    · rename_i c hl
      refine ⟨_, c, hc, .args _ _ _ c hl, ?_⟩
      cases save with
      | none =>
        obtain ⟨g1, g2⟩ := hex fs c h
        dsimp only
        rw [g2]
        exact ⟨g1, fun _ _ => rfl, fun p hp => (by cases hp)⟩
      | some p =>
        dsimp only at h ⊢
        obtain ⟨t1, -, t3⟩ := store_spec w fs p c
        generalize store w fs p c = st at h t1 t3 ⊢
        obtain ⟨e, fs'⟩ := st
        cases e with
        | ok =>
          obtain ⟨g1, g2⟩ := hex fs' c h
          dsimp only
          rw [g2]
          refine ⟨g1, fun q hq => t1 q (fun e => hq (by rw [e]; rfl)), fun q hq => ?_⟩
          cases hq
          exact t3 rfl
        | _ => cases h
  · exact absurd h (hval _ _)
  · cases h

/-- **C114.** And it serves whenever what it needs is there: for a configuration of a file, or of the arguments, which could be saved if that was asked for. -/
theorem serves_if_startable (L : C.Lawful) {w : World} (hw : SizesOk w) (a : Args) (fs : Fs) (cmd : Cmd) (c : Config Addr) (hcmd : a.command = some cmd) (hs : Source w fs cmd c) :
    (cmd.save = none → Startable C w a fs c → ∃ app socks api b, (run C w a fs).done = .serving app socks api b) ∧
    (∀ p fs', cmd.save = some p → store w fs p c = (.ok, fs') → Startable C w a fs' c → ∃ app socks api b, (run C w a fs).done = .serving app socks api b) ∧
    (cmd.save = none → ¬ Startable C w a fs c → (run C w a fs).done = .exit 1 ∧ (run C w a fs).fs = fs) := by
  have hex : ∀ fs, Startable C w a fs c → ∃ app socks api b, (exchange C w a fs c).done = .serving app socks api b := by
    intro fs h
    obtain ⟨-, -, ⟨x1, x2, x3, x4, d1, -⟩ | ⟨-, d1⟩⟩ := exchange_exact (C := C) L a fs (hw fs) c
    · exact ⟨x1, x2, x3, x4, d1⟩
    · exact absurd h d1
  have hno : ∀ fs, ¬ Startable C w a fs c → (exchange C w a fs c).done = .exit 1 ∧ (exchange C w a fs c).fs = fs := by
    intro fs h
    obtain ⟨f1, -, ⟨x1, x2, x3, x4, -, -, d1⟩ | ⟨d1, -⟩⟩ := exchange_exact (C := C) L a fs (hw fs) c
    · exact absurd d1 h
    · exact ⟨d1, f1⟩
  unfold run
  rw [hcmd]
  cases hs with
  | file f c hl =>
    dsimp only
    rw [hl]
    exact ⟨fun _ h => hex fs h, fun p fs' hp => (by cases hp), fun _ h => hno fs h⟩
  | args first rest save c hl =>
    dsimp only
    rw [hl]
    dsimp only
    cases save with
    | none => exact ⟨fun _ h => hex fs h, fun p fs' hp => (by cases hp), fun _ h => hno fs h⟩
    | some p =>
      dsimp only
      refine ⟨fun h => (by cases h), fun p' fs' hp hst h => ?_, fun h => (by cases h)⟩
      cases hp
      rw [hst]
      exact hex fs' h

/-! ### Saved configurations -/

/-- a path that is meant literally -/
def Literal (p : String) : Prop := p ≠ "~" ∧ ∀ rest, p.toList ≠ '~' :: '/' :: rest

/-- all paths of key pair and peers are meant literally -/
structure AllLiteral (c : Config Addr) : Prop where
  keypair : ∀ pk sk, c.keypair = some (pk, sk) → Literal pk ∧ Literal sk
  peers : ∀ p ∈ c.peers, Literal p.publicKey ∧ (∀ f, p.psk = some f → Literal f) ∧ ∀ f, p.keyOut = some f → Literal f

theorem onOpt_literal (home : Option String) {o : Option String} (h : ∀ f, o = some f → Literal f) : onOpt (resolveTilde home) o = some o := by
  cases o with
  | none => rfl
  | some p => unfold onOpt; dsimp only; rw [tilde_literal home (h p rfl).1 (h p rfl).2]

theorem tildeConfig_literal (home : Option String) {c : Config Addr} (h : AllLiteral c) : tildeConfig (resolveTilde home) c = some c := by
  have hp : ∀ ps : List Config.Peer, (∀ p ∈ ps, Literal p.publicKey ∧ (∀ f, p.psk = some f → Literal f) ∧ ∀ f, p.keyOut = some f → Literal f) → tildePeers (resolveTilde home) ps = some ps := by
    intro ps
    induction ps with
    | nil => intro _; rfl
    | cons p ps ih =>
      intro hps
      obtain ⟨g1, g2, g3⟩ := hps p (List.mem_cons_self ..)
      unfold tildePeers tildePeer
      rw [tilde_literal home g1.1 g1.2, onOpt_literal home g2, onOpt_literal home g3, ih (fun q hq => hps q (List.mem_cons_of_mem _ hq))]
  unfold tildeConfig
  rw [hp c.peers h.peers]
  cases hk : c.keypair with
  | none => obtain ⟨k, x2, x3, x4, x5⟩ := c; dsimp only at hk; subst hk; rfl
  | some k =>
    obtain ⟨pk, sk⟩ := k
    obtain ⟨g1, g2⟩ := h.keypair pk sk hk
    dsimp only
    rw [tilde_literal home g1.1 g1.2]; dsimp only; rw [tilde_literal home g2.1 g2.2]; dsimp only
    obtain ⟨k, x2, x3, x4, x5⟩ := c; dsimp only at hk; subst hk; rfl

/-- **C116, in part.** `exchange` with `--config-file` serves exactly what `exchange-config` on the saved file then serves with the same flags: provided that TOML gives back
the configuration, the file can be read, and no path among the arguments begins with `~/`. -/
theorem saved_restarts_partial {w : World} (a : Args) (fs : Fs) (first : String) (rest : List String) (p : String)
    (ha : a.command = some (.exchange first rest (some p))) (c : Config Addr) (hc : Config.parseArgs (w.disk fs).resolve (first :: rest) = .ok c)
    (htoml : w.toml (w.ser c) = some c) (hr : w.readable p = true) (hl : AllLiteral c) (hst : (store w fs p c).1 = .ok) :
    run C w { a with command := some (.exchangeConfig p) } (store w fs p c).2 = run C w a fs := by
  obtain ⟨-, -, t3⟩ := store_spec w fs p c
  obtain ⟨f, hf, hfc⟩ := t3 hst
  unfold run
  rw [ha]
  dsimp only
  rw [hc]
  dsimp only
  have hload : load w (store w fs p c).2 p = .ok c := by
    unfold load
    rw [hf]
    dsimp only
    rw [if_neg (by rw [hr]; exact Bool.false_ne_true), hfc, htoml]
    dsimp only
    rw [tildeConfig_literal w.home hl]
  rw [hload]
  dsimp only
  generalize store w fs p c = st at hst ⊢
  obtain ⟨e, fs'⟩ := st
  dsimp only at hst
  subst hst
  rfl

/-- **C116, false of the code.** A path among the arguments is meant literally, but the same path in the saved file is not: the file is read back with another
public key file if the one given begins with `~/` (a directory named `~`) and the home directory is an absolute path. -/
theorem saved_tilde_differs {w : World} (fs : Fs) (p : String) (c : Config Addr) (home : String) (hh : w.home = some home) (habs : hasRoot home.toList = true)
    (htoml : w.toml (w.ser c) = some c) (hr : w.readable p = true) (hst : (store w fs p c).1 = .ok) (pk sk : String) (hk : c.keypair = some (pk, sk)) (rest : List Char)
    (hp : pk.toList = '~' :: '/' :: rest) : ∃ c' pk' sk', load w (store w fs p c).2 p = .ok c' ∧ c'.keypair = some (pk', sk') ∧ pk' ≠ pk := by
  obtain ⟨-, -, t3⟩ := store_spec w fs p c
  obtain ⟨f, hf, hfc⟩ := t3 hst
  rcases load_means_partial w home hh (store w fs p c).2 p with ⟨hu, -⟩ | ⟨f', c0, c', h1, -, h3, h4, h5⟩
  · have := hu f hf hr
    rw [hfc, htoml] at this; cases this
  · rw [hf] at h1; cases h1
    rw [hfc, htoml] at h3; cases h3
    obtain ⟨pk', sk', g1, g2, -⟩ := h5.keypair pk sk hk
    refine ⟨c', pk', sk', h4, g1, fun e => ?_⟩
    have := (g2.below rest hp).2
    rw [e, habs, hp] at this
    exact absurd this (by unfold hasRoot; rw [List.head?_cons]; decide)

/-! ### Files -/

/-- Commands that are not told to replace anything: without `--force`, and without a file to save the configuration to; the deprecated `keygen` is excluded. -/
def Cmd.Careful : Cmd → Prop
  | .genConfig _ force => force = false
  | .genKeys _ _ _ force => force = false
  | .keygen _ => False
  | .exchange _ _ save => save = none
  | _ => True

theorem exchange_fs (w : World) (a : Args) (fs : Fs) (c : Config Addr) : (exchange C w a fs c).fs = fs := by
  unfold exchange
  split
  · rfl
  · dsimp only; split
    · rfl
    · split <;> rfl

theorem validateAll_fs (w : World) (fs : Fs) (files : List String) : ∀ said, (validateAll w fs said files).fs = fs := by
  induction files with
  | nil => intro said; rfl
  | cons f files ih =>
    intro said
    unfold validateAll
    split
    · exact ih _
    · exact ih _
    · rfl

/-- **C117, in part.** Such commands change no existing file, whatever fails and wherever the process is killed. -/
theorem files_kept_partial (w : World) (a : Args) (fs : Fs) (h : ∀ cmd, a.command = some cmd → cmd.Careful) (p : String) (f : File) (hp : fs p = some f) :
    (run C w a fs).fs p = some f := by
  unfold run
  split <;> rename_i hc
  · cases h _ hc
    exact gen_config_keeps_existing _ _ _ _ _ p f hp
  · exact absurd (h _ hc) id
  · rename_i file pk sk force
    have hf : force = false := h _ hc
    subst hf
    split
    · exact hp
    · exact gen_keys_keeps_existing _ _ _ _ _ _ _ _ p f hp
  · split
    · rw [exchange_fs]; exact hp
    · exact hp
    · exact hp
  · rename_i first rest save
    have hs : save = none := h _ hc
    subst hs
    split
    · exact hp
    · exact hp
    · dsimp only; rw [exchange_fs]; exact hp
  · rw [validateAll_fs]; exact hp
  · exact hp

/-- **C117, false of the code.** `exchange --config-file` replaces an existing file without being told to, even if the configuration is then refused. -/
theorem exchange_replaces {w : World} (a : Args) (fs : Fs) (first : String) (rest : List String) (p : String) (ha : a.command = some (.exchange first rest (some p)))
    (c : Config Addr) (hc : Config.parseArgs (w.disk fs).resolve (first :: rest) = .ok c) (hst : (store w fs p c).1 = .ok) :
    ∃ f, (run C w a fs).fs p = some f ∧ f.content = w.ser c := by
  obtain ⟨-, -, t3⟩ := store_spec w fs p c
  have := t3 hst
  unfold run
  rw [ha]
  dsimp only
  rw [hc]
  dsimp only
  generalize store w fs p c = st at hst this ⊢
  obtain ⟨e, fs'⟩ := st
  dsimp only at hst
  subst hst
  dsimp only
  rw [exchange_fs]
  exact this

/-! ### Exit status -/

/-- the key files `gen-keys` is to write: those of the configuration file if there is one, otherwise those of the flags -/
inductive KeyFiles (w : World) (fs : Fs) : Option String → Option String → Option String → String → String → Prop
  | file (f : String) (pk sk : Option String) (c : Config Addr) (pkf skf : String) : load w fs f = .ok c → c.keypair = some (pkf, skf) → KeyFiles w fs (some f) pk sk pkf skf
  | flags (pkf skf : String) : KeyFiles w fs none (some pkf) (some skf) pkf skf

/-- The arguments of the deprecated `keygen`: pairs of a name and a path; of a repeated name the last counts. -/
def Named (args : List String) (skf pkf : String) : Prop :=
  ∃ ps : List (String × String), args = ps.flatMap (fun x => [x.1, x.2]) ∧ (∀ x ∈ ps, x.1 = "private-key" ∨ x.1 = "secret-key" ∨ x.1 = "public-key") ∧
    ((ps.filter (fun x => x.1 != "public-key")).map (·.2)).getLast? = some skf ∧ ((ps.filter (fun x => x.1 == "public-key")).map (·.2)).getLast? = some pkf

theorem getLast_cons_or {α : Type} (a : α) (l : List α) (o : Option α) : ((a :: l).getLast?).or o = (l.getLast?).or (some a) := by
  cases l with
  | nil => simp
  | cons b l => simp [List.getLast?_cons_cons, List.getLast?_cons]

theorem keygenArgs_pairs : ∀ (args : List String) (s p s' p' : Option String), keygenArgs s p args = some (s', p') ↔
    ∃ ps : List (String × String), args = ps.flatMap (fun x => [x.1, x.2]) ∧ (∀ x ∈ ps, x.1 = "private-key" ∨ x.1 = "secret-key" ∨ x.1 = "public-key") ∧
      (((ps.filter (fun x => x.1 != "public-key")).map (·.2)).getLast?).or s = s' ∧ (((ps.filter (fun x => x.1 == "public-key")).map (·.2)).getLast?).or p = p'
  | [], s, p, s', p' => by
    constructor
    · intro h; cases h; exact ⟨[], rfl, fun _ h => (nomatch h), rfl, rfl⟩
    · rintro ⟨ps, h, -, h1, h2⟩
      cases ps with
      | nil => cases h1; cases h2; rfl
      | cons x ps => simp at h
  | [a], s, p, s', p' => by
    constructor
    · intro h; cases h
    · rintro ⟨ps, h, -, h1, h2⟩
      cases ps with
      | nil => cases h
      | cons x ps => simp at h
  | k :: v :: rest, s, p, s', p' => by
    rw [keygenArgs]
    by_cases hs : k = "private-key" ∨ k = "secret-key"
    · have hk : k ≠ "public-key" := by rcases hs with h | h <;> (rw [h]; decide)
      rw [if_pos hs, keygenArgs_pairs rest]
      constructor
      · rintro ⟨ps, h, hn, h1, h2⟩
        refine ⟨(k, v) :: ps, by rw [h]; rfl, fun x hx => ?_, ?_, ?_⟩
        · rcases List.mem_cons.mp hx with h | h
          · rw [h]; rcases hs with h | h <;> simp [h]
          · exact hn x h
        · rw [List.filter_cons_of_pos (by simpa using hk), List.map_cons, getLast_cons_or]; exact h1
        · rw [List.filter_cons_of_neg (by simpa using hk)]; exact h2
      · rintro ⟨ps, h, hn, h1, h2⟩
        cases ps with
        | nil => cases h
        | cons x ps =>
          simp at h
          obtain ⟨e1, e2, e3⟩ := h
          refine ⟨ps, e3, fun y hy => hn y (List.mem_cons_of_mem _ hy), ?_, ?_⟩
          · rw [List.filter_cons_of_pos (by rw [← e1]; simpa using hk), List.map_cons, getLast_cons_or, ← e2] at h1; exact h1
          · rw [List.filter_cons_of_neg (by rw [← e1]; simpa using hk)] at h2; exact h2
    · rw [if_neg hs]
      by_cases hk : k = "public-key"
      · rw [if_pos hk, keygenArgs_pairs rest]
        constructor
        · rintro ⟨ps, h, hn, h1, h2⟩
          refine ⟨(k, v) :: ps, by rw [h]; rfl, fun x hx => ?_, ?_, ?_⟩
          · rcases List.mem_cons.mp hx with h | h
            · rw [h]; exact .inr (.inr hk)
            · exact hn x h
          · rw [List.filter_cons_of_neg (by simpa using hk)]; exact h1
          · rw [List.filter_cons_of_pos (by simpa using hk), List.map_cons, getLast_cons_or]; exact h2
        · rintro ⟨ps, h, hn, h1, h2⟩
          cases ps with
          | nil => cases h
          | cons x ps =>
            simp at h
            obtain ⟨e1, e2, e3⟩ := h
            refine ⟨ps, e3, fun y hy => hn y (List.mem_cons_of_mem _ hy), ?_, ?_⟩
            · rw [List.filter_cons_of_neg (by rw [← e1]; simpa using hk)] at h1; exact h1
            · rw [List.filter_cons_of_pos (by rw [← e1]; simpa using hk), List.map_cons, getLast_cons_or, ← e2] at h2; exact h2
      · rw [if_neg hk]
        constructor
        · intro h; cases h
        · rintro ⟨ps, h, hn, h1, h2⟩
          cases ps with
          | nil => cases h
          | cons x ps =>
            simp at h
            rcases hn x (List.mem_cons_self ..) with e | e | e
            · exact absurd (.inl (h.1.trans e)) hs
            · exact absurd (.inr (h.1.trans e)) hs
            · exact absurd (h.1.trans e) hk

/-- the arguments of `keygen` mean what `Named` says; all others are refused -/
theorem keygenArgs_named (args : List String) (skf pkf : String) : keygenArgs none none args = some (some skf, some pkf) ↔ Named args skf pkf := by
  rw [keygenArgs_pairs]
  unfold Named
  simp only [Option.or_none]

example : Named ["public-key", "a", "secret-key", "b", "private-key", "c"] "c" "a" := ⟨[("public-key", "a"), ("secret-key", "b"), ("private-key", "c")], rfl, by decide, by decide, by decide⟩

/-- What a command is to achieve (`fs` before, `fs'` after). -/
def Achieved (w : World) (fs fs' : Fs) : Cmd → Prop
  | .genConfig file _ => ∃ f, fs' file = some f ∧ f.content = w.example_
  | .genKeys file pk sk _ => ∃ pkf skf, KeyFiles w fs file pk sk pkf skf ∧ (skf ≠ pkf → Pair fs' skf pkf w.keys.1 w.keys.2)
  | .keygen args => ∃ pkf skf, Named args skf pkf ∧ (skf ≠ pkf → Pair fs' skf pkf w.keys.1 w.keys.2)
  | .exchangeConfig _ => False
  | .exchange _ _ _ => False
  | .validate files => ∀ f ∈ files, ∃ c, load w fs f = .ok c ∧ Config.validate (w.disk fs).probe c = true

theorem ofEnd_zero {e : End} (h : ofEnd e = .exit 0) : e = .ok := by cases e <;> cases h; rfl
theorem ofEnd_status {e : End} {n : Nat} (h : ofEnd e = .exit n) : n = 0 ∨ n = 1 := by cases e <;> cases h <;> simp

theorem exchange_status (w : World) (a : Args) (fs : Fs) (c : Config Addr) (n : Nat) (h : (exchange C w a fs c).done = .exit n) : n = 1 := by
  unfold exchange at h
  split at h
  · cases h; rfl
  · dsimp only at h; split at h
    · cases h; rfl
    · split at h <;> cases h; rfl

/-- what `validate` prints -/
theorem validateAll_said (w : World) (fs : Fs) (home : String) (hh : w.home = some home) (files : List String) : ∀ said,
    (validateAll w fs said files).done = .exit 0 ∧ ∃ vs, (validateAll w fs said files).said = said ++ files.zip vs ∧ vs.length = files.length ∧
    ∀ f v, (f, v) ∈ files.zip vs → ((v = .notValid ↔ Unloadable w fs f) ∧ (v = .passed ↔ ∃ c, load w fs f = .ok c ∧ Config.validate (w.disk fs).probe c = true)) := by
  induction files with
  | nil => intro said; exact ⟨rfl, [], (List.append_nil _).symm, rfl, fun _ _ h => nomatch h⟩
  | cons f files ih =>
    intro said
    rcases load_means_partial w home hh fs f with ⟨hu, hl⟩ | ⟨x, c0, c, h1, h2, h3, h4, -⟩
    · obtain ⟨i1, vs, i2, i3, i4⟩ := ih (said ++ [(f, .notValid)])
      unfold validateAll
      rw [hl]
      refine ⟨i1, .notValid :: vs, by rw [i2]; simp, by simp [i3], fun g v hm => ?_⟩
      rw [List.zip_cons_cons] at hm
      rcases List.mem_cons.mp hm with hm | hm
      · cases hm
        refine ⟨⟨fun _ => hu, fun _ => rfl⟩, fun h => (nomatch h), ?_⟩
        rintro ⟨c, hc, -⟩; rw [hl] at hc; cases hc
      · exact i4 g v hm
    · obtain ⟨i1, vs, i2, i3, i4⟩ := ih (said ++ [(f, if Config.validate (w.disk fs).probe c then .passed else .logicalErrors)])
      unfold validateAll
      rw [h4]
      refine ⟨i1, _ :: vs, by rw [i2]; simp; rfl, by simp [i3], fun g v hm => ?_⟩
      rw [List.zip_cons_cons] at hm
      rcases List.mem_cons.mp hm with hm | hm
      · cases hm
        by_cases hv : Config.validate (w.disk fs).probe c = true
        · rw [if_pos hv]
          refine ⟨⟨fun h => (nomatch h), fun h => ?_⟩, fun _ => ⟨c, h4, hv⟩, fun _ => rfl⟩
          rw [h x h1 h2] at h3; cases h3
        · rw [if_neg hv]
          refine ⟨⟨fun h => (nomatch h), fun h => ?_⟩, fun h => (nomatch h), ?_⟩
          · rw [h x h1 h2] at h3; cases h3
          · rintro ⟨c', hc, hv'⟩; rw [h4] at hc; cases hc; exact absurd hv' hv
      · exact i4 g v hm

/-- **C113, in part.** The exit status is 0 or 1; if it is 0, then the command, unless it is `validate`, achieved what it was to; and `validate` prints one line for
each file, in order, which tells whether the file can be loaded and passes the checks. -/
theorem exit_status_partial (w : World) (a : Args) (fs : Fs) :
    (∀ n, (run C w a fs).done = .exit n → n = 0 ∨ n = 1) ∧
    ((run C w a fs).done = .exit 0 → ∀ cmd, a.command = some cmd → (∀ files, cmd ≠ .validate files) → Achieved w fs (run C w a fs).fs cmd) ∧
    (∀ files home, a.command = some (.validate files) → w.home = some home →
      ∃ vs, (run C w a fs).said = files.zip vs ∧ vs.length = files.length ∧
        ∀ f v, (f, v) ∈ files.zip vs → ((v = .notValid ↔ Unloadable w fs f) ∧ (v = .passed ↔ ∃ c, load w fs f = .ok c ∧ Config.validate (w.disk fs).probe c = true))) := by
  have hstore : ∀ (p : String) (c : Config Addr) (r : Res), (match store w fs p c with | (.ok, fs') => exchange C w a fs' c | (e, fs') => ⟨ofEnd e, fs', []⟩) = r →
      ∀ n, r.done = .exit n → n = 1 := by
    intro p c r hr n hn
    subst hr
    generalize store w fs p c = st at hn
    obtain ⟨e, fs'⟩ := st
    cases e with
    | ok => exact exchange_status w a fs' c n hn
    | killed => cases hn
    | refused => cases hn; rfl
    | failed => cases hn; rfl
  refine ⟨fun n h => ?_, fun h cmd hcmd hnv => ?_, fun files home hcmd hh => ?_⟩
  · have hval : ∀ files said, (validateAll w fs said files).done = .exit n → n = 0 ∨ n = 1 := by
      intro files
      induction files with
      | nil => intro said h; cases h; exact .inl rfl
      | cons f files ih =>
        intro said h
        unfold validateAll at h
        split at h
        · exact ih _ h
        · exact ih _ h
        · cases h; exact .inr rfl
    unfold run at h
    split at h
    · exact ofEnd_status h
    · exact ofEnd_status h
    · split at h
      · cases h; exact .inr rfl
      · exact ofEnd_status h
    · split at h
      · exact .inr (exchange_status w a fs _ n h)
      · cases h; exact .inr rfl
      · cases h; exact .inr rfl
    · split at h
      · cases h
      · cases h; exact .inr rfl
      · split at h
        · exact .inr (exchange_status w a fs _ n h)
        · exact .inr (hstore _ _ _ rfl n h)
    · exact hval _ _ h
    · cases h; exact .inl rfl
  · unfold run at h ⊢
    rw [hcmd] at h ⊢
    cases cmd with
    | genConfig file force =>
      dsimp only at h ⊢
      have he := ofEnd_zero h
      show ∃ f, (KeyGen.genConfig fs w.umask force file w.example_ w.w1).2 file = some f ∧ f.content = w.example_
      unfold KeyGen.genConfig at he ⊢
      split at he
      · rename_i hc
        rw [if_pos hc]
        cases hw1 : w.w1 with
        | killed => rw [hw1] at he; cases he
        | openErr k => rw [hw1] at he; cases he
        | opened os =>
          rw [hw1] at he
          obtain ⟨u, hu⟩ := ended_ok he
          exact ⟨_, if_pos rfl, (writeAll_spec os _).2.1 hu⟩
      · cases he
    | keygen args =>
      dsimp only at h ⊢
      have he := ofEnd_zero h
      show ∃ pkf skf, Named args skf pkf ∧ (skf ≠ pkf → Pair (KeyGen.keygen fs w.umask args w.keys.1 w.keys.2 w.w1 w.w2).2 skf pkf w.keys.1 w.keys.2)
      unfold KeyGen.keygen at he ⊢
      split at he
      · rename_i skf pkf hk
        refine ⟨pkf, skf, (keygenArgs_named ..).mp hk, fun hne => ?_⟩
        have e : saveKeypair fs w.umask skf pkf w.keys.1 w.keys.2 w.w1 w.w2 = genKeys fs w.umask true pkf skf w.keys.1 w.keys.2 w.w1 w.w2 := by
          unfold genKeys; rw [if_neg (by simp)]
        rw [e] at he ⊢
        exact gen_keys_success_partial _ _ _ _ _ _ _ _ _ hne he
      · cases he
    | genKeys file pk sk force =>
      dsimp only at h ⊢
      split at h
      · cases h
      · rename_i pkf skf hk
        have hkf : KeyFiles w fs file pk sk pkf skf := by
          split at hk
          · split at hk
            · rename_i c hl; exact .file _ _ _ c _ _ hl hk
            · cases hk
            · cases hk
          · cases hk; exact .flags _ _
          · cases hk
        exact ⟨pkf, skf, hkf, fun hne => gen_keys_success_partial _ _ _ _ _ _ _ _ _ hne (ofEnd_zero h)⟩
    | exchangeConfig file =>
      dsimp only at h
      split at h
      · have := exchange_status w a fs _ 0 h; omega
      · cases h
      · cases h
    | exchange first rest save =>
      dsimp only at h
      split at h
      · cases h
      · cases h
      · split at h
        · have := exchange_status w a fs _ 0 h; omega
        · have := hstore _ _ _ rfl 0 h; omega
    | validate files => exact absurd rfl (hnv files)
  · unfold run
    rw [hcmd]
    obtain ⟨-, vs, h1, h2, h3⟩ := validateAll_said w fs home hh files []
    exact ⟨vs, h1, h2, h3⟩

/-- **C113, false of the code.** `validate` exits with status 0 whatever it found: also for files that are missing, unreadable, not configurations, or contain errors. -/
theorem validate_exits_zero (w : World) (a : Args) (fs : Fs) (files : List String) (ha : a.command = some (.validate files)) (home : String) (hh : w.home = some home) :
    (run C w a fs).done = .exit 0 ∧ ∀ f ∈ files, Unloadable w fs f → ¬ Achieved w fs (run C w a fs).fs (.validate files) := by
  refine ⟨?_, fun f hf hu hach => ?_⟩
  · unfold run
    rw [ha]
    exact (validateAll_said w fs home hh files []).1
  · obtain ⟨c, hc, -⟩ := hach f hf
    rcases load_means_partial w home hh fs f with ⟨-, hl⟩ | ⟨x, c0, c', h1, h2, h3, -⟩
    · rw [hl] at hc; cases hc
    · rw [hu x h1 h2] at h3; cases h3

/-- only the arguments of `exchange` can make the process panic (C54) -/
theorem panics_only_on_arguments (L : C.Lawful) {w : World} (hw : SizesOk w) (a : Args) (fs : Fs) (h : (run C w a fs).done = .panic) :
    ∃ first rest save, a.command = some (.exchange first rest save) ∧ Config.parseArgs (w.disk fs).resolve (first :: rest) = .error .panic := by
  have hend : ∀ e : End, ofEnd e ≠ .panic := by intro e h; cases e <;> cases h
  have hex : ∀ fs c, (exchange C w a fs c).done ≠ .panic := by
    intro fs c he
    obtain ⟨-, -, ⟨_, _, _, _, d1, -⟩ | ⟨d1, -⟩⟩ := exchange_exact (C := C) L a fs (hw fs) c <;> (rw [d1] at he; cases he)
  have hval : ∀ files said, (validateAll w fs said files).done ≠ .panic := by
    intro files
    induction files with
    | nil => intro said h; cases h
    | cons f files ih =>
      intro said
      unfold validateAll
      split
      · exact ih _
      · exact ih _
      · intro h; cases h
  unfold run at h
  split at h
  · exact absurd h (hend _)
  · exact absurd h (hend _)
  · split at h
    · cases h
    · exact absurd h (hend _)
  · split at h
    · exact absurd h (hex _ _)
    · cases h
    · cases h
  · rename_i first rest save hc
    split at h
    · rename_i hp; exact ⟨first, rest, save, hc, hp⟩
    · cases h
    · rename_i c hp
      split at h
      · exact absurd h (hex _ _)
      · rename_i p
        generalize store w fs p c = st at h
        obtain ⟨e, fs'⟩ := st
        cases e with
        | ok => exact absurd h (hex _ _)
        | killed => cases h
        | refused => cases h
        | failed => cases h
  · exact absurd h (hval _ _)
  · cases h

/-! ### Log level -/

/-- what the help text says: `--log-level` sets the lowest level to show, `--verbose` sets "debug", `--quiet` sets "error" -/
structure LevelAsked (a : Args) (l : Option Level) : Prop where
  verbose : a.verbose = true → l = some .debug
  quiet : a.quiet = true → l = some .error
  given : ∀ x, a.logLevel = some x → l = some x
  default : a.verbose = false → a.quiet = false → a.logLevel = none → l = none

/-- **C118, in part.** At most one of the three options is given (clap refuses more): without `--verbose` and `--quiet` the level is what was asked for. -/
theorem log_level_partial (a : Args) (h1 : a.verbose = false) (h2 : a.quiet = false) : LevelAsked a a.level := by
  unfold Args.level
  rw [h1, h2, if_neg Bool.false_ne_true, if_neg Bool.false_ne_true]
  refine ⟨fun h => (by rw [h1] at h; cases h), fun h => (by rw [h2] at h; cases h), fun x h => by rw [h], fun _ _ h => by rw [h]⟩

/-- **C118, false of the code.** `--verbose` sets "info" and `--quiet` sets "warn", neither of which is what the help text says. -/
theorem log_level_flags (a : Args) : (a.verbose = true → a.level = some .info ∧ ¬ LevelAsked a a.level) ∧
    (a.verbose = false → a.quiet = true → a.level = some .warn ∧ ¬ LevelAsked a a.level) := by
  refine ⟨fun h => ?_, fun h1 h2 => ?_⟩
  · have e : a.level = some .info := by unfold Args.level; rw [if_pos h]
    exact ⟨e, fun x => by have := x.verbose h; rw [e] at this; cases this⟩
  · have e : a.level = some .warn := by unfold Args.level; rw [if_neg (by rw [h1]; exact Bool.false_ne_true), if_pos h2]
    exact ⟨e, fun x => by have := x.quiet h2; rw [e] at this; cases this⟩

end Verif.Cli
