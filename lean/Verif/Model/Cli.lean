import Verif.Model.Startup
import Verif.Model.KeyGen
/-
Model of the command `rosenpass`: rosenpass/src/main.rs, rosenpass/src/cli.rs (`CliArgs::run` and what it uses),
rosenpass/src/api/cli.rs, and loading and storing of configurations in rosenpass/src/config.rs.

The parsing of flags (clap) is not modelled: a run is given the parsed arguments. The options `--generate-manpage` and
`--print-completions` (main.rs:25-52), which print and return before anything else happens, are left out. TOML is a parameter.
-/
namespace Verif.Cli
open FileIO KeyGen
open Config (Config Api)

/-! ### Paths -/

/-- the pieces between the slashes -/
def split : List Char → List (List Char)
  | [] => [[]]
  | c :: cs =>
    if c = '/' then [] :: split cs
    else match split cs with
      | [] => [[c]]
      | s :: ss => (c :: s) :: ss

/-- `Path::has_root` -/
def hasRoot (p : List Char) : Bool := p.head? == some '/'

/-- `Path::iter` (std): the root, if there is one; then the pieces, without empty ones and without `.` (except for one at
the beginning of a path without root). -/
def iter (p : List Char) : List (List Char) :=
  let keep := fun s : List Char => decide (s ≠ [] ∧ s ≠ ['.'])
  if hasRoot p then ['/'] :: (split p).filter keep
  else match split p with
    | [] => []
    | s :: ss => (if s = [] then [] else [s]) ++ ss.filter keep

/-- `PathBuf::push` (std): an absolute path replaces; otherwise a separator is added if needed. -/
def push (buf seg : List Char) : List Char :=
  if hasRoot seg then seg
  else if buf = [] ∨ buf.getLast? = some '/' then buf ++ seg
  else buf ++ '/' :: seg

/-- config.rs:963-978 `resolve_path_with_tilde`; `none`: the home directory is needed and cannot be determined, the process
exits with status 1 -/
def resolveTilde (home : Option String) (p : String) : Option String :=
  match iter p.toList with
  | [] => some p
  | s :: segs =>
    if !hasRoot p.toList && s == ['~'] then
      match home with
      | none => none
      | some h => some (String.ofList (segs.foldl push (push [] h.toList)))
    else some p

/-! ### Configurations and files -/

/-- What the process meets: the home directory; whether a file can be read; TOML reading (including UTF-8) and writing
(config.rs:277, 310-311); what is found in the file system apart from configurations (this may depend on what the command
itself has written); what else the operating system decides at the start of the daemon; the fresh keys (secret, public); and
what happens to the writes. -/
structure World where
  umask : Nat
  home : Option String
  readable : String → Bool
  toml : Bytes → Option (Config Addr)
  ser : Config Addr → Bytes
  example_ : Bytes
  disk : Fs → Startup.Disk
  env : Startup.Env
  keys : Bytes × Bytes
  w1 : Wr
  w2 : Wr

/-- how loading a configuration ends -/
inductive Loaded where
  | ok (c : Config Addr)
  | bad
  | exit1

/-- apply `f` to an optional path; the outer `none` is the exit -/
def onOpt (f : String → Option String) : Option String → Option (Option String)
  | none => some none
  | some p => match f p with | none => none | some q => some (some q)

/-- config.rs:285-293: the paths of a peer -/
def tildePeer (f : String → Option String) (p : Config.Peer) : Option Config.Peer :=
  match f p.publicKey with
  | none => none
  | some pk =>
    match onOpt f p.psk with
    | none => none
    | some psk =>
      match onOpt f p.keyOut with
      | none => none
      | some ko => some { p with publicKey := pk, psk := psk, keyOut := ko }

/-- config.rs:285-293: the loop over the peers -/
def tildePeers (f : String → Option String) : List Config.Peer → Option (List Config.Peer)
  | [] => some []
  | p :: ps =>
    match tildePeer f p with
    | none => none
    | some q =>
      match tildePeers f ps with
      | none => none
      | some qs => some (q :: qs)

/-- config.rs:279-293: the paths of key pair and peers -/
def tildeConfig (f : String → Option String) (c : Config Addr) : Option (Config Addr) :=
  match (match c.keypair with
    | none => some none
    | some (pk, sk) =>
      match f pk with
      | none => none
      | some pk => match f sk with | none => none | some sk => some (some (pk, sk))) with
  | none => none
  | some kp =>
    match tildePeers f c.peers with
    | none => none
    | some ps => some { c with keypair := kp, peers := ps }

/-- config.rs:275-300 `Rosenpass::load` (`config_file_path`, which is not used by `run`, is left out) -/
def load (w : World) (fs : Fs) (path : String) : Loaded :=
  match fs path with
  | none => .bad
  | some f =>
    if !w.readable path then .bad
    else match w.toml f.content with
      | none => .bad
      | some c => match tildeConfig (resolveTilde w.home) c with | none => .exit1 | some c => .ok c

/-- config.rs:309-314 `Rosenpass::store`: `fs::write`, as in `gen-config` -/
def store (w : World) (fs : Fs) (path : String) (c : Config Addr) : End × Fs :=
  genConfig fs w.umask true path (w.ser c) w.w1

/-! ### Arguments -/

/-- log::LevelFilter -/
inductive Level where
  | off | error | warn | info | debug | trace
  deriving DecidableEq, Repr

/-- cli.rs:39-52 `BrokerInterface` -/
inductive BrokerInterface where
  | socket (path : String)
  | fd (n : Int)
  | socketPair
  deriving DecidableEq, Repr

/-- cli.rs:171-261 `CliCommand` -/
inductive Cmd where
  | exchangeConfig (file : String)
  | exchange (first : String) (rest : List String) (save : Option String)
  | genConfig (file : String) (force : Bool)
  | genKeys (file pk sk : Option String) (force : Bool)
  | validate (files : List String)
  | keygen (args : List String)
  deriving DecidableEq, Repr

/-- cli.rs:57-112 `CliArgs`, api/cli.rs:12-29 `ApiCli` -/
structure Args where
  logLevel : Option Level
  verbose : Bool
  quiet : Bool
  api : Api
  brokerPath : Option String
  brokerFd : Option Int
  brokerSpawn : Bool
  command : Option Cmd

/-- cli.rs:132-143 `get_log_level` -/
def Args.level (a : Args) : Option Level :=
  if a.verbose then some .info
  else if a.quiet then some .warn
  else match a.logLevel with
    | some l => some l
    | none => none

/-- cli.rs:150-160 `get_broker_interface` -/
def Args.broker (a : Args) : Option BrokerInterface :=
  match a.brokerPath with
  | some p => some (.socket p)
  | none =>
    match a.brokerFd with
    | some fd => some (.fd fd)
    | none => if a.brokerSpawn then some .socketPair else none

/-- cli.rs:120-124, api/cli.rs:34-46 `apply_to_config` -/
def Args.apply (a : Args) (c : Config Addr) : Config Addr :=
  { c with api := ⟨c.api.listenPath ++ a.api.listenPath, c.api.listenFd ++ a.api.listenFd, c.api.streamFd ++ a.api.streamFd⟩ }

/-! ### The command -/

/-- How the process ends, or that it serves: with the application, its sockets, the configured API and the broker. -/
inductive Done where
  | exit (status : Nat)
  | killed
  | panic
  | serving (a : App) (socks : List Startup.Sock) (api : Api) (broker : Option BrokerInterface)

/-- what `validate` prints about a file: it is not valid TOML of the right form; it contains logical errors; it passed all checks -/
inductive Verdict where
  | notValid
  | logicalErrors
  | passed
  deriving DecidableEq, Repr

/-- the effect of a run: how it ends, the files, and what `validate` printed -/
structure Res where
  done : Done
  fs : Fs
  said : List (String × Verdict)

/-- main.rs:80-87: an error is logged, and the exit status is 1 -/
def ofEnd : End → Done
  | .killed => .killed
  | .refused => .exit 1
  | .failed => .exit 1
  | .ok => .exit 0

/-- cli.rs:382-389 and 404-410: check, merge the flags, check, start (`event_loop`: Startup.lean, App.lean) -/
def exchange (C : Crypto) (w : World) (a : Args) (fs : Fs) (c : Config Addr) : Res :=
  if !Config.validate (w.disk fs).probe c then ⟨.exit 1, fs, []⟩
  else
    let c := a.apply c
    if !Config.checkUsefullness c then ⟨.exit 1, fs, []⟩
    else match Startup.startup C (w.disk fs) { w.env with fs := fs } c with
      | .ok (app, socks) => ⟨.serving app socks c.api a.broker, fs, []⟩
      | .error .panic => ⟨.panic, fs, []⟩
      | .error _ => ⟨.exit 1, fs, []⟩

/-- cli.rs:413-426: the loop of `validate` -/
def validateAll (w : World) (fs : Fs) (said : List (String × Verdict)) : List String → Res
  | [] => ⟨.exit 0, fs, said⟩
  | f :: files =>
    match load w fs f with
    | .ok c => validateAll w fs (said ++ [(f, if Config.validate (w.disk fs).probe c then .passed else .logicalErrors)]) files
    | .bad => validateAll w fs (said ++ [(f, .notValid)]) files
    | .exit1 => ⟨.exit 1, fs, said⟩

/-- cli.rs:274-431 `CliArgs::run`, with main.rs:80-87 -/
def run (C : Crypto) (w : World) (a : Args) (fs : Fs) : Res :=
  match a.command with
  | some (.genConfig file force) =>
    let (e, fs') := KeyGen.genConfig fs w.umask force file w.example_ w.w1
    ⟨ofEnd e, fs', []⟩
  | some (.keygen args) =>
    let (e, fs') := KeyGen.keygen fs w.umask args w.keys.1 w.keys.2 w.w1 w.w2
    ⟨ofEnd e, fs', []⟩
  | some (.genKeys file pk sk force) =>
    match (match file, pk, sk with
      | some file, _, _ =>
        match load w fs file with
        | .ok c => c.keypair
        | .bad => none
        | .exit1 => none
      | none, some pk, some sk => some (pk, sk)
      | none, _, _ => none) with
    | none => ⟨.exit 1, fs, []⟩
    | some (pkf, skf) =>
      let (e, fs') := KeyGen.genKeys fs w.umask force pkf skf w.keys.1 w.keys.2 w.w1 w.w2
      ⟨ofEnd e, fs', []⟩
  | some (.exchangeConfig file) =>
    match load w fs file with
    | .ok c => exchange C w a fs c
    | .bad => ⟨.exit 1, fs, []⟩
    | .exit1 => ⟨.exit 1, fs, []⟩
  | some (.exchange first rest save) =>
    match Config.parseArgs (w.disk fs).resolve (first :: rest) with
    | .error .panic => ⟨.panic, fs, []⟩
    | .error _ => ⟨.exit 1, fs, []⟩
    | .ok c =>
      match save with
      | none => exchange C w a fs c
      | some p =>
        match store w fs p c with
        | (.ok, fs') => exchange C w a fs' c
        | (e, fs') => ⟨ofEnd e, fs', []⟩
  | some (.validate files) => validateAll w fs [] files
  | none => ⟨.exit 0, fs, []⟩

end Verif.Cli
