import Verif.Model.RpCli
import Verif.Model.RpExchange
/-
Model of the command `rp`: rp/src/main.rs and rp/src/main_supported_platforms.rs (`main_impl`), from the words of the command line and
the files of the host to what happens to them.

The janitor around it is Model/Janitor.lean and Model/RpDevice.lean (what becomes of the network device). Logging is left out. TOML is a parameter.
-/
namespace Verif.RpMain
open FileIO KeyGen

/-- The host: the regular files, and for a path that is a directory its `st_mode`. -/
structure Host where
  fs : Fs
  dirs : String → DirMode

/-- What a process meets: how the reads of a file go and whether it can be read as text; what fresh secret buffers contain (secret.rs:213-216, random);
the sizes of static keys; the curve; fresh keys; how creating a directory and the writes end; address and number parsing; TOML (exchange.rs:62-100);
name resolution; and what decides about `exchange`. -/
structure World where
  umask : Nat
  lib : Rp.Lib Addr
  readable : String → Bool
  reads : String → List Out
  init : String → Bytes
  skLen : Nat
  pkLen : Nat
  x25519 : Bytes → Bytes
  wgsk : Bytes
  pqsk : Bytes
  pqpk : Bytes
  mkdir : Mk
  w1 : Wr
  w2 : Wr
  w3 : Wr
  toml : String → Option RpExchange.Options
  resolve : String → Option (List Addr)
  env : RpExchange.Env

/-- a value that was read, or an error (a read that never ends is counted as an error) -/
def got {α : Type} : R α → Option α
  | some (.ok a) => some a
  | some (.error _) => none
  | none => none

/-- `fs::read_to_string` -/
def text (w : World) (fs : Fs) (p : String) : Option String :=
  match fs p with
  | none => none
  | some f => if w.readable p then String.fromUTF8? ⟨f.content.toArray⟩ else none

/-- what `exchange` finds in the files of the host (exchange.rs:436-443 and 473-489) -/
def disk (w : World) (fs : Fs) : RpExchange.Disk := {
  wgsk := fun p => got (loadB64 fs p WG_B64_LEN (w.init p) (w.reads p))
  ssk := fun p => got (FileIO.load fs p w.skLen (w.reads p))
  spk := fun p => got (FileIO.load fs p w.pkLen (w.reads p))
  text := fun p => text w fs p
  present := fun p => (fs p).isSome
  psk := fun p => got (loadB64 fs p WG_B64_LEN (w.init p) (w.reads p))
  resolve := w.resolve }

/-- cli.rs:83 and 168: what the command line leaves at its default (`ProtocolVersion::V02`) -/
def peerOf (p : Rp.Peer Addr) : RpExchange.Peer := ⟨p.dir, p.endpoint, p.keepalive, p.allowedIps, .v02⟩
def optionsOf (o : Rp.Options Addr) : RpExchange.Options := ⟨o.dir, o.dev, o.ip, o.listen, o.peers.map peerOf⟩

/-- How the process ends, or that it serves. -/
inductive Done where
  | exit (status : Nat)
  | killed
  | panic
  | serving (a : App) (socks : List Startup.Sock)

/-- `effs`: what was done to the network of the host -/
structure Res where
  done : Done
  host : Host
  effs : List RpExchange.Eff

/-- main.rs:12-14: an error returned from `main` is exit status 1 -/
def ofEnd : End → Done
  | .killed => .killed
  | .refused => .exit 1
  | .failed => .exit 1
  | .ok => .exit 0

/-- the host after a command that may have created the directory `d` (the empty path names no directory, and `create_dir_all` accepts it) -/
def setDir (h : Host) (d : String) (m : DirMode) (fs : Fs) : Host := ⟨fs, fun p => if p = d ∧ d ≠ "" then m else h.dirs p⟩

/-- `exchange(options)` -/
def start (C : Crypto) (w : World) (h : Host) (o : RpExchange.Options) : Res :=
  match RpExchange.exchange C (disk w h.fs) w.env o with
  | (.ok (a, socks), l) => ⟨.serving a socks, h, l⟩
  | (.error .panic, l) => ⟨.panic, h, l⟩
  | (.error _, l) => ⟨.exit 1, h, l⟩

/-- main_supported_platforms.rs:21-58 `main_impl`; a panic in it is a panic of the process -/
def run (C : Crypto) (w : World) (args : List String) (h : Host) : Res :=
  match Rp.parse w.lib args with
  | none => ⟨.exit 1, h, []⟩
  | some cli =>
    match cli.command with
    | none => ⟨.panic, h, []⟩
    | some (.genKey d) =>
      let (e, fs, m) := genkey h.fs w.umask (h.dirs d) d w.wgsk w.pqsk w.pqpk w.mkdir w.w1 w.w2 w.w3
      ⟨ofEnd e, setDir h d m fs, []⟩
    | some (.pubKey priv pub) =>
      let (e, fs, m) := pubkey h.fs w.umask w.x25519 (h.dirs pub) priv pub (w.init (join priv "wgsk")) w.mkdir (w.reads (join priv "wgsk")) w.w1 w.w2
      ⟨ofEnd e, setDir h pub m fs, []⟩
    | some (.exchange o) => start C w h (optionsOf o)
    | some (.exchangeConfig file) =>
      match text w h.fs file with
      | none => ⟨.panic, h, []⟩
      | some s =>
        match w.toml s with
        | none => ⟨.panic, h, []⟩
        | some o => start C w h o
    | some .help => ⟨.exit 0, h, []⟩

end Verif.RpMain
