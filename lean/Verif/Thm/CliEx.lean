import Verif.Thm.CliRun
import Verif.Thm.Startup
import Verif.Thm.ExRun
/-
Concrete runs of the command: the hypotheses of the theorems of Cli.lean and CliRun.lean are met.
-/
namespace Verif.Cli.Demo
open FileIO KeyGen
open Config (Config Api)
open Startup.Demo (alice bob conf)

/-- "cfg" holds a configuration with keys, "nokeys" one with neither keys nor API, "junk" no configuration; what is saved is told apart by its first byte -/
def fs : Fs := fun p =>
  if p = "cfg" then some ⟨[1], 0o644⟩ else if p = "nokeys" then some ⟨[2], 0o644⟩ else if p = "junk" then some ⟨[3], 0o644⟩ else none
def noApi : Config Addr := ⟨none, [], false, [alice], ⟨[], [], []⟩⟩
def saved : Config Addr := ⟨some ("my.pk", "my.sk"), [], false, [⟨"a.pk", none, none, some "out", none, .v02, none, none⟩], ⟨[], [], []⟩⟩
def w : World := {
  umask := 0o022, home := some "/home/u", readable := fun _ => true
  toml := fun b => match b with | [1] => some (conf true [alice, bob]) | [2] => some noApi | [7] => some saved | _ => none
  ser := fun _ => [7], example_ := [5], disk := fun _ => Startup.Demo.disk, env := Startup.Demo.env, keys := ([8], [9])
  w1 := .opened [.ok 1], w2 := .opened [.ok 1] }
def args (cmd : Cmd) : Args := ⟨none, false, false, ⟨["/run/flag.sock"], [], []⟩, none, none, false, some cmd⟩
def cmdline : List String := ["public-key", "my.pk", "secret-key", "my.sk", "peer", "public-key", "a.pk", "outfile", "out"]

theorem sizes : SizesOk w := fun _ => ⟨Startup.Demo.wf.psk, Startup.Demo.wf.rnd⟩

/-- what is seen of a run: the status, or how many peers are served, the output files, the API paths and the broker; what "cfg" and "new" hold; what was printed -/
inductive Seen where
  | exit (n : Nat) | killed | panic | serving (peers : Nat) (outs : List (Option String)) (api : List String) (broker : Option BrokerInterface)
  deriving DecidableEq
def Seen.of : Done → Seen
  | .exit n => .exit n
  | .killed => .killed
  | .panic => .panic
  | .serving a _ api b => .serving a.peers.length (a.peers.map (·.outfile)) api.listenPath b
def see (r : Res) : Seen × Option Bytes × Option Bytes × List (String × Verdict) := (Seen.of r.done, (r.fs "cfg").map (·.content), (r.fs "new").map (·.content), r.said)

set_option maxRecDepth 20000 in
/-- C114: the file, with the flags added to its API; the arguments, saved; broker flags -/
example : see (run Toy.crypto w (args (.exchangeConfig "cfg")) fs) = (.serving 2 [some "out", none] ["/run/rp.sock", "/run/flag.sock"] none, some [1], none, []) ∧
    see (run Toy.crypto w { args (.exchangeConfig "cfg") with brokerFd := some 5 } fs) = (.serving 2 [some "out", none] ["/run/rp.sock", "/run/flag.sock"] (some (.fd 5)), some [1], none, []) ∧
    see (run Toy.crypto w (args (.exchange "public-key" cmdline.tail (some "new"))) fs) = (.serving 1 [some "out"] ["/run/flag.sock"] none, some [1], some [7], []) := by
  refine ⟨?_, ?_, ?_⟩ <;> decide +kernel

set_option maxRecDepth 20000 in
/-- C114: neither keys nor API: refused without the flag, served with it; C117: `--config-file` replaces "cfg"; C116: the saved file starts the same -/
example : see (run Toy.crypto w { args (.exchangeConfig "nokeys") with api := ⟨[], [], []⟩ } fs) = (.exit 1, some [1], none, []) ∧
    see (run Toy.crypto w (args (.exchangeConfig "nokeys")) fs) = (.serving 1 [some "out"] ["/run/flag.sock"] none, some [1], none, []) ∧
    see (run Toy.crypto w (args (.exchange "public-key" cmdline.tail (some "cfg"))) fs) = (.serving 1 [some "out"] ["/run/flag.sock"] none, some [7], none, []) ∧
    see (run Toy.crypto w (args (.exchangeConfig "new")) (run Toy.crypto w (args (.exchange "public-key" cmdline.tail (some "new"))) fs).fs) =
      (.serving 1 [some "out"] ["/run/flag.sock"] none, some [1], some [7], []) := by
  refine ⟨?_, ?_, ?_, ?_⟩ <;> decide +kernel

set_option maxRecDepth 20000 in
/-- C113: `validate` of a good, a broken and a missing file: status 0; other commands fail with status 1 and succeed with status 0 -/
example : see (run Toy.crypto w (args (.validate ["cfg", "junk", "missing"])) fs) = (.exit 0, some [1], none, [("cfg", .passed), ("junk", .notValid), ("missing", .notValid)]) ∧
    see (run Toy.crypto w (args (.exchangeConfig "missing")) fs) = (.exit 1, some [1], none, []) ∧
    see (run Toy.crypto w (args (.genConfig "cfg" false)) fs) = (.exit 1, some [1], none, []) ∧
    see (run Toy.crypto w (args (.genConfig "new" false)) fs) = (.exit 0, some [1], some [5], []) ∧
    see (run Toy.crypto w (args (.genKeys none (some "new") (some "sk") false)) fs) = (.exit 0, some [1], some [9], []) ∧
    see (run Toy.crypto w (args (.genKeys none (some "new") none false)) fs) = (.exit 1, some [1], none, []) ∧
    Seen.of (run Toy.crypto w (args (.exchange "public-key" [] none)) fs).done = .exit 1 := by
  refine ⟨?_, ?_, ?_, ?_, ?_, ?_, ?_⟩ <;> decide +kernel

/-- the hypotheses of `validate_exits_zero` -/
example : Unloadable w fs "junk" ∧ Unloadable w fs "missing" ∧ w.home = some "/home/u" :=
  ⟨fun f h _ => (by cases h; rfl), fun f h _ => (by cases h), rfl⟩

set_option maxRecDepth 20000 in
/-- the hypotheses of `saved_restarts_partial`, `saved_tilde_differs` (up to the path) and `exchange_replaces` -/
example : Config.parseArgs (w.disk fs).resolve cmdline = .ok saved ∧ w.toml (w.ser saved) = some saved ∧ (store w fs "new" saved).1 = .ok ∧ hasRoot "/home/u".toList = true := by
  refine ⟨by rfl, rfl, by decide +kernel, by decide +kernel⟩
theorem saved_literal : AllLiteral saved := by
  have lit : ∀ p : String, p ≠ "~" → p.toList.head? ≠ some '~' → Literal p := fun p h g => ⟨h, fun rest e => g (by rw [e]; rfl)⟩
  refine ⟨fun pk sk h => ?_, fun p hp => ?_⟩
  · cases h; exact ⟨lit _ (by decide) (by decide), lit _ (by decide) (by decide)⟩
  · cases List.mem_singleton.mp hp
    refine ⟨lit _ (by decide) (by decide), fun f h => (by cases h), fun f h => ?_⟩
    cases h; exact lit _ (by decide) (by decide)

/-- C118 -/
example : ({ args (.validate []) with verbose := true } : Args).level = some .info ∧ ({ args (.validate []) with quiet := true } : Args).level = some .warn ∧
    ({ args (.validate []) with logLevel := some .trace } : Args).level = some .trace := ⟨rfl, rfl, rfl⟩

end Verif.Cli.Demo
