import Verif.Model.Base
/-
Model of rp/src/cli.rs: `Cli::parse`, `ExchangeOptions::parse`, `ExchangePeer::parse`, and of the use of the
result in rp/src/main_supported_platforms.rs.

The argument iterator is the list of the arguments that are left. Parsing of socket addresses and of `u32` numbers is a
parameter (Rust's standard library). Error texts and warnings are left out.
-/
namespace Verif.Rp

/-- rp/src/exchange.rs:62-79 `ExchangePeer`; the protocol version is left out (the command line never sets it). -/
structure Peer (Addr : Type) where
  dir : String
  endpoint : Option Addr
  keepalive : Option Nat
  allowedIps : Option String
  deriving DecidableEq, Repr

/-- rp/src/exchange.rs:82-100 `ExchangeOptions`; `verbose` stays `false` while parsing. -/
structure Options (Addr : Type) where
  dir : String
  dev : Option String
  ip : Option String
  listen : Option Addr
  peers : List (Peer Addr)
  deriving DecidableEq, Repr

/-- rp/src/cli.rs:11-24 `Command` -/
inductive Command (Addr : Type) where
  | genKey (dir : String)
  | pubKey (priv pub : String)
  | exchange (o : Options Addr)
  | exchangeConfig (file : String)
  | help
  deriving DecidableEq, Repr

/-- rp/src/cli.rs:37-45 `Cli` -/
structure Cli (Addr : Type) where
  verbose : Bool
  command : Option (Command Addr)
  deriving DecidableEq, Repr

/-- what Rust's `str::parse` accepts for socket addresses and for `u32` -/
structure Lib (Addr : Type) where
  addr : String → Option Addr
  u32 : String → Option Nat

/-- rp/src/cli.rs:94-154: the loop of `ExchangePeer::parse`; `none`: an error. It stops before the word `peer`. -/
def peerLoop {Addr : Type} (L : Lib Addr) (p : Peer Addr) : List String → Option (Peer Addr × List String)
  | [] => some (p, [])
  | [x] => if x = "peer" then some (p, [x]) else none
  | x :: v :: rest =>
    if x = "peer" then some (p, x :: v :: rest)
    else if x = "endpoint" then
      match L.addr v with
      | some a => peerLoop L { p with endpoint := some a } rest
      | none => none
    else if x = "persistent-keepalive" then
      match L.u32 v with
      | some n => peerLoop L { p with keepalive := some n } rest
      | none => none
    else if x = "allowed-ips" then peerLoop L { p with allowedIps := some v } rest
    else none

/-- rp/src/cli.rs:82-157 `ExchangePeer::parse` -/
def peerParse {Addr : Type} (L : Lib Addr) : List String → Option (Peer Addr × List String)
  | [] => none
  | d :: rest => peerLoop L ⟨d, none, none, none⟩ rest

theorem peerLoop_len {Addr : Type} (L : Lib Addr) (p : Peer Addr) (args : List String) :
    ∀ q r, peerLoop L p args = some (q, r) → r.length ≤ args.length := by
  fun_induction peerLoop L p args <;> intro q r h <;> simp_all <;> first | omega | (rename_i ih; have := ih q r h; omega) | skip

theorem peerParse_len {Addr : Type} (L : Lib Addr) (args : List String) (q : Peer Addr) (r : List String) (h : peerParse L args = some (q, r)) : r.length ≤ args.length := by
  cases args with
  | nil => cases h
  | cons d rest => have := peerLoop_len L _ rest q r h; simp only [List.length_cons]; omega

/-- rp/src/cli.rs:175-222: the loop of `ExchangeOptions::parse` -/
def optLoop {Addr : Type} (L : Lib Addr) (o : Options Addr) : List String → Option (Options Addr)
  | [] => some o
  | x :: rest =>
    if x = "dev" then
      match rest with
      | [] => none
      | v :: rest' => optLoop L { o with dev := some v } rest'
    else if x = "ip" then
      match rest with
      | [] => none
      | v :: rest' => optLoop L { o with ip := some v } rest'
    else if x = "listen" then
      match rest with
      | [] => none
      | v :: rest' =>
        match L.addr v with
        | none => none
        | some a => optLoop L { o with listen := some a } rest'
    else if x = "peer" then
      match _h : peerParse L rest with
      | none => none
      | some (p, rest') => optLoop L { o with peers := o.peers ++ [p] } rest'
    else none
termination_by args => args.length
decreasing_by
  all_goals simp_wf
  all_goals first | omega | (have := peerParse_len L _ _ _ _h; omega)

/-- rp/src/cli.rs:163-225 `ExchangeOptions::parse`: all the arguments that are left are consumed -/
def optParse {Addr : Type} (L : Lib Addr) : List String → Option (Options Addr)
  | [] => none
  | d :: rest => optLoop L ⟨d, none, none, none, []⟩ rest

/-- rp/src/cli.rs:237-320: the loop of `Cli::parse` -/
def cliLoop {Addr : Type} (L : Lib Addr) (c : Cli Addr) : List String → Option (Cli Addr)
  | [] => some c
  | x :: rest =>
    if x = "verbose" then cliLoop L { c with verbose := true } rest
    else if x = "explain" then cliLoop L c rest
    else if x = "genkey" then
      if c.command.isSome then none
      else match rest with
        | [] => none
        | d :: rest' => cliLoop L { c with command := some (.genKey d) } rest'
    else if x = "pubkey" then
      if c.command.isSome then none
      else match rest with
        | d :: e :: rest' => cliLoop L { c with command := some (.pubKey d e) } rest'
        | _ => none
    else if x = "exchange" then
      if c.command.isSome then none
      else match optParse L rest with
        | none => none
        | some o => some { c with command := some (.exchange o) }
    else if x = "exchange-config" then
      if c.command.isSome then none
      else match rest with
        | [] => none
        | f :: rest' => cliLoop L { c with command := some (.exchangeConfig f) } rest'
    else if x = "help" then cliLoop L { c with command := some .help } rest
    else none

/-- rp/src/cli.rs:232-327 `Cli::parse`; the first argument is the name of the program -/
def parse {Addr : Type} (L : Lib Addr) (args : List String) : Option (Cli Addr) :=
  match cliLoop L ⟨false, none⟩ (args.drop 1) with
  | none => none
  | some c => if c.command.isNone then none else some c

end Verif.Rp
