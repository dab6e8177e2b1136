import Verif.Model.RpCli
/-
C55: the command line of `rp`.
-/
namespace Verif.Rp

/-! ### Specification: the grammar (usage texts, rp/src/cli.rs:55-76) -/

/-- `endpoint <ip>:<port>`, `persistent-keepalive <interval>`, `allowed-ips <ip/cidr>,…` -/
inductive PeerOpt where
  | endpoint (text : String)
  | keepalive (text : String)
  | allowedIps (text : String)
  deriving DecidableEq, Repr

def PeerOpt.render : PeerOpt → List String
  | .endpoint t => ["endpoint", t]
  | .keepalive t => ["persistent-keepalive", t]
  | .allowedIps t => ["allowed-ips", t]
/-- addresses and numbers must be such -/
def PeerOpt.Ok {Addr : Type} (L : Lib Addr) : PeerOpt → Prop
  | .endpoint t => (L.addr t).isSome
  | .keepalive t => (L.u32 t).isSome
  | .allowedIps _ => True
def PeerOpt.endpoint? {Addr : Type} (L : Lib Addr) : PeerOpt → Option Addr
  | .endpoint t => L.addr t
  | _ => none
def PeerOpt.keepalive? {Addr : Type} (L : Lib Addr) : PeerOpt → Option Nat
  | .keepalive t => L.u32 t
  | _ => none
def PeerOpt.allowedIps? : PeerOpt → Option String
  | .allowedIps t => some t
  | _ => none

/-- `peer PUBLIC_KEYS_DIR [options]` -/
structure PeerPart where
  dir : String
  opts : List PeerOpt
  deriving DecidableEq, Repr

def PeerPart.render (p : PeerPart) : List String := "peer" :: p.dir :: p.opts.flatMap PeerOpt.render
/-- of an option that is repeated the last value counts -/
def PeerPart.meaning {Addr : Type} (L : Lib Addr) (p : PeerPart) : Peer Addr :=
  ⟨p.dir, (p.opts.filterMap (PeerOpt.endpoint? L)).getLast?, (p.opts.filterMap (PeerOpt.keepalive? L)).getLast?, (p.opts.filterMap PeerOpt.allowedIps?).getLast?⟩

/-- `dev <device>`, `ip <ip/cidr>`, `listen <ip>:<port>` -/
inductive OwnOpt where
  | dev (text : String)
  | ip (text : String)
  | listen (text : String)
  deriving DecidableEq, Repr

def OwnOpt.render : OwnOpt → List String
  | .dev t => ["dev", t]
  | .ip t => ["ip", t]
  | .listen t => ["listen", t]
def OwnOpt.Ok {Addr : Type} (L : Lib Addr) : OwnOpt → Prop
  | .listen t => (L.addr t).isSome
  | _ => True
def OwnOpt.dev? : OwnOpt → Option String
  | .dev t => some t
  | _ => none
def OwnOpt.ip? : OwnOpt → Option String
  | .ip t => some t
  | _ => none
def OwnOpt.listen? {Addr : Type} (L : Lib Addr) : OwnOpt → Option Addr
  | .listen t => L.addr t
  | _ => none

/-- `exchange PRIVATE_KEYS_DIR [options] [peers]` -/
structure ExLine where
  dir : String
  own : List OwnOpt
  peers : List PeerPart
  deriving DecidableEq, Repr

def ExLine.render (e : ExLine) : List String := "exchange" :: e.dir :: (e.own.flatMap OwnOpt.render ++ e.peers.flatMap PeerPart.render)
def ExLine.meaning {Addr : Type} (L : Lib Addr) (e : ExLine) : Options Addr :=
  ⟨e.dir, (e.own.filterMap OwnOpt.dev?).getLast?, (e.own.filterMap OwnOpt.ip?).getLast?, (e.own.filterMap (OwnOpt.listen? L)).getLast?, e.peers.map (PeerPart.meaning L)⟩
structure ExLine.Ok {Addr : Type} (L : Lib Addr) (e : ExLine) : Prop where
  own : ∀ o ∈ e.own, o.Ok L
  peers : ∀ p ∈ e.peers, ∀ o ∈ p.opts, o.Ok L

/-- the words of a command line: flags and commands with their positional arguments -/
inductive Word where
  | verbose
  | explain
  | genkey (dir : String)
  | pubkey (priv pub : String)
  | config (file : String)
  | help
  deriving DecidableEq, Repr

def Word.render : Word → List String
  | .verbose => ["verbose"]
  | .explain => ["explain"]
  | .genkey d => ["genkey", d]
  | .pubkey d e => ["pubkey", d, e]
  | .config f => ["exchange-config", f]
  | .help => ["help"]
def Word.command? {Addr : Type} : Word → Option (Command Addr)
  | .genkey d => some (.genKey d)
  | .pubkey d e => some (.pubKey d e)
  | .config f => some (.exchangeConfig f)
  | .help => some .help
  | _ => none

/-- a command line; `exchange` takes everything that follows -/
structure Line where
  words : List Word
  ex : Option ExLine
  deriving DecidableEq, Repr

def Line.render (l : Line) : List String := l.words.flatMap Word.render ++ (match l.ex with | none => [] | some e => e.render)
/-- the commands, in order -/
def Line.commands {Addr : Type} (L : Lib Addr) (l : Line) : List (Command Addr) :=
  l.words.filterMap Word.command? ++ (match l.ex with | none => [] | some e => [.exchange (e.meaning L)])
/-- what the code makes of it: the last command counts -/
def Line.meaning {Addr : Type} (L : Lib Addr) (l : Line) : Cli Addr := ⟨decide (Word.verbose ∈ l.words), (l.commands L).getLast?⟩

/-- What the code requires: there is a command, and every command after the first is `help`. -/
structure Line.Ok {Addr : Type} (L : Lib Addr) (l : Line) : Prop where
  given : l.commands L ≠ []
  later : ∀ c ∈ (l.commands L).tail, c = .help
  ex : ∀ e, l.ex = some e → e.Ok L

/-! ### Peers -/

theorem last_cons {α β : Type} (f : α → Option β) (x : α) (l : List α) (d : Option β) :
    ((x :: l).filterMap f).getLast?.or d = (l.filterMap f).getLast?.or (([x].filterMap f).getLast?.or d) := by
  rw [show x :: l = [x] ++ l from rfl, List.filterMap_append, List.getLast?_append, Option.or_assoc]

/-- a peer whose options are the given ones added to those already seen -/
def addOpts {Addr : Type} (L : Lib Addr) (p : Peer Addr) (os : List PeerOpt) : Peer Addr :=
  ⟨p.dir, (os.filterMap (PeerOpt.endpoint? L)).getLast?.or p.endpoint, (os.filterMap (PeerOpt.keepalive? L)).getLast?.or p.keepalive,
    (os.filterMap PeerOpt.allowedIps?).getLast?.or p.allowedIps⟩

theorem addOpts_cons {Addr : Type} (L : Lib Addr) (p : Peer Addr) (o : PeerOpt) (os : List PeerOpt) : addOpts L p (o :: os) = addOpts L (addOpts L p [o]) os := by
  unfold addOpts
  rw [last_cons (PeerOpt.endpoint? L) o os, last_cons (PeerOpt.keepalive? L) o os, last_cons PeerOpt.allowedIps? o os]

/-- what `ExchangePeer::parse` leaves: nothing, or the next `peer` -/
def AtPeer (r : List String) : Prop := r = [] ∨ ∃ t, r = "peer" :: t

theorem peerLoop_fwd {Addr : Type} (L : Lib Addr) (p : Peer Addr) (args : List String) : ∀ q r, peerLoop L p args = some (q, r) →
    AtPeer r ∧ ∃ os : List PeerOpt, (∀ o ∈ os, o.Ok L) ∧ args = os.flatMap PeerOpt.render ++ r ∧ q = addOpts L p os := by
  fun_induction peerLoop L p args with
  | case1 p => intro q r h; cases h; exact ⟨.inl rfl, [], (by intro o ho; cases ho), rfl, rfl⟩
  | case2 p => intro q r h; cases h; exact ⟨.inr ⟨_, rfl⟩, [], (by intro o ho; cases ho), rfl, rfl⟩
  | case3 => intro q r h; cases h
  | case4 p v rest => intro q r h; cases h; exact ⟨.inr ⟨_, rfl⟩, [], (by intro o ho; cases ho), rfl, rfl⟩
  | case5 p v rest a ha hne ih =>
    intro q r h
    obtain ⟨hp, os, ho, he, hq⟩ := ih q r h
    refine ⟨hp, .endpoint v :: os, ?_, ?_, ?_⟩
    · intro o ho'; rcases List.mem_cons.1 ho' with rfl | ho'
      · show (L.addr v).isSome; rw [ha]; rfl
      · exact ho o ho'
    · rw [he]; rfl
    · rw [hq, addOpts_cons]; congr 1; simp [addOpts, PeerOpt.endpoint?, PeerOpt.keepalive?, PeerOpt.allowedIps?, ha, List.filterMap_cons]
  | case6 => intro q r h; cases h
  | case7 p v rest n hn h1 h2 ih =>
    intro q r h
    obtain ⟨hp, os, ho, he, hq⟩ := ih q r h
    refine ⟨hp, .keepalive v :: os, ?_, ?_, ?_⟩
    · intro o ho'; rcases List.mem_cons.1 ho' with rfl | ho'
      · show (L.u32 v).isSome; rw [hn]; rfl
      · exact ho o ho'
    · rw [he]; rfl
    · rw [hq, addOpts_cons]; congr 1; simp [addOpts, PeerOpt.endpoint?, PeerOpt.keepalive?, PeerOpt.allowedIps?, hn, List.filterMap_cons]
  | case8 => intro q r h; cases h
  | case9 p v rest h1 h2 h3 ih =>
    intro q r h
    obtain ⟨hp, os, ho, he, hq⟩ := ih q r h
    refine ⟨hp, .allowedIps v :: os, ?_, ?_, ?_⟩
    · intro o ho'; rcases List.mem_cons.1 ho' with rfl | ho'
      · trivial
      · exact ho o ho'
    · rw [he]; rfl
    · rw [hq, addOpts_cons]; congr 1
  | case10 => intro q r h; cases h

theorem peerLoop_bwd {Addr : Type} (L : Lib Addr) (os : List PeerOpt) : ∀ (p : Peer Addr) (r : List String), AtPeer r → (∀ o ∈ os, o.Ok L) →
    peerLoop L p (os.flatMap PeerOpt.render ++ r) = some (addOpts L p os, r) := by
  induction os with
  | nil =>
    intro p r hr _
    rcases hr with rfl | ⟨t, rfl⟩
    · rfl
    · cases t <;> rfl
  | cons o os ih =>
    intro p r hr ho
    rw [addOpts_cons]
    have ho1 := ho o List.mem_cons_self
    have ho2 : ∀ o ∈ os, o.Ok L := fun x hx => ho x (List.mem_cons_of_mem _ hx)
    cases o with
    | endpoint t =>
      obtain ⟨a, ha⟩ := Option.isSome_iff_exists.1 (show (L.addr t).isSome from ho1)
      have := ih { p with endpoint := some a } r hr ho2
      have e : addOpts L p [.endpoint t] = { p with endpoint := some a } := by
        simp [addOpts, PeerOpt.endpoint?, PeerOpt.keepalive?, PeerOpt.allowedIps?, ha, List.filterMap_cons]
      rw [e, ← this]
      show peerLoop L p ("endpoint" :: t :: (os.flatMap PeerOpt.render ++ r)) = _
      rw [peerLoop, if_neg (by decide), if_pos rfl, ha]
    | keepalive t =>
      obtain ⟨a, ha⟩ := Option.isSome_iff_exists.1 (show (L.u32 t).isSome from ho1)
      have := ih { p with keepalive := some a } r hr ho2
      have e : addOpts L p [.keepalive t] = { p with keepalive := some a } := by
        simp [addOpts, PeerOpt.endpoint?, PeerOpt.keepalive?, PeerOpt.allowedIps?, ha, List.filterMap_cons]
      rw [e, ← this]
      show peerLoop L p ("persistent-keepalive" :: t :: (os.flatMap PeerOpt.render ++ r)) = _
      rw [peerLoop, if_neg (by decide), if_neg (by decide), if_pos rfl, ha]
    | allowedIps t =>
      have := ih { p with allowedIps := some t } r hr ho2
      have e : addOpts L p [.allowedIps t] = { p with allowedIps := some t } := rfl
      rw [e, ← this]
      show peerLoop L p ("allowed-ips" :: t :: (os.flatMap PeerOpt.render ++ r)) = _
      rw [peerLoop, if_neg (by decide), if_neg (by decide), if_neg (by decide), if_pos rfl]

theorem addOpts_empty {Addr : Type} (L : Lib Addr) (d : String) (os : List PeerOpt) : addOpts L ⟨d, none, none, none⟩ os = (PeerPart.mk d os).meaning L := by
  unfold addOpts PeerPart.meaning; simp only [Option.or_none]

/-! ### `exchange` -/

/-- options whose part before the peers is the given one added to what was already seen -/
def addOwn {Addr : Type} (L : Lib Addr) (o : Options Addr) (xs : List OwnOpt) : Options Addr :=
  ⟨o.dir, (xs.filterMap OwnOpt.dev?).getLast?.or o.dev, (xs.filterMap OwnOpt.ip?).getLast?.or o.ip, (xs.filterMap (OwnOpt.listen? L)).getLast?.or o.listen, o.peers⟩

theorem addOwn_cons {Addr : Type} (L : Lib Addr) (p : Options Addr) (o : OwnOpt) (os : List OwnOpt) : addOwn L p (o :: os) = addOwn L (addOwn L p [o]) os := by
  unfold addOwn
  rw [last_cons OwnOpt.dev? o os, last_cons OwnOpt.ip? o os, last_cons (OwnOpt.listen? L) o os]

/-- once at a `peer`, only peers follow -/
theorem peers_bwd {Addr : Type} (L : Lib Addr) (ps : List PeerPart) : ∀ (o : Options Addr), (∀ p ∈ ps, ∀ x ∈ p.opts, x.Ok L) →
    optLoop L o (ps.flatMap PeerPart.render) = some { o with peers := o.peers ++ ps.map (PeerPart.meaning L) } := by
  induction ps with
  | nil => intro o _; simp [optLoop]
  | cons p ps ih =>
    intro o h
    have hp : peerParse L (p.dir :: (p.opts.flatMap PeerOpt.render ++ ps.flatMap PeerPart.render)) = some (p.meaning L, ps.flatMap PeerPart.render) := by
      show peerLoop L _ _ = _
      rw [peerLoop_bwd L p.opts _ _ ?_ (h p List.mem_cons_self), addOpts_empty]
      cases ps with
      | nil => exact .inl rfl
      | cons q qs => exact .inr ⟨_, rfl⟩
    have e : (p :: ps).flatMap PeerPart.render = "peer" :: (p.dir :: (p.opts.flatMap PeerOpt.render ++ ps.flatMap PeerPart.render)) := by
      simp [PeerPart.render]
    rw [e, optLoop, if_neg (by decide), if_neg (by decide), if_neg (by decide), if_pos rfl]
    split
    · rename_i hn; rw [hp] at hn; cases hn
    · rename_i q r hq
      rw [hp] at hq; cases hq
      rw [ih _ (fun x hx => h x (List.mem_cons_of_mem _ hx))]
      simp

theorem own_bwd {Addr : Type} (L : Lib Addr) (xs : List OwnOpt) (r : List String) : ∀ (o : Options Addr), (∀ x ∈ xs, x.Ok L) →
    optLoop L o (xs.flatMap OwnOpt.render ++ r) = optLoop L (addOwn L o xs) r := by
  induction xs with
  | nil => intro o _; rfl
  | cons x xs ih =>
    intro o h
    have h1 := h x List.mem_cons_self
    have h2 : ∀ y ∈ xs, y.Ok L := fun y hy => h y (List.mem_cons_of_mem _ hy)
    rw [addOwn_cons, ← ih _ h2]
    cases x with
    | dev t =>
      show optLoop L o ("dev" :: t :: (xs.flatMap OwnOpt.render ++ r)) = _
      rw [optLoop, if_pos rfl]; rfl
    | ip t =>
      show optLoop L o ("ip" :: t :: (xs.flatMap OwnOpt.render ++ r)) = _
      rw [optLoop, if_neg (by decide), if_pos rfl]; rfl
    | listen t =>
      obtain ⟨a, ha⟩ := Option.isSome_iff_exists.1 (show (L.addr t).isSome from h1)
      have e : addOwn L o [.listen t] = { o with listen := some a } := by
        simp [addOwn, OwnOpt.dev?, OwnOpt.ip?, OwnOpt.listen?, ha, List.filterMap_cons]
      rw [e]
      show optLoop L o ("listen" :: t :: (xs.flatMap OwnOpt.render ++ r)) = _
      rw [optLoop, if_neg (by decide), if_neg (by decide), if_pos rfl]
      simp only [ha]

theorem exchange_bwd {Addr : Type} (L : Lib Addr) (e : ExLine) (h : e.Ok L) : optParse L (e.dir :: (e.own.flatMap OwnOpt.render ++ e.peers.flatMap PeerPart.render)) = some (e.meaning L) := by
  show optLoop L _ _ = _
  rw [own_bwd L _ _ _ h.own, peers_bwd L _ _ h.peers]
  simp [addOwn, ExLine.meaning, Option.or_none]

theorem optLoop_fwd {Addr : Type} (L : Lib Addr) (o : Options Addr) (args : List String) : ∀ q, optLoop L o args = some q →
    (∃ (xs : List OwnOpt) (ps : List PeerPart), (∀ x ∈ xs, OwnOpt.Ok L x) ∧ (∀ p ∈ ps, ∀ x ∈ p.opts, PeerOpt.Ok L x) ∧ args = xs.flatMap OwnOpt.render ++ ps.flatMap PeerPart.render ∧
      q = { addOwn L o xs with peers := o.peers ++ ps.map (PeerPart.meaning L) }) ∧
    (AtPeer args → ∃ ps : List PeerPart, (∀ p ∈ ps, ∀ x ∈ p.opts, PeerOpt.Ok L x) ∧ args = ps.flatMap PeerPart.render ∧
      q = { o with peers := o.peers ++ ps.map (PeerPart.meaning L) }) := by
  fun_induction optLoop L o args with
  | case1 o =>
    intro q h; cases h
    exact ⟨⟨[], [], (by intro _ h; cases h), (by intro _ h; cases h), rfl, by simp [addOwn]⟩, fun _ => ⟨[], (by intro _ h; cases h), rfl, by simp⟩⟩
  | case2 => intro q h; cases h
  | case3 o v rest ih =>
    intro q h
    obtain ⟨⟨xs, ps, hx, hp, he, hq⟩, _⟩ := ih q h
    refine ⟨⟨.dev v :: xs, ps, ?_, hp, ?_, ?_⟩, ?_⟩
    · intro x hx'; rcases List.mem_cons.1 hx' with rfl | hx'
      · trivial
      · exact hx x hx'
    · rw [he]; rfl
    · rw [hq, addOwn_cons]; rfl
    · rintro (h | ⟨t, h⟩) <;> simp at h
  | case4 => intro q h; cases h
  | case5 o v rest hne ih =>
    intro q h
    obtain ⟨⟨xs, ps, hx, hp, he, hq⟩, _⟩ := ih q h
    refine ⟨⟨.ip v :: xs, ps, ?_, hp, ?_, ?_⟩, ?_⟩
    · intro x hx'; rcases List.mem_cons.1 hx' with rfl | hx'
      · trivial
      · exact hx x hx'
    · rw [he]; rfl
    · rw [hq, addOwn_cons]; rfl
    · rintro (h | ⟨t, h⟩) <;> simp at h
  | case6 => intro q h; cases h
  | case7 => intro q h; cases h
  | case8 o v rest a ha n1 n2 ih =>
    intro q h
    obtain ⟨⟨xs, ps, hx, hp, he, hq⟩, _⟩ := ih q h
    refine ⟨⟨.listen v :: xs, ps, ?_, hp, ?_, ?_⟩, ?_⟩
    · intro x hx'; rcases List.mem_cons.1 hx' with rfl | hx'
      · show (L.addr v).isSome; rw [ha]; rfl
      · exact hx x hx'
    · rw [he]; rfl
    · have e : addOwn L o [.listen v] = { o with listen := some a } := by
        simp [addOwn, OwnOpt.dev?, OwnOpt.ip?, OwnOpt.listen?, ha, List.filterMap_cons]
      rw [hq, addOwn_cons, e]
    · rintro (h | ⟨t, h⟩) <;> simp at h
  | case9 => intro q h; cases h
  | case10 o rest p rest' hpp n1 n2 n3 ih =>
    intro q h
    have key : ∃ ps : List PeerPart, (∀ p ∈ ps, ∀ x ∈ p.opts, PeerOpt.Ok L x) ∧ "peer" :: rest = ps.flatMap PeerPart.render ∧ q = { o with peers := o.peers ++ ps.map (PeerPart.meaning L) } := by
      cases rest with
      | nil => cases hpp
      | cons d rest =>
        obtain ⟨hat, os, ho, he, hq⟩ := peerLoop_fwd L _ _ _ _ hpp
        obtain ⟨ps, hps, he', hq'⟩ := (ih q h).2 hat
        refine ⟨⟨d, os⟩ :: ps, ?_, ?_, ?_⟩
        · intro x hx; rcases List.mem_cons.1 hx with rfl | hx
          · exact ho
          · exact hps x hx
        · rw [he, he']; simp [PeerPart.render]
        · rw [hq', hq, addOpts_empty]; simp
    obtain ⟨ps, hps, he, hq⟩ := key
    exact ⟨⟨[], ps, (by intro _ h; cases h), hps, by rw [he]; rfl, by rw [hq]; simp [addOwn]⟩, fun _ => ⟨ps, hps, he, hq⟩⟩
  | case11 => intro q h; cases h

theorem exchange_fwd {Addr : Type} (L : Lib Addr) (args : List String) (o : Options Addr) (h : optParse L args = some o) :
    ∃ e : ExLine, e.Ok L ∧ "exchange" :: args = e.render ∧ o = e.meaning L := by
  cases args with
  | nil => cases h
  | cons d rest =>
    obtain ⟨⟨xs, ps, hx, hp, he, hq⟩, _⟩ := optLoop_fwd L _ _ _ h
    exact ⟨⟨d, xs, ps⟩, ⟨hx, hp⟩, by rw [he]; rfl, by rw [hq]; simp [addOwn, ExLine.meaning, Option.or_none]⟩

/-! ### The whole command line -/

/-- a command line after which the loop has the given state `c` -/
def after {Addr : Type} (c : Cli Addr) (ws : List Word) : Cli Addr := ⟨c.verbose || decide (Word.verbose ∈ ws), (ws.filterMap Word.command?).getLast?.or c.command⟩

theorem after_cons {Addr : Type} (c : Cli Addr) (w : Word) (ws : List Word) : after c (w :: ws) = after (after c [w]) ws := by
  unfold after
  rw [last_cons Word.command? w ws]
  congr 1
  by_cases h : Word.verbose = w
  · subst h; simp
  · simp [h]

/-- the rule about commands, for words that follow others -/
def WordsOk {Addr : Type} (c : Cli Addr) (cs : List (Command Addr)) : Prop := if c.command.isSome then ∀ x ∈ cs, x = .help else ∀ x ∈ cs.tail, x = .help

theorem wordsOk_some {Addr : Type} (v : Bool) (x : Command Addr) (cs : List (Command Addr)) : WordsOk ⟨v, some x⟩ cs = ∀ x ∈ cs, x = .help := by
  unfold WordsOk; simp

theorem words_bwd {Addr : Type} (L : Lib Addr) (ws : List Word) (ex : Option ExLine) : ∀ (c : Cli Addr), WordsOk c ((Line.mk ws ex).commands L) → (∀ e, ex = some e → e.Ok L) →
    cliLoop L c (Line.mk ws ex).render = some ⟨c.verbose || decide (Word.verbose ∈ ws), ((Line.mk ws ex).commands L).getLast?.or c.command⟩ := by
  induction ws with
  | nil =>
    intro c h he
    cases ex with
    | none => simp [Line.render, Line.commands, cliLoop]
    | some e =>
      have hc : c.command.isSome = false := by
        cases hh : c.command with
        | none => rfl
        | some x =>
          unfold WordsOk at h; rw [hh] at h
          have := h (.exchange (e.meaning L)) (by simp [Line.commands])
          cases this
      show cliLoop L c ("exchange" :: e.dir :: (e.own.flatMap OwnOpt.render ++ e.peers.flatMap PeerPart.render)) = _
      rw [cliLoop.eq_def]; dsimp only; rw [if_neg (by decide), if_neg (by decide), if_neg (by decide), if_neg (by decide), if_pos rfl, hc, exchange_bwd L e (he e rfl)]
      simp [Line.commands]
  | cons w ws ih =>
    intro c h he
    have goal : ∀ c' : Cli Addr, cliLoop L c (Line.mk (w :: ws) ex).render = cliLoop L c' (Line.mk ws ex).render → c' = after c [w] →
        WordsOk c' ((Line.mk ws ex).commands L) →
        cliLoop L c (Line.mk (w :: ws) ex).render = some ⟨c.verbose || decide (Word.verbose ∈ w :: ws), ((Line.mk (w :: ws) ex).commands L).getLast?.or c.command⟩ := by
      intro c' h1 h2 h3
      rw [h1, ih c' h3 he, h2]
      have hv : (after c [w]).verbose = (c.verbose || decide (Word.verbose = w)) := by simp [after]
      have hc : (after c [w]).command = ([w].filterMap Word.command?).getLast?.or c.command := rfl
      have hm : (Line.mk (w :: ws) ex).commands L = [w].filterMap Word.command? ++ (Line.mk ws ex).commands L := by
        unfold Line.commands
        rw [show w :: ws = [w] ++ ws from rfl, List.filterMap_append, List.append_assoc]
      rw [hv, hc, hm, List.getLast?_append, Option.or_assoc]
      congr 2
      by_cases hw : Word.verbose = w
      · subst hw; simp
      · simp [hw]
    cases w with
    | verbose =>
      refine goal { c with verbose := true } ?_ (by simp [after, Word.command?]) h
      show cliLoop L c ("verbose" :: (Line.mk ws ex).render) = _
      rw [cliLoop.eq_def]; dsimp only; rw [if_pos rfl]
    | explain =>
      refine goal c ?_ (by simp [after, Word.command?]) h
      show cliLoop L c ("explain" :: (Line.mk ws ex).render) = _
      rw [cliLoop.eq_def]; dsimp only; rw [if_neg (by decide), if_pos rfl]
    | help =>
      refine goal { c with command := some .help } ?_ (by simp [after, Word.command?, List.filterMap_cons]) ?_
      · show cliLoop L c ("help" :: (Line.mk ws ex).render) = _
        rw [cliLoop.eq_def]; dsimp only
        simp only [String.reduceEq, if_false, if_true]
      · unfold WordsOk at h ⊢
        rw [if_pos (by rfl)]
        intro x hx
        split at h
        · exact h x (List.mem_cons_of_mem _ hx)
        · exact h x hx
    | genkey d =>
      have hc : c.command.isSome = false := by
        cases hh : c.command with
        | none => rfl
        | some x =>
          unfold WordsOk at h; rw [hh] at h
          have := h (.genKey d) (by simp [Line.commands, Word.command?, List.filterMap_cons])
          cases this
      refine goal { c with command := some (.genKey d) } ?_ (by simp [after, Word.command?, List.filterMap_cons]) ?_
      · show cliLoop L c ("genkey" :: d :: (Line.mk ws ex).render) = _
        rw [cliLoop.eq_def]; dsimp only; rw [if_neg (by decide), if_neg (by decide), if_pos rfl, hc]
        rfl
      · unfold WordsOk at h ⊢
        rw [hc] at h
        rw [if_pos (by rfl)]
        exact h
    | pubkey d e =>
      have hc : c.command.isSome = false := by
        cases hh : c.command with
        | none => rfl
        | some x =>
          unfold WordsOk at h; rw [hh] at h
          have := h (.pubKey d e) (by simp [Line.commands, Word.command?, List.filterMap_cons])
          cases this
      refine goal { c with command := some (.pubKey d e) } ?_ (by simp [after, Word.command?, List.filterMap_cons]) ?_
      · show cliLoop L c ("pubkey" :: d :: e :: (Line.mk ws ex).render) = _
        rw [cliLoop.eq_def]; dsimp only; rw [if_neg (by decide), if_neg (by decide), if_neg (by decide), if_pos rfl, hc]
        rfl
      · unfold WordsOk at h ⊢
        rw [hc] at h
        rw [if_pos (by rfl)]
        exact h
    | config f =>
      have hc : c.command.isSome = false := by
        cases hh : c.command with
        | none => rfl
        | some x =>
          unfold WordsOk at h; rw [hh] at h
          have := h (.exchangeConfig f) (by simp [Line.commands, Word.command?, List.filterMap_cons])
          cases this
      refine goal { c with command := some (.exchangeConfig f) } ?_ (by simp [after, Word.command?, List.filterMap_cons]) ?_
      · show cliLoop L c ("exchange-config" :: f :: (Line.mk ws ex).render) = _
        rw [cliLoop.eq_def]; dsimp only; rw [if_neg (by decide), if_neg (by decide), if_neg (by decide), if_neg (by decide), if_neg (by decide), if_pos rfl, hc]
        rfl
      · unfold WordsOk at h ⊢
        rw [hc] at h
        rw [if_pos (by rfl)]
        exact h

theorem words_fwd {Addr : Type} (L : Lib Addr) (c : Cli Addr) (args : List String) : ∀ c', cliLoop L c args = some c' →
    ∃ l : Line, WordsOk c (l.commands L) ∧ (∀ e, l.ex = some e → e.Ok L) ∧ args = l.render ∧ c' = ⟨c.verbose || decide (Word.verbose ∈ l.words), (l.commands L).getLast?.or c.command⟩ := by
  have cmd : ∀ (c : Cli Addr) (w : Word) (x : Command Addr) (rest : List String) (c' : Cli Addr), (w.command? : Option (Command Addr)) = some x → (x = .help ∨ ¬c.command.isSome) →
      (∃ l : Line, WordsOk { c with command := some x } (l.commands L) ∧ (∀ e, l.ex = some e → e.Ok L) ∧ rest = l.render ∧
        c' = ⟨c.verbose || decide (Word.verbose ∈ l.words), (l.commands L).getLast?.or (some x)⟩) →
      ∃ l : Line, WordsOk c (l.commands L) ∧ (∀ e, l.ex = some e → e.Ok L) ∧ w.render ++ rest = l.render ∧
        c' = ⟨c.verbose || decide (Word.verbose ∈ l.words), (l.commands L).getLast?.or c.command⟩ := by
    rintro c w x rest c' hw hx ⟨l, h1, h2, h3, h4⟩
    have hm : (Line.mk (w :: l.words) l.ex).commands L = x :: l.commands L := by
      unfold Line.commands; rw [List.filterMap_cons, hw]; rfl
    refine ⟨⟨w :: l.words, l.ex⟩, ?_, h2, ?_, ?_⟩
    · rw [hm]
      unfold WordsOk at h1 ⊢
      rw [if_pos (by rfl)] at h1
      split
      · rcases hx with rfl | hx
        · intro y hy
          rcases List.mem_cons.1 hy with rfl | hy
          · rfl
          · exact h1 y hy
        · contradiction
      · exact h1
    · rw [h3]; simp [Line.render]
    · rw [hm, h4]
      have hv : Word.verbose ≠ w := by rintro rfl; cases hw
      congr 1
      · simp [hv]
      · cases hl : l.commands L with
        | nil => rfl
        | cons y ys => simp [List.getLast?_cons]
  fun_induction cliLoop L c args with
  | case1 c => intro c' h; cases h; exact ⟨⟨[], none⟩, by unfold WordsOk; simp [Line.commands], (by intro e h; cases h), rfl, by simp [Line.commands]⟩
  | case2 c rest ih =>
    intro c' h
    obtain ⟨l, h1, h2, h3, h4⟩ := ih c' h
    exact ⟨⟨.verbose :: l.words, l.ex⟩, h1, h2, by rw [h3]; rfl, by rw [h4]; simp [Line.commands, Word.command?, List.filterMap_cons]⟩
  | case3 c rest hne ih =>
    intro c' h
    obtain ⟨l, h1, h2, h3, h4⟩ := ih c' h
    exact ⟨⟨.explain :: l.words, l.ex⟩, h1, h2, by rw [h3]; rfl, by rw [h4]; simp [Line.commands, Word.command?, List.filterMap_cons]⟩
  | case4 => intro c' h; cases h
  | case5 => intro c' h; cases h
  | case6 c hs d rest n1 n2 ih => intro c' h; exact cmd c (.genkey d) _ rest c' rfl (.inr hs) (ih c' h)
  | case7 => intro c' h; cases h
  | case8 c hs d e rest n1 n2 n3 ih => intro c' h; exact cmd c (.pubkey d e) _ rest c' rfl (.inr hs) (ih c' h)
  | case9 => intro c' h; cases h
  | case10 => intro c' h; cases h
  | case11 => intro c' h; cases h
  | case12 c rest hs o ho n1 n2 n3 n4 =>
    intro c' h; cases h
    obtain ⟨e, he, hr, hm⟩ := exchange_fwd L rest o ho
    refine ⟨⟨[], some e⟩, ?_, (by intro e' h; cases h; exact he), by rw [hr]; rfl, ?_⟩
    · unfold WordsOk; rw [if_neg hs]; intro x hx; simp [Line.commands] at hx
    · rw [hm]; simp [Line.commands]
  | case13 => intro c' h; cases h
  | case14 => intro c' h; cases h
  | case15 c hs f rest n1 n2 n3 n4 n5 ih => intro c' h; exact cmd c (.config f) _ rest c' rfl (.inr hs) (ih c' h)
  | case16 c rest h1 h2 h3 h4 h5 h6 ih => intro c' h; exact cmd c .help _ rest c' rfl (.inl rfl) (ih c' h)
  | case17 => intro c' h; cases h

/-- **C55.** Exactly the command lines of the grammar are accepted, with their meaning: options belong to the peer they
follow, peers are kept in order, and unknown words are refused. -/
theorem parse_exact {Addr : Type} (L : Lib Addr) (exe : String) (args : List String) (c : Cli Addr) :
    parse L (exe :: args) = some c ↔ ∃ l : Line, l.Ok L ∧ args = l.render ∧ c = l.meaning L := by
  constructor
  · intro h
    unfold parse at h
    rw [show (exe :: args).drop 1 = args from rfl] at h
    cases hc : cliLoop L ⟨false, none⟩ args with
    | none => rw [hc] at h; cases h
    | some c' =>
      rw [hc] at h
      dsimp only at h
      by_cases hn : c'.command.isNone
      · rw [if_pos hn] at h; cases h
      · rw [if_neg hn] at h; cases h
        obtain ⟨l, h1, h2, h3, h4⟩ := words_fwd L _ _ _ hc
        have h4' : c = l.meaning L := by rw [h4]; unfold Line.meaning; simp
        refine ⟨l, ⟨?_, h1, h2⟩, h3, h4'⟩
        intro e
        apply hn
        rw [h4']
        unfold Line.meaning
        rw [e]; rfl
  · rintro ⟨l, h, rfl, rfl⟩
    unfold parse
    rw [show (exe :: l.render).drop 1 = l.render from rfl, words_bwd L l.words l.ex ⟨false, none⟩ h.later h.ex]
    have e : (⟨(false || decide (Word.verbose ∈ l.words)), ((Line.mk l.words l.ex).commands L).getLast?.or none⟩ : Cli Addr) = l.meaning L := by
      unfold Line.meaning; simp
    rw [e]
    show (if (l.meaning L).command.isNone = true then none else some (l.meaning L)) = _
    rw [if_neg]
    show ¬(l.commands L).getLast?.isNone = true
    rw [Option.isNone_iff_eq_none, List.getLast?_eq_none_iff]
    exact h.given

/-- **C55, in part.** When the result is a command other than `help`, exactly one command was given and it is that one. -/
theorem one_command_partial {Addr : Type} (L : Lib Addr) (exe : String) (args : List String) (c : Cli Addr) (h : parse L (exe :: args) = some c) (hh : c.command ≠ some .help) :
    ∃ l : Line, args = l.render ∧ ∃ x, l.commands L = [x] ∧ c = ⟨decide (Word.verbose ∈ l.words), some x⟩ := by
  obtain ⟨l, hl, e, hc⟩ := (parse_exact L exe args c).1 h
  refine ⟨l, e, ?_⟩
  cases hs : l.commands L with
  | nil => exact absurd hs hl.given
  | cons x xs =>
    have hlast : c.command = (x :: xs).getLast? := by rw [hc]; show (l.commands L).getLast? = _; rw [hs]
    have hx : xs = [] := by
      cases hxs : xs with
      | nil => rfl
      | cons y ys =>
        exfalso; apply hh; rw [hlast, hxs]
        have hlater := hl.later
        rw [hs, hxs] at hlater
        have : (x :: y :: ys).getLast (by simp) ∈ y :: ys := by
          rw [List.getLast_cons (by simp)]; exact List.getLast_mem _
        rw [List.getLast?_eq_some_getLast (by simp), hlater _ this]
    subst hx
    exact ⟨x, rfl, by rw [hc]; unfold Line.meaning; rw [hs]; rfl⟩

/-- **C55, false of the code.** After any command line that is accepted, `help` is accepted as a second command and
replaces the first; the other way round it is refused. -/
theorem help_replaces_command {Addr : Type} (L : Lib Addr) (exe : String) (l : Line) (hl : l.Ok L) (hex : l.ex = none) :
    parse L (exe :: (l.render ++ ["help"])) = some ⟨decide (Word.verbose ∈ l.words), some .help⟩ ∧
    (∀ k rest, k ∈ ["genkey", "pubkey", "exchange", "exchange-config"] → parse L (exe :: "help" :: k :: rest) = none) := by
  constructor
  · refine (parse_exact L exe _ _).2 ⟨⟨l.words ++ [.help], none⟩, ⟨?_, ?_, (by intro e h; cases h)⟩, ?_, ?_⟩
    · simp [Line.commands, Word.command?]
    · have : (Line.mk (l.words ++ [.help]) none).commands L = l.commands L ++ [.help] := by simp [Line.commands, hex, Word.command?, List.filterMap_cons]
      rw [this]
      cases hs : l.commands L with
      | nil => exact absurd hs hl.given
      | cons x xs =>
        have hlater := hl.later
        rw [hs] at hlater
        intro c hc
        rcases List.mem_append.1 (show c ∈ xs ++ [.help] from hc) with hc | hc
        · exact hlater c hc
        · exact List.mem_singleton.1 hc
    · simp [Line.render, hex, Word.render]
    · simp [Line.meaning, Line.commands, Word.command?, List.filterMap_cons]
  · intro k rest hk
    simp only [List.mem_cons, List.not_mem_nil, or_false] at hk
    unfold parse
    rw [show (exe :: "help" :: k :: rest).drop 1 = "help" :: k :: rest from rfl]
    rw [cliLoop.eq_def]; dsimp only
    rcases hk with rfl | rfl | rfl | rfl <;> simp only [String.reduceEq, if_false, if_true] <;> rw [cliLoop.eq_def] <;> simp

/-! ### A command line -/

/-- a toy standard library which knows two addresses and two numbers -/
def Demo.lib : Lib Nat := ⟨fun s => if s = "0.0.0.0:9999" then some 1 else if s = "10.0.0.1:9999" then some 2 else none, fun s => if s = "25" then some 25 else if s = "0" then some 0 else none⟩
instance {Addr : Type} (L : Lib Addr) (x : OwnOpt) : Decidable (x.Ok L) :=
  match x with
  | .dev _ => isTrue trivial
  | .ip _ => isTrue trivial
  | .listen t => inferInstanceAs (Decidable ((L.addr t).isSome = true))
instance {Addr : Type} (L : Lib Addr) (x : PeerOpt) : Decidable (x.Ok L) :=
  match x with
  | .endpoint t => inferInstanceAs (Decidable ((L.addr t).isSome = true))
  | .keepalive t => inferInstanceAs (Decidable ((L.u32 t).isSome = true))
  | .allowedIps _ => isTrue trivial
def Demo.ex : ExLine := ⟨"./keys", [.dev "wg0", .listen "0.0.0.0:9999", .dev "wg1"], [⟨"./bob", [.endpoint "10.0.0.1:9999", .allowedIps "10.1.0.0/16"]⟩, ⟨"peer", [.keepalive "25"]⟩]⟩
def Demo.line : Line := ⟨[.verbose, .explain], some Demo.ex⟩

theorem Demo.ok : Demo.line.Ok Demo.lib := by
  refine ⟨by simp [Demo.line, Line.commands], ?_, ?_⟩
  · intro c hc; cases hc
  · intro e he
    cases he
    exact ⟨by decide, by decide⟩
example : parse Demo.lib ("rp" :: ["verbose", "explain", "exchange", "./keys", "dev", "wg0", "listen", "0.0.0.0:9999", "dev", "wg1", "peer", "./bob", "endpoint", "10.0.0.1:9999",
    "allowed-ips", "10.1.0.0/16", "peer", "peer", "persistent-keepalive", "25"]) = some (Demo.line.meaning Demo.lib) :=
  (parse_exact Demo.lib "rp" _ _).2 ⟨Demo.line, Demo.ok, rfl, rfl⟩
example : (Line.mk [.genkey "./keys", .verbose] none).Ok Demo.lib := ⟨by decide, by decide, by intro e h; cases h⟩

end Verif.Rp
