import Verif.Model.Config
/-
C53 (command line grammar of `rosenpass exchange`), C54 (validation).
-/
namespace Verif.Config

/-! ### Specification: the grammar (rosenpass/src/cli.rs:190-215) -/

/-- `public-key <PATH>`, `secret-key <PATH>` (also spelled `private-key`), `listen <ADDR>:<PORT>`, `verbose` -/
inductive OwnItem where
  | publicKey (path : String)
  | secretKey (old : Bool) (path : String)
  | listen (addr : String)
  | verbose
  deriving DecidableEq, Repr

def OwnItem.render : OwnItem → List String
  | .publicKey p => ["public-key", p]
  | .secretKey false p => ["secret-key", p]
  | .secretKey true p => ["private-key", p]
  | .listen a => ["listen", a]
  | .verbose => ["verbose"]
def OwnItem.pk? : OwnItem → Option String
  | .publicKey p => some p
  | _ => none
def OwnItem.sk? : OwnItem → Option String
  | .secretKey _ p => some p
  | _ => none
def OwnItem.listen? : OwnItem → Option String
  | .listen a => some a
  | _ => none

/-- `public-key <PATH>`, `endpoint <HOST/IP>:<PORT>`, `preshared-key <PATH>`, `outfile <PATH>` -/
inductive PeerItem where
  | publicKey (path : String)
  | endpoint (addr : String)
  | psk (path : String)
  | outfile (path : String)
  deriving DecidableEq, Repr

def PeerItem.render : PeerItem → List String
  | .publicKey p => ["public-key", p]
  | .endpoint e => ["endpoint", e]
  | .psk p => ["preshared-key", p]
  | .outfile p => ["outfile", p]
def PeerItem.pk? : PeerItem → Option String
  | .publicKey p => some p
  | _ => none
def PeerItem.endpoint? : PeerItem → Option String
  | .endpoint p => some p
  | _ => none
def PeerItem.psk? : PeerItem → Option String
  | .psk p => some p
  | _ => none
def PeerItem.out? : PeerItem → Option String
  | .outfile p => some p
  | _ => none

/-- `wireguard <DEV> <PEER> [EXTRA_ARGS]...` comes last: it takes everything up to the next `peer` -/
structure PeerSpec where
  items : List PeerItem
  wg : Option Wg
  deriving DecidableEq, Repr

def wgRender (w : Wg) : List String := "wireguard" :: w.device :: w.peer :: w.extra
def PeerSpec.body (p : PeerSpec) : List String := p.items.flatMap PeerItem.render ++ (match p.wg with | none => [] | some w => wgRender w)
def PeerSpec.render (p : PeerSpec) : List String := "peer" :: p.body

/-- a command line -/
structure Line where
  own : List OwnItem
  peers : List PeerSpec
  deriving DecidableEq, Repr

def Line.render (l : Line) : List String := l.own.flatMap OwnItem.render ++ l.peers.flatMap PeerSpec.render

/-- what a peer's part of the command line means -/
def PeerSpec.meaning (p : PeerSpec) : Peer :=
  ⟨(p.items.filterMap PeerItem.pk?).headD "", (p.items.filterMap PeerItem.endpoint?).head?, (p.items.filterMap PeerItem.psk?).head?,
    (p.items.filterMap PeerItem.out?).head?, p.wg, .v02, none, none⟩

/-- what a command line means -/
def Line.meaning {Addr : Type} (resolve : String → Option (List Addr)) (l : Line) : Config Addr :=
  ⟨some ((l.own.filterMap OwnItem.pk?).headD "", (l.own.filterMap OwnItem.sk?).headD ""),
    (l.own.filterMap OwnItem.listen?).flatMap (fun a => (resolve a).getD []), decide (OwnItem.verbose ∈ l.own), l.peers.map PeerSpec.meaning, Api.default⟩

/-- the rules about one's own part, except that the keys are given -/
structure OwnOk {Addr : Type} (resolve : String → Option (List Addr)) (own : List OwnItem) : Prop where
  pk : (own.filterMap OwnItem.pk?).length ≤ 1
  sk : (own.filterMap OwnItem.sk?).length ≤ 1
  listen : ∀ a ∈ own.filterMap OwnItem.listen?, (resolve a).isSome

/-- the documented rules about a peer: every option at most once, no `peer` among the extra arguments -/
structure PeerSpec.Ok (p : PeerSpec) : Prop where
  pk : (p.items.filterMap PeerItem.pk?).length ≤ 1
  endpoint : (p.items.filterMap PeerItem.endpoint?).length ≤ 1
  psk : (p.items.filterMap PeerItem.psk?).length ≤ 1
  out : (p.items.filterMap PeerItem.out?).length ≤ 1
  extra : ∀ w, p.wg = some w → "peer" ∉ w.extra

/-- the rules the code has in addition: not both an endpoint and a pre-shared key -/
def PeerSpec.NotBoth (p : PeerSpec) : Prop :=
  (p.items.filterMap PeerItem.endpoint?).length + (p.items.filterMap PeerItem.psk?).length ≤ 1

/-- Specification: the documented rules about a command line -/
structure Line.Ok {Addr : Type} (resolve : String → Option (List Addr)) (l : Line) : Prop where
  own : OwnOk resolve l.own
  keys : l.peers ≠ [] → (l.own.filterMap OwnItem.pk?).length = 1 ∧ (l.own.filterMap OwnItem.sk?).length = 1
  peers : ∀ p ∈ l.peers, p.Ok

/-! ### States of the parser and beginnings of command lines -/

/-- an option that was begun and not finished -/
inductive Tail where
  | none
  | own (k : String) (s : St) (h : (k, s) ∈ [("public-key", St.ownPublicKey), ("secret-key", .ownSecretKey), ("private-key", .ownSecretKey), ("listen", .ownListen)])
  | peer (k : String) (s : St) (h : (k, s) ∈ [("public-key", St.peerPublicKey), ("endpoint", .peerEndpoint), ("preshared-key", .peerPsk), ("outfile", .peerOutfile), ("wireguard", .peerWgDev)])
  | wgDev (dev : String)

def Tail.render : Tail → List String
  | .none => []
  | .own k _ _ => [k]
  | .peer k _ _ => [k]
  | .wgDev d => ["wireguard", d]

/-- the parser's peer -/
def curOf (p : PeerSpec) : Tail → Peer
  | .wgDev d => { p.meaning with wg := some ⟨d, "", []⟩ }
  | _ => p.meaning

def curSt (p : PeerSpec) : Tail → St
  | .none => if p.wg.isSome then .peerWgExtra else .peer
  | .own _ s _ => s
  | .peer _ s _ => s
  | .wgDev _ => .peerWgPeer

/-- the tail can follow this peer -/
def Tail.FitsPeer (p : PeerSpec) : Tail → Prop
  | .none => True
  | .own _ _ _ => False
  | .peer _ _ _ => p.wg = Option.none
  | .wgDev _ => p.wg = Option.none

def Tail.ownSt : Tail → St
  | .none => .own
  | .own _ s _ => s
  | .peer _ s _ => s
  | .wgDev _ => .peerWgPeer

def Tail.FitsOwn : Tail → Prop
  | .none => True
  | .own _ _ _ => True
  | _ => False

/-- the parser has read `own`, `done` and, if any, the peer `cur` -/
structure Rep {Addr : Type} (resolve : String → Option (List Addr)) (own : List OwnItem) (done : List PeerSpec) (cur : Option PeerSpec) (t : Tail) (m : M Addr) : Prop where
  ok : OwnOk resolve own
  pk : m.pk = (own.filterMap OwnItem.pk?).headD ""
  sk : m.sk = (own.filterMap OwnItem.sk?).headD ""
  listen : m.listen = (own.filterMap OwnItem.listen?).flatMap (fun a => (resolve a).getD [])
  verbose : m.verbose = decide (OwnItem.verbose ∈ own)
  peers : m.peers = done.map PeerSpec.meaning
  dok : ∀ p ∈ done, p.Ok ∧ p.NotBoth
  state : match cur with
    | none => done = [] ∧ m.cur = none ∧ m.st = t.ownSt ∧ t.FitsOwn ∧
        (St.ownPublicKey ∈ m.set ↔ (own.filterMap OwnItem.pk?).length = 1) ∧ (St.ownSecretKey ∈ m.set ↔ (own.filterMap OwnItem.sk?).length = 1)
    | some p => (own.filterMap OwnItem.pk?).length = 1 ∧ (own.filterMap OwnItem.sk?).length = 1 ∧ m.cur = some (curOf p t) ∧ m.st = curSt p t ∧ t.FitsPeer p ∧
        p.Ok ∧ p.NotBoth ∧ (St.peerPublicKey ∈ m.set ↔ (p.items.filterMap PeerItem.pk?).length = 1) ∧
        (St.peerEndpoint ∈ m.set ↔ (p.items.filterMap PeerItem.endpoint?).length + (p.items.filterMap PeerItem.psk?).length = 1) ∧
        (St.peerOutfile ∈ m.set ↔ (p.items.filterMap PeerItem.out?).length = 1) ∧
        (St.peerWgDev ∈ m.set ↔ (p.wg.isSome ∨ ∃ d, t = .wgDev d)) ∧ (St.peerWgPeer ∈ m.set ↔ p.wg.isSome)

/-- the tokens read -/
def tokens (own : List OwnItem) (done : List PeerSpec) (cur : Option PeerSpec) (t : Tail) : List String :=
  own.flatMap OwnItem.render ++ done.flatMap PeerSpec.render ++ (match cur with | none => [] | some p => p.render) ++ t.render

theorem once_ok {Addr : Type} {m f m' : M Addr} {s : St} (h : once m s f = .ok m') : s ∉ m.set ∧ m' = { f with set := s :: m.set } := by
  unfold once at h
  by_cases hs : s ∈ m.set
  · rw [if_pos hs] at h; cases h
  · rw [if_neg hs] at h; cases h; exact ⟨hs, rfl⟩
theorem once_no_panic {Addr : Type} {m f : M Addr} {s : St} : once m s f ≠ .error .panic := by
  unfold once
  by_cases hs : s ∈ m.set
  · rw [if_pos hs]; exact nofun
  · rw [if_neg hs]; exact nofun
theorem once_not_mem {Addr : Type} {m f : M Addr} {s : St} (h : s ∉ m.set) : once m s f = .ok { f with set := s :: m.set } := by
  unfold once; rw [if_neg h]

theorem nil_of_not_one {α : Type} {l : List α} (h : l.length ≤ 1) (h1 : l.length ≠ 1) : l = [] := by
  cases l with
  | nil => rfl
  | cons a l => cases l with
    | nil => simp at h1
    | cons b l => simp at h

/-- one more of one's own options -/
theorem rep_own {Addr : Type} {resolve : String → Option (List Addr)} {own : List OwnItem} {t : Tail} {m : M Addr} (h : Rep resolve own [] none t m) :
    (∀ a, St.ownPublicKey ∉ m.set → Rep resolve (own ++ [.publicKey a]) [] none .none { m with pk := a, st := .own, set := .ownPublicKey :: m.set }) ∧
    (∀ b a, St.ownSecretKey ∉ m.set → Rep resolve (own ++ [.secretKey b a]) [] none .none { m with sk := a, st := .own, set := .ownSecretKey :: m.set }) ∧
    (∀ a as, resolve a = some as → Rep resolve (own ++ [.listen a]) [] none .none
      { m with set := if St.ownListen ∈ m.set then m.set else .ownListen :: m.set, listen := m.listen ++ as, st := .own }) ∧
    (t = .none → Rep resolve (own ++ [.verbose]) [] none .none { m with verbose := true }) := by
  obtain ⟨ok, hpk, hsk, hl, hv, hp, hd, _, hc, hs, ht, hset1, hset2⟩ := h
  have l1 := ok.pk
  have l2 := ok.sk
  have vx : ∀ x, x ≠ OwnItem.verbose → decide (OwnItem.verbose ∈ own) = decide (OwnItem.verbose ∈ own ++ [x]) := by
    intro x hx
    have : OwnItem.verbose ∈ own ++ [x] ↔ OwnItem.verbose ∈ own := by
      rw [List.mem_append, List.mem_singleton]
      exact ⟨fun h => h.resolve_right (fun e => hx e.symm), Or.inl⟩
    rw [decide_eq_decide.2 this]
  refine ⟨fun a hn => ?_, fun b a hn => ?_, fun a as hr => ?_, fun htn => ?_⟩
  · have hnil := nil_of_not_one ok.pk (fun e => hn (hset1.2 e))
    refine ⟨⟨by simp [List.filterMap_cons, OwnItem.pk?, hnil], by simpa [List.filterMap_cons, OwnItem.sk?] using l2, by simpa [List.filterMap_cons, OwnItem.listen?] using ok.listen⟩, by simp [List.filterMap_cons, OwnItem.pk?, hnil], by simpa [List.filterMap_cons, OwnItem.sk?] using hsk,
      by simpa [List.filterMap_cons, OwnItem.listen?] using hl, hv.trans (vx _ (by intro e; cases e)), hp, hd, rfl, hc, rfl, trivial, ?_, ?_⟩
    · simp [List.filterMap_cons, OwnItem.pk?, hnil]
    · simp [List.filterMap_cons, OwnItem.sk?, hset2]
  · have hnil := nil_of_not_one ok.sk (fun e => hn (hset2.2 e))
    refine ⟨⟨by simpa [List.filterMap_cons, OwnItem.pk?] using l1, by simp [List.filterMap_cons, OwnItem.sk?, hnil], by simpa [List.filterMap_cons, OwnItem.listen?] using ok.listen⟩, by simpa [List.filterMap_cons, OwnItem.pk?] using hpk, by simp [List.filterMap_cons, OwnItem.sk?, hnil],
      by simpa [List.filterMap_cons, OwnItem.listen?] using hl, hv.trans (vx _ (by intro e; cases e)), hp, hd, rfl, hc, rfl, trivial, ?_, ?_⟩
    · simp [List.filterMap_cons, OwnItem.pk?, hset1]
    · simp [List.filterMap_cons, OwnItem.sk?, hnil]
  · refine ⟨⟨by simpa [List.filterMap_cons, OwnItem.pk?] using l1, by simpa [List.filterMap_cons, OwnItem.sk?] using l2, ?_⟩, by simpa [List.filterMap_cons, OwnItem.pk?] using hpk, by simpa [List.filterMap_cons, OwnItem.sk?] using hsk,
      ?_, hv.trans (vx _ (by intro e; cases e)), hp, hd, rfl, hc, rfl, trivial, ?_, ?_⟩
    · intro x hx
      rw [List.filterMap_append, List.mem_append] at hx
      rcases hx with hx | hx
      · exact ok.listen x hx
      · have : x = a := by simpa [List.filterMap_cons, OwnItem.listen?] using hx
        rw [this, hr]; rfl
    · show m.listen ++ as = _
      rw [hl]; simp [List.filterMap_cons, OwnItem.listen?, hr]
    · show St.ownPublicKey ∈ (if St.ownListen ∈ m.set then m.set else .ownListen :: m.set) ↔ _
      by_cases e : St.ownListen ∈ m.set
      · rw [if_pos e]; simpa [List.filterMap_cons, OwnItem.pk?] using hset1
      · rw [if_neg e]; simpa [List.filterMap_cons, OwnItem.pk?] using hset1
    · show St.ownSecretKey ∈ (if St.ownListen ∈ m.set then m.set else .ownListen :: m.set) ↔ _
      by_cases e : St.ownListen ∈ m.set
      · rw [if_pos e]; simpa [List.filterMap_cons, OwnItem.sk?] using hset2
      · rw [if_neg e]; simpa [List.filterMap_cons, OwnItem.sk?] using hset2
  · subst htn
    exact ⟨⟨by simpa [List.filterMap_cons, OwnItem.pk?] using l1, by simpa [List.filterMap_cons, OwnItem.sk?] using l2, by simpa [List.filterMap_cons, OwnItem.listen?] using ok.listen⟩, by simpa [List.filterMap_cons, OwnItem.pk?] using hpk, by simpa [List.filterMap_cons, OwnItem.sk?] using hsk,
      by simpa [List.filterMap_cons, OwnItem.listen?] using hl, by simp, hp, hd, rfl, hc, hs, trivial, by simpa [List.filterMap_cons, OwnItem.pk?] using hset1, by simpa [List.filterMap_cons, OwnItem.sk?] using hset2⟩

/-- one more option of a peer -/
theorem rep_peer {Addr : Type} {resolve : String → Option (List Addr)} {own : List OwnItem} {done : List PeerSpec} {p : PeerSpec} {t : Tail} {m : M Addr}
    (h : Rep resolve own done (some p) t m) (hnd : ∀ d, t ≠ .wgDev d) (hw : p.wg = none) :
    (∀ a, St.peerPublicKey ∉ m.set → Rep resolve own done (some ⟨p.items ++ [.publicKey a], none⟩) .none
      { m with cur := some { p.meaning with publicKey := a }, st := .peer, set := .peerPublicKey :: m.set }) ∧
    (∀ a, St.peerEndpoint ∉ m.set → Rep resolve own done (some ⟨p.items ++ [.endpoint a], none⟩) .none
      { m with cur := some { p.meaning with endpoint := some a }, st := .peer, set := .peerEndpoint :: m.set }) ∧
    (∀ a, St.peerEndpoint ∉ m.set → Rep resolve own done (some ⟨p.items ++ [.psk a], none⟩) .none
      { m with cur := some { p.meaning with psk := some a }, st := .peer, set := .peerEndpoint :: m.set }) ∧
    (∀ a, St.peerOutfile ∉ m.set → Rep resolve own done (some ⟨p.items ++ [.outfile a], none⟩) .none
      { m with cur := some { p.meaning with keyOut := some a }, st := .peer, set := .peerOutfile :: m.set }) := by
  obtain ⟨ok, hpk, hsk, hl, hv, hp, hd, o1, o2, hc, hs, hf, pok, pnb, s1, s2, s3, s4, s5⟩ := h
  have s4' : St.peerWgDev ∉ m.set := by
    intro e
    rcases s4.1 e with h | ⟨d, h⟩
    · rw [hw] at h; cases h
    · exact hnd d h
  have s5' : St.peerWgPeer ∉ m.set := by intro e; have := s5.1 e; rw [hw] at this; cases this
  obtain ⟨items, wg⟩ := p
  subst hw
  have q1 := pok.pk; have q2 := pok.endpoint; have q3 := pok.psk; have q4 := pok.out
  unfold PeerSpec.NotBoth at pnb
  dsimp only at q1 q2 q3 q4 pnb s1 s2 s3
  refine ⟨fun a hn => ?_, fun a hn => ?_, fun a hn => ?_, fun a hn => ?_⟩
  · have hnil := nil_of_not_one q1 (fun e => hn (s1.2 e))
    refine ⟨ok, hpk, hsk, hl, hv, hp, hd, o1, o2, ?_, rfl, trivial,
      ⟨by simp [List.filterMap_cons, PeerItem.pk?, hnil], by simpa [List.filterMap_cons, PeerItem.endpoint?] using q2, by simpa [List.filterMap_cons, PeerItem.psk?] using q3, by simpa [List.filterMap_cons, PeerItem.out?] using q4, nofun⟩,
      by simpa [List.filterMap_cons, PeerSpec.NotBoth, PeerItem.endpoint?, PeerItem.psk?] using pnb, ?_, ?_, ?_, ?_, ?_⟩
    · simp [List.filterMap_cons, curOf, PeerSpec.meaning, PeerItem.pk?, PeerItem.endpoint?, PeerItem.psk?, PeerItem.out?, hnil]
    · simp [List.filterMap_cons, PeerItem.pk?, hnil]
    · simpa [List.filterMap_cons, PeerItem.endpoint?, PeerItem.psk?] using s2
    · simpa [List.filterMap_cons, PeerItem.out?] using s3
    · simp [s4']
    · simp [s5']
  · have hne : (items.filterMap PeerItem.endpoint?).length + (items.filterMap PeerItem.psk?).length ≠ 1 := fun e => hn (s2.2 e)
    have n1 : items.filterMap PeerItem.endpoint? = [] := List.length_eq_zero_iff.1 (by omega)
    have n2 : items.filterMap PeerItem.psk? = [] := List.length_eq_zero_iff.1 (by omega)
    refine ⟨ok, hpk, hsk, hl, hv, hp, hd, o1, o2, ?_, rfl, trivial,
      ⟨by simpa [List.filterMap_cons, PeerItem.pk?] using q1, by simp [List.filterMap_cons, PeerItem.endpoint?, n1], by simp [List.filterMap_cons, PeerItem.psk?, n2], by simpa [List.filterMap_cons, PeerItem.out?] using q4, nofun⟩,
      by simp [List.filterMap_cons, PeerSpec.NotBoth, PeerItem.endpoint?, PeerItem.psk?, n1, n2], ?_, ?_, ?_, ?_, ?_⟩
    · simp [List.filterMap_cons, curOf, PeerSpec.meaning, PeerItem.pk?, PeerItem.endpoint?, PeerItem.psk?, PeerItem.out?, n1]
    · simpa [List.filterMap_cons, PeerItem.pk?] using s1
    · simp [List.filterMap_cons, PeerItem.endpoint?, PeerItem.psk?, n1, n2]
    · simpa [List.filterMap_cons, PeerItem.out?] using s3
    · simp [s4']
    · simp [s5']
  · have hne : (items.filterMap PeerItem.endpoint?).length + (items.filterMap PeerItem.psk?).length ≠ 1 := fun e => hn (s2.2 e)
    have n1 : items.filterMap PeerItem.endpoint? = [] := List.length_eq_zero_iff.1 (by omega)
    have n2 : items.filterMap PeerItem.psk? = [] := List.length_eq_zero_iff.1 (by omega)
    refine ⟨ok, hpk, hsk, hl, hv, hp, hd, o1, o2, ?_, rfl, trivial,
      ⟨by simpa [List.filterMap_cons, PeerItem.pk?] using q1, by simp [List.filterMap_cons, PeerItem.endpoint?, n1], by simp [List.filterMap_cons, PeerItem.psk?, n2], by simpa [List.filterMap_cons, PeerItem.out?] using q4, nofun⟩,
      by simp [List.filterMap_cons, PeerSpec.NotBoth, PeerItem.endpoint?, PeerItem.psk?, n1, n2], ?_, ?_, ?_, ?_, ?_⟩
    · simp [List.filterMap_cons, curOf, PeerSpec.meaning, PeerItem.pk?, PeerItem.endpoint?, PeerItem.psk?, PeerItem.out?, n2]
    · simpa [List.filterMap_cons, PeerItem.pk?] using s1
    · simp [List.filterMap_cons, PeerItem.endpoint?, PeerItem.psk?, n1, n2]
    · simpa [List.filterMap_cons, PeerItem.out?] using s3
    · simp [s4']
    · simp [s5']
  · have hnil := nil_of_not_one q4 (fun e => hn (s3.2 e))
    refine ⟨ok, hpk, hsk, hl, hv, hp, hd, o1, o2, ?_, rfl, trivial,
      ⟨by simpa [List.filterMap_cons, PeerItem.pk?] using q1, by simpa [List.filterMap_cons, PeerItem.endpoint?] using q2, by simpa [List.filterMap_cons, PeerItem.psk?] using q3, by simp [List.filterMap_cons, PeerItem.out?, hnil], nofun⟩,
      by simpa [List.filterMap_cons, PeerSpec.NotBoth, PeerItem.endpoint?, PeerItem.psk?] using pnb, ?_, ?_, ?_, ?_, ?_⟩
    · simp [List.filterMap_cons, curOf, PeerSpec.meaning, PeerItem.pk?, PeerItem.endpoint?, PeerItem.psk?, PeerItem.out?, hnil]
    · simpa [List.filterMap_cons, PeerItem.pk?] using s1
    · simpa [List.filterMap_cons, PeerItem.endpoint?, PeerItem.psk?] using s2
    · simp [List.filterMap_cons, PeerItem.out?, hnil]
    · simp [s4']
    · simp [s5']

/-- the next peer -/
theorem rep_next {Addr : Type} {resolve : String → Option (List Addr)} {own : List OwnItem} {done : List PeerSpec} {p : PeerSpec} {m : M Addr}
    (h : Rep resolve own done (some p) .none m) :
    Rep resolve own (done ++ [p]) (some ⟨[], none⟩) .none { m with peers := m.peers ++ [p.meaning], set := [], cur := some .default, st := .peer } := by
  obtain ⟨ok, hpk, hsk, hl, hv, hp, hd, o1, o2, hc, hs, hf, pok, pnb, _⟩ := h
  refine ⟨ok, hpk, hsk, hl, hv, by simp [hp], ?_, o1, o2, rfl, rfl, trivial, ⟨by simp, by simp, by simp, by simp, nofun⟩, by simp [PeerSpec.NotBoth], by simp, by simp, by simp, by simp, by simp⟩
  intro q hq
  rcases List.mem_append.1 hq with hq | hq
  · exact hd q hq
  · have : q = p := by simpa using hq
    subst this; exact ⟨pok, pnb⟩

theorem rep_first {Addr : Type} {resolve : String → Option (List Addr)} {own : List OwnItem} {m : M Addr}
    (h : Rep resolve own [] none .none m) (h1 : St.ownPublicKey ∈ m.set) (h2 : St.ownSecretKey ∈ m.set) :
    Rep resolve own [] (some ⟨[], none⟩) .none { m with set := [], cur := some .default, st := .peer } := by
  obtain ⟨ok, hpk, hsk, hl, hv, hp, hd, _, hc, hs, hf, s1, s2⟩ := h
  exact ⟨ok, hpk, hsk, hl, hv, hp, hd, s1.1 h1, s2.1 h2, rfl, rfl, trivial, ⟨by simp, by simp, by simp, by simp, nofun⟩, by simp [PeerSpec.NotBoth], by simp, by simp, by simp, by simp, by simp⟩

/-- a keyword -/
theorem rep_kw {Addr : Type} {resolve : String → Option (List Addr)} {own : List OwnItem} {done : List PeerSpec} {p : PeerSpec} {m : M Addr}
    (h : Rep resolve own done (some p) .none m) (hw : p.wg = none) (k : String) (s : St) (hk) :
    Rep resolve own done (some p) (.peer k s hk) { m with st := s } := by
  obtain ⟨ok, hpk, hsk, hl, hv, hp, hd, o1, o2, hc, hs, hf, pok, pnb, s1, s2, s3, s4, s5⟩ := h
  refine ⟨ok, hpk, hsk, hl, hv, hp, hd, o1, o2, hc, rfl, hw, pok, pnb, s1, s2, s3, ?_, s5⟩
  simpa using s4

theorem rep_own_kw {Addr : Type} {resolve : String → Option (List Addr)} {own : List OwnItem} {m : M Addr}
    (h : Rep resolve own [] none .none m) (k : String) (s : St) (hk) :
    Rep resolve own [] none (.own k s hk) { m with st := s } := by
  obtain ⟨ok, hpk, hsk, hl, hv, hp, hd, _, hc, hs, hf, s1, s2⟩ := h
  exact ⟨ok, hpk, hsk, hl, hv, hp, hd, rfl, hc, rfl, trivial, s1, s2⟩

/-- the WireGuard options -/
theorem rep_wg {Addr : Type} {resolve : String → Option (List Addr)} {own : List OwnItem} {done : List PeerSpec} {items : List PeerItem} {m : M Addr} :
    (∀ d t, Rep resolve own done (some ⟨items, none⟩) t m → Rep resolve own done (some ⟨items, none⟩) (.wgDev d)
      { m with set := .peerWgDev :: m.set, cur := some { (PeerSpec.meaning ⟨items, none⟩) with wg := some ⟨d, "", []⟩ }, st := .peerWgPeer }) ∧
    (∀ d q, Rep resolve own done (some ⟨items, none⟩) (.wgDev d) m → Rep resolve own done (some ⟨items, some ⟨d, q, []⟩⟩) .none
      { m with set := .peerWgPeer :: m.set, cur := some { (PeerSpec.meaning ⟨items, none⟩) with wg := some ⟨d, q, []⟩ }, st := .peerWgExtra }) ∧
    (∀ w x, x ≠ "peer" → Rep resolve own done (some ⟨items, some w⟩) .none m → Rep resolve own done (some ⟨items, some { w with extra := w.extra ++ [x] }⟩) .none
      { m with cur := some { (PeerSpec.meaning ⟨items, none⟩) with wg := some { w with extra := w.extra ++ [x] } } }) := by
  refine ⟨fun d t h => ?_, fun d q h => ?_, fun w x hx h => ?_⟩
  · obtain ⟨ok, hpk, hsk, hl, hv, hp, hd, o1, o2, hc, hs, hf, pok, pnb, s1, s2, s3, s4, s5⟩ := h
    exact ⟨ok, hpk, hsk, hl, hv, hp, hd, o1, o2, rfl, rfl, rfl, pok, pnb, by simpa using s1, by simpa using s2, by simpa using s3, by simp, by simpa using s5⟩
  · obtain ⟨ok, hpk, hsk, hl, hv, hp, hd, o1, o2, hc, hs, hf, pok, pnb, s1, s2, s3, s4, s5⟩ := h
    refine ⟨ok, hpk, hsk, hl, hv, hp, hd, o1, o2, rfl, rfl, trivial, ⟨pok.pk, pok.endpoint, pok.psk, pok.out, ?_⟩, pnb, by simpa using s1, by simpa using s2, by simpa using s3, by simpa using s4, by simp⟩
    intro w hw; cases hw; exact nofun
  · obtain ⟨ok, hpk, hsk, hl, hv, hp, hd, o1, o2, hc, hs, hf, pok, pnb, s1, s2, s3, s4, s5⟩ := h
    refine ⟨ok, hpk, hsk, hl, hv, hp, hd, o1, o2, rfl, hs, trivial, ⟨pok.pk, pok.endpoint, pok.psk, pok.out, ?_⟩, pnb, s1, s2, s3, by simpa using s4, by simpa using s5⟩
    intro w' hw'
    cases hw'
    rw [List.mem_append]
    rintro (h | h)
    · exact pok.extra w rfl h
    · exact hx (List.mem_singleton.1 h).symm

set_option maxHeartbeats 1000000 in
/-- one token: the parser does not panic, and accepts only continuations of a command line -/
theorem rep_step {Addr : Type} {resolve : String → Option (List Addr)} {own : List OwnItem} {done : List PeerSpec} {cur : Option PeerSpec} {t : Tail} {m : M Addr}
    (h : Rep resolve own done cur t m) (a : String) :
    m.step resolve a ≠ .error .panic ∧ ∀ m', m.step resolve a = .ok m' →
      ∃ own' done' cur' t', Rep resolve own' done' cur' t' m' ∧ tokens own' done' cur' t' = tokens own done cur t ++ [a] := by
  have h0 := h
  obtain ⟨pk, sk, listen, verbose, peers, set, st, mc⟩ := m
  cases cur with
  | none =>
    obtain ⟨_, _, _, _, _, _, _, hdone, hc, hs, hf, _, _⟩ := h0
    dsimp only at hc hs
    subst hdone; subst hc
    cases t with
    | none =>
      subst hs
      show M.step resolve ⟨pk, sk, listen, verbose, peers, set, .own, none⟩ a ≠ _ ∧ ∀ m', M.step resolve ⟨pk, sk, listen, verbose, peers, set, .own, none⟩ a = _ → _
      unfold M.step
      dsimp only
      by_cases e1 : a = "public-key"
      · rw [if_pos e1]; refine ⟨nofun, fun m' hm => ?_⟩; cases hm
        exact ⟨_, _, _, _, rep_own_kw h "public-key" .ownPublicKey (by simp), by simp [tokens, Tail.render, e1]⟩
      rw [if_neg e1]
      by_cases e2 : a = "secret-key"
      · rw [if_pos e2]; refine ⟨nofun, fun m' hm => ?_⟩; cases hm
        exact ⟨_, _, _, _, rep_own_kw h "secret-key" .ownSecretKey (by simp), by simp [tokens, Tail.render, e2]⟩
      rw [if_neg e2]
      by_cases e3 : a = "private-key"
      · rw [if_pos e3]; refine ⟨nofun, fun m' hm => ?_⟩; cases hm
        exact ⟨_, _, _, _, rep_own_kw h "private-key" .ownSecretKey (by simp), by simp [tokens, Tail.render, e3]⟩
      rw [if_neg e3]
      by_cases e4 : a = "listen"
      · rw [if_pos e4]; refine ⟨nofun, fun m' hm => ?_⟩; cases hm
        exact ⟨_, _, _, _, rep_own_kw h "listen" .ownListen (by simp), by simp [tokens, Tail.render, e4]⟩
      rw [if_neg e4]
      by_cases e5 : a = "verbose"
      · rw [if_pos e5]; refine ⟨nofun, fun m' hm => ?_⟩; cases hm
        exact ⟨_, _, _, _, (rep_own h).2.2.2 rfl, by simp [tokens, Tail.render, e5, OwnItem.render]⟩
      rw [if_neg e5]
      by_cases e6 : a = "peer"
      · rw [if_pos e6]
        by_cases k1 : St.ownPublicKey ∈ set
        · rw [if_neg (not_not_intro k1)]
          by_cases k2 : St.ownSecretKey ∈ set
          · rw [if_neg (not_not_intro k2)]; refine ⟨nofun, fun m' hm => ?_⟩; cases hm
            exact ⟨_, _, _, _, rep_first h k1 k2, by simp [tokens, Tail.render, e6, PeerSpec.render, PeerSpec.body]⟩
          · rw [if_pos k2]; exact ⟨nofun, nofun⟩
        · rw [if_pos k1]; exact ⟨nofun, nofun⟩
      rw [if_neg e6]
      exact ⟨nofun, nofun⟩
    | own k s hk =>
      dsimp only [Tail.ownSt] at hs
      have hk' := hk
      simp only [List.mem_cons, Prod.mk.injEq, List.not_mem_nil, or_false] at hk'
      rcases hk' with ⟨e1, e2⟩ | ⟨e1, e2⟩ | ⟨e1, e2⟩ | ⟨e1, e2⟩
      · subst e1; subst e2; subst hs
        refine ⟨once_no_panic, fun m' hm => ?_⟩
        obtain ⟨hn, rfl⟩ := once_ok hm
        exact ⟨_, _, _, _, (rep_own h).1 a hn, by simp [tokens, Tail.render, OwnItem.render]⟩
      · subst e1; subst e2; subst hs
        refine ⟨once_no_panic, fun m' hm => ?_⟩
        obtain ⟨hn, rfl⟩ := once_ok hm
        exact ⟨_, _, _, _, (rep_own h).2.1 false a hn, by simp [tokens, Tail.render, OwnItem.render]⟩
      · subst e1; subst e2; subst hs
        refine ⟨once_no_panic, fun m' hm => ?_⟩
        obtain ⟨hn, rfl⟩ := once_ok hm
        exact ⟨_, _, _, _, (rep_own h).2.1 true a hn, by simp [tokens, Tail.render, OwnItem.render]⟩
      · subst e1; subst e2; subst hs
        unfold M.step
        dsimp only
        cases hr : resolve a with
        | none => exact ⟨nofun, nofun⟩
        | some as =>
          refine ⟨nofun, fun m' hm => ?_⟩
          cases hm
          exact ⟨_, _, _, _, (rep_own h).2.2.1 a as hr, by simp [tokens, Tail.render, OwnItem.render]⟩
    | peer k s hk => exact hf.elim
    | wgDev d => exact hf.elim
  | some p =>
    obtain ⟨_, _, _, _, _, _, _, _, _, hc, hs, hf, _, _, s1, s2, s3, s4, s5⟩ := h0
    dsimp only at hc hs s1 s2 s3 s4 s5
    subst hc
    obtain ⟨items, wg⟩ := p
    cases t with
    | none =>
      cases wg with
      | none =>
        have hs' : st = .peer := hs
        subst hs'
        show M.step resolve ⟨pk, sk, listen, verbose, peers, set, .peer, some (PeerSpec.meaning ⟨items, none⟩)⟩ a ≠ _ ∧ ∀ m', M.step resolve ⟨pk, sk, listen, verbose, peers, set, .peer, some (PeerSpec.meaning ⟨items, none⟩)⟩ a = _ → _
        unfold M.step
        dsimp only
        by_cases e0 : a = "peer"
        · rw [if_pos e0]; refine ⟨nofun, fun m' hm => ?_⟩; cases hm
          exact ⟨_, _, _, _, rep_next h, by simp [tokens, Tail.render, e0, PeerSpec.render, PeerSpec.body]⟩
        rw [if_neg e0]
        by_cases e1 : a = "public-key"
        · rw [if_pos e1]; refine ⟨nofun, fun m' hm => ?_⟩; cases hm
          exact ⟨_, _, _, _, rep_kw h rfl "public-key" .peerPublicKey (by simp), by simp [tokens, Tail.render, e1]⟩
        rw [if_neg e1]
        by_cases e2 : a = "endpoint"
        · rw [if_pos e2]; refine ⟨nofun, fun m' hm => ?_⟩; cases hm
          exact ⟨_, _, _, _, rep_kw h rfl "endpoint" .peerEndpoint (by simp), by simp [tokens, Tail.render, e2]⟩
        rw [if_neg e2]
        by_cases e3 : a = "preshared-key"
        · rw [if_pos e3]; refine ⟨nofun, fun m' hm => ?_⟩; cases hm
          exact ⟨_, _, _, _, rep_kw h rfl "preshared-key" .peerPsk (by simp), by simp [tokens, Tail.render, e3]⟩
        rw [if_neg e3]
        by_cases e4 : a = "outfile"
        · rw [if_pos e4]; refine ⟨nofun, fun m' hm => ?_⟩; cases hm
          exact ⟨_, _, _, _, rep_kw h rfl "outfile" .peerOutfile (by simp), by simp [tokens, Tail.render, e4]⟩
        rw [if_neg e4]
        by_cases e5 : a = "wireguard"
        · rw [if_pos e5]; refine ⟨nofun, fun m' hm => ?_⟩; cases hm
          exact ⟨_, _, _, _, rep_kw h rfl "wireguard" .peerWgDev (by simp), by simp [tokens, Tail.render, e5]⟩
        rw [if_neg e5]
        exact ⟨nofun, nofun⟩
      | some w =>
        have hs' : st = .peerWgExtra := hs
        subst hs'
        show M.step resolve ⟨pk, sk, listen, verbose, peers, set, .peerWgExtra, some (PeerSpec.meaning ⟨items, some w⟩)⟩ a ≠ _ ∧ ∀ m', M.step resolve ⟨pk, sk, listen, verbose, peers, set, .peerWgExtra, some (PeerSpec.meaning ⟨items, some w⟩)⟩ a = _ → _
        unfold M.step
        dsimp only
        by_cases e0 : a = "peer"
        · rw [if_pos e0]; refine ⟨nofun, fun m' hm => ?_⟩; cases hm
          exact ⟨_, _, _, _, rep_next h, by simp [tokens, Tail.render, e0, PeerSpec.render, PeerSpec.body]⟩
        rw [if_neg e0]
        refine ⟨nofun, fun m' hm => ?_⟩
        cases hm
        exact ⟨_, _, _, _, rep_wg.2.2 w a e0 h, by simp [tokens, Tail.render, PeerSpec.render, PeerSpec.body, wgRender]⟩
    | own k s hk => exact hf.elim
    | peer k s hk =>
      have hw : wg = none := hf
      subst hw
      dsimp only [curSt] at hs
      have hk' := hk
      simp only [List.mem_cons, Prod.mk.injEq, List.not_mem_nil, or_false] at hk'
      rcases hk' with ⟨e1, e2⟩ | ⟨e1, e2⟩ | ⟨e1, e2⟩ | ⟨e1, e2⟩ | ⟨e1, e2⟩
      · subst e1; subst e2; subst hs
        refine ⟨once_no_panic, fun m' hm => ?_⟩
        obtain ⟨hn, rfl⟩ := once_ok hm
        exact ⟨_, _, _, _, (rep_peer h nofun rfl).1 a hn, by simp [tokens, Tail.render, PeerSpec.render, PeerSpec.body, PeerItem.render]⟩
      · subst e1; subst e2; subst hs
        refine ⟨once_no_panic, fun m' hm => ?_⟩
        obtain ⟨hn, rfl⟩ := once_ok hm
        exact ⟨_, _, _, _, (rep_peer h nofun rfl).2.1 a hn, by simp [tokens, Tail.render, PeerSpec.render, PeerSpec.body, PeerItem.render]⟩
      · subst e1; subst e2; subst hs
        refine ⟨once_no_panic, fun m' hm => ?_⟩
        obtain ⟨hn, rfl⟩ := once_ok hm
        exact ⟨_, _, _, _, (rep_peer h nofun rfl).2.2.1 a hn, by simp [tokens, Tail.render, PeerSpec.render, PeerSpec.body, PeerItem.render]⟩
      · subst e1; subst e2; subst hs
        refine ⟨once_no_panic, fun m' hm => ?_⟩
        obtain ⟨hn, rfl⟩ := once_ok hm
        exact ⟨_, _, _, _, (rep_peer h nofun rfl).2.2.2 a hn, by simp [tokens, Tail.render, PeerSpec.render, PeerSpec.body, PeerItem.render]⟩
      · subst e1; subst e2; subst hs
        have hn : St.peerWgDev ∉ set := by
          intro e
          rcases s4.1 e with h | ⟨d, h⟩ <;> cases h
        show M.step resolve ⟨pk, sk, listen, verbose, peers, set, .peerWgDev, some (PeerSpec.meaning ⟨items, none⟩)⟩ a ≠ _ ∧ ∀ m', M.step resolve ⟨pk, sk, listen, verbose, peers, set, .peerWgDev, some (PeerSpec.meaning ⟨items, none⟩)⟩ a = _ → _
        unfold M.step
        dsimp only
        rw [if_neg hn, if_neg (by simp [PeerSpec.meaning])]
        refine ⟨nofun, fun m' hm => ?_⟩
        cases hm
        exact ⟨_, _, _, _, rep_wg.1 a _ h, by simp [tokens, Tail.render]⟩
    | wgDev d =>
      have hw : wg = none := hf
      subst hw
      have hs' : st = .peerWgPeer := hs
      subst hs'
      have hn : St.peerWgPeer ∉ set := by intro e; have := s5.1 e; cases this
      show M.step resolve ⟨pk, sk, listen, verbose, peers, set, .peerWgPeer, some { (PeerSpec.meaning ⟨items, none⟩) with wg := some ⟨d, "", []⟩ }⟩ a ≠ _ ∧
        ∀ m', M.step resolve ⟨pk, sk, listen, verbose, peers, set, .peerWgPeer, some { (PeerSpec.meaning ⟨items, none⟩) with wg := some ⟨d, "", []⟩ }⟩ a = _ → _
      unfold M.step
      dsimp only
      rw [if_neg hn]
      refine ⟨nofun, fun m' hm => ?_⟩
      cases hm
      exact ⟨_, _, _, _, rep_wg.2.1 d a h, by simp [tokens, Tail.render, PeerSpec.render, PeerSpec.body, wgRender]⟩

theorem rep_init {Addr : Type} (resolve : String → Option (List Addr)) : Rep resolve [] [] none .none (M.init : M Addr) :=
  ⟨⟨by simp, by simp, by simp⟩, rfl, rfl, rfl, rfl, rfl, nofun, rfl, rfl, rfl, trivial, by simp [M.init], by simp [M.init]⟩

theorem rep_run {Addr : Type} {resolve : String → Option (List Addr)} (args : List String) : ∀ {own : List OwnItem} {done : List PeerSpec} {cur : Option PeerSpec} {t : Tail} {m : M Addr},
    Rep resolve own done cur t m → m.run resolve args ≠ .error .panic ∧ ∀ m', m.run resolve args = .ok m' →
      ∃ own' done' cur' t', Rep resolve own' done' cur' t' m' ∧ tokens own' done' cur' t' = tokens own done cur t ++ args := by
  induction args with
  | nil =>
    intro own done cur t m h
    exact ⟨nofun, fun m' hm => by cases hm; exact ⟨_, _, _, _, h, by simp⟩⟩
  | cons a as ih =>
    intro own done cur t m h
    obtain ⟨h1, h2⟩ := rep_step h a
    unfold M.run
    cases hs : m.step resolve a with
    | error e =>
      refine ⟨fun x => ?_, nofun⟩
      cases x; exact h1 hs
    | ok m1 =>
      obtain ⟨o1, d1, c1, t1, r1, e1⟩ := h2 m1 hs
      obtain ⟨h3, h4⟩ := ih r1
      refine ⟨h3, fun m' hm => ?_⟩
      obtain ⟨o2, d2, c2, t2, r2, e2⟩ := h4 m' hm
      exact ⟨o2, d2, c2, t2, r2, by rw [e2, e1, List.append_assoc]; rfl⟩

/-- **C53.** Parsing never panics, whatever the arguments and whatever names resolve to. -/
theorem parse_args_no_panic {Addr : Type} (resolve : String → Option (List Addr)) (args : List String) : parseArgs resolve args ≠ .error .panic := by
  have h := (rep_run (resolve := resolve) args (rep_init resolve)).1
  unfold parseArgs
  cases hr : M.init.run resolve args with
  | error e => rw [hr] at h; exact fun x => h (by cases x; rfl)
  | ok m => exact nofun

end Verif.Config
