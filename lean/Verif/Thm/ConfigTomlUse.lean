import Verif.Thm.ConfigToml
import Verif.Thm.CliEx
/-
Configuration files of `rp` (C138), saved configurations as TOML (C116, C139), examples.
-/
namespace Verif.ConfigToml
open Config (Wg Api Config)
open FileIO (Fs)

/-! ### The configuration file of `rp` -/

/-- The peer `p` is configured as the entry `k = v` of its table says. -/
inductive RpPeerSays (parse : String → Option Addr) (p : RpExchange.Peer) : String → Val → Prop
  | dir : RpPeerSays parse p "public_keys_dir" (.str p.dir)
  | endpoint {s : String} {a : Addr} : p.endpoint = some a → parse s = some a → RpPeerSays parse p "endpoint" (.str s)
  | keepalive {n : Nat} : p.keepalive = some n → RpPeerSays parse p "persistent_keepalive" (.int n)
  | allowedIps {s : String} : p.allowedIps = some s → RpPeerSays parse p "allowed_ips" (.str s)
  | version {v : Val} : IsName v (if p.version = .v02 then "V02" else "V03") → RpPeerSays parse p "protocol_version" v

/-- The peer is what its table says, all of it, or what the first elements of its array say. -/
def RpPeerRead (parse : String → Option Addr) (p : RpExchange.Peer) (v : Val) : Prop :=
  (∃ es, v = .tbl es ∧ get es "public_keys_dir" ≠ none ∧ (get es "endpoint" = none → p.endpoint = none) ∧ (get es "persistent_keepalive" = none → p.keepalive = none) ∧
    (get es "allowed_ips" = none → p.allowedIps = none) ∧ (get es "protocol_version" = none → p.version = .v02) ∧ ∀ k v, (k, v) ∈ es → RpPeerSays parse p k v) ∨
  (∃ d e k a r, v = .arr (d :: e :: k :: a :: r) ∧ RpPeerSays parse p "public_keys_dir" d ∧ RpPeerSays parse p "endpoint" e ∧ RpPeerSays parse p "persistent_keepalive" k ∧
    RpPeerSays parse p "allowed_ips" a ∧ (r = [] → p.version = .v02) ∧ ∀ x, r.head? = some x → RpPeerSays parse p "protocol_version" x)

/-- The options `o` (and `verbose`) are as the entry `k = v` of the file says. -/
inductive RpSays (parse : String → Option Addr) (verbose : Bool) (o : RpExchange.Options) : String → Val → Prop
  | verbose : RpSays parse verbose o "verbose" (.bool verbose)
  | dir : RpSays parse verbose o "private_keys_dir" (.str o.dir)
  | dev {s : String} : o.dev = some s → RpSays parse verbose o "dev" (.str s)
  | ip {s : String} : o.ip = some s → RpSays parse verbose o "ip" (.str s)
  | listen {s : String} {a : Addr} : o.listen = some a → parse s = some a → RpSays parse verbose o "listen" (.str s)
  | peers {l : List Val} : List.Forall₂ (RpPeerRead parse) o.peers l → RpSays parse verbose o "peers" (.arr l)

theorem deAddr_some {A : Type} {parse : String → Option A} {v : Val} {a : A} (h : deAddr parse v = some a) : ∃ s, v = .str s ∧ parse s = some a := by
  cases v <;> first | (cases h; done) | exact ⟨_, rfl, h⟩

theorem deU32_some {v : Val} {n : Nat} (h : deU32 v = some n) : v = .int n := by
  cases v <;> first | (cases h; done) | skip
  rename_i m
  rw [deU32] at h
  split at h
  · rename_i hm
    cases h
    rw [Int.toNat_of_nonneg hm.1]
  · cases h

theorem isName_version {v : Val} {x : Version} (h : deEnum protocolVersion v = some x) : IsName v (if x = .v02 then "V02" else "V03") := by
  obtain ⟨s, hs, hs'⟩ := deEnum_some h
  rwa [version_some hs'] at hs

theorem others_all {fields : List String} {es : Tbl} (h : (others fields es).isEmpty = true) {k : String} {v : Val} (hm : (k, v) ∈ es) : k ∈ fields := by
  by_cases hk : k ∈ fields
  · exact hk
  · have := mem_others.2 ⟨hm, hk⟩
    rw [List.isEmpty_iff.1 h] at this
    cases this

theorem rpPeer_read {parse : String → Option Addr} {v : Val} {p : RpExchange.Peer} (ho : OnceEach v) (h : deRpPeer parse v = some p) : RpPeerRead parse p v := by
  unfold deRpPeer at h
  split at h
  · rename_i es
    have hn : (es.map (·.1)).Nodup := by cases ho; assumption
    split at h
    · rename_i hl
      split at h
      · rename_i d e k a ver h1 h2 h3 h4 h5
        cases h
        have h1 := need_str h1
        have h2 := opt_some h2
        have h3 := opt_some h3
        have h4 := opt_some h4
        have h5 := dflt_some h5
        refine .inl ⟨es, rfl, (by rw [h1]; exact Option.some_ne_none _), ?_, ?_, ?_, ?_, ?_⟩
        · rcases h2 with h2 | ⟨v, y, hv, _⟩
          · exact fun _ => h2.2
          · rw [hv]; exact fun h => by cases h
        · rcases h3 with h2 | ⟨v, y, hv, _⟩
          · exact fun _ => h2.2
          · rw [hv]; exact fun h => by cases h
        · rcases h4 with h2 | ⟨v, y, hv, _⟩
          · exact fun _ => h2.2
          · rw [hv]; exact fun h => by cases h
        · rcases h5 with h2 | ⟨v, hv, _⟩
          · exact fun _ => h2.2
          · rw [hv]; exact fun h => by cases h
        · intro k v hm
          have hg := mem_get hn hm
          have hk := others_all hl hm
          rcases List.mem_cons.1 hk with rfl | hk
          · rw [h1] at hg; cases hg; exact .dir
          rcases List.mem_cons.1 hk with rfl | hk
          · rcases h2 with h2 | ⟨u, y, hu, hy, e⟩
            · rw [h2.1] at hg; cases hg
            · rw [hu] at hg; cases hg
              obtain ⟨s, rfl, hs⟩ := deAddr_some hy
              exact .endpoint e hs
          rcases List.mem_cons.1 hk with rfl | hk
          · rcases h3 with h2 | ⟨u, y, hu, hy, e⟩
            · rw [h2.1] at hg; cases hg
            · rw [hu] at hg; cases hg; rw [deU32_some hy]; exact .keepalive e
          rcases List.mem_cons.1 hk with rfl | hk
          · rcases h4 with h2 | ⟨u, y, hu, hy, e⟩
            · rw [h2.1] at hg; cases hg
            · rw [hu] at hg; cases hg; rw [deStr_some hy]; exact .allowedIps e
          rcases List.mem_cons.1 hk with rfl | hk
          · rcases h5 with h2 | ⟨u, hu, hy⟩
            · rw [h2.1] at hg; cases hg
            · rw [hu] at hg; cases hg; exact .version (isName_version hy)
          · cases hk
      · cases h
    · cases h
  · rename_i d e k a r
    split at h
    · rename_i d' e' k' a' ver h1 h2 h3 h4 h5
      cases h
      obtain ⟨s, rfl, hs⟩ := deAddr_some h2
      rw [deStr_some h1, deU32_some h3, deStr_some h4]
      refine .inr ⟨_, _, _, _, r, rfl, .dir, .endpoint rfl hs, .keepalive rfl, .allowedIps rfl, ?_, ?_⟩
      · rintro rfl
        cases h5; rfl
      · intro x hx
        cases r with
        | nil => cases hx
        | cons y r =>
          cases hx
          exact .version (isName_version h5)
    · cases h
  · cases h

/-- **C138 for `rp`, the part that holds.** If the configuration file of `rp` is accepted, every entry of it is what the options say, and everything else has its default
(except that a peer may be given as an array, of which elements after the fifth are not looked at). -/
theorem rp_read_whole_partial {parse : String → Option Addr} {v : Val} {b : Bool} {o : RpExchange.Options} (ho : OnceEach v) (h : deOptions parse v = some (b, o)) :
    ∃ es, v = .tbl es ∧ get es "verbose" ≠ none ∧ get es "private_keys_dir" ≠ none ∧ get es "peers" ≠ none ∧ (get es "dev" = none → o.dev = none) ∧
      (get es "ip" = none → o.ip = none) ∧ (get es "listen" = none → o.listen = none) ∧ ∀ k v, (k, v) ∈ es → RpSays parse b o k v := by
  have hv : ∃ es, v = .tbl es := by cases v <;> first | (cases h; done) | exact ⟨_, rfl⟩
  obtain ⟨es, rfl⟩ := hv
  obtain ⟨hn, hoe⟩ : (es.map (·.1)).Nodup ∧ ∀ e ∈ es, OnceEach e.2 := by cases ho; exact ⟨by assumption, by assumption⟩
  rw [deOptions] at h
  split at h
  · rename_i hl
    split at h
    · rename_i bb d dev ip l ps h1 h2 h3 h4 h5 h6
      cases h
      obtain ⟨v1, g1, h1⟩ := need_some h1
      have h2 := need_str h2
      have h3 := opt_some h3
      have h4 := opt_some h4
      have h5 := opt_some h5
      obtain ⟨v6, g6, h6⟩ := need_some h6
      refine ⟨es, rfl, (by rw [g1]; exact Option.some_ne_none _), (by rw [h2]; exact Option.some_ne_none _), (by rw [g6]; exact Option.some_ne_none _), ?_, ?_, ?_, ?_⟩
      · rcases h3 with h2 | ⟨v, y, hv, _⟩
        · exact fun _ => h2.2
        · rw [hv]; exact fun h => by cases h
      · rcases h4 with h2 | ⟨v, y, hv, _⟩
        · exact fun _ => h2.2
        · rw [hv]; exact fun h => by cases h
      · rcases h5 with h2 | ⟨v, y, hv, _⟩
        · exact fun _ => h2.2
        · rw [hv]; exact fun h => by cases h
      · intro k v hm
        have hg := mem_get hn hm
        have hk := others_all hl hm
        rcases List.mem_cons.1 hk with rfl | hk
        · rw [g1] at hg; cases hg
          cases v1 <;> first | (cases h1; done) | (cases h1; exact .verbose)
        rcases List.mem_cons.1 hk with rfl | hk
        · rw [h2] at hg; cases hg; exact .dir
        rcases List.mem_cons.1 hk with rfl | hk
        · rcases h3 with h2 | ⟨u, y, hu, hy, e⟩
          · rw [h2.1] at hg; cases hg
          · rw [hu] at hg; cases hg; rw [deStr_some hy]; exact .dev e
        rcases List.mem_cons.1 hk with rfl | hk
        · rcases h4 with h2 | ⟨u, y, hu, hy, e⟩
          · rw [h2.1] at hg; cases hg
          · rw [hu] at hg; cases hg; rw [deStr_some hy]; exact .ip e
        rcases List.mem_cons.1 hk with rfl | hk
        · rcases h5 with h2 | ⟨u, y, hu, hy, e⟩
          · rw [h2.1] at hg; cases hg
          · rw [hu] at hg; cases hg
            obtain ⟨s, rfl, hs⟩ := deAddr_some hy
            exact .listen e hs
        rcases List.mem_cons.1 hk with rfl | hk
        · rw [g6] at hg; cases hg
          obtain ⟨l, rfl, hl⟩ := deVec_some h6
          have : ∀ v ∈ l, OnceEach v := by
            have := hoe _ hm
            cases this
            assumption
          exact .peers (forall₂_mem hl fun p v hv hp => rpPeer_read (this v hv) hp)
        · cases hk
    · cases h
  · cases h

/-! ### Saved configurations -/

/-- TOML text, as the `toml` crate writes and reads it -/
structure Text where
  print : Val → Bytes
  parse : Bytes → Option Val

/-- What is written of this value is read as the same value, perhaps with tables in another order. (Assumed only of values in which tables have each key once: `ser_once`.) -/
def Text.Faithful (t : Text) (v : Val) : Prop := OnceEach v → ∃ v', t.parse (t.print v) = some v' ∧ Same v v'

/-- The process of Model/Cli.lean reads and writes TOML by this text format and the instances of Model/ConfigToml.lean. -/
structure UsesToml (w : Cli.World) (t : Text) (addr : String → Option Addr) (disp : Addr → String) : Prop where
  read : ∀ b, w.toml b = (t.parse b).bind (deConfig addr)
  write : ∀ c, w.ser c = t.print (serConfig disp c)

/-- **C139, for files.** A configuration that is written is read back. -/
theorem file_read_back {w : Cli.World} {t : Text} {addr : String → Option Addr} {disp : Addr → String} (h : UsesToml w t addr disp) {c : Config Addr}
    (ht : t.Faithful (serConfig disp c)) (hp : ∀ a ∈ c.listen, addr (disp a) = some a) (hc : FdsFit c) : w.toml (w.ser c) = some c := by
  obtain ⟨v', hv, hs⟩ := ht (ser_once disp c)
  rw [h.write, h.read, hv]
  exact read_back hp hc hs

/-- **C116, in part, without assuming anything of the instances of serde.** -/
theorem saved_restarts_toml_partial {C : Crypto} {w : Cli.World} {t : Text} {addr : String → Option Addr} {disp : Addr → String} (h : UsesToml w t addr disp) (a : Cli.Args) (fs : Fs)
    (first : String) (rest : List String) (p : String) (ha : a.command = some (.exchange first rest (some p))) (c : Config Addr)
    (hc : Config.parseArgs (w.disk fs).resolve (first :: rest) = .ok c) (ht : t.Faithful (serConfig disp c)) (hp : ∀ a ∈ c.listen, addr (disp a) = some a) (hr : w.readable p = true) (hl : Cli.AllLiteral c)
    (hst : (Cli.store w fs p c).1 = .ok) : Cli.run C w { a with command := some (.exchangeConfig p) } (Cli.store w fs p c).2 = Cli.run C w a fs := by
  refine Cli.saved_restarts_partial a fs first rest p ha c hc (file_read_back h ht hp ?_) hr hl hst
  unfold Config.parseArgs at hc
  split at hc
  · cases hc
  · cases hc
    intro n hn
    rcases hn with hn | hn <;> cases hn

/-! ### Orders of tables -/

theorem forall₂_refl {R : Val → Val → Prop} : ∀ {l : List Val}, (∀ v ∈ l, R v v) → List.Forall₂ R l l
  | [], _ => .nil
  | _ :: _, h => .cons (h _ List.mem_cons_self) (forall₂_refl fun v hv => h v (List.mem_cons_of_mem _ hv))

theorem same_perm {l l' : Tbl} (hp : l.Perm l') (hn : (l.map (·.1)).Nodup) (hs : ∀ e ∈ l, Same e.2 e.2) : Same (.tbl l) (.tbl l') := by
  have hn' : (l'.map (·.1)).Nodup := (hp.map (·.1)).nodup_iff.1 hn
  have hg : ∀ k, get l' k = get l k := by
    intro k
    cases h : get l k with
    | none => exact get_eq_none fun v hv => get_none h v (hp.mem_iff.2 hv)
    | some v => exact mem_get hn' (hp.mem_iff.1 (get_mem h))
  refine .tbl (fun k => (get l k).getD .float) hn' ?_ ?_ ?_
  · intro k v h; rw [hg, h]; rfl
  · intro k v h; rw [h]; exact hs _ (get_mem h)
  · intro k h; rw [hg, h]

theorem same_refl {v : Val} (h : OnceEach v) : Same v v := by
  induction h with
  | str s => exact .str s
  | int n => exact .int n
  | bool b => exact .bool b
  | float => exact .float
  | date => exact .date
  | arr _ ih => exact .arr (forall₂_refl ih)
  | tbl hn _ ih => exact same_perm (.refl _) hn ih

/-! ### Examples -/
namespace Ex

/-- addresses are written by a table of two -/
def addr (s : String) : Option Addr := if s = "10.0.0.1:9999" then some (.v4 [10, 0, 0, 1] 9999) else if s = "10.0.0.2:9999" then some (.v4 [10, 0, 0, 2] 9999) else none
def disp (a : Addr) : String := if a = .v4 [10, 0, 0, 1] 9999 then "10.0.0.1:9999" else "10.0.0.2:9999"

/-- config.rs:731-748 `EXAMPLE_CONFIG` -/
def example_ : Val := .tbl [("public_key", .str "/path/to/rp-public-key"), ("secret_key", .str "/path/to/rp-secret-key"), ("listen", .arr []), ("verbosity", .str "Verbose"),
  ("peers", .arr [.tbl [("public_key", .str "/path/to/rp-peer-public-key"), ("endpoint", .str "127.0.0.1:9998"), ("key_out", .str "/path/to/rp-key-out.txt")]])]

/-- The file that `gen-config` writes is accepted; `read_whole_partial` applies to it. -/
example : deConfig addr example_ = some ⟨some ("/path/to/rp-public-key", "/path/to/rp-secret-key"), [], true,
    [⟨"/path/to/rp-peer-public-key", some "127.0.0.1:9998", none, some "/path/to/rp-key-out.txt", none, .v02, none, none⟩], ⟨[], [], []⟩⟩ := rfl

theorem example_once : OnceEach example_ := by
  refine .tbl (by decide) fun e he => ?_
  simp only [List.mem_cons, List.not_mem_nil, or_false] at he
  rcases he with rfl | rfl | rfl | rfl | rfl
  · exact .str _
  · exact .str _
  · exact .arr fun _ h => by cases h
  · exact .str _
  · refine .arr fun v hv => ?_
    rcases List.mem_singleton.1 hv with rfl
    refine .tbl (by decide) fun e he => ?_
    simp only [List.mem_cons, List.not_mem_nil, or_false] at he
    rcases he with rfl | rfl | rfl <;> exact .str _

/-- the tables the unit tests of config.rs expect (`toml_serialization`, `test_protocol_version`) -/
example : serConfig disp ⟨none, [], false, [], .default⟩ = .tbl [("api", .tbl [("listen_path", .arr []), ("listen_fd", .arr []), ("stream_fd", .arr [])]),
      ("listen", .arr []), ("verbosity", .str "Quiet"), ("peers", .arr [])] ∧
    serConfig disp ⟨some ("/my/pk", "/my/sk"), [], false, [{ Config.Peer.default with version := .v03 }], .default⟩ = .tbl [("public_key", .str "/my/pk"), ("secret_key", .str "/my/sk"),
      ("api", .tbl [("listen_path", .arr []), ("listen_fd", .arr []), ("stream_fd", .arr [])]), ("listen", .arr []), ("verbosity", .str "Quiet"),
      ("peers", .arr [.tbl [("public_key", .str ""), ("protocol_version", .str "V03")]])] := ⟨rfl, rfl⟩

/-- a configuration with everything set -/
def full : Config Addr := ⟨some ("pk", "sk"), [.v4 [10, 0, 0, 1] 9999, .v4 [10, 0, 0, 2] 9999], true,
  [⟨"a.pk", some "host:1", some "psk", some "out", some ⟨"wg0", "id=", ["x"]⟩, .v03, some "org", some ["l1", "l2"]⟩, .default], ⟨["/run/s"], [3], [-1]⟩⟩

/-- the hypotheses of `read_back`, with the top level table in reverse order -/
example : FdsFit full ∧ (∀ a ∈ full.listen, addr (disp a) = some a) ∧ ∃ l, serConfig disp full = .tbl l ∧ Same (serConfig disp full) (.tbl l.reverse) ∧ deConfig addr (.tbl l.reverse) = some full := by
  have h1 : FdsFit full := by
    intro n hn
    rcases hn with hn | hn <;> rcases List.mem_singleton.1 hn with rfl <;> decide
  have h2 : ∀ a ∈ full.listen, addr (disp a) = some a := by decide +kernel
  have ho := ser_once disp full
  refine ⟨h1, h2, _, rfl, ?_⟩
  unfold serConfig at ho ⊢
  cases ho with
  | tbl hn he =>
    have hs := same_perm (List.reverse_perm _).symm hn fun e h => same_refl (he e h)
    exact ⟨hs, read_back h2 h1 hs⟩

/-- a file with a misspelt setting (`unknown_rejected`), at the top and in a peer; a peer with a WireGuard section whose first value is of the wrong kind (the second entry is then left over) -/
example : deConfig addr (.tbl [("listen", .arr []), ("peers", .arr []), ("verbose", .bool true)]) = none ∧ "verbose" ∉ ["public_key", "secret_key", "api", "listen", "verbosity", "peers"] ∧
    (dePeer (.tbl [("public_key", .str "p"), ("psk", .str "k")])).isNone = true ∧ (dePeer (.tbl [("public_key", .str "p"), ("device", .int 0), ("peer", .str "x")])).isNone = true ∧
    (dePeer (.tbl [("public_key", .str "p"), ("osk_label", .str "l")])).isNone = true ∧ (dePeer (.arr [.str "p"])).isNone = true := ⟨rfl, by decide, rfl, rfl, rfl, rfl⟩

/-- the manual's configuration of `rp` with one peer, and one given as an array -/
def rpFile : Val := .tbl [("verbose", .bool false), ("private_keys_dir", .str "/etc/rp/sk"), ("listen", .str "10.0.0.1:9999"), ("dev", .str "rp0"), ("peers", .arr [
  .tbl [("public_keys_dir", .str "/etc/rp/pk"), ("endpoint", .str "10.0.0.2:9999"), ("persistent_keepalive", .int 25), ("protocol_version", .str "V03")],
  .arr [.str "/etc/rp/pk2", .str "10.0.0.2:9999", .int 5, .str "fe80::/64"]])]
example : deOptions addr rpFile = some (false, ⟨"/etc/rp/sk", some "rp0", none, some (.v4 [10, 0, 0, 1] 9999),
    [⟨"/etc/rp/pk", some (.v4 [10, 0, 0, 2] 9999), some 25, none, .v03⟩, ⟨"/etc/rp/pk2", some (.v4 [10, 0, 0, 2] 9999), some 5, some "fe80::/64", .v02⟩]⟩) := by
  simp [deOptions, rpFile, others, need, opt, dflt, get, deBool, deStr, deAddr, deVec, deAll, deRpPeer, deU32, deEnum, protocolVersion, addr]

/-- the process of Thm/CliEx.lean, with TOML: the hypotheses of `file_read_back` and `saved_restarts_toml_partial` -/
def text : Text := ⟨fun _ => [7], fun b => if b = [7] then some (serConfig disp Cli.Demo.saved) else none⟩
def w : Cli.World := { Cli.Demo.w with toml := fun b => (text.parse b).bind (deConfig addr), ser := fun c => text.print (serConfig disp c) }
set_option maxRecDepth 20000 in
example : UsesToml w text addr disp ∧ text.Faithful (serConfig disp Cli.Demo.saved) ∧ FdsFit Cli.Demo.saved ∧ (∀ a ∈ Cli.Demo.saved.listen, addr (disp a) = some a) ∧
    Config.parseArgs (w.disk Cli.Demo.fs).resolve Cli.Demo.cmdline = .ok Cli.Demo.saved ∧ (Cli.store w Cli.Demo.fs "new" Cli.Demo.saved).1 = .ok ∧ Cli.AllLiteral Cli.Demo.saved :=
  ⟨⟨fun _ => rfl, fun _ => rfl⟩, fun h => ⟨_, rfl, same_refl h⟩, (fun n h => (by rcases h with h | h <;> cases h)), fun a h => (by cases h), by rfl, by decide +kernel, Cli.Demo.saved_literal⟩

end Ex

end Verif.ConfigToml
