import Verif.Model.ConfigToml
import Mathlib.Data.List.Forall2
/-
Reading and writing of configuration files (C138, C139).
-/
namespace Verif.ConfigToml
open Config (Wg Api Config)

/-! ### Specification -/

/-- what a TOML file can hold: a table has each key once -/
inductive OnceEach : Val → Prop
  | str (s : String) : OnceEach (.str s)
  | int (n : Int) : OnceEach (.int n)
  | bool (b : Bool) : OnceEach (.bool b)
  | float : OnceEach .float
  | date : OnceEach .date
  | arr {l : List Val} : (∀ v ∈ l, OnceEach v) → OnceEach (.arr l)
  | tbl {l : Tbl} : (l.map (·.1)).Nodup → (∀ e ∈ l, OnceEach e.2) → OnceEach (.tbl l)

/-- the same value, up to the order of the entries of tables -/
inductive Same : Val → Val → Prop
  | str (s : String) : Same (.str s) (.str s)
  | int (n : Int) : Same (.int n) (.int n)
  | bool (b : Bool) : Same (.bool b) (.bool b)
  | float : Same .float .float
  | date : Same .date .date
  | arr {l l' : List Val} : List.Forall₂ Same l l' → Same (.arr l) (.arr l')
  | tbl {l l' : Tbl} (f : String → Val) : (l'.map (·.1)).Nodup → (∀ k v, get l k = some v → get l' k = some (f k)) →
      (∀ k v, get l k = some v → Same v (f k)) → (∀ k, get l k = none → get l' k = none) → Same (.tbl l) (.tbl l')

/-- a name of an enum, as a string or as a table with this key and nothing in it -/
def IsName (v : Val) (s : String) : Prop := v = .str s ∨ v = .tbl [(s, .tbl [])] ∨ v = .tbl [(s, .arr [])]

/-- an array of strings -/
def Strings (v : Val) (l : List String) : Prop := v = .arr (l.map .str)

/-- The peer `p` is configured as the entry `k = v` of its table says. -/
inductive PeerSays (p : Config.Peer) : String → Val → Prop
  | publicKey : PeerSays p "public_key" (.str p.publicKey)
  | endpoint {s : String} : p.endpoint = some s → PeerSays p "endpoint" (.str s)
  | psk {s : String} : p.psk = some s → PeerSays p "pre_shared_key" (.str s)
  | keyOut {s : String} : p.keyOut = some s → PeerSays p "key_out" (.str s)
  | device {w : Wg} : p.wg = some w → PeerSays p "device" (.str w.device)
  | peer {w : Wg} : p.wg = some w → PeerSays p "peer" (.str w.peer)
  | extra {w : Wg} {v : Val} : p.wg = some w → Strings v w.extra → PeerSays p "extra_params" v
  | version {v : Val} : IsName v (if p.version = .v02 then "V02" else "V03") → PeerSays p "protocol_version" v
  | org {s : String} : p.oskOrg = some s → PeerSays p "osk_organization" (.str s)
  | label {l : List String} {v : Val} : p.oskLabel = some l → Strings v l → PeerSays p "osk_label" v

/-- The table of a peer names WireGuard's settings, but not a device and a peer, or with values of the wrong kind. -/
def HalfWg (es : Tbl) : Prop :=
  ¬ ((∃ d, ("device", Val.str d) ∈ es) ∧ (∃ p, ("peer", Val.str p) ∈ es) ∧ ∀ v, ("extra_params", v) ∈ es → ∃ l, Strings v l)

/-- What is not in the table of a peer has its default. -/
structure PeerRest (p : Config.Peer) (es : Tbl) : Prop where
  publicKey : get es "public_key" = some (.str p.publicKey)
  endpoint : get es "endpoint" = none → p.endpoint = none
  psk : get es "pre_shared_key" = none → p.psk = none
  keyOut : get es "key_out" = none → p.keyOut = none
  device : get es "device" = none → p.wg = none
  peer : get es "peer" = none → p.wg = none
  extra : get es "extra_params" = none → ∀ w, p.wg = some w → w.extra = []
  version : get es "protocol_version" = none → p.version = .v02
  org : get es "osk_organization" = none → p.oskOrg = none
  label : get es "osk_label" = none → p.oskLabel = none

/-- The peer is what its table says, all of it, except that half a WireGuard section counts for nothing. -/
structure PeerRead (p : Config.Peer) (v : Val) : Prop where
  all : ∃ es, v = .tbl es ∧ PeerRest p es ∧ ∀ k v, (k, v) ∈ es →
    PeerSays p k v ∨ (k ∈ ["device", "peer", "extra_params"] ∧ HalfWg es ∧ p.wg = none)

/-- an array of numbers -/
def Numbers (v : Val) (l : List Int) : Prop := v = .arr (l.map .int)

/-- The API section, as a table with its three settings, or as an array of them -/
def ApiRead (a : Api) (v : Val) : Prop :=
  ∃ p l s, Strings p a.listenPath ∧ Numbers l a.listenFd ∧ Numbers s a.streamFd ∧
    ((∃ es, v = .tbl es ∧ get es "listen_path" = some p ∧ get es "listen_fd" = some l ∧ get es "stream_fd" = some s ∧
      ∀ k w, (k, w) ∈ es → k ∈ ["listen_path", "listen_fd", "stream_fd"]) ∨ ∃ r, v = .arr (p :: l :: s :: r))

/-- The configuration `c` is as the entry `k = v` of the file says. -/
inductive Says {A : Type} (parse : String → Option A) (c : Config A) : String → Val → Prop
  | publicKey {p s : String} : c.keypair = some (p, s) → Says parse c "public_key" (.str p)
  | secretKey {p s : String} : c.keypair = some (p, s) → Says parse c "secret_key" (.str s)
  | listen {l : List Val} : List.Forall₂ (fun a v => ∃ s, v = .str s ∧ parse s = some a) c.listen l → Says parse c "listen" (.arr l)
  | verbosity {v : Val} : IsName v (if c.verbose then "Verbose" else "Quiet") → Says parse c "verbosity" v
  | peers {l : List Val} : List.Forall₂ PeerRead c.peers l → Says parse c "peers" (.arr l)
  | api {v : Val} : ApiRead c.api v → Says parse c "api" v

/-- The file does not name both keys by strings. -/
def HalfKeypair (es : Tbl) : Prop := ¬ ∃ p s, ("public_key", Val.str p) ∈ es ∧ ("secret_key", Val.str s) ∈ es

/-- What is not in the file has its default. -/
structure Rest {A : Type} (c : Config A) (es : Tbl) : Prop where
  listen : get es "listen" ≠ none
  peers : get es "peers" ≠ none
  publicKey : get es "public_key" = none → c.keypair = none
  secretKey : get es "secret_key" = none → c.keypair = none
  verbosity : get es "verbosity" = none → c.verbose = false
  api : get es "api" = none → c.api = ⟨[], [], []⟩

/-- the file descriptors of a configuration are 32-bit numbers, as in the code -/
def FdsFit {A : Type} (c : Config A) : Prop := ∀ n, n ∈ c.api.listenFd ∨ n ∈ c.api.streamFd → -2147483648 ≤ n ∧ n ≤ 2147483647

/-! ### Lemmas about tables -/

theorem get_mem {es : Tbl} {k : String} {v : Val} (h : get es k = some v) : (k, v) ∈ es := by
  induction es with
  | nil => cases h
  | cons e r ih =>
    obtain ⟨k', v'⟩ := e
    rw [get] at h
    by_cases hk : k' = k
    · rw [if_pos hk] at h; cases h; subst hk; exact List.mem_cons_self
    · rw [if_neg hk] at h; exact List.mem_cons_of_mem _ (ih h)

theorem mem_get {es : Tbl} (hn : (es.map (·.1)).Nodup) {k : String} {v : Val} (h : (k, v) ∈ es) : get es k = some v := by
  induction es with
  | nil => cases h
  | cons e r ih =>
    obtain ⟨k', v'⟩ := e
    rw [List.map_cons, List.nodup_cons] at hn
    rw [get]
    rcases List.mem_cons.1 h with h | h
    · cases h; rw [if_pos rfl]
    · rw [if_neg]
      · exact ih hn.2 h
      · intro hk; subst hk
        exact hn.1 (List.mem_map.2 ⟨_, h, rfl⟩)

theorem get_none {es : Tbl} {k : String} (h : get es k = none) (v : Val) : (k, v) ∉ es := by
  induction es with
  | nil => exact fun h => by cases h
  | cons e r ih =>
    obtain ⟨k', v'⟩ := e
    rw [get] at h
    by_cases hk : k' = k
    · rw [if_pos hk] at h; cases h
    · rw [if_neg hk] at h
      intro hm
      rcases List.mem_cons.1 hm with hm | hm
      · cases hm; exact hk rfl
      · exact ih h hm

theorem get_filter (P : String → Bool) (es : Tbl) (k : String) (hk : P k = true) : get (es.filter fun e => P e.1) k = get es k := by
  induction es with
  | nil => rfl
  | cons e r ih =>
    obtain ⟨k', v'⟩ := e
    by_cases h : P k' = true
    · rw [List.filter_cons_of_pos (by exact h), get, get, ih]
    · rw [List.filter_cons_of_neg (by exact h), ih, get, if_neg (by rintro rfl; exact h hk)]

theorem get_others {fields : List String} (es : Tbl) {k : String} (hk : k ∉ fields) : get (others fields es) k = get es k :=
  get_filter (fun k => decide (k ∉ fields)) es k (decide_eq_true hk)

theorem mem_others {fields : List String} {es : Tbl} {k : String} {v : Val} : (k, v) ∈ others fields es ↔ (k, v) ∈ es ∧ k ∉ fields := by
  unfold others
  rw [List.mem_filter]
  exact and_congr_right fun _ => decide_eq_true_iff

theorem others_nodup {fields : List String} {es : Tbl} (h : (es.map (·.1)).Nodup) : ((others fields es).map (·.1)).Nodup :=
  h.sublist (List.filter_sublist.map _)

theorem flat_left (fields : List String) (fits : String → Val → Bool) (es : Tbl) {k : String} {v : Val} (h : (k, v) ∈ es) (hk : k ∉ fields) :
    (k, v) ∈ (flat fields fits es).2.2 := by
  induction es with
  | nil => cases h
  | cons e r ih =>
    obtain ⟨k', v'⟩ := e
    rw [flat]
    by_cases h1 : k' ∈ fields
    · rw [if_pos h1]
      have h : (k, v) ∈ r := by
        rcases List.mem_cons.1 h with h | h
        · cases h; exact absurd h1 hk
        · exact h
      by_cases h2 : fits k' v' = true
      · rw [if_pos h2]; exact ih h
      · rw [if_neg h2]; exact h
    · rw [if_neg h1]
      rcases List.mem_cons.1 h with h | h
      · cases h; exact List.mem_cons_self
      · exact List.mem_cons_of_mem _ (ih h)

theorem flat_sub (fields : List String) (fits : String → Val → Bool) (es : Tbl) {k : String} {v : Val} (h : (k, v) ∈ (flat fields fits es).2.2) : (k, v) ∈ es := by
  induction es with
  | nil => exact h
  | cons e r ih =>
    obtain ⟨k', v'⟩ := e
    rw [flat] at h
    by_cases h1 : k' ∈ fields
    · rw [if_pos h1] at h
      by_cases h2 : fits k' v' = true
      · rw [if_pos h2] at h; exact List.mem_cons_of_mem _ (ih h)
      · rw [if_neg h2] at h; exact List.mem_cons_of_mem _ h
    · rw [if_neg h1] at h
      rcases List.mem_cons.1 h with h | h
      · rw [h]; exact List.mem_cons_self
      · exact List.mem_cons_of_mem _ (ih h)

/-- all values fit: the flattened struct gets its entries, the others are left -/
theorem flat_fits (fields : List String) (fits : String → Val → Bool) (es : Tbl) (h : ∀ k v, (k, v) ∈ es → k ∈ fields → fits k v = true) :
    flat fields fits es = (es.filter (fun e => decide (e.1 ∈ fields)), true, others fields es) := by
  induction es with
  | nil => rfl
  | cons e r ih =>
    obtain ⟨k', v'⟩ := e
    have ih := ih fun k v hm => h k v (List.mem_cons_of_mem _ hm)
    rw [flat]
    by_cases h1 : k' ∈ fields
    · rw [if_pos h1, if_pos (h k' v' List.mem_cons_self h1), ih, List.filter_cons_of_pos (by exact decide_eq_true h1)]
      unfold others
      rw [List.filter_cons_of_neg (by simpa using h1)]
    · rw [if_neg h1, ih, List.filter_cons_of_neg (by simpa using h1)]
      unfold others
      rw [List.filter_cons_of_pos (by simpa using h1)]

theorem flat_misfit (fields : List String) (fits : String → Val → Bool) (es : Tbl) (h : ¬ ∀ k v, (k, v) ∈ es → k ∈ fields → fits k v = true) :
    (flat fields fits es).2.1 = false := by
  induction es with
  | nil => exact absurd (fun _ _ h => by cases h) h
  | cons e r ih =>
    obtain ⟨k', v'⟩ := e
    rw [flat]
    by_cases h1 : k' ∈ fields
    · rw [if_pos h1]
      by_cases h2 : fits k' v' = true
      · rw [if_pos h2]
        refine ih fun h3 => h fun k v hm hk => ?_
        rcases List.mem_cons.1 hm with hm | hm
        · cases hm; exact h2
        · exact h3 k v hm hk
      · rw [if_neg h2]
    · rw [if_neg h1]
      refine ih fun h3 => h fun k v hm hk => ?_
      rcases List.mem_cons.1 hm with hm | hm
      · cases hm; exact absurd hk h1
      · exact h3 k v hm hk

/-! ### Simple values -/

theorem deStr_some {v : Val} {s : String} (h : deStr v = some s) : v = .str s := by
  cases v <;> first | (cases h; rfl) | cases h

theorem deAll_some {α : Type} {f : Val → Option α} : ∀ {l : List Val} {r : List α}, deAll f l = some r → List.Forall₂ (fun x v => f v = some x) r l
  | [], r, h => by cases h; exact .nil
  | v :: l, r, h => by
    rw [deAll] at h
    split at h
    · cases h
    · rename_i x hx
      cases hl : deAll f l with
      | none => rw [hl] at h; cases h
      | some r' => rw [hl] at h; cases h; exact .cons hx (deAll_some hl)

theorem deVec_some {α : Type} {f : Val → Option α} {v : Val} {r : List α} (h : deVec f v = some r) : ∃ l, v = .arr l ∧ List.Forall₂ (fun x v => f v = some x) r l := by
  cases v <;> first | (cases h; done) | exact ⟨_, rfl, deAll_some h⟩

theorem forall₂_map {α : Type} {g : α → Val} {r : List α} {l : List Val} (h : List.Forall₂ (fun x v => v = g x) r l) : l = r.map g := by
  induction h with
  | nil => rfl
  | cons h _ ih => rw [List.map_cons, h, ih]

theorem deVec_strings {v : Val} {r : List String} (h : deVec deStr v = some r) : Strings v r := by
  obtain ⟨l, rfl, hl⟩ := deVec_some h
  rw [Strings, forall₂_map (hl.imp fun _ _ => deStr_some)]

theorem deI32_some {v : Val} {n : Int} (h : deI32 v = some n) : v = .int n := by
  cases v <;> first | (cases h; done) | skip
  rename_i m
  rw [deI32] at h
  split at h <;> cases h
  rfl

theorem deVec_numbers {v : Val} {r : List Int} (h : deVec deI32 v = some r) : Numbers v r := by
  obtain ⟨l, rfl, hl⟩ := deVec_some h
  rw [Numbers, forall₂_map (hl.imp fun _ _ => deI32_some)]

theorem deEnum_some {α : Type} {name : String → Option α} {v : Val} {x : α} (h : deEnum name v = some x) : ∃ s, IsName v s ∧ name s = some x := by
  unfold deEnum at h
  split at h
  · exact ⟨_, .inl rfl, h⟩
  · exact ⟨_, .inr (.inl rfl), h⟩
  · exact ⟨_, .inr (.inr rfl), h⟩
  · cases h

theorem verbosity_some {s : String} {b : Bool} (h : verbosity s = some b) : s = if b then "Verbose" else "Quiet" := by
  unfold verbosity at h
  split at h <;> cases h <;> rfl

theorem version_some {s : String} {x : Version} (h : protocolVersion s = some x) : s = if x = .v02 then "V02" else "V03" := by
  unfold protocolVersion at h
  split at h <;> cases h <;> rfl

theorem need_some {α : Type} {f : Val → Option α} {es : Tbl} {k : String} {x : α} (h : need f es k = some x) : ∃ v, get es k = some v ∧ f v = some x := by
  unfold need at h
  cases hg : get es k with
  | none => rw [hg] at h; cases h
  | some v => rw [hg] at h; exact ⟨v, rfl, h⟩

theorem need_str {es : Tbl} {k s : String} (h : need deStr es k = some s) : get es k = some (.str s) := by
  obtain ⟨v, hv, h⟩ := need_some h
  rw [hv, deStr_some h]

theorem opt_some {α : Type} {f : Val → Option α} {es : Tbl} {k : String} {x : Option α} (h : opt f es k = some x) :
    (get es k = none ∧ x = none) ∨ ∃ v y, get es k = some v ∧ f v = some y ∧ x = some y := by
  unfold opt at h
  cases hg : get es k with
  | none => rw [hg] at h; cases h; exact .inl ⟨rfl, rfl⟩
  | some v =>
    rw [hg] at h
    cases hf : f v with
    | none => dsimp only at h; rw [hf] at h; cases h
    | some y => dsimp only at h; rw [hf] at h; cases h; exact .inr ⟨v, y, rfl, hf, rfl⟩

theorem dflt_some {α : Type} {f : Val → Option α} {d : α} {es : Tbl} {k : String} {x : α} (h : dflt f d es k = some x) :
    (get es k = none ∧ x = d) ∨ ∃ v, get es k = some v ∧ f v = some x := by
  unfold dflt at h
  cases hg : get es k with
  | none => rw [hg] at h; cases h; exact .inl ⟨rfl, rfl⟩
  | some v => rw [hg] at h; exact .inr ⟨v, rfl, h⟩

/-! ### Flattened structs -/

theorem taken_get {fields : List String} (es : Tbl) {k : String} (hk : k ∈ fields) : get (es.filter fun e => decide (e.1 ∈ fields)) k = get es k :=
  get_filter (fun k => decide (k ∈ fields)) es k (decide_eq_true hk)

theorem keypair_some {es : Tbl} {p s : String} (h : (deKeypair es).1 = some (p, s)) : get es "public_key" = some (.str p) ∧ get es "secret_key" = some (.str s) := by
  unfold deKeypair at h
  by_cases hf : ∀ k v, (k, v) ∈ es → k ∈ ["public_key", "secret_key"] → (deStr v).isSome = true
  · rw [flat_fits _ _ _ hf] at h
    dsimp only at h
    rw [if_pos rfl] at h
    split at h
    · rename_i a b ha hb
      cases h
      have ha := need_str ha
      have hb := need_str hb
      rw [taken_get _ (by decide)] at ha hb
      exact ⟨ha, hb⟩
    · cases h
  · dsimp only at h
    rw [flat_misfit _ _ _ hf, if_neg Bool.false_ne_true] at h
    cases h

theorem keypair_none {es : Tbl} (hn : (es.map (·.1)).Nodup) (h : (deKeypair es).1 = none) : HalfKeypair es := by
  rintro ⟨p, s, hp, hs⟩
  have gp := mem_get hn hp
  have gs := mem_get hn hs
  have hf : ∀ k v, (k, v) ∈ es → k ∈ ["public_key", "secret_key"] → (deStr v).isSome = true := by
    intro k v hm hk
    have hm := mem_get hn hm
    rcases List.mem_cons.1 hk with rfl | hk
    · rw [gp] at hm; cases hm; rfl
    · rcases List.mem_cons.1 hk with rfl | hk
      · rw [gs] at hm; cases hm; rfl
      · cases hk
  unfold deKeypair at h
  rw [flat_fits _ _ _ hf] at h
  dsimp only at h
  rw [if_pos rfl, need, need, taken_get _ (by decide), taken_get _ (by decide), gp, gs] at h
  cases h

theorem keypair_left {es : Tbl} (h : (deKeypair es).2 = []) {k : String} {v : Val} (hm : (k, v) ∈ es) : k ∈ ["public_key", "secret_key"] := by
  by_cases hk : k ∈ ["public_key", "secret_key"]
  · exact hk
  · have := flat_left _ (fun _ v => (deStr v).isSome) es hm hk
    unfold deKeypair at h
    dsimp only at h
    rw [h] at this
    cases this

theorem wg_some {es : Tbl} {w : Wg} (h : (deWg es).1 = some w) : get es "device" = some (.str w.device) ∧ get es "peer" = some (.str w.peer) ∧
    ((get es "extra_params" = none ∧ w.extra = []) ∨ ∃ v, get es "extra_params" = some v ∧ Strings v w.extra) := by
  unfold deWg at h
  by_cases hf : ∀ k v, (k, v) ∈ es → k ∈ ["device", "peer", "extra_params"] →
      (if k = "extra_params" then (deVec deStr v).isSome else (deStr v).isSome) = true
  · rw [flat_fits _ _ _ hf] at h
    dsimp only at h
    rw [if_pos rfl] at h
    split at h
    · rename_i a b c ha hb hc
      cases h
      have ha := need_str ha
      have hb := need_str hb
      have hc := dflt_some hc
      rw [taken_get _ (by decide)] at ha hb hc
      refine ⟨ha, hb, ?_⟩
      rcases hc with hc | ⟨v, hv, hc⟩
      · exact .inl hc
      · exact .inr ⟨v, hv, deVec_strings hc⟩
    · cases h
  · dsimp only at h
    rw [flat_misfit _ _ _ hf, if_neg Bool.false_ne_true] at h
    cases h

theorem deAll_strs (l : List String) : deAll deStr (l.map Val.str) = some l := by
  induction l with
  | nil => rfl
  | cons s l ih => rw [List.map_cons, deAll, ih]; rfl

theorem deVec_strs {v : Val} {l : List String} (h : Strings v l) : deVec deStr v = some l := by
  rw [Strings] at h
  subst h
  exact deAll_strs l

theorem wg_none {es : Tbl} (hn : (es.map (·.1)).Nodup) (h : (deWg es).1 = none) : HalfWg es := by
  rintro ⟨⟨d, hd⟩, ⟨p, hp⟩, he⟩
  have gd := mem_get hn hd
  have gp := mem_get hn hp
  have hf : ∀ k v, (k, v) ∈ es → k ∈ ["device", "peer", "extra_params"] →
      (if k = "extra_params" then (deVec deStr v).isSome else (deStr v).isSome) = true := by
    intro k v hm hk
    have hg := mem_get hn hm
    rcases List.mem_cons.1 hk with rfl | hk
    · rw [gd] at hg; cases hg; rfl
    · rcases List.mem_cons.1 hk with rfl | hk
      · rw [gp] at hg; cases hg; rfl
      · rcases List.mem_cons.1 hk with rfl | hk
        · obtain ⟨l, hl⟩ := he v hm
          rw [if_pos rfl, deVec_strs hl]; rfl
        · cases hk
  unfold deWg at h
  rw [flat_fits _ _ _ hf] at h
  dsimp only at h
  rw [if_pos rfl, need, need, dflt, taken_get _ (by decide), taken_get _ (by decide), taken_get _ (by decide), gd, gp] at h
  cases hx : get es "extra_params" with
  | none => rw [hx] at h; cases h
  | some v =>
    obtain ⟨l, hl⟩ := he v (get_mem hx)
    rw [hx] at h
    dsimp only at h
    rw [deVec_strs hl] at h
    cases h

theorem wg_left (es : Tbl) {k : String} {v : Val} (hm : (k, v) ∈ es) (hk : k ∉ ["device", "peer", "extra_params"]) : (k, v) ∈ (deWg es).2 :=
  flat_left _ _ es hm hk

theorem flat_sublist (fields : List String) (fits : String → Val → Bool) (es : Tbl) : (flat fields fits es).2.2.Sublist es := by
  induction es with
  | nil => exact .slnil
  | cons e r ih =>
    obtain ⟨k', v'⟩ := e
    rw [flat]
    by_cases h1 : k' ∈ fields
    · rw [if_pos h1]
      by_cases h2 : fits k' v' = true
      · rw [if_pos h2]; exact ih.cons _
      · rw [if_neg h2]; exact (List.Sublist.refl _).cons _
    · rw [if_neg h1]; exact ih.cons_cons _

theorem osk_some {es left : Tbl} {o : Option String} {l : Option (List String)} (h : deOsk es = some ((o, l), left)) :
    (∀ k v, (k, v) ∈ es → k ∉ ["osk_organization", "osk_label"] → (k, v) ∈ left) ∧
    ((get es "osk_organization" = none ∧ o = none) ∨ ∃ s, get es "osk_organization" = some (.str s) ∧ o = some s) ∧
    ((get es "osk_label" = none ∧ l = none) ∨ ∃ v x, get es "osk_label" = some v ∧ Strings v x ∧ l = some x) := by
  unfold deOsk at h
  by_cases hf : ∀ k v, (k, v) ∈ es → k ∈ ["osk_organization", "osk_label"] →
      (if k = "osk_label" then (deVec deStr v).isSome else (deStr v).isSome) = true
  · rw [flat_fits _ _ _ hf] at h
    dsimp only at h
    rw [if_pos rfl] at h
    split at h
    · rename_i a b ha hb
      cases h
      have ha := opt_some ha
      have hb := opt_some hb
      rw [taken_get _ (by decide)] at ha hb
      refine ⟨fun k v hm hk => mem_others.2 ⟨hm, hk⟩, ?_, ?_⟩
      · rcases ha with ha | ⟨v, y, hv, hy, e⟩
        · exact .inl ha
        · exact .inr ⟨y, by rw [hv, deStr_some hy], e⟩
      · rcases hb with hb | ⟨v, y, hv, hy, e⟩
        · exact .inl hb
        · exact .inr ⟨v, y, hv, deVec_strings hy, e⟩
    · cases h
  · dsimp only at h
    rw [flat_misfit _ _ _ hf, if_neg Bool.false_ne_true] at h
    cases h

theorem get_eq_none {es : Tbl} {k : String} (h : ∀ v, (k, v) ∉ es) : get es k = none := by
  cases hg : get es k with
  | none => rfl
  | some v => exact absurd (get_mem hg) (h v)

theorem flat_get (fields : List String) (fits : String → Val → Bool) {es : Tbl} (hn : (es.map (·.1)).Nodup) {k : String} (hk : k ∉ fields) :
    get (flat fields fits es).2.2 k = get es k := by
  have hn' := hn.sublist ((flat_sublist fields fits es).map (·.1))
  cases hg : get es k with
  | none => exact get_eq_none fun v hm => get_none hg v (flat_sub _ _ _ hm)
  | some v => exact mem_get hn' (flat_left _ _ _ (get_mem hg) hk)

/-! ### Reading -/

/-- the settings of a peer -/
def peerSettings : List String := peerFields ++ ["device", "peer", "extra_params"] ++ ["osk_organization", "osk_label"]

theorem dePeer_tbl {v : Val} {p : Config.Peer} (h : dePeer v = some p) : ∃ es, v = .tbl es := by
  cases v <;> first | (cases h; done) | exact ⟨_, rfl⟩

theorem dePeer_read {v : Val} {p : Config.Peer} (ho : OnceEach v) (h : dePeer v = some p) : PeerRead p v := by
  obtain ⟨es, rfl⟩ := dePeer_tbl h
  have hn : (es.map (·.1)).Nodup := by cases ho; assumption
  have hn1 := others_nodup (fields := peerFields) hn
  rw [dePeer] at h
  split at h
  · rename_i pk ep psk ko ver h1 h2 h3 h4 h5
    dsimp only at h
    split at h
    · cases h
    · rename_i osk left hosk
      split at h
      · rename_i hl
        have hl : left = [] := List.isEmpty_iff.1 hl
        cases h
        obtain ⟨o, l⟩ := osk
        obtain ⟨k1, k2, k3⟩ := osk_some hosk
        rw [show get (deWg (others peerFields es)).2 "osk_organization" = get es "osk_organization" by
          exact (flat_get _ _ hn1 (by decide)).trans (get_others es (by decide))] at k2
        rw [show get (deWg (others peerFields es)).2 "osk_label" = get es "osk_label" by
          exact (flat_get _ _ hn1 (by decide)).trans (get_others es (by decide))] at k3
        have hw : ∀ w, (deWg (others peerFields es)).1 = some w → get es "device" = some (.str w.device) ∧ get es "peer" = some (.str w.peer) ∧
            ((get es "extra_params" = none ∧ w.extra = []) ∨ ∃ v, get es "extra_params" = some v ∧ Strings v w.extra) := by
          intro w hw
          have := wg_some hw
          rwa [get_others es (by decide), get_others es (by decide), get_others es (by decide)] at this
        have h1 := need_str h1
        have h2 := opt_some h2
        have h3 := opt_some h3
        have h4 := opt_some h4
        have h5 := dflt_some h5
        refine ⟨⟨es, rfl, ⟨h1, ?_, ?_, ?_, ?_, ?_, ?_, ?_, ?_, ?_⟩, ?_⟩⟩
        · rcases h2 with h2 | ⟨v, y, hv, _⟩
          · exact fun _ => h2.2
          · rw [hv]; exact fun h => by cases h
        · rcases h3 with h2 | ⟨v, y, hv, _⟩
          · exact fun _ => h2.2
          · rw [hv]; exact fun h => by cases h
        · rcases h4 with h2 | ⟨v, y, hv, _⟩
          · exact fun _ => h2.2
          · rw [hv]; exact fun h => by cases h
        · intro hd
          cases hx : (deWg (others peerFields es)).1 with
          | none => rfl
          | some w => have := (hw w hx).1; rw [hd] at this; cases this
        · intro hd
          cases hx : (deWg (others peerFields es)).1 with
          | none => rfl
          | some w => have := (hw w hx).2.1; rw [hd] at this; cases this
        · intro hd w hx
          rcases (hw w hx).2.2 with h | ⟨v, hv, _⟩
          · exact h.2
          · rw [hd] at hv; cases hv
        · rcases h5 with h2 | ⟨v, hv, _⟩
          · exact fun _ => h2.2
          · rw [hv]; exact fun h => by cases h
        · rcases k2 with h2 | ⟨v, hv, _⟩
          · exact fun _ => h2.2
          · rw [hv]; exact fun h => by cases h
        · rcases k3 with h2 | ⟨v, y, hv, _⟩
          · exact fun _ => h2.2
          · rw [hv]; exact fun h => by cases h
        · intro k v hm
          have hg := mem_get hn hm
          by_cases ka : k ∈ peerFields
          · left
            rcases List.mem_cons.1 ka with rfl | ka
            · rw [h1] at hg; cases hg; exact .publicKey
            rcases List.mem_cons.1 ka with rfl | ka
            · rcases h2 with h2 | ⟨u, y, hu, hy, e⟩
              · rw [h2.1] at hg; cases hg
              · rw [hu] at hg; cases hg; rw [deStr_some hy]; exact .endpoint e
            rcases List.mem_cons.1 ka with rfl | ka
            · rcases h3 with h2 | ⟨u, y, hu, hy, e⟩
              · rw [h2.1] at hg; cases hg
              · rw [hu] at hg; cases hg; rw [deStr_some hy]; exact .psk e
            rcases List.mem_cons.1 ka with rfl | ka
            · rcases h4 with h2 | ⟨u, y, hu, hy, e⟩
              · rw [h2.1] at hg; cases hg
              · rw [hu] at hg; cases hg; rw [deStr_some hy]; exact .keyOut e
            rcases List.mem_cons.1 ka with rfl | ka
            · rcases h5 with h2 | ⟨u, hu, hy⟩
              · rw [h2.1] at hg; cases hg
              · rw [hu] at hg; cases hg
                obtain ⟨s, hs, hs'⟩ := deEnum_some hy
                rw [version_some hs'] at hs
                exact .version hs
            · cases ka
          · by_cases kb : k ∈ ["device", "peer", "extra_params"]
            · cases hx : (deWg (others peerFields es)).1 with
              | none =>
                right
                refine ⟨kb, fun hc => wg_none hn1 hx ?_, rfl⟩
                obtain ⟨⟨d, hd⟩, ⟨q, hq⟩, he⟩ := hc
                exact ⟨⟨d, mem_others.2 ⟨hd, by decide⟩⟩, ⟨q, mem_others.2 ⟨hq, by decide⟩⟩, fun v hv => he v (mem_others.1 hv).1⟩
              | some w =>
                left
                obtain ⟨w1, w2, w3⟩ := hw w hx
                rcases List.mem_cons.1 kb with rfl | kb
                · rw [w1] at hg; cases hg; exact .device rfl
                rcases List.mem_cons.1 kb with rfl | kb
                · rw [w2] at hg; cases hg; exact .peer rfl
                rcases List.mem_cons.1 kb with rfl | kb
                · rcases w3 with w3 | ⟨u, hu, hs⟩
                  · rw [w3.1] at hg; cases hg
                  · rw [hu] at hg; cases hg; exact .extra rfl hs
                · cases kb
            · left
              have hL := wg_left _ (mem_others.2 ⟨hm, ka⟩) kb
              by_cases kc : k ∈ ["osk_organization", "osk_label"]
              · rcases List.mem_cons.1 kc with rfl | kc
                · rcases k2 with h2 | ⟨s, hs, e⟩
                  · rw [h2.1] at hg; cases hg
                  · rw [hs] at hg; cases hg; exact .org e
                rcases List.mem_cons.1 kc with rfl | kc
                · rcases k3 with h2 | ⟨u, x, hu, hs, e⟩
                  · rw [h2.1] at hg; cases hg
                  · rw [hu] at hg; cases hg; exact .label e hs
                · cases kc
              · have := k1 k v hL kc
                rw [hl] at this
                cases this
      · cases h
  · cases h

theorem deApi_read {v : Val} {a : Api} (h : deApi v = some a) : ApiRead a v := by
  unfold deApi at h
  split at h
  · rename_i es
    split at h
    · rename_i hl
      split at h
      · rename_i p l s hp hl' hs
        cases h
        obtain ⟨vp, gp, hp⟩ := need_some hp
        obtain ⟨vl, gl, hl'⟩ := need_some hl'
        obtain ⟨vs, gs, hs⟩ := need_some hs
        refine ⟨vp, vl, vs, deVec_strings hp, deVec_numbers hl', deVec_numbers hs, .inl ⟨es, rfl, gp, gl, gs, ?_⟩⟩
        intro k w hm
        by_cases hk : k ∈ ["listen_path", "listen_fd", "stream_fd"]
        · exact hk
        · have := mem_others.2 ⟨hm, hk⟩
          rw [List.isEmpty_iff.1 hl] at this
          cases this
      · cases h
    · cases h
  · rename_i p l s r
    split at h
    · rename_i p' l' s' hp hl hs
      cases h
      exact ⟨p, l, s, deVec_strings hp, deVec_numbers hl, deVec_numbers hs, .inr ⟨r, rfl⟩⟩
    · cases h
  · cases h

theorem forall₂_mem {α : Type} {R : α → Val → Prop} {S : α → Val → Prop} {r : List α} {l : List Val} (h : List.Forall₂ R r l) (hs : ∀ x, ∀ v ∈ l, R x v → S x v) :
    List.Forall₂ S r l := by
  induction h with
  | nil => exact .nil
  | cons h _ ih => exact .cons (hs _ _ List.mem_cons_self h) (ih fun x v hv => hs x v (List.mem_cons_of_mem _ hv))

/-- **C138, the part that holds.** If a file is accepted, then every entry of it, at every level, is what the configuration says, and everything else has its
default — except that a key pair that is not complete, or a WireGuard section that is not complete, counts for nothing. -/
theorem read_whole_partial {A : Type} {parse : String → Option A} {v : Val} {c : Config A} (ho : OnceEach v) (h : deConfig parse v = some c) :
    ∃ es, v = .tbl es ∧ Rest c es ∧ ∀ k v, (k, v) ∈ es → Says parse c k v ∨ (k ∈ ["public_key", "secret_key"] ∧ HalfKeypair es ∧ c.keypair = none) := by
  have hv : ∃ es, v = .tbl es := by cases v <;> first | (cases h; done) | exact ⟨_, rfl⟩
  obtain ⟨es, rfl⟩ := hv
  obtain ⟨hn, hoe⟩ : (es.map (·.1)).Nodup ∧ ∀ e ∈ es, OnceEach e.2 := by cases ho; exact ⟨by assumption, by assumption⟩
  have hn1 := others_nodup (fields := configFields) hn
  rw [deConfig] at h
  split at h
  · rename_i api listen verb peers h1 h2 h3 h4
    dsimp only at h
    split at h
    · rename_i hl
      have hl := List.isEmpty_iff.1 hl
      cases h
      have h1 := dflt_some h1
      obtain ⟨v2, g2, h2⟩ := need_some h2
      have h3 := dflt_some h3
      obtain ⟨v4, g4, h4⟩ := need_some h4
      have hk : ∀ p s, (deKeypair (others configFields es)).1 = some (p, s) → get es "public_key" = some (.str p) ∧ get es "secret_key" = some (.str s) := by
        intro p s hk
        have := keypair_some hk
        rwa [get_others es (by decide), get_others es (by decide)] at this
      refine ⟨es, rfl, ⟨(by rw [g2]; exact Option.some_ne_none _), (by rw [g4]; exact Option.some_ne_none _), ?_, ?_, ?_, ?_⟩, ?_⟩
      · intro hp
        cases hx : (deKeypair (others configFields es)).1 with
        | none => rfl
        | some w => have := (hk w.1 w.2 hx).1; rw [hp] at this; cases this
      · intro hp
        cases hx : (deKeypair (others configFields es)).1 with
        | none => rfl
        | some w => have := (hk w.1 w.2 hx).2; rw [hp] at this; cases this
      · rcases h3 with h | ⟨v, hv, _⟩
        · exact fun _ => h.2
        · rw [hv]; exact fun h => by cases h
      · rcases h1 with h | ⟨v, hv, _⟩
        · exact fun _ => h.2
        · rw [hv]; exact fun h => by cases h
      · intro k v hm
        have hg := mem_get hn hm
        by_cases ka : k ∈ configFields
        · left
          rcases List.mem_cons.1 ka with rfl | ka
          · rcases h1 with h | ⟨u, hu, hy⟩
            · rw [h.1] at hg; cases hg
            · rw [hu] at hg; cases hg; exact .api (deApi_read hy)
          rcases List.mem_cons.1 ka with rfl | ka
          · rw [g2] at hg; cases hg
            obtain ⟨l, rfl, hl⟩ := deVec_some h2
            refine .listen (hl.imp fun a v hv => ?_)
            cases v <;> first | (cases hv; done) | exact ⟨_, rfl, hv⟩
          rcases List.mem_cons.1 ka with rfl | ka
          · rcases h3 with h | ⟨u, hu, hy⟩
            · rw [h.1] at hg; cases hg
            · rw [hu] at hg; cases hg
              obtain ⟨s, hs, hs'⟩ := deEnum_some hy
              rw [verbosity_some hs'] at hs
              exact .verbosity hs
          rcases List.mem_cons.1 ka with rfl | ka
          · rw [g4] at hg; cases hg
            obtain ⟨l, rfl, hl⟩ := deVec_some h4
            have : ∀ v ∈ l, OnceEach v := by
              have := hoe _ hm
              cases this
              assumption
            exact .peers (forall₂_mem hl fun p v hv hp => dePeer_read (this v hv) hp)
          · cases ka
        · have kb := keypair_left hl (mem_others.2 ⟨hm, ka⟩)
          cases hx : (deKeypair (others configFields es)).1 with
          | none =>
            right
            refine ⟨kb, fun ⟨p, s, hp, hs⟩ => keypair_none hn1 hx ⟨p, s, mem_others.2 ⟨hp, by decide⟩, mem_others.2 ⟨hs, by decide⟩⟩, rfl⟩
          | some w =>
            left
            obtain ⟨w1, w2⟩ := hk w.1 w.2 hx
            rcases List.mem_cons.1 kb with rfl | kb
            · rw [w1] at hg; cases hg; exact .publicKey rfl
            rcases List.mem_cons.1 kb with rfl | kb
            · rw [w2] at hg; cases hg; exact .secretKey rfl
            · cases kb
    · cases h
  · cases h

/-- In particular an entry that is no setting, anywhere, leads to rejection (whatever else the file holds). -/
theorem unknown_rejected {A : Type} {parse : String → Option A} {es : Tbl} (ho : OnceEach (.tbl es)) {k : String} {v : Val} (hm : (k, v) ∈ es)
    (hk : k ∉ ["public_key", "secret_key", "api", "listen", "verbosity", "peers"]) : deConfig parse (.tbl es) = none := by
  cases h : deConfig parse (.tbl es) with
  | none => rfl
  | some c =>
    obtain ⟨es', he, _, ha⟩ := read_whole_partial ho h
    cases he
    rcases ha k v hm with h | h
    · cases h <;> exact absurd (by decide) hk
    · obtain ⟨h, _⟩ := h
      refine absurd ?_ hk
      rcases List.mem_cons.1 h with rfl | h
      · decide
      rcases List.mem_cons.1 h with rfl | h
      · decide
      · cases h

/-! ### Writing and reading back -/

/-- the relation of the entries of two tables that are the same -/
def SameGet (l l' : Tbl) : Prop := ∀ k, (get l k = none ∧ get l' k = none) ∨ ∃ x y, get l k = some x ∧ get l' k = some y ∧ Same x y

theorem same_tbl {l : Tbl} {v : Val} (h : Same (.tbl l) v) : ∃ l', v = .tbl l' ∧ (l'.map (·.1)).Nodup ∧ SameGet l l' := by
  cases h with
  | tbl f hn h1 h2 h3 =>
    refine ⟨_, rfl, hn, fun k => ?_⟩
    cases hg : get l k with
    | none => exact .inl ⟨rfl, h3 k hg⟩
    | some x => exact .inr ⟨x, f k, rfl, h1 k x hg, h2 k x hg⟩

theorem same_str {s : String} {v : Val} (h : Same (.str s) v) : v = .str s := by cases h; rfl

theorem same_int {n : Int} {v : Val} (h : Same (.int n) v) : v = .int n := by cases h; rfl

theorem SameGet.off {l l' : Tbl} (h : SameGet l l') {k : String} (hk : get l k = none) : get l' k = none := by
  rcases h k with h | ⟨x, y, hx, _⟩
  · exact h.2
  · rw [hk] at hx; cases hx

theorem SameGet.hit {l l' : Tbl} (h : SameGet l l') {k : String} {x : Val} (hk : get l k = some x) : ∃ y, get l' k = some y ∧ Same x y := by
  rcases h k with h | ⟨x', y, hx, hy, hs⟩
  · rw [hk] at h; cases h.1
  · rw [hk] at hx; cases hx; exact ⟨y, hy, hs⟩

theorem SameGet.str {l l' : Tbl} (h : SameGet l l') {k s : String} (hk : get l k = some (.str s)) : get l' k = some (.str s) := by
  obtain ⟨y, hy, hs⟩ := h.hit hk
  rw [hy, same_str hs]

theorem deVec_same {α : Type} {g : α → Val} {f : Val → Option α} {r : List α} {v : Val} (hf : ∀ x ∈ r, ∀ v, Same (g x) v → f v = some x)
    (h : Same (.arr (r.map g)) v) : deVec f v = some r := by
  cases h with
  | @arr l l' h =>
    show deAll f l' = some r
    induction r generalizing l' with
    | nil => cases h; rfl
    | cons x r ih =>
      rw [List.map_cons] at h
      cases h with
      | cons hx hr =>
        rw [deAll, hf x List.mem_cons_self _ hx]
        dsimp only
        rw [ih (fun y hy => hf y (List.mem_cons_of_mem _ hy)) hr]
        rfl

theorem SameGet.vec {α : Type} {g : α → Val} {f : Val → Option α} {l l' : Tbl} (h : SameGet l l') {k : String} {r : List α} (hk : get l k = some (.arr (r.map g)))
    (hf : ∀ x ∈ r, ∀ v, Same (g x) v → f v = some x) : need (deVec f) l' k = some r := by
  obtain ⟨y, hy, hs⟩ := h.hit hk
  rw [need, hy]
  exact deVec_same hf hs

theorem strs_same {s : String} {v : Val} (h : Same (.str s) v) : deStr v = some s := by rw [same_str h]; rfl

theorem SameGet.optStr {l l' : Tbl} (h : SameGet l l') {k : String} {o : Option String} (hk : get l k = o.map .str) : opt deStr l' k = some o := by
  cases o with
  | none => rw [opt, h.off hk]
  | some s => rw [opt, h.str hk]; rfl

theorem SameGet.optStrs {l l' : Tbl} (h : SameGet l l') {k : String} {o : Option (List String)} (hk : get l k = o.map fun r => .arr (r.map .str)) :
    opt (deVec deStr) l' k = some o := by
  cases o with
  | none => rw [opt, h.off hk]
  | some s =>
    obtain ⟨y, hy, hs⟩ := h.hit hk
    rw [opt, hy]
    dsimp only
    rw [deVec_same (fun x _ v => strs_same) hs]
    rfl

theorem get_append (a b : Tbl) (k : String) : get (a ++ b) k = (get a k).or (get b k) := by
  induction a with
  | nil => rfl
  | cons e a ih =>
    obtain ⟨k', v⟩ := e
    rw [List.cons_append, get, get]
    by_cases h : k' = k
    · rw [if_pos h, if_pos h]; rfl
    · rw [if_neg h, if_neg h, ih]

theorem get_serOpt {α : Type} (f : α → Val) (k k' : String) (o : Option α) : get (serOpt f k o) k' = if k = k' then o.map f else none := by
  cases o with
  | none => by_cases h : k = k' <;> simp [serOpt, get, h]
  | some x => by_cases h : k = k' <;> simp [serOpt, get, h]

theorem get_serWg (w : Option Wg) (k : String) : get (serWg w) k = w.bind fun w =>
    if "device" = k then some (.str w.device) else if "peer" = k then some (.str w.peer) else if "extra_params" = k then some (.arr (w.extra.map .str)) else none := by
  cases w with
  | none => rfl
  | some w => rfl

/-- the WireGuard section is read back -/
theorem wg_back {es : Tbl} (hn : (es.map (·.1)).Nodup) {w : Option Wg} (hd : get es "device" = w.map fun w => .str w.device)
    (hp : get es "peer" = w.map fun w => .str w.peer) (he : ∀ v, get es "extra_params" = some v → ∃ x, w = some x ∧ deVec deStr v = some x.extra)
    (he' : get es "extra_params" = none → w = none) : deWg es = (w, others ["device", "peer", "extra_params"] es) := by
  have hf : ∀ k v, (k, v) ∈ es → k ∈ ["device", "peer", "extra_params"] →
      (if k = "extra_params" then (deVec deStr v).isSome else (deStr v).isSome) = true := by
    intro k v hm hk
    have hg := mem_get hn hm
    rcases List.mem_cons.1 hk with rfl | hk
    · rw [hd] at hg
      cases w with
      | none => cases hg
      | some w => cases hg; rfl
    rcases List.mem_cons.1 hk with rfl | hk
    · rw [hp] at hg
      cases w with
      | none => cases hg
      | some w => cases hg; rfl
    rcases List.mem_cons.1 hk with rfl | hk
    · obtain ⟨x, _, hx⟩ := he v hg
      rw [if_pos rfl, hx]; rfl
    · cases hk
  rw [deWg, flat_fits _ _ _ hf]
  dsimp only
  rw [if_pos rfl, need, need, dflt, taken_get _ (by decide), taken_get _ (by decide), taken_get _ (by decide), hd, hp]
  cases w with
  | none => rfl
  | some w =>
    cases hx : get es "extra_params" with
    | none => cases he' hx
    | some v =>
      obtain ⟨x, h1, h2⟩ := he v hx
      cases h1
      dsimp only
      rw [h2]
      rfl

theorem osk_back {es : Tbl} (hn : (es.map (·.1)).Nodup) {o : Option String} {l : Option (List String)} (ho : opt deStr es "osk_organization" = some o)
    (hl : opt (deVec deStr) es "osk_label" = some l) : deOsk es = some ((o, l), others ["osk_organization", "osk_label"] es) := by
  have hf : ∀ k v, (k, v) ∈ es → k ∈ ["osk_organization", "osk_label"] →
      (if k = "osk_label" then (deVec deStr v).isSome else (deStr v).isSome) = true := by
    intro k v hm hk
    have hg := mem_get hn hm
    rcases List.mem_cons.1 hk with rfl | hk
    · rcases opt_some ho with h | ⟨u, y, hu, hy, _⟩
      · rw [h.1] at hg; cases hg
      · rw [hu] at hg; cases hg; rw [if_neg (by decide), hy]; rfl
    rcases List.mem_cons.1 hk with rfl | hk
    · rcases opt_some hl with h | ⟨u, y, hu, hy, _⟩
      · rw [h.1] at hg; cases hg
      · rw [hu] at hg; cases hg; rw [if_pos rfl, hy]; rfl
    · cases hk
  rw [deOsk, flat_fits _ _ _ hf]
  dsimp only
  rw [opt] at ho hl
  rw [if_pos rfl, opt, opt, taken_get _ (by decide), taken_get _ (by decide), ho, hl]

theorem keypair_back {es : Tbl} (hn : (es.map (·.1)).Nodup) {w : Option (String × String)} (hd : get es "public_key" = w.map fun w => .str w.1)
    (hp : get es "secret_key" = w.map fun w => .str w.2) : deKeypair es = (w, others ["public_key", "secret_key"] es) := by
  have hf : ∀ k v, (k, v) ∈ es → k ∈ ["public_key", "secret_key"] → (deStr v).isSome = true := by
    intro k v hm hk
    have hg := mem_get hn hm
    rcases List.mem_cons.1 hk with rfl | hk
    · rw [hd] at hg
      cases w with
      | none => cases hg
      | some w => cases hg; rfl
    rcases List.mem_cons.1 hk with rfl | hk
    · rw [hp] at hg
      cases w with
      | none => cases hg
      | some w => cases hg; rfl
    · cases hk
  rw [deKeypair, flat_fits _ _ _ hf]
  dsimp only
  rw [if_pos rfl, need, need, taken_get _ (by decide), taken_get _ (by decide), hd, hp]
  cases w with
  | none => rfl
  | some w => rfl

theorem others_nil {fields : List String} {es : Tbl} (h : ∀ k v, (k, v) ∈ es → k ∈ fields) : others fields es = [] := by
  cases ho : others fields es with
  | nil => rfl
  | cons e r =>
    have := mem_others.1 (show (e.1, e.2) ∈ others fields es by rw [ho]; exact List.mem_cons_self)
    exact absurd (h _ _ this.1) this.2

theorem version_back (x : Version) : deEnum protocolVersion (.str (versionName x)) = some x := by cases x <;> rfl

theorem peer_back (p : Config.Peer) {v : Val} (h : Same (serPeer p) v) : dePeer v = some p := by
  unfold serPeer at h
  obtain ⟨l', rfl, hn, hs⟩ := same_tbl h
  have hn1 := others_nodup (fields := peerFields) hn
  have hn2 := others_nodup (fields := ["device", "peer", "extra_params"]) hn1
  have g1 := hs.str (k := "public_key") (s := p.publicKey) (by simp [get_append, get_serOpt, get_serWg, get])
  have g2 := hs.optStr (k := "endpoint") (o := p.endpoint) (by simp [get_append, get_serOpt, get_serWg, get])
  have g3 := hs.optStr (k := "pre_shared_key") (o := p.psk) (by simp [get_append, get_serOpt, get_serWg, get])
  have g4 := hs.optStr (k := "key_out") (o := p.keyOut) (by simp [get_append, get_serOpt, get_serWg, get])
  have g5 := hs.str (k := "protocol_version") (s := versionName p.version) (by simp [get_append, get_serOpt, get_serWg, get])
  have g6 := hs.optStr (k := "osk_organization") (o := p.oskOrg) (by simp [get_append, get_serOpt, get_serWg, get])
  have g7 := hs.optStrs (k := "osk_label") (o := p.oskLabel) (by simp [get_append, get_serOpt, get_serWg, get])
  have w1 : get l' "device" = p.wg.map fun w => .str w.device := by
    cases hw : p.wg with
    | none => exact hs.off (by simp [get_append, get_serOpt, get_serWg, get, hw])
    | some w => exact hs.str (by simp [get_append, get_serOpt, get_serWg, get, hw])
  have w2 : get l' "peer" = p.wg.map fun w => .str w.peer := by
    cases hw : p.wg with
    | none => exact hs.off (by simp [get_append, get_serOpt, get_serWg, get, hw])
    | some w => exact hs.str (by simp [get_append, get_serOpt, get_serWg, get, hw])
  have w3 : ∀ v, get l' "extra_params" = some v → ∃ x, p.wg = some x ∧ deVec deStr v = some x.extra := by
    intro v hv
    cases hw : p.wg with
    | none => rw [hs.off (by simp [get_append, get_serOpt, get_serWg, get, hw])] at hv; cases hv
    | some w =>
      have := hs.vec (k := "extra_params") (g := Val.str) (f := deStr) (r := w.extra) (by simp [get_append, get_serOpt, get_serWg, get, hw]) (fun x _ v => strs_same)
      rw [need, hv] at this
      exact ⟨w, rfl, this⟩
  have w4 : get l' "extra_params" = none → p.wg = none := by
    intro hv
    cases hw : p.wg with
    | none => rfl
    | some w =>
      obtain ⟨y, hy, _⟩ := hs.hit (k := "extra_params") (x := .arr (w.extra.map .str)) (by simp [get_append, get_serOpt, get_serWg, get, hw])
      rw [hv] at hy; cases hy
  have hall : ∀ k v, (k, v) ∈ l' → k ∈ peerSettings := by
    intro k v hm
    have hg := mem_get hn hm
    by_cases hk : k ∈ peerSettings
    · exact hk
    · have hk' : "public_key" ≠ k ∧ "endpoint" ≠ k ∧ "pre_shared_key" ≠ k ∧ "key_out" ≠ k ∧ "protocol_version" ≠ k ∧ "device" ≠ k ∧ "peer" ≠ k ∧
          "extra_params" ≠ k ∧ "osk_organization" ≠ k ∧ "osk_label" ≠ k := by
        refine ⟨?_, ?_, ?_, ?_, ?_, ?_, ?_, ?_, ?_, ?_⟩ <;> (rintro rfl; exact hk (by decide))
      obtain ⟨a1, a2, a3, a4, a5, a6, a7, a8, a9, a10⟩ := hk'
      have : get l' k = none := hs.off (by
        cases p.wg <;> simp [get_append, get_serOpt, get_serWg, get, a1, a2, a3, a4, a5, a6, a7, a8, a9, a10])
      rw [this] at hg; cases hg
  have hwg : deWg (others peerFields l') = (p.wg, others ["device", "peer", "extra_params"] (others peerFields l')) := by
    refine wg_back hn1 ?_ ?_ ?_ ?_
    · rw [get_others _ (by decide)]; exact w1
    · rw [get_others _ (by decide)]; exact w2
    · rw [get_others _ (by decide)]; exact w3
    · rw [get_others _ (by decide)]; exact w4
  have hosk : deOsk (others ["device", "peer", "extra_params"] (others peerFields l')) =
      some ((p.oskOrg, p.oskLabel), others ["osk_organization", "osk_label"] (others ["device", "peer", "extra_params"] (others peerFields l'))) := by
    refine osk_back hn2 ?_ ?_
    · rw [opt, get_others _ (by decide), get_others _ (by decide)]; exact g6
    · rw [opt, get_others _ (by decide), get_others _ (by decide)]; exact g7
  rw [dePeer, need, g1, g2, g3, g4, dflt, g5]
  dsimp only [Option.bind_some, deStr]
  rw [version_back]
  dsimp only
  rw [hwg]
  dsimp only
  rw [hosk]
  dsimp only
  rw [others_nil (fields := ["osk_organization", "osk_label"])]
  · rfl
  · intro k v hm
    obtain ⟨hm, hk2⟩ := mem_others.1 hm
    obtain ⟨hm, hk1⟩ := mem_others.1 hm
    have := hall k v hm
    rw [peerSettings, List.mem_append, List.mem_append] at this
    rcases this with (h | h) | h
    · exact absurd h hk1
    · exact absurd h hk2
    · exact h

theorem i32_same {n : Int} (hn : -2147483648 ≤ n ∧ n ≤ 2147483647) {v : Val} (h : Same (.int n) v) : deI32 v = some n := by
  rw [same_int h, deI32, if_pos hn]

theorem api_back {a : Api} (ha : ∀ n, n ∈ a.listenFd ∨ n ∈ a.streamFd → -2147483648 ≤ n ∧ n ≤ 2147483647) {v : Val} (h : Same (serApi a) v) : deApi v = some a := by
  unfold serApi at h
  obtain ⟨l', rfl, hn, hs⟩ := same_tbl h
  have g1 := hs.vec (k := "listen_path") (g := Val.str) (f := deStr) (r := a.listenPath) (by simp [get]) (fun x _ v => strs_same)
  have g2 := hs.vec (k := "listen_fd") (g := Val.int) (f := deI32) (r := a.listenFd) (by simp [get]) (fun x hx v => i32_same (ha x (.inl hx)))
  have g3 := hs.vec (k := "stream_fd") (g := Val.int) (f := deI32) (r := a.streamFd) (by simp [get]) (fun x hx v => i32_same (ha x (.inr hx)))
  rw [deApi, others_nil, if_pos (by rfl), g1, g2, g3]
  intro k v hm
  have hg := mem_get hn hm
  by_cases hk : k ∈ ["listen_path", "listen_fd", "stream_fd"]
  · exact hk
  · have hk' : "listen_path" ≠ k ∧ "listen_fd" ≠ k ∧ "stream_fd" ≠ k := by
      refine ⟨?_, ?_, ?_⟩ <;> (rintro rfl; exact hk (by decide))
    rw [hs.off (by simp [get, hk'.1, hk'.2.1, hk'.2.2])] at hg; cases hg

theorem verbosity_back (b : Bool) : deEnum verbosity (.str (if b then "Verbose" else "Quiet")) = some b := by cases b <;> rfl

/-- **C139.** What is written of a configuration is read back as this configuration, in whatever order the entries of the tables come. -/
theorem read_back {A : Type} {parse : String → Option A} {disp : A → String} {c : Config A} (hp : ∀ a ∈ c.listen, parse (disp a) = some a) (hc : FdsFit c) {v : Val}
    (h : Same (serConfig disp c) v) : deConfig parse v = some c := by
  unfold serConfig at h
  obtain ⟨l', rfl, hn, hs⟩ := same_tbl h
  have hn1 := others_nodup (fields := configFields) hn
  have gk : ∀ k, get (serKeypair c.keypair) k = c.keypair.bind fun w => if "public_key" = k then some (.str w.1) else if "secret_key" = k then some (.str w.2) else none := by
    intro k
    cases c.keypair <;> rfl
  obtain ⟨va, ga, ha⟩ := hs.hit (k := "api") (x := serApi c.api) (by rw [get_append, gk]; cases c.keypair <;> simp [get])
  have g2 := hs.vec (k := "listen") (g := fun a => .str (disp a)) (f := deAddr parse) (r := c.listen) (by rw [get_append, gk]; cases c.keypair <;> simp [get])
    (fun x hx v hv => by rw [same_str hv]; exact hp x hx)
  have g3 := hs.str (k := "verbosity") (s := if c.verbose then "Verbose" else "Quiet") (by rw [get_append, gk]; cases c.keypair <;> simp [get])
  have g4 := hs.vec (k := "peers") (g := serPeer) (f := dePeer) (r := c.peers) (by rw [get_append, gk]; cases c.keypair <;> simp [get])
    (fun x _ v hv => peer_back x hv)
  have k1 : get l' "public_key" = c.keypair.map fun w => .str w.1 := by
    cases hk : c.keypair with
    | none => exact hs.off (by rw [get_append, gk, hk]; simp [get])
    | some w => exact hs.str (by rw [get_append, gk, hk]; simp)
  have k2 : get l' "secret_key" = c.keypair.map fun w => .str w.2 := by
    cases hk : c.keypair with
    | none => exact hs.off (by rw [get_append, gk, hk]; simp [get])
    | some w => exact hs.str (by rw [get_append, gk, hk]; simp)
  have hkp : deKeypair (others configFields l') = (c.keypair, others ["public_key", "secret_key"] (others configFields l')) := by
    refine keypair_back hn1 ?_ ?_
    · rw [get_others _ (by decide)]; exact k1
    · rw [get_others _ (by decide)]; exact k2
  rw [deConfig, dflt, ga, g2, dflt, g3, g4]
  dsimp only
  rw [api_back hc ha, verbosity_back, hkp]
  dsimp only
  rw [others_nil (fields := ["public_key", "secret_key"])]
  · rfl
  · intro k v hm
    obtain ⟨hm, hk⟩ := mem_others.1 hm
    by_cases h1 : "public_key" = k
    · subst h1; decide
    by_cases h2 : "secret_key" = k
    · subst h2; decide
    · have hg := mem_get hn hm
      have hk' : "api" ≠ k ∧ "listen" ≠ k ∧ "verbosity" ≠ k ∧ "peers" ≠ k := by
        refine ⟨?_, ?_, ?_, ?_⟩ <;> (rintro rfl; exact hk (by decide))
      obtain ⟨a1, a2, a3, a4⟩ := hk'
      have : get l' k = none := hs.off (by rw [get_append, gk]; cases c.keypair <;> simp [get, h1, h2, a1, a2, a3, a4])
      rw [this] at hg; cases hg

/-- tables that are written have each key once -/
theorem ser_once {A : Type} (disp : A → String) (c : Config A) : OnceEach (serConfig disp c) := by
  have strs : ∀ l : List String, OnceEach (.arr (l.map .str)) := by
    intro l
    refine .arr fun v hv => ?_
    obtain ⟨s, _, rfl⟩ := List.mem_map.1 hv
    exact .str s
  have ints : ∀ l : List Int, OnceEach (.arr (l.map .int)) := by
    intro l
    refine .arr fun v hv => ?_
    obtain ⟨s, _, rfl⟩ := List.mem_map.1 hv
    exact .int s
  have opts : ∀ {α : Type} (f : α → Val), (∀ x, OnceEach (f x)) → ∀ (k : String) (o : Option α), ∀ e ∈ serOpt f k o, OnceEach e.2 := by
    intro α f hf k o e he
    cases o with
    | none => cases he
    | some x => rcases List.mem_singleton.1 he with rfl; exact hf x
  have peer : ∀ p : Config.Peer, OnceEach (serPeer p) := by
    intro p
    unfold serPeer
    refine .tbl ?_ ?_
    · obtain ⟨pk, ep, psk, ko, wg, ver, org, lab⟩ := p
      cases ep <;> cases psk <;> cases ko <;> cases wg <;> cases org <;> cases lab <;> simp [serOpt, serWg]
    · intro e he
      simp only [List.mem_append] at he
      rcases he with (((((((he | he) | he) | he) | he) | he) | he) | he)
      · rcases List.mem_singleton.1 he with rfl; exact .str _
      · exact opts _ (fun s => .str s) _ _ e he
      · exact opts _ (fun s => .str s) _ _ e he
      · exact opts _ (fun s => .str s) _ _ e he
      · cases hw : p.wg with
        | none => rw [hw] at he; cases he
        | some w =>
          rw [hw, serWg] at he
          rcases List.mem_cons.1 he with rfl | he
          · exact .str _
          rcases List.mem_cons.1 he with rfl | he
          · exact .str _
          · rcases List.mem_singleton.1 he with rfl; exact strs _
      · rcases List.mem_singleton.1 he with rfl; exact .str _
      · exact opts _ (fun s => .str s) _ _ e he
      · exact opts _ (fun s => strs s) _ _ e he
  unfold serConfig
  refine .tbl ?_ ?_
  · cases c.keypair <;> simp [serKeypair]
  · intro e he
    rcases List.mem_append.1 he with he | he
    · cases hk : c.keypair with
      | none => rw [hk] at he; cases he
      | some k =>
        rw [hk, serKeypair] at he
        rcases List.mem_cons.1 he with rfl | he
        · exact .str _
        · rcases List.mem_singleton.1 he with rfl; exact .str _
    · rcases List.mem_cons.1 he with rfl | he
      · unfold serApi
        refine .tbl (by simp) ?_
        intro e he
        rcases List.mem_cons.1 he with rfl | he
        · exact strs _
        rcases List.mem_cons.1 he with rfl | he
        · exact ints _
        · rcases List.mem_singleton.1 he with rfl; exact ints _
      rcases List.mem_cons.1 he with rfl | he
      · refine .arr fun v hv => ?_
        obtain ⟨s, _, rfl⟩ := List.mem_map.1 hv
        exact .str _
      rcases List.mem_cons.1 he with rfl | he
      · exact .str _
      · rcases List.mem_singleton.1 he with rfl
        refine .arr fun v hv => ?_
        obtain ⟨s, _, rfl⟩ := List.mem_map.1 hv
        exact peer s

/-! ### What does not hold -/

/-- **C138 is false of the code.** A file that names a WireGuard device for a peer, but not the peer's WireGuard key (or that names it under the wrong kind of value), is accepted as if
nothing of WireGuard were in it: whatever the paths and the device. -/
theorem half_wireguard_ignored {A : Type} (parse : String → Option A) (pub sec pk out dev : String) : ∃ c : Config A,
    deConfig parse (.tbl [("public_key", .str pub), ("secret_key", .str sec), ("listen", .arr []),
      ("peers", .arr [.tbl [("public_key", .str pk), ("key_out", .str out), ("device", .str dev)]])]) = some c ∧
    deConfig parse (.tbl [("public_key", .str pub), ("secret_key", .str sec), ("listen", .arr []),
      ("peers", .arr [.tbl [("public_key", .str pk), ("key_out", .str out), ("peer", .str dev), ("device", .int 0)]])]) = some c ∧
    deConfig parse (.tbl [("public_key", .str pub), ("secret_key", .str sec), ("listen", .arr []),
      ("peers", .arr [.tbl [("public_key", .str pk), ("key_out", .str out)]])]) = some c ∧ c.keypair = some (pub, sec) ∧ c.peers.map (·.wg) = [none] :=
  ⟨⟨some (pub, sec), [], false, [⟨pk, none, none, some out, none, .v02, none, none⟩], ⟨[], [], []⟩⟩, rfl, rfl, rfl, rfl, rfl⟩

/-- **C138 is false of the code.** A file with a public key but no secret key is accepted as if it had none of them (config.rs:39-40 says so), which matters when the key pair can come through the API. -/
theorem half_keypair_ignored {A : Type} (parse : String → Option A) (pub sock : String) : ∃ c : Config A,
    deConfig parse (.tbl [("public_key", .str pub), ("listen", .arr []), ("peers", .arr []),
      ("api", .tbl [("listen_path", .arr [.str sock]), ("listen_fd", .arr []), ("stream_fd", .arr [])])]) = some c ∧
    deConfig parse (.tbl [("listen", .arr []), ("peers", .arr []),
      ("api", .tbl [("listen_path", .arr [.str sock]), ("listen_fd", .arr []), ("stream_fd", .arr [])])]) = some c ∧
    c.keypair = none ∧ Config.checkUsefullness c = true :=
  ⟨⟨none, [], false, [], ⟨[sock], [], []⟩⟩, rfl, rfl, rfl, rfl⟩

end Verif.ConfigToml
