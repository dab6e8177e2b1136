import Verif.Thm.ConfigParse
/-
C53: what is accepted beyond the documented grammar and what is refused within it; C54: validation.
-/
namespace Verif.Config

/-- Specification: what is accepted. A command line that follows the rules, possibly followed by the beginning of one
more option. -/
inductive Accepted {Addr : Type} (resolve : String → Option (List Addr)) : List String → Config Addr → Prop
  | line (l : Line) (h : l.Ok resolve) (hb : ∀ p ∈ l.peers, p.NotBoth) : Accepted resolve l.render (l.meaning resolve)
  | ownKeyword (l : Line) (h : l.Ok resolve) (hp : l.peers = []) (k : String) (hk : k ∈ ["public-key", "secret-key", "private-key", "listen"]) :
      Accepted resolve (l.render ++ [k]) (l.meaning resolve)
  | peerKeyword (l : Line) (h : l.Ok resolve) (hb : ∀ p ∈ l.peers, p.NotBoth) (p : PeerSpec) (hp : l.peers.getLast? = some p) (hw : p.wg = none) (k : String)
      (hk : k ∈ ["public-key", "endpoint", "preshared-key", "outfile", "wireguard"]) : Accepted resolve (l.render ++ [k]) (l.meaning resolve)
  | device (l : Line) (h : l.Ok resolve) (hb : ∀ p ∈ l.peers, p.NotBoth) (ps : List PeerSpec) (p : PeerSpec) (hp : l.peers = ps ++ [p]) (hw : p.wg = none) (d : String) :
      Accepted resolve (l.render ++ ["wireguard", d]) { l.meaning resolve with peers := ps.map PeerSpec.meaning ++ [{ p.meaning with wg := some ⟨d, "", []⟩ }] }

/-- **C53.** Nothing else is accepted: the configuration is always the meaning of the command line. -/
theorem accepted_only {Addr : Type} (resolve : String → Option (List Addr)) (args : List String) (c : Config Addr) (h : parseArgs resolve args = .ok c) :
    Accepted resolve args c := by
  unfold parseArgs at h
  cases hr : (M.init : M Addr).run resolve args with
  | error e => rw [hr] at h; cases h
  | ok m =>
    rw [hr] at h
    cases h
    obtain ⟨own, done, cur, t, r, e⟩ := (rep_run (resolve := resolve) args (rep_init resolve)).2 m hr
    have e' : args = tokens own done cur t := by rw [e]; rfl
    subst e'
    cases cur with
    | none =>
      obtain ⟨hd, _, _, hf, _⟩ := r.state
      subst hd
      have hl : Line.Ok resolve ⟨own, []⟩ := ⟨r.ok, fun x => absurd rfl x, nofun⟩
      rw [rep_finish.1 _ r]
      cases t with
      | none =>
        have := Accepted.line (resolve := resolve) ⟨own, []⟩ hl nofun
        simpa [tokens, Tail.render, Line.render] using this
      | own k s hk =>
        have hk' : k ∈ ["public-key", "secret-key", "private-key", "listen"] := by
          simp only [List.mem_cons, Prod.mk.injEq, List.not_mem_nil, or_false] at hk ⊢
          rcases hk with ⟨e, _⟩ | ⟨e, _⟩ | ⟨e, _⟩ | ⟨e, _⟩ <;> simp [e]
        have := Accepted.ownKeyword (resolve := resolve) ⟨own, []⟩ hl rfl k hk'
        simpa [tokens, Tail.render, Line.render] using this
      | peer k s hk => exact hf.elim
      | wgDev d => exact hf.elim
    | some p =>
      obtain ⟨k1, k2, _, _, hf, pok, pnb, _⟩ := r.state
      have hb : ∀ q ∈ done ++ [p], q.Ok ∧ q.NotBoth := by
        intro q hq
        rcases List.mem_append.1 hq with hq | hq
        · exact r.dok q hq
        · have : q = p := by simpa using hq
          subst this; exact ⟨pok, pnb⟩
      have hl : Line.Ok resolve ⟨own, done ++ [p]⟩ := ⟨r.ok, fun _ => ⟨k1, k2⟩, fun q hq => (hb q hq).1⟩
      have hm : ∀ t : Tail, (∀ d, t ≠ .wgDev d) → ({ Line.meaning resolve ⟨own, done⟩ with peers := done.map PeerSpec.meaning ++ [curOf p t] } : Config Addr) = Line.meaning resolve ⟨own, done ++ [p]⟩ := by
        intro t ht
        have : curOf p t = p.meaning := by cases t <;> first | rfl | exact absurd rfl (ht _)
        rw [this]; simp [Line.meaning]
      rw [rep_finish.2 _ _ _ r]
      cases t with
      | none =>
        have := Accepted.line (resolve := resolve) ⟨own, done ++ [p]⟩ hl (fun q hq => (hb q hq).2)
        rw [hm _ (fun d h => by cases h)]
        simpa [tokens, Tail.render, Line.render] using this
      | own k s hk => exact hf.elim
      | peer k s hk =>
        have hk' : k ∈ ["public-key", "endpoint", "preshared-key", "outfile", "wireguard"] := by
          simp only [List.mem_cons, Prod.mk.injEq, List.not_mem_nil, or_false] at hk ⊢
          rcases hk with ⟨e, _⟩ | ⟨e, _⟩ | ⟨e, _⟩ | ⟨e, _⟩ | ⟨e, _⟩ <;> simp [e]
        have := Accepted.peerKeyword (resolve := resolve) ⟨own, done ++ [p]⟩ hl (fun q hq => (hb q hq).2) p (by simp) hf k hk'
        rw [hm _ (fun d h => by cases h)]
        simpa [tokens, Tail.render, Line.render] using this
      | wgDev d =>
        have := Accepted.device (resolve := resolve) ⟨own, done ++ [p]⟩ hl (fun q hq => (hb q hq).2) done p rfl hf d
        simpa [tokens, Tail.render, Line.render, Line.meaning, curOf] using this

theorem run_error {Addr : Type} (resolve : String → Option (List Addr)) (a b : List String) (e : Stop) : ∀ (m : M Addr), m.run resolve a = .error e →
    m.run resolve (a ++ b) = .error e := by
  induction a with
  | nil => intro m h; cases h
  | cons x a ih =>
    intro m h
    rw [List.cons_append, run_cons]
    rw [run_cons] at h
    cases hs : m.step resolve x with
    | error e => rw [hs] at h; exact h
    | ok m2 => rw [hs] at h; exact ih m2 h

theorem items_refused {Addr : Type} {resolve : String → Option (List Addr)} {own : List OwnItem} {done : List PeerSpec} (xs : List PeerItem) : ∀ {items : List PeerItem} {m : M Addr},
    Rep resolve own done (some ⟨items, none⟩) .none m → ItemsOk items → ((items ++ xs).filterMap PeerItem.pk?).length ≤ 1 → ((items ++ xs).filterMap PeerItem.out?).length ≤ 1 →
    1 < ((items ++ xs).filterMap PeerItem.endpoint?).length + ((items ++ xs).filterMap PeerItem.psk?).length →
    m.run resolve (xs.flatMap PeerItem.render) = .error .refused := by
  induction xs with
  | nil =>
    intro items m _ hi _ _ h
    rw [List.append_nil] at h
    have := hi.both
    omega
  | cons x xs ih =>
    intro items m h hi h1 h2 h3
    rw [show items ++ x :: xs = (items ++ [x]) ++ xs by simp] at h1 h2 h3
    rw [List.flatMap_cons]
    by_cases hok : ((items ++ [x]).filterMap PeerItem.endpoint?).length + ((items ++ [x]).filterMap PeerItem.psk?).length ≤ 1
    · have hio : ItemsOk (items ++ [x]) := by
        rw [List.filterMap_append, List.length_append] at h1 h2
        exact ⟨by omega, hok, by omega⟩
      obtain ⟨m1, r1, k1⟩ := peer_item h x hio
      rw [run_append _ _ _ _ _ r1]
      exact ih k1 hio h1 h2 h3
    · apply run_error
      have hb := hi.both
      have h0 := h
      obtain ⟨pk, sk, listen, verbose, peers, set, st, mc⟩ := m
      obtain ⟨_, _, _, _, _, _, _, _, _, hc, hs, _, _, _, _, s2, _, _, _⟩ := h0
      have hc' : mc = some (PeerSpec.meaning ⟨items, none⟩) := hc
      have hs' : st = .peer := hs
      subst hc'; subst hs'
      dsimp only at s2
      rw [List.filterMap_append, List.length_append, List.filterMap_append, List.length_append] at hok
      have once_mem : ∀ {m f : M Addr} {s : St}, s ∈ m.set → once m s f = .error .refused := by
        intro m f s h; unfold once; rw [if_pos h]
      cases x with
      | publicKey a => simp [List.filterMap_cons, PeerItem.endpoint?, PeerItem.psk?] at hok; omega
      | outfile a => simp [List.filterMap_cons, PeerItem.endpoint?, PeerItem.psk?] at hok; omega
      | endpoint a =>
        simp [List.filterMap_cons, PeerItem.endpoint?, PeerItem.psk?] at hok
        have hm : St.peerEndpoint ∈ set := s2.2 (by omega)
        show M.run resolve _ ["endpoint", a] = _
        rw [run_cons]
        show M.run resolve ⟨pk, sk, listen, verbose, peers, set, .peerEndpoint, some (PeerSpec.meaning ⟨items, none⟩)⟩ [a] = _
        rw [run_cons]
        have : M.step resolve (⟨pk, sk, listen, verbose, peers, set, .peerEndpoint, some (PeerSpec.meaning ⟨items, none⟩)⟩ : M Addr) a = .error .refused := once_mem hm
        rw [this]
      | psk a =>
        simp [List.filterMap_cons, PeerItem.endpoint?, PeerItem.psk?] at hok
        have hm : St.peerEndpoint ∈ set := s2.2 (by omega)
        show M.run resolve _ ["preshared-key", a] = _
        rw [run_cons]
        show M.run resolve ⟨pk, sk, listen, verbose, peers, set, .peerPsk, some (PeerSpec.meaning ⟨items, none⟩)⟩ [a] = _
        rw [run_cons]
        have : M.step resolve (⟨pk, sk, listen, verbose, peers, set, .peerPsk, some (PeerSpec.meaning ⟨items, none⟩)⟩ : M Addr) a = .error .refused := once_mem hm
        rw [this]

theorem body_refused {Addr : Type} {resolve : String → Option (List Addr)} {own : List OwnItem} {done : List PeerSpec} {m : M Addr} (p : PeerSpec)
    (h : Rep resolve own done (some ⟨[], none⟩) .none m) (hok : p.Ok) (hnb : ¬ p.NotBoth) : m.run resolve p.body = .error .refused := by
  unfold PeerSpec.body
  apply run_error
  unfold PeerSpec.NotBoth at hnb
  exact items_refused p.items h ⟨by simp, by simp, by simp⟩ (by simpa using hok.pk) (by simpa using hok.out) (by rw [List.nil_append]; omega)

theorem peers_refused {Addr : Type} {resolve : String → Option (List Addr)} {own : List OwnItem} (ps : List PeerSpec) : ∀ {done : List PeerSpec} {p : PeerSpec} {m : M Addr},
    Rep resolve own done (some p) .none m → (∀ q ∈ ps, q.Ok) → (∃ q ∈ ps, ¬ q.NotBoth) → m.run resolve (ps.flatMap PeerSpec.render) = .error .refused := by
  induction ps with
  | nil => intro done p m _ _ ⟨q, hq, _⟩; cases hq
  | cons q ps ih =>
    intro done p m h hq hb
    obtain ⟨m1, r1, h1⟩ := step_peer h
    rw [List.flatMap_cons]
    by_cases hn : q.NotBoth
    · obtain ⟨m2, r2, h2⟩ := peer_body q h1 (hq q List.mem_cons_self) hn
      have : m.run resolve q.render = .ok m2 := by
        unfold PeerSpec.render; rw [run_cons, r1]; exact r2
      rw [run_append _ _ _ _ _ this]
      refine ih h2 (fun x hx => hq x (List.mem_cons_of_mem _ hx)) ?_
      obtain ⟨x, hx, hxb⟩ := hb
      rcases List.mem_cons.1 hx with rfl | hx
      · exact absurd hn hxb
      · exact ⟨x, hx, hxb⟩
    · apply run_error
      unfold PeerSpec.render; rw [run_cons, r1]
      exact body_refused q h1 (hq q List.mem_cons_self) hn

/-- **C53, false of the code.** A command line that follows the documented rules is refused if it gives some peer an
endpoint and a pre-shared key (config.rs:640 marks the endpoint as set when it reads a pre-shared key). -/
theorem psk_and_endpoint_refused {Addr : Type} (resolve : String → Option (List Addr)) (l : Line) (hl : l.Ok resolve)
    (hb : ∃ p ∈ l.peers, (p.items.filterMap PeerItem.endpoint?).length = 1 ∧ (p.items.filterMap PeerItem.psk?).length = 1) :
    parseArgs resolve l.render = .error .refused := by
  obtain ⟨own, peers⟩ := l
  have hb' : ∃ p ∈ peers, ¬ p.NotBoth := by
    obtain ⟨p, hp, h1, h2⟩ := hb
    exact ⟨p, hp, by unfold PeerSpec.NotBoth; omega⟩
  obtain ⟨m1, r1, h1⟩ := own_items own (rep_init resolve) (by simpa using hl.own)
  rw [List.nil_append] at h1
  unfold parseArgs Line.render
  dsimp only
  rw [run_append _ _ _ _ _ r1]
  cases peers with
  | nil => obtain ⟨p, hp, _⟩ := hb'; cases hp
  | cons p ps =>
    obtain ⟨k1, k2⟩ := hl.keys (by simp)
    have hpk : St.ownPublicKey ∈ m1.set := h1.state.2.2.2.2.1.2 k1
    have hsk : St.ownSecretKey ∈ m1.set := h1.state.2.2.2.2.2.2 k2
    have h2 := rep_first h1 hpk hsk
    have e2 := step_first h1 hpk hsk
    have key : m1.run resolve ((p :: ps).flatMap PeerSpec.render) = .error .refused := by
      rw [List.flatMap_cons]
      by_cases hn : p.NotBoth
      · obtain ⟨m3, r3, h3⟩ := peer_body p h2 (hl.peers p List.mem_cons_self) hn
        have : m1.run resolve p.render = .ok m3 := by
          unfold PeerSpec.render; rw [run_cons, e2]; exact r3
        rw [run_append _ _ _ _ _ this]
        refine peers_refused ps h3 (fun x hx => hl.peers x (List.mem_cons_of_mem _ hx)) ?_
        obtain ⟨x, hx, hxb⟩ := hb'
        rcases List.mem_cons.1 hx with rfl | hx
        · exact absurd hn hxb
        · exact ⟨x, hx, hxb⟩
      · apply run_error
        unfold PeerSpec.render; rw [run_cons, e2]
        exact body_refused p h2 (hl.peers p List.mem_cons_self) hn
    rw [key]

/-- **C53, false of the code.** An option whose value is missing at the end of the command line is ignored. -/
theorem dangling_option_accepted {Addr : Type} (resolve : String → Option (List Addr)) (own : List OwnItem) (ps : List PeerSpec) (items : List PeerItem)
    (hl : Line.Ok resolve ⟨own, ps ++ [⟨items, none⟩]⟩) (hb : ∀ p ∈ ps ++ [⟨items, none⟩], p.NotBoth) (k : String) (hk : k ∈ ["public-key", "endpoint", "preshared-key", "outfile", "wireguard"]) :
    parseArgs resolve ((Line.mk own (ps ++ [⟨items, none⟩])).render ++ [k]) = parseArgs resolve (Line.mk own (ps ++ [⟨items, none⟩])).render := by
  obtain ⟨m, done, r, h, _⟩ := run_line resolve own ps ⟨items, none⟩ hl hb
  unfold parseArgs
  rw [run_append _ _ _ _ _ r, r]
  obtain ⟨pk, sk, listen, verbose, peers, set, st, mc⟩ := m
  obtain ⟨_, _, _, _, _, _, _, _, _, hc, hs, _⟩ := h
  have hc' : mc = some (PeerSpec.meaning ⟨items, none⟩) := hc
  have hs' : st = .peer := hs
  subst hc'; subst hs'
  simp only [List.mem_cons, List.not_mem_nil, or_false] at hk
  rcases hk with rfl | rfl | rfl | rfl | rfl <;> rfl

/-! ### Validation -/

/-- **C54.** `validate` accepts exactly the configurations whose keys can be read, whose endpoints resolve, in which every
peer has a key output file or a named device and peer, and in which organisation and label come together. -/
theorem validate_exact {Addr : Type} (e : Probe) (c : Config Addr) : validate e c = true ↔
    (∀ pk sk, c.keypair = some (pk, sk) → (e.isFile pk ∧ e.spk pk) ∧ e.isFile sk ∧ e.ssk sk) ∧
    ∀ p ∈ c.peers, (e.isFile p.publicKey ∧ e.spk p.publicKey) ∧ (∀ a, p.endpoint = some a → e.resolves a) ∧
      (p.keyOut.isSome ∨ ∃ w, p.wg = some w ∧ w.device ≠ "" ∧ w.peer ≠ "") ∧ (p.oskOrg.isSome ↔ p.oskLabel.isSome) := by
  have hpeer : ∀ p, validatePeer e p = true ↔ (e.isFile p.publicKey ∧ e.spk p.publicKey) ∧ (∀ a, p.endpoint = some a → e.resolves a) ∧
      (p.keyOut.isSome ∨ ∃ w, p.wg = some w ∧ w.device ≠ "" ∧ w.peer ≠ "") ∧ (p.oskOrg.isSome ↔ p.oskLabel.isSome) := by
    intro p
    obtain ⟨pk, ep, psk, ko, wg, vn, og, lb⟩ := p
    unfold validatePeer orgAndLabel
    dsimp only
    cases e.isFile pk <;> cases e.spk pk <;> cases ep <;> cases ko <;> cases wg <;> cases og <;> cases lb <;> simp <;> (try (rename_i x _ ; cases e.resolves x <;> simp))
  unfold validate
  rw [Bool.and_eq_true, List.all_eq_true]
  refine and_congr ?_ (forall_congr' fun p => imp_congr_right fun _ => hpeer p)
  cases c.keypair with
  | none => simp
  | some k =>
    obtain ⟨pk, sk⟩ := k
    dsimp only
    constructor
    · intro h pk' sk' hh
      cases hh
      clear hpeer
      generalize e.isFile pk = a at h ⊢
      generalize e.spk pk = b at h ⊢
      generalize e.isFile sk = c at h ⊢
      generalize e.ssk sk = d at h ⊢
      cases a <;> cases b <;> cases c <;> cases d <;> first | exact ⟨⟨rfl, rfl⟩, rfl, rfl⟩ | cases h
    · intro h
      obtain ⟨⟨h1, h2⟩, h3, h4⟩ := h pk sk rfl
      simp [h1, h2, h3, h4]


/-! ### The hypotheses are met -/

/-- a name service which knows two names -/
def Demo.resolve : String → Option (List Nat)
  | "[::]:9999" => some [1, 2]
  | "127.0.0.1:4000" => some [3]
  | _ => none
def Demo.own : List OwnItem := [.verbose, .secretKey true "/k/sk", .listen "[::]:9999", .publicKey "/k/pk", .listen "127.0.0.1:4000"]
def Demo.bob : PeerSpec := ⟨[.publicKey "/p/bob", .endpoint "bob.example:9999", .outfile "/o/bob"], some ⟨"wg0", "Ym9i", ["persistent-keepalive", "25"]⟩⟩
def Demo.carol : PeerSpec := ⟨[.psk "/p/carol.psk", .publicKey "/p/carol", .outfile "peer"], none⟩
/-- both an endpoint and a pre-shared key -/
def Demo.dave : PeerSpec := ⟨[.publicKey "/p/dave", .psk "/p/dave.psk", .endpoint "dave.example:1"], none⟩
def Demo.line : Line := ⟨Demo.own, [Demo.bob, Demo.carol]⟩
def Demo.both : Line := ⟨Demo.own, [Demo.bob, Demo.dave, Demo.carol]⟩

theorem Demo.own_ok : OwnOk Demo.resolve Demo.own := ⟨by decide, by decide, by decide⟩
theorem Demo.line_ok : Demo.line.Ok Demo.resolve := by
  refine ⟨Demo.own_ok, fun _ => by decide, ?_⟩
  intro p hp
  rcases List.mem_cons.1 hp with rfl | hp
  · exact ⟨by decide, by decide, by decide, by decide, by intro w hw; cases hw; decide⟩
  · rw [List.mem_singleton.1 hp]
    exact ⟨by decide, by decide, by decide, by decide, by intro w hw; cases hw⟩
theorem Demo.both_ok : Demo.both.Ok Demo.resolve := by
  refine ⟨Demo.own_ok, fun _ => by decide, ?_⟩
  intro p hp
  rcases List.mem_cons.1 hp with rfl | hp
  · exact ⟨by decide, by decide, by decide, by decide, by intro w hw; cases hw; decide⟩
  rcases List.mem_cons.1 hp with rfl | hp
  · exact ⟨by decide, by decide, by decide, by decide, by intro w hw; cases hw⟩
  · rw [List.mem_singleton.1 hp]
    exact ⟨by decide, by decide, by decide, by decide, by intro w hw; cases hw⟩

example : Demo.line.Ok Demo.resolve ∧ (∀ p ∈ Demo.line.peers, p.NotBoth) := by
  refine ⟨Demo.line_ok, ?_⟩
  unfold PeerSpec.NotBoth; decide
example : Demo.both.Ok Demo.resolve ∧ ∃ p ∈ Demo.both.peers, ¬p.NotBoth :=
  ⟨Demo.both_ok, Demo.dave, List.mem_cons_of_mem _ List.mem_cons_self, by unfold PeerSpec.NotBoth; decide⟩

/-- a machine on which all the files of the example exist -/
def Demo.probe : Probe := ⟨fun p => p != "/none", fun p => p != "/bad", fun _ => true, fun a => a == "bob.example:9999"⟩
def Demo.cfg : Config Nat := Demo.line.meaning Demo.resolve
example : validate Demo.probe Demo.cfg = true ∧ validate Demo.probe (Demo.both.meaning Demo.resolve) = false := by decide

end Verif.Config
