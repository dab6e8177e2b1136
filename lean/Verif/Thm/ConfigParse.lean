import Verif.Thm.Config
/-
C53: acceptance of command lines, exactly; C54: validation.
-/
namespace Verif.Config

/-! ### Every command line that follows the rules is accepted -/

theorem run_cons {Addr : Type} (resolve : String → Option (List Addr)) (m : M Addr) (a : String) (as : List String) :
    m.run resolve (a :: as) = match m.step resolve a with | .error e => .error e | .ok m => m.run resolve as := rfl

theorem run_append {Addr : Type} (resolve : String → Option (List Addr)) (a b : List String) : ∀ (m m1 : M Addr), m.run resolve a = .ok m1 →
    m.run resolve (a ++ b) = m1.run resolve b := by
  induction a with
  | nil => intro m m1 h; cases h; rfl
  | cons x a ih =>
    intro m m1 h
    rw [List.cons_append, run_cons]
    rw [run_cons] at h
    cases hs : m.step resolve x with
    | error e => rw [hs] at h; cases h
    | ok m2 => rw [hs] at h; exact ih m2 m1 h

/-- two tokens -/
theorem run_two {Addr : Type} {resolve : String → Option (List Addr)} {m m1 m2 : M Addr} {a b : String} (h1 : m.step resolve a = .ok m1) (h2 : m1.step resolve b = .ok m2) :
    m.run resolve [a, b] = .ok m2 := by
  unfold M.run; rw [h1]; dsimp only; unfold M.run; rw [h2]; rfl
theorem run_one {Addr : Type} {resolve : String → Option (List Addr)} {m m1 : M Addr} {a : String} (h1 : m.step resolve a = .ok m1) :
    m.run resolve [a] = .ok m1 := by
  unfold M.run; rw [h1]; rfl

theorem own_item {Addr : Type} {resolve : String → Option (List Addr)} {own : List OwnItem} {m : M Addr} (h : Rep resolve own [] none .none m) (x : OwnItem)
    (hx : OwnOk resolve (own ++ [x])) : ∃ m', m.run resolve x.render = .ok m' ∧ Rep resolve (own ++ [x]) [] none .none m' := by
  have h0 := h
  obtain ⟨pk, sk, listen, verbose, peers, set, st, mc⟩ := m
  obtain ⟨_, _, _, _, _, _, _, _, hc, hs, _, s1, s2⟩ := h0
  have hc' : mc = none := hc
  have hs' : st = .own := hs
  subst hc'; subst hs'
  dsimp only at s1 s2
  cases x with
  | publicKey a =>
    have hn : St.ownPublicKey ∉ set := by
      intro e
      have h1 := s1.1 e
      have h2 := hx.pk
      rw [List.filterMap_append, List.length_append, h1] at h2
      simp [List.filterMap_cons, OwnItem.pk?] at h2
    exact ⟨_, run_two rfl (once_not_mem hn), (rep_own h).1 a hn⟩
  | secretKey b a =>
    have hn : St.ownSecretKey ∉ set := by
      intro e
      have h1 := s2.1 e
      have h2 := hx.sk
      rw [List.filterMap_append, List.length_append, h1] at h2
      simp [List.filterMap_cons, OwnItem.sk?] at h2
    cases b with
    | false => exact ⟨_, run_two rfl (once_not_mem hn), (rep_own h).2.1 false a hn⟩
    | true => exact ⟨_, run_two rfl (once_not_mem hn), (rep_own h).2.1 true a hn⟩
  | listen a =>
    have hr := hx.listen a (by simp [List.filterMap_cons, OwnItem.listen?])
    cases hra : resolve a with
    | none => rw [hra] at hr; cases hr
    | some as =>
      refine ⟨_, run_two rfl ?_, (rep_own h).2.2.1 a as hra⟩
      unfold M.step
      dsimp only
      rw [hra]
  | verbose => exact ⟨_, run_one rfl, (rep_own h).2.2.2 rfl⟩

theorem own_ok_prefix {Addr : Type} {resolve : String → Option (List Addr)} {a b : List OwnItem} (h : OwnOk resolve (a ++ b)) : OwnOk resolve a := by
  have h1 := h.pk; have h2 := h.sk; have h3 := h.listen
  rw [List.filterMap_append, List.length_append] at h1 h2
  refine ⟨by omega, by omega, fun x hx => h3 x ?_⟩
  rw [List.filterMap_append]; exact List.mem_append_left _ hx

theorem own_items {Addr : Type} {resolve : String → Option (List Addr)} (xs : List OwnItem) : ∀ {own : List OwnItem} {m : M Addr}, Rep resolve own [] none .none m →
    OwnOk resolve (own ++ xs) → ∃ m', m.run resolve (xs.flatMap OwnItem.render) = .ok m' ∧ Rep resolve (own ++ xs) [] none .none m' := by
  induction xs with
  | nil => intro own m h _; exact ⟨m, rfl, by simpa using h⟩
  | cons x xs ih =>
    intro own m h hx
    rw [show own ++ x :: xs = (own ++ [x]) ++ xs by simp] at hx ⊢
    obtain ⟨m1, r1, h1⟩ := own_item h x (own_ok_prefix hx)
    obtain ⟨m2, r2, h2⟩ := ih h1 hx
    exact ⟨m2, by rw [List.flatMap_cons, run_append _ _ _ _ _ r1]; exact r2, h2⟩

/-- the rules of the code about the options of a peer -/
structure ItemsOk (items : List PeerItem) : Prop where
  pk : (items.filterMap PeerItem.pk?).length ≤ 1
  both : (items.filterMap PeerItem.endpoint?).length + (items.filterMap PeerItem.psk?).length ≤ 1
  out : (items.filterMap PeerItem.out?).length ≤ 1

theorem items_ok_prefix {a b : List PeerItem} (h : ItemsOk (a ++ b)) : ItemsOk a := by
  have h1 := h.pk; have h2 := h.both; have h3 := h.out
  rw [List.filterMap_append, List.length_append] at h1 h3
  rw [List.filterMap_append, List.length_append, List.filterMap_append, List.length_append] at h2
  exact ⟨by omega, by omega, by omega⟩

theorem peer_item {Addr : Type} {resolve : String → Option (List Addr)} {own : List OwnItem} {done : List PeerSpec} {items : List PeerItem} {m : M Addr}
    (h : Rep resolve own done (some ⟨items, none⟩) .none m) (x : PeerItem) (hx : ItemsOk (items ++ [x])) :
    ∃ m', m.run resolve x.render = .ok m' ∧ Rep resolve own done (some ⟨items ++ [x], none⟩) .none m' := by
  have h0 := h
  obtain ⟨pk, sk, listen, verbose, peers, set, st, mc⟩ := m
  obtain ⟨_, _, _, _, _, _, _, _, _, hc, hs, _, _, _, s1, s2, s3, _, _⟩ := h0
  have hc' : mc = some (PeerSpec.meaning ⟨items, none⟩) := hc
  have hs' : st = .peer := hs
  subst hc'; subst hs'
  dsimp only at s1 s2 s3
  have x1 := hx.pk; have x2 := hx.both; have x3 := hx.out
  rw [List.filterMap_append, List.length_append] at x1 x3
  rw [List.filterMap_append, List.length_append, List.filterMap_append, List.length_append] at x2
  cases x with
  | publicKey a =>
    have hn : St.peerPublicKey ∉ set := by
      intro e
      rw [s1.1 e] at x1
      simp [List.filterMap_cons, PeerItem.pk?] at x1
    exact ⟨_, run_two rfl (once_not_mem hn), (rep_peer h nofun rfl).1 a hn⟩
  | endpoint a =>
    have hn : St.peerEndpoint ∉ set := by
      intro e
      have := s2.1 e
      simp [List.filterMap_cons, PeerItem.endpoint?, PeerItem.psk?] at x2
      omega
    exact ⟨_, run_two rfl (once_not_mem hn), (rep_peer h nofun rfl).2.1 a hn⟩
  | psk a =>
    have hn : St.peerEndpoint ∉ set := by
      intro e
      have := s2.1 e
      simp [List.filterMap_cons, PeerItem.endpoint?, PeerItem.psk?] at x2
      omega
    exact ⟨_, run_two rfl (once_not_mem hn), (rep_peer h nofun rfl).2.2.1 a hn⟩
  | outfile a =>
    have hn : St.peerOutfile ∉ set := by
      intro e
      rw [s3.1 e] at x3
      simp [List.filterMap_cons, PeerItem.out?] at x3
    exact ⟨_, run_two rfl (once_not_mem hn), (rep_peer h nofun rfl).2.2.2 a hn⟩

theorem peer_items {Addr : Type} {resolve : String → Option (List Addr)} {own : List OwnItem} {done : List PeerSpec} (xs : List PeerItem) : ∀ {items : List PeerItem} {m : M Addr},
    Rep resolve own done (some ⟨items, none⟩) .none m → ItemsOk (items ++ xs) →
    ∃ m', m.run resolve (xs.flatMap PeerItem.render) = .ok m' ∧ Rep resolve own done (some ⟨items ++ xs, none⟩) .none m' := by
  induction xs with
  | nil => intro items m h _; exact ⟨m, rfl, by simpa using h⟩
  | cons x xs ih =>
    intro items m h hx
    rw [show items ++ x :: xs = (items ++ [x]) ++ xs by simp] at hx ⊢
    obtain ⟨m1, r1, h1⟩ := peer_item h x (items_ok_prefix hx)
    obtain ⟨m2, r2, h2⟩ := ih h1 hx
    exact ⟨m2, by rw [List.flatMap_cons, run_append _ _ _ _ _ r1]; exact r2, h2⟩

theorem wg_extra {Addr : Type} {resolve : String → Option (List Addr)} {own : List OwnItem} {done : List PeerSpec} {items : List PeerItem} (xs : List String) : ∀ {w : Wg} {m : M Addr},
    Rep resolve own done (some ⟨items, some w⟩) .none m → "peer" ∉ xs →
    ∃ m', m.run resolve xs = .ok m' ∧ Rep resolve own done (some ⟨items, some { w with extra := w.extra ++ xs }⟩) .none m' := by
  induction xs with
  | nil => intro w m h _; exact ⟨m, rfl, by simpa using h⟩
  | cons x xs ih =>
    intro w m h hx
    have hne : x ≠ "peer" := by rintro rfl; exact hx List.mem_cons_self
    have h1 := rep_wg.2.2 w x hne h
    obtain ⟨m2, r2, h2⟩ := ih h1 (fun e => hx (List.mem_cons_of_mem _ e))
    refine ⟨m2, ?_, by simpa using h2⟩
    have h0 := h
    obtain ⟨pk, sk, listen, verbose, peers, set, st, mc⟩ := m
    obtain ⟨_, _, _, _, _, _, _, _, _, hc, hs, _⟩ := h0
    have hc' : mc = some (PeerSpec.meaning ⟨items, some w⟩) := hc
    have hs' : st = .peerWgExtra := hs
    subst hc'; subst hs'
    have hstep : M.step resolve (⟨pk, sk, listen, verbose, peers, set, .peerWgExtra, some (PeerSpec.meaning ⟨items, some w⟩)⟩ : M Addr) x =
        .ok ⟨pk, sk, listen, verbose, peers, set, .peerWgExtra, some { (PeerSpec.meaning ⟨items, none⟩) with wg := some { w with extra := w.extra ++ [x] } }⟩ := by
      unfold M.step
      dsimp only
      rw [if_neg hne]
      rfl
    unfold M.run
    rw [hstep]
    exact r2

theorem wg_all {Addr : Type} {resolve : String → Option (List Addr)} {own : List OwnItem} {done : List PeerSpec} {items : List PeerItem} {m : M Addr} (w : Wg)
    (h : Rep resolve own done (some ⟨items, none⟩) .none m) (hw : "peer" ∉ w.extra) :
    ∃ m', m.run resolve (wgRender w) = .ok m' ∧ Rep resolve own done (some ⟨items, some w⟩) .none m' := by
  obtain ⟨d, q, ex⟩ := w
  have h1 := rep_kw h rfl "wireguard" .peerWgDev (by simp)
  have h2 := rep_wg.1 d _ h1
  have h3 := rep_wg.2.1 d q h2
  obtain ⟨m', r, h4⟩ := wg_extra ex h3 hw
  refine ⟨m', ?_, by simpa using h4⟩
  have h0 := h
  obtain ⟨pk, sk, listen, verbose, peers, set, st, mc⟩ := m
  obtain ⟨_, _, _, _, _, _, _, _, _, hc, hs, _, _, _, s1, s2, s3, s4, s5⟩ := h0
  have hc' : mc = some (PeerSpec.meaning ⟨items, none⟩) := hc
  have hs' : st = .peer := hs
  subst hc'; subst hs'
  have n1 : St.peerWgDev ∉ set := by
    intro e
    rcases s4.1 e with h | ⟨d, h⟩ <;> cases h
  have n2 : St.peerWgPeer ∉ St.peerWgDev :: set := by
    intro e
    have : St.peerWgPeer ∈ set := by simpa using e
    have := s5.1 this; cases this
  have e1 : M.step resolve (⟨pk, sk, listen, verbose, peers, set, .peer, some (PeerSpec.meaning ⟨items, none⟩)⟩ : M Addr) "wireguard" =
      .ok ⟨pk, sk, listen, verbose, peers, set, .peerWgDev, some (PeerSpec.meaning ⟨items, none⟩)⟩ := rfl
  have e2 : M.step resolve (⟨pk, sk, listen, verbose, peers, set, .peerWgDev, some (PeerSpec.meaning ⟨items, none⟩)⟩ : M Addr) d =
      .ok ⟨pk, sk, listen, verbose, peers, .peerWgDev :: set, .peerWgPeer, some { (PeerSpec.meaning ⟨items, none⟩) with wg := some ⟨d, "", []⟩ }⟩ := by
    unfold M.step
    dsimp only
    rw [if_neg n1, if_neg (by simp [PeerSpec.meaning])]
  have e3 : M.step resolve (⟨pk, sk, listen, verbose, peers, .peerWgDev :: set, .peerWgPeer, some { (PeerSpec.meaning ⟨items, none⟩) with wg := some ⟨d, "", []⟩ }⟩ : M Addr) q =
      .ok ⟨pk, sk, listen, verbose, peers, .peerWgPeer :: .peerWgDev :: set, .peerWgExtra, some { (PeerSpec.meaning ⟨items, none⟩) with wg := some ⟨d, q, []⟩ }⟩ := by
    unfold M.step
    dsimp only
    rw [if_neg n2]
  show M.run resolve _ ("wireguard" :: d :: q :: ex) = _
  unfold M.run; rw [e1]; dsimp only
  unfold M.run; rw [e2]; dsimp only
  unfold M.run; rw [e3]
  exact r

theorem peer_body {Addr : Type} {resolve : String → Option (List Addr)} {own : List OwnItem} {done : List PeerSpec} {m : M Addr} (p : PeerSpec)
    (h : Rep resolve own done (some ⟨[], none⟩) .none m) (hok : p.Ok) (hnb : p.NotBoth) :
    ∃ m', m.run resolve p.body = .ok m' ∧ Rep resolve own done (some p) .none m' := by
  obtain ⟨items, wg⟩ := p
  obtain ⟨m1, r1, h1⟩ := peer_items items h ⟨by simpa using hok.pk, by simpa [PeerSpec.NotBoth] using hnb, by simpa using hok.out⟩
  rw [List.nil_append] at h1
  cases wg with
  | none => exact ⟨m1, by simpa [PeerSpec.body] using r1, h1⟩
  | some w =>
    obtain ⟨m2, r2, h2⟩ := wg_all w h1 (hok.extra w rfl)
    exact ⟨m2, by unfold PeerSpec.body; rw [run_append _ _ _ _ _ r1]; exact r2, h2⟩

theorem step_peer {Addr : Type} {resolve : String → Option (List Addr)} {own : List OwnItem} {done : List PeerSpec} {p : PeerSpec} {m : M Addr}
    (h : Rep resolve own done (some p) .none m) :
    ∃ m', m.step resolve "peer" = .ok m' ∧ Rep resolve own (done ++ [p]) (some ⟨[], none⟩) .none m' := by
  refine ⟨_, ?_, rep_next h⟩
  have h0 := h
  obtain ⟨pk, sk, listen, verbose, peers, set, st, mc⟩ := m
  obtain ⟨_, _, _, _, _, _, _, _, _, hc, hs, _⟩ := h0
  obtain ⟨items, wg⟩ := p
  have hc' : mc = some (PeerSpec.meaning ⟨items, wg⟩) := hc
  subst hc'
  cases wg with
  | none =>
    have hs' : st = .peer := hs
    subst hs'; rfl
  | some w =>
    have hs' : st = .peerWgExtra := hs
    subst hs'; rfl

theorem more_peers {Addr : Type} {resolve : String → Option (List Addr)} {own : List OwnItem} (ps : List PeerSpec) : ∀ {done : List PeerSpec} {p : PeerSpec} {m : M Addr},
    Rep resolve own done (some p) .none m → (∀ q ∈ ps, q.Ok ∧ q.NotBoth) →
    ∃ m' done' p', m.run resolve (ps.flatMap PeerSpec.render) = .ok m' ∧ Rep resolve own done' (some p') .none m' ∧ done' ++ [p'] = done ++ [p] ++ ps := by
  induction ps with
  | nil => intro done p m h _; exact ⟨m, done, p, rfl, h, by simp⟩
  | cons q ps ih =>
    intro done p m h hq
    obtain ⟨m1, r1, h1⟩ := step_peer h
    obtain ⟨q1, q2⟩ := hq q List.mem_cons_self
    obtain ⟨m2, r2, h2⟩ := peer_body q h1 q1 q2
    obtain ⟨m3, d3, p3, r3, h3, e3⟩ := ih h2 (fun x hx => hq x (List.mem_cons_of_mem _ hx))
    refine ⟨m3, d3, p3, ?_, h3, by rw [e3]; simp⟩
    rw [List.flatMap_cons]
    have : m.run resolve q.render = .ok m2 := by
      unfold PeerSpec.render M.run
      rw [r1]; exact r2
    rw [run_append _ _ _ _ _ this]; exact r3

/-- the configuration the parser has -/
theorem rep_finish {Addr : Type} {resolve : String → Option (List Addr)} {own : List OwnItem} {m : M Addr} :
    (∀ t, Rep resolve own [] none t m → m.finish = Line.meaning resolve ⟨own, []⟩) ∧
    (∀ done p t, Rep resolve own done (some p) t m → m.finish = { Line.meaning resolve ⟨own, done⟩ with peers := done.map PeerSpec.meaning ++ [curOf p t] }) := by
  refine ⟨fun t h => ?_, fun done p t h => ?_⟩
  · obtain ⟨_, h1, h2, h3, h4, h5, _, _, hc, _⟩ := h
    unfold M.finish Line.meaning
    rw [h1, h2, h3, h4, h5, hc]
  · obtain ⟨_, h1, h2, h3, h4, h5, _, _, _, hc, _⟩ := h
    unfold M.finish Line.meaning
    rw [h1, h2, h3, h4, h5, hc]

theorem step_first {Addr : Type} {resolve : String → Option (List Addr)} {own : List OwnItem} {m1 : M Addr} (h1 : Rep resolve own [] none .none m1)
    (hpk : St.ownPublicKey ∈ m1.set) (hsk : St.ownSecretKey ∈ m1.set) :
    m1.step resolve "peer" = .ok { m1 with set := [], cur := some .default, st := .peer } := by
  obtain ⟨pk, sk, listen, verbose, peers, set, st, mc⟩ := m1
  obtain ⟨_, _, _, _, _, _, _, _, hc, hs, _⟩ := h1
  have hc' : mc = none := hc
  have hs' : st = .own := hs
  subst hc'; subst hs'
  have : ∀ {x y : Except Stop (M Addr)}, (if St.ownPublicKey ∉ set then x else if St.ownSecretKey ∉ set then x else y) = y := by
    intro x y; rw [if_neg (not_not_intro hpk), if_neg (not_not_intro hsk)]
  exact this

theorem run_line {Addr : Type} (resolve : String → Option (List Addr)) (own : List OwnItem) (ps : List PeerSpec) (q : PeerSpec) (hl : Line.Ok resolve ⟨own, ps ++ [q]⟩)
    (hb : ∀ p ∈ ps ++ [q], p.NotBoth) :
    ∃ m done, M.init.run resolve (Line.mk own (ps ++ [q])).render = .ok m ∧ Rep resolve own done (some q) .none m ∧ done = ps := by
  obtain ⟨m1, r1, h1⟩ := own_items own (rep_init resolve) (by simpa using hl.own)
  rw [List.nil_append] at h1
  unfold Line.render
  dsimp only
  rw [run_append _ _ _ _ _ r1]
  obtain ⟨k1, k2⟩ := hl.keys (by simp)
  have hpk : St.ownPublicKey ∈ m1.set := h1.state.2.2.2.2.1.2 k1
  have hsk : St.ownSecretKey ∈ m1.set := h1.state.2.2.2.2.2.2 k2
  have h2 := rep_first h1 hpk hsk
  have e2 := step_first h1 hpk hsk
  obtain ⟨p, rest, hp⟩ : ∃ p rest, ps ++ [q] = p :: rest := by
    cases ps with
    | nil => exact ⟨q, [], rfl⟩
    | cons a as => exact ⟨a, as ++ [q], rfl⟩
  have hlp := hl.peers
  dsimp only at hlp
  rw [hp] at hlp hb
  obtain ⟨m3, r3, h3⟩ := peer_body p h2 (hlp p List.mem_cons_self) (hb p List.mem_cons_self)
  obtain ⟨m4, d4, p4, r4, h4, e4⟩ := more_peers rest h3 (fun x hx => ⟨hlp x (List.mem_cons_of_mem _ hx), hb x (List.mem_cons_of_mem _ hx)⟩)
  have e5 : d4 ++ [p4] = ps ++ [q] := by rw [e4, hp]; rfl
  obtain ⟨e6, e7⟩ := List.append_inj' e5 rfl
  cases e7
  refine ⟨m4, d4, ?_, h4, e6⟩
  rw [hp, List.flatMap_cons]
  have : m1.run resolve p.render = .ok m3 := by
    unfold PeerSpec.render; rw [run_cons, e2]; exact r3
  rw [run_append _ _ _ _ _ this]; exact r4

/-- **C53, what is true.** Every command line that follows the documented rules is accepted with the documented meaning,
if no peer has both an endpoint and a pre-shared key. -/
theorem documented_lines_accepted_partial {Addr : Type} (resolve : String → Option (List Addr)) (l : Line) (hl : l.Ok resolve) (hb : ∀ p ∈ l.peers, p.NotBoth) :
    parseArgs resolve l.render = .ok (l.meaning resolve) := by
  obtain ⟨own, peers⟩ := l
  rcases List.eq_nil_or_concat peers with rfl | ⟨ps, q, rfl⟩
  · obtain ⟨m1, r1, h1⟩ := own_items own (rep_init resolve) (by simpa using hl.own)
    rw [List.nil_append] at h1
    unfold parseArgs Line.render
    dsimp only
    rw [run_append _ _ _ _ _ r1]
    have : m1.run resolve (List.flatMap PeerSpec.render []) = .ok m1 := rfl
    rw [this]
    dsimp only
    rw [rep_finish.1 _ h1]
  · rw [List.concat_eq_append] at hl hb ⊢
    obtain ⟨m, d, r, h, e⟩ := run_line resolve own ps q hl hb
    subst e
    unfold parseArgs
    rw [r]
    dsimp only
    rw [rep_finish.2 _ _ _ h]
    simp [Line.meaning, curOf]

end Verif.Config
