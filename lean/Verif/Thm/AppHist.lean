import Verif.Thm.App
/-
Histories of the application: the tables of peers stay aligned, the event loop does not panic.
-/
namespace Verif
open Server FileIO
namespace App
variable {C : Crypto}

theorem setPsk_app (a : App) (p : Nat) (k : Bytes) (e : World) : (a.setPsk p k e).app = a ∧ (a.setPsk p k e).fate ≠ .exit := by
  unfold setPsk
  split
  · exact ⟨rfl, by simp⟩
  · split
    · exact ⟨rfl, by simp⟩
    · split
      · exact ⟨rfl, by simp⟩
      · split <;> exact ⟨rfl, by simp⟩

theorem storeKey_app (a : App) (f : String) (k : Bytes) (e : World) : ∃ fs, (a.storeKey f k e).app = { a with fs := fs } := by
  unfold storeKey
  split
  · split <;> exact ⟨_, rfl⟩
  · exact ⟨a.fs, rfl⟩

/-- `output_key` changes nothing but the file system -/
theorem outputKey_app (a : App) (p : Nat) (why : Reason) (k : Bytes) (e : World) : ∃ fs, (a.outputKey C p why k e).app = { a with fs := fs } := by
  have bind : ∀ (r : Res) (f : App → Res), (∃ fs, r.app = { a with fs := fs }) → (∀ b : App, (∃ fs, b = { a with fs := fs }) → ∃ fs, (f b).app = { a with fs := fs }) →
      ∃ fs, (r.andThen f).app = { a with fs := fs } := by
    intro r f h1 h2
    unfold Res.andThen
    split
    · exact h2 _ h1
    · exact h1
  unfold outputKey
  split
  · exact ⟨a.fs, rfl⟩
  · split
    · refine bind _ _ ?_ (fun b hb => by rw [(setPsk_app b p k e).1]; exact hb)
      split
      · exact ⟨a.fs, rfl⟩
      · refine bind _ _ (storeKey_app a _ k e) (fun b hb => ?_)
        split <;> exact hb
    · exact ⟨a.fs, rfl⟩

/-- A round is a sequence of calls of the protocol server, none of which adds a peer; and it leaves the
static data of the application's peers alone. -/
theorem step_frame (a : App) (e : World) (he : e.WF C) : Frame a (a.step C e).app ∧
    (∀ s, a.site = .product s → ∃ ops : List Server.Op, (∀ o ∈ ops, o.WF C ∧ ∀ psk pk v osk, o ≠ .addPeer psk pk v osk) ∧
      (a.step C e).app.site = .product (s.run C ops)) ∧
    (∀ b, a.site = .builder b → (a.step C e).app.site = .builder b) ∧ (a.site = .void → (a.step C e).app.site = .void) := by
  unfold step
  cases hs : a.site with
  | void => dsimp only; split <;> exact ⟨.refl _, fun _ h => (nomatch h), fun _ h => (nomatch h), fun _ => hs⟩
  | builder b => dsimp only; split <;> exact ⟨.refl _, fun _ h => (nomatch h), fun _ h => by cases h; exact hs, fun h => (nomatch h)⟩
  | product s =>
    suffices h : ∀ r : Res, r = a.step C e → Frame a r.app ∧ ∃ ops : List Server.Op, (∀ o ∈ ops, o.WF C ∧ ∀ psk pk v osk, o ≠ .addPeer psk pk v osk) ∧
      r.app.site = .product (s.run C ops) by
      obtain ⟨h1, h2⟩ := h _ rfl
      unfold step at h1 h2
      rw [hs] at h1 h2
      exact ⟨h1, fun s' h => by cases h; exact h2, fun _ h => (nomatch h), fun h => (nomatch h)⟩
    intro r hr
    subst hr
    unfold step
    rw [hs]
    dsimp only
    cases hpoll : s.poll e.now e.prnd with
    | none => exact ⟨.refl _, [], by simp, hs⟩
    | some x =>
      obtain ⟨res, s1⟩ := x
      dsimp only
      have h1 : s1 = s.step C (.poll e.now e.prnd) := poll_op s e hpoll
      have one : ∃ ops : List Server.Op, (∀ o ∈ ops, o.WF C ∧ ∀ psk pk v osk, o ≠ .addPeer psk pk v osk) ∧ Site.product (B := Builder) s1 = .product (s.run C ops) :=
        ⟨[.poll e.now e.prnd], by simp; exact he.prnd, by rw [h1]; rfl⟩
      have two : ∀ o : Server.Op, o.WF C → (∀ psk pk v osk, o ≠ .addPeer psk pk v osk) → ∃ ops : List Server.Op,
          (∀ o ∈ ops, o.WF C ∧ ∀ psk pk v osk, o ≠ .addPeer psk pk v osk) ∧ Site.product (B := Builder) (s1.step C o) = .product (s.run C ops) := by
        intro o ho hna
        refine ⟨[.poll e.now e.prnd, o], ?_, by rw [h1]; rfl⟩
        intro o' ho'
        simp only [List.mem_cons, List.mem_nil_iff, or_false] at ho'
        rcases ho' with rfl | rfl
        · exact ⟨he.prnd, by intros; intro h; cases h⟩
        · exact ⟨ho, hna⟩
      cases res with
      | deleteKey p =>
        dsimp only
        obtain ⟨fs, hfs⟩ := outputKey_app (C := C) { a with site := Site.product s1 } p .stale e.stale e
        have hF : Frame a ({ a with site := Site.product s1, fs := fs } : App) := (Frame.site a _).trans (Frame.fs _ _)
        unfold deleteKey Res.andThen
        split
        · dsimp only
          rw [hfs]
          cases hap : a.peers[p]? with
          | none => exact ⟨hF, one⟩
          | some ap => exact ⟨hF.trans (Frame.set ({ a with site := Site.product s1, fs := fs } : App) p ap _ hap rfl rfl), one⟩
        · rw [hfs]; exact ⟨hF, one⟩
      | sendInitiation p =>
        dsimp only
        obtain ⟨h, -, g⟩ := txMaybe_spec (C := C) { a with site := .product s1 } p (fun s => s.initiate C p e.later e.rnd0 e.tx) e s1 rfl
        refine ⟨(Frame.site a _).trans h.frame, ?_⟩
        rcases g with g | g <;> rw [g]
        · exact one
        · exact two (.initiate p e.later e.rnd0 e.tx) he.rnd0 (by intros; intro h; cases h)
      | sendRetransmission p =>
        dsimp only
        obtain ⟨h, -, g⟩ := txMaybe_spec (C := C) { a with site := .product s1 } p (fun s => s.retransmit C p e.tx) e s1 rfl
        refine ⟨(Frame.site a _).trans h.frame, ?_⟩
        rcases g with g | g <;> rw [g]
        · exact one
        · exact two (.retransmit p e.tx) trivial (by intros; intro h; cases h)
      | sleep t =>
        dsimp only
        cases hio : e.io with
        | none => exact ⟨.site _ _, one⟩
        | terminate => exact ⟨.site _ _, one⟩
        | err => exact ⟨.site _ _, one⟩
        | msg rx sock addr =>
          dsimp only
          rw [message_eq]
          have hop := two (e.receive rx sock addr) (receive_WF he rx sock addr) (receive_noadd e rx sock addr)
          generalize hs2 : s1.step C (e.receive rx sock addr) = s2 at hop ⊢
          have hF : Frame a ({ a with site := .product s2 } : App) := .site _ _
          cases hres : (e.receive rx sock addr).result C s1 with
          | error x => cases x <;> exact ⟨hF, hop⟩
          | ok m =>
            obtain ⟨ex, resp⟩ := m
            dsimp only
            unfold received
            have main : ∀ (o : List Output) (p : Nat), Frame a (Res.andThen ⟨.next, { a with site := .product s2 }, o⟩ fun a => a.exchanged C p sock addr e).app ∧
                (Res.andThen ⟨.next, { a with site := .product s2 }, o⟩ fun a => a.exchanged C p sock addr e).app.site = .product s2 := by
              intro o p
              unfold Res.andThen exchanged
              dsimp only
              cases hap : a.peers[p]? with
              | none => exact ⟨hF, rfl⟩
              | some ap =>
                dsimp only [Site.productRef]
                have hF2 : Frame a ({ a with site := .product s2, peers := a.peers.set p { ap with current := some (.bound sock addr) } } : App) :=
                  hF.trans (Frame.set _ p ap _ hap rfl rfl)
                cases s2.osk C p with
                | error x => exact ⟨hF2, rfl⟩
                | ok k =>
                  dsimp only
                  obtain ⟨fs, hfs⟩ := outputKey_app (C := C) ({ a with site := .product s2, peers := a.peers.set p { ap with current := some (.bound sock addr) } } : App) p .exchanged k e
                  rw [hfs]
                  exact ⟨hF2.trans (.fs _ _), rfl⟩
            cases ex with
            | none =>
              cases resp with
              | none => exact ⟨hF, hop⟩
              | some msg => dsimp only; split <;> exact ⟨hF, hop⟩
            | some p =>
              cases resp with
              | none =>
                obtain ⟨m1, m2⟩ := main [] p
                exact ⟨m1, by dsimp only; rw [m2]; exact hop⟩
              | some msg =>
                dsimp only
                split
                · obtain ⟨m1, m2⟩ := main [.datagram sock addr msg] p
                  exact ⟨m1, by rw [m2]; exact hop⟩
                · exact ⟨hF, hop⟩

/-! ### C48: the tables of peers -/

/-- The sizes the Rust types give to the arguments. -/
def NewPeer.WF (x : NewPeer) : Prop := ∀ k, x.params.psk = some k → k.length = 32

/-- The sizes of the random values of a new server. -/
def rndOk (r : NewRnd) : Prop := r.b0.length = 32 ∧ r.b1.length = 32 ∧ r.c0.length = 16 ∧ r.c1.length = 16 ∧ r.kk.length = 32

/-- The sizes the Rust types give to the arguments of an action. -/
def Act.WF (C : Crypto) : Act → Prop
  | .round e => e.WF C
  | .addPeer x => x.WF
  | .supply _ r => rndOk r
  | _ => True

/-- Histories of the application, with the list of peers for which `add_peer` returned `Ok`. `P` restricts
the peers that one tries to add. -/
inductive History (C : Crypto) (P : NewPeer → Prop) : App → List NewPeer → Prop
  | new (kp r nsock fs) : rndOk r → History C P (App.new kp r nsock fs) []
  | act (a xs o) : History C P a xs → o.WF C → (∀ x, o ≠ .addPeer x) → History C P (a.apply C o) xs
  | added (a xs x n) : History C P a xs → x.WF → P x → (a.addPeer C x).1 = .ok n → History C P (a.addPeer C x).2 (xs ++ [x])
  | refused (a xs x) : History C P a xs → x.WF → P x → (a.addPeer C x).1 = .error .error → History C P (a.addPeer C x).2 xs

/-- **Specification** of aligned tables: the application has exactly the peers `xs`, in this order, with
the output file and broker given for each, and the protocol server (or what is known of it so far) has
exactly the peers `xs` too, in this order, with the keys given for each. -/
structure Matches (C : Crypto) (a : App) (xs : List NewPeer) : Prop where
  len : a.peers.length = xs.length
  peers : ∀ (i : Nat) x, xs[i]? = some x → ∃ ap, a.peers[i]? = some ap ∧ ap.outfile = x.outfile ∧ ap.broker = x.broker
  builder : ∀ b, a.site = .builder b → b.peers = xs.map (·.params)
  product : ∀ s, a.site = .product s → s.peers.length = xs.length ∧ ∀ (i : Nat) x, xs[i]? = some x →
    ∃ q, s.peers[i]? = some q ∧ q.spkt = x.params.pk ∧ q.psk = x.params.psk.getD zero32 ∧ q.version = x.params.version ∧ q.osk = x.params.osk

/-- what is needed besides: the server's state is a reachable one -/
def Sane (C : Crypto) (a : App) : Prop :=
  (∀ s, a.site = .product s → Reachable C s) ∧ (∀ b, a.site = .builder b → ∀ x ∈ b.peers, ∀ k, x.psk = some k → k.length = 32)

theorem Matches.aligned {a : App} {xs : List NewPeer} (h : Matches C a xs) : a.Aligned := by
  unfold Aligned
  cases hs : a.site with
  | void => trivial
  | builder b => dsimp only; rw [h.builder b hs, h.len, List.length_map]
  | product s => dsimp only; rw [(h.product s hs).1, h.len]

theorem run_length (s : Server) (ops : List Server.Op) (h : ∀ o ∈ ops, ∀ psk pk v osk, o ≠ .addPeer psk pk v osk) :
    (s.run C ops).peers.length = s.peers.length := by
  induction ops generalizing s with
  | nil => rfl
  | cons o ops ih =>
    show ((s.step C o).run C ops).peers.length = _
    rw [ih _ (fun o ho => h o (by simp [ho])), step_length s o (h o (by simp))]

/-- a round keeps the tables aligned -/
theorem round_matches (L : C.Lawful) {a : App} {xs : List NewPeer} (h : Matches C a xs) (hr : Sane C a) (e : World) (he : e.WF C) :
    Matches C (a.step C e).app xs ∧ Sane C (a.step C e).app := by
  obtain ⟨f, f1, f2, f3⟩ := step_frame (C := C) a e he
  have peers : ∀ (i : Nat) x, xs[i]? = some x → ∃ ap, (a.step C e).app.peers[i]? = some ap ∧ ap.outfile = x.outfile ∧ ap.broker = x.broker := by
    intro i x hx
    obtain ⟨ap, h1, h2, h3⟩ := h.peers i x hx
    obtain ⟨ap', g1, g2, g3⟩ := f.peers i ap h1
    exact ⟨ap', g1, g2.trans h2, g3.trans h3⟩
  cases hs : a.site with
  | void =>
    have h' := f3 hs
    exact ⟨⟨f.len.trans h.len, peers, fun b hb => (by rw [h'] at hb; cases hb), fun b hb => (by rw [h'] at hb; cases hb)⟩,
      fun b hb => (by rw [h'] at hb; cases hb), fun b hb => (by rw [h'] at hb; cases hb)⟩
  | builder b =>
    have h' := f2 b hs
    refine ⟨⟨f.len.trans h.len, peers, fun c hc => ?_, fun b hb => (by rw [h'] at hb; cases hb)⟩, fun b hb => (by rw [h'] at hb; cases hb), fun c hc => ?_⟩
    · rw [h'] at hc; cases hc; exact h.builder b hs
    · rw [h'] at hc; cases hc; exact hr.2 b hs
  | product s =>
    obtain ⟨ops, ho, h'⟩ := f1 s hs
    have hop : ∀ o ∈ ops, o.WF C := fun o hm => (ho o hm).1
    refine ⟨⟨f.len.trans h.len, peers, fun b hb => (by rw [h'] at hb; cases hb), fun t ht => ?_⟩, fun t ht => ?_, fun b hb => (by rw [h'] at hb; cases hb)⟩
    · rw [h'] at ht; cases ht
      refine ⟨(run_length s ops (fun o hm => (ho o hm).2)).trans (h.product s hs).1, fun i x hx => ?_⟩
      obtain ⟨q, hq, g1, g2, g3, g4⟩ := (h.product s hs).2 i x hx
      obtain ⟨q', hq', hst, -⟩ := (run_later L ops hop s).peers i q hq
      exact ⟨q', hq', hst.2.1.trans g1, hst.1.trans g2, hst.2.2.1.trans g3, hst.2.2.2.trans g4⟩
    · rw [h'] at ht; cases ht
      exact run_reachable ops hop s (hr.1 s hs)

/-- the protocol server's `add_peer` -/
theorem server_addPeer_cases (s : Server) (psk : Option Bytes) (pk : Bytes) (v : Version) (osk : OskDomain) :
    (s.addPeer C psk pk v osk = (.error .peerExists, s)) ∨
    ((s.addPeer C psk pk v osk).1 = .ok s.peers.length ∧ (s.addPeer C psk pk v osk).2 = s.step C (.addPeer psk pk v osk) ∧
      (s.addPeer C psk pk v osk).2.peers = s.peers ++ [freshPeer psk pk v osk]) := by
  unfold Server.step
  dsimp only
  unfold Server.addPeer
  dsimp only
  split
  · exact .inl rfl
  · exact .inr ⟨rfl, rfl, rfl⟩

/-- `add_peer` when the host name resolves -/
theorem addPeer_matches {a : App} {xs : List NewPeer} (h : Matches C a xs) (hr : Sane C a) (x : NewPeer) (hx : x.WF) (hres : x.host ≠ some none) :
    (∃ n, (a.addPeer C x).1 = .ok n ∧ n = xs.length ∧ Matches C (a.addPeer C x).2 (xs ++ [x]) ∧ Sane C (a.addPeer C x).2) ∨
    ((a.addPeer C x).1 = .error .error ∧ Matches C (a.addPeer C x).2 xs ∧ Sane C (a.addPeer C x).2) := by
  -- pushing the application's entry
  have push : ∀ b : App, b.peers = a.peers →
      (∀ c, b.site = .builder c → c.peers = (xs ++ [x]).map (·.params)) →
      (∀ s, b.site = .product s → s.peers.length = (xs ++ [x]).length ∧ ∀ (i : Nat) y, (xs ++ [x])[i]? = some y →
        ∃ q, s.peers[i]? = some q ∧ q.spkt = y.params.pk ∧ q.psk = y.params.psk.getD zero32 ∧ q.version = y.params.version ∧ q.osk = y.params.osk) →
      ∀ i0, Matches C { b with peers := b.peers ++ [⟨x.outfile, x.broker, i0, none⟩] } (xs ++ [x]) := by
    intro b hb h1 h2 i0
    refine ⟨by simp [hb, h.len], fun i y hy => ?_, h1, h2⟩
    dsimp only
    rw [hb]
    rw [List.getElem?_append] at hy
    split at hy
    · rename_i hlt
      obtain ⟨ap, g1, g2, g3⟩ := h.peers i y hy
      exact ⟨ap, by rw [List.getElem?_append_left (by rw [h.len]; exact hlt)]; exact g1, g2, g3⟩
    · rename_i hlt
      have : i - xs.length = 0 := by
        have := (List.getElem?_eq_some_iff.mp hy).1
        simp at this; omega
      rw [this] at hy
      simp at hy
      subst hy
      refine ⟨⟨x.outfile, x.broker, i0, none⟩, ?_, rfl, rfl⟩
      rw [List.getElem?_append_right (by rw [h.len]; omega), h.len, this]
      rfl
  -- the rest of `add_peer`, given the site
  have fin : ∀ b : App, b.peers = a.peers → Sane C b →
      (∀ c, b.site = .builder c → c.peers = (xs ++ [x]).map (·.params)) →
      (∀ s, b.site = .product s → s.peers.length = (xs ++ [x]).length ∧ ∀ (i : Nat) y, (xs ++ [x])[i]? = some y →
        ∃ q, s.peers[i]? = some q ∧ q.spkt = y.params.pk ∧ q.psk = y.params.psk.getD zero32 ∧ q.version = y.params.version ∧ q.osk = y.params.osk) →
      ∃ i0, b.pushPeer xs.length x =
        (.ok xs.length, { b with peers := b.peers ++ [⟨x.outfile, x.broker, i0, none⟩] }) ∧
        Matches C { b with peers := b.peers ++ [⟨x.outfile, x.broker, i0, none⟩] } (xs ++ [x]) ∧ Sane C { b with peers := b.peers ++ [⟨x.outfile, x.broker, i0, none⟩] } := by
    intro b hb hsane h1 h2
    unfold pushPeer
    rcases hh : x.host with _ | (_ | l)
    · exact ⟨none, rfl, push b hb h1 h2 _, hsane⟩
    · exact absurd hh hres
    · exact ⟨_, rfl, push b hb h1 h2 _, hsane⟩
  unfold addPeer
  cases hs : a.site with
  | void => exact .inr ⟨rfl, h, hr⟩
  | builder c =>
    have hc := h.builder c hs
    have hn : c.peers.length = xs.length := by rw [hc, List.length_map]
    dsimp only [Builder.addPeer]
    rw [if_pos (by rw [hn, h.len]), hn]
    obtain ⟨i0, e1, e2, e3⟩ := fin { a with site := .builder { c with peers := c.peers ++ [x.params] } } rfl
      ⟨fun s h => (nomatch h), fun d hd y hy k hk => by
        cases hd
        rcases List.mem_append.mp hy with hy | hy
        · exact hr.2 c hs y hy k hk
        · simp at hy; subst hy; exact hx k hk⟩
      (fun d hd => by cases hd; simp [hc]) (fun s h => (nomatch h))
    rw [e1]
    exact .inl ⟨_, rfl, rfl, e2, e3⟩
  | product s =>
    have hprod := h.product s hs
    dsimp only
    rcases server_addPeer_cases (C := C) s x.params.psk x.params.pk x.params.version x.params.osk with hA | ⟨h1, h2, h3⟩
    · rw [hA]
      refine .inr ⟨rfl, ⟨h.len, h.peers, fun b hb => (nomatch hb), fun t ht => ?_⟩, fun t ht => ?_, fun b hb => (nomatch hb)⟩
      · cases ht; exact hprod
      · cases ht; exact hr.1 s hs
    · generalize hg : s.addPeer C x.params.psk x.params.pk x.params.version x.params.osk = g at h1 h2 h3
      obtain ⟨g1, s1⟩ := g
      dsimp only at h1 h2 h3
      subst h1
      dsimp only
      rw [if_pos (by rw [hprod.1, h.len]), hprod.1]
      have hsane : Sane C { a with site := .product s1 } :=
        ⟨fun t ht => by cases ht; rw [h2]; exact .step _ _ (hr.1 s hs) hx, fun b hb => (nomatch hb)⟩
      obtain ⟨i0, e1, e2, e3⟩ := fin { a with site := .product s1 } rfl hsane (fun d hd => (nomatch hd)) (fun t ht => by
        cases ht
        refine ⟨by rw [h3]; simp [hprod.1], fun i y hy => ?_⟩
        rw [h3]
        rw [List.getElem?_append] at hy
        split at hy
        · rename_i hlt
          obtain ⟨q, q1, q2⟩ := hprod.2 i y hy
          exact ⟨q, by rw [List.getElem?_append_left (by rw [hprod.1]; exact hlt)]; exact q1, q2⟩
        · rename_i hlt
          have hz : i - xs.length = 0 := by
            have := (List.getElem?_eq_some_iff.mp hy).1
            simp at this; omega
          rw [hz] at hy
          simp at hy
          subst hy
          refine ⟨freshPeer x.params.psk x.params.pk x.params.version x.params.osk, ?_, rfl, rfl, rfl, rfl⟩
          rw [List.getElem?_append_right (by rw [hprod.1]; omega), hprod.1, hz]
          rfl)
      rw [e1]
      exact .inl ⟨_, rfl, rfl, e2, e3⟩

/-- supplying the key pair -/
theorem supply_matches (L : C.Lawful) {a : App} {xs : List NewPeer} (h : Matches C a xs) (hr : Sane C a) (kp : Bytes × Bytes) (r : NewRnd) (hk : rndOk r) :
    Matches C (a.supply C kp r).2 xs ∧ Sane C (a.supply C kp r).2 := by
  unfold supply
  cases hs : a.site with
  | void => exact ⟨h, hr⟩
  | product s => exact ⟨h, hr⟩
  | builder b =>
    dsimp only
    obtain ⟨-, b2, b3⟩ := build_exact (C := C) r hk { b with keypair := some kp } (hr.2 b hs)
    have hvoid : Matches C { a with site := .void } xs ∧ Sane C { a with site := .void } :=
      ⟨⟨h.len, h.peers, fun _ h => (nomatch h), fun _ h => (nomatch h)⟩, fun _ h => (nomatch h), fun _ h => (nomatch h)⟩
    by_cases hnd : (b.peers.map (PeerParams.id C)).Nodup
    · obtain ⟨s, e1, e2, e3, e4, e5⟩ := b3 kp.1 kp.2 rfl hnd
      simp only [Site.erect, Site.modifyTakenWithReturn, Site.take, e1, Option.getD_some]
      refine ⟨⟨h.len, h.peers, fun _ h => (nomatch h), fun t ht => ?_⟩, fun t ht => ?_, fun _ h => (nomatch h)⟩
      · cases ht
        dsimp only at e4
        rw [h.builder b hs] at e4
        refine ⟨by rw [e4]; simp, fun i x hx => ?_⟩
        exact ⟨freshPeer x.params.psk x.params.pk x.params.version x.params.osk, by rw [e4]; simp [hx], rfl, rfl, rfl, rfl⟩
      · cases ht; exact e5
    · have e1 := b2 kp.1 kp.2 rfl hnd
      simp only [Site.erect, Site.modifyTakenWithReturn, Site.take, e1, Option.getD_some]
      exact hvoid

/-- every action but `add_peer` -/
theorem act_matches (L : C.Lawful) {a : App} {xs : List NewPeer} (h : Matches C a xs) (hr : Sane C a) (o : Act) (ho : o.WF C) (hna : ∀ x, o ≠ .addPeer x) :
    Matches C (a.apply C o) xs ∧ Sane C (a.apply C o) := by
  cases o with
  | round e => exact round_matches L h hr e ho
  | addPeer x => exact absurd rfl (hna x)
  | supply kp r => exact supply_matches L h hr kp r ho
  | registerBroker name ok => exact ⟨⟨h.len, h.peers, h.builder, h.product⟩, hr⟩
  | unregisterBroker name ok => exact ⟨⟨h.len, h.peers, h.builder, h.product⟩, hr⟩
  | addSocket => exact ⟨⟨h.len, h.peers, h.builder, h.product⟩, hr⟩

theorem history_matches (L : C.Lawful) {a : App} {xs : List NewPeer} (h : History C (fun x => x.host ≠ some none) a xs) : Matches C a xs ∧ Sane C a := by
  induction h with
  | new kp r nsock fs hk =>
    unfold App.new
    cases kp with
    | none =>
      exact ⟨⟨rfl, fun i x h => by simp at h, fun b hb => (by cases hb; rfl), fun s hs => (nomatch hs)⟩, fun s hs => (nomatch hs), fun b hb => by
        cases hb; intro x hx; simp [Builder.empty] at hx⟩
    | some kp =>
      refine ⟨⟨rfl, fun i x h => by simp at h, fun b hb => (nomatch hb), fun s hs => ?_⟩, fun s hs => ?_, fun b hb => (nomatch hb)⟩
      · cases hs; exact ⟨rfl, fun i x h => by simp at h⟩
      · cases hs; exact .new _ _ _ _ _ _ _ hk.1 hk.2.1 hk.2.2.1 hk.2.2.2.1 hk.2.2.2.2
  | act a xs o _ ho hna ih => exact act_matches L ih.1 ih.2 o ho hna
  | added a xs x n _ hx hP hok ih =>
    rcases addPeer_matches ih.1 ih.2 x hx hP with ⟨m, -, -, h2⟩ | ⟨h1, -⟩
    · exact h2
    · rw [h1] at hok; cases hok
  | refused a xs x _ hx hP hok ih =>
    rcases addPeer_matches ih.1 ih.2 x hx hP with ⟨m, h1, -⟩ | ⟨-, h2⟩
    · rw [h1] at hok; cases hok
    · exact h2

/-- **C48** (what holds). In every history of the application in which host names resolve, the
application and the protocol server have the same peers in the same order, each with the output file, the
broker and the keys it was added with; and a further `add_peer` does not panic but either returns the
next number or reports an error. -/
theorem peer_tables_aligned_partial (L : C.Lawful) {a : App} {xs : List NewPeer} (h : History C (fun x => x.host ≠ some none) a xs) :
    Matches C a xs ∧ ∀ x : NewPeer, x.WF → x.host ≠ some none →
      (a.addPeer C x).1 = .ok xs.length ∨ (a.addPeer C x).1 = .error .error := by
  obtain ⟨h1, h2⟩ := history_matches L h
  refine ⟨h1, fun x hx hres => ?_⟩
  rcases addPeer_matches h1 h2 x hx hres with ⟨n, h3, rfl, -⟩ | ⟨h3, -⟩
  · exact .inl h3
  · exact .inr h3

/-- **C48** fails when a host name does not resolve: the protocol side has one peer more, and the next
`add_peer`, of whatever peer, panics. -/
theorem unresolved_host_breaks_add_peer (r : NewRnd) (nsock : Nat) (fs : Fs) (x y : NewPeer) (hx : x.host = some none) :
    ((App.new none r nsock fs).addPeer C x).1 = .error .error ∧
    ((((App.new none r nsock fs).addPeer C x).2).addPeer C y).1 = .error .panic := by
  have h1 : (App.new none r nsock fs).addPeer C x = (.error .error, { App.new none r nsock fs with site := .builder { keypair := none, peers := [x.params] } }) := by
    unfold addPeer App.new
    simp [Builder.addPeer, Builder.empty, hx, pushPeer]
  rw [h1]
  refine ⟨rfl, ?_⟩
  unfold addPeer
  simp [Builder.addPeer, App.new]

/-- C48: the hypotheses are met by a server with two peers. -/
example : ∃ a xs, History Toy.crypto (fun x => x.host ≠ some none) a xs ∧ xs.length = 2 := by
  let r : NewRnd := ⟨List.replicate 32 0, List.replicate 32 0, List.replicate 16 0, List.replicate 16 0, List.replicate 32 0⟩
  let x : NewPeer := ⟨⟨none, [1], .v03, default⟩, some "a", none, none⟩
  let y : NewPeer := ⟨⟨none, [2], .v02, default⟩, none, some (0, "wg0"), some (some [.v4 [10, 0, 0, 1] 9999])⟩
  refine ⟨_, _, .added _ _ y 1 (.added _ _ x 0 (.new none r 1 (fun _ => none) ⟨rfl, rfl, rfl, rfl, rfl⟩) ?_ ?_ rfl) ?_ ?_ rfl, rfl⟩
  · intro k h; cases h
  · intro h; cases h
  · intro k h; cases h
  · intro h; cases h

/-! ### C69: the event loop does not panic -/

theorem innerLoop_tried (send : Nat → Nat → Bool) (a : Nat) (socks : List Nat) : ∀ x ∈ (Discovery.innerLoop send a socks).1, x.1 = a := by
  induction socks with
  | nil => simp [Discovery.innerLoop]
  | cons s l ih =>
    unfold Discovery.innerLoop
    split
    · simp
    · intro x hx
      simp only [List.mem_cons] at hx
      rcases hx with rfl | hx
      · rfl
      · exact ih x hx

theorem outerLoop_tried (send : Nat → Nat → Bool) (as : List Nat) : ∀ socks, ∀ x ∈ (Discovery.outerLoop send as socks).1, x.1 ∈ as := by
  induction as with
  | nil => simp [Discovery.outerLoop]
  | cons a as ih =>
    intro socks
    unfold Discovery.outerLoop
    have h := innerLoop_tried send a socks
    split
    · rename_i t s r he
      rw [he] at h
      intro x hx
      rw [h x hx]; simp
    · rename_i t r he
      rw [he] at h
      intro x hx
      rcases List.mem_append.mp hx with hx | hx
      · rw [h x hx]; simp
      · exact List.mem_cons_of_mem _ (ih _ x hx)

theorem sendScouting_tried (d : Discovery) (m : Nat) (send : Nat → Nat → Bool) : ∀ x ∈ (d.sendScouting m send).1.tried, x.1 < d.addresses.length := by
  unfold Discovery.sendScouting
  have h := outerLoop_tried send (Discovery.cycled d.addresses.length d.state.1) (Discovery.cycled m d.state.2)
  dsimp only
  split <;> rename_i he <;> rw [he] at h <;> exact fun x hx => Discovery.mem_cycled (h x hx)

theorem sendPeer_no_panic (a : App) (p : Nat) (msg : Bytes) (e : World) (ap : AppPeer) (hp : a.peers[p]? = some ap) (he : ap.endpoint.isSome) :
    (a.sendPeer p msg e).fate ≠ .panic := by
  unfold sendPeer
  rw [hp]
  dsimp only
  rcases hep : ap.endpoint with _ | (⟨s, addr⟩ | d)
  · rw [hep] at he; cases he
  · dsimp only; split <;> simp
  · dsimp only
    have ht := sendScouting_tried d a.nsock e.scout
    split
    · split
      · simp
      · rename_i ai si hl
        split
        · rename_i hnone
          have := ht (ai, si) (List.mem_of_getLast? hl)
          rw [List.getElem?_eq_none_iff] at hnone
          dsimp only at this
          omega
        · simp
    · simp

theorem txMaybe_no_panic (a : App) (p : Nat) (call : Server → Except Err Bytes × Server) (e : World) (s : Server) (hs : a.site = .product s)
    (hp : p < a.peers.length) (hc : (call s).1 ≠ .error .panic) : (a.txMaybe p call e).fate ≠ .panic := by
  unfold txMaybe
  obtain ⟨ap, hap⟩ : ∃ ap, a.peers[p]? = some ap := ⟨_, List.getElem?_eq_getElem hp⟩
  rw [hap]
  dsimp only
  split
  · rename_i hep
    have : a.site.productRef = some s := by rw [hs]; rfl
    rw [this]
    dsimp only
    rcases hcs : call s with ⟨(x | msg), s1⟩
    · dsimp only
      rw [hcs] at hc
      cases x <;> first | exact absurd rfl hc | simp [fateOf]
    · exact sendPeer_no_panic _ p msg e ap hap hep
  · simp

theorem initiate_no_panic (K : C.KemTotal) (s : Server) (p : Nat) (hp : p < s.peers.length) (now : Time) (r : Rnd) (tx : Bytes) (htx : FitsAll C tx) :
    (s.initiate C p now r tx).1 ≠ .error .panic := by
  obtain ⟨e, he⟩ := castTx_isSome (n := InitHello.size C) (tx := tx) (htx .initHello)
  obtain ⟨peer, hpe⟩ : ∃ peer, s.peers[p]? = some peer := ⟨_, List.getElem?_eq_getElem hp⟩
  obtain ⟨⟨eski, epki⟩, hk⟩ := Option.isSome_iff_exists.mp (K.eGen r.kcoins)
  obtain ⟨⟨shk, sctr⟩, hq⟩ := Option.isSome_iff_exists.mp (K.sEnc r.scoins peer.spkt)
  have hi : ∃ ih hs, s.initiation C peer now r = some (ih, hs) := by
    unfold initiation
    simp only [hk, hq]
    exact ⟨_, _, rfl⟩
  obtain ⟨ih, hs, hi⟩ := hi
  unfold initiate
  rw [he]
  dsimp only
  unfold handleInitiation
  rw [hpe]
  dsimp only
  rw [hi]
  dsimp only
  cases hh : s.hsInsert p hs with
  | none => simp
  | some s1 =>
    dsimp only
    have hl : s1.peers.length = s.peers.length := by
      rcases hsInsert_cases s p hs with ⟨h, -⟩ | ⟨h, -⟩
      · rw [h] at hh; cases hh
      · rw [h] at hh; cases hh
        exact (hsPut_globals s p hs).len
    obtain ⟨peer1, hpe1⟩ : ∃ peer, s1.peers[p]? = some peer := ⟨_, List.getElem?_eq_getElem (by rw [hl]; exact hp)⟩
    rw [hpe1]
    dsimp only
    unfold storeMsg
    cases s1.handshake p <;> simp

/-- **C69**: in every history of the application in which host names resolve and brokers are not
unregistered while a peer uses them, no round of the event loop panics, whatever is received and whatever
I/O fails. (KEM calls do not fail internally; the transmit buffer is large enough.) -/
theorem event_loop_no_panic_partial (L : C.Lawful) (K : C.KemTotal) {a : App} {xs : List NewPeer} (h : History C (fun x => x.host ≠ some none) a xs)
    (hb : a.BrokersPresent) (e : World) (he : e.WF C) (htx : FitsAll C e.tx) : (a.step C e).fate ≠ .panic := by
  obtain ⟨hm, hsane⟩ := history_matches L h
  unfold step
  cases hs : a.site with
  | void => dsimp only; split <;> simp
  | builder b => dsimp only; split <;> simp
  | product s =>
    dsimp only
    have hr := hsane.1 s hs
    obtain ⟨⟨res, s1⟩, hpoll⟩ := Option.isSome_iff_exists.mp (poll_no_panic L hr e.now e.prnd)
    rw [hpoll]
    dsimp only
    have hlen : s.peers.length = a.peers.length := by rw [(hm.product s hs).1, hm.len]
    have h1 : s1 = s.step C (.poll e.now e.prnd) := poll_op s e hpoll
    have hr1 : Reachable C s1 := by rw [h1]; exact .step _ _ hr he.prnd
    have hlen1 : s1.peers.length = a.peers.length := by rw [h1, step_length _ _ (by intros; intro h; cases h), hlen]
    -- output of a key
    have outp : ∀ (b : App) (s2 : Server) (p : Nat) why k, k.length = 32 → b.site = .product s2 → s2.peers.length = a.peers.length → Frame a b → p < a.peers.length →
        (b.outputKey C p why k e).fate ≠ .panic := by
      intro b s2 p why k hk hb2 hl2 hF hp
      obtain ⟨peer, hpe⟩ : ∃ peer, s2.peers[p]? = some peer := ⟨_, List.getElem?_eq_getElem (by rw [hl2]; exact hp)⟩
      obtain ⟨ap0, hap0⟩ : ∃ ap, a.peers[p]? = some ap := ⟨_, List.getElem?_eq_getElem hp⟩
      obtain ⟨ap, hap, -, hbr⟩ := hF.peers p ap0 hap0
      refine (outputKey_spec (C := C) b p why k hk e s2 peer ap hb2 hpe hap).nopanic ?_
      rw [hF.brokers, hbr]
      exact hb ap0 (List.mem_of_getElem? hap0)
    have plt : ∀ p, res.peer = some p → p < a.peers.length := fun p hp => by rw [← hlen]; exact poll_peer_lt hpoll hp
    cases res with
    | deleteKey p =>
      dsimp only
      have hp := plt p rfl
      have ho := outp { a with site := .product s1 } s1 p .stale e.stale he.stale rfl hlen1 (.site _ _) hp
      obtain ⟨fs, hfs⟩ := outputKey_app (C := C) { a with site := Site.product s1 } p .stale e.stale e
      unfold deleteKey Res.andThen
      split
      · dsimp only
        rw [hfs]
        dsimp only
        rw [List.getElem?_eq_getElem hp]
        simp
      · exact ho
    | sendInitiation p =>
      exact txMaybe_no_panic _ p _ e s1 rfl (plt p rfl) (initiate_no_panic K s1 p (by rw [hlen1]; exact plt p rfl) _ _ _ htx)
    | sendRetransmission p =>
      exact txMaybe_no_panic _ p _ e s1 rfl (plt p rfl) ((timers_never_panic L hr1).2 p e.tx (by rw [hlen1]; exact plt p rfl) htx)
    | sleep t =>
      dsimp only
      cases hio : e.io with
      | none => simp
      | terminate => simp
      | err => simp
      | msg rx sock addr =>
        dsimp only
        rw [message_eq]
        have hnp : (e.receive rx sock addr).result C s1 ≠ .error .panic := by
          refine network_input_never_panics L K hr1 _ rx e.tx htx ?_
          unfold World.receive
          split
          · exact .inr ⟨_, _, _, rfl⟩
          · exact .inl ⟨_, _, rfl⟩
        have hlen2 : (s1.step C (e.receive rx sock addr)).peers.length = a.peers.length := by
          rw [step_length _ _ (receive_noadd e rx sock addr), hlen1]
        cases hres : (e.receive rx sock addr).result C s1 with
        | error x => cases x <;> first | exact absurd hres hnp | simp
        | ok m =>
          obtain ⟨ex, resp⟩ := m
          dsimp only
          unfold received
          cases ex with
          | none =>
            cases resp with
            | none => simp [Res.andThen]
            | some msg => dsimp only; split <;> simp [Res.andThen]
          | some p =>
            obtain ⟨q, x, hq, hx, -, -, k, hk⟩ := exchange_session (C := C) (s := s1) (e.receive rx sock addr) rx (receive_time e rx sock addr).1 e.later
              (receive_time e rx sock addr).2 p resp hres
            have hp : p < a.peers.length := by rw [← hlen2]; exact (List.getElem?_eq_some_iff.mp hq).1
            have ex : (({ a with site := .product (s1.step C (e.receive rx sock addr)) } : App).exchanged C p sock addr e).fate ≠ .panic := by
              unfold exchanged
              dsimp only
              obtain ⟨ap, hap⟩ : ∃ ap, a.peers[p]? = some ap := ⟨_, List.getElem?_eq_getElem hp⟩
              rw [hap]
              dsimp only [Site.productRef]
              rw [hk]
              dsimp only
              exact outp _ _ p .exchanged k (osk_len L hk) rfl hlen2 ((Frame.site a _).trans (Frame.set ({ a with site := .product (s1.step C (e.receive rx sock addr)) } : App) p ap _ hap rfl rfl)) hp
            cases resp with
            | none => exact ex
            | some msg =>
              dsimp only
              split
              · exact ex
              · simp [Res.andThen]

end App
end Verif
