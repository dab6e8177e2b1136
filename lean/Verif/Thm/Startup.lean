import Verif.Model.Startup
import Verif.Thm.AppHist
import Verif.Thm.ConfigEx
/-
C79: which configurations can be started, and what is then running. C80: the sockets.
-/
namespace Verif.Startup
open App (NewPeer)
open Server
variable {C : Crypto}

/-! ### Specification -/

/-- Everything the configuration of a peer refers to is there: the WireGuard peer is base64 (of at most 32 bytes), the
pre-shared key and the public key can be loaded, the endpoint resolves, organisation and label come together. -/
structure Loads (d : Disk) (p : Config.Peer) : Prop where
  wg : ∀ w, p.wg = some w → (wgPeerId w.peer).isSome
  psk : ∀ f, p.psk = some f → (d.psk f).isSome
  pk : (d.spk p.publicKey).isSome
  endpoint : ∀ h, p.endpoint = some h → (d.resolve h).isSome
  osk : p.oskOrg.isSome ↔ p.oskLabel.isSome

/-- The identity of a configured peer: its public key (as loaded) hashed under its protocol version. -/
def ident (C : Crypto) (d : Disk) (p : Config.Peer) : Bytes :=
  HashDomain.mix C p.version.hash (HashDomain.dom C p.version.hash .peerid) ((d.spk p.publicKey).getD [])

/-- What the operating system has to grant: polling, the sockets, the API sources, the broker. -/
structure EnvOk (e : Env) (listen : List Addr) : Prop where
  mio : e.mio
  socks : ∃ l, openSockets e listen = some l
  api : e.api
  broker : e.broker

/-- The sizes the Rust types give: pre-shared keys have 32 bytes, and so on. -/
structure WF (d : Disk) (e : Env) : Prop where
  psk : ∀ f k, d.psk f = some k → k.length = 32
  rnd : App.rndOk e.rnd

/-- The peer `x` the application was given for `p`: keys as loaded, version and output file as configured; the broker (number 0)
is told of the configured interface and WireGuard peer; no broker without WireGuard configuration. -/
structure Given (d : Disk) (e : Env) (p : Config.Peer) (x : NewPeer) : Prop where
  pk : d.spk p.publicKey = some x.params.pk
  psk : ∀ f, p.psk = some f → ∃ k, d.psk f = some k ∧ x.params.psk = some k
  noPsk : p.psk = none → x.params.psk = none
  version : x.params.version = p.version
  osk : ∀ o l, p.oskOrg = some o → p.oskLabel = some l → x.params.osk = .custom (utf8 o) (l.map utf8)
  noOsk : p.oskOrg = none → x.params.osk = .wireguardPsk
  out : x.outfile = p.keyOut
  wg : ∀ w, p.wg = some w → ∃ id, wgPeerId w.peer = some id ∧ x.broker = some (0, e.cfg w id)
  noWg : p.wg = none → x.broker = none
  host : ∀ h, p.endpoint = some h → ∃ l, d.resolve h = some l ∧ x.host = some (some l)
  noHost : p.endpoint = none → x.host = none

/-- two lists related element by element -/
inductive All2 {α β : Type} (R : α → β → Prop) : List α → List β → Prop
  | nil : All2 R [] []
  | cons {a b as bs} : R a b → All2 R as bs → All2 R (a :: as) (b :: bs)

/-- The entry of a peer in the application's table: output file and broker as given, the resolved addresses to be tried in their order
starting with the first, and no address in use yet. -/
def entry (x : NewPeer) : AppPeer :=
  ⟨x.outfile, x.broker, (match x.host with | some (some l) => some (.discovery ⟨l, (0, 0)⟩) | _ => none), none⟩

/-- `a'` is `a` with the peers `xs` added and nothing else changed: own keys, brokers, sockets and files are the same. -/
structure Frame (a a' : App) (xs : List NewPeer) : Prop where
  peers : a'.peers = a.peers ++ xs.map entry
  keys : ∀ s', a'.site = .product s' → ∃ s, a.site = .product s ∧ s'.sskm = s.sskm ∧ s'.spkm = s.spkm
  builder : ∀ b', a'.site = .builder b' → ∃ b, a.site = .builder b ∧ b'.keypair = b.keypair
  brokers : a'.brokers = a.brokers
  nsock : a'.nsock = a.nsock
  fs : a'.fs = a.fs

/-! ### Proofs -/

theorem Frame.refl (a : App) : Frame a a [] := ⟨by simp, fun s h => ⟨s, h, rfl, rfl⟩, fun b h => ⟨b, h, rfl⟩, rfl, rfl, rfl⟩

theorem Frame.trans {a b c : App} {xs ys : List NewPeer} (h : Frame a b xs) (g : Frame b c ys) : Frame a c (xs ++ ys) := by
  refine ⟨by rw [g.peers, h.peers]; simp, fun s hs => ?_, fun s hs => ?_, g.brokers.trans h.brokers, g.nsock.trans h.nsock, g.fs.trans h.fs⟩
  · obtain ⟨s1, h1, h2, h3⟩ := g.keys s hs
    obtain ⟨s2, k1, k2, k3⟩ := h.keys s1 h1
    exact ⟨s2, k1, h2.trans k2, h3.trans k3⟩
  · obtain ⟨s1, h1, h2⟩ := g.builder s hs
    obtain ⟨s2, k1, k2⟩ := h.builder s1 h1
    exact ⟨s2, k1, h2.trans k2⟩

/-- what `add_peer` does when it succeeds -/
theorem addPeer_frame {a : App} {x : NewPeer} {n : Nat} (h : (a.addPeer C x).1 = .ok n) : Frame a (a.addPeer C x).2 [x] := by
  have push : ∀ (b : App) (m k : Nat), (b.pushPeer m x).1 = .ok k → (b.pushPeer m x).2 = { b with peers := b.peers ++ [entry x] } := by
    intro b m k
    unfold App.pushPeer entry
    rcases x.host with _ | (_ | l) <;> intro h
    · rfl
    · cases h
    · rfl
  unfold App.addPeer at h ⊢
  cases hs : a.site with
  | void => rw [hs] at h; cases h
  | builder b =>
    rw [hs] at h
    dsimp only at h ⊢
    split at h
    · rename_i hc
      rw [if_pos hc, push _ _ _ h]
      exact ⟨rfl, (by intro s h; cases h), (by intro c h; cases h; exact ⟨b, hs, rfl⟩), rfl, rfl, rfl⟩
    · cases h
  | product s =>
    rw [hs] at h
    dsimp only at h ⊢
    have hk : ∀ s1 m, s.addPeer C x.params.psk x.params.pk x.params.version x.params.osk = (.ok m, s1) → s1.sskm = s.sskm ∧ s1.spkm = s.spkm := by
      intro s1 m h
      unfold Server.addPeer at h
      dsimp only at h
      split at h <;> cases h
      exact ⟨rfl, rfl⟩
    generalize s.addPeer C x.params.psk x.params.pk x.params.version x.params.osk = g at h hk ⊢
    obtain ⟨g1, s1⟩ := g
    cases g1 with
    | error y => cases h
    | ok m =>
      dsimp only at h ⊢
      split at h
      · rename_i hc
        rw [if_pos hc, push _ _ _ h]
        exact ⟨rfl, (by intro s' h; cases h; exact ⟨s, hs, hk _ _ rfl⟩), (by intro c h; cases h), rfl, rfl, rfl⟩
      · cases h

theorem peerArgs_some {d : Disk} {e : Env} {p : Config.Peer} {x : NewPeer} (h : peerArgs d e 0 p = some x)
    (hr : ∀ n, p.endpoint = some n → (d.resolve n).isSome) : Given d e p x ∧ Loads d p := by
  obtain ⟨pkf, ep, psk, ko, wg, vn, og, lb⟩ := p
  unfold peerArgs at h
  dsimp only at h hr
  split at h
  · cases h
  · rename_i broker hb
    split at h
    · cases h
    · rename_i k hk
      split at h
      · cases h
      · rename_i pk hpk
        split at h
        · cases h
        · rename_i osk hosk
          cases h
          have hosk' : (og.isSome ↔ lb.isSome) ∧ (∀ o l, og = some o → lb = some l → osk = .custom (utf8 o) (l.map utf8)) ∧ (og = none → osk = .wireguardPsk) := by
            unfold oskOf Config.orgAndLabel at hosk
            cases og <;> cases lb <;> simp at hosk <;> subst hosk <;> simp
          have hwg : (∀ w, wg = some w → ∃ id, wgPeerId w.peer = some id ∧ broker = some (0, e.cfg w id)) ∧ (wg = none → broker = none) := by
            cases wg with
            | none => cases hb; exact ⟨(by intro w h; cases h), fun _ => rfl⟩
            | some w =>
              dsimp only at hb
              cases hw : wgPeerId w.peer with
              | none => rw [hw] at hb; cases hb
              | some id => rw [hw] at hb; cases hb; exact ⟨(by intro w' h; cases h; exact ⟨id, hw, rfl⟩), (by intro h; cases h)⟩
          have hps : (∀ f, psk = some f → ∃ k', d.psk f = some k' ∧ k = some k') ∧ (psk = none → k = none) := by
            cases psk with
            | none => cases hk; exact ⟨(by intro w h; cases h), fun _ => rfl⟩
            | some f =>
              dsimp only at hk
              cases hw : d.psk f with
              | none => rw [hw] at hk; cases hk
              | some id => rw [hw] at hk; cases hk; exact ⟨(by intro w' h; cases h; exact ⟨id, hw, rfl⟩), (by intro h; cases h)⟩
          have hho : (∀ n, ep = some n → ∃ l, d.resolve n = some l ∧ ep.map d.resolve = some (some l)) ∧ (ep = none → ep.map d.resolve = none) := by
            cases ep with
            | none => exact ⟨(by intro w h; cases h), fun _ => rfl⟩
            | some n =>
              obtain ⟨l, hl⟩ := Option.isSome_iff_exists.mp (hr n rfl)
              exact ⟨(by intro n' h; cases h; exact ⟨l, hl, by rw [Option.map_some, hl]⟩), (by intro h; cases h)⟩
          exact ⟨⟨hpk, hps.1, hps.2, rfl, hosk'.2.1, hosk'.2.2, rfl, hwg.1, hwg.2, hho.1, hho.2⟩,
            ⟨fun w h => (by obtain ⟨id, h1, -⟩ := hwg.1 w h; rw [h1]; rfl), fun f h => (by obtain ⟨k, h1, -⟩ := hps.1 f h; rw [h1]; rfl),
              by rw [hpk]; rfl, hr, hosk'.1⟩⟩

theorem peerArgs_none {d : Disk} {e : Env} {p : Config.Peer} (h : peerArgs d e 0 p = none) : ¬ Loads d p := by
  intro hl
  obtain ⟨pkf, ep, psk, ko, wg, vn, og, lb⟩ := p
  obtain ⟨h1, h2, h3, -, h5⟩ := hl
  obtain ⟨pk, hpk⟩ := Option.isSome_iff_exists.mp h3
  unfold peerArgs at h
  dsimp only at h h1 h2 hpk h5
  have hosk : ∃ o, oskOf ⟨pkf, ep, psk, ko, wg, vn, og, lb⟩ = some o := by
    unfold oskOf Config.orgAndLabel
    cases og <;> cases lb <;> simp at h5 ⊢
  obtain ⟨o, ho⟩ := hosk
  rw [hpk, ho] at h
  cases wg with
  | none =>
    cases psk with
    | none => cases h
    | some f => obtain ⟨k, hk⟩ := Option.isSome_iff_exists.mp (h2 f rfl); simp [hk] at h
  | some w =>
    obtain ⟨id, hid⟩ := Option.isSome_iff_exists.mp (h1 w rfl)
    cases psk with
    | none => simp [hid] at h
    | some f => obtain ⟨k, hk⟩ := Option.isSome_iff_exists.mp (h2 f rfl); simp [hk, hid] at h

/-- `add_peer` succeeds exactly if the host resolves and, when the protocol server is running, the peer is a new one -/
theorem addPeer_exact (L : C.Lawful) {a : App} {xs : List NewPeer} (h : App.Matches C a xs) (hr : App.Sane C a) (x : NewPeer) (hx : x.WF) (hv : a.site ≠ .void) :
    (x.host = some none → (a.addPeer C x).1 = .error .error) ∧
    (x.host ≠ some none → (∃ s, a.site = .product s) → x.params.id C ∈ xs.map (·.params.id C) → (a.addPeer C x).1 = .error .error) ∧
    (x.host ≠ some none → ((∃ s, a.site = .product s) → x.params.id C ∉ xs.map (·.params.id C)) →
      ∃ n, (a.addPeer C x).1 = .ok n ∧ App.Matches C (a.addPeer C x).2 (xs ++ [x]) ∧ App.Sane C (a.addPeer C x).2 ∧ (a.addPeer C x).2.site ≠ .void ∧
        ((∃ s, (a.addPeer C x).2.site = .product s) ↔ ∃ s, a.site = .product s)) := by
  -- when does the protocol server know the id?
  have known : ∀ s, a.site = .product s → ((s.index (.peer (pidt C (freshPeer x.params.psk x.params.pk x.params.version x.params.osk)))).isSome ↔ x.params.id C ∈ xs.map (·.params.id C)) := by
    intro s hs
    have hidx := Reachable.peerIdx L (hr.1 s hs)
    obtain ⟨hl, hp⟩ := h.product s hs
    rw [Option.isSome_iff_exists]
    constructor
    · rintro ⟨n, hn⟩
      obtain ⟨q, hq, hid⟩ := (hidx _ _).mp hn
      have hlt : n < xs.length := by rw [← hl]; exact (List.getElem?_eq_some_iff.mp hq).1
      obtain ⟨q', hq', g1, -, g3, -⟩ := hp n xs[n] (List.getElem?_eq_getElem hlt)
      rw [hq] at hq'; cases hq'
      refine List.mem_map.mpr ⟨xs[n], List.getElem_mem hlt, ?_⟩
      have e1 : pidt C q = xs[n].params.id C := by unfold pidt PeerParams.id; rw [g1, g3]
      rw [← e1, hid]; rfl
    · intro hm
      obtain ⟨y, hy, hid⟩ := List.mem_map.mp hm
      obtain ⟨n, hn⟩ := List.mem_iff_getElem?.mp hy
      obtain ⟨q, hq, g1, -, g3, -⟩ := hp n y hn
      refine ⟨n, (hidx _ _).mpr ⟨q, hq, ?_⟩⟩
      have e1 : pidt C q = y.params.id C := by unfold pidt PeerParams.id; rw [g1, g3]
      rw [e1, hid]; rfl
  -- the site afterwards
  have site : ∀ n, (a.addPeer C x).1 = .ok n → (a.addPeer C x).2.site ≠ .void ∧ ((∃ s, (a.addPeer C x).2.site = .product s) ↔ ∃ s, a.site = .product s) := by
    intro n hn
    have push : ∀ b : App, ∀ m, (b.pushPeer m x).2.site = b.site := by
      intro b m; unfold App.pushPeer; rcases x.host with _ | (_ | l) <;> rfl
    unfold App.addPeer at hn ⊢
    cases hs : a.site with
    | void => exact absurd hs hv
    | builder c =>
      rw [hs] at hn
      dsimp only at hn ⊢
      split at hn
      · rename_i hc; rw [if_pos hc, push]; exact ⟨(by intro h; cases h), (by constructor <;> (rintro ⟨s, h⟩; cases h))⟩
      · cases hn
    | product s =>
      rw [hs] at hn
      dsimp only at hn ⊢
      generalize s.addPeer C x.params.psk x.params.pk x.params.version x.params.osk = g at hn ⊢
      obtain ⟨g1, s1⟩ := g
      cases g1 with
      | error y => cases hn
      | ok m =>
        dsimp only at hn ⊢
        split at hn
        · rename_i hc; rw [if_pos hc, push]; exact ⟨(by intro h; cases h), fun _ => ⟨s, rfl⟩, fun _ => ⟨s1, rfl⟩⟩
        · cases hn
  refine ⟨fun hh => ?_, fun hh hp hm => ?_, fun hh hp => ?_⟩
  · have push : ∀ b : App, ∀ m, (b.pushPeer m x).1 = .error .error := by
      intro b m; unfold App.pushPeer; rw [hh]
    unfold App.addPeer
    cases hs : a.site with
    | void => exact absurd hs hv
    | builder c =>
      dsimp only [Builder.addPeer]
      rw [if_pos (by rw [h.builder c hs, h.len, List.length_map]), push]
    | product s =>
      dsimp only
      rcases App.server_addPeer_cases (C := C) s x.params.psk x.params.pk x.params.version x.params.osk with hA | ⟨h1, h2, h3⟩
      · rw [hA]; rfl
      · generalize s.addPeer C x.params.psk x.params.pk x.params.version x.params.osk = g at h1 h2 h3
        obtain ⟨g1, s1⟩ := g
        dsimp only at h1
        subst h1
        dsimp only
        rw [if_pos (by rw [(h.product s hs).1, h.len]), push]
  · obtain ⟨s, hs⟩ := hp
    have hk := (known s hs).mpr hm
    unfold App.addPeer Server.addPeer
    rw [hs]
    dsimp only
    obtain ⟨n, hn⟩ := Option.isSome_iff_exists.mp hk
    rw [hn]
    rfl
  · rcases App.addPeer_matches h hr x hx hh with ⟨n, h1, -, h2, h3⟩ | ⟨h1, -⟩
    · exact ⟨n, h1, h2, h3, site n h1⟩
    · exfalso
      unfold App.addPeer at h1
      have push : ∀ b : App, ∀ m, (b.pushPeer m x).1 = .ok m := by
        intro b m; unfold App.pushPeer; rcases hx : x.host with _ | (_ | l)
        · rfl
        · exact absurd hx hh
        · rfl
      cases hs : a.site with
      | void => exact absurd hs hv
      | builder c =>
        rw [hs] at h1
        dsimp only [Builder.addPeer] at h1
        rw [if_pos (by rw [h.builder c hs, h.len, List.length_map]), push] at h1
        cases h1
      | product s =>
        rw [hs] at h1
        dsimp only at h1
        have hk : s.index (.peer (pidt C (freshPeer x.params.psk x.params.pk x.params.version x.params.osk))) = none := by
          cases hi : s.index (.peer (pidt C (freshPeer x.params.psk x.params.pk x.params.version x.params.osk))) with
          | none => rfl
          | some n => exact absurd ((known s hs).mp (by rw [hi]; rfl)) (hp ⟨s, hs⟩)
        unfold Server.addPeer at h1
        dsimp only at h1
        rw [hk] at h1
        dsimp only at h1
        rw [if_pos (by rw [(h.product s hs).1, h.len]), push] at h1
        cases h1

theorem given_id {d : Disk} {e : Env} {p : Config.Peer} {x : NewPeer} (h : Given d e p x) : x.params.id C = ident C d p := by
  unfold PeerParams.id ident
  rw [h.pk, h.version]; rfl

theorem given_WF {d : Disk} {e : Env} (hw : WF d e) {p : Config.Peer} {x : NewPeer} (h : Given d e p x) : x.WF := by
  intro k hk
  cases hp : p.psk with
  | none => rw [h.noPsk hp] at hk; cases hk
  | some f =>
    obtain ⟨k', h1, h2⟩ := h.psk f hp
    rw [h2] at hk; cases hk
    exact hw.psk f _ h1

theorem given_host {d : Disk} {e : Env} {p : Config.Peer} {x : NewPeer} (h : Given d e p x) : x.host ≠ some none := by
  cases hp : p.endpoint with
  | none => rw [h.noHost hp]; intro h; cases h
  | some f =>
    obtain ⟨l, -, h2⟩ := h.host f hp
    rw [h2]; intro h; cases h

theorem addPeers_exact (L : C.Lawful) {d : Disk} {e : Env} (hw : WF d e) (ps : List Config.Peer) : ∀ (a : App) (done : List Config.Peer) (xs : List NewPeer),
    App.Matches C a xs → App.Sane C a → a.site ≠ .void → xs.map (·.params.id C) = done.map (ident C d) → (done.map (ident C d)).Nodup ∨ (¬ ∃ s, a.site = .product s) →
    (((∀ p ∈ ps, Loads d p) ∧ ((∃ s, a.site = .product s) → ((done ++ ps).map (ident C d)).Nodup)) →
      ∃ a' ys, addPeers C d e 0 a ps = .ok a' ∧ All2 (Given d e) ps ys ∧ App.Matches C a' (xs ++ ys) ∧ App.Sane C a' ∧ a'.site ≠ .void ∧
        ((∃ s, a'.site = .product s) ↔ ∃ s, a.site = .product s) ∧ Frame a a' ys) ∧
    (¬ ((∀ p ∈ ps, Loads d p) ∧ ((∃ s, a.site = .product s) → ((done ++ ps).map (ident C d)).Nodup)) → addPeers C d e 0 a ps = .error .error) := by
  induction ps with
  | nil =>
    intro a done xs hm hs hv hid hn
    refine ⟨fun _ => ⟨a, [], rfl, .nil, by rw [List.append_nil]; exact hm, hs, hv, Iff.rfl, Frame.refl a⟩, fun h => absurd ⟨by simp, fun hp => ?_⟩ h⟩
    rw [List.append_nil]
    exact hn.resolve_right (fun h => h hp)
  | cons p ps ih =>
    intro a done xs hm hs hv hid hn
    rw [addPeers]
    cases hx : peerArgs d e 0 p with
    | none => exact ⟨fun h => absurd (h.1 p (by simp)) (peerArgs_none hx), fun _ => rfl⟩
    | some x =>
      dsimp only
      by_cases hres : ∀ n, p.endpoint = some n → (d.resolve n).isSome
      · obtain ⟨hg, hl⟩ := peerArgs_some hx hres
        obtain ⟨-, a2, a3⟩ := addPeer_exact L hm hs x (given_WF hw hg) hv
        by_cases hdup : (∃ s, a.site = .product s) ∧ x.params.id C ∈ xs.map (·.params.id C)
        · have := a2 (given_host hg) hdup.1 hdup.2
          generalize a.addPeer C x = r at this
          obtain ⟨r1, r2⟩ := r
          dsimp only at this
          subst this
          refine ⟨fun h => ?_, fun _ => rfl⟩
          exfalso
          have hnd := h.2 hdup.1
          rw [List.map_append, List.map_cons, List.nodup_append] at hnd
          have hmem := hdup.2
          rw [hid, given_id hg] at hmem
          exact hnd.2.2 _ hmem _ (by simp) rfl
        · have hnew : (∃ s, a.site = .product s) → x.params.id C ∉ xs.map (·.params.id C) := fun h1 h2 => hdup ⟨h1, h2⟩
          obtain ⟨n, h1, h2, h3, h4, h5⟩ := a3 (given_host hg) hnew
          have hfr := addPeer_frame h1
          generalize a.addPeer C x = r at h1 h2 h3 h4 h5 hfr
          obtain ⟨r1, a'⟩ := r
          dsimp only at h1 h2 h3 h4 h5 hfr ⊢
          subst h1
          dsimp only
          obtain ⟨i1, i2⟩ := ih a' (done ++ [p]) (xs ++ [x]) h2 h3 h4 (by simp [hid, given_id hg]) (by
            by_cases hp : ∃ s, a.site = .product s
            · refine .inl ?_
              rw [List.map_append, List.nodup_append]
              refine ⟨hn.resolve_right (fun h => h hp), by simp, ?_⟩
              intro u hu v hv'
              simp only [List.map_cons, List.map_nil, List.mem_singleton] at hv'
              subst hv'
              intro he
              have := hnew hp
              rw [hid, given_id hg, ← he] at this
              exact this hu
            · exact .inr (by rw [h5]; exact hp))
          have happ : done ++ p :: ps = (done ++ [p]) ++ ps := by simp
          rw [happ]
          constructor
          · rintro ⟨g1, g2⟩
            obtain ⟨b, ys, k1, k2, k3, k4, k5, k6, k7⟩ := i1 ⟨fun q hq => g1 q (by simp [hq]), fun h => g2 (h5.mp h)⟩
            refine ⟨b, x :: ys, k1, .cons hg k2, by rw [List.append_assoc] at k3; exact k3, k4, k5, k6.trans h5, hfr.trans k7⟩
          · intro hnot
            refine i2 (fun h => hnot ⟨fun q hq => ?_, fun hp => h.2 (h5.mpr hp)⟩)
            rcases List.mem_cons.mp hq with rfl | hq
            · exact hl
            · exact h.1 q hq
      · have hbad : ¬ Loads d p := fun h => hres h.endpoint
        refine ⟨fun h => absurd (h.1 p (by simp)) hbad, fun _ => ?_⟩
        -- the host does not resolve
        have hhost : x.host = some none := by
          have : x.host = p.endpoint.map d.resolve := by
            unfold peerArgs at hx
            split at hx
            · cases hx
            · split at hx
              · cases hx
              · split at hx
                · cases hx
                · split at hx
                  · cases hx
                  · cases hx; rfl
          rw [this]
          cases he : p.endpoint with
          | none => exact absurd (by rw [he]; intro n h; cases h) hres
          | some n =>
            cases hr : d.resolve n with
            | none => simp [hr]
            | some l => exact absurd (by rw [he]; intro n' h; cases h; rw [hr]; rfl) hres
        have hxWF : x.WF := by
          intro k hk
          unfold peerArgs at hx
          split at hx
          · cases hx
          · split at hx
            · cases hx
            · rename_i psk hpsk
              split at hx
              · cases hx
              · split at hx
                · cases hx
                · cases hx
                  dsimp only at hk
                  subst hk
                  cases hp : p.psk with
                  | none => rw [hp] at hpsk; cases hpsk
                  | some f =>
                    rw [hp] at hpsk
                    dsimp only at hpsk
                    cases hf : d.psk f with
                    | none => rw [hf] at hpsk; cases hpsk
                    | some k' => rw [hf] at hpsk; cases hpsk; exact hw.psk f _ hf
        have := (addPeer_exact L hm hs x hxWF hv).1 hhost
        generalize a.addPeer C x = r at this
        obtain ⟨r1, r2⟩ := r
        dsimp only at this
        subst this
        rfl

/-- registering the first broker -/
theorem register_first (kp : Option (Bytes × Bytes)) (r : NewRnd) (n : Nat) (fs : FileIO.Fs) (name : Nat) (ok : Bool) :
    (ok = false → ((App.new kp r n fs).brokers.register name ok).1 = .error .register) ∧
    (ok = true → ((App.new kp r n fs).brokers.register name ok).1 = .ok 0) := by
  constructor <;> (intro h; subst h; rfl)

theorem register_first_store (kp : Option (Bytes × Bytes)) (r : NewRnd) (n : Nat) (fs : FileIO.Fs) (name : Nat) :
    ((App.new kp r n fs).brokers.register name true).2.store = [(0, ⟨name, some (n + 1)⟩)] := rfl

/-- **C79.** Starting the server never panics; it succeeds exactly if the operating system grants what is needed, the own
keys can be loaded if they are configured, everything each peer refers to is there, and - if there is an own key pair - no two
peers have the same identity. Then the server runs with exactly the configured peers, in order, each with the keys, version,
domain, output file, broker entry and the resolved addresses of its configuration, with the own keys that were loaded, and with
the broker and the sockets. -/
theorem startup_exact (L : C.Lawful) {d : Disk} {e : Env} (hw : WF d e) (c : Config.Config Addr) :
    ((EnvOk e c.listen ∧ (∀ pk sk, c.keypair = some (pk, sk) → (d.ssk sk).isSome ∧ (d.spk pk).isSome) ∧ (∀ p ∈ c.peers, Loads d p) ∧
        (c.keypair.isSome → (c.peers.map (ident C d)).Nodup)) →
      ∃ a socks xs, startup C d e c = .ok (a, socks) ∧ openSockets e c.listen = some socks ∧ All2 (Given d e) c.peers xs ∧ App.Matches C a xs ∧ App.Sane C a ∧
        a.peers = xs.map entry ∧ a.nsock = socks.length ∧ a.brokers.store = [(0, ⟨e.name, some (socks.length + 1)⟩)] ∧ a.fs = e.fs ∧
        (∀ pk sk, c.keypair = some (pk, sk) → ∃ s, a.site = .product s ∧ d.ssk sk = some s.sskm ∧ d.spk pk = some s.spkm) ∧
        (c.keypair = none → ∃ b, a.site = .builder b ∧ b.keypair = none)) ∧
    (¬ (EnvOk e c.listen ∧ (∀ pk sk, c.keypair = some (pk, sk) → (d.ssk sk).isSome ∧ (d.spk pk).isSome) ∧ (∀ p ∈ c.peers, Loads d p) ∧
        (c.keypair.isSome → (c.peers.map (ident C d)).Nodup)) → startup C d e c = .error .error) := by
  have keys : (loadKeys d c.keypair = none ∧ ¬ (∀ pk sk, c.keypair = some (pk, sk) → (d.ssk sk).isSome ∧ (d.spk pk).isSome)) ∨
      (∃ kp, loadKeys d c.keypair = some kp ∧ (∀ pk sk, c.keypair = some (pk, sk) → (d.ssk sk).isSome ∧ (d.spk pk).isSome) ∧ kp.isSome = c.keypair.isSome ∧
        (∀ pkf skf, c.keypair = some (pkf, skf) → ∃ sk pk, kp = some (sk, pk) ∧ d.ssk skf = some sk ∧ d.spk pkf = some pk)) := by
    unfold loadKeys
    rcases hk : c.keypair with _ | ⟨pkf, skf⟩
    · exact .inr ⟨none, rfl, by simp, rfl, by simp⟩
    · dsimp only
      rcases h1 : d.ssk skf with _ | sk
      · exact .inl ⟨rfl, fun h => by have := (h pkf skf rfl).1; rw [h1] at this; cases this⟩
      · rcases h2 : d.spk pkf with _ | pk
        · exact .inl ⟨rfl, fun h => by have := (h pkf skf rfl).2; rw [h2] at this; cases this⟩
        · exact .inr ⟨some (sk, pk), rfl, (by intro a b hh; cases hh; rw [h1, h2]; exact ⟨rfl, rfl⟩), rfl, (by intro a b hh; cases hh; exact ⟨sk, pk, rfl, h1, h2⟩)⟩
  unfold startup
  rcases keys with ⟨hk, hno⟩ | ⟨kp, hk, hyes, hsome, hload⟩
  · rw [hk]; exact ⟨fun h => absurd h.2.1 hno, fun _ => rfl⟩
  rw [hk]
  dsimp only
  by_cases hm : e.mio = true
  swap
  · rw [if_pos (by simpa using hm)]; exact ⟨fun h => absurd h.1.mio hm, fun _ => rfl⟩
  rw [if_neg (by simpa using hm)]
  rcases hs : openSockets e c.listen with _ | socks
  · exact ⟨fun h => (by obtain ⟨l, hl⟩ := h.1.socks; rw [hs] at hl; cases hl), fun _ => rfl⟩
  dsimp only
  by_cases ha : e.api = true
  swap
  · rw [if_pos (by simpa using ha)]; exact ⟨fun h => absurd h.1.api ha, fun _ => rfl⟩
  rw [if_neg (by simpa using ha)]
  have hreg := register_first kp e.rnd socks.length e.fs e.name e.broker
  have hstore := register_first_store kp e.rnd socks.length e.fs e.name
  by_cases hb : e.broker = true
  swap
  · have := hreg.1 (by simpa using hb)
    generalize (App.new kp e.rnd socks.length e.fs).brokers.register e.name e.broker = rg at this
    obtain ⟨rg, b⟩ := rg
    dsimp only at this
    subst this
    exact ⟨fun h => absurd h.1.broker hb, fun _ => rfl⟩
  rw [hb] at hreg ⊢
  generalize (App.new kp e.rnd socks.length e.fs).brokers.register e.name true = rg at hreg hstore
  obtain ⟨rg, b⟩ := rg
  have := hreg.2 rfl
  dsimp only at this hstore
  subst this
  dsimp only
  have hnew := App.history_matches L (.new (P := fun x => x.host ≠ some none) (C := C) kp e.rnd socks.length e.fs hw.rnd)
  have hsite : ({ App.new kp e.rnd socks.length e.fs with brokers := b } : App).site ≠ .void ∧
      ((∃ s, ({ App.new kp e.rnd socks.length e.fs with brokers := b } : App).site = .product s) ↔ kp.isSome) := by
    cases kp with
    | none => exact ⟨(by intro h; cases h), (by constructor <;> (intro h; first | (obtain ⟨s, h⟩ := h; cases h) | cases h))⟩
    | some k => exact ⟨(by intro h; cases h), fun _ => rfl, fun _ => ⟨_, rfl⟩⟩
  have hmat : App.Matches C ({ App.new kp e.rnd socks.length e.fs with brokers := b } : App) [] := ⟨hnew.1.len, hnew.1.peers, hnew.1.builder, hnew.1.product⟩
  have hsane : App.Sane C ({ App.new kp e.rnd socks.length e.fs with brokers := b } : App) := hnew.2
  have h0 : ({ App.new kp e.rnd socks.length e.fs with brokers := b } : App).peers = [] ∧ ({ App.new kp e.rnd socks.length e.fs with brokers := b } : App).nsock = socks.length ∧
      ({ App.new kp e.rnd socks.length e.fs with brokers := b } : App).brokers = b ∧ ({ App.new kp e.rnd socks.length e.fs with brokers := b } : App).fs = e.fs ∧
      (∀ sk pk, kp = some (sk, pk) → ∀ s, ({ App.new kp e.rnd socks.length e.fs with brokers := b } : App).site = .product s → s.sskm = sk ∧ s.spkm = pk) ∧
      (∀ b', ({ App.new kp e.rnd socks.length e.fs with brokers := b } : App).site = .builder b' → b'.keypair = none) := by
    refine ⟨rfl, rfl, rfl, rfl, ?_, ?_⟩
    · rintro sk pk rfl s hs; cases hs; exact ⟨rfl, rfl⟩
    · intro b' h
      cases kp with
      | none => cases h; rfl
      | some k => cases h
  generalize ({ App.new kp e.rnd socks.length e.fs with brokers := b } : App) = a0 at hsite hmat hsane h0
  obtain ⟨z1, z2, z3, z4, z5, z6⟩ := h0
  obtain ⟨i1, i2⟩ := addPeers_exact L hw c.peers a0 [] [] hmat hsane hsite.1 rfl (.inl List.nodup_nil)
  rw [List.nil_append, hsite.2, hsome] at i1 i2
  constructor
  · rintro ⟨-, -, h3, h4⟩
    obtain ⟨a, ys, k1, k2, k3, k4, k5, k6, k7⟩ := i1 ⟨h3, h4⟩
    rw [k1]
    refine ⟨a, socks, ys, rfl, rfl, k2, k3, k4, by rw [k7.peers, z1, List.nil_append], by rw [k7.nsock, z2], by rw [k7.brokers, z3, hstore],
      by rw [k7.fs, z4], fun pkf skf hkp => ?_, fun hkp => ?_⟩
    · obtain ⟨s, hs'⟩ := k6.mpr (by rw [hkp]; rfl)
      obtain ⟨s0, j1, j2, j3⟩ := k7.keys s hs'
      obtain ⟨sk, pk, l1, l2, l3⟩ := hload pkf skf hkp
      obtain ⟨m1, m2⟩ := z5 sk pk l1 s0 j1
      exact ⟨s, hs', by rw [l2, j2, m1], by rw [l3, j3, m2]⟩
    rw [hkp] at k6
    cases hsi : a.site with
    | void => exact absurd hsi k5
    | builder b =>
      obtain ⟨b0, j1, j2⟩ := k7.builder b hsi
      exact ⟨b, rfl, j2.trans (z6 b0 j1)⟩
    | product s => exact absurd (k6.mp ⟨s, hsi⟩) (by simp)
  · intro hnot
    rw [i2 (fun h => hnot ⟨⟨hm, ⟨socks, hs⟩, ha, hb⟩, hyes, h.1, h.2⟩)]

/-! ### What `validate` promises -/

/-- **C79** (what holds of the promise that a validated configuration can be started). A validated configuration starts if the
operating system grants what is needed, the pre-shared keys can be loaded, the WireGuard peers are base64, and no two peers have
the same identity. -/
theorem validated_starts_partial (L : C.Lawful) {d : Disk} {e : Env} (hw : WF d e) (c : Config.Config Addr) (hv : Config.validate d.probe c = true) (he : EnvOk e c.listen)
    (hpsk : ∀ p ∈ c.peers, ∀ f, p.psk = some f → (d.psk f).isSome) (hwg : ∀ p ∈ c.peers, ∀ w, p.wg = some w → (wgPeerId w.peer).isSome)
    (hid : (c.peers.map (ident C d)).Nodup) : ∃ a socks, startup C d e c = .ok (a, socks) := by
  obtain ⟨h1, h2⟩ := (Config.validate_exact _ _).mp hv
  obtain ⟨a, socks, xs, h, -⟩ := (startup_exact L hw c).1 ⟨he, fun pk sk h => ⟨(h1 pk sk h).2.2, (h1 pk sk h).1.2⟩,
    fun p hp => ⟨hwg p hp, hpsk p hp, (h2 p hp).1.2, (h2 p hp).2.1, (h2 p hp).2.2.2⟩, fun _ => hid⟩
  exact ⟨a, socks, h⟩

/-- **C79, false of the code.** `validate` looks neither at pre-shared keys, nor at the form of WireGuard peers, nor for
duplicates: take any validated configuration and any of its peers; change the pre-shared key to a file that cannot be loaded, or
the WireGuard peer to a non-empty name that is not base64, or repeat a peer: the result is still validated but the server does not start. -/
theorem validated_not_started (L : C.Lawful) {d : Disk} {e : Env} (hw : WF d e) (c : Config.Config Addr) (hv : Config.validate d.probe c = true)
    (l r : List Config.Peer) (p : Config.Peer) (hp : c.peers = l ++ p :: r) :
    (∀ f, d.psk f = none → Config.validate d.probe { c with peers := l ++ { p with psk := some f } :: r } = true ∧
      startup C d e { c with peers := l ++ { p with psk := some f } :: r } = .error .error) ∧
    (∀ w : Config.Wg, w.device ≠ "" → w.peer ≠ "" → wgPeerId w.peer = none → Config.validate d.probe { c with peers := l ++ { p with wg := some w } :: r } = true ∧
      startup C d e { c with peers := l ++ { p with wg := some w } :: r } = .error .error) ∧
    (c.keypair.isSome → Config.validate d.probe { c with peers := l ++ p :: p :: r } = true ∧ startup C d e { c with peers := l ++ p :: p :: r } = .error .error) := by
  obtain ⟨h1, h2⟩ := (Config.validate_exact _ _).mp hv
  rw [hp] at h2
  have old : ∀ q ∈ l ++ p :: r, _ := h2
  refine ⟨fun f hf => ⟨(Config.validate_exact _ _).mpr ⟨h1, fun q hq => ?_⟩, (startup_exact L hw _).2 fun h => ?_⟩,
    fun w hd hpe hw' => ⟨(Config.validate_exact _ _).mpr ⟨h1, fun q hq => ?_⟩, (startup_exact L hw _).2 fun h => ?_⟩,
    fun hk => ⟨(Config.validate_exact _ _).mpr ⟨h1, fun q hq => ?_⟩, (startup_exact L hw _).2 fun h => ?_⟩⟩
  · rcases List.mem_append.mp hq with hq | hq
    · exact old q (by simp [hq])
    · rcases List.mem_cons.mp hq with rfl | hq
      · exact old p (by simp)
      · exact old q (by simp [hq])
  · have := (h.2.2.1 { p with psk := some f } (by simp)).psk f rfl
    rw [hf] at this; cases this
  · rcases List.mem_append.mp hq with hq | hq
    · exact old q (by simp [hq])
    · rcases List.mem_cons.mp hq with rfl | hq
      · obtain ⟨k1, k2, -, k4⟩ := old p (by simp)
        exact ⟨k1, k2, .inr ⟨w, rfl, hd, hpe⟩, k4⟩
      · exact old q (by simp [hq])
  · have := (h.2.2.1 { p with wg := some w } (by simp)).wg w rfl
    rw [hw'] at this; cases this
  · rcases List.mem_append.mp hq with hq | hq
    · exact old q (by simp [hq])
    · rcases List.mem_cons.mp hq with rfl | hq
      · exact old q (by simp)
      · exact old q (by simp at hq ⊢; exact .inr hq)
  · have := h.2.2.2 hk
    simp only [List.map_append, List.map_cons] at this
    have := (List.nodup_append.mp this).2.1
    simp at this

/-! ### The key pair is supplied later -/

/-- what is asked of the key pair supplied through the API when the server was started without one -/
theorem all2_ids {d : Disk} {e : Env} {ps : List Config.Peer} {xs : List NewPeer} (h : All2 (Given d e) ps xs) : xs.map (·.params.id C) = ps.map (ident C d) := by
  induction h with
  | nil => rfl
  | cons hg _ ih => rw [List.map_cons, List.map_cons, ih, given_id hg]

/-- **C79.** A server started without key pair starts exchanging keys with exactly the configured peers as soon as a key pair is
supplied, provided no two peers have the same identity. Otherwise (**false of the code**: duplicates are accepted at the start)
the first request is answered with an internal error, the list of peers is lost, and so are all later requests. -/
theorem supply_after_startup (L : C.Lawful) {d : Disk} {e : Env} (hw : WF d e) (c : Config.Config Addr) (hk : c.keypair = none) {a : App} {socks : List Sock}
    (hs : startup C d e c = .ok (a, socks)) (kp : Bytes × Bytes) (r : NewRnd) (hr : App.rndOk r) :
    ((c.peers.map (ident C d)).Nodup → (a.supply C kp r).1 = .ok ∧ ∃ s xs, (a.supply C kp r).2.site = .product s ∧ s.sskm = kp.1 ∧ s.spkm = kp.2 ∧
      All2 (Given d e) c.peers xs ∧ App.Matches C (a.supply C kp r).2 xs ∧ App.Sane C (a.supply C kp r).2) ∧
    (¬ (c.peers.map (ident C d)).Nodup → (a.supply C kp r).1 = .internal ∧ (a.supply C kp r).2.site = .void ∧
      ∀ kp' r', ((a.supply C kp r).2.supply C kp' r').1 = .internal) := by
  obtain ⟨s1, s2⟩ := startup_exact L hw c (C := C)
  by_cases hcond : (EnvOk e c.listen ∧ (∀ pk sk, c.keypair = some (pk, sk) → (d.ssk sk).isSome ∧ (d.spk pk).isSome) ∧ (∀ p ∈ c.peers, Loads d p) ∧
        (c.keypair.isSome → (c.peers.map (ident C d)).Nodup))
  swap
  · rw [s2 hcond] at hs; cases hs
  obtain ⟨a', socks', xs, h1, -, h2, h3, h4, -, -, -, -, -, h5⟩ := s1 hcond
  rw [h1] at hs; cases hs
  obtain ⟨b, hb, -⟩ := h5 hk
  have hbp := h3.builder b hb
  have hids : b.peers.map (PeerParams.id C) = c.peers.map (ident C d) := by
    rw [hbp, List.map_map, ← all2_ids h2]; rfl
  obtain ⟨-, b2, b3⟩ := build_exact (C := C) r hr { b with keypair := some kp } (h4.2 b hb)
  have hsup := App.supply_matches L h3 h4 kp r hr
  constructor
  · intro hnd
    obtain ⟨s, e1, e2, e3, -, -⟩ := b3 kp.1 kp.2 rfl (by rw [hids]; exact hnd)
    have : (a.supply C kp r) = (.ok, { a with site := .product s }) := by
      unfold App.supply
      rw [hb]
      simp only [Site.erect, Site.modifyTakenWithReturn, Site.take, e1, Option.getD_some]
    rw [this] at hsup ⊢
    exact ⟨rfl, s, xs, rfl, e2, e3, h2, hsup⟩
  · intro hnd
    have e1 := b2 kp.1 kp.2 rfl (by rw [hids]; exact hnd)
    have : (a.supply C kp r) = (.internal, { a with site := .void }) := by
      unfold App.supply
      rw [hb]
      simp only [Site.erect, Site.modifyTakenWithReturn, Site.take, e1, Option.getD_some]
    rw [this]
    exact ⟨rfl, rfl, fun _ _ => rfl⟩

/-! ### C80: sockets -/

theorem bindAll_spec (bind : Nat → Bool) (as : List Addr) : ∀ i, ((∀ k, k < as.length → bind (i + k)) → bindAll bind i as = some (as.map .addr)) ∧
    ((∃ k, k < as.length ∧ bind (i + k) = false) → bindAll bind i as = none) := by
  induction as with
  | nil => intro i; exact ⟨fun _ => rfl, fun ⟨k, hk, _⟩ => by simp at hk⟩
  | cons a as ih =>
    intro i
    obtain ⟨h1, h2⟩ := ih (i + 1)
    rw [bindAll]
    constructor
    · intro h
      have h0 := h 0 (by simp)
      rw [Nat.add_zero] at h0
      rw [if_pos h0, h1 (fun k hk => by have := h (k + 1) (by simpa using hk); rwa [show i + (k + 1) = i + 1 + k by omega] at this)]
      rfl
    · rintro ⟨k, hk, hb⟩
      cases k with
      | zero => rw [Nat.add_zero] at hb; rw [if_neg (by simp [hb])]
      | succ k =>
        split
        · rw [h2 ⟨k, by simpa using hk, by rw [← hb]; congr 1; omega⟩]
        · rfl

/-- **C80.** With listen addresses the server listens on exactly those, in order, or does not start; without, it listens on the
IPv6 wildcard if that can be bound, and on the IPv4 wildcard if the IPv6 one could not be bound or is not known to serve IPv4 and
the IPv4 one can be bound; it never starts without a socket. -/
theorem listens_as_configured (e : Env) (listen : List Addr) :
    (listen ≠ [] → (∀ i < listen.length, e.bind i) → openSockets e listen = some (listen.map .addr)) ∧
    (listen ≠ [] → (∃ i < listen.length, e.bind i = false) → openSockets e listen = none) ∧
    (listen = [] → ∀ s, (∃ l, openSockets e listen = some l ∧ s ∈ l) ↔ (s = .anyV6 ∧ e.bindV6) ∨ (s = .anyV4 ∧ e.bindV4 ∧ ¬ (e.bindV6 ∧ e.onlyV6 = some false))) ∧
    (∀ l, openSockets e listen = some l → l ≠ []) := by
  refine ⟨fun hne h => ?_, fun hne h => ?_, ?_, ?_⟩
  · unfold openSockets
    rw [(bindAll_spec e.bind listen 0).1 (fun k hk => by rw [Nat.zero_add]; exact h k hk)]
    have : (listen.map Sock.addr).isEmpty = false := by cases listen with | nil => exact absurd rfl hne | cons a l => rfl
    simp [this]
  · obtain ⟨i, hi, hb⟩ := h
    unfold openSockets
    rw [(bindAll_spec e.bind listen 0).2 ⟨i, hi, by rw [Nat.zero_add]; exact hb⟩]
  · rintro rfl s
    unfold openSockets bindAll
    obtain ⟨b, v6, o6, v4, m, a, br, n, rn, fs, cf⟩ := e
    cases v6 <;> cases v4 <;> (try rcases o6 with _ | (_ | _)) <;> cases s <;> simp
  · intro l hl
    unfold openSockets at hl
    split at hl
    · cases hl
    · rename_i sk _
      dsimp only at hl
      generalize (if sk.isEmpty = true then _ else sk) = z at hl
      cases z with
      | nil => cases hl
      | cons a z => cases hl; intro h; cases h

/-! ### The hypotheses are met -/
namespace Demo

def pka : Bytes := [1, 2]
def pkb : Bytes := [3, 4]
def disk : Disk := {
  isFile := fun _ => true
  spk := fun p => if p = "a.pk" then some pka else if p = "b.pk" then some pkb else if p = "my.pk" then some [9] else none
  ssk := fun p => if p = "my.sk" then some [8] else none
  psk := fun p => if p = "psk" then some (List.replicate 32 7) else none
  resolve := fun p => if p = "host:1" then some [.v4 [10, 0, 0, 1] 1] else none }
def env : Env := {
  bind := fun _ => true, bindV6 := true, onlyV6 := some false, bindV4 := true, mio := true, api := true, broker := true, name := 5
  rnd := ⟨List.replicate 32 1, List.replicate 32 2, List.replicate 16 3, List.replicate 16 4, List.replicate 32 5⟩
  fs := fun _ => none, cfg := fun w _ => w.device }
def alice : Config.Peer := ⟨"a.pk", some "host:1", some "psk", some "out", none, .v03, none, none⟩
def bob : Config.Peer := ⟨"b.pk", none, none, none, some ⟨"wg0", "Zm9v", []⟩, .v02, some "org", some ["x"]⟩
def conf (own : Bool) (ps : List Config.Peer) : Config.Config Addr := ⟨if own then some ("my.pk", "my.sk") else none, [], false, ps, ⟨["/run/rp.sock"], [], []⟩⟩

theorem wf : WF disk env := by
  refine ⟨fun f k h => ?_, rfl, rfl, rfl, rfl, rfl⟩
  unfold disk at h
  dsimp only at h
  split at h
  · cases h; rfl
  · cases h
theorem envOk : EnvOk env [] := ⟨rfl, ⟨[.anyV6], rfl⟩, rfl, rfl⟩

/-- how many peers run -/
def view (r : Except Fate (App × List Sock)) : Option (Nat × Bool × List (Option String) × Bool) :=
  match r with
  | .ok (a, l) => some (a.peers.length, decide (l = [.anyV6]), a.peers.map (·.outfile), a.site.isAvailable)
  | .error _ => none

set_option maxRecDepth 20000 in
/-- a configuration that passes and starts, with and without key pair; the same with a repeated peer -/
example : Config.validate disk.probe (conf true [alice, bob]) = true ∧
    view (startup Toy.crypto disk env (conf true [alice, bob])) = some (2, true, [some "out", none], true) ∧
    view (startup Toy.crypto disk env (conf false [alice, bob])) = some (2, true, [some "out", none], false) ∧
    view (startup Toy.crypto disk env (conf true [alice, bob, alice])) = none ∧
    view (startup Toy.crypto disk env (conf false [alice, bob, alice])) = some (3, true, [some "out", none, some "out"], false) := by
  refine ⟨?_, ?_, ?_, ?_, ?_⟩ <;> decide +kernel

set_option maxRecDepth 20000 in
/-- the hypotheses of `validated_starts_partial` and `validated_not_started` -/
example : ((conf true [alice, bob]).peers.map (ident Toy.crypto disk)).Nodup ∧ (∀ p ∈ [alice, bob], ∀ f, p.psk = some f → (disk.psk f).isSome) ∧
    (wgPeerId "Zm9v").isSome ∧ wgPeerId "not base64" = none ∧ disk.psk "missing" = none := by
  refine ⟨by decide +kernel, ?_, by decide +kernel, by decide +kernel, by decide +kernel⟩
  intro p hp f hf
  simp only [List.mem_cons, List.not_mem_nil, or_false] at hp
  rcases hp with rfl | rfl
  · cases hf; decide
  · cases hf

end Demo
end Verif.Startup
