import Verif.Model.RpExchange
import Verif.Thm.Startup
import Verif.Thm.NativeUnix
/-
C87: what `rp exchange` sets up: device, addresses, routes, and an application server with the peers as configured.
-/
namespace Verif.RpExchange
open App (NewPeer)
open KeyGen (join)
open NativeUnix (txt)
open Startup (Frame entry All2 openSockets)
variable {C : Crypto}

/-! ### Specification -/

/-- The WireGuard address that belongs to a Rosenpass address: the next port of the same host. -/
def wgAddr : Addr → Addr
  | .v4 ip p => .v4 ip (p + 1)
  | .v6 ip p _ _ => .v6 ip (p + 1) 0 0

/-- The words after `preshared-key /dev/stdin` on the command line of `wg set`. -/
def wgWords (display : Addr → String) (p : Peer) : List String :=
  (match p.endpoint with | none => [] | some a => ["endpoint", display (wgAddr a)]) ++
  (match p.keepalive with | none => [] | some n => ["persistent-keepalive", toString n]) ++
  (match p.allowedIps with | none => [] | some s => ["allowed-ips", s])

/-- The name of the device. -/
def devName (o : Options) : String := match o.dev with | some n => n | none => "rosenpass0"

/-- What is done to the system for these options, if everything works: device, its key and port, its address, a route per peer with allowed addresses. -/
def plan (key : Bytes) (o : Options) : List Eff :=
  [.create (devName o), .configure (devName o) key (o.listen.map fun a => a.portOf + 1)] ++
  (match o.ip with | none => [] | some ip => [.addIp ip (devName o)]) ++
  o.peers.filterMap fun p => p.allowedIps.map fun ips => .route ips (devName o)

/-- A port has a successor (or overflow checks are off, and 65535 is followed by 0). -/
def HasNext (e : Env) (a : Addr) : Prop := e.rel = true ∨ a.portOf ≠ 65535

/-- Everything the directory of a peer should contain can be loaded, and its endpoint is good. -/
structure Loads (d : Disk) (e : Env) (p : Peer) : Prop where
  wgpk : ∃ s id, d.text (join p.dir "wgpk") = some s ∧ NativeUnix.peerIdB64 (txt s) = some id
  pqpk : ∃ k, d.spk (join p.dir "pqpk") = some k
  psk : d.present (join p.dir "psk") = true → ∃ k, d.psk (join p.dir "psk") = some k
  next : ∀ a, p.endpoint = some a → HasNext e a
  endpoint : ∀ a, p.endpoint = some a → ∃ l, d.resolve (e.display a) = some l

/-- The peer as the application server gets it: keys as loaded, a pre-shared key exactly if the file is there, no output file, the broker (number 0) told to
set the key of the right WireGuard peer on the device with the right further words, keys for WireGuard, the endpoint as configured. -/
structure Given (d : Disk) (e : Env) (name : String) (p : Peer) (x : NewPeer) : Prop where
  pk : d.spk (join p.dir "pqpk") = some x.params.pk
  psk : d.present (join p.dir "psk") = true → ∃ k, d.psk (join p.dir "psk") = some k ∧ x.params.psk = some k
  noPsk : d.present (join p.dir "psk") = false → x.params.psk = none
  version : x.params.version = p.version
  osk : x.params.osk = .wireguardPsk
  out : x.outfile = none
  broker : ∃ s id, d.text (join p.dir "wgpk") = some s ∧ NativeUnix.peerIdB64 (txt s) = some id ∧
    x.broker = some (0, e.cfg ⟨txt name, id, NativeUnix.encodeParams ((wgWords e.display p).map txt)⟩)
  host : ∀ a, p.endpoint = some a → ∃ l, d.resolve (e.display a) = some l ∧ x.host = some (some l)
  noHost : p.endpoint = none → x.host = none

def ident (C : Crypto) (d : Disk) (p : Peer) : Bytes :=
  HashDomain.mix C p.version.hash (HashDomain.dom C p.version.hash .peerid) ((d.spk (join p.dir "pqpk")).getD [])

/-- What the operating system has to grant. -/
structure EnvOk (e : Env) (o : Options) : Prop where
  create : e.create
  configure : e.configure
  ip : o.ip.isSome → ∃ n, e.ip = some n
  mio : e.app.mio
  socks : ∃ l, openSockets e.app o.listen.toList = some l
  broker : e.app.broker
  route : ∀ i p, o.peers[i]? = some p → p.allowedIps.isSome → ∃ n, e.route i = some n

/-- The own keys can be loaded. -/
structure OwnKeys (d : Disk) (o : Options) (wgsk sk pk : Bytes) : Prop where
  wgsk : d.wgsk (join o.dir "wgsk") = some wgsk
  sk : d.ssk (join o.dir "pqsk") = some sk
  pk : d.spk (join o.dir "pqpk") = some pk

structure WF (d : Disk) (e : Env) : Prop where
  psk : ∀ f k, d.psk f = some k → k.length = 32
  rnd : App.rndOk e.app.rnd

/-! ### Proofs -/

theorem plus1_ok {rel : Bool} {p : UInt16} (h : rel = true ∨ p ≠ 65535) : plus1 rel p = some (p + 1) := by
  unfold plus1
  by_cases hp : p = 65535
  · rw [if_pos hp]
    rcases h with h | h
    · rw [if_pos h, hp]; rfl
    · exact absurd hp h
  · rw [if_neg hp]

theorem plus1_none {rel : Bool} {p : UInt16} (h : ¬ (rel = true ∨ p ≠ 65535)) : plus1 rel p = none := by
  unfold plus1
  have hp : p = 65535 := by
    by_cases hp : p = 65535
    · exact hp
    · exact absurd (.inr hp) h
  rw [if_pos hp, if_neg (fun hr => h (.inl hr))]

theorem withPort_next (a : Addr) : withPort a (a.portOf + 1) = wgAddr a := by cases a <;> rfl

theorem params_ok {e : Env} {p : Peer} (h : ∀ a, p.endpoint = some a → HasNext e a) : params e p = some (wgWords e.display p) := by
  unfold params wgWords
  cases hp : p.endpoint with
  | none => rfl
  | some a =>
    dsimp only
    rw [plus1_ok (h a hp)]
    dsimp only
    rw [withPort_next]
    cases p.keepalive <;> cases p.allowedIps <;> rfl

theorem params_none {e : Env} {p : Peer} (h : ¬ ∀ a, p.endpoint = some a → HasNext e a) : params e p = none := by
  unfold params
  cases hp : p.endpoint with
  | none => exact absurd (by rw [hp]; intro a h; cases h) h
  | some a =>
    dsimp only
    rw [plus1_none (fun hn => h (by rw [hp]; intro a' h; cases h; exact hn))]

/-- What `peerArgs` can come to. -/
theorem peerArgs_cases {d : Disk} {e : Env} {name : String} (p : Peer) :
    (∃ x, peerArgs d e name 0 p = .ok x ∧ (∀ k, x.params.psk = some k → ∃ f, d.psk f = some k) ∧
      x.host = p.endpoint.map (fun a => d.resolve (e.display a)) ∧
      ((∀ a, p.endpoint = some a → ∃ l, d.resolve (e.display a) = some l) → Given d e name p x ∧ Loads d e p)) ∨
    (peerArgs d e name 0 p = .error .error ∧ ¬ Loads d e p) ∨
    (peerArgs d e name 0 p = .error .panic ∧ ¬ Loads d e p ∧ ∃ a, p.endpoint = some a ∧ e.rel = false ∧ a.portOf = 65535) := by
  unfold peerArgs
  rcases h1 : d.text (join p.dir "wgpk") with _ | wgpk
  · exact .inr (.inl ⟨rfl, fun h => by obtain ⟨s, id, h, -⟩ := h.wgpk; rw [h1] at h; cases h⟩)
  dsimp only
  rcases h2 : d.spk (join p.dir "pqpk") with _ | pk
  · exact .inr (.inl ⟨rfl, fun h => by obtain ⟨s, h⟩ := h.pqpk; rw [h2] at h; cases h⟩)
  dsimp only
  have hpsk : (¬ (d.present (join p.dir "psk") = true → ∃ k, d.psk (join p.dir "psk") = some k) ∧
        loadPsk d p = (none : Option (Option Bytes))) ∨
      ((d.present (join p.dir "psk") = true → ∃ k, d.psk (join p.dir "psk") = some k) ∧ ∃ psk,
        loadPsk d p = some psk ∧
        (d.present (join p.dir "psk") = true → ∃ k, d.psk (join p.dir "psk") = some k ∧ psk = some k) ∧ (d.present (join p.dir "psk") = false → psk = none)) := by
    unfold loadPsk
    cases hp : d.present (join p.dir "psk") with
    | false => exact .inr ⟨(by intro h; cases h), none, rfl, (by intro h; cases h), fun _ => rfl⟩
    | true =>
      cases hk : d.psk (join p.dir "psk") with
      | none => exact .inl ⟨fun h => (by obtain ⟨k, h⟩ := h rfl; cases h), rfl⟩
      | some k => exact .inr ⟨fun _ => ⟨k, rfl⟩, some k, rfl, fun _ => ⟨k, rfl, rfl⟩, (by intro h; cases h)⟩
  rcases hpsk with ⟨hno, heq⟩ | ⟨hyes, psk, heq, hk1, hk2⟩
  · rw [heq]
    exact .inr (.inl ⟨rfl, fun h => hno h.psk⟩)
  rw [heq]
  dsimp only
  by_cases hn : ∀ a, p.endpoint = some a → HasNext e a
  swap
  · rw [params_none hn]
    refine .inr (.inr ⟨rfl, fun h => hn h.next, ?_⟩)
    cases hp : p.endpoint with
    | none => exact absurd (by rw [hp]; intro a h; cases h) hn
    | some a =>
      refine ⟨a, rfl, ?_, ?_⟩
      · cases hr : e.rel with
        | false => rfl
        | true => exact absurd (by rw [hp]; intro a' h; cases h; exact .inl hr) hn
      · by_cases h6 : a.portOf = 65535
        · exact h6
        · exact absurd (by rw [hp]; intro a' h; cases h; exact .inr h6) hn
  rw [params_ok hn]
  dsimp only
  unfold NativeUnix.build
  rcases hid : NativeUnix.peerIdB64 (txt wgpk) with _ | id
  · refine .inr (.inl ⟨rfl, fun h => ?_⟩)
    obtain ⟨s, id, h, hi⟩ := h.wgpk
    rw [h1] at h; cases h
    rw [hid] at hi; cases hi
  dsimp only
  refine .inl ⟨_, rfl, ?_, rfl, fun hr => ⟨⟨h2, hk1, hk2, rfl, rfl, rfl, ⟨wgpk, id, h1, hid, rfl⟩, ?_, ?_⟩, ⟨wgpk, id, h1, hid⟩, ⟨pk, h2⟩, hyes, hn, hr⟩⟩
  · intro k hk
    dsimp only at hk
    cases hp : d.present (join p.dir "psk") with
    | false => rw [hk2 hp] at hk; cases hk
    | true =>
      obtain ⟨k', h3, h4⟩ := hk1 hp
      rw [h4] at hk; cases hk
      exact ⟨_, h3⟩
  · intro a ha
    obtain ⟨l, hl⟩ := hr a ha
    exact ⟨l, hl, by rw [ha]; simp [hl]⟩
  · intro h; rw [h]; rfl

theorem given_id {d : Disk} {e : Env} {name : String} {p : Peer} {x : NewPeer} (h : Given d e name p x) : x.params.id C = ident C d p := by
  unfold PeerParams.id ident
  rw [h.pk, h.version]; rfl

theorem given_host {d : Disk} {e : Env} {name : String} {p : Peer} {x : NewPeer} (h : Given d e name p x) : x.host ≠ some none := by
  cases hp : p.endpoint with
  | none => rw [h.noHost hp]; intro h; cases h
  | some f =>
    obtain ⟨l, -, h2⟩ := h.host f hp
    rw [h2]; intro h; cases h

/-- the routes of a list of peers -/
def routes (name : String) (ps : List Peer) : List Eff := ps.filterMap fun p => p.allowedIps.map fun ips => .route ips name

theorem addPeers_exact (L : C.Lawful) {d : Disk} {e : Env} (hw : WF d e) (name : String) (ps : List Peer) : ∀ (i : Nat) (a : App) (done : List Peer) (xs : List NewPeer),
    App.Matches C a xs → App.Sane C a → (∃ s, a.site = .product s) → xs.map (·.params.id C) = done.map (ident C d) → (done.map (ident C d)).Nodup →
    (((∀ p ∈ ps, Loads d e p) ∧ ((done ++ ps).map (ident C d)).Nodup ∧ (∀ j p, ps[j]? = some p → p.allowedIps.isSome → ∃ n, e.route (i + j) = some n)) →
      ∃ a' ys, addPeers C d e name 0 i a ps = (.ok a', routes name ps) ∧ All2 (Given d e name) ps ys ∧ App.Matches C a' (xs ++ ys) ∧ App.Sane C a' ∧ (∃ s, a'.site = .product s) ∧ Frame a a' ys) ∧
    (¬ ((∀ p ∈ ps, Loads d e p) ∧ ((done ++ ps).map (ident C d)).Nodup ∧ (∀ j p, ps[j]? = some p → p.allowedIps.isSome → ∃ n, e.route (i + j) = some n)) →
      ∃ f l, addPeers C d e name 0 i a ps = (.error f, l) ∧ l <+: routes name ps ∧
        ((∀ p ∈ ps, ∀ a, p.endpoint = some a → HasNext e a) → f = .error)) := by
  induction ps with
  | nil =>
    intro i a done xs hm hs hv hid hn
    refine ⟨fun _ => ⟨a, [], rfl, .nil, by rw [List.append_nil]; exact hm, hs, hv, Frame.refl a⟩, fun h => absurd ⟨by simp, by simpa using hn, by simp⟩ h⟩
  | cons p ps ih =>
    intro i a done xs hm hs hv hid hn
    have hroute : ∀ ips, p.allowedIps = some ips → routes name (p :: ps) = .route ips name :: routes name ps := by
      intro ips h; simp [routes, h]
    have hnoroute : p.allowedIps = none → routes name (p :: ps) = routes name ps := by
      intro h; simp [routes, h]
    have hshift : (∀ j q, (p :: ps)[j]? = some q → q.allowedIps.isSome → ∃ n, e.route (i + j) = some n) ↔
        (p.allowedIps.isSome → ∃ n, e.route i = some n) ∧ (∀ j q, ps[j]? = some q → q.allowedIps.isSome → ∃ n, e.route (i + 1 + j) = some n) := by
      constructor
      · intro h
        refine ⟨fun hp => h 0 p rfl hp, fun j q hq hs => ?_⟩
        have := h (j + 1) q hq hs
        rw [show i + (j + 1) = i + 1 + j by omega] at this
        exact this
      · rintro ⟨h1, h2⟩ j q hq hs
        cases j with
        | zero => cases hq; exact h1 hs
        | succ j =>
          have := h2 j q hq hs
          rw [show i + 1 + j = i + (j + 1) by omega] at this
          exact this
    rw [hshift]
    rw [addPeers]
    have hvoid : a.site ≠ .void := by obtain ⟨s, h⟩ := hv; rw [h]; intro h; cases h
    rcases peerArgs_cases (d := d) (e := e) (name := name) p with ⟨x, hx, hxpsk, hxhost, hgiven⟩ | ⟨hx, hl⟩ | ⟨hx, hl, hpan⟩
    · rw [hx]
      dsimp only
      have hxWF : x.WF := by
        intro k hk
        obtain ⟨f, hf⟩ := hxpsk k hk
        exact hw.psk f k hf
      obtain ⟨a1, a2, a3⟩ := Startup.addPeer_exact L hm hs x hxWF hvoid
      by_cases hres : ∀ a, p.endpoint = some a → ∃ l, d.resolve (e.display a) = some l
      · obtain ⟨hg, hl⟩ := hgiven hres
        by_cases hdup : x.params.id C ∈ xs.map (·.params.id C)
        · have := a2 (given_host hg) hv hdup
          generalize a.addPeer C x = r at this
          obtain ⟨r1, r2⟩ := r
          dsimp only at this
          subst this
          dsimp only
          refine ⟨fun h => ?_, fun _ => ⟨_, _, rfl, List.nil_prefix, fun _ => rfl⟩⟩
          exfalso
          have hnd := h.2.1
          rw [List.map_append, List.map_cons, List.nodup_append] at hnd
          rw [hid, given_id hg] at hdup
          exact hnd.2.2 _ hdup _ (by simp) rfl
        · obtain ⟨n, h1, h2, h3, h4, h5⟩ := a3 (given_host hg) (fun _ => hdup)
          have hfr := Startup.addPeer_frame h1
          generalize a.addPeer C x = r at h1 h2 h3 h4 h5 hfr
          obtain ⟨r1, a'⟩ := r
          dsimp only at h1 h2 h3 h4 h5 hfr ⊢
          subst h1
          dsimp only
          obtain ⟨i1, i2⟩ := ih (i + 1) a' (done ++ [p]) (xs ++ [x]) h2 h3 (h5.mpr hv) (by simp [hid, given_id hg]) (by
            rw [List.map_append, List.nodup_append]
            refine ⟨hn, by simp, ?_⟩
            intro u hu v hv'
            simp only [List.map_cons, List.map_nil, List.mem_singleton] at hv'
            subst hv'
            intro he
            rw [hid, given_id hg, ← he] at hdup
            exact hdup hu)
          have happ : done ++ p :: ps = (done ++ [p]) ++ ps := by simp
          rw [happ]
          have good : ((∀ q ∈ p :: ps, Loads d e q) ∧ ((done ++ [p] ++ ps).map (ident C d)).Nodup ∧ (∀ j q, ps[j]? = some q → q.allowedIps.isSome → ∃ n, e.route (i + 1 + j) = some n)) ↔
              ((∀ q ∈ ps, Loads d e q) ∧ ((done ++ [p] ++ ps).map (ident C d)).Nodup ∧ (∀ j q, ps[j]? = some q → q.allowedIps.isSome → ∃ n, e.route (i + 1 + j) = some n)) := by
            constructor
            · rintro ⟨g, g2, g3⟩; exact ⟨fun q hq => g q (by simp [hq]), g2, g3⟩
            · rintro ⟨g, g2, g3⟩
              refine ⟨fun q hq => ?_, g2, g3⟩
              rcases List.mem_cons.mp hq with rfl | hq
              · exact hl
              · exact g q hq
          have hnx : (∀ q ∈ p :: ps, ∀ a, q.endpoint = some a → HasNext e a) → ∀ q ∈ ps, ∀ a, q.endpoint = some a → HasNext e a :=
            fun h q hq => h q (by simp [hq])
          cases hai : p.allowedIps with
          | none =>
            rw [hnoroute hai]
            dsimp only
            constructor
            · rintro ⟨g1, g2, -, g3⟩
              obtain ⟨b, ys, k1, k2, k3, k4, k5, k6⟩ := i1 (good.mp ⟨g1, g2, g3⟩)
              exact ⟨b, x :: ys, k1, .cons hg k2, by rw [List.append_assoc] at k3; exact k3, k4, k5, hfr.trans k6⟩
            · intro hnot
              obtain ⟨f, l, k1, k2, k3⟩ := i2 (fun h => hnot (by obtain ⟨u, v, w⟩ := good.mpr h; exact ⟨u, v, (by intro h; cases h), w⟩))
              exact ⟨f, l, k1, k2, fun h => k3 (hnx h)⟩
          | some ips =>
            rw [hroute ips hai]
            dsimp only
            rcases hr : e.route i with _ | n
            · dsimp only
              refine ⟨fun h => ?_, fun _ => ⟨_, _, rfl, List.nil_prefix, fun _ => rfl⟩⟩
              obtain ⟨n, h⟩ := h.2.2.1 rfl
              cases h
            · dsimp only
              constructor
              · rintro ⟨g1, g2, -, g3⟩
                obtain ⟨b, ys, k1, k2, k3, k4, k5, k6⟩ := i1 (good.mp ⟨g1, g2, g3⟩)
                rw [k1]
                exact ⟨b, x :: ys, rfl, .cons hg k2, by rw [List.append_assoc] at k3; exact k3, k4, k5, hfr.trans k6⟩
              · intro hnot
                obtain ⟨f, l, k1, k2, k3⟩ := i2 (fun h => hnot (by obtain ⟨u, v, w⟩ := good.mpr h; exact ⟨u, v, fun _ => ⟨n, rfl⟩, w⟩))
                rw [k1]
                exact ⟨f, _, rfl, (List.cons_prefix_cons).2 ⟨rfl, k2⟩, fun h => k3 (hnx h)⟩
      · have hhost : x.host = some none := by
          rw [hxhost]
          cases he : p.endpoint with
          | none => exact absurd (by rw [he]; intro n h; cases h) hres
          | some n =>
            cases hr : d.resolve (e.display n) with
            | none => simp [hr]
            | some l => exact absurd (by rw [he]; intro n' h; cases h; exact ⟨l, hr⟩) hres
        have := a1 hhost
        generalize a.addPeer C x = r at this
        obtain ⟨r1, r2⟩ := r
        dsimp only at this
        subst this
        exact ⟨fun h => absurd (h.1 p (by simp)).endpoint hres, fun _ => ⟨_, _, rfl, List.nil_prefix, fun _ => rfl⟩⟩
    · rw [hx]
      exact ⟨fun h => absurd (h.1 p (by simp)) hl, fun _ => ⟨_, _, rfl, List.nil_prefix, fun _ => rfl⟩⟩
    · rw [hx]
      refine ⟨fun h => absurd (h.1 p (by simp)) hl, fun _ => ⟨_, _, rfl, List.nil_prefix, fun h => ?_⟩⟩
      obtain ⟨a, h1, h2, h3⟩ := hpan
      rcases h p (by simp) a h1 with hh | hh
      · rw [h2] at hh; cases hh
      · exact absurd h3 hh

/-- What is running after `exchange`: exactly the configured peers, in order, each as `Given`; the own keys; the broker; the sockets. -/
structure Runs (C : Crypto) (d : Disk) (e : Env) (o : Options) (sk pk : Bytes) (a : App) (socks : List Startup.Sock) : Prop where
  opened : openSockets e.app o.listen.toList = some socks
  peers : ∃ xs, All2 (Given d e (devName o)) o.peers xs ∧ App.Matches C a xs ∧ a.peers = xs.map entry
  sane : App.Sane C a
  nsock : a.nsock = socks.length
  broker : a.brokers.store = [(0, ⟨e.app.name, some (socks.length + 1)⟩)]
  fs : a.fs = e.app.fs
  keys : ∃ s, a.site = .product s ∧ s.sskm = sk ∧ s.spkm = pk

theorem serve_exact (L : C.Lawful) {d : Disk} {e : Env} (hw : WF d e) (sk pk : Bytes) (o : Options) :
    let good := e.app.mio = true ∧ (∃ l, openSockets e.app o.listen.toList = some l) ∧ e.app.broker = true ∧ (∀ p ∈ o.peers, Loads d e p) ∧
      (o.peers.map (ident C d)).Nodup ∧ (∀ i p, o.peers[i]? = some p → p.allowedIps.isSome → ∃ n, e.route i = some n)
    (good → ∃ a socks, serve C d e (devName o) sk pk o = (.ok (a, socks), routes (devName o) o.peers) ∧ Runs C d e o sk pk a socks) ∧
    (¬ good → ∃ f l, serve C d e (devName o) sk pk o = (.error f, l) ∧ l <+: routes (devName o) o.peers ∧
      ((∀ p ∈ o.peers, ∀ a, p.endpoint = some a → HasNext e a) → f = .error)) := by
  intro good
  have fail : ∀ r, serve C d e (devName o) sk pk o = r → r = (.error .error, []) → (¬ good) →
      (good → ∃ a socks, serve C d e (devName o) sk pk o = (.ok (a, socks), routes (devName o) o.peers) ∧ Runs C d e o sk pk a socks) ∧
      (¬ good → ∃ f l, serve C d e (devName o) sk pk o = (.error f, l) ∧ l <+: routes (devName o) o.peers ∧
        ((∀ p ∈ o.peers, ∀ a, p.endpoint = some a → HasNext e a) → f = .error)) := by
    intro r h1 h2 h3
    exact ⟨fun h => absurd h h3, fun _ => ⟨_, _, h1.trans h2, List.nil_prefix, fun _ => rfl⟩⟩
  by_cases hm : e.app.mio = true
  swap
  · exact fail _ (by unfold serve; rw [if_pos (by simpa using hm)]) rfl (fun h => hm h.1)
  rcases hs : openSockets e.app o.listen.toList with _ | socks
  · refine fail _ (by unfold serve; rw [if_neg (by simpa using hm), hs]) rfl (fun h => ?_)
    obtain ⟨l, hl⟩ := h.2.1
    rw [hs] at hl; cases hl
  have hreg := Startup.register_first (some (sk, pk)) e.app.rnd socks.length e.app.fs e.app.name e.app.broker
  have hstore := Startup.register_first_store (some (sk, pk)) e.app.rnd socks.length e.app.fs e.app.name
  have hserve : serve C d e (devName o) sk pk o =
      (match (App.new (some (sk, pk)) e.app.rnd socks.length e.app.fs).brokers.register e.app.name e.app.broker with
      | (.error .panic, _) => (.error .panic, [])
      | (.error _, _) => (.error .error, [])
      | (.ok ptr, b) =>
        match addPeers C d e (devName o) ptr 0 { App.new (some (sk, pk)) e.app.rnd socks.length e.app.fs with brokers := b } o.peers with
        | (.error f, l) => (.error f, l)
        | (.ok a, l) => (.ok (a, socks), l)) := by
    unfold serve
    rw [if_neg (by simpa using hm), hs]
    rfl
  by_cases hb : e.app.broker = true
  swap
  · have := hreg.1 (by simpa using hb)
    refine fail _ hserve ?_ (fun h => hb h.2.2.1)
    generalize (App.new (some (sk, pk)) e.app.rnd socks.length e.app.fs).brokers.register e.app.name e.app.broker = rg at this
    obtain ⟨rg, b⟩ := rg
    dsimp only at this
    subst this
    rfl
  rw [hb] at hreg hserve
  rw [hserve]
  clear fail hserve
  generalize (App.new (some (sk, pk)) e.app.rnd socks.length e.app.fs).brokers.register e.app.name true = rg at hreg hstore
  obtain ⟨rg, b⟩ := rg
  have := hreg.2 rfl
  dsimp only at this hstore
  subst this
  dsimp only
  have hnew := App.history_matches L (.new (P := fun x => x.host ≠ some none) (C := C) (some (sk, pk)) e.app.rnd socks.length e.app.fs hw.rnd)
  have hmat : App.Matches C ({ App.new (some (sk, pk)) e.app.rnd socks.length e.app.fs with brokers := b } : App) [] := ⟨hnew.1.len, hnew.1.peers, hnew.1.builder, hnew.1.product⟩
  have hsane : App.Sane C ({ App.new (some (sk, pk)) e.app.rnd socks.length e.app.fs with brokers := b } : App) := hnew.2
  have h0 : ({ App.new (some (sk, pk)) e.app.rnd socks.length e.app.fs with brokers := b } : App).peers = [] ∧ ({ App.new (some (sk, pk)) e.app.rnd socks.length e.app.fs with brokers := b } : App).nsock = socks.length ∧
      ({ App.new (some (sk, pk)) e.app.rnd socks.length e.app.fs with brokers := b } : App).brokers = b ∧ ({ App.new (some (sk, pk)) e.app.rnd socks.length e.app.fs with brokers := b } : App).fs = e.app.fs ∧
      (∃ s, ({ App.new (some (sk, pk)) e.app.rnd socks.length e.app.fs with brokers := b } : App).site = .product s ∧ s.sskm = sk ∧ s.spkm = pk) :=
    ⟨rfl, rfl, rfl, rfl, _, rfl, rfl, rfl⟩
  generalize ({ App.new (some (sk, pk)) e.app.rnd socks.length e.app.fs with brokers := b } : App) = a0 at hmat hsane h0
  obtain ⟨z1, z2, z3, z4, s0, z5, z6, z7⟩ := h0
  obtain ⟨i1, i2⟩ := addPeers_exact L hw (devName o) o.peers 0 a0 [] [] hmat hsane ⟨s0, z5⟩ rfl List.nodup_nil
  simp only [List.nil_append, Nat.zero_add] at i1 i2
  constructor
  · rintro ⟨-, -, -, g1, g2, g3⟩
    obtain ⟨a, ys, k1, k2, k3, k4, ⟨s, k5⟩, k6⟩ := i1 ⟨g1, g2, g3⟩
    rw [k1]
    refine ⟨a, socks, rfl, ⟨hs, ⟨ys, k2, k3, by rw [k6.peers, z1, List.nil_append]⟩, k4, by rw [k6.nsock, z2], by rw [k6.brokers, z3, hstore], by rw [k6.fs, z4], s, k5, ?_⟩⟩
    obtain ⟨s1, j1, j2, j3⟩ := k6.keys s k5
    rw [z5] at j1; cases j1
    exact ⟨j2.trans z6, j3.trans z7⟩
  · intro hnot
    obtain ⟨f, l, k1, k2, k3⟩ := i2 (fun h => hnot ⟨hm, ⟨socks, hs⟩, hb, h.1, h.2.1, h.2.2⟩)
    rw [k1]
    exact ⟨f, l, rfl, k2, k3⟩

/-- **C87.** `rp exchange`, exactly. It gets as far as running the server if and only if the operating system grants what is needed, the own keys and
what every peer's directory should contain can be loaded, ports have successors, and no two peers have the same key (under their version). Then
it has done exactly what the options say, in order, and runs a server with exactly the configured peers. Otherwise it stops; what it has done to the
system by then is a part of the same plan. It panics only over a port 65535 (with overflow checks). -/
theorem exchange_exact_partial (L : C.Lawful) {d : Disk} {e : Env} (hw : WF d e) (o : Options) (wgsk sk pk : Bytes) (hk : OwnKeys d o wgsk sk pk) :
    let good := EnvOk e o ∧ (∀ a, o.listen = some a → HasNext e a) ∧ (∀ p ∈ o.peers, Loads d e p) ∧ (o.peers.map (ident C d)).Nodup
    (good → ∃ a socks, exchange C d e o = (.ok (a, socks), plan wgsk o) ∧ Runs C d e o sk pk a socks) ∧
    (¬ good → ∃ f l, exchange C d e o = (.error f, l) ∧ l <+: plan wgsk o ∧
      ((∀ a, o.listen = some a → HasNext e a) → (∀ p ∈ o.peers, ∀ a, p.endpoint = some a → HasNext e a) → f = .error)) := by
  intro good
  have hname : o.dev.getD "rosenpass0" = devName o := by unfold devName; cases o.dev <;> rfl
  unfold exchange
  rw [hk.wgsk]; dsimp only
  rw [hk.sk]; dsimp only
  rw [hk.pk]; dsimp only
  rw [hname]
  by_cases hc : e.create = true
  swap
  · rw [if_pos (by simpa using hc)]
    exact ⟨fun h => absurd h.1.create hc, fun _ => ⟨_, _, rfl, List.nil_prefix, fun _ _ => rfl⟩⟩
  rw [if_neg (by simpa using hc)]
  have hport : ((∀ a, o.listen = some a → HasNext e a) ∧ wgPort e o = some (o.listen.map fun a => a.portOf + 1)) ∨
      (¬ (∀ a, o.listen = some a → HasNext e a) ∧ wgPort e o = none) := by
    unfold wgPort
    cases o.listen with
    | none => exact .inl ⟨(by intro a h; cases h), rfl⟩
    | some a =>
      by_cases hn : HasNext e a
      · exact .inl ⟨(by intro a' h; cases h; exact hn), by dsimp only; rw [plus1_ok hn]; rfl⟩
      · exact .inr ⟨fun h => hn (h a rfl), by dsimp only; rw [plus1_none hn]⟩
  rcases hport with ⟨hn, heq⟩ | ⟨hn, heq⟩
  swap
  · rw [heq]
    refine ⟨fun h => absurd h.2.1 hn, fun _ => ⟨_, _, rfl, ?_, fun h _ => absurd h hn⟩⟩
    exact ⟨_, rfl⟩
  rw [heq]
  dsimp only
  by_cases hf : e.configure = true
  swap
  · rw [if_pos (by simpa using hf)]
    exact ⟨fun h => absurd h.1.configure hf, fun _ => ⟨_, _, rfl, ⟨_, rfl⟩, fun _ _ => rfl⟩⟩
  rw [if_neg (by simpa using hf)]
  have hserve := serve_exact L hw sk pk o
  dsimp only at hserve
  cases hip : o.ip with
  | none =>
    dsimp only
    have hplan : plan wgsk o = .create (devName o) :: .configure (devName o) wgsk (o.listen.map fun a => a.portOf + 1) :: routes (devName o) o.peers := by
      unfold plan routes; rw [hip]; rfl
    rw [hplan]
    constructor
    · rintro ⟨g1, g2, g3, g4⟩
      obtain ⟨a, socks, k1, k2⟩ := hserve.1 ⟨g1.mio, g1.socks, g1.broker, g3, g4, g1.route⟩
      rw [k1]
      exact ⟨a, socks, rfl, k2⟩
    · intro hnot
      obtain ⟨f, l, k1, k2, k3⟩ := hserve.2 (fun h => hnot ⟨⟨hc, hf, (by rw [hip]; intro h; cases h), h.1, h.2.1, h.2.2.1, h.2.2.2.2.2⟩, hn, h.2.2.2.1, h.2.2.2.2.1⟩)
      rw [k1]
      exact ⟨f, _, rfl, (List.cons_prefix_cons).2 ⟨rfl, (List.cons_prefix_cons).2 ⟨rfl, k2⟩⟩, fun _ h => k3 h⟩
  | some ip =>
    dsimp only
    have hplan : plan wgsk o = .create (devName o) :: .configure (devName o) wgsk (o.listen.map fun a => a.portOf + 1) :: .addIp ip (devName o) :: routes (devName o) o.peers := by
      unfold plan routes; rw [hip]; rfl
    rw [hplan]
    cases hi : e.ip with
    | none =>
      dsimp only
      refine ⟨fun h => ?_, fun _ => ⟨_, _, rfl, ⟨_, rfl⟩, fun _ _ => rfl⟩⟩
      obtain ⟨n, h⟩ := h.1.ip (by rw [hip]; rfl)
      rw [hi] at h; cases h
    | some n =>
      dsimp only
      constructor
      · rintro ⟨g1, g2, g3, g4⟩
        obtain ⟨a, socks, k1, k2⟩ := hserve.1 ⟨g1.mio, g1.socks, g1.broker, g3, g4, g1.route⟩
        rw [k1]
        exact ⟨a, socks, rfl, k2⟩
      · intro hnot
        obtain ⟨f, l, k1, k2, k3⟩ := hserve.2 (fun h => hnot ⟨⟨hc, hf, fun _ => ⟨n, hi⟩, h.1, h.2.1, h.2.2.1, h.2.2.2.2.2⟩, hn, h.2.2.2.1, h.2.2.2.2.1⟩)
        rw [k1]
        exact ⟨f, _, rfl, (List.cons_prefix_cons).2 ⟨rfl, (List.cons_prefix_cons).2 ⟨rfl, (List.cons_prefix_cons).2 ⟨rfl, k2⟩⟩⟩, fun _ h => k3 h⟩

/-- Without the own keys nothing at all is done. -/
theorem no_keys_nothing_done {d : Disk} {e : Env} (o : Options) (h : ∀ wgsk sk pk, ¬ OwnKeys d o wgsk sk pk) : exchange C d e o = (.error .error, []) := by
  unfold exchange
  rcases h1 : d.wgsk (join o.dir "wgsk") with _ | wgsk
  · rfl
  rcases h2 : d.ssk (join o.dir "pqsk") with _ | sk
  · rfl
  rcases h3 : d.spk (join o.dir "pqpk") with _ | pk
  · rfl
  exact absurd ⟨h1, h2, h3⟩ (h wgsk sk pk)

/-- The command that hands a key to WireGuard: `wg set DEV peer KEY preshared-key /dev/stdin`, then `endpoint` with the next port of the configured host,
`persistent-keepalive` and `allowed-ips` as configured, in this order; the key goes to the standard input. -/
theorem wg_command (name : String) (p : Peer) (display : Addr → String) (id psk : Bytes) (env : NativeUnix.Env) (hp : psk.length = 32) (he : env.spawn = true)
    (hl : ∀ w ∈ wgWords display p, (txt w).length < 2 ^ 64) :
    ∃ w, NativeUnix.setPsk (NativeUnix.Base.config ⟨txt name, id, NativeUnix.encodeParams ((wgWords display p).map txt)⟩ psk) env =
        (true, some ⟨txt "wg", [txt "set", txt name, txt "peer", FileIO.b64Enc id, txt "preshared-key", txt "/dev/stdin"] ++ (wgWords display p).map txt, w⟩) ∧
      w <+: FileIO.b64Enc psk := by
  have hn : (wgWords display p).length ≤ 6 := by
    unfold wgWords
    cases p.endpoint <;> cases p.keepalive <;> cases p.allowedIps <;> simp
  obtain ⟨w, h1, h2, -⟩ := NativeUnix.key_set_through_wg_partial name id psk ((wgWords display p).map txt) env hp he
    (by rw [List.length_map]; omega) (by
      intro q hq
      obtain ⟨s, hs, rfl⟩ := List.mem_map.mp hq
      exact ⟨hl s hs, s, rfl⟩)
  exact ⟨w, h1, h2⟩

/-- Two sides agree on the WireGuard port: whoever configures the Rosenpass address of a peer has its WireGuard address, if that peer listens there. -/
theorem wg_ports_agree (a : Addr) (key : Bytes) (o : Options) (ho : o.listen = some a) :
    .configure (devName o) key (some (wgAddr a).portOf) ∈ plan key o := by
  unfold plan
  rw [ho]
  cases a <;> simp [wgAddr, Addr.portOf]

/-- The finding: how the `ip` commands end does not matter, only that they can be started. An address or a route that could not be set is not noticed. -/
theorem ip_failures_ignored (d : Disk) (e : Env) (o : Options) (f : Nat → Nat) :
    exchange C d { e with ip := e.ip.map f, route := fun i => (e.route i).map f } o = exchange C d e o := by
  have hargs : ∀ name ptr p, peerArgs d { e with ip := e.ip.map f, route := fun i => (e.route i).map f } name ptr p = peerArgs d e name ptr p := fun _ _ _ => rfl
  have hadd : ∀ name ptr ps i a, addPeers C d { e with ip := e.ip.map f, route := fun i => (e.route i).map f } name ptr i a ps = addPeers C d e name ptr i a ps := by
    intro name ptr ps
    induction ps with
    | nil => intro i a; rfl
    | cons p ps ih =>
      intro i a
      rw [addPeers, addPeers, hargs]
      split
      · rfl
      · split
        · rfl
        · rw [ih]
          split
          · rfl
          · dsimp only
            cases e.route i <;> rfl
  have hserve : ∀ name sk pk, serve C d { e with ip := e.ip.map f, route := fun i => (e.route i).map f } name sk pk o = serve C d e name sk pk o := by
    intro name sk pk
    unfold serve
    simp only [hadd]
  have hp : wgPort { e with ip := e.ip.map f, route := fun i => (e.route i).map f } o = wgPort e o := rfl
  unfold exchange
  simp only [hserve, hp]
  rcases d.wgsk (join o.dir "wgsk") with _ | wgsk
  · rfl
  rcases d.ssk (join o.dir "pqsk") with _ | sk
  · rfl
  rcases d.spk (join o.dir "pqpk") with _ | pk
  · rfl
  dsimp only
  cases e.create
  · rfl
  cases wgPort e o
  · rfl
  cases e.configure
  · rfl
  cases o.ip
  · rfl
  cases e.ip <;> rfl

/-- The finding: port 65535 is accepted on the command line, but `exchange` panics over it when overflow checks are on, after the device has been created ... -/
theorem port_65535_panics (d : Disk) (e : Env) (o : Options) (wgsk sk pk : Bytes) (hk : OwnKeys d o wgsk sk pk) (hc : e.create = true) (hr : e.rel = false)
    (ip : Bytes) (ho : o.listen = some (.v4 ip 65535)) : exchange C d e o = (.error .panic, [.create (devName o)]) := by
  have hname : o.dev.getD "rosenpass0" = devName o := by unfold devName; cases o.dev <;> rfl
  unfold exchange
  rw [hk.wgsk]; dsimp only
  rw [hk.sk]; dsimp only
  rw [hk.pk]; dsimp only
  rw [hname, if_neg (by simpa using hc)]
  simp [Addr.portOf, plus1, hr, wgPort, ho]

/-- ... and otherwise WireGuard is told to use port 0, which means any port; the WireGuard address that peers then use is port 0, too. -/
theorem port_65535_wraps (ip : Bytes) (key : Bytes) (o : Options) (ho : o.listen = some (.v4 ip 65535)) :
    .configure (devName o) key (some 0) ∈ plan key o ∧ wgAddr (.v4 ip 65535) = .v4 ip 0 := by
  refine ⟨?_, rfl⟩
  unfold plan
  rw [ho]
  simp [Addr.portOf]

/-- The finding: a link-local IPv6 address loses its scope on the way to `wg`, without which it cannot be used. -/
theorem scope_dropped (ip : Bytes) (port : UInt16) (flow scope : UInt32) : wgAddr (.v6 ip port flow scope) = .v6 ip (port + 1) 0 0 := rfl

/-! ### The hypotheses are met -/
namespace Demo

def disk : Disk := {
  wgsk := fun p => if p = "priv/wgsk" then some (List.replicate 32 1) else none
  ssk := fun p => if p = "priv/pqsk" then some [8] else none
  spk := fun p => if p = "priv/pqpk" then some [9] else if p = "alice/pqpk" then some [1, 2] else if p = "bob/pqpk" then some [3, 4] else none
  text := fun p => if p = "alice/wgpk" then some "Zm9v" else if p = "bob/wgpk" then some "YmFy" else none
  present := fun p => p = "bob/psk"
  psk := fun p => if p = "bob/psk" then some (List.replicate 32 7) else none
  resolve := fun p => if p = "10.0.0.1:9999" then some [.v4 [10, 0, 0, 1] 9999] else none }
def env : Env := {
  rel := false
  display := fun a => if a = .v4 [10, 0, 0, 1] 9999 then "10.0.0.1:9999" else if a = .v4 [10, 0, 0, 1] 10000 then "10.0.0.1:10000" else "?"
  create := true, configure := true, ip := some 2, route := fun _ => some 0
  app := Startup.Demo.env, cfg := fun b => String.ofList ((FileIO.b64Enc b.peerId).map fun c => Char.ofNat c.toNat) }
def alice : Peer := ⟨"alice", some (.v4 [10, 0, 0, 1] 9999), some 25, some "fe80::/64", .v03⟩
def bob : Peer := ⟨"bob", none, none, none, .v02⟩
def opts : Options := ⟨"priv", none, some "fe80::1/64", some (.v4 [0, 0, 0, 0] 9999), [alice, bob]⟩

theorem wf : WF disk env := by
  refine ⟨fun f k h => ?_, rfl, rfl, rfl, rfl, rfl⟩
  unfold disk at h
  dsimp only at h
  split at h
  · cases h; rfl
  · cases h
theorem ownKeys : OwnKeys disk opts (List.replicate 32 1) [8] [9] := ⟨rfl, rfl, rfl⟩
theorem envOk : EnvOk env opts :=
  ⟨rfl, rfl, fun _ => ⟨2, rfl⟩, rfl, ⟨[.addr (.v4 [0, 0, 0, 0] 9999)], rfl⟩, rfl, fun _ _ _ _ => ⟨0, rfl⟩⟩

set_option maxRecDepth 20000 in
/-- all hypotheses of `exchange_exact_partial` together -/
example : EnvOk env opts ∧ (∀ a, opts.listen = some a → HasNext env a) ∧ (∀ p ∈ opts.peers, Loads disk env p) ∧ (opts.peers.map (ident Toy.crypto disk)).Nodup := by
  refine ⟨envOk, (by intro a h; cases h; exact .inr (by decide)), ?_, by decide +kernel⟩
  intro p hp
  simp only [opts, List.mem_cons, List.not_mem_nil, or_false] at hp
  rcases hp with rfl | rfl
  · refine ⟨⟨"Zm9v", txt "foo" ++ List.replicate 29 0, rfl, by decide +kernel⟩, ⟨_, rfl⟩, (by intro h; cases h), (by intro a h; cases h; exact .inr (by decide)), ?_⟩
    intro a h; cases h; exact ⟨[.v4 [10, 0, 0, 1] 9999], by decide +kernel⟩
  · exact ⟨⟨"YmFy", txt "bar" ++ List.replicate 29 0, rfl, by decide +kernel⟩, ⟨_, rfl⟩, fun _ => ⟨_, rfl⟩, (by intro a h; cases h), (by intro a h; cases h)⟩

/-- what is done, and how many peers run -/
def view (r : Except Fate (App × List Startup.Sock) × List Eff) : Option Nat × List Eff :=
  ((match r.1 with | .ok (a, _) => some a.peers.length | .error _ => none), r.2)

set_option maxRecDepth 20000 in
example : view (exchange Toy.crypto disk env opts) = (some 2,
    [.create "rosenpass0", .configure "rosenpass0" (List.replicate 32 1) (some 10000), .addIp "fe80::1/64" "rosenpass0", .route "fe80::/64" "rosenpass0"]) ∧
    wgWords env.display alice = ["endpoint", "10.0.0.1:10000", "persistent-keepalive", "25", "allowed-ips", "fe80::/64"] := by
  refine ⟨by decide +kernel, by decide +kernel⟩

set_option maxRecDepth 20000 in
/-- a WireGuard key file that ends in a newline, as `wg pubkey` writes it, is refused -/
example : NativeUnix.peerIdB64 (txt "Zm9v\n") = none := by decide +kernel

end Demo
end Verif.RpExchange
