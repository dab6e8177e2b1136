import Verif.Thm.AppLoop
/-
Concrete applications: they meet the hypotheses of the theorems C47, C51 and C69, and show what happens
when output fails.
-/
namespace Verif
open Server FileIO
namespace App

namespace Ex
open Verif.Ex

/-- an application whose peer has an output file and a broker, and whose protocol server is `s` -/
def app (s : Server) : App :=
  { site := .product s, nsock := 1, peers := [⟨some "key", some (0, "wg0"), none, none⟩],
    brokers := ⟨[(0, ⟨7, some 2⟩)], [(2, 0)], 3⟩, fs := fun _ => none }

theorem app_site (s : Server) : (app s).site = .product s := rfl

theorem app_reach {s : Server} (h : Reachable Toy.crypto s) : ∀ t, (app s).site = .product t → Reachable Toy.crypto t := by
  intro t ht; rw [app_site] at ht; cases ht; exact h

/-- a round at time `t` in which `io` is received and all I/O succeeds -/
def world (t : Time) (io : IoEvent) : World :=
  { now := t, prnd := Verif.Ex.prnd, later := t, rnd := fun _ => rnd 40, rnd0 := rnd 40, tx := buf, io := io, load := false, sendTo := true,
    scout := fun _ _ => true, stale := List.replicate 32 9, umask := 0o022, openOk := true, writes := [.ok 44], lineOk := true, pskOk := true }

theorem world_WF (t : Time) (io : IoEvent) : (world t io).WF Toy.crypto :=
  ⟨⟨fun _ => ⟨rfl, rfl⟩, by show 12345 < 2 ^ 53; decide⟩, fun _ => rnd_WF 40, rnd_WF 40, rfl⟩

theorem _root_.Verif.World.WF.openFails {e : World} (h : e.WF Toy.crypto) : World.WF Toy.crypto { e with openOk := false } := ⟨h.1, h.2, h.3, h.4⟩
theorem _root_.Verif.World.WF.sendFails {e : World} (h : e.WF Toy.crypto) : World.WF Toy.crypto { e with sendTo := false } := ⟨h.1, h.2, h.3, h.4⟩

/-- the responder after it sent RespHello and was polled once -/
def b1 : Server := (B1 .v03).step Toy.crypto (.poll 2 Verif.Ex.prnd)

theorem b1_reach : Reachable Toy.crypto b1 := .step _ _ (B1_reach .v03) ⟨fun _ => ⟨rfl, rfl⟩, by show 12345 < 2 ^ 53; decide⟩

/-- the address of the initiator -/
def addr : Addr := .v4 [10, 0, 0, 1] 9999

/-- the round in which InitConf is received -/
def conf : World := world 3 (.msg (m3 .v03) 0 addr)

/-- observations of a step that can be computed -/
def view (r : Res) : Fate × List Output × Option File := (r.fate, r.out, r.app.fs "key")

/-- the key of a call of `osk` -/
def keyOf (x : Except Err Bytes) : Bytes := match x with | .ok k => k | .error _ => []

def isOk (x : Except Err Bytes) : Bool := match x with | .ok _ => true | .error _ => false

theorem keyOf_ok {x : Except Err Bytes} (h : isOk x = true) : x = .ok (keyOf x) := by
  cases x with
  | ok k => rfl
  | error e => cases h

/-- a round without key event -/
def quiet (a : App) (e : World) : Bool :=
  match a.site with
  | .product s => (match s.poll e.now e.prnd with
    | some (.deleteKey _, _) => false
    | some (.sleep _, s1) => (match e.io with
      | .msg rx sock ad => (match (e.receive rx sock ad).result Toy.crypto s1 with
        | .ok m => m.exchanged.isNone
        | .error _ => true)
      | _ => true)
    | _ => true)
  | _ => true

theorem quiet_spec {a : App} {e : World} (h : quiet a e = true) (p : Nat) (why : Reason) (k : Bytes) : ¬ KeyEvent Toy.crypto a e p why k := by
  intro hk
  cases hk with
  | stale s s1 _ h1 h2 =>
    unfold quiet at h
    rw [h1] at h
    dsimp only at h
    rw [h2] at h
    cases h
  | exchanged s s1 t rx sock ad _ m _ h1 h2 h3 h4 h5 =>
    unfold quiet at h
    rw [h1] at h
    dsimp only at h
    rw [h2] at h
    dsimp only at h
    rw [h3] at h
    dsimp only at h
    rw [h4] at h
    cases h

/-- what a call of the server reports -/
def exchangedOf (x : Except Err MsgResult) : Option (Option Nat × Bool) := match x with | .ok m => some (m.exchanged, m.resp.isSome) | .error _ => none

end Ex

open Ex in
/-- C51: the hypotheses are met: InitConf is received, the key is exchanged, written, announced and handed
to the broker, and the answer is sent -/
example : (app b1).Aligned ∧ (app b1).BrokersPresent ∧ (view ((app b1).step Toy.crypto conf)).1 = .next ∧
    (view ((app b1).step Toy.crypto conf)).2.1.length = 3 ∧
    ((view ((app b1).step Toy.crypto conf)).2.1.filter Output.isKey).length = 2 ∧
    (view ((app b1).step Toy.crypto conf)).2.2.isSome := by
  refine ⟨?_, ?_, ?_, ?_, ?_, ?_⟩
  · show b1.peers.length = 1; decide +kernel
  · intro ap hap ptr cfg h
    simp only [app, List.mem_singleton] at hap
    subst hap
    cases h
    rfl
  all_goals decide +kernel

variable {C : Crypto}

/-- no session, no expiry -/
theorem no_session_no_stale (a : App) (s : Server) (hs : a.site = .product s) (p : Nat) (q : Peer) (hq : s.peers[p]? = some q) (hn : q.session = none)
    (e : World) (k : Bytes) : ¬ KeyEvent C a e p .stale k := by
  intro h
  cases h with
  | stale s' s1 _ h1 h2 =>
    rw [hs] at h1; cases h1
    obtain ⟨⟨p', q', hq', hd⟩, -⟩ := (poll_exact h2).1 rfl
    cases hd with
    | deleteKey x hx _ => rw [hq] at hq'; cases hq'; rw [hn] at hx; cases hx

/-- **C51**: when the expiry of a peer's key is reported but the output fails (here: the file cannot be opened),
nothing is output, not even to the broker, the session is deleted nevertheless, and the expiry is not
reported again while there is no new session, whatever happens. -/
theorem failed_erase_not_repeated (L : C.Lawful) (a : App) (hr : ∀ s, a.site = .product s → Reachable C s) (e : World) (he : e.WF C) (p : Nat) (k : Bytes)
    (hk : KeyEvent C a e p .stale k) (ap : AppPeer) (hap : a.peers[p]? = some ap) (hfile : ap.outfile.isSome) (hopen : e.openOk = false) :
    (a.step C e).fate = .error ∧ (a.step C e).out = [] ∧ (a.step C e).app.fs = a.fs ∧
    (∃ s q, (a.step C e).app.site = .product s ∧ s.peers[p]? = some q ∧ q.session = none) ∧
    ∀ e' k', ¬ KeyEvent C (a.step C e).app e' p .stale k' := by
  obtain ⟨file, hfile⟩ := Option.isSome_iff_exists.mp hfile
  cases hk with
  | stale s s1 _ h1 h2 =>
    obtain ⟨⟨p', q, hq, hd⟩, hn⟩ := (poll_exact h2).1 rfl
    have hpp : p' = p := by cases hd; rfl
    subst hpp
    obtain ⟨q', hq', hE⟩ := poll_effect h2 hq
    have hq'n : q'.session = none := by
      rcases hE.session with h | h
      · exfalso
        cases hd with
        | deleteKey x hx ht => exact ((hn (.deleteKey p')).mp ⟨p', q', hq', .deleteKey x (h.trans hx) ht⟩).2 rfl
      · exact h.2
    have hstep : a.step C e = ⟨.error, { a with site := .product s1 }, []⟩ := by
      unfold step
      rw [h1]
      dsimp only
      rw [h2]
      dsimp only
      unfold deleteKey outputKey
      dsimp only [Site.productRef]
      rw [hq', hap]
      dsimp only
      rw [hfile]
      dsimp only
      unfold storeKey
      rw [if_neg (by rw [hopen]; simp)]
      simp [Res.andThen]
    rw [hstep]
    exact ⟨rfl, rfl, rfl, ⟨s1, q', rfl, hq', hq'n⟩, fun e' k' => no_session_no_stale _ s1 rfl p' q' hq' hq'n e' k'⟩

namespace Ex
open Verif.Ex

/-- the responder when its session has expired -/
theorem stale_event : KeyEvent Toy.crypto (app (B2 .v03)) { world (secs 200) .none with openOk := false } 0 .stale (List.replicate 32 9) := by
  have h : ((B2 .v03).poll (secs 200) Verif.Ex.prnd).map (·.1) = some (.deleteKey 0) := by decide +kernel
  obtain ⟨⟨c, s1⟩, hx, hc⟩ := Option.map_eq_some_iff.mp h
  dsimp only at hc
  subst hc
  exact .stale (B2 .v03) s1 0 (app_site _) hx

/-- the round in which InitConf is received but the answer cannot be sent -/
def confLost : World := { conf with sendTo := false }

theorem confLost_WF : confLost.WF Toy.crypto := (world_WF 3 (.msg (m3 .v03) 0 addr)).sendFails

theorem exchange_event (e : World) (he : ∀ rx sock ad, e.receive rx sock ad = conf.receive rx sock ad) (h1' : e.now = 3) (h2' : e.prnd = Verif.Ex.prnd)
    (h3' : e.io = .msg (m3 .v03) 0 addr) : ∃ k, KeyEvent Toy.crypto (app b1) e 0 .exchanged k := by
  have h1 : (b1.poll 3 Verif.Ex.prnd).map (fun x => (match x.1 with | .sleep _ => true | _ => false)) = some true := by decide +kernel
  obtain ⟨⟨c, s1⟩, hx, hc⟩ := Option.map_eq_some_iff.mp h1
  dsimp only at hc
  obtain ⟨t, rfl⟩ : ∃ t, c = .sleep t := by cases c <;> first | exact ⟨_, rfl⟩ | cases hc
  have hs1 : s1 = b1.step Toy.crypto (.poll 3 Verif.Ex.prnd) := by unfold Server.step; dsimp only; rw [hx]
  have h2 : exchangedOf ((conf.receive (m3 .v03) 0 addr).result Toy.crypto s1) = some (some 0, true) := by rw [hs1]; decide +kernel
  have h3 : isOk ((s1.step Toy.crypto (conf.receive (m3 .v03) 0 addr)).osk Toy.crypto 0) = true := by rw [hs1]; decide +kernel
  cases hres : (conf.receive (m3 .v03) 0 addr).result Toy.crypto s1 with
  | error x => rw [hres] at h2; cases h2
  | ok m =>
    rw [hres] at h2
    obtain ⟨ex, resp⟩ := m
    simp only [exchangedOf, Option.some.injEq, Prod.mk.injEq] at h2
    obtain ⟨rfl, -⟩ := h2
    obtain ⟨k, hk⟩ : ∃ k, (s1.step Toy.crypto (conf.receive (m3 .v03) 0 addr)).osk Toy.crypto 0 = .ok k := ⟨_, keyOf_ok h3⟩
    refine ⟨k, .exchanged b1 s1 t (m3 .v03) 0 addr 0 resp k (app_site b1) ?_ h3' ?_ ?_⟩
    · rw [h1', h2']; exact hx
    · rw [he]; exact hres
    · rw [he]; exact hk

end Ex

open Ex in
/-- **C51** fails when the answer to the message that completes an exchange cannot be sent: the key is exchanged,
but neither written nor handed to the broker; and when the initiator retransmits its message (and everything
works), the exchange is not reported again, so this key is never output. -/
theorem undelivered_answer_loses_key : ∃ (a : App) (e1 e2 : World), (∀ s, a.site = .product s → Reachable Toy.crypto s) ∧ a.Aligned ∧ a.BrokersPresent ∧
    e1.WF Toy.crypto ∧ e2.WF Toy.crypto ∧ e1.io = e2.io ∧ (∃ k, KeyEvent Toy.crypto a e1 0 .exchanged k) ∧
    (a.step Toy.crypto e1).fate = .error ∧ (a.step Toy.crypto e1).out = [] ∧ (a.step Toy.crypto e1).app.fs "key" = none ∧
    (∀ p why k, ¬ KeyEvent Toy.crypto (a.step Toy.crypto e1).app e2 p why k) ∧
    ((a.step Toy.crypto e1).app.step Toy.crypto e2).fate = .next ∧
    ((a.step Toy.crypto e1).app.step Toy.crypto e2).out.length = 1 ∧
    ((a.step Toy.crypto e1).app.step Toy.crypto e2).out.filter Output.isKey = [] ∧
    ((a.step Toy.crypto e1).app.step Toy.crypto e2).app.fs "key" = none := by
  have v1 : view ((app b1).step Toy.crypto confLost) = (.error, [], none) := by decide +kernel
  simp only [view, Prod.mk.injEq] at v1
  have v2 : (view (((app b1).step Toy.crypto confLost).app.step Toy.crypto conf)).1 = .next ∧
    (view (((app b1).step Toy.crypto confLost).app.step Toy.crypto conf)).2.1.length = 1 ∧
    (view (((app b1).step Toy.crypto confLost).app.step Toy.crypto conf)).2.1.filter Output.isKey = [] ∧
    (view (((app b1).step Toy.crypto confLost).app.step Toy.crypto conf)).2.2 = none := by decide +kernel
  simp only [view] at v2
  have hq : quiet ((app b1).step Toy.crypto confLost).app conf = true := by decide +kernel
  refine ⟨app b1, confLost, conf, app_reach b1_reach, ?_, ?_, confLost_WF, world_WF _ _, rfl,
    exchange_event _ (fun _ _ _ => rfl) rfl rfl rfl, v1.1, v1.2.1, v1.2.2, quiet_spec hq, v2⟩
  · show b1.peers.length = 1; decide +kernel
  · intro ap hap ptr cfg h
    simp only [app, List.mem_singleton] at hap
    subst hap
    cases h
    rfl

open Ex in
/-- C51: the hypotheses of `failed_erase_not_repeated` are met -/
example : ∃ a e, (∀ s, a.site = .product s → Reachable Toy.crypto s) ∧ e.WF Toy.crypto ∧ KeyEvent Toy.crypto a e 0 .stale e.stale ∧
    (∃ ap, a.peers[0]? = some ap ∧ ap.outfile.isSome) ∧ e.openOk = false :=
  ⟨app (Verif.Ex.B2 .v03), { world (secs 200) .none with openOk := false }, app_reach (Verif.Ex.B2_reach .v03), (world_WF (secs 200) .none).openFails,
    stale_event, ⟨_, rfl, rfl⟩, rfl⟩

/-- **C69** fails when a broker that a peer uses is unregistered: the next key of this peer, be it exchanged or
expired, makes the event loop panic (even if all I/O succeeds). -/
theorem unregistered_broker_panics (L : C.Lawful) (a : App) (hr : ∀ s, a.site = .product s → Reachable C s) (e : World) (he : e.WF C) (hal : a.Aligned)
    (p : Nat) (k : Bytes) (hk : KeyEvent C a e p .stale k) (ap : AppPeer) (hap : a.peers[p]? = some ap) (hf : ap.outfile = none) (ptr : Nat) (cfg : String)
    (hb : ap.broker = some (ptr, cfg)) (hgone : a.brokers.store.lookup ptr = none) : (a.step C e).fate = .panic := by
  cases hk with
  | stale s s1 _ h1 h2 =>
    obtain ⟨⟨p', q, hq, hd⟩, -⟩ := (poll_exact h2).1 rfl
    have hpp : p' = p := by cases hd; rfl
    subst hpp
    obtain ⟨q', hq', -⟩ := poll_effect h2 hq
    unfold step
    rw [h1]
    dsimp only
    rw [h2]
    dsimp only
    unfold deleteKey outputKey
    dsimp only [Site.productRef]
    rw [hq', hap]
    dsimp only
    rw [hf]
    simp [Res.andThen, setPsk, hap, hb, hgone]

open Ex in
/-- C69: such an application exists -/
example : ∃ (a : App) (e : World) (ptr : Nat), (∀ s, a.site = .product s → Reachable Toy.crypto s) ∧ e.WF Toy.crypto ∧ (∃ k, KeyEvent Toy.crypto a e 0 .stale k) ∧
    a.BrokersPresent ∧ ((a.apply Toy.crypto (.unregisterBroker ptr true)).step Toy.crypto e).fate = .panic := by
  refine ⟨{ app (Verif.Ex.B2 .v03) with peers := [⟨none, some (0, "wg0"), none, none⟩] }, { world (secs 200) .none with openOk := false }, 0,
    app_reach (Verif.Ex.B2_reach .v03), (world_WF _ _).openFails, ⟨List.replicate 32 9, ?_⟩, ?_, by decide +kernel⟩
  · cases stale_event with
    | stale s s1 _ h1 h2 => exact .stale s s1 0 h1 h2
  · intro ap hap ptr cfg h
    simp only [List.mem_singleton] at hap
    subst hap
    cases h
    rfl

open Ex in
/-- C47: eleven InitHellos whose answers cannot be delivered stop the responder, although a round succeeds
between any two of them -/
example : ((app (Verif.Ex.B0 .v03)).loop Toy.crypto 0 (List.replicate 11 [world 1 .none, { world 1 (.msg (Verif.Ex.m1 .v03) 0 addr) with sendTo := false }]).flatten).1 = .gaveUp := by
  decide +kernel

end App
end Verif
