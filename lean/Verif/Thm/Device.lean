import Verif.Thm.BrokerClient
import Verif.Thm.EndToEnd
/-
C130: from the key that two daemons have agreed on to the preshared keys of their WireGuard devices. Composition of the outputs of the daemon (C51, C97, C112), of the broker client
(C74), of the privileged broker process (C77) and of the netlink broker (C44). No new model.
-/
namespace Verif.Device
open Broker Broker.Client

/-! ### Specification -/

/-- the preshared key that the device has for peer `p` of interface `i`; `none`: there is no such peer -/
def pskOf (k : Kernel) (i p : Bytes) : Option Bytes := (k i).bind (fun peers => peers p)

/-- What the outputs of a daemon ask of the broker with name `b`; `wg` says which interface and which of its peers a broker configuration names. -/
def keysFor (b : Nat) (wg : String → Bytes × Bytes) : List Output → List Cfg
  | [] => []
  | .psk b' cfg key :: l => if b' = b then ⟨(wg cfg).1, (wg cfg).2, key⟩ :: keysFor b wg l else keysFor b wg l
  | _ :: l => keysFor b wg l

/-- the calls of `set_psk` among the calls on a broker client -/
def sets : List Client.Op → List Cfg
  | [] => []
  | .setPsk c _ :: l => c :: sets l
  | _ :: l => sets l

/-- The device was in state `k0`, and is in state `k` after the daemon with the outputs `outs` has passed them to its broker client, whatever the socket did and whatever was polled
meanwhile: the calls reported success, all bytes are written, and the privileged broker has worked them off, where netlink works and nobody else changes the keys. -/
structure Carried (b : Nat) (wg : String → Bytes × Bytes) (outs : List Output) (k0 k : Kernel) where
  client : Client
  ops : List Client.Op
  env : NlEnv
  new : Client.new = .ok client
  wf : ∀ o ∈ ops, o.WF
  told : sets ops = keysFor b wg outs
  success : ∀ cfg r q, Seen.set cfg r q ∈ (client.run ops).1 → r = .ok ()
  written : (client.run ops).2.left = []
  quiet : env.Quiet
  works : env.getFails = false ∧ env.setFails = false
  served : k = (serve (netlink env) k0 (client.run ops).2.out).state

/-! ### The client and the privileged broker -/

theorem queued_sets (ops : List Client.Op) : ∀ (c : Client), (∀ cfg r q, Seen.set cfg r q ∈ (c.run ops).1 → r = .ok () ∧ q = true) → queued (c.run ops).1 = sets ops := by
  induction ops with
  | nil => intro c _; rfl
  | cons o os ih =>
    intro c h
    have h' := ih (c.step o).2 (fun cfg r q hm => h cfg r q (List.mem_cons_of_mem _ hm))
    cases o with
    | setPsk cfg w =>
      have hq := (h cfg _ _ List.mem_cons_self).2
      show queued (Seen.set cfg _ (c.setPsk cfg w).2.1 :: _) = cfg :: sets os
      rw [hq]
      exact congrArg (cfg :: ·) h'
    | poll w => exact h'
    | arrive b => exact h'

theorem carried_applied {b : Nat} {wg : String → Bytes × Bytes} {outs : List Output} {k0 k : Kernel} (h : Carried b wg outs k0 k) :
    k = applyAll (netlink h.env) k0 (keysFor b wg outs) := by
  obtain ⟨c0, hn, hi, -, -, -⟩ := Client.new_spec
  have e : c0 = h.client := by have := h.new; rw [hn] at this; cases this; rfl
  subst e
  obtain ⟨ms, g1, g2, g3⟩ := Client.run_inv h.ops hi h.wf
  rw [List.nil_append] at g1
  rw [queued_sets h.ops _ (fun cfg r q hm => ⟨h.success cfg r q hm, (g3 cfg r q hm).2 (h.success cfg r q hm)⟩), h.told] at g2
  have hs := g1.stream
  rw [h.written, List.append_nil] at hs
  have hsz : ∀ m ∈ ms, m.length ≤ 324 := by
    intro m hm
    obtain ⟨x, _, hx⟩ := forall₂_left g2 m hm
    exact Nat.le_of_eq hx.fields.1
  have hp := privileged_in_order (netlink h.env) ms k0 [] hsz
  rw [List.append_nil] at hp
  have hk := h.served
  rw [hs, hp] at hk
  exact hk.trans (handleAll_requests (netlink h.env) g2 k0).1

/-! ### The device -/

theorem keySet_psk {k k' : Kernel} {c : Cfg} (h : KeySet k k' c) (i p : Bytes) :
    pskOf k' i p = if c.iface = i ∧ c.peerId = p then some c.psk else pskOf k i p := by
  obtain ⟨peers, old, h1, h2, ⟨peers', h3, h4, h5⟩, h6⟩ := h
  unfold pskOf
  by_cases hi : c.iface = i
  · subst hi
    rw [h3, h1]
    by_cases hp : c.peerId = p
    · subst hp
      rw [if_pos ⟨rfl, rfl⟩]; exact h4
    · rw [if_neg (fun x => hp x.2)]
      exact h5 p (fun x => hp x.symm)
  · rw [if_neg (fun x => hi x.1), h6 i (fun x => hi x.symm)]

theorem set_one {e : NlEnv} (hq : e.Quiet) (hw : e.getFails = false ∧ e.setFails = false) (k : Kernel) (c : Cfg) (i p : Bytes) (hu : utf8 i = true) :
    pskOf (netlink e k c).2 i p = if c.iface = i ∧ c.peerId = p ∧ (pskOf k i p).isSome then some c.psk else pskOf k i p := by
  rcases netlink_result_partial e hq k c with ⟨-, h⟩ | ⟨-, h, peers, h1, h2⟩ | ⟨-, h, h1⟩
  · rw [keySet_psk h]
    by_cases g : c.iface = i ∧ c.peerId = p
    · obtain ⟨peers, old, h1, h2, -⟩ := h
      have : (pskOf k i p).isSome := by unfold pskOf; rw [← g.1, h1, ← g.2]; show (peers c.peerId).isSome = true; rw [h2]; rfl
      rw [if_pos g, if_pos ⟨g.1, g.2, this⟩]
    · rw [if_neg g, if_neg (fun x => g ⟨x.1, x.2.1⟩)]
  · rw [h, if_neg]
    rintro ⟨rfl, rfl, hs⟩
    unfold pskOf at hs
    rw [h1] at hs
    change (peers c.peerId).isSome = true at hs
    rw [h2] at hs; cases hs
  · rw [h, if_neg]
    rintro ⟨rfl, rfl, hs⟩
    rcases h1 with h1 | h1 | h1 | h1
    · rw [hu] at h1; cases h1
    · rw [hw.1] at h1; cases h1
    · rw [hw.2] at h1; cases h1
    · unfold pskOf at hs; rw [h1] at hs; cases hs

theorem applyAll_append {σ : Type} (inner : Inner σ) (s : σ) (a b : List Cfg) : applyAll inner s (a ++ b) = applyAll inner (applyAll inner s a) b := List.foldl_append ..

theorem set_some {e : NlEnv} (hq : e.Quiet) (hw : e.getFails = false ∧ e.setFails = false) (i p : Bytes) (hu : utf8 i = true) (cs : List Cfg) : ∀ k : Kernel,
    (pskOf (applyAll (netlink e) k cs) i p).isSome = (pskOf k i p).isSome := by
  induction cs with
  | nil => intro k; rfl
  | cons c cs ih =>
    intro k
    show (pskOf (applyAll (netlink e) (netlink e k c).2 cs) i p).isSome = _
    rw [ih, set_one hq hw k c i p hu]
    split
    · rename_i g; rw [g.2.2]; rfl
    · rfl

/-- a key stays as long as only the same one is set -/
theorem set_same {e : NlEnv} (hq : e.Quiet) (hw : e.getFails = false ∧ e.setFails = false) (i p key : Bytes) (hu : utf8 i = true) (cs : List Cfg)
    (hc : ∀ c ∈ cs, c.iface = i → c.peerId = p → c.psk = key) : ∀ k : Kernel, pskOf k i p = some key → pskOf (applyAll (netlink e) k cs) i p = some key := by
  induction cs with
  | nil => intro k hk; exact hk
  | cons c cs ih =>
    intro k hk
    refine ih (fun x hx => hc x (List.mem_cons_of_mem _ hx)) (netlink e k c).2 ?_
    rw [set_one hq hw k c i p hu]
    split
    · rename_i g; rw [hc c List.mem_cons_self g.1 g.2.1]
    · exact hk

theorem set_none {e : NlEnv} (hq : e.Quiet) (hw : e.getFails = false ∧ e.setFails = false) (i p : Bytes) (hu : utf8 i = true) (cs : List Cfg)
    (hc : ∀ c ∈ cs, ¬ (c.iface = i ∧ c.peerId = p)) : ∀ k : Kernel, pskOf (applyAll (netlink e) k cs) i p = pskOf k i p := by
  induction cs with
  | nil => intro k; rfl
  | cons c cs ih =>
    intro k
    refine (ih (fun x hx => hc x (List.mem_cons_of_mem _ hx)) (netlink e k c).2).trans ?_
    rw [set_one hq hw k c i p hu, if_neg (fun x => hc c List.mem_cons_self ⟨x.1, x.2.1⟩)]

theorem keysFor_append (b : Nat) (wg : String → Bytes × Bytes) (l l' : List Output) : keysFor b wg (l ++ l') = keysFor b wg l ++ keysFor b wg l' := by
  induction l with
  | nil => rfl
  | cons x l ih =>
    cases x with
    | psk b' cfg key =>
      simp only [List.cons_append, keysFor]
      split
      · rw [ih]; rfl
      · exact ih
    | datagram s a m => exact ih
    | line p f r => exact ih

theorem mem_keysFor {b : Nat} {wg : String → Bytes × Bytes} {l : List Output} {c : Cfg} (h : c ∈ keysFor b wg l) :
    ∃ cfg key, .psk b cfg key ∈ l ∧ c = ⟨(wg cfg).1, (wg cfg).2, key⟩ := by
  induction l with
  | nil => cases h
  | cons x l ih =>
    have next : c ∈ keysFor b wg l → ∃ cfg key, .psk b cfg key ∈ x :: l ∧ c = ⟨(wg cfg).1, (wg cfg).2, key⟩ := by
      intro h
      obtain ⟨cfg, key, h1, h2⟩ := ih h
      exact ⟨cfg, key, List.mem_cons_of_mem _ h1, h2⟩
    cases x with
    | psk b' cfg key =>
      simp only [keysFor] at h
      split at h
      · rename_i g; subst g
        rcases List.mem_cons.mp h with h | h
        · exact ⟨cfg, key, List.mem_cons_self, h⟩
        · exact next h
      · exact next h
    | datagram s a m => exact next h
    | line p f r => exact next h

/-! ### C130 -/

/-- **C130.** The device holds the key that the daemon put out last for the peer, … -/
theorem device_holds_last_key {b : Nat} {wg : String → Bytes × Bytes} {l l' : List Output} {k0 k : Kernel} {cfg : String} {key : Bytes}
    (h : Carried b wg (l ++ .psk b cfg key :: l') k0 k) (hu : utf8 (wg cfg).1 = true) (hd : (pskOf k0 (wg cfg).1 (wg cfg).2).isSome)
    (hl : ∀ cfg' key', .psk b cfg' key' ∈ l' → wg cfg' = wg cfg → key' = key) : pskOf k (wg cfg).1 (wg cfg).2 = some key := by
  rw [carried_applied h, keysFor_append, applyAll_append]
  have e : keysFor b wg (.psk b cfg key :: l') = ⟨(wg cfg).1, (wg cfg).2, key⟩ :: keysFor b wg l' := by rw [keysFor, if_pos rfl]
  rw [e]
  show pskOf (applyAll (netlink h.env) (netlink h.env (applyAll (netlink h.env) k0 (keysFor b wg l)) ⟨(wg cfg).1, (wg cfg).2, key⟩).2 (keysFor b wg l')) _ _ = _
  refine set_same h.quiet h.works _ _ key hu _ ?_ _ ?_
  · intro c hc h1 h2
    obtain ⟨cfg', key', hm, rfl⟩ := mem_keysFor hc
    exact hl cfg' key' hm (Prod.ext h1 h2)
  · rw [set_one h.quiet h.works _ _ _ _ hu, if_pos ⟨rfl, rfl, by rw [set_some h.quiet h.works _ _ hu]; exact hd⟩]

/-- … the keys of all other peers are left alone, … -/
theorem device_others_kept {b : Nat} {wg : String → Bytes × Bytes} {outs : List Output} {k0 k : Kernel} (h : Carried b wg outs k0 k) (i p : Bytes) (hu : utf8 i = true)
    (hn : ∀ cfg key, .psk b cfg key ∈ outs → wg cfg ≠ (i, p)) : pskOf k i p = pskOf k0 i p := by
  rw [carried_applied h]
  refine set_none h.quiet h.works i p hu _ ?_ k0
  rintro c hc ⟨h1, h2⟩
  obtain ⟨cfg, key, hm, rfl⟩ := mem_keysFor hc
  exact hn cfg key hm (Prod.ext h1 h2)

/-- … and no peer is added or removed. -/
theorem device_peers_kept {b : Nat} {wg : String → Bytes × Bytes} {outs : List Output} {k0 k : Kernel} (h : Carried b wg outs k0 k) (i p : Bytes) (hu : utf8 i = true) :
    (pskOf k i p).isSome = (pskOf k0 i p).isSome := by
  rw [carried_applied h]
  exact set_some h.quiet h.works i p hu _ k0

/-- The daemon `a` feeds the preshared key of peer `q` of interface `i` of its device, which is in state `k`, from its peer number `p`; the round with outcome `r` was the last
one in which it put out a key for it. -/
structure Feeds (a : App) (r : App.Res) (p : Nat) (i q : Bytes) (k : Kernel) : Prop where
  fed : ∃ ap ptr cfg br wg before after k0, a.peers[p]? = some ap ∧ ap.broker = some (ptr, cfg) ∧ a.brokers.store.lookup ptr = some br ∧ wg cfg = (i, q) ∧
    Nonempty (Carried br.name wg (before ++ r.out ++ after) k0 k) ∧ (pskOf k0 i q).isSome ∧ ∀ cfg' key, .psk br.name cfg' key ∈ after → wg cfg' ≠ (i, q)
  utf8 : Broker.utf8 i = true

theorem fed_key {a : App} {r : App.Res} {p : Nat} {i q : Bytes} {k : Kernel} (h : Feeds a r p i q k) {pid key : Bytes} {sock : Nat} {addr : Addr}
    (ho : App.PutOut a r p pid key sock addr) : pskOf k i q = some key := by
  obtain ⟨ap, ptr, cfg, br, wg, before, after, k0, h1, h2, h3, h4, ⟨hc⟩, h5, h6⟩ := h.fed
  obtain ⟨ap', g1, -, -, -, -, g2, g3⟩ := ho.entry
  rw [h1] at g1; cases g1
  have hm := g2 ptr cfg br h2 h3
  obtain ⟨x, y, hxy⟩ := List.append_of_mem hm
  rw [hxy] at hc
  have hi : (wg cfg).1 = i := by rw [h4]
  have hq : (wg cfg).2 = q := by rw [h4]
  have hc' : Carried br.name wg ((before ++ x) ++ .psk br.name cfg key :: (y ++ after)) k0 k := by
    have : before ++ (x ++ Output.psk br.name cfg key :: y) ++ after = (before ++ x) ++ Output.psk br.name cfg key :: (y ++ after) := by simp
    rw [← this]; exact hc
  have := device_holds_last_key hc' (by rw [hi]; exact h.utf8) (by rw [hi, hq]; exact h5) (by
    intro cfg' key' hm' hw
    rcases List.mem_append.mp hm' with hm' | hm'
    · exact g3 _ (by rw [hxy]; exact List.mem_append_right _ (List.mem_cons_of_mem _ hm')) _ _ _ rfl
    · exact absurd (hw.trans h4) (h6 cfg' key' hm'))
  rw [hi, hq] at this
  exact this

/-- **C130.** Two daemons that have put out the same key for each other, as they do at the end of an exchange (C97, C112), have it in both WireGuard devices. -/
theorem devices_agree {A B : App} {rA rB : App.Res} {pa pb : Nat} {iA qA iB qB : Bytes} {kA kB : Kernel} (hA : Feeds A rA pa iA qA kA) (hB : Feeds B rB pb iB qB kB)
    {pidA pidB key : Bytes} {sockA sockB : Nat} {addrA addrB : Addr} (oA : App.PutOut A rA pa pidB key sockA addrA) (oB : App.PutOut B rB pb pidA key sockB addrB) :
    pskOf kA iA qA = some key ∧ pskOf kB iB qB = some key := ⟨fed_key hA oA, fed_key hB oB⟩

/-! ### A concrete case -/
namespace Ex
open Broker.Ex

/-- the device has both peers -/
def dev : Kernel := fun i => if i = strBytes "wg0" then some (fun p => if p = cfg.peerId ∨ p = cfg2.peerId then some (List.replicate 32 0) else none) else none
def wg : String → Bytes × Bytes := fun s => if s = "x" then (cfg.iface, cfg.peerId) else (cfg2.iface, cfg2.peerId)
def outs : List Output := [.psk 5 "x" (List.replicate 32 3), .datagram 0 (.v4 [127, 0, 0, 1] 9) [], .psk 5 "x" cfg.psk, .psk 4 "x" [], .psk 5 "y" cfg2.psk]
def old : Cfg := { cfg with psk := List.replicate 32 3 }
/-- the first request goes out in pieces, with refusals; the last one is written when the client is polled, twice -/
def w0 : Client.World := ⟨[], [], [.ok 100], []⟩
def w1 : Client.World := ⟨[.ok 200], [.err .wouldBlock, .ok 400], [.ok 8, .ok 400], []⟩
def w2 : Client.World := ⟨[.ok 400], [.ok 400], [.ok 3], []⟩
def w3 : Client.World := ⟨[.ok 400, .ok 400], [.ok 400], [.ok 400], []⟩
def ops : List Client.Op := [.setPsk old w0, .setPsk cfg w1, .setPsk cfg2 w2, .poll w3, .poll w3]
def okSeen : Seen → Bool | .set _ r _ => Broker.Ex.okUnit r | .polled _ => true | .arrived _ => true

theorem okSeen_all {l : List Seen} (h : l.all okSeen = true) : ∀ cfg r q, Seen.set cfg r q ∈ l → r = .ok () := by
  intro cfg r q hm
  have := List.all_eq_true.mp h _ hm
  cases r with
  | ok u => rfl
  | error e => cases this

set_option maxRecDepth 20000 in
theorem carried : ∃ k, Nonempty (Carried 5 wg outs dev k) := by
  refine ⟨_, ⟨⟨_, ops, ⟨false, false, id⟩, rfl, ?_, ?_, okSeen_all ?_, ?_, fun _ => rfl, ⟨rfl, rfl⟩, rfl⟩⟩⟩
  · intro o ho
    simp only [ops, List.mem_cons, List.not_mem_nil, or_false] at ho
    rcases ho with rfl | rfl | rfl | rfl | rfl
    · exact ⟨rfl, rfl⟩
    · exact ⟨rfl, rfl⟩
    · exact ⟨rfl, rfl⟩
    · trivial
    · trivial
  · rfl
  · decide +kernel
  · decide +kernel

/-- both peers have their last keys -/
example : ∃ k, Nonempty (Carried 5 wg outs dev k) ∧ pskOf k cfg.iface cfg.peerId = some cfg.psk ∧ pskOf k cfg2.iface cfg2.peerId = some cfg2.psk := by
  obtain ⟨k, ⟨h⟩⟩ := carried
  refine ⟨k, ⟨h⟩, ?_, ?_⟩
  · exact device_holds_last_key (cfg := "x") (l := [.psk 5 "x" (List.replicate 32 3), .datagram 0 (.v4 [127, 0, 0, 1] 9) []]) (l' := [.psk 4 "x" [], .psk 5 "y" cfg2.psk]) h
      (by decide +kernel) (by decide +kernel) (by
      intro cfg' key' hm hw
      simp only [List.mem_cons, List.not_mem_nil, or_false, Output.psk.injEq] at hm
      rcases hm with ⟨h1, -⟩ | ⟨-, rfl, -⟩
      · cases h1
      · exact absurd hw (by decide))
  · exact device_holds_last_key (cfg := "y") (l := [.psk 5 "x" (List.replicate 32 3), .datagram 0 (.v4 [127, 0, 0, 1] 9) [], .psk 5 "x" cfg.psk, .psk 4 "x" []]) (l' := []) h
      (by decide +kernel) (by decide +kernel) (fun _ _ hm => nomatch hm)

/-- what a daemon with these outputs calls, when nothing is in the way -/
def calls (l : List Output) : List Client.Op := (keysFor 7 (fun _ => (cfg.iface, cfg.peerId)) l).map (fun c => .setPsk c w3) ++ [.poll w3, .poll w3]
def carriedB (l : List Output) : Bool := match Client.new with
  | .ok c => (c.run (calls l)).1.all okSeen && decide ((c.run (calls l)).2.left = []) && decide (sets (calls l) = keysFor 7 (fun _ => (cfg.iface, cfg.peerId)) l) &&
      (keysFor 7 (fun _ => (cfg.iface, cfg.peerId)) l).all (fun c => c.peerId.length == 32 && c.psk.length == 32)
  | .error _ => false

theorem carried_of {l : List Output} (h : carriedB l = true) : ∃ k, Nonempty (Carried 7 (fun _ => (cfg.iface, cfg.peerId)) l dev k) := by
  unfold carriedB at h
  split at h
  · rename_i c hc
    simp only [Bool.and_eq_true, decide_eq_true_eq] at h
    obtain ⟨⟨⟨h1, h2⟩, h3⟩, h4⟩ := h
    refine ⟨_, ⟨⟨c, calls l, ⟨false, false, id⟩, hc, ?_, h3, okSeen_all h1, h2, fun _ => rfl, ⟨rfl, rfl⟩, rfl⟩⟩⟩
    intro o ho
    rcases List.mem_append.mp ho with ho | ho
    · obtain ⟨x, hx, rfl⟩ := List.mem_map.mp ho
      have := List.all_eq_true.mp h4 x hx
      simp only [Bool.and_eq_true, beq_iff_eq] at this
      exact ⟨this.1, this.2⟩
    · simp only [List.mem_cons, List.not_mem_nil, or_false] at ho
      rcases ho with rfl | rfl <;> trivial
  · cases h

theorem feeds_of {a : App} {r : App.Res} (h : carriedB r.out = true) (ha : a.peers.map (·.broker) = [some (0, "wg0")]) (hb : (a.brokers.store.lookup 0).map (·.name) = some 7) :
    ∃ k, Feeds a r 0 cfg.iface cfg.peerId k := by
  obtain ⟨k, hk⟩ := carried_of h
  refine ⟨k, ⟨?_, by decide +kernel⟩⟩
  obtain ⟨br, hbr, hn⟩ := Option.map_eq_some_iff.mp hb
  cases hp : a.peers with
  | nil => rw [hp] at ha; cases ha
  | cons ap l =>
    rw [hp] at ha
    injection ha with ha _
    exact ⟨ap, 0, "wg0", br, fun _ => (cfg.iface, cfg.peerId), [], [], dev, rfl, ha, hbr, rfl, by rw [hn, List.nil_append, List.append_nil]; exact hk, by decide +kernel, nofun⟩

open App.Ex in
/-- The two daemons of the exchange of `daemons_agree` (C97), with their devices. -/
example : (∃ k, Feeds r1.app r3 0 cfg.iface cfg.peerId k) ∧ (∃ k, Feeds r2.app r4 0 cfg.iface cfg.peerId k) :=
  ⟨feeds_of (by decide +kernel) (by decide +kernel) (by decide +kernel), feeds_of (by decide +kernel) (by decide +kernel) (by decide +kernel)⟩

end Ex
end Verif.Device
