import Verif.Thm.Device
import Verif.Thm.Published
/-
C140: the preshared key of the WireGuard device is the key that the protocol server holds. Composition of C134 (what the daemon has put out) and C130 (how it gets into the device).
No new model.
-/
namespace Verif.Device
open Broker Broker.Client App

/-! ### The last key -/

theorem lastPsk_append (b : Nat) (cfg : String) (l l' : List Output) : lastPsk b cfg (l ++ l') = (lastPsk b cfg l').or (lastPsk b cfg l) := by
  unfold lastPsk
  rw [List.filterMap_append, List.getLast?_append]

theorem lastPsk_none {b : Nat} {cfg : String} {out : List Output} (h : lastPsk b cfg out = none) (key : Bytes) : .psk b cfg key ∉ out := by
  intro hm
  unfold lastPsk at h
  rw [List.getLast?_eq_none_iff] at h
  have := List.filterMap_eq_nil_iff.mp h _ hm
  simp at this

/-- the last key for the peer, and what was put out afterwards -/
theorem lastPsk_some {b : Nat} {cfg : String} {key : Bytes} : ∀ {out : List Output}, lastPsk b cfg out = some key →
    ∃ l l', out = l ++ .psk b cfg key :: l' ∧ ∀ key', .psk b cfg key' ∉ l'
  | [], h => by cases h
  | x :: out, h => by
    have e := lastPsk_append b cfg [x] out
    rw [List.singleton_append] at e
    rw [e] at h
    cases hl : lastPsk b cfg out with
    | some k =>
      rw [hl] at h
      cases h
      obtain ⟨l, l', h1, h2⟩ := lastPsk_some hl
      exact ⟨x :: l, l', by rw [h1]; rfl, h2⟩
    | none =>
      rw [hl, Option.none_or] at h
      cases x with
      | psk b' c' k =>
        unfold lastPsk at h
        by_cases g : b' = b ∧ c' = cfg
        · obtain ⟨rfl, rfl⟩ := g
          have hk : k = key := by simpa using h
          subst hk
          exact ⟨[], out, rfl, lastPsk_none hl⟩
        · simp [g] at h
      | datagram s a m => simp [lastPsk] at h
      | line p f r => simp [lastPsk] at h

theorem device_shows {b : Nat} {wg : String → Bytes × Bytes} {out : List Output} {k0 k : Kernel} {cfg : String} {key : Bytes} (hc : Carried b wg out k0 k)
    (hu : Broker.utf8 (wg cfg).1 = true) (hd : (pskOf k0 (wg cfg).1 (wg cfg).2).isSome) (hw : ∀ cfg' key', .psk b cfg' key' ∈ out → wg cfg' = wg cfg → cfg' = cfg)
    (hl : lastPsk b cfg out = some key) : pskOf k (wg cfg).1 (wg cfg).2 = some key := by
  obtain ⟨l, l', rfl, h2⟩ := lastPsk_some hl
  refine device_holds_last_key hc hu hd ?_
  intro cfg' key' hm he
  have := hw cfg' key' (List.mem_append_right _ (List.mem_cons_of_mem _ hm)) he
  subst this
  exact absurd hm (h2 key')

theorem device_unchanged {b : Nat} {wg : String → Bytes × Bytes} {out : List Output} {k0 k : Kernel} {cfg : String} (hc : Carried b wg out k0 k)
    (hu : Broker.utf8 (wg cfg).1 = true) (hw : ∀ cfg' key', .psk b cfg' key' ∈ out → wg cfg' = wg cfg → cfg' = cfg)
    (hl : lastPsk b cfg out = none) : pskOf k (wg cfg).1 (wg cfg).2 = pskOf k0 (wg cfg).1 (wg cfg).2 := by
  refine device_others_kept hc _ _ hu ?_
  intro cfg' key' hm he
  have := hw cfg' key' hm (he.trans rfl)
  subst this
  exact lastPsk_none hl key' hm

/-! ### C140 -/

/-- **C140**, the part that holds. A daemon that starts without sessions runs for any number of rounds in which its I/O works and no authentic RespHello or InitConf arrives that
is refused; the broker client and the privileged broker have worked off what it put out (`Carried`). Then, for every peer with a WireGuard peer of its own that exists in the device: if the
protocol server holds a key for the peer, the device has that key as the preshared key; if it holds none, the device has the preshared key it had at the start, or a random key. -/
theorem device_key_is_current_partial {C : Crypto} (L : C.Lawful) {a0 : App} (R : Ready C a0) (S : Separate a0) (h0 : ∀ s i k, a0.site = .product s → s.osk C i ≠ .ok k)
    (es : List World) (hw : ∀ e ∈ es, e.WF C ∧ Works e) (hu : AllUntampered C a0 es) :
    let a := (played C a0 es).1
    let out := (played C a0 es).2
    ∀ (s : Server) (i : Nat) (ap : AppPeer) ptr cfg br, a.site = .product s → a.peers[i]? = some ap → ap.broker = some (ptr, cfg) → a.brokers.store.lookup ptr = some br →
      ∀ (wg : String → Bytes × Bytes) (k0 k : Kernel), (∀ cfg' key, .psk br.name cfg' key ∈ out → wg cfg' = wg cfg → cfg' = cfg) → Broker.utf8 (wg cfg).1 = true →
      (pskOf k0 (wg cfg).1 (wg cfg).2).isSome → Nonempty (Carried br.name wg out k0 k) →
      (∀ key, s.osk C i = .ok key → pskOf k (wg cfg).1 (wg cfg).2 = some key) ∧
      ((∀ key, s.osk C i ≠ .ok key) → pskOf k (wg cfg).1 (wg cfg).2 = pskOf k0 (wg cfg).1 (wg cfg).2 ∨ ∃ e ∈ es, pskOf k (wg cfg).1 (wg cfg).2 = some e.stale) := by
  intro a out s i ap ptr cfg br hs hp hb hl wg k0 k hwg hut hd ⟨hc⟩
  obtain ⟨p1, p2⟩ := published_key_is_current_partial L R S h0 es hw hu s i ap hs hp
  refine ⟨fun key hk => device_shows hc hut hd hwg ((p1 key hk).psk ptr cfg br hb hl), fun hn => ?_⟩
  rcases p2 hn with h | ⟨e, he, h⟩
  · exact .inl (device_unchanged hc hut hwg (h.psk ptr cfg br hb hl))
  · exact .inr ⟨e, he, device_shows hc hut hd hwg (h.psk ptr cfg br hb hl)⟩

open App.Ex Device.Ex Broker.Ex in
/-- **C140 is false as stated.** After the run of `tampered_message_hides_key` the responder's protocol server holds the key which the initiator has put out, but however its outputs
get to the device, every preshared key there is the one that was there at the start. -/
theorem tampered_message_keeps_old_device_key : ∃ k, (r3.app.fs "key").map (·.content) = some (FileIO.b64Enc k) ∧ (srv (played Toy.crypto dB [e2, t4, t5]).1).osk Toy.crypto 0 = .ok k ∧
    ∀ wg k0 kd, Nonempty (Carried 7 wg (played Toy.crypto dB [e2, t4, t5]).2 k0 kd) → ∀ i p, Broker.utf8 i = true → pskOf kd i p = pskOf k0 i p := by
  obtain ⟨k, h1, h2, -, -, -, -, h3, -, -⟩ := tampered_message_hides_key
  refine ⟨k, h1, by rw [h2]; exact h3, ?_⟩
  rintro wg k0 kd ⟨hc⟩ i p hi
  refine device_others_kept hc i p hi ?_
  intro cfg key hm
  have : ((played Toy.crypto dB [e2, t4, t5]).2.all fun x => match x with | .psk _ _ _ => false | _ => true) = true := by decide +kernel
  have := List.all_eq_true.mp this _ hm
  cases this

open App.Ex Device.Ex Broker.Ex in
/-- C140: the outputs of the initiator in the exchange of C97 get to the device (the other hypotheses: see C134), where the key is not the one from the start -/
example : ∃ k, Nonempty (Carried 7 (fun _ => (cfg.iface, cfg.peerId)) (played Toy.crypto dA [e1, e3]).2 dev k) ∧
    (dA.peers.map (·.broker) = [some (0, "wg0")] ∧ (dA.brokers.store.lookup 0).map (·.name) = some 7) ∧
    (∀ cfg' key, .psk 7 cfg' key ∈ (played Toy.crypto dA [e1, e3]).2 → cfg' = "wg0") ∧
    Broker.utf8 cfg.iface = true ∧ pskOf dev cfg.iface cfg.peerId = some (List.replicate 32 0) ∧
    ∃ key, lastPsk 7 "wg0" (played Toy.crypto dA [e1, e3]).2 = some key ∧ key ≠ List.replicate 32 0 ∧ (srv (played Toy.crypto dA [e1, e3]).1).osk Toy.crypto 0 = .ok key := by
  obtain ⟨k, hk⟩ := carried_of (l := (played Toy.crypto dA [e1, e3]).2) (by decide +kernel)
  have h1 : (match (srv (played Toy.crypto dA [e1, e3]).1).osk Toy.crypto 0 with
    | .ok key => decide (lastPsk 7 "wg0" (played Toy.crypto dA [e1, e3]).2 = some key) && decide (key ≠ List.replicate 32 0) | .error _ => false) = true := by decide +kernel
  refine ⟨k, hk, ⟨by decide +kernel, by decide +kernel⟩, ?_, by decide +kernel, by decide +kernel, ?_⟩
  · intro cfg' key hm
    have h2 : ((played Toy.crypto dA [e1, e3]).2.all fun x => match x with | .psk _ c _ => decide (c = "wg0") | _ => true) = true := by decide +kernel
    exact of_decide_eq_true (List.all_eq_true.mp h2 _ hm)
  · split at h1
    · rename_i key hkey
      simp only [Bool.and_eq_true, decide_eq_true_eq] at h1
      exact ⟨key, h1.1, h1.2, hkey⟩
    · cases h1

end Verif.Device
