import Verif.Model.Endpoint
import Mathlib.Data.Nat.ModEq
/-
C52 (host identifications), C46 and C67 (host-path discovery), C68 (restarting discovery).
-/
namespace Verif

/-! ### C52 -/

/-- **Specification**: the 16-byte form of the address (IPv4 addresses in the IPv4-mapped form), the
port, and the scope (0 for IPv4). -/
def Addr.ip16 : Addr → Bytes
  | .v4 ip _ => [0, 0, 0, 0, 0, 0, 0, 0, 0, 0, 255, 255] ++ ip
  | .v6 ip _ _ _ => ip
def Addr.port : Addr → UInt16
  | .v4 _ p => p
  | .v6 _ p _ _ => p
def Addr.scope : Addr → UInt32
  | .v4 _ _ => 0
  | .v6 _ _ _ s => s

theorem toBE_length (len n : Nat) : (toBE len n).length = len := by simp [toBE, toLE_length]

theorem toBE_inj {len m n : Nat} (hm : m < 256 ^ len) (hn : n < 256 ^ len) (h : toBE len m = toBE len n) : m = n :=
  toLE_inj hm hn (List.reverse_inj.mp h)

theorem putSlice_zeros (pre x : Bytes) (k : Nat) (h : x.length ≤ k) :
    putSlice (pre ++ List.replicate k 0) pre.length x = (pre ++ x) ++ List.replicate (k - x.length) 0 := by
  unfold putSlice
  rw [List.take_left, List.drop_append, List.drop_eq_nil_of_le (by omega)]
  simp

theorem hostId_eq (socket : Nat) (a : Addr) (ha : a.WF) :
    hostId socket a = toBE 8 socket ++ a.ip16 ++ toBE 2 a.port.toNat ++ toBE 4 a.scope.toNat := by
  have key : ∀ (ip : Bytes) (port : UInt16) (scope : UInt32), ip.length = 16 →
      (putSlice (putSlice (putSlice (putSlice (List.replicate 30 0) 0 (toBE 8 socket)) (0 + 8) ip) (0 + 8 + 16) (toBE 2 port.toNat)) (0 + 8 + 16 + 2)
        (toBE 4 scope.toNat)).take (0 + 8 + 16 + 2 + 4) = toBE 8 socket ++ ip ++ toBE 2 port.toNat ++ toBE 4 scope.toNat := by
    intro ip port scope hip
    have h8 := toBE_length 8 socket
    have h2 := toBE_length 2 port.toNat
    have h4 := toBE_length 4 scope.toNat
    have e1 := putSlice_zeros [] (toBE 8 socket) 30 (by omega)
    simp only [List.nil_append, List.length_nil] at e1
    rw [e1, h8]
    have e2 := putSlice_zeros (toBE 8 socket) ip 22 (by omega)
    rw [h8] at e2
    rw [show 0 + 8 = 8 from rfl, show 30 - 8 = 22 from rfl, e2, hip]
    have e3 := putSlice_zeros (toBE 8 socket ++ ip) (toBE 2 port.toNat) 6 (by omega)
    rw [List.length_append, h8, hip] at e3
    rw [show 22 - 16 = 6 from rfl, e3, h2]
    have e4 := putSlice_zeros (toBE 8 socket ++ ip ++ toBE 2 port.toNat) (toBE 4 scope.toNat) 4 (by omega)
    rw [List.length_append, List.length_append, h8, hip, h2] at e4
    rw [show 6 - 2 = 4 from rfl, show 8 + 16 + 2 = 26 from rfl, show 26 = 8 + 16 + 2 from rfl, e4, h4]
    rw [Nat.sub_self, List.replicate_zero, List.append_nil]
    apply List.take_of_length_le
    simp only [List.length_append, h8, hip, h2, h4]
    omega
  cases a with
  | v4 ip port =>
    have : (ipv6Mapped ip).length = 16 := by simp only [Addr.WF] at ha; simp [ipv6Mapped, ha]
    exact key (ipv6Mapped ip) port 0 this
  | v6 ip port flow scope => exact key ip port scope ha

/-- **C52.** Two peers' host identifications are equal exactly if the packets came in on the same socket
from the same address, port and scope; IPv4 addresses count as their IPv4-mapped IPv6 form, and the IPv6
flow label is ignored. In particular, on IPv4 the identification determines the socket and the address. -/
theorem host_id_injective (s1 s2 : Nat) (a1 a2 : Addr) (h1 : s1 < 2 ^ 64) (h2 : s2 < 2 ^ 64) (w1 : a1.WF) (w2 : a2.WF) :
    hostId s1 a1 = hostId s2 a2 ↔ s1 = s2 ∧ a1.ip16 = a2.ip16 ∧ a1.port = a2.port ∧ a1.scope = a2.scope := by
  rw [hostId_eq _ _ w1, hostId_eq _ _ w2]
  have len : ∀ a : Addr, a.WF → a.ip16.length = 16 := by
    intro a ha
    cases a with
    | v4 ip port => simp only [Addr.WF] at ha; simp [Addr.ip16, ha]
    | v6 ip port flow scope => exact ha
  constructor
  · intro h
    obtain ⟨h, hs⟩ := List.append_inj' h (by rw [toBE_length, toBE_length])
    obtain ⟨h, hp⟩ := List.append_inj' h (by rw [toBE_length, toBE_length])
    obtain ⟨h, hi⟩ := List.append_inj' h (by rw [len _ w1, len _ w2])
    refine ⟨toBE_inj (by omega) (by omega) h, hi, ?_, ?_⟩
    · exact UInt16.toNat_inj.mp (toBE_inj (a1.port.toNat_lt) (a2.port.toNat_lt) hp)
    · exact UInt32.toNat_inj.mp (toBE_inj (a1.scope.toNat_lt) (a2.scope.toNat_lt) hs)
  · rintro ⟨rfl, h2, h3, h4⟩
    rw [h2, h3, h4]

/-- **C52**, IPv4: the identification determines socket and address. -/
theorem host_id_injective_v4 (s1 s2 : Nat) (ip1 ip2 : Bytes) (p1 p2 : UInt16) (h1 : s1 < 2 ^ 64) (h2 : s2 < 2 ^ 64)
    (w1 : ip1.length = 4) (w2 : ip2.length = 4) (h : hostId s1 (.v4 ip1 p1) = hostId s2 (.v4 ip2 p2)) : s1 = s2 ∧ ip1 = ip2 ∧ p1 = p2 := by
  obtain ⟨h1, h2, h3, -⟩ := (host_id_injective s1 s2 (.v4 ip1 p1) (.v4 ip2 p2) h1 h2 w1 w2).mp h
  exact ⟨h1, List.append_cancel_left h2, h3⟩

/-- C52: ids of the same address on two sockets, and of two ports. -/
example : hostId 0 (.v4 [10, 0, 0, 1] 9999) ≠ hostId 1 (.v4 [10, 0, 0, 1] 9999) ∧
    hostId 0 (.v4 [10, 0, 0, 1] 9999) ≠ hostId 0 (.v4 [10, 0, 0, 1] 10000) ∧
    hostId 0 (.v4 [10, 0, 0, 1] 9999) = hostId 0 (.v6 [0, 0, 0, 0, 0, 0, 0, 0, 0, 0, 255, 255, 10, 0, 0, 1] 9999 7 0) := by
  decide +kernel

/-! ### C46, C67 -/

namespace Discovery

theorem innerLoop_nil (send : Nat → Nat → Bool) (a : Nat) : innerLoop send a [] = ([], none, []) := rfl

theorem innerLoop_fail {send : Nat → Nat → Bool} {a : Nat} (socks : List Nat) (h : ∀ s ∈ socks, send a s = false) :
    innerLoop send a socks = (socks.map (fun s => (a, s)), none, []) := by
  induction socks with
  | nil => rfl
  | cons s l ih =>
    rw [innerLoop, if_neg (by simp [h s (by simp)]), ih (fun x hx => h x (by simp [hx]))]
    rfl

theorem innerLoop_ok {send : Nat → Nat → Bool} {a s : Nat} (pre post : List Nat) (h : ∀ s ∈ pre, send a s = false) (hs : send a s = true) :
    innerLoop send a (pre ++ s :: post) = ((pre ++ [s]).map (fun s => (a, s)), some s, post) := by
  induction pre with
  | nil => show innerLoop send a (s :: post) = _; rw [innerLoop, if_pos hs]; rfl
  | cons t l ih =>
    show innerLoop send a (t :: (l ++ s :: post)) = _
    rw [innerLoop, if_neg (by simp [h t (by simp)]), ih (fun x hx => h x (by simp [hx]))]
    rfl

theorem outerLoop_nosock (send : Nat → Nat → Bool) (as : List Nat) : outerLoop send as [] = ([], none) := by
  induction as with
  | nil => rfl
  | cons a as ih => rw [outerLoop, innerLoop_nil]; simp only [ih, List.append_nil]

theorem cycled_cons {n off : Nat} (hn : 0 < n) (ho : off < n) : ∃ l, cycled n off = off :: l := by
  unfold cycled
  obtain ⟨k, rfl⟩ : ∃ k, n = k + 1 := ⟨n - 1, by omega⟩
  rw [List.range_succ_eq_map]
  exact ⟨_, by rw [List.map_cons, Nat.add_zero, Nat.mod_eq_of_lt ho]⟩

theorem mem_cycled {m off s : Nat} (h : s ∈ cycled m off) : s < m := by
  unfold cycled at h
  obtain ⟨i, hi, rfl⟩ := List.mem_map.mp h
  rw [List.mem_range] at hi
  exact Nat.mod_lt _ (by omega)

theorem mem_cycled' {m off s : Nat} (h : s < m) : s ∈ cycled m off := by
  unfold cycled
  rw [List.mem_map]
  have hn : off % m < m := Nat.mod_lt _ (by omega)
  by_cases hle : off % m ≤ s
  · refine ⟨s - off % m, List.mem_range.mpr (by omega), ?_⟩
    rw [← Nat.mod_add_mod]
    have : off % m + (s - off % m) = s := by omega
    rw [this]; exact Nat.mod_eq_of_lt h
  · refine ⟨s + m - off % m, List.mem_range.mpr (by omega), ?_⟩
    rw [← Nat.mod_add_mod]
    have : off % m + (s + m - off % m) = s + m := by omega
    rw [this, Nat.add_mod_right]; exact Nat.mod_eq_of_lt h

/-- The state of discovery is in range. -/
def Ok (d : Discovery) (m : Nat) : Prop := 0 < d.addresses.length ∧ 0 < m ∧ d.state.1 < d.addresses.length ∧ d.state.2 < m

/-- One call of `send_scouting`: only the current address is tried, on the sockets in cyclic order from
the current one up to the first that works. -/
theorem sendScouting_spec (d : Discovery) (m : Nat) (send : Nat → Nat → Bool) (h : d.Ok m) :
    ((∀ s < m, send d.state.1 s = false) ∧
      d.sendScouting m send = (⟨(cycled m d.state.2).map (fun s => (d.state.1, s)), false⟩, d)) ∨
    (∃ s pre post, cycled m d.state.2 = pre ++ s :: post ∧ s < m ∧ send d.state.1 s = true ∧ (∀ x ∈ pre, send d.state.1 x = false) ∧
      d.sendScouting m send = (⟨(pre ++ [s]).map (fun s => (d.state.1, s)), true⟩,
        { d with state := ((d.state.1 + 1) % d.addresses.length, (s + 1) % m) })) := by
  obtain ⟨hn, hm, h1, h2⟩ := h
  obtain ⟨l, hl⟩ := cycled_cons hn h1
  by_cases hall : ∀ s ∈ cycled m d.state.2, send d.state.1 s = false
  · left
    refine ⟨fun s hs => hall s (mem_cycled' hs), ?_⟩
    unfold sendScouting
    simp only [hl, outerLoop, innerLoop_fail _ hall, outerLoop_nosock, List.append_nil]
  · right
    -- the first socket that works
    obtain ⟨pre, s, post, hc, hpre, hs⟩ : ∃ pre s post, cycled m d.state.2 = pre ++ s :: post ∧ (∀ x ∈ pre, send d.state.1 x = false) ∧ send d.state.1 s = true := by
      generalize cycled m d.state.2 = c at hall
      clear hl
      induction c with
      | nil => exact absurd (fun s hs => nomatch hs) hall
      | cons x c ih =>
        cases hx : send d.state.1 x with
        | true => exact ⟨[], x, c, rfl, fun _ h => (nomatch h), hx⟩
        | false =>
          obtain ⟨pre, s, post, rfl, h2, h3⟩ := ih (fun h => hall (fun s hs => (List.mem_cons.mp hs).elim (fun e => e ▸ hx) (h s)))
          exact ⟨x :: pre, s, post, rfl, fun y hy => (List.mem_cons.mp hy).elim (fun e => e ▸ hx) (h2 y), h3⟩
    refine ⟨s, pre, post, hc, mem_cycled (off := d.state.2) (by rw [hc]; simp), hs, hpre, ?_⟩
    unfold sendScouting
    simp only [hl, outerLoop, hc, innerLoop_ok pre post hpre hs]

theorem sendScouting_ok (d : Discovery) (m : Nat) (send : Nat → Nat → Bool) (h : d.Ok m) : (d.sendScouting m send).2.Ok m ∧
    (d.sendScouting m send).2.addresses = d.addresses := by
  rcases sendScouting_spec d m send h with ⟨-, e⟩ | ⟨s, pre, post, -, -, -, -, e⟩ <;> rw [e]
  · exact ⟨h, rfl⟩
  · exact ⟨⟨h.1, h.2.1, Nat.mod_lt _ h.1, Nat.mod_lt _ h.2.1⟩, rfl⟩

/-- **C46** (what holds). Suppose every call manages to send (each time some socket can send to the address
whose turn it is). Then among any as many consecutive calls as there are addresses, every address is sent to.
Missing: this fails if some address is refused by all sockets, see `unreachable_address_blocks_discovery`. -/
theorem all_addresses_tried_partial (d : Discovery) (m : Nat) (h : d.Ok m) (outcomes : List (Nat → Nat → Bool))
    (hok : ∀ x ∈ (d.scoutAll m outcomes).1, x.ok = true) (hlen : d.addresses.length ≤ outcomes.length) (a : Nat) (ha : a < d.addresses.length) :
    ∃ (k : Nat) (send : Nat → Nat → Bool) (x : Scouted) (s : Nat), outcomes[k]? = some send ∧ (d.scoutAll m outcomes).1[k]? = some x ∧
      (a, s) ∈ x.tried ∧ send a s = true := by
  have main : ∀ (outcomes : List (Nat → Nat → Bool)) (d : Discovery) (e : Nat), d.Ok m → (∀ x ∈ (d.scoutAll m outcomes).1, x.ok = true) →
      e < outcomes.length → a = (d.state.1 + e) % d.addresses.length → e < d.addresses.length →
      ∃ (k : Nat) (send : Nat → Nat → Bool) (x : Scouted) (s : Nat), outcomes[k]? = some send ∧ (d.scoutAll m outcomes).1[k]? = some x ∧
        (a, s) ∈ x.tried ∧ send a s = true := by
    intro outcomes
    induction outcomes with
    | nil => intro d e _ _ h; exact absurd h (Nat.not_lt_zero _)
    | cons f fs ih =>
      intro d e hd hok he hae hen
      have hunf : (d.scoutAll m (f :: fs)).1 = (d.sendScouting m f).1 :: ((d.sendScouting m f).2.scoutAll m fs).1 := rfl
      rw [hunf] at hok ⊢
      have h0 := hok _ List.mem_cons_self
      rcases sendScouting_spec d m f hd with ⟨-, e1⟩ | ⟨s, pre, post, -, hsm, hs, hpre, e1⟩
      · rw [e1] at h0; cases h0
      · by_cases hz : e = 0
        · subst hz
          rw [Nat.add_zero, Nat.mod_eq_of_lt hd.2.2.1] at hae
          refine ⟨0, f, _, s, rfl, rfl, ?_, hae ▸ hs⟩
          rw [e1, hae]; simp
        · have hd' := (sendScouting_ok d m f hd).1
          obtain ⟨k, send, x, t, h1, h2, h3, h4⟩ := ih (d.sendScouting m f).2 (e - 1) hd' (fun x hx => hok x (by simp [hx]))
            (by simp only [List.length_cons] at he; omega) (by
              rw [e1]
              simp only
              rw [hae, Nat.mod_add_mod]
              congr 1
              omega) (by rw [e1]; simp only; omega)
          exact ⟨k + 1, send, x, t, h1, h2, h3, h4⟩
  obtain ⟨hn, hm, h1, h2⟩ := h
  -- the number of calls until it is the turn of address `a`
  obtain ⟨e, he, hae⟩ : ∃ e < d.addresses.length, a = (d.state.1 + e) % d.addresses.length := by
    have := mem_cycled' (off := d.state.1) ha
    unfold cycled at this
    obtain ⟨e, he, hae⟩ := List.mem_map.mp this
    exact ⟨e, List.mem_range.mp he, hae.symm⟩
  exact main outcomes d e ⟨hn, hm, h1, h2⟩ hok (by omega) hae he

/-- **C46** is false of the code in general: an address that no socket can send to (say, an IPv6 address on a
host without IPv6) is never skipped. However many calls are made, and even if every other address works, all
of them try that address only, fail, and leave discovery where it was. -/
theorem unreachable_address_blocks_discovery (d : Discovery) (m : Nat) (h : d.Ok m) (outcomes : List (Nat → Nat → Bool))
    (hbad : ∀ send ∈ outcomes, ∀ s, send d.state.1 s = false) :
    (d.scoutAll m outcomes).2 = d ∧ ∀ x ∈ (d.scoutAll m outcomes).1, x.ok = false ∧ ∀ a s, (a, s) ∈ x.tried → a = d.state.1 := by
  induction outcomes with
  | nil => exact ⟨rfl, fun _ h => nomatch h⟩
  | cons f fs ih =>
    have hunf : d.scoutAll m (f :: fs) = ((d.sendScouting m f).1 :: ((d.sendScouting m f).2.scoutAll m fs).1, ((d.sendScouting m f).2.scoutAll m fs).2) := rfl
    rw [hunf]
    rcases sendScouting_spec d m f h with ⟨-, e1⟩ | ⟨s, pre, post, -, hsm, hs, hpre, e1⟩
    · rw [e1]
      obtain ⟨i1, i2⟩ := ih (fun x hx => hbad x (by simp [hx]))
      refine ⟨i1, fun x hx => ?_⟩
      rcases List.mem_cons.mp hx with rfl | hx
      · refine ⟨rfl, fun a s has => ?_⟩
        simp only [List.mem_map, Prod.mk.injEq] at has
        obtain ⟨_, _, rfl, _⟩ := has
        rfl
      · exact i2 x hx
    · rw [hbad f (by simp) s] at hs; cases hs

/-- C46: two addresses, one socket; the first address is unreachable and the second one is never tried. -/
example : let d := fromAddresses [.v6 (List.replicate 16 1) 1 0 0, .v4 [10, 0, 0, 1] 1]
    d.Ok 1 ∧ (d.scoutAll 1 (List.replicate 3 (fun a _ => decide (a = 1)))).1 = List.replicate 3 ⟨[(0, 0)], false⟩ ∧
    (d.scoutAll 1 (List.replicate 3 (fun _ _ => true))).1 = [⟨[(0, 0)], true⟩, ⟨[(1, 0)], true⟩, ⟨[(0, 0)], true⟩] := by
  unfold Ok
  decide +kernel

theorem scoutAll_working (m : Nat) (k : Nat) : ∀ (d : Discovery), d.Ok m →
    ∃ xs, (d.scoutAll m (List.replicate k (fun _ _ => true))).1 = xs ∧ xs.length = k ∧
      ∀ i < k, xs[i]? = some ⟨[((d.state.1 + i) % d.addresses.length, (d.state.2 + i) % m)], true⟩ := by
  induction k with
  | zero => intro d _; exact ⟨[], rfl, rfl, fun i h => absurd h (Nat.not_lt_zero _)⟩
  | succ k ih =>
    intro d hd
    have hunf : (d.scoutAll m (List.replicate (k + 1) (fun _ _ => true))).1 =
      (d.sendScouting m (fun _ _ => true)).1 :: ((d.sendScouting m (fun _ _ => true)).2.scoutAll m (List.replicate k (fun _ _ => true))).1 := rfl
    rw [hunf]
    rcases sendScouting_spec d m (fun _ _ => true) hd with ⟨h0, e1⟩ | ⟨s, pre, post, hc, hsm, hs, hpre, e1⟩
    · exact absurd (h0 0 hd.2.1) (by simp)
    · have hnil : pre = [] := by
        cases pre with
        | nil => rfl
        | cons x l => have := hpre x (by simp); simp at this
      subst hnil
      have hseq : s = d.state.2 := by
        obtain ⟨l, hl⟩ := cycled_cons hd.2.1 hd.2.2.2
        rw [hl] at hc
        exact (List.cons.inj hc).1.symm
      subst hseq
      have hd' := (sendScouting_ok d m (fun _ _ => true) hd).1
      obtain ⟨xs, i1, i2, i3⟩ := ih _ hd'
      refine ⟨_, rfl, by rw [i1]; simp [i2], ?_⟩
      intro i hi
      cases i with
      | zero =>
        rw [e1]
        simp [Nat.mod_eq_of_lt hd.2.2.1, Nat.mod_eq_of_lt hd.2.2.2]
      | succ i =>
        rw [List.getElem?_cons_succ, i1, i3 i (by omega), e1]
        simp only [Nat.mod_add_mod]
        have e1 : d.state.1 + 1 + i = d.state.1 + (i + 1) := by omega
        have e2 : d.state.2 + 1 + i = d.state.2 + (i + 1) := by omega
        rw [e1, e2]

/-- **C67** (exactly which combinations). If sending always works (packets may still be lost), then of the
combinations of `n` addresses and `m` sockets exactly those (a, s) with a ≡ s modulo gcd(n, m) are ever used. -/
theorem combinations_used (l : List Addr) (m : Nat) (hl : 0 < l.length) (hm : 0 < m) (a s : Nat) (ha : a < l.length) (hs : s < m) :
    (∃ k, ∃ x ∈ ((fromAddresses l).scoutAll m (List.replicate k (fun _ _ => true))).1, (a, s) ∈ x.tried) ↔
      a ≡ s [MOD Nat.gcd l.length m] := by
  have hok : (fromAddresses l).Ok m := ⟨hl, hm, hl, hm⟩
  constructor
  · rintro ⟨k, x, hx, hmem⟩
    obtain ⟨xs, h1, h2, h3⟩ := scoutAll_working m k _ hok
    rw [h1] at hx
    obtain ⟨i, hi, hxi⟩ := List.mem_iff_getElem.mp hx
    have := h3 i (by omega)
    rw [List.getElem?_eq_getElem hi, hxi] at this
    simp only [Option.some.injEq] at this
    rw [this] at hmem
    simp only [List.mem_singleton, Prod.mk.injEq, fromAddresses, Nat.zero_add] at hmem
    have e1 : a ≡ i [MOD l.length] := by rw [hmem.1]; exact Nat.mod_modEq _ _
    have e2 : s ≡ i [MOD m] := by rw [hmem.2]; exact Nat.mod_modEq _ _
    exact (e1.of_dvd (Nat.gcd_dvd_left _ _)).trans (e2.of_dvd (Nat.gcd_dvd_right _ _)).symm
  · intro h
    obtain ⟨i, h1, h2⟩ := Nat.chineseRemainder' h
    obtain ⟨xs, g1, g2, g3⟩ := scoutAll_working m (i + 1) _ hok
    refine ⟨i + 1, _, by rw [g1]; exact List.mem_of_getElem? (g3 i (by omega)), ?_⟩
    simp only [List.mem_singleton, Prod.mk.injEq, fromAddresses, Nat.zero_add]
    exact ⟨((Nat.mod_eq_of_lt ha).symm.trans h1.symm), ((Nat.mod_eq_of_lt hs).symm.trans h2.symm)⟩

/-- **C67** (what holds). If the number of addresses and the number of sockets are coprime (for instance one
socket), every combination of address and socket is used. Missing: other numbers, see
`combination_never_used`. -/
theorem all_combinations_used_partial (l : List Addr) (m : Nat) (hl : 0 < l.length) (hm : 0 < m) (hc : Nat.Coprime l.length m)
    (a s : Nat) (ha : a < l.length) (hs : s < m) :
    ∃ k, ∃ x ∈ ((fromAddresses l).scoutAll m (List.replicate k (fun _ _ => true))).1, (a, s) ∈ x.tried := by
  rw [combinations_used l m hl hm a s ha hs, hc]
  exact Nat.modEq_one

/-- **C67** is false of the code in general: with two addresses and two sockets (IPv4 and IPv6), the first
address is never tried on the second socket, however long discovery goes on. -/
theorem combination_never_used (l : List Addr) (h2 : l.length = 2) (k : Nat) :
    ∀ x ∈ ((fromAddresses l).scoutAll 2 (List.replicate k (fun _ _ => true))).1, (0, 1) ∉ x.tried := by
  intro x hx hmem
  have := (combinations_used l 2 (by omega) (by omega) 0 1 (by omega) (by omega)).mp ⟨k, x, hx, hmem⟩
  rw [h2] at this
  exact absurd this (by decide)

end Discovery

/-! ### C68 -/

namespace Endpoint

theorem mem_dedup (l : List Addr) : ∀ (seen : List Addr) (a : Addr), a ∈ dedup seen l ↔ a ∈ l ∧ a ∉ seen := by
  induction l with
  | nil => intro seen a; simp [dedup]
  | cons x l ih =>
    intro seen a
    rw [dedup]
    by_cases hx : x ∈ seen
    · rw [if_pos hx, ih]
      constructor
      · rintro ⟨h1, h2⟩; exact ⟨List.mem_cons_of_mem _ h1, h2⟩
      · rintro ⟨h1, h2⟩
        refine ⟨(List.mem_cons.mp h1).resolve_left ?_, h2⟩
        rintro rfl; exact h2 hx
    · rw [if_neg hx, List.mem_cons, ih]
      by_cases ha : a = x
      · subst ha; simp [hx]
      · simp [ha]

theorem nodup_dedup (l : List Addr) : ∀ (seen : List Addr), (dedup seen l).Nodup := by
  induction l with
  | nil => intro seen; simp [dedup]
  | cons x l ih =>
    intro seen
    rw [dedup]
    by_cases hx : x ∈ seen
    · rw [if_pos hx]; exact ih _
    · rw [if_neg hx, List.nodup_cons]
      refine ⟨fun h => ?_, ih _⟩
      exact ((mem_dedup _ _ _).mp h).2 (by simp)

theorem dedup_head (x : Addr) (l : List Addr) : dedup [] (x :: l) = x :: dedup [x] l := by
  rw [dedup, if_neg (by simp)]

/-- **C68.** Restarting discovery after a loss of connection: there is a new endpoint iff a current or an
initial endpoint exists; it starts from the beginning; its candidate addresses are exactly the addresses of
the current and the initial endpoint, each once; and if the current endpoint is a known address, that one
comes first. -/
theorem restart_discovery (cur ini : Option Endpoint) :
    (fromSources cur ini = none ↔ cur = none ∧ ini = none) ∧
    ∀ e, fromSources cur ini = some e → ∃ d, e = .discovery d ∧ d.state = (0, 0) ∧ d.addresses.Nodup ∧
      (∀ a, a ∈ d.addresses ↔ (∃ c, cur = some c ∧ a ∈ c.addresses) ∨ (∃ i, ini = some i ∧ a ∈ i.addresses)) ∧
      (∀ s a, cur = some (.bound s a) → d.addresses.head? = some a) := by
  refine ⟨?_, ?_⟩
  · cases cur <;> cases ini <;> simp [fromSources]
  · intro e he
    have key : ∀ l : List Addr, (∀ a, a ∈ l ↔ (∃ c, cur = some c ∧ a ∈ c.addresses) ∨ (∃ i, ini = some i ∧ a ∈ i.addresses)) →
        (∀ s a, cur = some (.bound s a) → ∃ t, l = a :: t) → e = .discovery (.fromAddresses (dedup [] l)) →
        ∃ d, e = .discovery d ∧ d.state = (0, 0) ∧ d.addresses.Nodup ∧
          (∀ a, a ∈ d.addresses ↔ (∃ c, cur = some c ∧ a ∈ c.addresses) ∨ (∃ i, ini = some i ∧ a ∈ i.addresses)) ∧
          (∀ s a, cur = some (.bound s a) → d.addresses.head? = some a) := by
      intro l h1 h2 h3
      refine ⟨_, h3, rfl, nodup_dedup _ _, fun a => ?_, ?_⟩
      · show a ∈ dedup [] l ↔ _
        rw [mem_dedup, h1]; simp
      · intro s a hc
        obtain ⟨t, rfl⟩ := h2 s a hc
        show (dedup [] (a :: t)).head? = _
        rw [dedup_head]; rfl
    cases cur with
    | none =>
      cases ini with
      | none => cases he
      | some i =>
        simp only [fromSources, Option.some.injEq, List.append_nil] at he
        exact key i.addresses (by simp) (fun _ _ h => nomatch h) he.symm
    | some c =>
      cases ini with
      | none =>
        simp only [fromSources, Option.some.injEq, List.append_nil] at he
        refine key c.addresses (by simp) ?_ he.symm
        intro s a h; cases h; exact ⟨[], rfl⟩
      | some i =>
        simp only [fromSources, Option.some.injEq] at he
        refine key (c.addresses ++ i.addresses) (by simp) ?_ he.symm
        intro s a h; cases h; exact ⟨i.addresses, rfl⟩

/-- C68: the last used address and two configured ones. -/
example : fromSources (some (.bound 1 (.v4 [10, 0, 0, 2] 5))) (some (.discovery (.fromAddresses [.v4 [10, 0, 0, 1] 5, .v4 [10, 0, 0, 2] 5]))) =
    some (.discovery (.fromAddresses [.v4 [10, 0, 0, 2] 5, .v4 [10, 0, 0, 1] 5])) := by decide +kernel

end Endpoint
end Verif
