import Verif.Model.Debug
import Verif.Thm.ExRun
/-
C122: the debug text of the state of a server depends on no secret.
-/
namespace Verif.Dbg

/-! ### Specification: which values are secret -/

/-- a biscuit key, cookie secret or cookie without its value -/
def noStore (x : Store) : Store := { x with value := [] }
/-- a handshake without its chaining key -/
def noCore (c : Core) : Core := { c with ck := [] }
/-- an initiator's handshake without its chaining key, ephemeral secret key and cookie -/
def noHs (x : IniHs) : IniHs := { x with core := noCore x.core, eski := [], cookieValue := noStore x.cookieValue }
/-- a session without its keys -/
def noSession (x : Session) : Session := { x with ck := [], txkm := [], txkt := [] }
/-- a peer without the pre-shared key and the secrets of its handshake and session -/
def noPeer (x : Peer) : Peer := { x with psk := [], session := x.session.map noSession, handshake := x.handshake.map noHs }
/-- a server without any secret -/
def censored (s : Server) : Server :=
  { s with sskm := [], biscuitKeys := ⟨noStore s.biscuitKeys.a, noStore s.biscuitKeys.b⟩, peers := s.peers.map noPeer, knownKey := [],
           cookieSecrets := ⟨noStore s.cookieSecrets.a, noStore s.cookieSecrets.b⟩ }

/-! ### Proof -/

theorem store_eq (x : Store) : store (noStore x) = store x := rfl
theorem hs_eq (x : IniHs) : iniHs (noHs x) = iniHs x := rfl
theorem session_eq (x : Session) : session (noSession x) = session x := rfl

theorem peer_eq (x : Peer) : peer (noPeer x) = peer x := by
  have h1 : (x.session.map noSession).map session = x.session.map session := by cases x.session <;> rfl
  have h2 : (x.handshake.map noHs).map iniHs = x.handshake.map iniHs := by cases x.handshake <;> rfl
  show struct "Peer" _ = struct "Peer" _
  simp only [noPeer]
  rw [h1, h2]
  rfl

theorem server_eq (tb : List Char) (ix : Index → List Char) (s : Server) : server tb ix (censored s) = server tb ix s := by
  have h : (s.peers.map noPeer).map peer = s.peers.map peer := by
    rw [List.map_map]
    exact List.map_congr_left (fun p _ => peer_eq p)
  show struct "CryptoServer" _ = struct "CryptoServer" _
  simp only [censored]
  rw [h]
  rfl

/-- **C122.** Two servers that differ in nothing but secrets (static and ephemeral secret keys, pre-shared keys, chaining keys, session keys, biscuit keys, cookie secrets and
cookies, the key of the table of known responses) have the same debug text: whatever is logged with it tells nothing about the secrets. -/
theorem debug_text_secret_free (tb : List Char) (ix : Index → List Char) (s t : Server) (h : censored s = censored t) : server tb ix s = server tb ix t := by
  rw [← server_eq tb ix s, h, server_eq]

/-- **C122.** The same for what is logged about a key that is handed to WireGuard. -/
theorem broker_config_text_secret_free (iface : List Char) (peerId psk psk' : Bytes) (extra : List (List Char)) :
    brokerConfig iface peerId psk extra = brokerConfig iface peerId psk' extra := rfl

/-- Public values of up to 64 bytes are shown in full as hexadecimal digits, but without leading zeros: the text does not determine the value. -/
theorem debug_text_of_public_ambiguous : ∃ a b : Bytes, a.length = 4 ∧ b.length = 4 ∧ a ≠ b ∧ cryptoArray a = cryptoArray b :=
  ⟨[0x01, 0x23, 0x45, 0x67], [0x12, 0x03, 0x45, 0x67], rfl, rfl, by decide, by decide⟩

theorem toDigits16_two (n : Nat) (h : 16 ≤ n) (h2 : n < 256) : (Nat.toDigits 16 n).length = 2 := by
  have : ∀ m : Fin 256, 16 ≤ m.val → (Nat.toDigits 16 m.val).length = 2 := by decide +kernel
  exact this ⟨n, h2⟩ h

theorem toDigits16_inj (a b : Nat) (ha : a < 256) (hb : b < 256) (h : Nat.toDigits 16 a = Nat.toDigits 16 b) : a = b := by
  have key : ∀ m : Fin 256, (Nat.toDigits 16 m.val).foldl (fun acc c => 16 * acc + (if c.toNat < 58 then c.toNat - 48 else c.toNat - 87)) 0 = m.val := by decide +kernel
  have h1 := key ⟨a, ha⟩
  have h2 := key ⟨b, hb⟩
  dsimp only at h1 h2
  rw [← h1, ← h2, h]

/-- It does for values without bytes below 16. -/
theorem debug_text_of_public_exact_partial (a b : Bytes) (hl : a.length = b.length) (hs : a.length ≤ 64) (ha : ∀ x ∈ a, 16 ≤ x.toNat) (hb : ∀ x ∈ b, 16 ≤ x.toNat)
    (h : cryptoArray a = cryptoArray b) : a = b := by
  unfold cryptoArray at h
  rw [if_neg (by omega), if_neg (by omega)] at h
  replace h := List.append_cancel_left h
  clear hs
  induction a generalizing b with
  | nil => cases b with
    | nil => rfl
    | cons y b => cases hl
  | cons x a ih => cases b with
    | nil => cases hl
    | cons y b =>
      rw [List.flatMap_cons, List.flatMap_cons] at h
      have hx := toDigits16_two x.toNat (ha x (List.mem_cons_self ..)) x.toNat_lt
      have hy := toDigits16_two y.toNat (hb y (List.mem_cons_self ..)) y.toNat_lt
      obtain ⟨h1, h2⟩ := List.append_inj h (hx.trans hy.symm)
      have : x = y := UInt8.toNat_inj.mp (toDigits16_inj _ _ x.toNat_lt y.toNat_lt h1)
      rw [this, ih b (by simpa using hl) (fun z hz => ha z (List.mem_cons_of_mem _ hz)) (fun z hz => hb z (List.mem_cons_of_mem _ hz)) h2]

theorem lowerHex_length (b : UInt8) : (lowerHex b).length ≤ 2 := by
  have : ∀ m : Fin 256, (Nat.toDigits 16 m.val).length ≤ 2 := by decide +kernel
  exact this ⟨b.toNat, b.toNat_lt⟩

theorem flatHex_length : ∀ v : Bytes, (v.flatMap lowerHex).length ≤ 2 * v.length
  | [] => by simp
  | b :: v => by
    have h1 := lowerHex_length b
    have h2 := flatHex_length v
    simp only [List.flatMap_cons, List.length_append, List.length_cons]
    omega

/-- The text of a public value (public keys have up to half a megabyte) is short, whatever its length, … -/
theorem debug_text_of_public_short (v : Bytes) : (cryptoArray v).length ≤ 134 := by
  unfold cryptoArray
  rw [List.length_append]
  have h0 : ("[{}]=".toList).length = 5 := by decide
  split
  · have h1 := flatHex_length (v.take 32)
    have h2 := flatHex_length (v.drop (v.length - 32))
    simp only [List.length_append, List.length_take, List.length_drop, List.length_cons, List.length_nil, h0] at h1 h2 ⊢
    omega
  · have h1 := flatHex_length v
    omega

/-- … because of a value of more than 64 bytes only the first and the last 32 are shown. -/
theorem debug_text_of_public_ends (a b m m' : Bytes) (ha : a.length = 32) (hb : b.length = 32) (hm : m ≠ []) (hm' : m' ≠ []) :
    cryptoArray (a ++ m ++ b) = cryptoArray (a ++ m' ++ b) := by
  have key : ∀ x : Bytes, x ≠ [] → cryptoArray (a ++ x ++ b) = "[{}]=".toList ++ (a.flatMap lowerHex ++ ['…'] ++ b.flatMap lowerHex) := by
    intro x hx
    have hl : 0 < x.length := List.length_pos_iff.mpr hx
    have hlen : (a ++ x ++ b).length = 32 + x.length + 32 := by simp [ha, hb]; omega
    unfold cryptoArray
    rw [if_pos (by omega), hlen]
    have h1 : (a ++ x ++ b).take 32 = a := by rw [List.append_assoc, List.take_append_of_le_length (by omega), ← ha, List.take_length]
    have h2 : (a ++ x ++ b).drop (32 + x.length + 32 - 32) = b := by
      have : 32 + x.length + 32 - 32 = (a ++ x).length := by simp [ha]
      rw [this, List.drop_left]
    rw [h1, h2]
  rw [key m hm, key m' hm']

/-- two different servers with the same public part -/
example : ∃ s t : Server, s.sskm ≠ t.sskm ∧ censored s = censored t ∧ server [] (fun _ => []) s = server [] (fun _ => []) t :=
  ⟨Server.new [1] [2] [3] [4] [5] [6] [7], Server.new [8] [2] [9] [10] [11] [12] [13], by decide, rfl, rfl⟩

end Verif.Dbg
