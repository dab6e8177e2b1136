import Verif.Model.NativeUnix
import Verif.Thm.FileIO
import Verif.Thm.Broker
/-
C83, C84: keys handed to WireGuard by running `wg`.
-/
namespace Verif.NativeUnix
open FileIO (b64Enc b64Dec)

/-! ## The encoding of the extra parameters -/

theorem takeVarint_varint (n : Nat) : ∀ (i : Nat) (r : Bytes), i ≤ 9 → n < 2 ^ (64 - 7 * i) → takeVarint i (varint n ++ r) = some (n, r) := by
  induction n using Nat.strongRecOn with
  | ind n ih =>
    intro i r hi hn
    unfold varint
    split
    · rename_i h
      rw [List.singleton_append]
      unfold takeVarint
      have e : (UInt8.ofNat n).toNat = n := by simp [UInt8.toNat_ofNat']; omega
      rw [if_neg (by omega), e, if_pos h, if_neg]
      rintro ⟨h9, h1⟩
      subst h9
      have : (2 : Nat) ^ (64 - 7 * 9) = 2 := by decide
      omega
    · rename_i h
      rw [List.cons_append]
      unfold takeVarint
      have e : (UInt8.ofNat (n % 128 + 128)).toNat = n % 128 + 128 := by simp [UInt8.toNat_ofNat']; omega
      have h8 : i ≤ 8 := by
        rcases Nat.lt_or_ge i 9 with h' | h'
        · omega
        · have : i = 9 := by omega
          subst this
          have : (2 : Nat) ^ (64 - 7 * 9) = 2 := by decide
          omega
      have hp : (2 : Nat) ^ (64 - 7 * i) = 2 ^ (64 - 7 * (i + 1)) * 128 := by
        have : 64 - 7 * i = (64 - 7 * (i + 1)) + 7 := by omega
        rw [this, Nat.pow_add]
      rw [if_neg (by omega), e, if_neg (by omega), ih (n / 128) (by omega) (i + 1) r (by omega) (by omega)]
      dsimp only
      congr 2
      omega

theorem takeString_enc {p r : Bytes} (hl : p.length < 2 ^ 64) (hu : Broker.utf8 p = true) : takeString (varint p.length ++ p ++ r) = some (p, r) := by
  unfold takeString
  rw [List.append_assoc, takeVarint_varint p.length 0 (p ++ r) (by omega) (by simpa using hl)]
  dsimp only
  have e1 : (p ++ r).take p.length = p := by simp
  have e2 : (p ++ r).drop p.length = r := by simp
  rw [e1, e2, if_pos ⟨by simp, hu⟩]

/-- C84: the extra parameters come out of the encoding unchanged, whatever strings they are. -/
theorem params_round_trip (ps : List Bytes) (hn : ps.length < 2 ^ 64) (hl : ∀ p ∈ ps, p.length < 2 ^ 64 ∧ ∃ s : String, txt s = p) :
    decodeParams (encodeParams ps) = some ps := by
  have key : ∀ (ps : List Bytes), (∀ p ∈ ps, p.length < 2 ^ 64 ∧ Broker.utf8 p = true) →
      takeStrings ps.length (ps.flatMap fun p => varint p.length ++ p) = some ps := by
    intro ps
    induction ps with
    | nil => intro _; rfl
    | cons p ps ih =>
      intro h
      obtain ⟨h1, h2⟩ := h p (by simp)
      rw [List.length_cons, List.flatMap_cons]
      unfold takeStrings
      rw [takeString_enc h1 h2]
      dsimp only
      rw [ih fun q hq => h q (by simp [hq])]
  unfold decodeParams encodeParams
  rw [takeVarint_varint _ 0 _ (by omega) (by simpa using hn)]
  dsimp only
  exact key ps fun p hp => ⟨(hl p hp).1, (Broker.utf8_iff p).2 (hl p hp).2⟩

/-! ## The command -/

/-- The command `wg set IFACE peer PEER preshared-key /dev/stdin PARAM…`, as in the manual page of `wg`. -/
def wgSet (iface peer : Bytes) (ps : List Bytes) : List Bytes :=
  [txt "set", iface, txt "peer", peer, txt "preshared-key", txt "/dev/stdin"] ++ ps

/-- The command that is run names the interface, the peer and the extra parameters of the configuration; its input is a beginning of the
encoded key, and the whole of it if the writes succeed; the key is not on the command line. -/
theorem key_set_through_wg_partial (iface : String) (peerId psk : Bytes) (ps : List Bytes) (e : Env) (hp : psk.length = 32) (he : e.spawn = true)
    (hn : ps.length < 2 ^ 64) (hl : ∀ p ∈ ps, p.length < 2 ^ 64 ∧ ∃ s : String, txt s = p) :
    ∃ w, setPsk (Base.config ⟨txt iface, peerId, encodeParams ps⟩ psk) e = (true, some ⟨txt "wg", wgSet (txt iface) (b64Enc peerId) ps, w⟩) ∧
      w <+: b64Enc psk ∧ (FileIO.NoErr e.writes → (b64Enc psk).length ≤ e.writes.length → w = b64Enc psk) := by
  have hu : Broker.utf8 (txt iface) = true := (Broker.utf8_iff _).2 ⟨iface, rfl⟩
  have henc : FileIO.b64Encode psk (32 * 5 / 3) = .ok (b64Enc psk) := by
    unfold FileIO.b64Encode
    rw [FileIO.b64Enc_length, hp, if_pos (by decide)]
  unfold setPsk Base.config
  dsimp only
  rw [if_pos hu, params_round_trip ps hn hl]
  dsimp only
  rw [if_pos he, henc]
  obtain ⟨h1, h2, h3, h4⟩ := FileIO.writeAll_spec e.writes (b64Enc psk)
  exact ⟨_, rfl, h1, fun ha hb => h2 (h4 ha hb)⟩

/-- C83: the arguments of the command, which every user of the machine can see, do not depend on the key. -/
theorem key_not_on_command_line (b : Base) (psk psk' : Bytes) (e : Env) (h : psk.length = 32) (h' : psk'.length = 32) :
    ((setPsk (b.config psk) e).2.map fun c => (c.prog, c.args)) = ((setPsk (b.config psk') e).2.map fun c => (c.prog, c.args)) := by
  have henc : ∀ k : Bytes, k.length = 32 → FileIO.b64Encode k (32 * 5 / 3) = .ok (b64Enc k) := by
    intro k hk; unfold FileIO.b64Encode; rw [FileIO.b64Enc_length, hk, if_pos (by decide)]
  unfold setPsk Base.config
  dsimp only
  split
  · split
    · rfl
    · split
      · rw [henc _ h, henc _ h']; rfl
      · rfl
  · rfl

/-- The finding: whether `wg` accepts the key, and whether it ever gets it, makes no difference to the result. -/
theorem failure_of_wg_not_reported (c : Ser) (e e' : Env) (h : e.spawn = e'.spawn) : (setPsk c e).1 = (setPsk c e').1 := by
  unfold setPsk
  rw [h]
  split
  · split
    · rfl
    · split
      · split <;> rfl
      · rfl
  · rfl

/-- `Ok` means that `wg` was started, no more. -/
theorem ok_iff_started (c : Ser) (e : Env) : (setPsk c e).1 = true ↔ (setPsk c e).2.isSome = true := by
  unfold setPsk
  split
  · split
    · simp
    · split
      · split <;> simp
      · simp
  · simp

/-- A case: nothing reaches `wg`, it fails, and the result is `Ok`. -/
example : setPsk (Base.config ⟨txt "wg0", List.replicate 32 1, encodeParams [txt "allowed-ips", txt "fe80::/64"]⟩ (List.replicate 32 7)) ⟨true, [.err .other], some 1⟩ =
    (true, some ⟨txt "wg", wgSet (txt "wg0") (b64Enc (List.replicate 32 1)) [txt "allowed-ips", txt "fe80::/64"], []⟩) := by decide +kernel

/-! ## The peer id -/

/-- C84: a peer id given as its 44 characters is the one `wg` is told about. -/
theorem peer_id_round_trip (id : Bytes) (h : id.length = 32) : peerIdB64 (b64Enc id) = some id := by
  unfold peerIdB64 FileIO.b64Decode
  rw [FileIO.b64_round_trip id (by intro hn; rw [hn] at h; cases h)]
  dsimp only
  rw [if_pos (by rw [h]; simp)]
  simp [h]

/-- what is accepted as peer id: base64 of up to 32 bytes, and these are then filled up with zeros -/
theorem peer_id_accepts_partial (s id : Bytes) : peerIdB64 s = some id ↔ ∃ d, b64Dec s = some d ∧ d.length ≤ 32 ∧ id = d ++ List.replicate (32 - d.length) 0 := by
  unfold peerIdB64 FileIO.b64Decode
  cases hd : b64Dec s with
  | none => simp
  | some d =>
    dsimp only
    by_cases hl : d.length ≤ 32
    · rw [if_pos (by simpa using hl)]
      simp only [Option.some.injEq, exists_eq_left']
      constructor
      · intro h; exact ⟨hl, by rw [← h, List.drop_replicate]⟩
      · rintro ⟨_, rfl⟩; rw [List.drop_replicate]
    · rw [if_neg (by simpa using hl)]
      simp [hl]

/-- The finding: a truncated peer id is accepted, and keys are then set for another peer. -/
theorem truncated_peer_id_accepted : peerIdB64 (txt "Zm9v") = some (txt "foo" ++ List.replicate 29 0) := by decide +kernel

/-! ## Other brokers -/

/-- The finding: a configuration without encoded parameters, which is what the client of the broker socket makes of every configuration
(wireguard-broker/src/api/config.rs 30), is refused by this broker. -/
theorem empty_params_refused (iface peerId psk : Bytes) (e : Env) : setPsk ⟨iface, peerId, psk, []⟩ e = (false, none) := by
  unfold setPsk
  dsimp only
  have : decodeParams [] = none := rfl
  rw [this]
  split <;> rfl

/-- bytes after the parameters are ignored -/
theorem trailing_bytes_ignored (ps : List Bytes) (hn : ps.length < 2 ^ 64) (hl : ∀ p ∈ ps, p.length < 2 ^ 64 ∧ ∃ s : String, txt s = p) (t : Bytes) :
    decodeParams (encodeParams ps ++ t) = some ps := by
  have key : ∀ (ps : List Bytes), (∀ p ∈ ps, p.length < 2 ^ 64 ∧ Broker.utf8 p = true) →
      takeStrings ps.length ((ps.flatMap fun p => varint p.length ++ p) ++ t) = some ps := by
    intro ps
    induction ps with
    | nil => intro _; rfl
    | cons p ps ih =>
      intro h
      obtain ⟨h1, h2⟩ := h p (by simp)
      rw [List.length_cons, List.flatMap_cons, List.append_assoc]
      unfold takeStrings
      rw [takeString_enc h1 h2]
      dsimp only
      rw [ih fun q hq => h q (by simp [hq])]
  unfold decodeParams encodeParams
  rw [List.append_assoc, takeVarint_varint _ 0 _ (by omega) (by simpa using hn)]
  dsimp only
  exact key ps fun p hp => ⟨(hl p hp).1, (Broker.utf8_iff p).2 (hl p hp).2⟩

end Verif.NativeUnix
