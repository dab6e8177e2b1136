import Verif.Model.Broker
import Verif.Thm.LengthPrefix
/-
The PSK broker protocol: C43 (requests round trip), C44 (results are reported faithfully), C45 (malformed requests do
not reach the broker).
-/
namespace Verif.Broker
open LengthPrefix (IoKind IoOut Enc Dec DecErr EncErr frame frames)

/-- Specification: the bytes of a string. -/
def strBytes (s : String) : Bytes := s.toByteArray.data.toList

/-- The interface names accepted are exactly the UTF-8 encodings of strings. -/
theorem utf8_iff (b : Bytes) : utf8 b = true ↔ ∃ s : String, strBytes s = b := by
  unfold utf8
  rw [ByteArray.validateUTF8_eq_true_iff]
  constructor
  · intro h
    exact ⟨String.ofByteArray _ h, by simp [strBytes]⟩
  · rintro ⟨s, rfl⟩
    have : (ByteArray.mk (strBytes s).toArray) = s.toByteArray := by
      cases h : s.toByteArray with
      | mk d => simp [strBytes, h]
    rw [this]; exact s.isValidUTF8

/-- Specification: `req` is a request to set the key of `c.peerId` on the interface `c.iface` to `c.psk`: the type
byte, three bytes that do not matter, key, peer, the length of the name, the name, and padding that does not matter
up to 255 bytes; the name is a string. -/
def IsRequest (req : Bytes) (c : Cfg) : Prop :=
  ∃ res pad, req = [1] ++ res ++ c.psk ++ c.peerId ++ [UInt8.ofNat c.iface.length] ++ c.iface ++ pad ∧ res.length = 3 ∧
    c.psk.length = 32 ∧ c.peerId.length = 32 ∧ c.iface.length + pad.length = 255 ∧ ∃ s : String, strBytes s = c.iface

theorem ofNat_toNat_of_lt {n : Nat} (h : n < 256) : (UInt8.ofNat n).toNat = n := by
  simp [UInt8.toNat_ofNat']; omega

theorem take_left {α : Type} (a b : List α) (n : Nat) (h : n = a.length) : (a ++ b).take n = a := by
  subst h; simp
theorem drop_left {α : Type} (a b : List α) (n : Nat) (h : n = a.length) : (a ++ b).drop n = b := by
  subst h; simp

theorem drop_drop' {α : Type} (l : List α) (m n k : Nat) (h : k = m + n) : l.drop k = (l.drop m).drop n := by
  subst h; rw [List.drop_drop]

/-- the fields of a request -/
theorem IsRequest.fields {req : Bytes} {c : Cfg} (h : IsRequest req c) :
    req.length = requestSize ∧ req.head? = some 1 ∧ reqPsk req = c.psk ∧ reqPeerId req = c.peerId ∧
      reqIface req = c.iface ∧ utf8 c.iface = true := by
  obtain ⟨res, pad, rfl, hr, hk, hp, hn, hs⟩ := h
  have e4 : ([1] ++ res ++ c.psk ++ c.peerId ++ [UInt8.ofNat c.iface.length] ++ c.iface ++ pad).drop 4
      = c.psk ++ (c.peerId ++ ([UInt8.ofNat c.iface.length] ++ (c.iface ++ pad))) := by
    rw [show [1] ++ res ++ c.psk ++ c.peerId ++ [UInt8.ofNat c.iface.length] ++ c.iface ++ pad
      = ([1] ++ res) ++ (c.psk ++ (c.peerId ++ ([UInt8.ofNat c.iface.length] ++ (c.iface ++ pad)))) by simp]
    exact drop_left _ _ _ (by simp [hr])
  have e36 : ([1] ++ res ++ c.psk ++ c.peerId ++ [UInt8.ofNat c.iface.length] ++ c.iface ++ pad).drop 36
      = c.peerId ++ ([UInt8.ofNat c.iface.length] ++ (c.iface ++ pad)) := by
    rw [drop_drop' _ 4 32 36 rfl, e4]; exact drop_left _ _ _ hk.symm
  have e68 : ([1] ++ res ++ c.psk ++ c.peerId ++ [UInt8.ofNat c.iface.length] ++ c.iface ++ pad).drop 68
      = [UInt8.ofNat c.iface.length] ++ (c.iface ++ pad) := by
    rw [drop_drop' _ 36 32 68 rfl, e36]; exact drop_left _ _ _ hp.symm
  have e69 : ([1] ++ res ++ c.psk ++ c.peerId ++ [UInt8.ofNat c.iface.length] ++ c.iface ++ pad).drop 69
      = c.iface ++ pad := by
    rw [drop_drop' _ 68 1 69 rfl, e68]; exact drop_left _ _ _ rfl
  have hsz : reqIfaceSize ([1] ++ res ++ c.psk ++ c.peerId ++ [UInt8.ofNat c.iface.length] ++ c.iface ++ pad)
      = UInt8.ofNat c.iface.length := by
    unfold reqIfaceSize
    have : ∀ (l : Bytes) (n : Nat), l[n]? = (l.drop n).head? := by intro l n; simp [List.head?_drop]
    rw [this, e68]; rfl
  refine ⟨?_, ?_, ?_, ?_, ?_, (utf8_iff _).2 hs⟩
  · have e : requestSize = 324 := rfl
    rw [e]
    simp only [List.length_append, List.length_cons, List.length_nil]; omega
  · simp
  · unfold reqPsk; rw [e4]; exact take_left _ _ _ hk.symm
  · unfold reqPeerId; rw [e36]; exact take_left _ _ _ hp.symm
  · unfold reqIface
    rw [hsz, e69, ofNat_toNat_of_lt (by omega), List.take_of_length_le (i := 255) (by simp; omega)]
    exact take_left _ _ _ rfl

theorem take_append_take_drop {α : Type} (l : List α) (n m : Nat) : l.drop n = (l.drop n).take m ++ l.drop (n + m) := by
  rw [← List.drop_drop]; exact (List.take_append_drop m _).symm

/-- everything that passes the checks of the server is a request -/
theorem isRequest_of_checks {req : Bytes} (hl : req.length = requestSize) (ht : req.head? = some 1) (hu : utf8 (reqIface req) = true) :
    IsRequest req ⟨reqIface req, reqPeerId req, reqPsk req⟩ := by
  have hl' : req.length = 324 := hl
  have hi : (reqIface req).length = (reqIfaceSize req).toNat := by
    have := (reqIfaceSize req).toNat_lt
    unfold reqIface
    rw [List.length_take, List.length_take, List.length_drop, hl']; omega
  refine ⟨(req.drop 1).take 3, ((req.drop 69).take 255).drop (reqIfaceSize req).toNat, ?_, ?_, ?_, ?_, ?_, (utf8_iff _).1 hu⟩
  · have e0 : req = [1] ++ req.drop 1 := by
      cases req with
      | nil => simp at ht
      | cons a l => simp at ht; simp [ht]
    have e1 := take_append_take_drop req 1 3
    have e4 := take_append_take_drop req 4 32
    have e36 := take_append_take_drop req 36 32
    have e68 : req.drop 68 = [UInt8.ofNat (reqIface req).length] ++ req.drop 69 := by
      rw [hi, UInt8.ofNat_toNat, List.drop_eq_getElem_cons (by omega)]
      unfold reqIfaceSize
      rw [List.getElem?_eq_getElem (by omega)]; rfl
    have e69 : req.drop 69 = reqIface req ++ ((req.drop 69).take 255).drop (reqIfaceSize req).toNat := by
      unfold reqIface
      rw [List.take_append_drop, List.take_of_length_le (by simp; omega)]
    conv => lhs; rw [e0, e1, e4, e36, e68, e69]
    simp [reqPsk, reqPeerId]
  · rw [List.length_take, List.length_drop]; omega
  · unfold reqPsk; rw [List.length_take, List.length_drop]; omega
  · unfold reqPeerId; rw [List.length_take, List.length_drop]; omega
  · have := (reqIfaceSize req).toNat_lt
    show (reqIface req).length + _ = 255
    rw [hi, List.length_drop, List.length_take, List.length_drop]; omega

theorem IsRequest.unique {req : Bytes} {c c' : Cfg} (h : IsRequest req c) (h' : IsRequest req c') : c = c' := by
  obtain ⟨_, _, h1, h2, h3, _⟩ := h.fields
  obtain ⟨_, _, h1', h2', h3', _⟩ := h'.fields
  cases c; cases c'
  simp_all

/-- a request is handed to the broker and answered with the broker's result -/
theorem handle_request {σ : Type} (inner : Inner σ) (s : σ) {req : Bytes} {c : Cfg} (h : IsRequest req c) :
    handleMessage inner s req = (some (envelope [code (inner s c).1]), (inner s c).2) := by
  obtain ⟨hl, ht, hk, hp, hn, hu⟩ := h.fields
  unfold handleMessage
  rw [ht]; dsimp only
  rw [if_pos (by decide), if_pos hl]
  unfold handleSetPsk
  rw [hk, hp, hn, if_pos hu]

/-- **C45.** Whatever bytes the broker server receives: either they are a request in the specified format, or they are
refused and the broker is not touched. -/
theorem malformed_requests_refused {σ : Type} (inner : Inner σ) (s : σ) (req : Bytes) :
    (∃ c, IsRequest req c ∧ handleMessage inner s req = (some (envelope [code (inner s c).1]), (inner s c).2)) ∨
    ((¬ ∃ c, IsRequest req c) ∧ handleMessage inner s req = (none, s)) := by
  by_cases h : ∃ c, IsRequest req c
  · obtain ⟨c, hc⟩ := h
    exact .inl ⟨c, hc, handle_request inner s hc⟩
  · refine .inr ⟨h, ?_⟩
    unfold handleMessage
    cases ht : req.head? with
    | none => rfl
    | some t =>
      dsimp only
      by_cases hk : knownType t = true
      · rw [if_pos hk]
        by_cases hl : req.length = requestSize
        · rw [if_pos hl]
          have hu : ¬ utf8 (reqIface req) = true := by
            intro hu
            have : t = 1 := by simpa [knownType] using hk
            exact h ⟨_, isRequest_of_checks hl (by rw [ht, this]) hu⟩
          unfold handleSetPsk
          rw [if_neg hu]
        · rw [if_neg hl]
      · rw [if_neg hk]

/-- wrong length, wrong type: refused (the two cases named in C45) -/
theorem wrong_type_refused {σ : Type} (inner : Inner σ) (s : σ) (req : Bytes) (h : req.head? ≠ some 1) :
    handleMessage inner s req = (none, s) := by
  rcases malformed_requests_refused inner s req with ⟨c, hc, _⟩ | ⟨_, h2⟩
  · exact absurd hc.fields.2.1 h
  · exact h2
theorem wrong_length_refused {σ : Type} (inner : Inner σ) (s : σ) (req : Bytes) (h : req.length ≠ 324) :
    handleMessage inner s req = (none, s) := by
  rcases malformed_requests_refused inner s req with ⟨c, hc, _⟩ | ⟨_, h2⟩
  · exact absurd hc.fields.1 h
  · exact h2

/-- the request built by a client -/
theorem buildRequest_spec (c : Cfg) (hw : c.WF) :
    (∃ s : String, strBytes s = c.iface ∧ c.iface.length ≤ 255 ∧ ∃ m, buildRequest c = .ok m ∧ IsRequest m c) ∨
    ((c.iface.length ≤ 255 → ¬ ∃ s : String, strBytes s = c.iface) ∧ ∃ e, buildRequest c = .error e) := by
  unfold buildRequest
  by_cases hu : utf8 c.iface = true
  · rw [if_pos hu]
    unfold ifaceField
    by_cases hl : c.iface.length < 256
    · rw [if_pos hl]
      obtain ⟨s, hs⟩ := (utf8_iff _).1 hu
      refine .inl ⟨s, hs, by omega, _, rfl, [0, 0, 0], List.replicate (255 - c.iface.length) 0, ?_, rfl, hw.psk, hw.peerId, ?_, s, hs⟩
      · simp [envelope, setPskType]
      · rw [List.length_replicate]; omega
    · rw [if_neg hl]
      exact .inr ⟨fun h => absurd h (by omega), _, rfl⟩
  · rw [if_neg hu]
    exact .inr ⟨fun _ h => hu ((utf8_iff _).2 h), _, rfl⟩

/-- **C43.** For every interface name of at most 255 bytes, peer and key, the request built by the client makes the
broker server set exactly that key for that peer on that interface. -/
theorem request_round_trip (name : String) (hn : (strBytes name).length ≤ 255) (peer psk : Bytes) (hp : peer.length = 32)
    (hk : psk.length = 32) :
    ∃ m, buildRequest ⟨strBytes name, peer, psk⟩ = .ok m ∧ m.length = 324 ∧
      ∀ (σ : Type) (inner : Inner σ) (s : σ),
        handleMessage inner s m = (some (envelope [code (inner s ⟨strBytes name, peer, psk⟩).1]), (inner s ⟨strBytes name, peer, psk⟩).2) := by
  rcases buildRequest_spec ⟨strBytes name, peer, psk⟩ ⟨hp, hk⟩ with ⟨_, _, _, m, hm, hr⟩ | ⟨h, _⟩
  · exact ⟨m, hm, hr.fields.1, fun σ inner s => handle_request inner s hr⟩
  · exact absurd ⟨name, rfl⟩ (h hn)

/-- **C43.** A longer name is refused; nothing is sent and nothing is queued. -/
theorem long_name_refused (c : Client) (name : String) (hn : 255 < (strBytes name).length) (peer psk : Bytes) (w : Client.World) :
    c.setPsk ⟨strBytes name, peer, psk⟩ w = (.error .error, false, c) := by
  unfold Client.setPsk buildRequest
  rw [if_pos ((utf8_iff _).2 ⟨name, rfl⟩)]
  unfold ifaceField
  rw [if_neg (by simp only; omega)]

theorem ofCode_code (r : PskRes) : ofCode (code r) = some r := by
  rcases r with (_ | _ | _) | ⟨⟨⟩⟩ <;> rfl

theorem ofCode_eq (b : UInt8) (r : PskRes) (h : ofCode b = some r) : b = code r := by
  unfold ofCode at h
  by_cases h0 : b = 0x00
  · subst h0; rw [if_pos rfl] at h; cases h; rfl
  rw [if_neg h0] at h
  by_cases h0 : b = 0x01
  · subst h0; rw [if_pos rfl] at h; cases h; rfl
  rw [if_neg h0] at h
  by_cases h0 : b = 0x02
  · subst h0; rw [if_pos rfl] at h; cases h; rfl
  rw [if_neg h0] at h
  by_cases h0 : b = 0x03
  · subst h0; rw [if_pos rfl] at h; cases h; rfl
  rw [if_neg h0] at h
  cases h

/-- **C44.** The client reads a result from an answer exactly if the answer has the specified format; different results
have different codes. -/
theorem parseResponse_exact (b : Bytes) (r : PskRes) :
    parseResponse b = some r ↔ ∃ x y z, b = [1, x, y, z, code r] := by
  constructor
  · intro h
    unfold parseResponse at h
    rcases b with _ | ⟨t, _ | ⟨x, _ | ⟨y, _ | ⟨z, _ | ⟨c, _ | ⟨e, l⟩⟩⟩⟩⟩⟩
    · cases h
    all_goals dsimp only [List.head?_cons] at h
    all_goals by_cases hk : knownType t = true
    all_goals first
      | (rw [if_neg hk] at h; cases h; done)
      | rw [if_pos hk] at h
    · rw [if_neg (by simp [responseSize, envelopeOverhead])] at h; cases h
    · rw [if_neg (by simp [responseSize, envelopeOverhead])] at h; cases h
    · rw [if_neg (by simp [responseSize, envelopeOverhead])] at h; cases h
    · rw [if_neg (by simp [responseSize, envelopeOverhead])] at h; cases h
    · rw [if_pos (by simp [responseSize, envelopeOverhead])] at h
      dsimp only [List.getElem?_cons_succ, List.getElem?_cons_zero] at h
      have ht : t = 1 := by simpa [knownType] using hk
      exact ⟨x, y, z, by rw [ht, ofCode_eq c r h]⟩
    · rw [if_neg (by simp [responseSize, envelopeOverhead])] at h; cases h
  · rintro ⟨x, y, z, rfl⟩
    unfold parseResponse
    dsimp only [List.head?_cons]
    rw [if_pos (by decide), if_pos (by simp [responseSize, envelopeOverhead])]
    exact ofCode_code r

/-- **C44.** The answer to a request carries the result of the broker: the client that reads it sees that result. -/
theorem result_reported {σ : Type} (inner : Inner σ) (s : σ) (req : Bytes) (c : Cfg) (h : IsRequest req c) :
    ∃ ans, (handleMessage inner s req).1 = some ans ∧ ans.length = 5 ∧ parseResponse ans = some (inner s c).1 := by
  rw [handle_request inner s h]
  exact ⟨_, rfl, rfl, (parseResponse_exact _ _).2 ⟨0, 0, 0, rfl⟩⟩

/-! ### The netlink broker -/

/-- Specification: `k'` is `k` with the key of one peer replaced. -/
def KeySet (k k' : Kernel) (c : Cfg) : Prop :=
  ∃ peers old, k c.iface = some peers ∧ peers c.peerId = some old ∧
    (∃ peers', k' c.iface = some peers' ∧ peers' c.peerId = some c.psk ∧ ∀ p, p ≠ c.peerId → peers' p = peers p) ∧
    ∀ i, i ≠ c.iface → k' i = k i

/-- Nothing else talks to the kernel during the call. -/
def NlEnv.Quiet (e : NlEnv) : Prop := ∀ k, e.meanwhile k = k

theorem update_spec (k : Kernel) (c : Cfg) :
    (k c.iface = none ∧ k.update c = none) ∨
    (∃ peers, k c.iface = some peers ∧ peers c.peerId = none ∧ k.update c = some k) ∨
    (∃ k', k.update c = some k' ∧ KeySet k k' c) := by
  unfold Kernel.update
  cases h1 : k c.iface with
  | none => exact .inl ⟨rfl, rfl⟩
  | some peers =>
    dsimp only
    cases h2 : peers c.peerId with
    | none => exact .inr (.inl ⟨peers, rfl, h2, rfl⟩)
    | some old =>
      refine .inr (.inr ⟨_, rfl, peers, old, h1, h2, ⟨_, if_pos rfl, if_pos rfl, fun p hp => if_neg hp⟩, fun i hi => if_neg hi⟩)

/-- **C44.** As long as nothing else changes the WireGuard configuration during the call, the netlink broker reports
success exactly if the key of that peer was replaced (and nothing else was changed); it reports `NoSuchPeer` exactly if the
exchange with the kernel works and shows the interface without the peer; whenever it does not report success, nothing
was changed. -/
theorem netlink_result_partial (e : NlEnv) (hq : e.Quiet) (k : Kernel) (c : Cfg) :
    ((netlink e k c).1 = .ok () ∧ KeySet k (netlink e k c).2 c) ∨
    ((netlink e k c).1 = .error .noSuchPeer ∧ (netlink e k c).2 = k ∧ ∃ peers, k c.iface = some peers ∧ peers c.peerId = none) ∨
    ((netlink e k c).1 = .error .internalError ∧ (netlink e k c).2 = k ∧
      (utf8 c.iface = false ∨ e.getFails = true ∨ e.setFails = true ∨ k c.iface = none)) := by
  unfold netlink netlinkSetPsk
  by_cases hu : utf8 c.iface = true
  · rw [if_pos hu]
    by_cases hg : e.getFails = true
    · rw [if_pos hg]
      exact .inr (.inr ⟨rfl, hq k, .inr (.inl hg)⟩)
    · rw [if_neg hg]
      cases h1 : k c.iface with
      | none => exact .inr (.inr ⟨rfl, hq k, .inr (.inr (.inr rfl))⟩)
      | some peers =>
        dsimp only
        by_cases hp : (peers c.peerId).isSome = true
        · rw [if_pos hp, hq k]
          by_cases hs : e.setFails = true
          · rw [if_pos hs]
            exact .inr (.inr ⟨rfl, rfl, .inr (.inr (.inl hs))⟩)
          · rw [if_neg hs]
            rcases update_spec k c with ⟨h, _⟩ | ⟨p', h, h', _⟩ | ⟨k', h, hk⟩
            · rw [h1] at h; cases h
            · rw [h1] at h; cases h; rw [h'] at hp; cases hp
            · rw [h]; exact .inl ⟨rfl, hk⟩
        · rw [if_neg hp]
          exact .inr (.inl ⟨rfl, hq k, peers, rfl, by simpa using hp⟩)
  · rw [if_neg hu]
    exact .inr (.inr ⟨rfl, rfl, .inl (by simpa using hu)⟩)

/-- **C44, false of the code.** A missing interface is never reported as such: whatever the call, the result is not
`NoSuchInterface`. -/
theorem missing_interface_never_reported (e : NlEnv) (k : Kernel) (c : Cfg) : (netlink e k c).1 ≠ .error .noSuchInterface := by
  unfold netlink
  rcases netlinkSetPsk k e c with ⟨(_ | _ | _) | ⟨⟨⟩⟩, k'⟩ <;> (dsimp only [NlErr.toMsgs]; intro h; cases h)

/-- **C44, false of the code.** For a missing interface the client is told of an internal error. -/
theorem missing_interface_is_internal_error (e : NlEnv) (k : Kernel) (req : Bytes) (c : Cfg) (hr : IsRequest req c)
    (hk : k c.iface = none) :
    ∃ ans, (handleMessage (netlink e) k req).1 = some ans ∧ parseResponse ans = some (.error .internalError) := by
  obtain ⟨ans, h1, _, h2⟩ := result_reported (netlink e) k req c hr
  refine ⟨ans, h1, h2.trans ?_⟩
  congr 1
  unfold netlink netlinkSetPsk
  rw [if_pos hr.fields.2.2.2.2.2, hk]
  by_cases hg : e.getFails = true
  · rw [if_pos hg]; rfl
  · rw [if_neg hg]; rfl

/-- **C44, false of the code.** If the peer is removed between the two exchanges with the kernel, the broker reports
success although no key was set. -/
theorem removed_peer_reported_as_success (c : Cfg) (hu : utf8 c.iface = true) :
    ∃ (e : NlEnv) (k : Kernel), (netlink e k c).1 = .ok () ∧ (netlink e k c).2 = e.meanwhile k ∧
      ∃ peers, (netlink e k c).2 c.iface = some peers ∧ peers c.peerId = none := by
  refine ⟨⟨false, false, fun _ => fun i => if i = c.iface then some (fun _ => none) else none⟩,
    fun i => if i = c.iface then some (fun _ => some []) else none, ?_⟩
  unfold netlink netlinkSetPsk Kernel.update
  simp [hu]

/-! ### The privileged process -/

/-- Specification: a broker that has been sent a sequence of messages: the answers to the requests among them, in
order, and the final state. -/
def handleAll {σ : Type} (inner : Inner σ) : σ → List Bytes → List Bytes × σ
  | s, [] => ([], s)
  | s, m :: ms =>
    let x := handleMessage inner s m
    let y := handleAll inner x.2 ms
    (x.1.toList ++ y.1, y.2)

theorem turn_frame {σ : Type} (inner : Inner σ) (s : σ) (m rest : Bytes) (hm : m.length ≤ 324) :
    turn inner s (frame m ++ rest) = .done (frames (handleMessage inner s m).1.toList) (handleMessage inner s m).2 rest := by
  have h8 : (frame m ++ rest).take 8 = toLE 8 m.length := Dec.frame_take m rest
  have hv : leNat (toLE 8 m.length) = m.length := leNat_toLE 8 _ (by simp; omega)
  unfold turn
  rw [h8, hv, if_neg (by rw [List.length_append, LengthPrefix.frame_length]; omega)]
  dsimp only
  rw [if_neg (by unfold requestSize envelopeOverhead; omega),
    if_neg (by rw [List.length_append, LengthPrefix.frame_length]; omega)]
  have hd : ((frame m ++ rest).drop 8).take m.length = m := by
    rw [show frame m ++ rest = toLE 8 m.length ++ (m ++ rest) by simp [frame], drop_left _ _ _ (toLE_length 8 _).symm]
    exact take_left _ _ _ rfl
  rw [hd, drop_left _ _ _ (LengthPrefix.frame_length m).symm]
  cases (handleMessage inner s m).1 with
  | none => rfl
  | some r => simp [frames, frame]

theorem turn_consumes {σ : Type} (inner : Inner σ) (s s' : σ) (inp out rest : Bytes) (h : turn inner s inp = .done out s' rest) :
    rest.length + 8 ≤ inp.length := by
  unfold turn at h
  by_cases h0 : inp.length < 8
  · rw [if_pos h0] at h; cases h
  rw [if_neg h0] at h
  dsimp only at h
  by_cases h1 : requestSize < leNat (inp.take 8)
  · rw [if_pos h1] at h; cases h
  rw [if_neg h1] at h
  by_cases h2 : inp.length < 8 + leNat (inp.take 8)
  · rw [if_pos h2] at h; cases h
  rw [if_neg h2] at h
  cases h3 : (handleMessage inner s ((inp.drop 8).take (leNat (inp.take 8)))).1 with
  | none => rw [h3] at h; cases h; rw [List.length_drop]; omega
  | some r => rw [h3] at h; cases h; rw [List.length_drop]; omega

/-- more turns than bytes make no difference -/
theorem serveN_enough {σ : Type} (inner : Inner σ) : ∀ (n : Nat) (s : σ) (inp : Bytes), inp.length ≤ n →
    serveN inner n s inp = serve inner s inp := by
  have key : ∀ (n m : Nat) (s : σ) (inp : Bytes), inp.length ≤ n → inp.length ≤ m → serveN inner n s inp = serveN inner m s inp := by
    intro n
    induction n with
    | zero =>
      intro m s inp h _
      cases m with
      | zero => rfl
      | succ m =>
        have : turn inner s inp = .blocked := by unfold turn; rw [if_pos (by omega)]
        unfold serveN; rw [this]
    | succ n ih =>
      intro m s inp h h'
      cases m with
      | zero =>
        have : turn inner s inp = .blocked := by unfold turn; rw [if_pos (by omega)]
        unfold serveN; rw [this]
      | succ m =>
        rw [serveN, serveN]
        cases ht : turn inner s inp with
        | blocked => rfl
        | oversized => rfl
        | done out s' rest =>
          have := turn_consumes inner s s' inp out rest ht
          dsimp only
          rw [ih m s' rest (by omega) (by omega)]
  intro n s inp h
  exact key n inp.length s inp h (Nat.le_refl _)

theorem serve_turn {σ : Type} (inner : Inner σ) (s s' : σ) (inp out rest : Bytes) (h : turn inner s inp = .done out s' rest) :
    serve inner s inp = ⟨out ++ (serve inner s' rest).out, (serve inner s' rest).state, (serve inner s' rest).rest, (serve inner s' rest).ended⟩ := by
  have hc := turn_consumes inner s s' inp out rest h
  conv => lhs; unfold serve
  cases hn : inp.length with
  | zero => omega
  | succ n =>
    rw [serveN, h]
    dsimp only
    rw [serveN_enough inner n s' rest (by omega)]

/-- **C77.** The privileged process handles the messages it receives one after the other in the order received, answers
every well-formed request by exactly one message (its result, see `result_reported`), in order, and nothing else; what
follows the messages is left for later. -/
theorem privileged_in_order {σ : Type} (inner : Inner σ) (ms : List Bytes) : ∀ (s : σ) (rest : Bytes), (∀ m ∈ ms, m.length ≤ 324) →
    (serve inner s (frames ms ++ rest)) =
      ⟨frames (handleAll inner s ms).1 ++ (serve inner (handleAll inner s ms).2 rest).out,
        (serve inner (handleAll inner s ms).2 rest).state, (serve inner (handleAll inner s ms).2 rest).rest,
        (serve inner (handleAll inner s ms).2 rest).ended⟩ := by
  induction ms with
  | nil => intro s rest _; rfl
  | cons m ms ih =>
    intro s rest h
    have e : frames (m :: ms) ++ rest = frame m ++ (frames ms ++ rest) := by simp [frames]
    rw [e, serve_turn inner s _ _ _ _ (turn_frame inner s m _ (h m List.mem_cons_self)), ih _ _ (fun x hx => h x (List.mem_cons_of_mem _ hx))]
    simp [handleAll, frames]

/-- an incomplete message is left waiting -/
theorem serve_incomplete {σ : Type} (inner : Inner σ) (s : σ) (m p : Bytes) (hm : m.length ≤ 324) (hp : p <+: frame m)
    (hne : p ≠ frame m) : serve inner s p = ⟨[], s, p, false⟩ := by
  have hlt : p.length < (frame m).length := by
    obtain ⟨t, ht⟩ := hp
    have : t ≠ [] := by rintro rfl; simp at ht; exact hne ht
    have := List.length_pos_iff.2 this
    rw [← ht, List.length_append]; omega
  rw [LengthPrefix.frame_length] at hlt
  have hb : turn inner s p = .blocked := by
    unfold turn
    by_cases h0 : p.length < 8
    · rw [if_pos h0]
    rw [if_neg h0]
    have h8 : p.take 8 = toLE 8 m.length := by
      obtain ⟨t, ht⟩ := hp
      have h1 := Dec.frame_take m []
      rw [List.append_nil, ← ht, List.take_append_of_le_length (by omega)] at h1
      exact h1
    have hv : leNat (toLE 8 m.length) = m.length := leNat_toLE 8 _ (by simp; omega)
    dsimp only
    rw [h8, hv, if_neg (by unfold requestSize envelopeOverhead; omega), if_pos (by omega)]
  unfold serve
  cases p.length with
  | zero => rfl
  | succ n => rw [serveN, hb]

/-- **C77.** A message that announces more than 324 bytes ends the process; nothing after it is handled. -/
theorem oversized_ends_process {σ : Type} (inner : Inner σ) (s : σ) (header rest : Bytes) (hh : header.length = 8)
    (hb : 324 < leNat header) : serve inner s (header ++ rest) = ⟨[], s, header ++ rest, true⟩ := by
  have ht : turn inner s (header ++ rest) = .oversized := by
    unfold turn
    rw [if_neg (by rw [List.length_append]; omega), take_left _ _ _ hh.symm]
    dsimp only
    rw [if_pos (by unfold requestSize envelopeOverhead; omega)]
  unfold serve
  rw [show (header ++ rest).length = (header ++ rest).length - 1 + 1 by rw [List.length_append]; omega, serveN, ht]

end Verif.Broker
