import Verif.Model.Msgs
import Verif.Model.Server
/-
C29: the wire format. Every struct view is a bijection between well-sized field tuples and
byte strings of exactly the declared size; the envelope determines and is determined by its bytes;
message types decode to what was encoded and nothing else decodes.
-/
namespace Verif

theorem List.take_drop_all {α} (b : List α) (n m : Nat) (h : b.length = n + m) :
    b.take n ++ (b.drop n) = b ∧ (b.drop n).length = m := by
  constructor
  · exact List.take_append_drop n b
  · simp [h]

namespace MsgType
/-- Decoding a type byte succeeds exactly for the five assigned codes and inverts encoding. -/
theorem ofU8_toU8 (t : MsgType) : ofU8 t.toU8 = some t := by cases t <;> rfl

theorem ofU8_eq_some_iff (b : UInt8) (t : MsgType) : ofU8 b = some t ↔ b = t.toU8 := by
  constructor
  · intro h
    unfold ofU8 at h
    split at h
    · cases h; assumption
    split at h
    · cases h; assumption
    split at h
    · cases h; assumption
    split at h
    · cases h; assumption
    split at h
    · cases h; assumption
    · cases h
  · rintro rfl; exact ofU8_toU8 t

theorem toU8_inj {a b : MsgType} (h : a.toU8 = b.toU8) : a = b := by
  have := ofU8_toU8 a
  rw [h, ofU8_toU8 b] at this
  exact (Option.some.inj this).symm
end MsgType

namespace InitHello
theorem encode_length {C m} (h : WF C m) : (encode m).length = size C := by
  obtain ⟨h1, h2, h3, h4, h5⟩ := h
  simp [encode, size, h1, h2, h3, h4, h5]; omega

theorem decode_encode {C m} (h : WF C m) : decode C (encode m) = m := by
  obtain ⟨h1, h2, h3, h4, h5⟩ := h
  cases m
  simp_all [decode, encode, List.take_left', List.drop_left']

theorem encode_decode (C : Crypto) (b : Bytes) : encode (decode C b) = b := by
  simp only [decode, encode, List.take_append_drop]

theorem decode_WF {C b} (h : b.length = size C) : WF C (decode C b) := by
  unfold size at h
  simp only [WF, decode, List.length_take, List.length_drop]
  omega
end InitHello

namespace RespHello
theorem encode_length {C m} (h : WF C m) : (encode m).length = size C := by
  obtain ⟨h1, h2, h3, h4, h5, h6⟩ := h
  simp [encode, size, h1, h2, h3, h4, h5, h6]; omega

theorem decode_encode {C m} (h : WF C m) : decode C (encode m) = m := by
  obtain ⟨h1, h2, h3, h4, h5, h6⟩ := h
  cases m
  simp_all [decode, encode, List.take_left', List.drop_left']

theorem encode_decode (C : Crypto) (b : Bytes) : encode (decode C b) = b := by
  simp only [decode, encode, List.take_append_drop]

theorem decode_WF {C b} (h : b.length = size C) : WF C (decode C b) := by
  unfold size at h
  simp only [WF, decode, List.length_take, List.length_drop]
  omega
end RespHello

namespace InitConf
theorem encode_length {m} (h : WF m) : (encode m).length = size := by
  obtain ⟨h1, h2, h3, h4⟩ := h
  simp [encode, size, h1, h2, h3, h4, biscuitCtLen]

theorem decode_encode {m} (h : WF m) : decode (encode m) = m := by
  obtain ⟨h1, h2, h3, h4⟩ := h
  cases m
  simp_all [decode, encode, List.take_left', List.drop_left']

theorem encode_decode (b : Bytes) : encode (decode b) = b := by
  simp only [decode, encode, List.take_append_drop]

theorem decode_WF {b : Bytes} (h : b.length = size) : WF (decode b) := by
  simp only [size, biscuitCtLen] at h
  simp only [WF, decode, List.length_take, List.length_drop, biscuitCtLen]
  omega
end InitConf

namespace EmptyData
theorem encode_length {m} (h : WF m) : (encode m).length = size := by
  obtain ⟨h1, h2, h3⟩ := h
  simp [encode, size, h1, h2, h3]

theorem decode_encode {m} (h : WF m) : decode (encode m) = m := by
  obtain ⟨h1, h2, h3⟩ := h
  cases m
  simp_all [decode, encode, List.take_left', List.drop_left']

theorem encode_decode (b : Bytes) : encode (decode b) = b := by
  simp only [decode, encode, List.take_append_drop]

theorem decode_WF {b : Bytes} (h : b.length = size) : WF (decode b) := by
  simp only [size] at h
  simp only [WF, decode, List.length_take, List.length_drop]
  omega
end EmptyData

namespace Biscuit
theorem encode_length {m} (h : WF m) : (encode m).length = size := by
  obtain ⟨h1, h2, h3⟩ := h
  simp [encode, size, h1, h2, h3]

theorem decode_encode {m} (h : WF m) : decode (encode m) = m := by
  obtain ⟨h1, h2, h3⟩ := h
  cases m
  simp_all [decode, encode, List.take_left', List.drop_left']

theorem encode_decode (b : Bytes) : encode (decode b) = b := by
  simp only [decode, encode, List.take_append_drop]

theorem decode_WF {b : Bytes} (h : b.length = size) : WF (decode b) := by
  simp only [size] at h
  simp only [WF, decode, List.length_take, List.length_drop]
  omega
end Biscuit

namespace Env
theorem encode_length {n e} (h : WF n e) : (encode e).length = size n := by
  obtain ⟨h1, h2, h3, h4⟩ := h
  simp [encode, toCookie, toMac, size, h1, h2, h3, h4]; omega

theorem view_encode {n e} (h : WF n e) : view n (encode e) = e := by
  obtain ⟨h1, h2, h3, h4⟩ := h
  obtain ⟨t, r, p, m, c⟩ := e
  simp only at h1 h2 h3 h4
  have e1 : encode ⟨t, r, p, m, c⟩ = t :: (r ++ (p ++ (m ++ c))) := by
    simp [encode, toCookie, toMac]
  have e2 : (t :: (r ++ (p ++ (m ++ c)))).drop 4 = p ++ (m ++ c) := by
    rw [show (4 : Nat) = 3 + 1 from rfl, List.drop_succ_cons, List.drop_left' h1]
  have e3 : (t :: (r ++ (p ++ (m ++ c)))).drop (4 + n) = m ++ c := by
    rw [← List.drop_drop, e2, List.drop_left' h2]
  have e4 : (t :: (r ++ (p ++ (m ++ c)))).drop (4 + n + 16) = c := by
    rw [← List.drop_drop, e3, List.drop_left' h3]
  rw [e1]
  unfold view
  rw [e2, e3, e4, List.take_left' h2, List.take_left' h3]
  congr 1
  · simp [List.take_left' h1]
  · rw [← h4, List.take_length]

theorem view_WF {n b} (h : b.length = size n) : WF n (view n b) := by
  unfold size at h
  simp only [WF, view, List.length_take, List.length_drop]
  omega

theorem encode_view {n b} (h : b.length = size n) : encode (view n b) = b := by
  unfold size at h
  cases b with
  | nil => simp at h
  | cons t ts =>
    simp only [List.length_cons] at h
    have hs : ts = ts.take 3 ++ ((ts.drop 3).take n ++ ((ts.drop (3 + n)).take 16 ++ (ts.drop (3+n+16)).take 16)) := by
      have h4 : (ts.drop (3+n+16)).take 16 = ts.drop (3+n+16) := by
        apply List.take_of_length_le; simp; omega
      rw [h4, ← List.drop_drop (i := 16), List.take_append_drop, ← List.drop_drop (i := n),
        List.take_append_drop, List.take_append_drop]
    have e : encode (view n (t :: ts)) =
        t :: (ts.take 3 ++ ((ts.drop 3).take n ++ ((ts.drop (3 + n)).take 16 ++ (ts.drop (3+n+16)).take 16))) := by
      simp only [encode, toCookie, toMac, view, List.headD_cons, List.cons_append, List.append_assoc]
      rw [show 4 + n = (3 + n) + 1 by omega, show (3 + n) + 1 + 16 = (3 + n + 16) + 1 by omega]
      simp only [List.drop_succ_cons, List.drop_zero]
    rw [e, ← hs]

theorem decode_eq_some {n b e} (h : decode n b = some e) : b.length = size n ∧ e = view n b := by
  unfold decode at h
  split at h
  · cases h; exact ⟨by assumption, rfl⟩
  · cases h
end Env

namespace CookieReply
theorem innerSize_le (C : Crypto) : innerSize ≤ Env.size (InitHello.size C) := by
  simp only [innerSize, Env.size, InitHello.size]; omega

theorem size_eq (C : Crypto) : size C = Env.size (InitHello.size C) := by
  have := innerSize_le C
  unfold size padLen; omega

theorem encode_length {C m} (h : WF C m) : (encode m).length = size C := by
  obtain ⟨h1, h2, h3, h4⟩ := h
  simp only [encode, List.length_cons, List.length_append, h1, h2, h3, h4, size, innerSize]; omega

theorem decode_encode {C m} (h : WF C m) : decode C (encode m) = some m := by
  have hl := encode_length h
  obtain ⟨h1, h2, h3, h4⟩ := h
  obtain ⟨t, r, s, c, p⟩ := m
  simp only at h1 h2 h3 h4
  unfold decode
  rw [if_pos hl]
  have e2 : (t :: (r ++ (s ++ (c ++ p)))).drop 4 = s ++ (c ++ p) := by
    rw [show (4 : Nat) = 3 + 1 from rfl, List.drop_succ_cons, List.drop_left' h1]
  have e3 : (t :: (r ++ (s ++ (c ++ p)))).drop 8 = c ++ p := by
    rw [show (8 : Nat) = 4 + 4 from rfl, ← List.drop_drop, e2, List.drop_left' h2]
  have e4 : (t :: (r ++ (s ++ (c ++ p)))).drop 64 = p := by
    rw [show (64 : Nat) = 8 + 56 from rfl, ← List.drop_drop, e3, List.drop_left' h3]
  simp only [encode, e2, e3, e4, List.take_left' h2, List.take_left' h3]
  simp [List.take_left' h1]
end CookieReply

/-! ### The property -/

/-- C29. The envelope view is a bijection between well-sized field tuples and strings of exactly
`size n` bytes: encoding then viewing gives the fields back, viewing then encoding gives the bytes
back, and a buffer of any other size is refused. -/
theorem envelope_wire_bijection (n : Nat) :
    (∀ e, Env.WF n e → Env.decode n e.encode = some e) ∧
    (∀ b e, Env.decode n b = some e → Env.WF n e ∧ e.encode = b) ∧
    (∀ b, b.length ≠ n + 36 → Env.decode n b = none) ∧
    (∀ b, b.length = n + 36 → ∃ e, Env.decode n b = some e) := by
  refine ⟨?_, ?_, ?_, ?_⟩
  · intro e h
    unfold Env.decode
    rw [if_pos (Env.encode_length h), Env.view_encode h]
  · intro b e h
    obtain ⟨h1, rfl⟩ := Env.decode_eq_some h
    exact ⟨Env.view_WF h1, Env.encode_view h1⟩
  · intro b h
    unfold Env.decode Env.size
    rw [if_neg (by omega)]
  · intro b h
    unfold Env.decode Env.size
    rw [if_pos (by omega)]
    exact ⟨_, rfl⟩

/-- C29, payloads: all five message payloads and the biscuit are bijective views of their bytes. -/
theorem payload_wire_bijection (C : Crypto) :
    (∀ m, InitHello.WF C m → m.encode.length = 4 + C.epkLen + C.sctLen + 48 + 16 ∧ InitHello.decode C m.encode = m) ∧
    (∀ b, b.length = 4 + C.epkLen + C.sctLen + 48 + 16 → InitHello.WF C (.decode C b) ∧ (InitHello.decode C b).encode = b) ∧
    (∀ m, RespHello.WF C m → m.encode.length = 4 + 4 + C.ectLen + C.sctLen + 16 + 116 ∧ RespHello.decode C m.encode = m) ∧
    (∀ b, b.length = 4 + 4 + C.ectLen + C.sctLen + 16 + 116 → RespHello.WF C (.decode C b) ∧ (RespHello.decode C b).encode = b) ∧
    (∀ m, InitConf.WF m → m.encode.length = 140 ∧ InitConf.decode m.encode = m) ∧
    (∀ b, b.length = 140 → InitConf.WF (.decode b) ∧ (InitConf.decode b).encode = b) ∧
    (∀ m, EmptyData.WF m → m.encode.length = 28 ∧ EmptyData.decode m.encode = m) ∧
    (∀ b, b.length = 28 → EmptyData.WF (.decode b) ∧ (EmptyData.decode b).encode = b) ∧
    (∀ m, Biscuit.WF m → m.encode.length = 76 ∧ Biscuit.decode m.encode = m) ∧
    (∀ b, b.length = 76 → Biscuit.WF (.decode b) ∧ (Biscuit.decode b).encode = b) :=
  ⟨fun _ h => ⟨InitHello.encode_length h, InitHello.decode_encode h⟩,
   fun _ h => ⟨InitHello.decode_WF h, InitHello.encode_decode _ _⟩,
   fun _ h => ⟨RespHello.encode_length h, RespHello.decode_encode h⟩,
   fun _ h => ⟨RespHello.decode_WF h, RespHello.encode_decode _ _⟩,
   fun _ h => ⟨InitConf.encode_length h, InitConf.decode_encode h⟩,
   fun _ h => ⟨InitConf.decode_WF h, InitConf.encode_decode _⟩,
   fun _ h => ⟨EmptyData.encode_length h, EmptyData.decode_encode h⟩,
   fun _ h => ⟨EmptyData.decode_WF h, EmptyData.encode_decode _⟩,
   fun _ h => ⟨Biscuit.encode_length h, Biscuit.decode_encode h⟩,
   fun _ h => ⟨Biscuit.decode_WF h, Biscuit.encode_decode _⟩⟩

/-- the `n` bytes of `b` that start at position `i` -/
def bytesAt (b : Bytes) (i n : Nat) : Bytes := (b.drop i).take n

theorem bytesAt_append (x y : Bytes) (i n : Nat) (h : x.length = i) : bytesAt (x ++ y) i n = y.take n := by
  unfold bytesAt; rw [List.drop_left' h]

theorem bytesAt_mid {x y z : Bytes} {i n : Nat} (hx : x.length = i) (hy : y.length = n) : bytesAt (x ++ (y ++ z)) i n = y := by
  rw [bytesAt_append _ _ _ _ hx, List.take_left' hy]

/-- C29, layout: where each field is, in bytes from the start of the whole message: one byte for the type, three reserved ones, the payload, 16 bytes for the MAC and 16 for the
cookie; … -/
theorem envelope_layout {n : Nat} {e : Env} (h : Env.WF n e) :
    bytesAt e.encode 0 1 = [e.msgType] ∧ bytesAt e.encode 1 3 = e.reserved ∧ bytesAt e.encode 4 n = e.payload ∧ bytesAt e.encode (4 + n) 16 = e.mac ∧
    bytesAt e.encode (4 + n + 16) 16 = e.cookie ∧ e.toMac = e.encode.take (4 + n) ∧ e.toCookie = e.encode.take (4 + n + 16) := by
  obtain ⟨t, r, p, m, c⟩ := e
  obtain ⟨h1, h2, h3, h4⟩ := h
  dsimp only at h1 h2 h3 h4
  have e : Env.encode ⟨t, r, p, m, c⟩ = [t] ++ (r ++ (p ++ (m ++ c))) := by simp [Env.encode, Env.toCookie, Env.toMac]
  rw [e]
  refine ⟨rfl, bytesAt_mid rfl h1, ?_, ?_, ?_, ?_, ?_⟩
  · rw [show [t] ++ (r ++ (p ++ (m ++ c))) = ([t] ++ r) ++ (p ++ (m ++ c)) by simp]; exact bytesAt_mid (by simp [h1]) h2
  · rw [show [t] ++ (r ++ (p ++ (m ++ c))) = ([t] ++ r ++ p) ++ (m ++ c) by simp]; exact bytesAt_mid (by simp [h1, h2]; omega) h3
  · rw [show [t] ++ (r ++ (p ++ (m ++ c))) = ([t] ++ r ++ p ++ m) ++ (c ++ []) by simp]; exact bytesAt_mid (by simp [h1, h2, h3]; omega) h4
  · rw [show [t] ++ (r ++ (p ++ (m ++ c))) = ([t] ++ r ++ p) ++ (m ++ c) by simp, List.take_left' (by simp [h1, h2]; omega)]; simp [Env.toMac]
  · rw [show [t] ++ (r ++ (p ++ (m ++ c))) = ([t] ++ r ++ p ++ m) ++ c by simp, List.take_left' (by simp [h1, h2, h3]; omega)]; simp [Env.toCookie, Env.toMac]

/-- … and where each field is in the payload of each message, in the biscuit and in the cookie reply. -/
theorem payload_layout (C : Crypto) :
    (∀ m, InitHello.WF C m → bytesAt m.encode 0 4 = m.sidi ∧ bytesAt m.encode 4 C.epkLen = m.epki ∧ bytesAt m.encode (4 + C.epkLen) C.sctLen = m.sctr ∧
      bytesAt m.encode (4 + C.epkLen + C.sctLen) 48 = m.pidiCt ∧ bytesAt m.encode (4 + C.epkLen + C.sctLen + 48) 16 = m.auth) ∧
    (∀ m, RespHello.WF C m → bytesAt m.encode 0 4 = m.sidr ∧ bytesAt m.encode 4 4 = m.sidi ∧ bytesAt m.encode 8 C.ectLen = m.ecti ∧
      bytesAt m.encode (8 + C.ectLen) C.sctLen = m.scti ∧ bytesAt m.encode (8 + C.ectLen + C.sctLen) 16 = m.auth ∧ bytesAt m.encode (8 + C.ectLen + C.sctLen + 16) 116 = m.biscuitCt) ∧
    (∀ m, InitConf.WF m → bytesAt m.encode 0 4 = m.sidi ∧ bytesAt m.encode 4 4 = m.sidr ∧ bytesAt m.encode 8 116 = m.biscuitCt ∧ bytesAt m.encode 124 16 = m.auth) ∧
    (∀ m, EmptyData.WF m → bytesAt m.encode 0 4 = m.sid ∧ bytesAt m.encode 4 8 = m.ctr ∧ bytesAt m.encode 12 16 = m.auth) ∧
    (∀ m, Biscuit.WF m → bytesAt m.encode 0 32 = m.pidi ∧ bytesAt m.encode 32 12 = m.biscuitNo ∧ bytesAt m.encode 44 32 = m.ck) ∧
    (∀ m, CookieReply.WF C m → bytesAt m.encode 0 1 = [m.msgType] ∧ bytesAt m.encode 1 3 = m.reserved ∧ bytesAt m.encode 4 4 = m.sid ∧ bytesAt m.encode 8 56 = m.cookieEncrypted ∧
      bytesAt m.encode 64 (CookieReply.padLen C) = m.padding) := by
  refine ⟨?_, ?_, ?_, ?_, ?_, ?_⟩
  · rintro ⟨a, b, c, d, e⟩ ⟨h1, h2, h3, h4, h5⟩
    dsimp only at h1 h2 h3 h4 h5
    refine ⟨bytesAt_mid (x := []) rfl h1, bytesAt_mid h1 h2, ?_, ?_, ?_⟩
    · rw [show InitHello.encode ⟨a, b, c, d, e⟩ = (a ++ b) ++ (c ++ (d ++ e)) by simp [InitHello.encode]]; exact bytesAt_mid (by simp [h1, h2]) h3
    · rw [show InitHello.encode ⟨a, b, c, d, e⟩ = (a ++ b ++ c) ++ (d ++ e) by simp [InitHello.encode]]; exact bytesAt_mid (by simp [h1, h2, h3]; omega) h4
    · rw [show InitHello.encode ⟨a, b, c, d, e⟩ = (a ++ b ++ c ++ d) ++ (e ++ []) by simp [InitHello.encode]]; exact bytesAt_mid (by simp [h1, h2, h3, h4]; omega) h5
  · rintro ⟨a, b, c, d, e, f⟩ ⟨h1, h2, h3, h4, h5, h6⟩
    dsimp only at h1 h2 h3 h4 h5 h6
    refine ⟨bytesAt_mid (x := []) rfl h1, bytesAt_mid h1 h2, ?_, ?_, ?_, ?_⟩
    · rw [show RespHello.encode ⟨a, b, c, d, e, f⟩ = (a ++ b) ++ (c ++ (d ++ (e ++ f))) by simp [RespHello.encode]]; exact bytesAt_mid (by simp [h1, h2]) h3
    · rw [show RespHello.encode ⟨a, b, c, d, e, f⟩ = (a ++ b ++ c) ++ (d ++ (e ++ f)) by simp [RespHello.encode]]; exact bytesAt_mid (by simp [h1, h2, h3]; omega) h4
    · rw [show RespHello.encode ⟨a, b, c, d, e, f⟩ = (a ++ b ++ c ++ d) ++ (e ++ f) by simp [RespHello.encode]]; exact bytesAt_mid (by simp [h1, h2, h3, h4]; omega) h5
    · rw [show RespHello.encode ⟨a, b, c, d, e, f⟩ = (a ++ b ++ c ++ d ++ e) ++ (f ++ []) by simp [RespHello.encode]]; exact bytesAt_mid (by simp [h1, h2, h3, h4, h5]; omega) h6
  · rintro ⟨a, b, c, d⟩ ⟨h1, h2, h3, h4⟩
    dsimp only at h1 h2 h3 h4
    have h3 : c.length = 116 := h3
    refine ⟨bytesAt_mid (x := []) rfl h1, bytesAt_mid h1 h2, ?_, ?_⟩
    · rw [show InitConf.encode ⟨a, b, c, d⟩ = (a ++ b) ++ (c ++ d) by simp [InitConf.encode]]; exact bytesAt_mid (by simp [h1, h2]) h3
    · rw [show InitConf.encode ⟨a, b, c, d⟩ = (a ++ b ++ c) ++ (d ++ []) by simp [InitConf.encode]]; exact bytesAt_mid (by simp [h1, h2, h3]) h4
  · rintro ⟨a, b, c⟩ ⟨h1, h2, h3⟩
    dsimp only at h1 h2 h3
    refine ⟨bytesAt_mid (x := []) rfl h1, bytesAt_mid h1 h2, ?_⟩
    rw [show EmptyData.encode ⟨a, b, c⟩ = (a ++ b) ++ (c ++ []) by simp [EmptyData.encode]]; exact bytesAt_mid (by simp [h1, h2]) h3
  · rintro ⟨a, b, c⟩ ⟨h1, h2, h3⟩
    dsimp only at h1 h2 h3
    refine ⟨bytesAt_mid (x := []) rfl h1, bytesAt_mid h1 h2, ?_⟩
    rw [show Biscuit.encode ⟨a, b, c⟩ = (a ++ b) ++ (c ++ []) by simp [Biscuit.encode]]; exact bytesAt_mid (by simp [h1, h2]) h3
  · rintro ⟨t, a, b, c, d⟩ ⟨h1, h2, h3, h4⟩
    dsimp only at h1 h2 h3 h4
    have e : CookieReply.encode ⟨t, a, b, c, d⟩ = [t] ++ (a ++ (b ++ (c ++ d))) := rfl
    rw [e]
    refine ⟨rfl, bytesAt_mid rfl h1, ?_, ?_, ?_⟩
    · rw [show [t] ++ (a ++ (b ++ (c ++ d))) = ([t] ++ a) ++ (b ++ (c ++ d)) by simp]; exact bytesAt_mid (by simp [h1]) h2
    · rw [show [t] ++ (a ++ (b ++ (c ++ d))) = ([t] ++ a ++ b) ++ (c ++ d) by simp]; exact bytesAt_mid (by simp [h1, h2]) h3
    · rw [show [t] ++ (a ++ (b ++ (c ++ d))) = ([t] ++ a ++ b ++ c) ++ (d ++ []) by simp]; exact bytesAt_mid (by simp [h1, h2, h3]) h4

/-- C29, type byte: the codes on the wire are 0x81, 0x82, 0x83, 0x84, 0x86, each stands for one
message type and every other byte is refused. -/
theorem msg_type_codes (b : UInt8) (t : MsgType) :
    MsgType.ofU8 b = some t ↔
      (b = 0x81 ∧ t = .initHello) ∨ (b = 0x82 ∧ t = .respHello) ∨ (b = 0x83 ∧ t = .initConf) ∨
      (b = 0x84 ∧ t = .emptyData) ∨ (b = 0x86 ∧ t = .cookieReply) := by
  rw [MsgType.ofU8_eq_some_iff]
  cases t <;> simp [MsgType.toU8]

-- Non-vacuity: a well-formed envelope exists, and its bytes are what one expects.
example : Env.WF 2 ⟨0x84, [1,2,3], [7,8], List.replicate 16 5, List.replicate 16 6⟩ := by
  simp [Env.WF]
example : (Env.decode 2 ([0x84, 1, 2, 3, 7, 8] ++ List.replicate 16 5 ++ List.replicate 16 6)).map (·.payload)
    = some [7, 8] := by decide
example : MsgType.ofU8 0x85 = none := by decide
example : InitConf.WF (InitConf.decode (List.replicate 140 3)) := 
  InitConf.decode_WF (by simp [InitConf.size, biscuitCtLen])

end Verif
