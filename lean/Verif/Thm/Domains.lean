import Verif.Thm.Primitives
/-
C137: the values of the hash domains of the protocol, computed with the hash functions themselves.
The tables in this file were written by a script that uses another implementation of SHAKE256 and BLAKE2b (Python's hashlib).
-/
namespace Verif.HashDomain

/-- `protocol` -/
def protocolTable : HashChoice → Bytes
  | .shake => [0x8c, 0x42, 0x89, 0x82, 0xb8, 0x81, 0x1d, 0xf5, 0x08, 0x9e, 0x1f, 0xa3, 0x15, 0x43, 0xe0, 0x5b, 0x48, 0xc0, 0x00, 0xb8, 0x2b, 0x8f, 0x9c, 0x67, 0x52, 0x38, 0x8e, 0xd1, 0xfa, 0x16, 0x1e, 0xe7]
  | .blake => [0x31, 0x4a, 0xfa, 0x43, 0xe9, 0xd7, 0xbf, 0x60, 0xbb, 0x6d, 0x54, 0x13, 0x4a, 0xb8, 0xe1, 0x15, 0xcb, 0x2a, 0xfd, 0x4e, 0x0a, 0x67, 0xea, 0xda, 0x46, 0x02, 0x02, 0xb0, 0x9e, 0x6c, 0x28, 0xf2]

/-- the domain above the uses of the chaining key: rosenpass/src/hash_domains.rs:222 `_ckextract` -/
def ckextractTable : HashChoice → Bytes
  | .shake => [0x41, 0x62, 0x92, 0x81, 0x8c, 0x85, 0x88, 0x03, 0xbe, 0xf1, 0x01, 0x83, 0x20, 0xd3, 0xe7, 0x4c, 0x88, 0x4f, 0x9b, 0x8a, 0x24, 0x59, 0x4c, 0xa9, 0x54, 0x4d, 0xfa, 0xe9, 0x65, 0x5d, 0x52, 0x5b]
  | .blake => [0xee, 0x01, 0x2b, 0x3f, 0x1b, 0x77, 0xc0, 0x54, 0x65, 0xa3, 0x19, 0x52, 0x07, 0x91, 0x0d, 0x6f, 0x75, 0x65, 0x07, 0x7a, 0x0d, 0x61, 0x1b, 0xc7, 0x25, 0x72, 0xa1, 0x38, 0xa0, 0xbb, 0x47, 0xcc]

/-- the value of each domain -/
def table : HashChoice → Purpose → Bytes
  | .shake, .mac => [0x28, 0x01, 0x58, 0x78, 0xab, 0x6c, 0xac, 0xf3, 0x37, 0xcd, 0x0d, 0x11, 0x48, 0x85, 0xb7, 0xb2, 0x2e, 0x13, 0x75, 0x99, 0xb7, 0xce, 0x5e, 0x36, 0xf4, 0x10, 0xa3, 0xd2, 0xbe, 0xa2, 0x87, 0x39]
  | .shake, .cookie => [0xb4, 0x7a, 0x62, 0x24, 0xb8, 0x80, 0x8a, 0xca, 0x56, 0x76, 0xbd, 0x99, 0xee, 0xbb, 0x67, 0x7d, 0x6f, 0xc6, 0xc5, 0xe9, 0x89, 0x61, 0x34, 0x1f, 0x37, 0xe6, 0x00, 0x8d, 0x5e, 0xc3, 0x8c, 0xe6]
  | .shake, .cookieValue => [0x3c, 0x81, 0xf7, 0x88, 0x6c, 0xbe, 0xe1, 0x87, 0x6a, 0x19, 0x50, 0x4b, 0xe2, 0xe4, 0x60, 0x2c, 0x27, 0xed, 0x47, 0x45, 0xfe, 0xe0, 0x55, 0xd4, 0x71, 0x2f, 0x4b, 0x83, 0x3e, 0xb6, 0x16, 0x14]
  | .shake, .cookieKey => [0x9e, 0x17, 0xd8, 0x52, 0x0f, 0x2f, 0x9c, 0x4a, 0x32, 0xb2, 0x34, 0x22, 0x51, 0x50, 0x7b, 0x0a, 0xab, 0xb3, 0x8b, 0xc2, 0xc1, 0x28, 0x16, 0x3e, 0x80, 0x79, 0x53, 0x7e, 0xae, 0xec, 0xb3, 0x6b]
  | .shake, .peerid => [0x77, 0xec, 0x28, 0x59, 0x7e, 0x62, 0xb9, 0x2c, 0x93, 0x82, 0x19, 0xde, 0x58, 0x95, 0xf5, 0xe7, 0xaf, 0x4f, 0xf9, 0xd0, 0x0b, 0xf4, 0x43, 0x8a, 0x9b, 0xbc, 0x82, 0xbb, 0x8e, 0xe3, 0xe6, 0x59]
  | .shake, .biscuitAd => [0xbc, 0x45, 0xc8, 0x28, 0x95, 0xeb, 0xec, 0x27, 0x50, 0x1a, 0x21, 0xb3, 0xae, 0x57, 0x4e, 0xd4, 0x2b, 0xe3, 0x35, 0x39, 0x57, 0xbb, 0x30, 0xc1, 0x99, 0x78, 0x15, 0xcb, 0x6f, 0x1f, 0xfd, 0x64]
  | .shake, .ckinit => [0x88, 0x60, 0x7c, 0x38, 0xef, 0xb6, 0xad, 0xec, 0xf3, 0x21, 0x38, 0x4e, 0xb8, 0xe5, 0x24, 0x33, 0xbc, 0x0f, 0xd6, 0x62, 0xdc, 0xbc, 0xd5, 0x5d, 0x62, 0x91, 0x26, 0x86, 0x7d, 0x5f, 0x5f, 0x1d]
  | .shake, .mix => [0xa5, 0x71, 0x9d, 0xda, 0xa8, 0x48, 0xd4, 0x22, 0xa0, 0x60, 0x4a, 0x2f, 0xca, 0x17, 0xf3, 0x1c, 0x2f, 0x9a, 0x79, 0x97, 0x82, 0x78, 0x9f, 0x88, 0xa9, 0x59, 0x7b, 0x87, 0x19, 0xf0, 0xa3, 0x9b]
  | .shake, .hsEnc => [0x50, 0x62, 0x42, 0x8e, 0x3b, 0xaf, 0x12, 0xb5, 0x9f, 0x01, 0x68, 0x6e, 0x9a, 0x75, 0x4b, 0x9b, 0xb0, 0x56, 0x8e, 0x07, 0x70, 0x96, 0x41, 0xd3, 0xbb, 0x03, 0x56, 0x33, 0x42, 0x68, 0x5f, 0x02]
  | .shake, .iniEnc => [0xcb, 0x5c, 0x35, 0x52, 0x36, 0x60, 0x2b, 0xbe, 0xb8, 0xb1, 0x20, 0x36, 0x9a, 0xb3, 0xa5, 0xaa, 0xc6, 0xb7, 0xe5, 0x0e, 0x6b, 0xe8, 0xc3, 0x47, 0x36, 0x7c, 0x94, 0x08, 0x4f, 0x82, 0x81, 0xd2]
  | .shake, .resEnc => [0xcd, 0x85, 0x33, 0x73, 0x15, 0x7e, 0xb9, 0x24, 0x23, 0x6f, 0x77, 0xbc, 0x31, 0xa1, 0x9c, 0xcc, 0x2c, 0x57, 0x08, 0x5b, 0x93, 0xf2, 0x11, 0x3f, 0x2c, 0x02, 0x67, 0x1d, 0xae, 0xb3, 0xaa, 0x12]
  | .shake, .ckeUser => [0x33, 0xb6, 0x1c, 0x34, 0x0e, 0x1e, 0x6f, 0xbf, 0xe0, 0x69, 0x92, 0xab, 0x40, 0x6c, 0x64, 0x2a, 0x82, 0xf3, 0x11, 0x8b, 0xcc, 0xfa, 0xee, 0xf2, 0xa4, 0x36, 0x14, 0x29, 0x27, 0x69, 0xf4, 0x28]
  | .shake, .ckeUserRosenpass => [0x40, 0x2c, 0x6f, 0x09, 0x5a, 0x41, 0x72, 0x0a, 0xd0, 0x85, 0xdb, 0x0e, 0x0c, 0x67, 0x59, 0x23, 0x0e, 0x5e, 0xc3, 0x99, 0x19, 0xee, 0xdc, 0xed, 0xf4, 0x42, 0xa1, 0x6a, 0x68, 0xde, 0x9c, 0x52]
  | .shake, .wireguardPsk => [0xc1, 0xeb, 0xe9, 0xd9, 0xc7, 0xda, 0x64, 0x09, 0x58, 0x7d, 0xad, 0x05, 0x5d, 0xa2, 0x22, 0xac, 0x4b, 0xff, 0xd3, 0x0e, 0xc3, 0xc9, 0x99, 0x63, 0xe5, 0x42, 0x31, 0xf7, 0x3c, 0xdf, 0x8e, 0xbe]
  | .blake, .mac => [0x87, 0x79, 0xe7, 0x2b, 0x17, 0xae, 0x66, 0xd7, 0xe4, 0x6d, 0x93, 0xdc, 0x16, 0xc3, 0xb3, 0xc4, 0x49, 0x1e, 0x54, 0xe1, 0xc7, 0x9b, 0x0d, 0x8b, 0xeb, 0xb8, 0xf2, 0x81, 0x7f, 0x29, 0x7e, 0x4b]
  | .blake, .cookie => [0xf0, 0x58, 0x0e, 0x7c, 0x7f, 0x69, 0x9f, 0x2f, 0x5a, 0xab, 0x29, 0xa0, 0x32, 0x24, 0x60, 0x47, 0x8b, 0x4d, 0x1c, 0x78, 0xfe, 0xd1, 0x01, 0x13, 0x5a, 0x39, 0x28, 0x3f, 0x18, 0x28, 0x75, 0x8e]
  | .blake, .cookieValue => [0x23, 0x51, 0xca, 0xe3, 0x3f, 0x36, 0xb4, 0x2b, 0x36, 0x7b, 0x83, 0x5c, 0xc2, 0x69, 0x64, 0x1d, 0x45, 0x83, 0xa2, 0x57, 0xbe, 0xce, 0xb6, 0xaf, 0x9a, 0x4c, 0x3e, 0x80, 0x2f, 0x7c, 0x51, 0x2d]
  | .blake, .cookieKey => [0x93, 0xa4, 0x9b, 0xb9, 0xf3, 0x69, 0x98, 0x37, 0x9f, 0x2e, 0x0c, 0x22, 0x02, 0x1e, 0xa7, 0x51, 0x3f, 0xd0, 0x04, 0xce, 0x06, 0xd6, 0xf0, 0x54, 0x52, 0x9f, 0x21, 0xe0, 0x19, 0x1e, 0x78, 0xbf]
  | .blake, .peerid => [0x9f, 0xf6, 0xe4, 0xc0, 0x14, 0x42, 0x4f, 0xc1, 0x23, 0xef, 0x64, 0x77, 0x22, 0x9c, 0x8b, 0x76, 0x1e, 0xdf, 0x65, 0xd0, 0xd7, 0x39, 0x2c, 0xdf, 0x85, 0xcb, 0xa8, 0x4d, 0xc1, 0xf2, 0xcf, 0xa7]
  | .blake, .biscuitAd => [0x48, 0x76, 0xa3, 0xc6, 0x5d, 0xd5, 0xd0, 0x72, 0x44, 0x38, 0xb9, 0x45, 0xc6, 0xe6, 0xd3, 0x43, 0xe0, 0xee, 0x02, 0xf5, 0x73, 0xcc, 0x77, 0x4a, 0x09, 0x04, 0x5d, 0x65, 0x5a, 0x85, 0x30, 0x2a]
  | .blake, .ckinit => [0xab, 0xea, 0x67, 0xe8, 0xd1, 0x60, 0x35, 0xb6, 0x49, 0x5c, 0xda, 0x47, 0x86, 0xbf, 0xf0, 0xd0, 0xda, 0xd9, 0x36, 0xde, 0xd9, 0x3c, 0x54, 0xc8, 0xb5, 0x33, 0x65, 0x2a, 0xd9, 0x8a, 0x69, 0x46]
  | .blake, .mix => [0x41, 0xd2, 0x0e, 0x68, 0xac, 0x3b, 0x0e, 0xba, 0x4e, 0x4d, 0x8b, 0x3a, 0x1a, 0x01, 0xfe, 0x18, 0x40, 0x4d, 0x9d, 0x30, 0xc6, 0x1a, 0xe3, 0xba, 0x67, 0x39, 0x05, 0x3a, 0xf8, 0xd6, 0x04, 0x9f]
  | .blake, .hsEnc => [0x1d, 0xb8, 0xec, 0x31, 0x47, 0x88, 0xa2, 0xf1, 0xa7, 0x0d, 0x5a, 0x8c, 0xae, 0x3d, 0xbb, 0xed, 0xb2, 0x1f, 0x68, 0x24, 0x26, 0xfd, 0xba, 0xb8, 0x10, 0xc1, 0xad, 0xef, 0xe6, 0xa9, 0x33, 0x75]
  | .blake, .iniEnc => [0xd3, 0x4b, 0xb2, 0xa7, 0x85, 0x8e, 0xd5, 0x1a, 0xc7, 0xe8, 0x24, 0xe9, 0xf1, 0xdc, 0x55, 0x86, 0x8e, 0xed, 0x7c, 0xc2, 0xbe, 0xe8, 0x79, 0xe2, 0x60, 0xae, 0xe1, 0x50, 0xcd, 0x87, 0x84, 0xb3]
  | .blake, .resEnc => [0xc9, 0x18, 0x1f, 0x95, 0x72, 0x15, 0x84, 0xd0, 0x01, 0x81, 0x42, 0xcb, 0x8b, 0x6d, 0x27, 0x91, 0x33, 0x39, 0x13, 0xb8, 0xdf, 0x77, 0x30, 0x2a, 0x2b, 0x79, 0x4d, 0xe7, 0xbe, 0xe9, 0x5c, 0x6b]
  | .blake, .ckeUser => [0x5e, 0x94, 0xef, 0x26, 0xc5, 0xeb, 0xe5, 0x8d, 0x27, 0xa2, 0xe5, 0xb9, 0x2a, 0x1d, 0xc5, 0x44, 0x6c, 0xd8, 0x7e, 0xe2, 0xe3, 0x93, 0x97, 0xbd, 0xfc, 0xe2, 0xe0, 0xd5, 0xcd, 0x27, 0x72, 0x5d]
  | .blake, .ckeUserRosenpass => [0x07, 0x1a, 0x0b, 0xb7, 0xcc, 0x4a, 0x14, 0xec, 0xba, 0xa7, 0x58, 0x4c, 0x3d, 0xa8, 0x6b, 0x72, 0x57, 0xde, 0x70, 0xc3, 0x66, 0xd9, 0x68, 0x01, 0xb5, 0x9d, 0x5f, 0xb3, 0x7c, 0xb2, 0xac, 0x76]
  | .blake, .wireguardPsk => [0x0c, 0xf2, 0x59, 0x1f, 0xd4, 0x6a, 0xb2, 0x29, 0xd5, 0xdf, 0x5a, 0x72, 0x68, 0x8c, 0xe7, 0x58, 0x01, 0xe8, 0xe6, 0xb8, 0x67, 0x37, 0x55, 0x18, 0x9c, 0xc3, 0x64, 0x82, 0xa7, 0xca, 0xc9, 0xc0]

theorem protocol_shake : protocol (realCrypto Ex.kems) .shake = protocolTable .shake := by decide +kernel
theorem protocol_blake : protocol (realCrypto Ex.kems) .blake = protocolTable .blake := by decide +kernel

theorem protocol_value (K : Kems) (h : HashChoice) : protocol (realCrypto K) h = protocolTable h := by
  have e : protocol (realCrypto K) h = protocol (realCrypto Ex.kems) h := by unfold protocol mix; exact hash_kems ..
  rw [e]
  cases h
  · exact protocol_shake
  · exact protocol_blake

/-- where the last label of a purpose is mixed in -/
def parent (h : HashChoice) : Purpose → Bytes
  | .mac | .cookie | .cookieValue | .cookieKey | .peerid | .biscuitAd | .ckinit => protocolTable h
  | .mix | .hsEnc | .iniEnc | .resEnc | .ckeUser => ckextractTable h
  | .ckeUserRosenpass => table h .ckeUser
  | .wireguardPsk => table h .ckeUserRosenpass

def purposes : List Purpose := [.mac, .cookie, .cookieValue, .cookieKey, .peerid, .biscuitAd, .ckinit, .mix, .hsEnc, .iniEnc, .resEnc, .ckeUser, .ckeUserRosenpass, .wireguardPsk]

theorem purposes_complete (p : Purpose) : p ∈ purposes := by cases p <;> decide

/-- each entry of the table is the hash of the purpose's last label under the entry above it -/
def entryOk (h : HashChoice) (p : Purpose) : Bool := (realCrypto Ex.kems).hash h (parent h p) (p.labels.getLastD []) == table h p

theorem ckextract_shake : (realCrypto Ex.kems).hash .shake (protocolTable .shake) Purpose.labels.ckextract = ckextractTable .shake := by decide +kernel
theorem ckextract_blake : (realCrypto Ex.kems).hash .blake (protocolTable .blake) Purpose.labels.ckextract = ckextractTable .blake := by decide +kernel
theorem shake_mac : entryOk .shake .mac = true := by decide +kernel
theorem shake_cookie : entryOk .shake .cookie = true := by decide +kernel
theorem shake_cookieValue : entryOk .shake .cookieValue = true := by decide +kernel
theorem shake_cookieKey : entryOk .shake .cookieKey = true := by decide +kernel
theorem shake_peerid : entryOk .shake .peerid = true := by decide +kernel
theorem shake_biscuitAd : entryOk .shake .biscuitAd = true := by decide +kernel
theorem shake_ckinit : entryOk .shake .ckinit = true := by decide +kernel
theorem shake_mix : entryOk .shake .mix = true := by decide +kernel
theorem shake_hsEnc : entryOk .shake .hsEnc = true := by decide +kernel
theorem shake_iniEnc : entryOk .shake .iniEnc = true := by decide +kernel
theorem shake_resEnc : entryOk .shake .resEnc = true := by decide +kernel
theorem shake_ckeUser : entryOk .shake .ckeUser = true := by decide +kernel
theorem shake_ckeUserRosenpass : entryOk .shake .ckeUserRosenpass = true := by decide +kernel
theorem shake_wireguardPsk : entryOk .shake .wireguardPsk = true := by decide +kernel
theorem blake_mac : entryOk .blake .mac = true := by decide +kernel
theorem blake_cookie : entryOk .blake .cookie = true := by decide +kernel
theorem blake_cookieValue : entryOk .blake .cookieValue = true := by decide +kernel
theorem blake_cookieKey : entryOk .blake .cookieKey = true := by decide +kernel
theorem blake_peerid : entryOk .blake .peerid = true := by decide +kernel
theorem blake_biscuitAd : entryOk .blake .biscuitAd = true := by decide +kernel
theorem blake_ckinit : entryOk .blake .ckinit = true := by decide +kernel
theorem blake_mix : entryOk .blake .mix = true := by decide +kernel
theorem blake_hsEnc : entryOk .blake .hsEnc = true := by decide +kernel
theorem blake_iniEnc : entryOk .blake .iniEnc = true := by decide +kernel
theorem blake_resEnc : entryOk .blake .resEnc = true := by decide +kernel
theorem blake_ckeUser : entryOk .blake .ckeUser = true := by decide +kernel
theorem blake_ckeUserRosenpass : entryOk .blake .ckeUserRosenpass = true := by decide +kernel
theorem blake_wireguardPsk : entryOk .blake .wireguardPsk = true := by decide +kernel

theorem ckextract_value (K : Kems) (h : HashChoice) : (realCrypto K).hash h (protocolTable h) Purpose.labels.ckextract = ckextractTable h := by
  rw [hash_kems h K Ex.kems]
  cases h
  · exact ckextract_shake
  · exact ckextract_blake

theorem entry (K : Kems) (h : HashChoice) (p : Purpose) : (realCrypto K).hash h (parent h p) (p.labels.getLastD []) = table h p := by
  rw [hash_kems h K Ex.kems]
  have : entryOk h p = true := by
    cases h
    · cases p
      · exact shake_mac
      · exact shake_cookie
      · exact shake_cookieValue
      · exact shake_cookieKey
      · exact shake_peerid
      · exact shake_biscuitAd
      · exact shake_ckinit
      · exact shake_mix
      · exact shake_hsEnc
      · exact shake_iniEnc
      · exact shake_resEnc
      · exact shake_ckeUser
      · exact shake_ckeUserRosenpass
      · exact shake_wireguardPsk
    · cases p
      · exact blake_mac
      · exact blake_cookie
      · exact blake_cookieValue
      · exact blake_cookieKey
      · exact blake_peerid
      · exact blake_biscuitAd
      · exact blake_ckinit
      · exact blake_mix
      · exact blake_hsEnc
      · exact blake_iniEnc
      · exact blake_resEnc
      · exact blake_ckeUser
      · exact blake_ckeUserRosenpass
      · exact blake_wireguardPsk
  exact eq_of_beq this

/-- **C137**: the value of every hash domain of the protocol. -/
theorem dom_value (K : Kems) (h : HashChoice) (p : Purpose) : dom (realCrypto K) h p = table h p := by
  have e := entry K h
  have c := ckextract_value K h
  unfold dom
  rw [protocol_value]
  cases p <;> simp only [Purpose.labels, mixMany, List.foldl_cons, List.foldl_nil, mix, c]
  · exact e .mac
  · exact e .cookie
  · exact e .cookieValue
  · exact e .cookieKey
  · exact e .peerid
  · exact e .biscuitAd
  · exact e .ckinit
  · exact e .mix
  · exact e .hsEnc
  · exact e .iniEnc
  · exact e .resEnc
  · exact e .ckeUser
  · have h1 : (realCrypto K).hash h (ckextractTable h) (lbl ['u', 's', 'e', 'r']) = table h .ckeUser := e .ckeUser
    rw [h1]; exact e .ckeUserRosenpass
  · have h1 : (realCrypto K).hash h (ckextractTable h) (lbl ['u', 's', 'e', 'r']) = table h .ckeUser := e .ckeUser
    have h2 : (realCrypto K).hash h (table h .ckeUser) (lbl ['r', 'o', 's', 'e', 'n', 'p', 'a', 's', 's', '.', 'e', 'u']) = table h .ckeUserRosenpass := e .ckeUserRosenpass
    rw [h1, h2]; exact e .wireguardPsk

def choices : List HashChoice := [.shake, .blake]
theorem choices_complete (h : HashChoice) : h ∈ choices := by cases h <;> decide

/-- all values that occur: the protocol's, the one above the uses of the chaining key, and those of the purposes -/
def allValues (h : HashChoice) : List Bytes := zero32 :: protocolTable h :: ckextractTable h :: purposes.map (table h)

theorem table_distinct : choices.all (fun h => choices.all fun h' => purposes.all fun p => purposes.all fun p' => (table h p != table h' p') || (h == h' && p == p')) = true := by decide +kernel

/-- **C137**: domains for different purposes, or of different protocol versions, have different values: with the hash functions themselves, without any assumption on them. -/
theorem domains_distinct (K : Kems) {h h' : HashChoice} {p p' : Purpose} (e : dom (realCrypto K) h p = dom (realCrypto K) h' p') : h = h' ∧ p = p' := by
  rw [dom_value, dom_value] at e
  have := List.all_eq_true.mp (List.all_eq_true.mp (List.all_eq_true.mp (List.all_eq_true.mp table_distinct h (choices_complete h)) h' (choices_complete h')) p (purposes_complete p)) p' (purposes_complete p')
  rw [e] at this
  simpa using this

theorem table_fresh : (choices.all fun h => purposes.all fun p => table h p != zero32 && choices.all fun h' => table h p != protocolTable h' && table h p != ckextractTable h') = true := by decide +kernel

/-- **C137**: no domain's value is that of the start of the derivation, of the protocol's root domain or of the domain above the uses of the chaining key. -/
theorem domains_fresh (K : Kems) (h h' : HashChoice) (p : Purpose) : dom (realCrypto K) h p ≠ zero32 ∧ dom (realCrypto K) h p ≠ protocol (realCrypto K) h' ∧
    dom (realCrypto K) h p ≠ mix (realCrypto K) h' (protocol (realCrypto K) h') Purpose.labels.ckextract := by
  have := List.all_eq_true.mp (List.all_eq_true.mp table_fresh h (choices_complete h)) p (purposes_complete p)
  simp only [Bool.and_eq_true, bne_iff_ne] at this
  have h2 := List.all_eq_true.mp this.2 h' (choices_complete h')
  simp only [Bool.and_eq_true, bne_iff_ne] at h2
  unfold mix
  rw [dom_value, protocol_value, ckextract_value]
  exact ⟨this.1, h2⟩

end Verif.HashDomain
