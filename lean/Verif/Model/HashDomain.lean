import Verif.Model.Crypto
/-
Model of ciphers/src/hash_domain.rs, rosenpass/src/hash_domains.rs and
rosenpass/src/protocol/osk_domain_separator.rs.

A hash domain is its 32-byte key plus a hash choice; `mix` hashes one label under the
key. `Secret…` and plain variants, and the `dup`ed namespaces, compute the same function,
so one model covers `HashDomain`, `HashDomainNamespace`, `SecretHashDomain` and
`SecretHashDomainNamespace`; the choice is passed separately.
-/
namespace Verif

/-- ASCII bytes of a label (`str::as_bytes`). Labels in the source are ASCII. -/
def lbl (cs : List Char) : Bytes := cs.map (fun c => UInt8.ofNat c.toNat)

/-- `[0u8; 32]`: ciphers/src/hash_domain.rs:60-62 and 166-168 `zero`. -/
def zero32 : Bytes := List.replicate 32 0

namespace HashDomain

/-- ciphers/src/hash_domain.rs:80-84, 130-134, 187-189, 252-254 `mix`. -/
def mix (C : Crypto) (h : HashChoice) (key v : Bytes) : Bytes := C.hash h key v

/-- ciphers/src/hash_domain.rs:102-111, 220-229 `mix_many`. -/
def mixMany (C : Crypto) (h : HashChoice) (key : Bytes) (vs : List Bytes) : Bytes :=
  vs.foldl (fun k v => mix C h k v) key

/-- rosenpass/src/hash_domains.rs:113-118: the protocol string of each hash choice. -/
def protocolLabel : HashChoice → Bytes
  | .shake => lbl ['R','o','s','e','n','p','a','s','s',' ','v','1',' ','m','c','e','l','i','e','c','e','4','6','0','8','9','6',' ','K','y','b','e','r','5','1','2',' ','C','h','a','C','h','a','P','o','l','y','1','3','0','5',' ','S','H','A','K','E','2','5','6']
  | .blake => lbl ['R','o','s','e','n','p','a','s','s',' ','v','1',' ','m','c','e','l','i','e','c','e','4','6','0','8','9','6',' ','K','y','b','e','r','5','1','2',' ','C','h','a','C','h','a','P','o','l','y','1','3','0','5',' ','B','L','A','K','E','2','s']

/-- rosenpass/src/hash_domains.rs:111-119 `protocol`. -/
def protocol (C : Crypto) (h : HashChoice) : Bytes := mix C h zero32 (protocolLabel h)

/-- The purposes for which rosenpass/src/hash_domains.rs:121-324 declares a domain. -/
inductive Purpose where
  | mac | cookie | cookieValue | cookieKey | peerid | biscuitAd | ckinit
  | mix | hsEnc | iniEnc | resEnc
  | ckeUser | ckeUserRosenpass | wireguardPsk
  deriving DecidableEq, Repr

/-- rosenpass/src/hash_domains.rs:121-324: labels below `protocol` for each domain. -/
def Purpose.labels : Purpose → List Bytes
  | .mac => [lbl ['m','a','c']]
  | .cookie => [lbl ['c','o','o','k','i','e']]
  | .cookieValue => [lbl ['c','o','o','k','i','e','-','v','a','l','u','e']]
  | .cookieKey => [lbl ['c','o','o','k','i','e','-','k','e','y']]
  | .peerid => [lbl ['p','e','e','r',' ','i','d']]
  | .biscuitAd => [lbl ['b','i','s','c','u','i','t',' ','a','d','d','i','t','i','o','n','a','l',' ','d','a','t','a']]
  | .ckinit => [lbl ['c','h','a','i','n','i','n','g',' ','k','e','y',' ','i','n','i','t']]
  | .mix => [ckextract, lbl ['m','i','x']]
  | .hsEnc => [ckextract, lbl ['h','a','n','d','s','h','a','k','e',' ','e','n','c','r','y','p','t','i','o','n']]
  | .iniEnc => [ckextract, lbl ['i','n','i','t','i','a','t','o','r',' ','h','a','n','d','s','h','a','k','e',' ','e','n','c','r','y','p','t','i','o','n']]
  | .resEnc => [ckextract, lbl ['r','e','s','p','o','n','d','e','r',' ','h','a','n','d','s','h','a','k','e',' ','e','n','c','r','y','p','t','i','o','n']]
  | .ckeUser => [ckextract, lbl ['u','s','e','r']]
  | .ckeUserRosenpass => [ckextract, lbl ['u','s','e','r'], lbl ['r','o','s','e','n','p','a','s','s','.','e','u']]
  | .wireguardPsk => [ckextract, lbl ['u','s','e','r'], lbl ['r','o','s','e','n','p','a','s','s','.','e','u'], lbl ['w','i','r','e','g','u','a','r','d',' ','p','s','k']]
where
  /-- rosenpass/src/hash_domains.rs:222 `_ckextract`. -/
  ckextract : Bytes := lbl ['c','h','a','i','n','i','n','g',' ','k','e','y',' ','e','x','t','r','a','c','t']

/-- rosenpass/src/hash_domains.rs:67-96, the two declaration macros: mix the labels into the base. -/
def dom (C : Crypto) (h : HashChoice) (p : Purpose) : Bytes :=
  mixMany C h (protocol C h) p.labels

end HashDomain

/-- rosenpass/src/protocol/osk_domain_separator.rs:29-42 `OskDomainSeparator`. -/
inductive OskDomain where
  | wireguardPsk
  | custom (namespace' : Bytes) (labels : List Bytes)
  deriving DecidableEq, Repr, Inhabited

open HashDomain in
/-- osk_domain_separator.rs:80-90 `compress_with`. -/
def OskDomain.compress (C : Crypto) (h : HashChoice) : OskDomain → Bytes
  | .wireguardPsk => dom C h .wireguardPsk
  | .custom ns labels => mixMany C h (mix C h (dom C h .ckeUser) ns) labels

end Verif
