import Verif.Thm.SidIndex
/-
C14 (session-id index sound), C15 (complete), C16 (peer registration injective).
-/
namespace Verif
open HashDomain Server

section
variable {C : Crypto}

theorem peerIdx_new (C : Crypto) (sk pk b0 b1 c0 c1 kk) : PeerIdx C (Server.new sk pk b0 b1 c0 c1 kk) := by
  intro pid p
  simp [Server.new]

theorem knownIdx_new (sk pk b0 b1 c0 c1 kk) : KnownIdx (Server.new sk pk b0 b1 c0 c1 kk) := by
  intro h p
  simp [Server.new, known]

theorem sidSound_new (sk pk b0 b1 c0 c1 kk) : SidSound (Server.new sk pk b0 b1 c0 c1 kk) := by
  intro h p
  simp [Server.new]

theorem sidComplete_new (sk pk b0 b1 c0 c1 kk) : SidComplete (Server.new sk pk b0 b1 c0 c1 kk) := by
  intro h p
  simp [Server.new, Carries, session, handshake]

theorem allPeers_new (P) (sk pk b0 b1 c0 c1 kk) : AllPeers P (Server.new sk pk b0 b1 c0 c1 kk) := by
  intro p q h
  simp [Server.new] at h

theorem Reachable.peerIdx (L : C.Lawful) {s} (h : Reachable C s) : PeerIdx C s :=
  Reachable.inv L (fun _ _ _ _ _ _ _ _ _ _ _ _ => peerIdx_new _ _ _ _ _ _ _ _) (fun _ _ => prim_peerIdx) h

theorem Reachable.knownIdx (L : C.Lawful) {s} (h : Reachable C s) : KnownIdx s :=
  Reachable.inv L (fun _ _ _ _ _ _ _ _ _ _ _ _ => knownIdx_new _ _ _ _ _ _ _) (fun _ _ => prim_knownIdx) h

theorem Reachable.sidSound (L : C.Lawful) {s} (h : Reachable C s) : SidSound s :=
  Reachable.inv L (fun _ _ _ _ _ _ _ _ _ _ _ _ => sidSound_new _ _ _ _ _ _ _) (fun _ _ => prim_sidSound) h

theorem Reachable.peerOk (L : C.Lawful) {s} (h : Reachable C s) : AllPeers PeerOk s :=
  Reachable.inv L (fun _ _ _ _ _ _ _ _ _ _ _ _ => allPeers_new _ _ _ _ _ _ _ _) (fun _ _ => prim_peerOk) h

theorem carries_lt {s : Server} {p id} (h : Carries s p id) : p < s.peers.length := by
  rcases Nat.lt_or_ge p s.peers.length with h1 | h1
  · exact h1
  · have : s.peers[p]? = none := by simp; omega
    unfold Carries session handshake at h
    rw [this] at h
    simp at h

/-- **C14.** In every reachable state the index never points outside the peer list; looking up a
session id for a handshake (session) only ever returns a peer whose current handshake (session)
has exactly this id; every id in the index is in use by the peer it points to; and peer ids point
to exactly the peers that have them. -/
theorem index_in_range (L : C.Lawful) {s : Server} (h : Reachable C s) :
    (∀ k p, s.index k = some p → p < s.peers.length) ∧
    (∀ id p, s.lookupHandshake id = some p → ∃ hs, s.handshake p = some hs ∧ hs.core.sidi = id) ∧
    (∀ id p, s.lookupSession id = some p → ∃ ses, s.session p = some ses ∧ ses.sidm = id) ∧
    (∀ id p, s.index (.sid id) = some p →
      (∃ ses, s.session p = some ses ∧ ses.sidm = id) ∨ (∃ hs, s.handshake p = some hs ∧ hs.core.sidi = id)) ∧
    (∀ pid p, s.findPeer pid = some p ↔ ∃ q, s.peers[p]? = some q ∧ pidt C q = pid) := by
  have hp := Reachable.peerIdx L h
  have hk := Reachable.knownIdx L h
  have hs := Reachable.sidSound L h
  refine ⟨?_, ?_, ?_, ?_, hp⟩
  · intro k p hkp
    cases k with
    | peer pid =>
      obtain ⟨q, hq, _⟩ := (hp pid p).mp hkp
      exact (List.getElem?_eq_some_iff.mp hq).1
    | sid id => exact carries_lt (hs id p hkp)
    | known m =>
      obtain ⟨k, hk', _⟩ := (hk m p).mp hkp
      rcases Nat.lt_or_ge p s.peers.length with h1 | h1
      · exact h1
      · have : s.peers[p]? = none := by simp; omega
        unfold known at hk'
        rw [this] at hk'; cases hk'
  · intro id p hl
    unfold lookupHandshake at hl
    split at hl
    · cases hl
    · split at hl
      · rename_i h2
        cases hl
        simpa using h2
      · cases hl
  · intro id p hl
    unfold lookupSession at hl
    split at hl
    · cases hl
    · split at hl
      · rename_i h2
        cases hl
        simpa using h2
      · cases hl
  · intro id p hi
    rcases hs id p hi with h1 | h1
    · left; simpa using h1
    · right; simpa using h1

/-- **C14** (no take-over). While a session id is indexed for one peer, starting a handshake with
another peer under this id fails and changes nothing. -/
theorem session_id_not_taken_over (s : Server) (p q : Nat) (hne : q ≠ p) (now : Time) (r : Rnd)
    (tx : Bytes) (h : s.index (.sid r.sid) = some p) :
    ∃ e, s.initiate C q now r tx = (.error e, s) := by
  unfold initiate
  split
  · exact ⟨_, rfl⟩
  · unfold handleInitiation
    cases hp : s.peers[q]? with
    | none => exact ⟨_, rfl⟩
    | some peer =>
      simp only
      cases hi : s.initiation C peer now r with
      | none => exact ⟨_, rfl⟩
      | some x =>
        obtain ⟨ih, hs⟩ := x
        obtain ⟨_, h2, _⟩ := initiation_facts hi
        simp only
        rcases hsInsert_cases s q hs with ⟨hx, -⟩ | ⟨hx, hfree⟩
        · rw [hx]; exact ⟨_, rfl⟩
        · rw [h2, h] at hfree
          rcases hfree with h | h
          · cases h
          · cases h; exact absurd rfl hne

/-- States reached by calls in which no new handshake draws the session id of the handshake of the
same peer that it replaces. -/
inductive FreshReachable (C : Crypto) : Server → Prop
  | new (sk pk b0 b1 c0 c1 kk : Bytes) : FreshReachable C (Server.new sk pk b0 b1 c0 c1 kk)
  | step (s : Server) (o : Op) : FreshReachable C s → o.WF C → Op.Fresh s o → FreshReachable C (s.step C o)

/-- **C15** (partial: the full claim has no freshness restriction and is false, see
`index_incomplete`). In every history in which a new handshake never draws the same random session
id as the handshake it replaces, each live handshake and session is found through its session id,
and no two peers ever use the same session id. -/
theorem index_complete_partial (L : C.Lawful) {s : Server} (h : FreshReachable C s) :
    (∀ p hs, s.handshake p = some hs → s.lookupHandshake hs.core.sidi = some p) ∧
    (∀ p ses, s.session p = some ses → s.lookupSession ses.sidm = some p) ∧
    (∀ p q id, Carries s p id → Carries s q id → p = q) := by
  have hc : SidComplete s := by
    induction h with
    | new => exact sidComplete_new _ _ _ _ _ _ _
    | step s o _ ho hf ih =>
      exact (step_prims (F := True) L s o ho (fun _ => hf)).inv (fun _ _ => prim_sidComplete trivial) ih
  refine ⟨?_, ?_, ?_⟩
  · intro p hs hh
    have := hc hs.core.sidi p (Or.inr (by rw [hh]; rfl))
    simp [lookupHandshake, this, hh]
  · intro p ses hh
    have := hc ses.sidm p (Or.inl (by rw [hh]; rfl))
    simp [lookupSession, this, hh]
  · intro p q id h1 h2
    have a := hc id p h1
    have b := hc id q h2
    rw [a] at b; exact Option.some.inj b

/-- **C15** (negation). If a new handshake draws the id of the handshake it replaces, it succeeds,
but the new handshake cannot be looked up any more: the answer to it will be rejected. -/
theorem index_incomplete (s s' : Server) (p : Nat) (now : Time) (r : Rnd) (tx msg : Bytes)
    (hsame : (s.handshake p).map (·.core.sidi) = some r.sid)
    (hses : (s.session p).map (·.sidm) ≠ some r.sid)
    (hok : s.initiate C p now r tx = (.ok msg, s')) :
    (∃ hs, s'.handshake p = some hs ∧ hs.core.sidi = r.sid) ∧ s'.lookupHandshake r.sid = none := by
  unfold initiate at hok
  split at hok
  · cases hok
  · unfold handleInitiation at hok
    cases hp : s.peers[p]? with
    | none => simp [hp] at hok
    | some peer =>
      simp only [hp] at hok
      cases hi : s.initiation C peer now r with
      | none => simp [hi] at hok
      | some x =>
        obtain ⟨ih, hs⟩ := x
        obtain ⟨_, h2, _⟩ := initiation_facts hi
        simp only [hi] at hok
        rcases hsInsert_cases s p hs with ⟨hx, -⟩ | ⟨hx, hfree⟩
        · simp [hx] at hok
        · simp only [hx] at hok
          have hix : (s.hsPut p hs).index (.sid r.sid) = none := by
            rw [hsPut_sid, if_pos ⟨hsame, hses⟩]
          have hh : (s.hsPut p hs).handshake p = some hs := by
            rw [handshake_hsPut _ _ _ _ hp, if_pos rfl]
          split at hok
          · cases hok
          · unfold storeMsg at hok
            rw [hh] at hok
            simp only [Prod.mk.injEq] at hok
            obtain ⟨-, rfl⟩ := hok
            constructor
            · unfold handshake
              rw [modHs_get, if_pos rfl]
              unfold handshake at hh
              cases hq : (s.hsPut p hs).peers[p]? with
              | none => rw [hq] at hh; cases hh
              | some q =>
                rw [hq] at hh
                simp only [Option.bind_some] at hh
                simp only [Option.map_some, Option.bind_some, hh]
                exact ⟨_, rfl, h2⟩
            · unfold lookupHandshake
              show (match (s.hsPut p hs).index (.sid r.sid) with | none => none | some q => _) = none
              rw [hix]

/-- **C16.** Adding a peer fails exactly if some registered peer has the same peer id, and then
changes nothing; otherwise the new peer gets the next pointer, is found under its id, and every
other pointer and peer id keeps its meaning. -/
theorem add_peer_injective (L : C.Lawful) {s : Server} (h : Reachable C s) (psk : Option Bytes)
    (pk : Bytes) (v : Version) (osk : OskDomain) :
    let new := freshPeer psk pk v osk
    ((∃ (p : Nat) (q : Peer), s.peers[p]? = some q ∧ pidt C q = pidt C new) ∧
      s.addPeer C psk pk v osk = (.error .peerExists, s)) ∨
    ((∀ (p : Nat) q, s.peers[p]? = some q → pidt C q ≠ pidt C new) ∧
      ∃ s', s.addPeer C psk pk v osk = (.ok s.peers.length, s') ∧
        s'.findPeer (pidt C new) = some s.peers.length ∧
        s'.peers = s.peers ++ [new] ∧
        (∀ pid, pid ≠ pidt C new → s'.findPeer pid = s.findPeer pid)) := by
  intro new
  have hp := Reachable.peerIdx L h
  unfold addPeer
  simp only
  cases hi : s.index (.peer (pidt C (freshPeer psk pk v osk))) with
  | some p =>
    left
    obtain ⟨q, hq, hpid⟩ := (hp _ p).mp hi
    exact ⟨⟨p, q, hq, hpid⟩, rfl⟩
  | none =>
    right
    refine ⟨?_, _, rfl, ?_, rfl, ?_⟩
    · intro p q hq hpid
      have := (hp _ p).mpr ⟨q, hq, hpid⟩
      rw [hi] at this; cases this
    · exact Index.set_eq _ _ _
    · intro pid hne
      exact Index.set_ne _ _ (by simpa using hne)

/-- **C16** (history part). No call ever changes what is registered under an existing pointer, and
two pointers never denote peers with the same id. -/
theorem peer_pointers_stable (L : C.Lawful) {s : Server} (h : Reachable C s) :
    (∀ o : Op, o.WF C → ∀ (p : Nat) q, s.peers[p]? = some q → ∃ q', (s.step C o).peers[p]? = some q' ∧
      q'.psk = q.psk ∧ q'.spkt = q.spkt ∧ q'.version = q.version ∧ q'.osk = q.osk) ∧
    (∀ (p q : Nat) a b, s.peers[p]? = some a → s.peers[q]? = some b → pidt C a = pidt C b → p = q) := by
  constructor
  · intro o ho p q hq
    have := (step_prims (F := False) L s o ho (fun h => h.elim)).inv
      (P := fun t => ∃ q', t.peers[p]? = some q' ∧ Static q q') (by
        rintro a b hab ⟨q', hq', h1, h2, h3, h4⟩
        obtain ⟨q'', hq'', g1, g2, g3, g4⟩ := prim_static hab p q' hq'
        exact ⟨q'', hq'', g1.trans h1, g2.trans h2, g3.trans h3, g4.trans h4⟩)
      ⟨q, hq, rfl, rfl, rfl, rfl⟩
    exact this
  · intro p q a b ha hb hab
    have hp := Reachable.peerIdx L h
    have h1 := (hp _ p).mpr ⟨a, ha, rfl⟩
    have h2 := (hp _ q).mpr ⟨b, hb, hab.symm⟩
    rw [h1] at h2; exact Option.some.inj h2

end

/-! ### Concrete cases -/
namespace Ex

/-- deterministic test randomness -/
def rnd (n : Nat) : Rnd where
  sid := toLE 4 n
  kcoins := toLE 2 n
  ecoins := toLE 2 (n + 1)
  scoins := toLE 2 (n + 2)
  nonce := toLE 24 n
  bkey := toLE 32 n
  csecret := toLE 16 n
  cookie := toLE 16 n
  pad := List.replicate (CookieReply.padLen Toy.crypto) 0
  jit := 0

theorem rnd_WF (n : Nat) : (rnd n).WF Toy.crypto := by
  constructor <;> simp [rnd, toLE_length]

/-- the two parties of the examples -/
def skA : Bytes := [1, 2, 3, 4]
def skB : Bytes := [5, 6, 7, 8]

def fresh (sk : Bytes) : Server :=
  Server.new sk sk (toLE 32 1) (toLE 32 2) (toLE 16 3) (toLE 16 4) (toLE 32 5)

/-- a transmit buffer -/
def buf : Bytes := List.replicate 400 0

/-- one server with one peer -/
def server (sk pk : Bytes) (v : Version) : Server :=
  ((fresh sk).addPeer Toy.crypto (some (toLE 32 77)) pk v .wireguardPsk).2

theorem server_reachable (sk pk : Bytes) (v : Version) : Reachable Toy.crypto (server sk pk v) := by
  refine Reachable.step (fresh sk) (.addPeer (some (toLE 32 77)) pk v .wireguardPsk)
    (.new _ _ _ _ _ _ _ (toLE_length _ _) (toLE_length _ _) (toLE_length _ _) (toLE_length _ _) (toLE_length _ _)) ?_
  intro k hk
  cases hk
  exact toLE_length _ _

end Ex

/-- C14: a reachable state with a handshake in the index. -/
example : Reachable Toy.crypto ((Ex.server Ex.skA Ex.skB .v03).step Toy.crypto (.initiate 0 0 (Ex.rnd 9) Ex.buf)) ∧
    ((Ex.server Ex.skA Ex.skB .v03).step Toy.crypto (.initiate 0 0 (Ex.rnd 9) Ex.buf)).lookupHandshake (toLE 4 9) = some 0 := by
  refine ⟨.step _ _ (Ex.server_reachable _ _ _) (Ex.rnd_WF 9), ?_⟩
  decide +kernel

/-- C15: the failing history exists: two initiations that draw the same id. -/
example : let s := (Ex.server Ex.skA Ex.skB .v03).step Toy.crypto (.initiate 0 0 (Ex.rnd 9) Ex.buf)
    (s.handshake 0).map (·.core.sidi) = some (Ex.rnd 9).sid ∧
    (s.initiate Toy.crypto 0 0 (Ex.rnd 9) Ex.buf).1.isOk = true ∧
    (s.initiate Toy.crypto 0 0 (Ex.rnd 9) Ex.buf).2.lookupHandshake (Ex.rnd 9).sid = none := by
  decide +kernel

/-- C16: a second registration of the same key is refused, another key is accepted. -/
example : ((Ex.server Ex.skA Ex.skB .v03).addPeer Toy.crypto none Ex.skB .v03 .wireguardPsk).1 = .error .peerExists ∧
    ((Ex.server Ex.skA Ex.skB .v03).addPeer Toy.crypto none [9, 9, 9, 9] .v03 .wireguardPsk).1 = .ok 1 := by
  decide +kernel

end Verif
