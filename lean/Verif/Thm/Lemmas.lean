import Verif.Model.Poll
/-
Frame lemmas: which parts of the server each primitive operation touches.
-/
namespace Verif.Server
open HashDomain

/-! ### `modPeer` -/

@[simp] theorem modPeer_index (s : Server) (p f) : (s.modPeer p f).index = s.index := rfl
@[simp] theorem modPeer_sskm (s : Server) (p f) : (s.modPeer p f).sskm = s.sskm := rfl
@[simp] theorem modPeer_spkm (s : Server) (p f) : (s.modPeer p f).spkm = s.spkm := rfl
@[simp] theorem modPeer_biscuitCtr (s : Server) (p f) : (s.modPeer p f).biscuitCtr = s.biscuitCtr := rfl
@[simp] theorem modPeer_biscuitKeys (s : Server) (p f) : (s.modPeer p f).biscuitKeys = s.biscuitKeys := rfl
@[simp] theorem modPeer_knownKey (s : Server) (p f) : (s.modPeer p f).knownKey = s.knownKey := rfl
@[simp] theorem modPeer_cookieSecrets (s : Server) (p f) : (s.modPeer p f).cookieSecrets = s.cookieSecrets := rfl
@[simp] theorem modPeer_pollOff (s : Server) (p f) : (s.modPeer p f).pollOff = s.pollOff := rfl

theorem modPeer_get (s : Server) (p : Nat) (f : Peer → Peer) (q : Nat) :
    (s.modPeer p f).peers[q]? = if q = p then s.peers[q]?.map f else s.peers[q]? := by
  simp only [modPeer, List.getElem?_modify]
  by_cases h : p = q
  · subst h; simp
  · rw [if_neg (fun x => h x.symm)]; simp [h]

theorem modPeer_get_self (s : Server) (p : Nat) (f : Peer → Peer) :
    (s.modPeer p f).peers[p]? = s.peers[p]?.map f := by
  rw [modPeer_get, if_pos rfl]

theorem modPeer_get_ne (s : Server) {p q : Nat} (f : Peer → Peer) (h : q ≠ p) :
    (s.modPeer p f).peers[q]? = s.peers[q]? := by
  rw [modPeer_get, if_neg h]

@[simp] theorem modPeer_length (s : Server) (p f) : (s.modPeer p f).peers.length = s.peers.length := by
  simp [modPeer]

/-- `s'` agrees with `s` on everything except the contents of peers and index. -/
structure SameGlobals (s s' : Server) : Prop where
  sskm : s'.sskm = s.sskm
  spkm : s'.spkm = s.spkm
  biscuitCtr : s'.biscuitCtr = s.biscuitCtr
  biscuitKeys : s'.biscuitKeys = s.biscuitKeys
  knownKey : s'.knownKey = s.knownKey
  cookieSecrets : s'.cookieSecrets = s.cookieSecrets
  pollOff : s'.pollOff = s.pollOff
  len : s'.peers.length = s.peers.length

theorem SameGlobals.refl (s : Server) : SameGlobals s s := ⟨rfl, rfl, rfl, rfl, rfl, rfl, rfl, rfl⟩

theorem SameGlobals.trans {a b c : Server} (h : SameGlobals a b) (g : SameGlobals b c) :
    SameGlobals a c :=
  ⟨g.1.trans h.1, g.2.trans h.2, g.3.trans h.3, g.4.trans h.4, g.5.trans h.5, g.6.trans h.6,
   g.7.trans h.7, g.8.trans h.8⟩

theorem SameGlobals.modPeer (s : Server) (p f) : SameGlobals s (s.modPeer p f) :=
  ⟨rfl, rfl, rfl, rfl, rfl, rfl, rfl, modPeer_length s p f⟩

/-! ### Index updates -/

theorem Index.set_eq (ix : Index) (k : PKey) (v : Option Nat) : (ix.set k v) k = v := by
  simp [Index.set]

theorem Index.set_ne (ix : Index) {k k' : PKey} (v : Option Nat) (h : k' ≠ k) :
    (ix.set k v) k' = ix k' := by
  simp [Index.set, h]

theorem unregisterIfVacant_peers (s : Server) (id p) : (s.unregisterIfVacant id p).peers = s.peers := by
  unfold unregisterIfVacant unregisterSession
  split
  · rfl
  split <;> rfl

theorem unregisterIfVacant_globals (s : Server) (id p) : SameGlobals s (s.unregisterIfVacant id p) := by
  unfold unregisterIfVacant unregisterSession
  split
  · exact .refl s
  split
  · exact .refl s
  · exact ⟨rfl, rfl, rfl, rfl, rfl, rfl, rfl, rfl⟩

/-- Only the entry of the session id itself can change, and it can only disappear. -/
theorem unregisterIfVacant_index (s : Server) (id p k) :
    (s.unregisterIfVacant id p).index k = s.index k ∨
    (k = .sid id ∧ (s.unregisterIfVacant id p).index k = none ∧
      (s.session p).map (·.sidm) ≠ some id ∧ (s.handshake p).map (·.core.sidi) ≠ some id) := by
  unfold unregisterIfVacant
  split
  · exact Or.inl rfl
  · split
    · exact Or.inl rfl
    · rename_i h1 h2
      by_cases hk : k = .sid id
      · subst hk
        right
        exact ⟨rfl, Index.set_eq _ _ _, h1, h2⟩
      · left
        exact Index.set_ne _ _ hk

/-! ### Taking handshake and session -/

theorem hsTake_globals (s : Server) (p) : SameGlobals s (s.hsTake p) := by
  unfold hsTake
  split
  · exact .refl s
  · exact (SameGlobals.modPeer s p _).trans (unregisterIfVacant_globals _ _ _)

theorem sessTake_globals (s : Server) (p) : SameGlobals s (s.sessTake p) := by
  unfold sessTake
  split
  · exact .refl s
  · exact (SameGlobals.modPeer s p _).trans (unregisterIfVacant_globals _ _ _)

theorem modify_id_of {s : Server} {p : Nat} {f : Peer → Peer}
    (h : ∀ q, s.peers[p]? = some q → f q = q) (i : Nat) :
    s.peers[i]? = if i = p then s.peers[i]?.map f else s.peers[i]? := by
  split
  · rename_i hi
    subst hi
    cases hq : s.peers[i]? with
    | none => rfl
    | some q => simp [h q hq]
  · rfl

theorem hsTake_get (s : Server) (p i : Nat) :
    (s.hsTake p).peers[i]? =
      if i = p then s.peers[i]?.map (fun q => { q with handshake := none }) else s.peers[i]? := by
  unfold hsTake
  split
  · rename_i h
    apply modify_id_of
    intro q hq
    simp only [handshake, hq, Option.bind_some] at h
    cases q; simp_all
  · rw [unregisterIfVacant_peers, modPeer_get]

theorem sessTake_get (s : Server) (p i : Nat) :
    (s.sessTake p).peers[i]? =
      if i = p then s.peers[i]?.map (fun q => { q with session := none }) else s.peers[i]? := by
  unfold sessTake
  split
  · rename_i h
    apply modify_id_of
    intro q hq
    simp only [session, hq, Option.bind_some] at h
    cases q; simp_all
  · rw [unregisterIfVacant_peers, modPeer_get]

@[simp] theorem hsTake_length (s : Server) (p) : (s.hsTake p).peers.length = s.peers.length := by
  unfold hsTake
  split
  · rfl
  · rw [unregisterIfVacant_peers, modPeer_length]

@[simp] theorem sessTake_length (s : Server) (p) : (s.sessTake p).peers.length = s.peers.length := by
  unfold sessTake
  split
  · rfl
  · rw [unregisterIfVacant_peers, modPeer_length]

/-! ### Registration -/

theorem registerSession_eq {s s1 : Server} {id p} (h : s.registerSession id p = some s1) :
    s1 = { s with index := s.index.set (.sid id) (some p) } ∧
    (s.index (.sid id) = none ∨ s.index (.sid id) = some p) := by
  unfold registerSession at h
  split at h
  · rename_i q hq
    split at h
    · cases h
      rename_i hp; subst hp
      refine ⟨?_, Or.inr hq⟩
      have : s.index.set (.sid id) (some q) = s.index := by
        funext k
        by_cases hk : k = .sid id
        · subst hk; rw [Index.set_eq, hq]
        · rw [Index.set_ne _ _ hk]
      rw [this]
    · cases h
  · rename_i hq
    cases h
    exact ⟨rfl, Or.inl hq⟩

theorem registerSession_none {s : Server} {id p} :
    s.registerSession id p = none ↔ ∃ q, q ≠ p ∧ s.index (.sid id) = some q := by
  unfold registerSession
  split
  · rename_i q hq
    split
    · rename_i hp; subst hp; simp [hq]
    · rename_i hp; simp only [true_iff]; exact ⟨q, hp, hq⟩
  · rename_i hq; simp [hq]

theorem activeBiscuitKey_eq (s : Server) (now : Time) (k : Bytes) :
    (s.activeBiscuitKey now k).2 = { s with biscuitKeys := (s.activeBiscuitKey now k).2.biscuitKeys } := by
  unfold activeBiscuitKey
  simp only
  by_cases h : (s.biscuitKeys.get (if s.biscuitKeys.a.createdAt ≥ s.biscuitKeys.b.createdAt then false else true)).biscuitMortal.lifecycle now = .young
  · rw [if_pos h]
  · rw [if_neg h]

theorem activeCookieSecrets_eq (s : Server) (now : Time) (k : Bytes) :
    (s.activeCookieSecrets now k).2 = { s with cookieSecrets := (s.activeCookieSecrets now k).2.cookieSecrets } := by
  unfold activeCookieSecrets
  simp only
  generalize (_ ++ _ : List Bool) = l
  by_cases h : l = []
  · rw [if_pos h]
  · rw [if_neg h]

end Verif.Server
