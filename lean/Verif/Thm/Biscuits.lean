import Verif.Thm.Secrets
/-
C27: rotation of the biscuit keys.
-/
namespace Verif
open HashDomain Server

section
variable {C : Crypto}

/-- the more recently created of the two keys -/
def newest (t : Two) : Bool := if t.a.createdAt ≥ t.b.createdAt then false else true

theorem keyYoung_iff (x : Store) (now : Time) : x.biscuitMortal.lifecycle now = .young ↔ KeyYoung x now := by
  unfold Store.biscuitMortal Store.created KeyYoung
  by_cases h : x.createdAt < 0
  · simp only [if_pos h, Option.map_none, lifecycle_none]
    constructor
    · intro h; cases h
    · intro h'; exact absurd h (Int.not_lt.mpr h'.1)
  · simp only [if_neg h, Option.map_some, lifecycle_some]
    have he : biscuitEpoch = secs 300 := rfl
    rw [he]
    have h2 : ∀ c g t now : Int, 0 ≤ t → ¬ c + t - now < g → ¬ c + t + t - now < g := by intros; omega
    have h3 : ∀ c g t now : Int, c + t - now < g ↔ ¬ (now + g ≤ c + t) := by intros; omega
    by_cases h1 : x.createdAt + secs 300 - now < eventGrace
    · constructor
      · intro hh
        rw [if_pos h1] at hh
        split at hh <;> cases hh
      · intro hh; exact absurd hh.2 ((h3 _ _ _ _).mp h1)
    · constructor
      · intro _; exact ⟨Int.not_lt.mp h, Decidable.not_not.mp (fun hh => h1 ((h3 _ _ _ _).mpr hh))⟩
      · intro _
        rw [if_neg (h2 _ _ _ _ (by decide) h1), if_neg h1]

/-- Which key encrypts a new biscuit: the newest if it is younger than an epoch, else a new one that
replaces the older of the two. -/
theorem activeBiscuitKey_spec (s : Server) (now : Time) (k : Bytes) :
    (KeyYoung (s.biscuitKeys.get (newest s.biscuitKeys)) now ∧ s.activeBiscuitKey now k = (newest s.biscuitKeys, s)) ∨
    (¬ KeyYoung (s.biscuitKeys.get (newest s.biscuitKeys)) now ∧ s.activeBiscuitKey now k = (!newest s.biscuitKeys,
      { s with biscuitKeys := s.biscuitKeys.set (!newest s.biscuitKeys) { createdAt := now, value := k } })) := by
  unfold activeBiscuitKey
  simp only
  have hn : (if s.biscuitKeys.a.createdAt ≥ s.biscuitKeys.b.createdAt then false else true) = newest s.biscuitKeys := rfl
  have hr : (if s.biscuitKeys.a.createdAt < s.biscuitKeys.b.createdAt then false else true) = !newest s.biscuitKeys := by
    unfold newest
    by_cases h : s.biscuitKeys.a.createdAt ≥ s.biscuitKeys.b.createdAt
    · rw [if_pos h, if_neg (Int.not_lt.mpr h)]; rfl
    · rw [if_neg h, if_pos (Int.not_le.mp h)]; rfl
  rw [hn, hr]
  by_cases h : KeyYoung (s.biscuitKeys.get (newest s.biscuitKeys)) now
  · rw [if_pos ((keyYoung_iff _ _).mpr h)]; exact Or.inl ⟨h, rfl⟩
  · rw [if_neg (fun hh => h ((keyYoung_iff _ _).mp hh))]; exact Or.inr ⟨h, rfl⟩

/-- Slot `i` holds key `k` and is not the next to be replaced before `k` is two epochs old. -/
def KeyKept (s : Server) (i : Bool) (k : Store) : Prop :=
  s.biscuitKeys.get i = k ∧ (newest s.biscuitKeys = i ∨ k.createdAt + secs 300 - eventGrace < (s.biscuitKeys.get (!i)).createdAt)

theorem newest_ge (t : Two) (i : Bool) (h : newest t ≠ i) : (t.get i).createdAt ≤ (t.get (!i)).createdAt := by
  unfold newest at h
  cases i with
  | false =>
    by_cases h1 : t.a.createdAt ≥ t.b.createdAt
    · rw [if_pos h1] at h; exact absurd rfl h
    · exact Int.le_of_lt (Int.not_le.mp h1)
  | true =>
    by_cases h1 : t.a.createdAt ≥ t.b.createdAt
    · exact h1
    · rw [if_neg h1] at h; exact absurd rfl h

theorem newest_of_lt (t : Two) (i : Bool) (h : (t.get (!i)).createdAt < (t.get i).createdAt) : newest t = i := by
  by_cases h1 : newest t = i
  · exact h1
  · exact absurd h (Int.not_lt.mpr (newest_ge t i h1))

theorem issued_kept {s : Server} {i : Bool} {k : Store} (h0 : 0 ≤ k.createdAt) {now : Time} {key : Bytes}
    (ht : now ≤ k.createdAt + 2 * secs 300 - 2 * eventGrace) (hk : KeyKept s i k) :
    KeyKept (s.activeBiscuitKey now key).2 i k := by
  obtain ⟨hg, hd⟩ := hk
  have a1 : ∀ c g t now : Int, ¬ (0 ≤ c ∧ now + g ≤ c + t) → 0 ≤ c → c + t - g < now := by intros; omega
  have a2 : ∀ c d g t now : Int, c + t - g < d → now ≤ c + 2 * t - 2 * g → d + t - g < now → False := by intros; omega
  have a3 : ∀ c d g t : Int, 0 ≤ c → g ≤ t → c + t - g < d → 0 ≤ d := by intros; omega
  rcases activeBiscuitKey_spec s now key with ⟨-, h⟩ | ⟨hy, h⟩
  · rw [h]; exact ⟨hg, hd⟩
  · rw [h]
    by_cases hn : newest s.biscuitKeys = i
    · rw [hn]
      refine ⟨?_, Or.inr ?_⟩
      · show (s.biscuitKeys.set (!i) _).get i = k
        rw [Two.get_set_ne _ (by cases i <;> decide)]; exact hg
      · show _ < ((s.biscuitKeys.set (!i) _).get (!i)).createdAt
        rw [Two.get_set]
        rw [hn, hg] at hy
        exact a1 _ _ _ _ hy h0
    · exfalso
      have hni : newest s.biscuitKeys = !i := by
        revert hn; generalize newest s.biscuitKeys = x; cases i <;> cases x <;> decide
      rcases hd with hd | hd
      · exact hn hd
      · rw [hni] at hy
        exact a2 _ _ _ _ _ hd ht (a1 _ _ _ _ hy (a3 _ _ _ _ h0 (by decide) hd))

theorem not_kept_of_dead {k : Store} {now t : Time} (h0 : 0 ≤ k.createdAt) (h : k.biscuitMortal.lifeLeft now = some t) (ht : t < eventGrace)
    (hn : now ≤ k.createdAt + 2 * secs 300 - 2 * eventGrace) : False := by
  unfold Store.biscuitMortal Mortal.lifeLeft Store.created at h
  simp only [if_neg (Int.not_lt.mpr h0), Option.map_some, Option.some.injEq] at h
  rw [← h] at ht
  have a : ∀ c g t now : Int, 0 ≤ g → c + t + t - now < g → now ≤ c + 2 * t - 2 * g → False := by intros; omega
  exact a _ _ _ _ (by decide) ht hn

theorem step_kept (C : Crypto) {s : Server} (o : Op) {i : Bool} {k : Store} (h0 : 0 ≤ k.createdAt)
    (ht : ∀ u, o.time = some u → u ≤ k.createdAt + 2 * secs 300 - 2 * eventGrace) (hk : KeyKept s i k) :
    KeyKept (s.step C o) i k := by
  have same : ∀ {a b : Server}, a.biscuitKeys = b.biscuitKeys → KeyKept b i k → KeyKept a i k := by
    intro a b h hk; unfold KeyKept; rw [h]; exact hk
  have direct : ∀ (s : Server) rx tx now r, now ≤ k.createdAt + 2 * secs 300 - 2 * eventGrace → KeyKept s i k →
      KeyKept (s.handleMsg C rx tx now r).2 i k := by
    intro s rx tx now r hn hk
    rcases handleMsg_globals C s rx tx now r with h | ⟨h, hs⟩
    · exact same h.biscuitKeys hk
    · rw [hs]
      exact issued_kept (s := { s with biscuitCtr := ConstantTime.increment s.biscuitCtr }) h0 hn hk
  cases o with
  | addPeer psk pk v osk =>
    simp only [step, addPeer]
    split <;> exact hk
  | initiate p now r tx =>
    simp only [step]
    rcases initiate_cases C s p now r tx with ⟨x, hx⟩ | ⟨peer, ih, hs, e, -, -, -, -, hx⟩
    · rw [hx]; exact hk
    · rw [hx]
      exact same ((hsPut_globals s p hs).trans (SameGlobals.modPeer _ _ _)).biscuitKeys hk
  | handleMsg rx tx now r => exact direct s rx tx now r (ht _ rfl) hk
  | handleMsgUnderLoad rx tx host now r =>
    simp only [step]
    rcases underLoad_cases C s rx tx host now r with ⟨x, -, hx, -⟩ | ⟨-, hx⟩ | ⟨-, j, ids, s1, hact, hs1, hc⟩
    · rw [hx]; exact hk
    · rw [hx]; exact direct s rx tx now r (ht _ rfl) hk
    have h1 : KeyKept s1 i k := same (by rw [hs1]) hk
    rcases hc with ⟨-, hx⟩ | ⟨e, -, ⟨-, hx⟩ | ⟨-, ⟨-, hx⟩ | ⟨-, hx⟩⟩⟩
    · rw [hx]; exact h1
    · rw [hx]; exact direct s1 rx tx now r (ht _ rfl) h1
    · rw [hx]; exact h1
    · rw [hx]; exact h1
  | poll now r =>
    simp only [step]
    split
    · rename_i c s1 h
      obtain ⟨s2, hm, rfl⟩ := poll_moves s _ _ h
      refine same (b := s2) rfl ?_
      refine hm.inv (P := fun t => KeyKept t i k) ?_ hk
      intro a b hab hk
      cases hab with
      | biscuit j t h1 h2 =>
        by_cases hj : i = j
        · subst hj
          rw [hk.1] at h1
          exact (not_kept_of_dead h0 h1 h2 (ht _ rfl)).elim
        · have hji : j = !i := by revert hj; cases i <;> cases j <;> decide
          subst hji
          refine ⟨by rw [Two.get_set_ne _ hj]; exact hk.1, Or.inl ?_⟩
          apply newest_of_lt
          rw [Two.get_set, Two.get_set_ne _ hj, hk.1]
          have hb : bce < 0 := by decide
          exact Int.lt_of_lt_of_le hb h0
      | cookie j t => exact hk
      | hsTake p => exact same (hsTake_globals a p).biscuitKeys hk
      | sessTake p => exact same (sessTake_globals a p).biscuitKeys hk
      | initReq p => exact same (SameGlobals.modPeer a p _).biscuitKeys hk
      | retry p => exact same (SameGlobals.modPeer a p _).biscuitKeys hk
      | known p kk _ hk' hlt hr =>
        unfold knownRemove at hr
        rw [hk'] at hr
        simp only at hr
        split at hr
        · cases hr
        · cases hr; exact hk
    · exact hk
  | retransmit p tx => simp only [step, retransmit_state]; exact hk

theorem run_kept (C : Crypto) (ops : List Op) {s : Server} {i : Bool} {k : Store} (h0 : 0 ≤ k.createdAt)
    (ht : ∀ o ∈ ops, ∀ u, o.time = some u → u ≤ k.createdAt + 2 * secs 300 - 2 * eventGrace) (hk : KeyKept s i k) :
    (s.run C ops).biscuitKeys.get i = k := by
  induction ops generalizing s with
  | nil => exact hk.1
  | cons o ops ih =>
    exact ih (s := s.step C o) (fun x hx => ht x (by simp [hx])) (step_kept C o h0 (ht o (by simp)) hk)

theorem rhr_bit {B s' : Server} {ih : InitHello} {pb q : Nat} {ea : Peer} {core : Core} {now : Time} {r : Rnd} {rh : RespHello}
    (hr : r.WF C) (h : B.rhr C ih pb ea core now r = (.ok (q, rh), s')) :
    biscuitKeyBit rh.biscuitCt = (({ B with biscuitCtr := ConstantTime.increment B.biscuitCtr } : Server).activeBiscuitKey now r.bkey).1 := by
  unfold rhr at h
  simp only at h
  split at h
  · cases h
  · split at h
    · cases h
    · simp only [storeBiscuit, Prod.mk.injEq, Except.ok.injEq] at h
      obtain ⟨⟨-, rfl⟩, -⟩ := h
      simp only [Crypto.xSeal, biscuitKeyBit_nonce _ _ hr.nonce]

theorem active_kept (s : Server) (now : Time) (k : Bytes) (h0 : 0 ≤ now) :
    let i := (s.activeBiscuitKey now k).1
    let s' := (s.activeBiscuitKey now k).2
    KeyYoung (s'.biscuitKeys.get i) now ∧ newest s'.biscuitKeys = i := by
  intro i s'
  rcases activeBiscuitKey_spec s now k with ⟨hy, h⟩ | ⟨hy, h⟩
  · have hi : i = newest s.biscuitKeys := congrArg Prod.fst h
    have hs : s' = s := congrArg Prod.snd h
    rw [hi, hs]; exact ⟨hy, rfl⟩
  · have hi : i = !newest s.biscuitKeys := congrArg Prod.fst h
    have hs : s' = _ := congrArg Prod.snd h
    rw [hi, hs]
    refine ⟨?_, ?_⟩
    · show KeyYoung ((s.biscuitKeys.set _ _).get _) now
      rw [Two.get_set]
      exact ⟨h0, Int.add_le_add_left (by decide) _⟩
    · apply newest_of_lt
      show ((s.biscuitKeys.set _ _).get _).createdAt < ((s.biscuitKeys.set _ _).get _).createdAt
      rw [Two.get_set, Two.get_set_ne _ (by simp), Bool.not_not]
      have a : ∀ c g t now : Int, ¬ (0 ≤ c ∧ now + g ≤ c + t) → 0 ≤ now → g ≤ t → c < now := by intros; omega
      exact a _ _ _ _ hy h0 (by decide)

/-- a reply with the type byte of RespHello: which key encrypted its biscuit -/
theorem handleMsg_key (L : C.Lawful) {s s' : Server} {rx tx : Bytes} {now : Time} {r : HashChoice → Rnd} {x : Option Nat}
    {m : Bytes} (hr : ∀ h, (r h).WF C) (hlc : s.biscuitCtr.length = 12) (h0 : 0 ≤ now)
    (hok : s.handleMsg C rx tx now r = (.ok ⟨x, some m⟩, s')) (hm : m.head? = some 0x82) :
    KeyYoung (keyOf C s' m) now ∧
    newest s'.biscuitKeys = biscuitKeyBit (RespHello.decode C (Env.view (payloadSize C .respHello) m).payload).biscuitCt := by
  obtain ⟨e, out, h, p, c, peer, rh, he, hout, R⟩ := handleMsg_respHello hok hm
  rcases R.result with ⟨h1, -⟩ | ⟨h1, -⟩ | ⟨h1, h2, h3⟩
  · cases h1
  · cases h1
  obtain ⟨ha, rfl⟩ := Prod.mk.inj h1
  have hih := InitHello.decode_WF (C := C) ((Env.decode_eq_some he).2 ▸ (Env.view_WF (Env.decode_eq_some he).1).2.1)
  obtain ⟨-, c', F⟩ := rhr_facts L (hr h) (ihrVerify_sidi R.verify) hih hlc R.answer
  have hwout := castTx_WF hout
  have hwe : Env.WF (RespHello.size C) { out with payload := rh.encode } :=
    ⟨hwout.1, RespHello.encode_length F.wf, hwout.2.2.1, hwout.2.2.2⟩
  have S := sealMsg_sealed L peer .respHello _ hwe
  have hm : m = (sealMsg C peer .respHello { out with payload := rh.encode }).encode := by cases ha; rfl
  have hv : RespHello.decode C (Env.view (payloadSize C .respHello) m).payload = rh := by
    have h5 : Env.view (payloadSize C .respHello) m = sealMsg C peer .respHello { out with payload := rh.encode } := by
      rw [hm]; exact Env.view_encode S.wf
    rw [h5, S.payload]; exact RespHello.decode_encode F.wf
  have hbit := rhr_bit (hr h) R.answer
  have hk := active_kept { s with biscuitCtr := ConstantTime.increment s.biscuitCtr } now (r h).bkey h0
  unfold keyOf
  rw [hv, hbit]
  exact hk

theorem step_key (L : C.Lawful) {s : Server} {o : Op} (ho : o.WF C) (hlc : s.biscuitCtr.length = 12) {now : Time} (h0 : 0 ≤ now)
    (ht : o.time = some now) {x m} (hok : o.result C s = .ok ⟨x, some m⟩) (hm : m.head? = some 0x82) :
    KeyYoung (keyOf C (s.step C o) m) now ∧ newest (s.step C o).biscuitKeys =
      biscuitKeyBit (RespHello.decode C (Env.view (payloadSize C .respHello) m).payload).biscuitCt := by
  cases o with
  | addPeer psk pk v osk => cases hok
  | initiate p now r tx => cases hok
  | handleMsg rx tx now r =>
    cases ht
    exact handleMsg_key L (x := x) ho hlc h0 (Prod.ext hok rfl) hm
  | handleMsgUnderLoad rx tx host now r =>
    cases ht
    simp only [Op.result] at hok
    simp only [step]
    rcases underLoad_cases C s rx tx host now r with ⟨x, -, hx, -⟩ | ⟨-, hx⟩ | ⟨-, i, ids, s1, -, hs1, ⟨-, hx⟩ |
      ⟨e, -, ⟨-, hx⟩ | ⟨-, ⟨-, hx⟩ | ⟨-, hx⟩⟩⟩⟩
    · rw [hx] at hok; cases hok
    · rw [hx] at hok ⊢
      exact handleMsg_key L ho hlc h0 (Prod.ext hok rfl) hm
    · rw [hx] at hok; cases hok
    · rw [hx] at hok ⊢
      have hc : s1.biscuitCtr = s.biscuitCtr := by rw [hs1]
      exact handleMsg_key L ho (hc ▸ hlc) h0 (Prod.ext hok rfl) hm
    · rw [hx] at hok; cases hok
    · rw [hx] at hok
      cases hok
      exact absurd hm (by simp only [CookieReply.encode, cookieReplyTo, List.head?_cons]; decide)
  | poll now r => cases hok
  | retransmit p tx => cases hok

/-- **C27** (one active key). The biscuit in every RespHello is encrypted with the newest of the two
keys, and that key is younger than one epoch (300 s). -/
theorem biscuit_key_is_young (L : C.Lawful) {s : Server} (hr : Reachable C s) (o : Op) (ho : o.WF C) (now : Time) (h0 : 0 ≤ now)
    (ht : o.time = some now) (x : Option Nat) (m : Bytes) (hok : o.result C s = .ok ⟨x, some m⟩) (hm : m.head? = some 0x82) :
    KeyYoung (keyOf C (s.step C o) m) now ∧
    ∀ i, ((s.step C o).biscuitKeys.get i).createdAt ≤ (keyOf C (s.step C o) m).createdAt := by
  obtain ⟨h1, h2⟩ := step_key L ho (Reachable.ctrLen L hr) h0 ht hok hm
  refine ⟨h1, ?_⟩
  intro i
  unfold keyOf
  rw [← h2]
  by_cases hi : newest (s.step C o).biscuitKeys = i
  · rw [hi]; exact Int.le_refl _
  · have := newest_ge _ i hi
    have hni : newest (s.step C o).biscuitKeys = !i := by
      revert hi; generalize newest (s.step C o).biscuitKeys = x; cases i <;> cases x <;> decide
    rw [hni]; exact this

/-- **C27** (validity). A biscuit issued at `now` still opens, to the same content and for the same
peer, after any sequence of calls made up to 300 s later. -/
theorem biscuit_stays_valid (L : C.Lawful) {s : Server} (hr : Reachable C s) (o : Op) (ho : o.WF C) (now : Time) (h0 : 0 ≤ now)
    (ht : o.time = some now) (x : Option Nat) (m : Bytes) (hok : o.result C s = .ok ⟨x, some m⟩) (hm : m.head? = some 0x82)
    (ops : List Op) (hops : ∀ o ∈ ops, o.WF C) (htime : ∀ o ∈ ops, ∀ u, o.time = some u → u ≤ now + secs 300 - eventGrace) :
    ∃ b, CarriesBiscuit C (s.step C o) m b ∧ CarriesBiscuit C ((s.step C o).run C ops) m b ∧
      keyOf C ((s.step C o).run C ops) m = keyOf C (s.step C o) m := by
  have hctr := Reachable.ctrLen L hr
  obtain ⟨hy, hn⟩ := step_key L ho hctr h0 ht hok hm
  obtain ⟨-, b, hb, -⟩ := step_biscuit L ho hctr hok hm
  have a : ∀ c g t now u : Int, now + g ≤ c + t → u ≤ now + t - g → u ≤ c + 2 * t - 2 * g := by intros; omega
  have hkept : KeyKept (s.step C o) (biscuitKeyBit (RespHello.decode C (Env.view (payloadSize C .respHello) m).payload).biscuitCt) (keyOf C (s.step C o) m) :=
    ⟨rfl, Or.inl hn⟩
  have hrun := run_kept C ops hy.1 (fun o' ho' u hu => a _ _ _ _ _ hy.2 (htime o' ho' u hu)) hkept
  refine ⟨b, hb, ?_, hrun⟩
  obtain ⟨e, peer, he, hp, hpid, hopen⟩ := hb
  have hl := run_later L ops hops (s.step C o)
  obtain ⟨n, hnp⟩ := List.getElem?_of_mem hp
  obtain ⟨q', hq', hst, -⟩ := hl.peers n peer hnp
  have hev : Env.view (payloadSize C .respHello) m = e := (Env.decode_eq_some he).2.symm
  rw [hev] at hrun
  refine ⟨e, q', he, List.mem_of_getElem? hq', ?_, ?_⟩
  · exact hpid.trans (Static.pidt hst).symm
  · simp only at hopen ⊢
    rw [hrun, hl.spkm, hst.2.2.1]
    unfold keyOf
    rw [hev]
    exact hopen

theorem sched_sleep (t : Time) (s : Server) (w : Server → Time) (act : Server → PollSt) :
    sched (some (.sleep t, s)) w act =
      if hasHappened (w s) 0 then
        match act s with
        | none => none
        | some (b, s1) => (PollResult.fold (.sleep t) b).map (fun c => (c, s1))
      else some (.sleep (min t (w s)), s) := by
  unfold sched
  exact if_neg Bool.false_ne_true

theorem pollChild_sleep (t : Time) (s : Server) (child : Server → PollSt) :
    pollChild (some (.sleep t, s)) child =
      match child s with
      | none => none
      | some (b, s1) => (PollResult.fold (.sleep t) b).map (fun c => (c, s1)) := by
  unfold pollChild
  exact if_neg Bool.false_ne_true

theorem pollChildren_sleep (t : Time) (s : Server) (f : Server → PollSt) (fs : List (Server → PollSt)) :
    pollChildren (f :: fs) (some (.sleep t, s)) = pollChildren fs (pollChild (some (.sleep t, s)) f) := by
  rw [pollChildren]
  exact if_neg Bool.false_ne_true

/-- a key slot that is empty or has at least the clock granularity of life left -/
def KeyAlive (x : Store) (now : Time) : Prop := x.createdAt < 0 ∨ now + eventGrace ≤ x.createdAt + 2 * secs 300

theorem pollBiscuit_alive (now : Time) (r : PollRnd) (i : Bool) (s : Server) :
    ∃ t s', pollBiscuit now r i s = some (.sleep t, s') ∧ KeyAlive (s'.biscuitKeys.get i) now ∧
      s'.biscuitKeys.get (!i) = s.biscuitKeys.get (!i) := by
  unfold pollBiscuit PollResult.hibernate
  rw [sched_sleep]
  have hne : (!i) ≠ i := by cases i <;> decide
  by_cases hw : hasHappened (waitOrHibernate ((s.biscuitKeys.get i).biscuitMortal.lifeLeft now)) 0 = true
  · rw [if_pos hw]
    refine ⟨_, _, rfl, ?_, ?_⟩
    · left
      show ((s.biscuitKeys.set i _).get i).createdAt < 0
      rw [Two.get_set]; exact (by decide : bce < 0)
    · exact Two.get_set_ne _ hne _
  · rw [if_neg hw]
    refine ⟨_, _, rfl, ?_, rfl⟩
    unfold KeyAlive
    by_cases h : (s.biscuitKeys.get i).createdAt < 0
    · exact Or.inl h
    · right
      unfold Store.biscuitMortal Mortal.lifeLeft Store.created at hw
      simp only [if_neg h, Option.map_some, waitOrHibernate, Option.getD_some, hasHappened, decide_eq_true_eq] at hw
      have a : ∀ c g t now : Int, ¬ (c + t + t - now - 0 < g) → now + g ≤ c + 2 * t := by intros; omega
      exact a _ _ _ _ hw

/-- **C27** (expiry). After every poll, each biscuit key is unset (random, created "before the epoch")
or younger than two epochs (600 s): whatever biscuit the server opens, it opens with such a key. -/
theorem biscuit_keys_expire {s s' : Server} (now : Time) (r : PollRnd) (c : PollResult) (h : s.poll now r = some (c, s')) :
    ∀ i, (s'.biscuitKeys.get i).createdAt < 0 ∨ now + eventGrace ≤ (s'.biscuitKeys.get i).createdAt + 2 * secs 300 := by
  unfold poll at h
  simp only [Option.map_eq_some_iff, Prod.mk.injEq] at h
  obtain ⟨⟨res, s1⟩, h1, rfl, rfl⟩ := h
  show ∀ i, KeyAlive (s1.biscuitKeys.get i) now
  obtain ⟨t1, sa, ha, haa, -⟩ := pollBiscuit_alive now r false s
  obtain ⟨t2, sb, hb, hba, hbb⟩ := pollBiscuit_alive now r true sa
  have hfirst : pollChildren [pollBiscuit now r false, pollBiscuit now r true] (some (.hibernate, s)) =
      some (.sleep (min (min unending t1) t2), sb) := by
    unfold PollResult.hibernate
    rw [pollChildren_sleep, pollChild_sleep, ha]
    show pollChildren _ (some (.sleep (min unending t1), sa)) = _
    rw [pollChildren_sleep, pollChild_sleep, hb]
    rfl
  have hall : ∀ i, KeyAlive (sb.biscuitKeys.get i) now := by
    intro i
    cases i with
    | true => exact hba
    | false =>
      have : sb.biscuitKeys.get false = sa.biscuitKeys.get false := hbb
      rw [this]; exact haa
  rw [hfirst] at h1
  have hm : Moves now r sb s1 := by
    revert h1
    apply pollChildren_moves
    · apply pollChildren_moves (some_moves sb _)
      intro f hf s'
      simp only [List.mem_cons, List.not_mem_nil, or_false] at hf
      rcases hf with rfl | rfl
      · exact pollCookie_moves _ s'
      · exact pollCookie_moves _ s'
    · intro f hf s'
      simp only [List.mem_map] at hf
      obtain ⟨p, _, rfl⟩ := hf
      exact pollPeer_moves p s'
  refine hm.inv (P := fun t => ∀ i, KeyAlive (t.biscuitKeys.get i) now) ?_ hall
  intro a b hab hk
  have same : SameGlobals a b → ∀ i, KeyAlive (b.biscuitKeys.get i) now := fun g => by rw [g.biscuitKeys]; exact hk
  cases hab with
  | biscuit j t h1 h2 =>
    intro i
    by_cases hj : i = j
    · subst hj
      left
      show ((a.biscuitKeys.set i _).get i).createdAt < 0
      rw [Two.get_set]; exact (by decide : bce < 0)
    · show KeyAlive ((a.biscuitKeys.set j _).get i) now
      rw [Two.get_set_ne _ hj]; exact hk i
  | cookie j t => exact hk
  | hsTake p => exact same (hsTake_globals a p)
  | sessTake p => exact same (sessTake_globals a p)
  | initReq p => exact same (SameGlobals.modPeer a p _)
  | retry p => exact same (SameGlobals.modPeer a p _)
  | known p kk _ hk' hlt hr =>
    unfold knownRemove at hr
    rw [hk'] at hr
    simp only at hr
    split at hr
    · cases hr
    · cases hr; exact hk

end

/-- C27: the hypotheses are met by the responder of the example run, whose RespHello is at time 1; -/
example : ∃ (o : Op) (m : Bytes), o.time = some 1 ∧ o.WF Toy.crypto ∧ o.result Toy.crypto (Ex.B0 .v03) = .ok ⟨none, some m⟩ ∧
    m.head? = some 0x82 := by
  refine ⟨.handleMsg (Ex.m1 .v03) Ex.buf 1 (fun _ => Ex.rnd 20), Ex.m2 .v03, rfl, fun _ => Ex.rnd_WF 20, ?_, ?_⟩
  · decide +kernel
  · decide +kernel

/-- … and a later poll with a live key of that run. -/
example : ∃ c s', (Ex.B1 .v03).poll (secs 500) ⟨fun _ => Ex.rnd 1 |>.bkey, fun _ => Ex.rnd 1 |>.csecret, 0⟩ = some (c, s') ∧
    ∃ i, 0 ≤ (s'.biscuitKeys.get i).createdAt := by
  obtain ⟨x, hx⟩ : ∃ x, (Ex.B1 .v03).poll (secs 500) ⟨fun _ => Ex.rnd 1 |>.bkey, fun _ => Ex.rnd 1 |>.csecret, 0⟩ = some x :=
    Option.isSome_iff_exists.mp (by decide +kernel)
  refine ⟨x.1, x.2, hx, true, ?_⟩
  have : ((Ex.B1 .v03).poll (secs 500) ⟨fun _ => Ex.rnd 1 |>.bkey, fun _ => Ex.rnd 1 |>.csecret, 0⟩).map (fun y => decide (0 ≤ (y.2.biscuitKeys.get true).createdAt)) = some true := by
    decide +kernel
  rw [hx] at this
  simpa using this

end Verif
