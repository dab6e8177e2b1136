import Verif.Thm.Effects
/-
C09: message handling, polling and retransmission never panic, wrong sizes are rejected.
-/
namespace Verif
open HashDomain Server

/-! ### Specification vocabulary -/

/-- The transmit buffer is large enough for every message (the application passes 2500 bytes). -/
def FitsAll (C : Crypto) (tx : Bytes) : Prop := ∀ t : MsgType, 4 + payloadSize C t + 32 ≤ tx.length

/-- The one length a message of each type has on the wire. -/
def wireLen (C : Crypto) : MsgType → Nat
  | .cookieReply => 4 + payloadSize C .initHello + 32
  | t => 4 + payloadSize C t + 32

section
variable {C : Crypto}

theorem castTx_isSome {n : Nat} {tx : Bytes} (h : 4 + n + 32 ≤ tx.length) : ∃ e, castTx n tx = some e := by
  have : Env.size n ≤ tx.length := by simp only [Env.size]; omega
  obtain ⟨e, he, -⟩ := castTx_some this
  exact ⟨e, he⟩

theorem handleInitHello_no_panic (K : C.KemTotal) {s : Server} (hix : PeerIdx C s) (ih : InitHello) (h : HashChoice)
    (now : Time) (r : Rnd) : (s.handleInitHello C ih h now r).1 ≠ .error .panic := by
  unfold handleInitHello
  have hv := ihrVerify_no_panic K hix ih h
  cases hc : s.ihrVerify C ih h with
  | error e => rw [hc] at hv; simp only; intro he; cases he; exact hv rfl
  | ok x =>
    obtain ⟨p, c⟩ := x
    obtain ⟨-, -, -, -, peer, -, -, -, hp, -⟩ := ihrVerify_ok hc
    obtain ⟨⟨eshk, ecti⟩, he⟩ := Option.isSome_iff_exists.mp (K.eEnc r.ecoins ih.epki)
    obtain ⟨⟨sshk, scti⟩, hs⟩ := Option.isSome_iff_exists.mp (K.sEnc r.scoins peer.spkt)
    simp only [hp, rhr, he, hs]
    intro h; cases h

theorem handleInitHello_index (C : Crypto) (s : Server) (ih : InitHello) (h : HashChoice) (now : Time) (r : Rnd) :
    (s.handleInitHello C ih h now r).2.index = s.index ∧ (s.handleInitHello C ih h now r).2.peers = s.peers := by
  unfold handleInitHello
  split
  · exact ⟨rfl, rfl⟩
  · split
    · exact ⟨rfl, rfl⟩
    · unfold rhr
      simp only
      split
      · exact ⟨rfl, rfl⟩
      · split
        · exact ⟨rfl, rfl⟩
        · exact ⟨issued_index _ _ _, issued_peers _ _ _⟩

theorem helloFinish_no_panic {s : Server} {e out : Env} {h : HashChoice} {p : Nat} {rh : RespHello}
    (hp : (s.peers[p]?).isSome) : (helloFinish C e out h p rh s).1 ≠ .error .panic := by
  obtain ⟨peer, hp⟩ := Option.isSome_iff_exists.mp hp
  simp only [helloFinish, hp]
  split
  · intro h; cases h
  · split <;> (intro h; cases h)

theorem handleInitHello_peer {s s1 : Server} {ih : InitHello} {h : HashChoice} {now : Time} {r : Rnd} {p : Nat} {rh : RespHello}
    (hok : s.handleInitHello C ih h now r = (.ok (p, rh), s1)) : (s1.peers[p]?).isSome := by
  have := (handleInitHello_index C s ih h now r).2
  rw [hok] at this
  rw [this]
  unfold handleInitHello at hok
  split at hok
  · cases hok
  · split at hok
    · cases hok
    · rename_i q c hv peer hp
      unfold rhr at hok
      simp only at hok
      split at hok
      · cases hok
      · split at hok
        · cases hok
        · cases hok; rw [hp]; rfl

theorem msgInitHello_no_panic (K : C.KemTotal) {s : Server} (hix : PeerIdx C s) (e out : Env) (now : Time)
    (r : HashChoice → Rnd) : (s.msgInitHello C e out now r).1 ≠ .error .panic := by
  unfold msgInitHello
  simp only
  have h1 := handleInitHello_no_panic K hix (InitHello.decode C e.payload) .shake now (r .shake)
  have hi := handleInitHello_index C s (InitHello.decode C e.payload) .shake now (r .shake)
  cases hc : s.handleInitHello C (InitHello.decode C e.payload) .shake now (r .shake) with
  | mk a s1 =>
    rw [hc] at h1 hi
    cases a with
    | ok x => exact helloFinish_no_panic (handleInitHello_peer (p := x.1) (rh := x.2) hc)
    | error x =>
      simp only
      have hx : x ≠ .panic := fun h => h1 (by rw [h])
      rw [if_neg hx]
      have hix1 : PeerIdx C s1 := by
        intro pid p
        have := hix pid p
        rw [hi.1, hi.2]; exact this
      have h2 := handleInitHello_no_panic K hix1 (InitHello.decode C e.payload) .blake now (r .blake)
      cases hc2 : s1.handleInitHello C (InitHello.decode C e.payload) .blake now (r .blake) with
      | mk b s2 =>
        rw [hc2] at h2
        cases b with
        | ok y => exact helloFinish_no_panic (handleInitHello_peer (p := y.1) (rh := y.2) hc2)
        | error y =>
          simp only
          have hy : y ≠ .panic := fun h => h2 (by rw [h])
          rw [if_neg hy]
          intro h; cases h

theorem rhiVerify_no_panic (K : C.KemTotal) (s : Server) (rh : RespHello) : s.rhiVerify C rh ≠ .error .panic := by
  unfold rhiVerify
  cases hl : s.lookupHandshake rh.sidi with
  | none => intro h; cases h
  | some p =>
    have : ∃ hs, s.handshake p = some hs := by
      unfold lookupHandshake at hl
      split at hl
      · cases hl
      · split at hl
        · cases hl
          rename_i h2
          rw [Option.map_eq_some_iff] at h2
          exact ⟨h2.choose, h2.choose_spec.1⟩
        · cases hl
    obtain ⟨hs, hh⟩ := this
    obtain ⟨eshk, he⟩ := Option.isSome_iff_exists.mp (K.eDec hs.eski rh.ecti)
    obtain ⟨sshk, hss⟩ := Option.isSome_iff_exists.mp (K.sDec s.sskm rh.scti)
    simp only [hh, he, hss]
    split
    · intro h; cases h
    · split <;> (intro h; cases h)

theorem msgRespHello_no_panic (K : C.KemTotal) (s : Server) (e : Env) (tx : Bytes)
    (htx : FitsAll C tx) (now : Time) (r : Rnd) : (s.msgRespHello C e tx now r).1 ≠ .error .panic := by
  rcases msgRespHello_cases C s e tx now r with ⟨x, hx⟩ | ⟨out', p, c, ic, peer, hs, hc, R⟩
  · intro hp
    obtain ⟨out, ho⟩ := castTx_isSome (htx .initConf)
    have hv := rhiVerify_no_panic K s (RespHello.decode C e.payload)
    unfold msgRespHello at hp
    rw [show castTx InitConf.size tx = some out from ho] at hp
    simp only [handleRespHello] at hp
    cases hr : s.rhiVerify C (RespHello.decode C e.payload) with
    | error y =>
      rw [hr] at hp hv
      simp only at hp
      cases hp; exact hv rfl
    | ok y =>
      obtain ⟨p, c, ic⟩ := y
      obtain ⟨hs, hhs, -⟩ := rhiVerify_core hr
      obtain ⟨peer, hpe⟩ : ∃ peer, s.peers[p]? = some peer := by
        unfold handshake at hhs
        cases h : s.peers[p]? with
        | none => rw [h] at hhs; cases hhs
        | some q => exact ⟨q, rfl⟩
      rw [hr] at hp
      simp only [hpe] at hp
      have hx' := hx
      unfold msgRespHello at hx'
      rw [show castTx InitConf.size tx = some out from ho] at hx'
      simp only [handleRespHello, hr, hpe] at hx'
      rcases sessInsert_cases s p (c.enterLive C now .initiator peer.version.hash) with ⟨h, -⟩ | ⟨h, -⟩
      · rw [h] at hp; cases hp
      · rw [h] at hp
        simp only at hp
        have hget := accepted_get s p (c.enterLive C now .initiator peer.version.hash) p
        rw [if_pos rfl, hpe] at hget
        unfold accepted at hget
        simp only [Option.map_some] at hget
        rw [hget] at hp
        simp only at hp
        split at hp
        · cases hp
        · split at hp
          · rename_i hst
            cases hp
            unfold storeMsg at hst
            split at hst <;> cases hst
          · cases hp
  · rcases R.result with ⟨h1, -⟩ | ⟨h1, -⟩ | ⟨h1, -⟩ <;> (rw [h1]; intro h; cases h)

theorem msgInitConf_no_panic (L : C.Lawful) {s : Server} (hr : Reachable C s) {e : Env} {rx : Bytes}
    (he : Env.decode InitConf.size rx = some e) (tx : Bytes)
    (htx : FitsAll C tx) (now : Time) : (s.msgInitConf C e tx now).1 ≠ .error .panic := by
  have hki := Reachable.knownIdx L hr
  rcases msgInitConf_cases C s e tx now with ⟨hx, hl⟩ | ⟨out', hc, ⟨q, hq, ⟨x, hx, hpan⟩ | ⟨peer, k, -, -, -, hx⟩⟩ | ⟨hn, hf⟩⟩
  · have := htx .emptyData
    simp only [payloadSize] at this
    simp only [Env.size, EmptyData.size] at hl
    omega
  · rw [hx]
    intro h
    cases h
    obtain ⟨k, hk, -⟩ := (hki _ _).mp hq
    unfold known at hk
    rcases hpan rfl with h1 | ⟨peer, h1, h2⟩
    · rw [h1] at hk; cases hk
    · rw [h1, Option.bind_some, h2] at hk; cases hk
  · rw [hx]; intro h; cases h
  · rw [hf]
    have hwf : (InitConf.decode e.payload).WF :=
      InitConf.decode_WF ((Env.decode_eq_some he).2 ▸ (Env.view_WF (Env.decode_eq_some he).1).2.1)
    have hpok : ∀ {h s0}, AttemptState C s (InitConf.decode e.payload) h s0 → AllPeers PeerOk s0 := by
      intro h s0 hA
      rcases hA with rfl | ⟨-, p0, no0, c0, hv, rfl, -⟩
      · exact Reachable.peerOk L hr
      · have hp := Reachable.peerOk L hr
        refine hp.upd (burnt_get s p0 no0) ?_
        intro q hq hqo
        exact ⟨hqo.hs, (fun x hx => by cases hx), icrVerify_no_len L hwf hv, hqo.known⟩
    rcases msgInitConfFresh_cases C s e out' now with ⟨h', s0, x, hA, hx, hpan⟩ | ⟨h', s0, q, no, c, peer0, hA, R⟩
    · rw [hx]; intro h; cases h
      exact icrVerify_no_panic L (AttemptState.peerIdx hA (Reachable.peerIdx L hr)) (hpok hA) _ hwf h' (hpan rfl)
    · rcases R.result with ⟨⟨x, hxp, h1⟩, -⟩ | ⟨h1, -⟩ | ⟨h1, -⟩ | ⟨h1, hk⟩ | ⟨s2, h1, -⟩
      · rw [h1]; intro h; cases h; exact hxp rfl
      · rw [h1]; intro h; cases h
      · rw [h1]; intro h; cases h
      · obtain ⟨s2, hs2⟩ := knownInsert_some (confirmed_knownIdx (AttemptState.knownIdx hA hki) q no
            (c.enterLive C now .responder peer0.version.hash)) q
            { receivedAt := now, requestMac := s0.knownHash C e, response := { out' with payload := (ackOf C (c.enterLive C now .responder peer0.version.hash)).encode } }
        rw [hk] at hs2; cases hs2
      · rw [h1]; intro h; cases h

theorem lookup_some {s : Server} {id : Bytes} {p : Nat} (h : s.lookupSession id = some p ∨ s.lookupHandshake id = some p) :
    ∃ peer, s.peers[p]? = some peer := by
  cases hp : s.peers[p]? with
  | some peer => exact ⟨peer, rfl⟩
  | none =>
    rcases h with h | h
    · unfold lookupSession at h
      split at h
      · cases h
      · split at h
        · cases h
          rename_i h2; unfold session at h2; rw [hp] at h2; cases h2
        · cases h
    · unfold lookupHandshake at h
      split at h
      · cases h
      · split at h
        · cases h
          rename_i h2; unfold handshake at h2; rw [hp] at h2; cases h2
        · cases h

theorem handleRespConf_no_panic (s : Server) (e : Env) : (s.handleRespConf C e).1 ≠ .error .panic := by
  unfold handleRespConf
  simp only
  cases hl : s.lookupHandshake (EmptyData.decode e.payload).sid with
  | none => intro h; cases h
  | some p =>
    obtain ⟨peer, hp⟩ := lookup_some (Or.inr hl)
    simp only [hp]
    split
    · intro h; cases h
    · split
      · intro h; cases h
      · split
        · intro h; cases h
        · split
          · intro h; cases h
          · split <;> (intro h; cases h)

theorem handleCookieReply_no_panic (L : C.Lawful) {s : Server} (hr : Reachable C s) (cr : CookieReply) (now : Time) :
    (s.handleCookieReply C cr now).1 ≠ .error .panic := by
  unfold handleCookieReply
  cases hl : s.cookieReplyPeer cr.sid with
  | none => intro h; cases h
  | some p =>
    have : s.lookupSession cr.sid = some p ∨ s.lookupHandshake cr.sid = some p := by
      unfold cookieReplyPeer at hl
      split at hl
      · left; rename_i h; rw [h]; exact hl
      · right; exact hl
    obtain ⟨peer, hp⟩ := lookup_some this
    simp only [hp]
    cases hh : peer.handshake with
    | none => intro h; cases h
    | some hs =>
      simp only
      have hb := ((Reachable.peerOk L hr p peer hp).hs hs hh).2.1
      have hfit := L.fits
      have hm : lastMac C hs ≠ .error .panic := by
        unfold lastMac
        split
        · obtain ⟨e, he⟩ := castTx_isSome (n := InitHello.size C) (tx := hs.txBuf) (by simp only [InitHello.size]; omega)
          rw [he]; intro h; cases h
        · obtain ⟨e, he⟩ := castTx_isSome (n := InitConf.size) (tx := hs.txBuf) (by simp only [InitConf.size, biscuitCtLen]; omega)
          rw [he]; intro h; cases h
        · intro h; cases h
      cases hc : lastMac C hs with
      | error x => simp only; intro h; cases h; exact hm hc
      | ok mac =>
        simp only
        split <;> (intro h; cases h)

theorem handleMsg_no_panic (L : C.Lawful) (K : C.KemTotal) {s : Server} (hr : Reachable C s) (rx tx : Bytes)
    (htx : FitsAll C tx) (now : Time) (r : HashChoice → Rnd) : (s.handleMsg C rx tx now r).1 ≠ .error .panic := by
  rcases handleMsg_dispatch C s rx tx now r with ⟨x, hx, hlt, -⟩ | ⟨t, bs, out, hrx, hout, hd⟩
  · rw [hx]
    intro h
    cases h
    have := hlt rfl
    have h2 := htx .respHello
    simp only [Env.size, RespHello.size, biscuitCtLen] at this
    simp only [payloadSize] at h2
    omega
  · rcases hd with ⟨rfl, e, he, hh⟩ | ⟨rfl, e, he, hh⟩ | ⟨rfl, e, he, hh⟩ | ⟨rfl, e, he, hh⟩ | ⟨rfl, cr, he, hh⟩
    · rw [hh]; exact msgInitHello_no_panic K (Reachable.peerIdx L hr) e out now r
    · rw [hh]; exact msgRespHello_no_panic K s e tx htx now _
    · rw [hh]; exact msgInitConf_no_panic L hr he tx htx now
    · rw [hh]
      have := handleRespConf_no_panic (C := C) s e
      simp only
      cases hc : (s.handleRespConf C e).1 with
      | error x => rw [hc] at this; intro h; cases h; exact this rfl
      | ok x => intro h; cases h
    · rw [hh]
      have := handleCookieReply_no_panic L hr cr now
      simp only
      cases hc : (s.handleCookieReply C cr now).1 with
      | error x => rw [hc] at this; intro h; cases h; exact this rfl
      | ok x => intro h; cases h

/-! ### poll -/

/-- A polling step that returns and keeps the index of cached responses consistent. -/
def Good (f : Server → PollSt) : Prop := ∀ s, KnownIdx s → ∃ c s', f s = some (c, s') ∧ KnownIdx s'

theorem fold_unsat {a b : PollResult} (h : a.saturated = false) : ∃ c, a.fold b = some c := by
  cases a <;> cases b <;> first | exact ⟨_, rfl⟩ | cases h

theorem sched_good {x : PollSt} (hx : ∃ c s', x = some (c, s') ∧ KnownIdx s') {w : Server → Time} {act : Server → PollSt}
    (hact : ∀ s, KnownIdx s → hasHappened (w s) 0 = true → ∃ c s', act s = some (c, s') ∧ KnownIdx s') :
    ∃ c s', sched x w act = some (c, s') ∧ KnownIdx s' := by
  obtain ⟨acc, s, rfl, hk⟩ := hx
  unfold sched
  simp only
  cases hs : acc.saturated with
  | true => exact ⟨acc, s, rfl, hk⟩
  | false =>
    simp only [Bool.false_eq_true, if_false]
    cases hh : hasHappened (w s) 0 with
    | true =>
      obtain ⟨b, s1, hb, hk1⟩ := hact s hk hh
      obtain ⟨c, hc⟩ := fold_unsat (b := b) hs
      refine ⟨c, s1, ?_, hk1⟩
      simp only [if_true, hb, hc, Option.map_some]
    | false =>
      obtain ⟨c, hc⟩ := fold_unsat (b := .sleep (w s)) hs
      exact ⟨c, s, by simp only [Bool.false_eq_true, if_false, hc, Option.map_some], hk⟩

theorem pollChild_good {x : PollSt} (hx : ∃ c s', x = some (c, s') ∧ KnownIdx s') {f : Server → PollSt} (hf : Good f) :
    ∃ c s', pollChild x f = some (c, s') ∧ KnownIdx s' := by
  obtain ⟨acc, s, rfl, hk⟩ := hx
  unfold pollChild
  simp only
  cases hs : acc.saturated with
  | true => exact ⟨acc, s, rfl, hk⟩
  | false =>
    obtain ⟨b, s1, hb, hk1⟩ := hf s hk
    obtain ⟨c, hc⟩ := fold_unsat (b := b) hs
    exact ⟨c, s1, by simp only [Bool.false_eq_true, if_false, hb, hc, Option.map_some], hk1⟩

theorem pollChildren_good {fs : List (Server → PollSt)} (hfs : ∀ f ∈ fs, Good f) {x : PollSt}
    (hx : ∃ c s', x = some (c, s') ∧ KnownIdx s') : ∃ c s', pollChildren fs x = some (c, s') ∧ KnownIdx s' := by
  induction fs generalizing x with
  | nil => exact hx
  | cons f fs ih =>
    have hx0 := hx
    obtain ⟨acc, s, rfl, hk⟩ := hx
    unfold pollChildren
    simp only
    split
    · exact hx0
    · exact ih (fun g hg => hfs g (by simp [hg])) (pollChild_good hx0 (hfs f (by simp)))

theorem pollPeer_good (now : Time) (r : PollRnd) (p : Nat) : Good (pollPeer now r p) := by
  intro s hk
  unfold pollPeer
  refine pollChild_good (pollChild_good (sched_good (sched_good (sched_good ⟨_, s, rfl, hk⟩ ?_) ?_) ?_) ?_) ?_
  · intro s hk _
    exact ⟨_, _, rfl, knownIdx_of_upd (hsTake_get s p) (fun _ => rfl) (fun _ => hsTake_other _ _ _ (by simp)) hk⟩
  · intro s hk _
    exact ⟨_, _, rfl, knownIdx_of_upd (sessTake_get s p) (fun _ => rfl) (fun _ => sessTake_other _ _ _ (by simp)) hk⟩
  · intro s hk _
    exact ⟨_, _, rfl, knownIdx_of_upd (modPeer_get s p _) (fun _ => rfl) (fun _ => rfl) hk⟩
  · intro s hk
    exact sched_good ⟨_, s, rfl, hk⟩ (fun s hk _ =>
      ⟨_, _, rfl, knownIdx_of_upd (modHs_get s p _) (fun _ => rfl) (fun _ => rfl) hk⟩)
  · intro s hk
    refine sched_good ⟨_, s, rfl, hk⟩ (fun s hk _ => ?_)
    have : ∃ s1, s.knownRemove p = some s1 := by
      unfold knownRemove
      cases h : s.known p with
      | none => exact ⟨_, rfl⟩
      | some k =>
        simp only
        rw [(hk k.requestMac p).mpr ⟨k, h, rfl⟩]
        exact ⟨_, rfl⟩
    obtain ⟨s1, h1⟩ := this
    refine ⟨.hibernate, s1, by simp only [h1, Option.map_some], (knownIdx_remove hk h1).1⟩

theorem poll_no_panic (L : C.Lawful) {s : Server} (hr : Reachable C s) (now : Time) (r : PollRnd) :
    (s.poll now r).isSome := by
  unfold poll
  simp only
  have h1 : ∃ c s', pollChildren [pollBiscuit now r false, pollBiscuit now r true] (some (PollResult.hibernate, s)) = some (c, s') ∧ KnownIdx s' := by
    refine pollChildren_good ?_ ⟨_, s, rfl, Reachable.knownIdx L hr⟩
    intro f hf
    simp only [List.mem_cons, List.mem_nil_iff, or_false] at hf
    rcases hf with rfl | rfl <;>
      exact fun s hk => sched_good ⟨_, s, rfl, hk⟩ (fun s hk _ => ⟨_, _, rfl, hk⟩)
  have h2 : ∃ c s', pollChildren [pollCookie now r false, pollCookie now r true]
      (pollChildren [pollBiscuit now r false, pollBiscuit now r true] (some (PollResult.hibernate, s))) = some (c, s') ∧ KnownIdx s' := by
    refine pollChildren_good ?_ h1
    intro f hf
    simp only [List.mem_cons, List.mem_nil_iff, or_false] at hf
    rcases hf with rfl | rfl <;>
      exact fun s hk => sched_good ⟨_, s, rfl, hk⟩ (fun s hk _ => ⟨_, _, rfl, hk⟩)
  have h3 := pollChildren_good (fs := (s.peerPtrsOff s.pollOff).map (fun p => pollPeer now r p)) (by
    intro f hf
    rw [List.mem_map] at hf
    obtain ⟨p, -, rfl⟩ := hf
    exact pollPeer_good now r p) h2
  obtain ⟨c, s', h, -⟩ := h3
  rw [h]; rfl

/-! ### the theorems -/

/-- **C09.** In every reachable state, for every received byte string of any length and every
sender address, with a transmit buffer that can hold every message type and KEM operations that do not fail,
`handle_msg` and `handle_msg_under_load` return `Ok` or `Err` — never a panic (out-of-bounds slice,
`unwrap` of an absent value, failing `assert`). -/
theorem network_input_never_panics (L : C.Lawful) (K : C.KemTotal) {s : Server} (hr : Reachable C s) (o : Op)
    (rx tx : Bytes) (htx : FitsAll C tx)
    (ho : (∃ now r, o = .handleMsg rx tx now r) ∨ (∃ host now r, o = .handleMsgUnderLoad rx tx host now r)) :
    o.result C s ≠ .error .panic := by
  rcases ho with ⟨now, r, rfl⟩ | ⟨host, now, r, rfl⟩
  · exact handleMsg_no_panic L K hr rx tx htx now r
  · simp only [Op.result]
    rcases underLoad_cases C s rx tx host now r with ⟨x, hxp, hx, -⟩ | ⟨-, hx⟩ | ⟨h81, i, ids, s1, hcs, hs1, ⟨-, hx⟩ |
      ⟨e, -, ⟨-, hx⟩ | ⟨-, ⟨hlt, hx⟩ | ⟨-, hx⟩⟩⟩⟩
    · rw [hx]; intro h; cases h; exact hxp rfl
    · rw [hx]; exact handleMsg_no_panic L K hr rx tx htx now r
    · rw [hx]; intro h; cases h
    · rw [hx]
      rcases handleMsg_dispatch C s1 rx tx now r with ⟨x, hx, hlt, -⟩ | ⟨t, bs, out, hrx, hout, hd⟩
      · rw [hx]
        intro h
        cases h
        have := hlt rfl
        have h2 := htx .respHello
        simp only [Env.size, RespHello.size, biscuitCtLen] at this
        simp only [payloadSize] at h2
        omega
      · rcases hd with ⟨rfl, e, he, hh⟩ | ⟨rfl, -⟩ | ⟨rfl, -⟩ | ⟨rfl, -⟩ | ⟨rfl, -⟩
        · rw [hh]
          have hix : PeerIdx C s1 := by
            have := Reachable.peerIdx L hr
            rw [hs1]; exact this
          exact msgInitHello_no_panic K hix e out now r
        all_goals (rw [hrx] at h81; exact absurd h81 (by simp only [List.head?_cons]; decide))
    · have h2 := htx .initHello
      have hfit := L.fits
      simp only [payloadSize] at h2
      simp only [CookieReply.size, CookieReply.innerSize, CookieReply.padLen, Env.size, InitHello.size] at hlt
      omega
    · rw [hx]; intro h; cases h

/-- **C09** (sizes). A message whose length is not the exact length of its type, an empty message
and a message of unknown type are rejected without any effect. -/
theorem malformed_rejected (L : C.Lawful) {s : Server} (rx tx : Bytes) (now : Time) (r : HashChoice → Rnd)
    (hbad : ∀ t : MsgType, rx.head? = some t.toU8 → rx.length ≠ wireLen C t) :
    ∃ x, s.handleMsg C rx tx now r = (.error x, s) := by
  rcases handleMsg_dispatch C s rx tx now r with ⟨x, hx, -⟩ | ⟨t, bs, out, hrx, hout, hd⟩
  · exact ⟨x, hx⟩
  · exfalso
    have h1 := hbad t (by rw [hrx]; rfl)
    have hfit := L.fits
    rcases hd with ⟨rfl, e, he, -⟩ | ⟨rfl, e, he, -⟩ | ⟨rfl, e, he, -⟩ | ⟨rfl, e, he, -⟩ | ⟨rfl, cr, he, -⟩
    · have := (Env.decode_eq_some he).1
      simp only [Env.size, InitHello.size] at this
      simp only [wireLen, payloadSize] at h1
      omega
    · have := (Env.decode_eq_some he).1
      simp only [Env.size, RespHello.size, biscuitCtLen] at this
      simp only [wireLen, payloadSize] at h1
      omega
    · have := (Env.decode_eq_some he).1
      simp only [Env.size, InitConf.size, biscuitCtLen] at this
      simp only [wireLen, payloadSize] at h1
      omega
    · have := (Env.decode_eq_some he).1
      simp only [Env.size, EmptyData.size] at this
      simp only [wireLen, payloadSize] at h1
      omega
    · unfold CookieReply.decode at he
      split at he
      · rename_i hl
        simp only [CookieReply.size, CookieReply.innerSize, CookieReply.padLen, Env.size, InitHello.size] at hl
        simp only [wireLen, payloadSize] at h1
        omega
      · cases he

/-- **C09** (timers). Polling and retransmission never panic either, in any reachable state. -/
theorem timers_never_panic (L : C.Lawful) {s : Server} (hr : Reachable C s) :
    (∀ now r, (s.poll now r).isSome) ∧
    (∀ (p : Nat) tx, p < s.peers.length → FitsAll C tx → (s.retransmit C p tx).1 ≠ .error .panic) := by
  refine ⟨poll_no_panic L hr, ?_⟩
  intro p tx hp htx
  unfold retransmit
  obtain ⟨peer, hpe⟩ : ∃ peer, s.peers[p]? = some peer := ⟨_, List.getElem?_eq_getElem hp⟩
  simp only [hpe]
  split
  · intro h; cases h
  · rename_i hs hh
    obtain ⟨-, hb, hl⟩ := (Reachable.peerOk L hr p peer hpe).hs hs hh
    rw [if_neg (by omega)]
    have hlen : (cpyMin (hs.txBuf.take hs.txLen) tx).length = tx.length := cpyMin_length _ _
    obtain ⟨e, he⟩ := castTx_isSome (n := InitHello.size C) (tx := cpyMin (hs.txBuf.take hs.txLen) tx) (by
      rw [hlen]; exact htx .initHello)
    rw [he]
    intro h; cases h

end

/-- C09: buffers and suites as required exist. -/
example : FitsAll Toy.crypto Ex.buf ∧ Toy.crypto.KemTotal := by
  refine ⟨?_, Toy.kemTotal⟩
  intro t; cases t <;> decide +kernel

/-- C09: a truncated RespHello meets the hypothesis of `malformed_rejected`. -/
example : ∀ t : MsgType, (Ex.m2 .v03).dropLast.head? = some t.toU8 → (Ex.m2 .v03).dropLast.length ≠ wireLen Toy.crypto t := by
  intro t; cases t <;> decide +kernel

end Verif
