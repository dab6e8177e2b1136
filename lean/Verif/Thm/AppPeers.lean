import Verif.Thm.AppHist
import Verif.Thm.AppEx
/-
Where the application sends datagrams, how the address of a peer changes, and when the event loop ends
(app_server.rs:1119-1238).
-/
namespace Verif
open Server FileIO
namespace App
variable {C : Crypto}

/-! ### Specification -/

/-- In this round the protocol server reports `res`, and is `s1` afterwards. -/
def Polled (a : App) (e : World) (res : PollResult) (s1 : Server) : Prop :=
  ∃ s, a.site = .product s ∧ s.poll e.now e.prnd = some (res, s1)

/-- In this round a message that came from `addr` on socket `sock` is accepted by the protocol server with
result `m`. -/
def Accepted (C : Crypto) (a : App) (e : World) (sock : Nat) (addr : Addr) (m : MsgResult) : Prop :=
  ∃ s1 t rx, Polled a e (.sleep t) s1 ∧ e.io = .msg rx sock addr ∧ (e.receive rx sock addr).result C s1 = .ok m

/-- What becomes of the entry `ap` of peer `p` in a round that ends with `fate`. -/
inductive PeerRound (C : Crypto) (a : App) (e : World) (fate : Fate) (p : Nat) (ap : AppPeer) : AppPeer → Prop
  /-- an exchange with the peer completed, and the answer (if there is one) was sent -/
  | learned (sock addr resp) : Accepted C a e sock addr ⟨some p, resp⟩ → (resp.isSome → e.sendTo = true) →
      PeerRound C a e fate p ap { ap with current := some (.bound sock addr) }
  /-- the peer's key expired and the round succeeded -/
  | restarted (s1 c) : Polled a e (.deleteKey p) s1 → fate = .next →
      (c = none ↔ ap.endpoint = none) →
      (∀ ep, c = some ep → ∃ d, ep = .discovery d ∧ d.state = (0, 0) ∧ d.addresses.Nodup ∧
        (∀ x, x ∈ d.addresses ↔ (∃ i, ap.current = some i ∧ x ∈ i.addresses) ∨ (∃ i, ap.initial = some i ∧ x ∈ i.addresses)) ∧
        ∀ k x, ap.current = some (.bound k x) → d.addresses.head? = some x) →
      PeerRound C a e fate p ap { ap with current := c }
  /-- a message for the peer was to be sent, and its address is being discovered: only the position in the
  list of candidates changes, in the endpoint that is in use -/
  | scouted (s1 res d st) : Polled a e res s1 → (res = .sendInitiation p ∨ res = .sendRetransmission p) →
      ap.endpoint = some (.discovery d) →
      PeerRound C a e fate p ap (if ap.current.isSome then { ap with current := some (.discovery { d with state := st }) }
        else { ap with initial := some (.discovery { d with state := st }) })
  /-- none of this: nothing changes -/
  | same : (∀ sock addr resp, Accepted C a e sock addr ⟨some p, resp⟩ → resp.isSome = true ∧ e.sendTo = false) →
      (∀ s1, Polled a e (.deleteKey p) s1 → fate ≠ .next) → PeerRound C a e fate p ap ap

/-- Why a datagram is sent in a round. -/
inductive Sent (C : Crypto) (a : App) (e : World) (sock : Nat) (addr : Addr) (msg : Bytes) : Prop
  /-- it is the answer to the message received in this round, and goes where that came from -/
  | answer (ex) : Accepted C a e sock addr ⟨ex, some msg⟩ → Sent C a e sock addr msg
  /-- it is the initiation or retransmission that is due for a peer, and goes to an address of that peer -/
  | due (p s1 res ap ep) : Polled a e res s1 →
      (res = .sendInitiation p ∧ (s1.initiate C p e.later e.rnd0 e.tx).1 = .ok msg ∨ res = .sendRetransmission p ∧ (s1.retransmit C p e.tx).1 = .ok msg) →
      a.peers[p]? = some ap → ap.endpoint = some ep → addr ∈ ep.addresses → (∀ k x, ep = .bound k x → sock = k) → Sent C a e sock addr msg

/-! ### The parts of a round -/

theorem Polled.unique {a : App} {e : World} {r r' : PollResult} {s s' : Server} (h : Polled a e r s) (g : Polled a e r' s') : r = r' ∧ s = s' := by
  obtain ⟨t, h1, h2⟩ := h
  obtain ⟨t', g1, g2⟩ := g
  rw [h1] at g1; cases g1; rw [h2] at g2; cases g2; exact ⟨rfl, rfl⟩

theorem Accepted.unique {a : App} {e : World} {k k' : Nat} {x x' : Addr} {m m' : MsgResult} (h : Accepted C a e k x m) (g : Accepted C a e k' x' m') :
    k = k' ∧ x = x' ∧ m = m' := by
  obtain ⟨s1, t, rx, h1, h2, h3⟩ := h
  obtain ⟨s1', t', rx', g1, g2, g3⟩ := g
  obtain ⟨-, rfl⟩ := h1.unique g1
  rw [h2] at g2; cases g2; rw [h3] at g3; cases g3; exact ⟨rfl, rfl, rfl⟩

theorem step_idle (a : App) (e : World) (hs : ∀ s, a.site ≠ .product s) :
    a.step C e = ⟨match e.io with | .none => .next | .terminate => .exit | .err => .error | .msg _ _ _ => .next, a, []⟩ := by
  unfold step
  cases h : a.site with
  | product s => exact absurd h (hs s)
  | void => dsimp only; cases e.io <;> rfl
  | builder b => dsimp only; cases e.io <;> rfl

/-- the part of a round after the protocol server was polled -/
def served (C : Crypto) (a : App) (e : World) (s1 : Server) : PollResult → Res
  | .deleteKey p => ({ a with site := .product s1 } : App).deleteKey C p e
  | .sendInitiation p => ({ a with site := .product s1 } : App).txMaybe p (fun s => s.initiate C p e.later e.rnd0 e.tx) e
  | .sendRetransmission p => ({ a with site := .product s1 } : App).txMaybe p (fun s => s.retransmit C p e.tx) e
  | .sleep _ => (match e.io with
    | .none => ⟨.next, { a with site := .product s1 }, []⟩
    | .terminate => ⟨.exit, { a with site := .product s1 }, []⟩
    | .err => ⟨.error, { a with site := .product s1 }, []⟩
    | .msg rx sock addr => ({ a with site := .product s1 } : App).message C s1 rx sock addr e)

theorem step_polled {a : App} {e : World} {res : PollResult} {s1 : Server} (h : Polled a e res s1) : a.step C e = served C a e s1 res := by
  obtain ⟨s, h1, h2⟩ := h
  unfold step
  simp only [h1, h2]
  cases res <;> rfl

/-- sending to a peer: only the entry of the peer may change, and only as described -/
theorem sendPeer_peers (a : App) (p : Nat) (msg : Bytes) (e : World) (ap : AppPeer) (hp : a.peers[p]? = some ap) :
    ((a.sendPeer p msg e).app.peers = a.peers ∨ ∃ d st, ap.endpoint = some (.discovery d) ∧
      (a.sendPeer p msg e).app.peers = a.peers.set p (if ap.current.isSome then { ap with current := some (.discovery { d with state := st }) }
        else { ap with initial := some (.discovery { d with state := st }) })) ∧
    (∀ x ∈ (a.sendPeer p msg e).out, ∃ sock addr ep, x = .datagram sock addr msg ∧ ap.endpoint = some ep ∧ addr ∈ ep.addresses ∧
      ∀ k y, ep = .bound k y → sock = k) ∧
    (a.sendPeer p msg e).fate ≠ .exit := by
  unfold sendPeer
  rw [hp]
  dsimp only
  cases hep : ap.endpoint with
  | none => exact ⟨.inl rfl, by simp, by simp⟩
  | some ep =>
    cases ep with
    | bound k x =>
      dsimp only
      split
      · refine ⟨.inl rfl, ?_, by simp⟩
        intro y hy
        simp only [List.mem_singleton] at hy
        exact ⟨k, x, _, hy, rfl, by simp [Endpoint.addresses], fun k' y' h => by cases h; rfl⟩
      · exact ⟨.inl rfl, by simp, by simp⟩
    | discovery d =>
      dsimp only
      have hd : (d.sendScouting a.nsock e.scout).2 = { d with state := (d.sendScouting a.nsock e.scout).2.state } := by
        unfold Discovery.sendScouting
        dsimp only
        split <;> rfl
      generalize hy : (d.sendScouting a.nsock e.scout) = y at hd
      obtain ⟨x, d1⟩ := y
      dsimp only at hd ⊢
      have hpe : (a.peers.set p (if ap.current.isSome = true then { ap with current := some (.discovery d1) } else { ap with initial := some (.discovery d1) })) =
          a.peers.set p (if ap.current.isSome = true then { ap with current := some (.discovery { d with state := d1.state }) }
            else { ap with initial := some (.discovery { d with state := d1.state }) }) := by rw [← hd]
      split
      · split
        · exact ⟨.inr ⟨d, _, rfl, hpe⟩, by simp, by simp⟩
        · split
          · exact ⟨.inr ⟨d, _, rfl, hpe⟩, by simp, by simp⟩
          · rename_i ad had
            refine ⟨.inr ⟨d, _, rfl, hpe⟩, ?_, by simp⟩
            intro z hz
            simp only [List.mem_singleton] at hz
            exact ⟨_, ad, _, hz, rfl, List.mem_of_getElem? had, fun k' y' h => by cases h⟩
      · exact ⟨.inr ⟨d, _, rfl, hpe⟩, by simp, by simp⟩

theorem set_get {α : Type} (l : List α) (p q : Nat) (x y : α) (h : l[q]? = some y) : (l.set p x)[q]? = some (if p = q then x else y) := by
  rw [List.getElem?_set]
  by_cases hpq : p = q
  · subst hpq
    rw [if_pos rfl, if_pos (List.getElem?_eq_some_iff.mp h).1, if_pos rfl]
  · rw [if_neg hpq, if_neg hpq, h]

theorem txMaybe_peers (a : App) (p : Nat) (call : Server → Except Err Bytes × Server) (e : World) (s : Server) (hs : a.site = .product s) (ap : AppPeer)
    (hp : a.peers[p]? = some ap) :
    ((a.txMaybe p call e).app.peers = a.peers ∨ ∃ d st, ap.endpoint = some (.discovery d) ∧
      (a.txMaybe p call e).app.peers = a.peers.set p (if ap.current.isSome then { ap with current := some (.discovery { d with state := st }) }
        else { ap with initial := some (.discovery { d with state := st }) })) ∧
    (∀ x ∈ (a.txMaybe p call e).out, ∃ sock addr ep msg, (call s).1 = .ok msg ∧ x = .datagram sock addr msg ∧ ap.endpoint = some ep ∧ addr ∈ ep.addresses ∧
      ∀ k y, ep = .bound k y → sock = k) ∧
    (a.txMaybe p call e).fate ≠ .exit := by
  unfold txMaybe
  rw [hp]
  dsimp only
  split
  · rw [hs]
    dsimp only [Site.productRef]
    split
    · rename_i x s1 hc
      exact ⟨.inl rfl, by simp, by cases x <;> simp [fateOf]⟩
    · rename_i msg s1 hc
      obtain ⟨h1, h2, h3⟩ := sendPeer_peers { a with site := .product s1 } p msg e ap hp
      refine ⟨h1, ?_, h3⟩
      intro x hx
      obtain ⟨sock, addr, ep, g⟩ := h2 x hx
      exact ⟨sock, addr, ep, msg, by rw [hc], g⟩
  · exact ⟨.inl rfl, by simp, by simp⟩

theorem txMaybe_none (a : App) (p : Nat) (call : Server → Except Err Bytes × Server) (e : World) (hp : a.peers[p]? = none) :
    (a.txMaybe p call e) = ⟨.panic, a, []⟩ := by
  unfold txMaybe; rw [hp]

theorem storeKey_out (a : App) (f : String) (k : Bytes) (e : World) : (a.storeKey f k e).out = [] ∧ (a.storeKey f k e).fate ≠ .exit := by
  unfold storeKey
  split
  · split <;> exact ⟨rfl, by simp⟩
  · exact ⟨rfl, by simp⟩

/-- `output_key` sends no datagram and does not end the loop -/
theorem outputKey_out (a : App) (p : Nat) (why : Reason) (k : Bytes) (e : World) :
    (∀ x ∈ (a.outputKey C p why k e).out, x.isKey = true) ∧ (a.outputKey C p why k e).fate ≠ .exit := by
  have bind : ∀ (r : Res) (f : App → Res), ((∀ x ∈ r.out, x.isKey = true) ∧ r.fate ≠ .exit) →
      (∀ b : App, (∀ x ∈ (f b).out, x.isKey = true) ∧ (f b).fate ≠ .exit) → (∀ x ∈ (r.andThen f).out, x.isKey = true) ∧ (r.andThen f).fate ≠ .exit := by
    intro r f h1 h2
    unfold Res.andThen
    split
    · refine ⟨fun x hx => ?_, (h2 _).2⟩
      rcases List.mem_append.mp hx with hx | hx
      · exact h1.1 x hx
      · exact (h2 _).1 x hx
    · exact h1
  unfold outputKey
  split
  · exact ⟨by simp, by simp⟩
  · split
    · refine bind _ _ ?_ (fun b => ?_)
      · split
        · exact ⟨by simp, by simp⟩
        · refine bind _ _ ⟨by rw [(storeKey_out a _ k e).1]; simp, (storeKey_out a _ k e).2⟩ (fun b => ?_)
          split <;> exact ⟨by simp [Output.isKey], by simp⟩
      · unfold setPsk
        split
        · exact ⟨by simp, by simp⟩
        · split
          · exact ⟨by simp, by simp⟩
          · split
            · exact ⟨by simp, by simp⟩
            · split <;> exact ⟨by simp [Output.isKey], by simp⟩
    · exact ⟨by simp, by simp⟩

/-- the part of a round after an exchange completed -/
theorem exchanged_peers (a : App) (p sock : Nat) (addr : Addr) (e : World) :
    (∀ x ∈ (a.exchanged C p sock addr e).out, x.isKey = true) ∧ (a.exchanged C p sock addr e).fate ≠ .exit ∧
    ∀ ap, a.peers[p]? = some ap → (a.exchanged C p sock addr e).app.peers = a.peers.set p { ap with current := some (.bound sock addr) } := by
  unfold exchanged
  cases hp : a.peers[p]? with
  | none => exact ⟨by simp, by simp, fun _ h => (nomatch h)⟩
  | some ap =>
    dsimp only
    split
    · exact ⟨by simp, by simp, fun _ h => by cases h; rfl⟩
    · split
      · rename_i x _
        exact ⟨by simp, by cases x <;> simp [fateOf], fun _ h => by cases h; rfl⟩
      · rename_i k _
        obtain ⟨h1, h2⟩ := outputKey_out (C := C) { a with peers := a.peers.set p { ap with current := some (.bound sock addr) } } p .exchanged k e
        obtain ⟨fs, hfs⟩ := outputKey_app (C := C) { a with peers := a.peers.set p { ap with current := some (.bound sock addr) } } p .exchanged k e
        exact ⟨h1, h2, fun _ h => by cases h; rw [hfs]⟩

theorem exchanged_none (a : App) (p sock : Nat) (addr : Addr) (e : World) (hp : a.peers[p]? = none) :
    (a.exchanged C p sock addr e).app.peers = a.peers := by
  unfold exchanged; rw [hp]

/-- the part of a round after a message was accepted -/
theorem received_peers (a : App) (m : MsgResult) (sock : Nat) (addr : Addr) (e : World) :
    (a.received C m sock addr e).fate ≠ .exit ∧
    (∀ msg, m.resp = some msg → e.sendTo = true → .datagram sock addr msg ∈ (a.received C m sock addr e).out) ∧
    (∀ x ∈ (a.received C m sock addr e).out, x.isKey = true ∨ ∃ msg, m.resp = some msg ∧ e.sendTo = true ∧ x = .datagram sock addr msg) ∧
    ∀ q ap, a.peers[q]? = some ap → (a.received C m sock addr e).app.peers[q]? =
      some (if m.exchanged = some q ∧ (m.resp.isSome → e.sendTo = true) then { ap with current := some (.bound sock addr) } else ap) := by
  obtain ⟨ex, resp⟩ := m
  unfold received
  have main : ∀ (o : List Output), ((Res.andThen ⟨.next, a, o⟩ fun a => (match (⟨ex, resp⟩ : MsgResult).exchanged with
        | none => (⟨.next, a, []⟩ : Res)
        | some p => a.exchanged C p sock addr e)).fate ≠ .exit) ∧
      (∀ x ∈ (Res.andThen ⟨.next, a, o⟩ fun a => (match (⟨ex, resp⟩ : MsgResult).exchanged with
        | none => (⟨.next, a, []⟩ : Res)
        | some p => a.exchanged C p sock addr e)).out, x ∈ o ∨ x.isKey = true) ∧
      (∀ x ∈ o, x ∈ (Res.andThen ⟨.next, a, o⟩ fun a => (match (⟨ex, resp⟩ : MsgResult).exchanged with
        | none => (⟨.next, a, []⟩ : Res)
        | some p => a.exchanged C p sock addr e)).out) ∧
      ∀ q ap, a.peers[q]? = some ap → (Res.andThen ⟨.next, a, o⟩ fun a => (match (⟨ex, resp⟩ : MsgResult).exchanged with
        | none => (⟨.next, a, []⟩ : Res)
        | some p => a.exchanged C p sock addr e)).app.peers[q]? =
        some (if ex = some q then { ap with current := some (.bound sock addr) } else ap) := by
    intro o
    unfold Res.andThen
    dsimp only
    cases ex with
    | none => exact ⟨by simp, fun x hx => .inl (by simpa using hx), by simp, fun q ap h => by simp [h]⟩
    | some p =>
      dsimp only
      obtain ⟨h1, h2, h3⟩ := exchanged_peers (C := C) a p sock addr e
      refine ⟨h2, fun x hx => ?_, fun x hx => List.mem_append.mpr (.inl hx), fun q ap hq => ?_⟩
      · rcases List.mem_append.mp hx with hx | hx
        · exact .inl hx
        · exact .inr (h1 x hx)
      · cases hp : a.peers[p]? with
        | none =>
          rw [exchanged_none a p sock addr e hp, hq]
          have : p ≠ q := by rintro rfl; rw [hp] at hq; cases hq
          simp [this]
        | some ap' =>
          rw [h3 ap' hp, set_get _ p q _ ap hq]
          by_cases hpq : p = q
          · subst hpq; rw [hp] at hq; cases hq; simp
          · simp [hpq]
  cases resp with
  | none =>
    obtain ⟨h1, h2, h3, h4⟩ := main []
    refine ⟨h1, fun msg h => (nomatch h), fun x hx => ?_, fun q ap hq => ?_⟩
    · rcases h2 x hx with h | h
      · simp at h
      · exact .inl h
    · refine (h4 q ap hq).trans ?_
      simp
  | some msg =>
    dsimp only
    by_cases hsend : e.sendTo = true
    · rw [if_pos hsend]
      obtain ⟨h1, h2, h3, h4⟩ := main [.datagram sock addr msg]
      refine ⟨h1, fun m' h _ => ?_, fun x hx => ?_, fun q ap hq => ?_⟩
      · cases h; exact h3 _ (by simp)
      · rcases h2 x hx with h | h
        · simp only [List.mem_singleton] at h; exact .inr ⟨msg, rfl, hsend, h⟩
        · exact .inl h
      · refine (h4 q ap hq).trans ?_; simp [hsend]
    · rw [if_neg hsend]
      unfold Res.andThen
      exact ⟨by simp, fun m' _ h => absurd h hsend, by simp, fun q ap hq => by simp [hq, hsend]⟩

theorem received_len (a : App) (m : MsgResult) (sock : Nat) (addr : Addr) (e : World) : (a.received C m sock addr e).app.peers.length = a.peers.length := by
  have ex : ∀ (a : App) p, (a.exchanged C p sock addr e).app.peers.length = a.peers.length := by
    intro a p
    cases hp : a.peers[p]? with
    | none => rw [exchanged_none a p sock addr e hp]
    | some ap => rw [(exchanged_peers (C := C) a p sock addr e).2.2 ap hp, List.length_set]
  have then' : ∀ (o : List Output), (Res.andThen ⟨.next, a, o⟩ fun a => (match m.exchanged with
        | none => (⟨.next, a, []⟩ : Res)
        | some p => a.exchanged C p sock addr e)).app.peers.length = a.peers.length := by
    intro o
    unfold Res.andThen
    dsimp only
    cases m.exchanged with
    | none => rfl
    | some p => exact ex a p
  unfold received
  cases m.resp with
  | none => exact then' []
  | some msg =>
    dsimp only
    split
    · exact then' _
    · rfl

/-- rounds do not add or remove peers -/
theorem step_len (a : App) (e : World) : (a.step C e).app.peers.length = a.peers.length := by
  by_cases hs : ∃ s, a.site = .product s
  case neg => rw [step_idle a e (fun s h => hs ⟨s, h⟩)]
  case pos =>
    obtain ⟨s, hs⟩ := hs
    cases hpoll : s.poll e.now e.prnd with
    | none =>
      have : a.step C e = ⟨.panic, a, []⟩ := by unfold step; simp only [hs, hpoll]
      rw [this]
    | some y =>
      obtain ⟨res, s1⟩ := y
      rw [step_polled (C := C) ⟨s, hs, hpoll⟩]
      have tx : ∀ q (call : Server → Except Err Bytes × Server), (({ a with site := .product s1 } : App).txMaybe q call e).app.peers.length = a.peers.length := by
        intro q call
        cases hq : a.peers[q]? with
        | none => rw [txMaybe_none { a with site := .product s1 } q call e hq]
        | some aq =>
          rcases (txMaybe_peers { a with site := .product s1 } q call e s1 rfl aq hq).1 with h | ⟨d, st, -, h⟩
          · rw [h]
          · rw [h, List.length_set]
      cases res with
      | deleteKey q =>
        dsimp only [served]
        obtain ⟨fs, hfs⟩ := outputKey_app (C := C) { a with site := Site.product s1 } q .stale e.stale e
        unfold deleteKey Res.andThen
        split
        · dsimp only
          rw [hfs]
          dsimp only
          split
          · rfl
          · simp
        · rw [hfs]
      | sendInitiation q => exact tx q _
      | sendRetransmission q => exact tx q _
      | sleep t =>
        dsimp only [served]
        split
        · rfl
        · rfl
        · rfl
        · rw [message_eq]
          split
          · rfl
          · rfl
          · rw [received_len]

/-! ### C88 -/

/-- **C88.** What a round does to the address of each peer. -/
theorem peer_address_changes (a : App) (e : World) (p : Nat) (ap : AppPeer) (hp : a.peers[p]? = some ap) :
    ∃ ap', (a.step C e).app.peers[p]? = some ap' ∧ PeerRound C a e (a.step C e).fate p ap ap' := by
  by_cases hs : ∃ s, a.site = .product s
  case neg =>
    have hnp : ∀ r s1, ¬ Polled a e r s1 := fun r s1 ⟨s, h, _⟩ => hs ⟨s, h⟩
    rw [step_idle a e (fun s h => hs ⟨s, h⟩)]
    exact ⟨ap, hp, .same (fun _ _ _ ⟨s1, t, _, h, _⟩ => absurd h (hnp _ _)) (fun s1 h => absurd h (hnp _ _))⟩
  case pos =>
    obtain ⟨s, hs⟩ := hs
    cases hpoll : s.poll e.now e.prnd with
    | none =>
      have hnp : ∀ r s1, ¬ Polled a e r s1 := by
        rintro r s1 ⟨s', h, h'⟩
        rw [hs] at h; cases h; rw [hpoll] at h'; cases h'
      have : a.step C e = ⟨.panic, a, []⟩ := by unfold step; simp only [hs, hpoll]
      rw [this]
      exact ⟨ap, hp, .same (fun _ _ _ ⟨s1, t, _, h, _⟩ => absurd h (hnp _ _)) (fun s1 h => absurd h (hnp _ _))⟩
    | some y =>
      obtain ⟨res, s1⟩ := y
      have hP : Polled a e res s1 := ⟨s, hs, hpoll⟩
      have noAcc : (∀ t, res ≠ .sleep t) → ∀ sock addr m, ¬ Accepted C a e sock addr m := by
        rintro h sock addr m ⟨s1', t, rx, h1, -⟩
        exact h t (hP.unique h1).1
      have noDel : (∀ q, res ≠ .deleteKey q) → ∀ q s1', ¬ Polled a e (.deleteKey q) s1' := fun h q s1' h1 => h q (hP.unique h1).1
      have tx : ∀ q (call : Server → Except Err Bytes × Server), (res = .sendInitiation q ∨ res = .sendRetransmission q) →
          a.step C e = ({ a with site := .product s1 } : App).txMaybe q call e →
          ∃ ap', (a.step C e).app.peers[p]? = some ap' ∧ PeerRound C a e (a.step C e).fate p ap ap' := by
        intro q call hres heq
        have hA := noAcc (by rintro t rfl; rcases hres with h | h <;> cases h)
        have hD := noDel (by rintro t rfl; rcases hres with h | h <;> cases h)
        have hsame : ∀ f, PeerRound C a e f p ap ap := fun f => .same (fun _ _ _ h => absurd h (hA _ _ _)) (fun s1 h => absurd h (hD _ _))
        rw [heq]
        cases hq : a.peers[q]? with
        | none =>
          rw [txMaybe_none { a with site := .product s1 } q call e hq]
          exact ⟨ap, hp, hsame _⟩
        | some aq =>
          obtain ⟨h1, -⟩ := txMaybe_peers { a with site := .product s1 } q call e s1 rfl aq hq
          rcases h1 with h1 | ⟨d, st, h1, h2⟩
          · rw [h1]; exact ⟨ap, hp, hsame _⟩
          · rw [h2, set_get _ q p _ ap hp]
            by_cases hqp : q = p
            · subst hqp
              rw [hp] at hq; cases hq
              rw [if_pos rfl]
              exact ⟨_, rfl, .scouted s1 res d st hP hres h1⟩
            · rw [if_neg hqp]; exact ⟨ap, rfl, hsame _⟩
      cases res with
      | deleteKey q =>
        have hA := noAcc (by rintro t h; cases h)
        rw [step_polled hP]
        dsimp only [served]
        obtain ⟨fs, hfs⟩ := outputKey_app (C := C) { a with site := Site.product s1 } q .stale e.stale e
        unfold deleteKey Res.andThen
        split
        · rename_i hf
          dsimp only
          rw [hfs]
          dsimp only
          cases hq : a.peers[q]? with
          | none =>
            dsimp only
            exact ⟨ap, hp, .same (fun _ _ _ h => absurd h (hA _ _ _)) (fun s1 _ => by simp)⟩
          | some aq =>
            dsimp only
            rw [set_get _ q p _ ap hp]
            by_cases hqp : q = p
            · subst hqp
              rw [hp] at hq; cases hq
              rw [if_pos rfl]
              obtain ⟨r1, r2⟩ := Endpoint.restart_discovery ap.current ap.initial
              refine ⟨_, rfl, .restarted s1 _ hP rfl ?_ r2⟩
              rw [r1]
              unfold AppPeer.endpoint
              cases ap.current <;> cases ap.initial <;> simp
            · rw [if_neg hqp]
              refine ⟨ap, rfl, .same (fun _ _ _ h => absurd h (hA _ _ _)) (fun s1' h => ?_)⟩
              have := (hP.unique h).1
              cases this; exact absurd rfl hqp
        · rename_i hf
          rw [hfs]
          exact ⟨ap, hp, .same (fun _ _ _ h => absurd h (hA _ _ _)) (fun s1 _ h => absurd h (by simpa using hf))⟩
      | sendInitiation q => exact tx q (fun s => s.initiate C q e.later e.rnd0 e.tx) (.inl rfl) (step_polled hP)
      | sendRetransmission q => exact tx q (fun s => s.retransmit C q e.tx) (.inr rfl) (step_polled hP)
      | sleep t =>
        have hD := noDel (by rintro t h; cases h)
        rw [step_polled hP]
        dsimp only [served]
        have idle : (∀ rx sock addr, e.io ≠ .msg rx sock addr) → ∀ f, PeerRound C a e f p ap ap := by
          intro h f
          refine .same ?_ (fun s1 h => absurd h (hD _ _))
          rintro sock addr resp ⟨s1', t', rx, h1, h2, h3⟩
          exact absurd h2 (h _ _ _)
        cases hio : e.io with
        | none => exact ⟨ap, hp, idle (by simp [hio]) _⟩
        | terminate => exact ⟨ap, hp, idle (by simp [hio]) _⟩
        | err => exact ⟨ap, hp, idle (by simp [hio]) _⟩
        | msg rx sock addr =>
          dsimp only
          rw [message_eq]
          cases hres : (e.receive rx sock addr).result C s1 with
          | error x =>
            have hsame : ∀ f, PeerRound C a e f p ap ap := by
              intro f
              refine .same ?_ (fun s1 h => absurd h (hD _ _))
              rintro sock addr resp ⟨s1', t', rx', h1, h2, h3⟩
              obtain ⟨-, rfl⟩ := hP.unique h1
              rw [hio] at h2; cases h2; rw [hres] at h3; cases h3
            cases x <;> exact ⟨ap, hp, hsame _⟩
          | ok m =>
            dsimp only
            have hacc : Accepted C a e sock addr m := ⟨s1, t, rx, hP, hio, hres⟩
            obtain ⟨-, -, -, h4⟩ := received_peers (C := C) { a with site := .product (s1.step C (e.receive rx sock addr)) } m sock addr e
            rw [h4 p ap hp]
            refine ⟨_, rfl, ?_⟩
            split
            · rename_i h
              obtain ⟨ex, resp⟩ := m
              obtain ⟨h1, h2⟩ := h
              dsimp only at h1 h2
              subst h1
              exact .learned sock addr resp hacc h2
            · rename_i h
              refine .same ?_ (fun s1 h => absurd h (hD _ _))
              intro sock' addr' resp' hacc'
              obtain ⟨-, -, rfl⟩ := hacc.unique hacc'
              simp only [true_and] at h
              cases resp' with
              | none => exact absurd (fun h' => by simp at h') h
              | some msg => exact ⟨rfl, by simpa using h⟩

/-- **C88.** Why a datagram is sent; and an answer is sent whenever sending works. -/
theorem datagram_recipient (a : App) (e : World) :
    (∀ sock addr msg, .datagram sock addr msg ∈ (a.step C e).out → Sent C a e sock addr msg) ∧
    (∀ sock addr ex msg, Accepted C a e sock addr ⟨ex, some msg⟩ → e.sendTo = true → .datagram sock addr msg ∈ (a.step C e).out) := by
  refine ⟨?_, ?_⟩
  · intro sock addr msg hx
    by_cases hs : ∃ s, a.site = .product s
    case neg => rw [step_idle a e (fun s h => hs ⟨s, h⟩)] at hx; cases hx
    case pos =>
      obtain ⟨s, hs⟩ := hs
      cases hpoll : s.poll e.now e.prnd with
      | none =>
        have : a.step C e = ⟨.panic, a, []⟩ := by unfold step; simp only [hs, hpoll]
        rw [this] at hx; cases hx
      | some y =>
        obtain ⟨res, s1⟩ := y
        have hP : Polled a e res s1 := ⟨s, hs, hpoll⟩
        rw [step_polled hP] at hx
        unfold served at hx
        have tx : ∀ q (call : Server → Except Err Bytes × Server), (∀ m, (call s1).1 = .ok m →
              res = .sendInitiation q ∧ (s1.initiate C q e.later e.rnd0 e.tx).1 = .ok m ∨ res = .sendRetransmission q ∧ (s1.retransmit C q e.tx).1 = .ok m) →
            .datagram sock addr msg ∈ (({ a with site := .product s1 } : App).txMaybe q call e).out → Sent C a e sock addr msg := by
          intro q call hcall hx
          cases hq : a.peers[q]? with
          | none => rw [txMaybe_none { a with site := .product s1 } q call e hq] at hx; cases hx
          | some aq =>
            obtain ⟨-, h2, -⟩ := txMaybe_peers { a with site := .product s1 } q call e s1 rfl aq hq
            obtain ⟨sock', addr', ep, msg', h3, h4, h5, h6, h7⟩ := h2 _ hx
            cases h4
            exact .due q s1 res aq ep hP (hcall _ h3) hq h5 h6 h7
        cases res with
        | deleteKey q =>
          dsimp only at hx
          obtain ⟨h1, -⟩ := outputKey_out (C := C) { a with site := Site.product s1 } q .stale e.stale e
          unfold deleteKey Res.andThen at hx
          split at hx
          · dsimp only at hx
            rcases List.mem_append.mp hx with hx | hx
            · have := h1 _ hx; cases this
            · split at hx <;> cases hx
          · have := h1 _ hx; cases this
        | sendInitiation q => exact tx q (fun s => s.initiate C q e.later e.rnd0 e.tx) (fun m h => .inl ⟨rfl, h⟩) hx
        | sendRetransmission q => exact tx q (fun s => s.retransmit C q e.tx) (fun m h => .inr ⟨rfl, h⟩) hx
        | sleep t =>
          dsimp only at hx
          cases hio : e.io with
          | none => rw [hio] at hx; cases hx
          | terminate => rw [hio] at hx; cases hx
          | err => rw [hio] at hx; cases hx
          | msg rx sock' addr' =>
            rw [hio] at hx
            dsimp only at hx
            rw [message_eq] at hx
            cases hres : (e.receive rx sock' addr').result C s1 with
            | error x => rw [hres] at hx; cases x <;> cases hx
            | ok m =>
              rw [hres] at hx
              dsimp only at hx
              obtain ⟨-, -, h3, -⟩ := received_peers (C := C) { a with site := .product (s1.step C (e.receive rx sock' addr')) } m sock' addr' e
              rcases h3 _ hx with h | ⟨msg', h4, h5, h6⟩
              · cases h
              · cases h6
                obtain ⟨ex, resp⟩ := m
                dsimp only at h4
                subst h4
                exact .answer ex ⟨s1, t, rx, hP, hio, hres⟩
  · rintro sock addr ex msg ⟨s1, t, rx, hP, hio, hres⟩ hsend
    rw [step_polled hP]
    dsimp only [served]
    rw [hio]
    dsimp only
    rw [message_eq, hres]
    exact (received_peers (C := C) { a with site := .product (s1.step C (e.receive rx sock addr)) } ⟨ex, some msg⟩ sock addr e).2.1 msg rfl hsend

/-- **C88.** Messages that are due are sent: to the known address of the peer if it has one; and for a peer
without any address nothing happens, in particular no handshake is started. -/
theorem due_message_sent (a : App) (e : World) (p : Nat) (s1 : Server) (res : PollResult) (hP : Polled a e res s1)
    (ap : AppPeer) (hp : a.peers[p]? = some ap) (call : Server → Except Err Bytes × Server)
    (hres : res = .sendInitiation p ∧ call = (fun s => s.initiate C p e.later e.rnd0 e.tx) ∨ res = .sendRetransmission p ∧ call = (fun s => s.retransmit C p e.tx)) :
    (ap.endpoint = none → a.step C e = ⟨.next, { a with site := .product s1 }, []⟩) ∧
    (∀ sock addr msg, ap.endpoint = some (.bound sock addr) → (call s1).1 = .ok msg → e.sendTo = true →
      a.step C e = ⟨.next, { a with site := .product (call s1).2 }, [.datagram sock addr msg]⟩) ∧
    (∀ d msg, ap.endpoint = some (.discovery d) → d.addresses ≠ [] → a.nsock ≠ 0 → (call s1).1 = .ok msg → (∀ i j, e.scout i j = true) →
      ∃ sock addr, sock < a.nsock ∧ addr ∈ d.addresses ∧ (a.step C e).out = [.datagram sock addr msg] ∧ (a.step C e).fate = .next) := by
  have heq : a.step C e = ({ a with site := .product s1 } : App).txMaybe p call e := by
    rw [step_polled hP]
    rcases hres with ⟨rfl, rfl⟩ | ⟨rfl, rfl⟩ <;> rfl
  rw [heq]
  unfold txMaybe
  rw [show ({ a with site := .product s1 } : App).peers[p]? = some ap from hp]
  dsimp only [Site.productRef]
  refine ⟨fun h => by rw [h]; rfl, ?_, ?_⟩
  · intro sock addr msg hep hc hsend
    rw [hep]
    rw [if_pos (show (some _ : Option Endpoint).isSome = true from rfl)]
    generalize call s1 = y at hc ⊢
    obtain ⟨r, s2⟩ := y
    dsimp only at hc; subst hc
    dsimp only
    unfold sendPeer
    dsimp only
    rw [hp]
    dsimp only
    rw [hep]
    dsimp only
    rw [if_pos hsend]
  · intro d msg hep hd hn hc hsc
    rw [hep]
    rw [if_pos (show (some _ : Option Endpoint).isSome = true from rfl)]
    generalize call s1 = y at hc ⊢
    obtain ⟨r, s2⟩ := y
    dsimp only at hc; subst hc
    dsimp only
    unfold sendPeer
    dsimp only
    rw [hp]
    dsimp only
    rw [hep]
    dsimp only
    have hlen : 0 < d.addresses.length := List.length_pos_iff.mpr hd
    have hc1 : ∀ n off, 0 < n → ∃ rest, Discovery.cycled n off = (off % n) :: rest := by
      intro n off hn
      unfold Discovery.cycled
      obtain ⟨m, rfl⟩ := Nat.exists_eq_add_of_lt hn
      simp [List.range_succ_eq_map]
    obtain ⟨r1, hr1⟩ := hc1 d.addresses.length d.state.1 hlen
    obtain ⟨r2, hr2⟩ := hc1 a.nsock d.state.2 (Nat.pos_of_ne_zero hn)
    have hsd : (d.sendScouting a.nsock e.scout).1 = ⟨[(d.state.1 % d.addresses.length, d.state.2 % a.nsock)], true⟩ := by
      unfold Discovery.sendScouting
      dsimp only
      rw [hr1, hr2]
      unfold Discovery.outerLoop Discovery.innerLoop
      rw [if_pos (hsc _ _)]
    generalize d.sendScouting a.nsock e.scout = y at hsd
    obtain ⟨x, d1⟩ := y
    dsimp only at hsd ⊢
    subst hsd
    simp only [if_true, List.getLast?_singleton]
    have hget : d.addresses[d.state.1 % d.addresses.length]? = some (d.addresses[d.state.1 % d.addresses.length]'(Nat.mod_lt _ hlen)) := List.getElem?_eq_getElem _
    rw [hget]
    dsimp only
    exact ⟨_, _, Nat.mod_lt _ (Nat.pos_of_ne_zero hn), List.getElem_mem _, rfl, rfl⟩

/-- **C89.** The event loop ends with success exactly when the termination signal is reported, and it is looked
for in every round in which the protocol server has nothing to do. -/
theorem loop_ends_on_signal (a : App) (e : World) : (a.step C e).fate = .exit ↔
    e.io = .terminate ∧ (∀ s, a.site = .product s → ∃ t s1, s.poll e.now e.prnd = some (.sleep t, s1)) := by
  by_cases hs : ∃ s, a.site = .product s
  case neg =>
    rw [step_idle a e (fun s h => hs ⟨s, h⟩)]
    cases e.io <;> simp
    intro s h; exact absurd ⟨s, h⟩ hs
  case pos =>
    obtain ⟨s, hs⟩ := hs
    cases hpoll : s.poll e.now e.prnd with
    | none =>
      have : a.step C e = ⟨.panic, a, []⟩ := by unfold step; simp only [hs, hpoll]
      rw [this]
      simp [hs, hpoll]
    | some y =>
      obtain ⟨res, s1⟩ := y
      have hP : Polled a e res s1 := ⟨s, hs, hpoll⟩
      rw [step_polled hP]
      unfold served
      have tx : ∀ q (call : Server → Except Err Bytes × Server), (({ a with site := .product s1 } : App).txMaybe q call e).fate ≠ .exit := by
        intro q call
        cases hq : a.peers[q]? with
        | none => rw [txMaybe_none { a with site := .product s1 } q call e hq]; simp
        | some aq => exact (txMaybe_peers { a with site := .product s1 } q call e s1 rfl aq hq).2.2
      have notSleep : ∀ {F : Fate}, F ≠ .exit → (∀ t, res ≠ .sleep t) →
          (F = .exit ↔ e.io = .terminate ∧ (∀ s, a.site = .product s → ∃ t s1, s.poll e.now e.prnd = some (.sleep t, s1))) := by
        intro F hF hns
        refine ⟨fun h => absurd h hF, ?_⟩
        rintro ⟨-, h⟩
        obtain ⟨t, s2, h2⟩ := h s hs
        rw [hpoll] at h2; cases h2
        exact absurd rfl (hns t)
      cases res with
      | deleteKey q =>
        dsimp only
        obtain ⟨-, h1⟩ := outputKey_out (C := C) { a with site := Site.product s1 } q .stale e.stale e
        refine notSleep ?_ (by intro t h; cases h)
        unfold deleteKey Res.andThen
        split
        · dsimp only; split <;> simp
        · exact h1
      | sendInitiation q => exact notSleep (tx q _) (by intro t h; cases h)
      | sendRetransmission q => exact notSleep (tx q _) (by intro t h; cases h)
      | sleep t =>
        have hsl : ∀ s', a.site = .product s' → ∃ t s1, s'.poll e.now e.prnd = some (.sleep t, s1) := by
          intro s' h; rw [hs] at h; cases h; exact ⟨t, s1, hpoll⟩
        dsimp only
        cases hio : e.io with
        | none => simp
        | terminate => exact ⟨fun _ => ⟨rfl, hsl⟩, fun _ => rfl⟩
        | err => simp
        | msg rx sock addr =>
          dsimp only
          rw [message_eq]
          cases hres : (e.receive rx sock addr).result C s1 with
          | error x => cases x <;> simp
          | ok m =>
            dsimp only
            have := (received_peers (C := C) { a with site := .product (s1.step C (e.receive rx sock addr)) } m sock addr e).1
            simp [this]

/-! ### Histories -/

/-- The state after a list of actions. -/
def after (C : Crypto) (a : App) (os : List Act) : App := os.foldl (App.apply C) a

/-- **Specification**: how an address came to be known for peer `p`: it was configured when the peer was
added, or an exchange with the peer completed by a message from there. -/
inductive Known (C : Crypto) (a : App) : List Act → Nat → Addr → Prop
  | configured (os x l p addr) : x.host = some (some l) → addr ∈ l → ((after C a os).addPeer C x).1 = .ok p → Known C a (os ++ [.addPeer x]) p addr
  | exchange (os e sock addr p resp) : Accepted C (after C a os) e sock addr ⟨some p, resp⟩ → Known C a (os ++ [.round e]) p addr
  | later (os o p addr) : Known C a os p addr → Known C a (os ++ [o]) p addr

theorem pushPeer_peers (a : App) (pn : Nat) (x : NewPeer) (p : Nat) (ap : AppPeer) (hpn : pn = a.peers.length) (h : (a.pushPeer pn x).2.peers[p]? = some ap) :
    a.peers[p]? = some ap ∨ (a.pushPeer pn x).1 = .ok p ∧ ap.current = none ∧ ∀ ep addr, ap.initial = some ep → addr ∈ ep.addresses →
      ∃ l, x.host = some (some l) ∧ addr ∈ l := by
  have key : ∀ ap0 : AppPeer, (a.peers ++ [ap0])[p]? = some ap → a.peers[p]? = some ap ∨ p = pn ∧ ap = ap0 := by
    intro ap0 h
    by_cases hlt : p < a.peers.length
    · rw [List.getElem?_append_left hlt] at h; exact .inl h
    · rw [List.getElem?_append_right (by omega)] at h
      by_cases hz : p - a.peers.length = 0
      · rw [hz] at h; simp at h; exact .inr ⟨by omega, h.symm⟩
      · rw [List.getElem?_eq_none (by simp; omega)] at h; cases h
  unfold pushPeer at h ⊢
  cases hx : x.host with
  | none =>
    rw [hx] at h
    rcases key _ h with h | ⟨rfl, rfl⟩
    · exact .inl h
    · exact .inr ⟨rfl, rfl, fun _ _ h => by cases h⟩
  | some y =>
    rw [hx] at h
    cases y with
    | none => exact .inl h
    | some l =>
      rcases key _ h with h | ⟨rfl, rfl⟩
      · exact .inl h
      · refine .inr ⟨rfl, rfl, fun ep addr h ha => ?_⟩
        cases h
        exact ⟨l, rfl, ha⟩

/-- the first half of `add_peer` -/
def addFirst (C : Crypto) (a : App) (x : NewPeer) : Except Fate Nat × App :=
  match a.site with
  | .void => (.error .error, a)
  | .builder b => (.ok (b.addPeer x.params).1, { a with site := .builder (b.addPeer x.params).2 })
  | .product s =>
    match s.addPeer C x.params.psk x.params.pk x.params.version x.params.osk with
    | (.error y, s1) => (.error (fateOf y), { a with site := .product s1 })
    | (.ok pn, s1) => (.ok pn, { a with site := .product s1 })

theorem addPeer_eq (a : App) (x : NewPeer) : a.addPeer C x = (match addFirst C a x with
    | (.error f, a) => (.error f, a)
    | (.ok pn, a) => if pn = a.peers.length then a.pushPeer pn x else (.error .panic, a)) := rfl

theorem addPeer_peers (a : App) (x : NewPeer) (p : Nat) (ap : AppPeer) (h : (a.addPeer C x).2.peers[p]? = some ap) :
    a.peers[p]? = some ap ∨ (a.addPeer C x).1 = .ok p ∧ ap.current = none ∧ ∀ ep addr, ap.initial = some ep → addr ∈ ep.addresses →
      ∃ l, x.host = some (some l) ∧ addr ∈ l := by
  rw [addPeer_eq] at h ⊢
  have hpe : (addFirst C a x).2.peers = a.peers := by
    unfold addFirst
    split
    · rfl
    · rfl
    · split <;> rfl
  generalize addFirst C a x = r at h hpe ⊢
  obtain ⟨r1, b⟩ := r
  dsimp only at hpe
  cases r1 with
  | error f => exact .inl (by rw [← hpe]; exact h)
  | ok pn =>
    dsimp only at h ⊢
    by_cases hl : pn = b.peers.length
    · rw [if_pos hl] at h ⊢
      rcases pushPeer_peers b pn x p ap hl h with h | h
      · exact .inl (by rw [← hpe]; exact h)
      · exact .inr h
    · rw [if_neg hl] at h ⊢
      exact .inl (by rw [← hpe]; exact h)

theorem after_snoc (a : App) (os : List Act) (o : Act) : after C a (os ++ [o]) = (after C a os).apply C o := by
  unfold after; rw [List.foldl_append]; rfl

/-- **C88**, for every history of the application: every address in a peer's entry was configured for that
peer or is where a message came from that completed an exchange with that peer. -/
theorem addresses_known (kp : Option (Bytes × Bytes)) (r : NewRnd) (nsock : Nat) (fs : Fs) (os : List Act) (p : Nat) (ap : AppPeer)
    (hp : (after C (App.new kp r nsock fs) os).peers[p]? = some ap) (ep : Endpoint) (he : ap.current = some ep ∨ ap.initial = some ep) (addr : Addr)
    (ha : addr ∈ ep.addresses) : Known C (App.new kp r nsock fs) os p addr := by
  revert p ap ep addr
  generalize hn : App.new kp r nsock fs = a0
  have h0 : a0.peers = [] := by rw [← hn]; rfl
  clear hn
  suffices H : ∀ n (os : List Act), os.length = n → ∀ (p : Nat) (ap : AppPeer), (after C a0 os).peers[p]? = some ap → ∀ (ep : Endpoint),
      ap.current = some ep ∨ ap.initial = some ep → ∀ addr, addr ∈ ep.addresses → Known C a0 os p addr from
    fun p ap h ep he addr => H _ os rfl p ap h ep he addr
  intro n
  induction n with
  | zero =>
    intro os hl p ap h
    cases os with
    | nil => rw [show after C a0 [] = a0 from rfl, h0] at h; simp at h
    | cons => simp at hl
  | succ n ih =>
    intro os hl p ap hp ep he addr ha
    obtain ⟨os', o, rfl⟩ : ∃ os' o, os = os' ++ [o] := by
      rcases List.eq_nil_or_concat os with h | ⟨l, x, h⟩
      · subst h; simp at hl
      · exact ⟨l, x, by simpa using h⟩
    have ih := ih os' (by simpa using hl)
    rw [after_snoc] at hp
    have same : ∀ b : App, (after C a0 os').apply C o = b → b.peers = (after C a0 os').peers → Known C a0 (os' ++ [o]) p addr := by
      intro b hb h
      rw [hb, h] at hp
      exact .later _ _ _ _ (ih p ap hp ep he addr ha)
    cases o with
    | round e =>
      obtain ⟨ap0, h0'⟩ : ∃ ap0, (after C a0 os').peers[p]? = some ap0 := by
        have hlen : ((after C a0 os').apply C (.round e)).peers.length ≤ (after C a0 os').peers.length := by
          apply Nat.le_of_not_lt
          intro hlt
          have hF : (((after C a0 os').step C e).app).peers.length = (after C a0 os').peers.length := step_len _ e
          change _ < (((after C a0 os').step C e).app).peers.length at hlt
          omega
        have := (List.getElem?_eq_some_iff.mp hp).1
        exact ⟨_, List.getElem?_eq_getElem (by omega)⟩
      obtain ⟨ap', h1, h2⟩ := peer_address_changes (C := C) (after C a0 os') e p ap0 h0'
      change (((after C a0 os').step C e).app).peers[p]? = _ at hp
      rw [h1] at hp; cases hp
      have old : ∀ ep', ap0.current = some ep' ∨ ap0.initial = some ep' → addr ∈ ep'.addresses → Known C a0 (os' ++ [.round e]) p addr :=
        fun ep' h h' => .later _ _ _ _ (ih p ap0 h0' ep' h addr h')
      cases h2 with
      | learned sock ad resp hacc _ =>
        rcases he with he | he
        · dsimp only at he
          cases he
          simp only [Endpoint.addresses, List.mem_singleton] at ha
          subst ha
          exact .exchange os' e sock addr p resp hacc
        · exact old ep (.inr he) ha
      | restarted s1 c hP _ _ hc =>
        rcases he with he | he
        · dsimp only at he
          obtain ⟨d, rfl, -, -, hd, -⟩ := hc ep he
          rcases (hd addr).mp ha with ⟨i, h3, h4⟩ | ⟨i, h3, h4⟩
          · exact old i (.inl h3) h4
          · exact old i (.inr h3) h4
        · exact old ep (.inr he) ha
      | scouted s1 res d st hP _ hd =>
        unfold AppPeer.endpoint at hd
        cases hc : ap0.current with
        | none =>
          rw [hc] at hd he
          simp only [Option.isSome_none, Bool.false_eq_true, if_false] at he
          have hd : ap0.initial = some (.discovery d) := by simpa using hd
          rcases he with he | he
          · cases he
          · cases he
            exact old (.discovery d) (.inr hd) ha
        | some ec =>
          rw [hc] at hd he
          simp only [Option.isSome_some, if_true] at he
          have hd : ec = .discovery d := by simpa using hd
          subst hd
          rcases he with he | he
          · cases he
            exact old (.discovery d) (.inl hc) ha
          · exact old ep (.inr he) ha
      | same _ _ => exact old ep he ha
    | addPeer x =>
      rcases addPeer_peers (C := C) (after C a0 os') x p ap hp with h | ⟨h1, h2, h3⟩
      · exact .later _ _ _ _ (ih p ap h ep he addr ha)
      · rcases he with he | he
        · rw [h2] at he; cases he
        · obtain ⟨l, h4, h5⟩ := h3 ep addr he ha
          exact .configured os' x l p addr h4 h5 h1
    | supply kp' r' =>
      refine same _ rfl ?_
      show ((after C a0 os').supply C kp' r').2.peers = _
      unfold supply
      split
      · rfl
      · rfl
      · dsimp only; split <;> rfl
    | registerBroker name ok => exact same _ rfl rfl
    | unregisterBroker ptr ok => exact same _ rfl rfl
    | addSocket => exact same _ rfl rfl

/-- **C88**: on every history, a datagram that is not an answer to the message received in the same round
goes to an address that was configured for the peer it is meant for, or that the peer proved to be at by
completing an exchange. -/
theorem unprompted_datagrams (kp : Option (Bytes × Bytes)) (r : NewRnd) (nsock : Nat) (fs : Fs) (os : List Act) (e : World) (sock : Nat) (addr : Addr) (msg : Bytes)
    (h : .datagram sock addr msg ∈ ((after C (App.new kp r nsock fs) os).step C e).out) :
    (∃ ex, Accepted C (after C (App.new kp r nsock fs) os) e sock addr ⟨ex, some msg⟩) ∨
    ∃ p s1 res, Polled (after C (App.new kp r nsock fs) os) e res s1 ∧ (res = .sendInitiation p ∨ res = .sendRetransmission p) ∧
      Known C (App.new kp r nsock fs) os p addr := by
  cases (datagram_recipient (C := C) _ e).1 sock addr msg h with
  | answer ex h => exact .inl ⟨ex, h⟩
  | due p s1 res ap ep hP hres hp hep ha _ =>
    refine .inr ⟨p, s1, res, hP, hres.imp And.left And.left, addresses_known kp r nsock fs os p ap hp ep ?_ addr ha⟩
    unfold AppPeer.endpoint at hep
    cases hc : ap.current with
    | none => rw [hc] at hep; exact .inr (by simpa using hep)
    | some c => rw [hc] at hep; exact .inl (by simpa using hep)

namespace Ex
open Verif.Ex

/-- an application with protocol server `s` whose peer has the configured addresses `l` -/
def appAt (s : Server) (l : List Addr) : App := { app s with peers := [⟨none, none, some (.discovery (.fromAddresses l)), none⟩] }

def addr2 : Addr := .v4 [10, 0, 0, 2] 9999

/-- C88: an exchange completes, the responder learns the address of the initiator, and forgets none when the
session expires -/
example : (appAt b1 [addr2]).peers.map (·.endpoint) = [some (.discovery ⟨[addr2], (0, 0)⟩)] ∧
    ((appAt b1 [addr2]).step Toy.crypto conf).app.peers.map (·.endpoint) = [some (.bound 0 addr)] ∧
    (((appAt b1 [addr2]).step Toy.crypto conf).app.step Toy.crypto (world (secs 200) .none)).app.peers.map (·.endpoint) =
      [some (.discovery ⟨[addr, addr2], (0, 0)⟩)] := by decide +kernel

/-- the recipients of the datagrams of a round -/
def recipients (l : List Output) : List (Nat × Addr) := l.filterMap fun x => match x with | .datagram s a _ => some (s, a) | _ => none

/-- C88: answers go where the message came from, a fresh application sends its initiation to the configured address -/
example : recipients (((appAt b1 [addr2]).step Toy.crypto conf).out) = [(0, addr)] ∧
    recipients (((appAt (A0 .v03) [addr2]).step Toy.crypto (world (secs 2) .none)).out) = [(0, addr2)] := by decide +kernel

/-- C89: the hypotheses are met, and the daemon stops -/
example : ((appAt b1 [addr2]).step Toy.crypto (world 3 .terminate)).fate = .exit ∧
    ((appAt (B2 .v03) [addr2]).step Toy.crypto (world (secs 200) .terminate)).fate = .next := by decide +kernel

end Ex

end App
end Verif
