import Verif.Thm.ApiExtra
/-
Clients that hang up (C104): the API server never notices the end of a client's stream, so the connection (its socket, its two secret
buffers and its slot) is kept for as long as the daemon runs.
-/
namespace Verif.Api
open FdPass (Chan bytes rights RdOut)
open LengthPrefix (frame)
namespace Mgr

/-- The server has answered everything it can: nothing is to be sent, nothing waits in the socket, what was received so far is not a whole
request and not the start of one that is too long. A client may have hung up in this state, or be idle. -/
def AtRest (l : Link) : Prop :=
  l.conn.invalid = false ∧ l.chan = [] ∧ ∃ cur, EncInv l.conn [] ∧ DecInv l.conn cur ∧ Incomplete (bytes cur) ∧ Fits (bytes cur)

/-- the environment of a poll of a connection whose client has hung up: the reads of the socket succeed (and return nothing, as nothing is left) -/
structure HungUp (w : PollWorld) : Prop where
  reads : Coop w.reads
  some : 0 < w.reads.length
  flush : CoopW w.flush0

theorem frame_complete (q : Bytes) (hq : q.length ≤ 4096) (x : Bytes) : ¬ Incomplete (frame q ++ x) := by
  intro h
  have h8 : (frame q ++ x).take 8 = toLE 8 q.length := frame_take q x
  unfold Incomplete at h
  rw [h8, leNat_toLE 8 _ (by omega)] at h
  have hl : (frame q ++ x).length = 8 + q.length + x.length := by simp [frame, toLE_length]; omega
  rw [hl] at h
  omega

/-- a poll of such a connection succeeds, sends nothing, changes nothing in the daemon and leaves the connection in the same state, open -/
theorem rest_poll (C : Crypto) (checks : Bool) (a : App) (l : Link) (w : PollWorld) (h : AtRest l) (hw : HungUp w) :
    (l.conn.poll C checks a l.chan w).res = .ok () ∧ (l.conn.poll C checks a l.chan w).app = a
    ∧ (l.conn.poll C checks a l.chan w).sent = []
    ∧ (l.conn.poll C checks a l.chan w).conn.shouldClose = some false
    ∧ ∀ out, AtRest ⟨(l.conn.poll C checks a l.chan w).conn, (l.conn.poll C checks a l.chan w).chan, out⟩ := by
  obtain ⟨hi, hch, cur, he, hd, hinc, hfit⟩ := h
  obtain ⟨cur', pending', s, hp⟩ := poll_spec C checks a l.conn cur l.chan [] w ⟨he, fun _ => hd⟩ (Coop.sane hw.reads)
  generalize l.conn.poll C checks a l.chan w = p at hp
  rw [hch] at hp
  have nofit : ∀ c' rest, c' ++ rest = cur → ¬ (8 ≤ (bytes c').length ∧ 4096 < leNat ((bytes c').take 8)) := by
    intro c' rest hc hx
    have hb : bytes cur = bytes c' ++ bytes rest := by rw [← hc, FdPass.bytes_append]
    have h8 : 8 ≤ (bytes cur).length := by rw [hb, List.length_append]; omega
    have := hfit h8
    rw [hb, List.take_append_of_le_length hx.1] at this
    omega
  cases hp with
  | idle _ _ ha hsent hchan hres hci hmono hbad hclosed hcoop =>
    rw [List.append_nil] at hchan
    have hv : p.conn.invalid = false := by
      cases hinv : p.conn.invalid with
      | false => rfl
      | true =>
        exfalso
        rcases hbad hinv with x | ⟨-, x⟩ | ⟨x, y, -⟩
        · rw [hi] at x; cases x
        · exact x hw.reads
        · exact nofit _ _ hchan ⟨x, y⟩
    obtain ⟨c1, c2, c3, c4, c5⟩ := hcoop hv hw.flush (Nat.zero_le _) hw.reads hw.some
    obtain ⟨b, hb, -⟩ := exhausted_eq hci.enc.ok
    refine ⟨c4, ha, (List.append_eq_nil_iff.1 hsent).1, ?_, fun out => ⟨hv, c1, cur', by rw [← c3]; exact hci.enc, hci.dec hv, c2, c5⟩⟩
    unfold Conn.shouldClose
    rw [hb, hv]
    simp
  | served s _ hs hsa hsw ha hsent hsuf hchan hres hci hinv hc hcoop =>
    rw [List.append_nil] at hchan
    exact absurd (by rw [← hchan, FdPass.bytes_append, hs.framed] at hinc; exact hinc) (frame_complete s.req hs.small _)
  | failed req _ r f buf hbl hr hf ha hres hsent hreq hl hchan hci hinv hc =>
    rw [List.append_nil] at hchan
    exact absurd (by rw [← hchan, FdPass.bytes_append, hreq] at hinc; exact hinc) (frame_complete req hl _)

theorem rest_new (token : Nat) : AtRest (Link.new token) := by
  have h := (Link.new_inv Toy.crypto true token).conn
  exact ⟨rfl, rfl, [], h.enc, h.dec rfl, .inl (by decide), fun h => by simp [bytes] at h⟩

/-- every connection is at rest (and none of the slots is empty) -/
def AllRest (m : Mgr) : Prop := ∀ x ∈ m.conns, ∃ cl, x = some cl ∧ AtRest cl.link

theorem rest_pollConnection (C : Crypto) (checks : Bool) (a : App) (m : Mgr) (idx : Nat) (w : Nat → PollWorld) (h : AllRest m)
    (hs : Sound a m) (hw : ∀ i, HungUp (w i)) (hi : idx < m.conns.length) :
    (m.pollConnection C checks a idx w).res = .ok () ∧ (m.pollConnection C checks a idx w).app = a
    ∧ AllRest (m.pollConnection C checks a idx w).mgr ∧ Sound a (m.pollConnection C checks a idx w).mgr
    ∧ (m.pollConnection C checks a idx w).mgr.conns.map (Option.map Client.id) = m.conns.map (Option.map Client.id) := by
  obtain ⟨cl, hcl, hr⟩ := h m.conns[idx] (List.getElem_mem hi)
  have hget : m.conns[idx]? = some (some cl) := by rw [List.getElem?_eq_getElem hi, hcl]
  obtain ⟨p1, p2, p3, p4, p5⟩ := rest_poll C checks a cl.link (w idx) hr (hw idx)
  unfold pollConnection
  simp only [hget, p1, p4, p2]
  refine ⟨trivial, trivial, ?_, ⟨hs.listener, ?_, hs.src, hs.fresh⟩, ?_⟩
  · intro x hx
    rcases List.mem_or_eq_of_mem_set hx with hx | rfl
    · exact h x hx
    · exact ⟨_, rfl, p5 _⟩
  · intro x hx
    rcases List.mem_or_eq_of_mem_set hx with hx | rfl
    · exact hs.open_ x hx
    · rfl
  · apply List.ext_getElem?
    intro j
    simp only [List.getElem?_map, List.getElem?_set]
    split
    · rename_i hj
      subst hj
      rw [hget]; rfl
    · rfl

theorem rest_each (C : Crypto) (checks : Bool) (w : Nat → PollWorld) (hw : ∀ i, HungUp (w i)) (is : List Nat) :
    ∀ (a : App) (m : Mgr), AllRest m → Sound a m → (∀ i ∈ is, i < m.conns.length) →
      let r := each (fun a m i => m.pollConnection C checks a i w) a m is
      r.res = .ok () ∧ r.app = a ∧ AllRest r.mgr ∧ Sound a r.mgr ∧ r.mgr.conns.map (Option.map Client.id) = m.conns.map (Option.map Client.id) := by
  induction is with
  | nil => intro a m h hs _; exact ⟨rfl, rfl, h, hs, rfl⟩
  | cons i is ih =>
    intro a m h hs hi
    obtain ⟨q1, q2, q3, q4, q5⟩ := rest_pollConnection C checks a m i w h hs hw (hi i (by simp))
    have hlen : (m.pollConnection C checks a i w).mgr.conns.length = m.conns.length := by
      have := congrArg List.length q5; simpa using this
    obtain ⟨r1, r2, r3, r4, r5⟩ := ih a (m.pollConnection C checks a i w).mgr q3 q4 (fun j hj => by rw [hlen]; exact hi j (by simp [hj]))
    dsimp only
    unfold each
    simp only [q1, q2]
    exact ⟨r1, r2, r3, r4, r5.trans q5⟩

/-- the clients whose connections are accepted in a poll, most recent first -/
def newcomers (acc : Nat → List Accept) : Nat → List Nat
  | 0 => []
  | n + 1 => ((acc n).filterMap fun x => match x with | .conn id _ _ => some id | .err => none).reverse ++ newcomers acc n

/-- clients that connect, send nothing and hang up -/
def Silent (acc : Nat → List Accept) : Prop := ∀ i, ∀ x ∈ acc i, ∃ id, x = .conn id [] true

theorem rest_acceptLoop (l : List Accept) : ∀ (a : App) (m : Mgr), AllRest m → Sound a m → (∀ x ∈ l, ∃ id, x = .conn id [] true) →
    (m.acceptLoop a l).res = .ok () ∧ AllRest (m.acceptLoop a l).mgr ∧ Sound (m.acceptLoop a l).app (m.acceptLoop a l).mgr
    ∧ (m.acceptLoop a l).mgr.listeners = m.listeners
    ∧ (m.acceptLoop a l).mgr.conns.map (Option.map Client.id)
        = ((l.filterMap fun x => match x with | .conn id _ _ => some id | .err => none).reverse.map some) ++ m.conns.map (Option.map Client.id) := by
  induction l with
  | nil => intro a m h hs _; exact ⟨rfl, h, hs, rfl, rfl⟩
  | cons x l ih =>
    intro a m h hs hl
    obtain ⟨id, rfl⟩ := hl x (by simp)
    obtain ⟨a1, a2, a3⟩ := hs.add id []
    have hli : (m.addConnection a id [] true).mgr.listeners = m.listeners := by
      unfold addConnection
      dsimp only
      rw [if_neg (by simp), show (dispense a).1 = a.brokers.next from rfl, Link.new_eq]
      dsimp only
      unfold registerSource
      dsimp only
      split <;> rfl
    have hr : AllRest (m.addConnection a id [] true).mgr := by
      intro y hy
      rw [a3] at hy
      rcases List.mem_cons.1 hy with rfl | hy
      · exact ⟨_, rfl, rest_new a.brokers.next⟩
      · exact h y hy
    obtain ⟨i1, i2, i3, i4, i5⟩ := ih _ _ hr a2 (fun x hx => hl x (by simp [hx]))
    unfold acceptLoop
    simp only [a1]
    refine ⟨i1, i2, i3, i4.trans hli, ?_⟩
    rw [i5, a3]
    simp

theorem rest_accepts (acc : Nat → List Accept) (hacc : Silent acc) (n : Nat) : ∀ (a : App) (m : Mgr), AllRest m → Sound a m → n ≤ m.listeners →
    let r := each (fun a m i => m.acceptFrom a i acc) a m (List.range n)
    r.res = .ok () ∧ AllRest r.mgr ∧ Sound r.app r.mgr ∧ r.mgr.listeners = m.listeners
    ∧ r.mgr.conns.map (Option.map Client.id) = (newcomers acc n).map some ++ m.conns.map (Option.map Client.id) := by
  have happ : ∀ (f : App → Mgr → Nat → MgrRes) (xs : List Nat) (y : Nat) (a : App) (m : Mgr), (each f a m xs).res = .ok () →
      each f a m (xs ++ [y]) = f (each f a m xs).app (each f a m xs).mgr y := by
    intro f xs y
    induction xs with
    | nil =>
      intro a m _
      show each f a m [y] = _
      unfold each
      dsimp only
      split
      · rename_i h
        unfold each
        generalize f a m y = r at h ⊢
        cases r; cases h; rfl
      · rfl
    | cons x xs ih =>
      intro a m h
      have e1 : ∀ zs, (f a m x).res = .ok () → each f a m (x :: zs) = each f (f a m x).app (f a m x).mgr zs := by
        intro zs hz
        conv => lhs; unfold each
        simp only [hz]
      cases hx : (f a m x).res with
      | ok u =>
        rw [List.cons_append, e1 _ hx, e1 _ hx]
        rw [e1 _ hx] at h
        exact ih _ _ h
      | error e =>
        unfold each at h
        simp only [hx] at h
        cases h
  induction n with
  | zero => intro a m h hs _; exact ⟨rfl, h, hs, rfl, rfl⟩
  | succ n ih =>
    intro a m h hs hn
    obtain ⟨i1, i2, i3, i4, i5⟩ := ih a m h hs (by omega)
    dsimp only
    rw [List.range_succ, happ _ _ _ _ _ i1]
    generalize each (fun a m i => m.acceptFrom a i acc) a m (List.range n) = r at i1 i2 i3 i4 i5
    unfold acceptFrom
    rw [if_pos (by rw [i4]; omega)]
    obtain ⟨j1, j2, j3, j4, j5⟩ := rest_acceptLoop (acc n) r.app r.mgr i2 i3 (hacc n)
    refine ⟨j1, j2, j3, j4.trans i4, ?_⟩
    rw [j5, i5]
    simp [newcomers]

/-- a poll of the API server in which silent clients connect and hang up: all goes well, and all of them occupy a slot afterwards -/
theorem rest_pass (C : Crypto) (checks : Bool) (a : App) (m : Mgr) (acc : Nat → List Accept) (w : Nat → PollWorld) (h : AllRest m)
    (hs : Sound a m) (hacc : Silent acc) (hw : ∀ i, HungUp (w i)) :
    (m.poll C checks a acc w).res = .ok () ∧ AllRest (m.poll C checks a acc w).mgr
    ∧ Sound (m.poll C checks a acc w).app (m.poll C checks a acc w).mgr
    ∧ (m.poll C checks a acc w).mgr.listeners = m.listeners
    ∧ (m.poll C checks a acc w).mgr.conns.map (Option.map Client.id)
        = (newcomers acc m.listeners).map some ++ m.conns.map (Option.map Client.id) := by
  obtain ⟨i1, i2, i3, i4, i5⟩ := rest_accepts acc hacc m.listeners a m h hs (Nat.le_refl _)
  have hkeep : ∀ (is : List Nat) (a : App) (m : Mgr),
      (each (fun a m i => m.pollConnection C checks a i w) a m is).mgr.listeners = m.listeners := by
    intro is
    induction is with
    | nil => intro a m; rfl
    | cons j is ih =>
      intro a m
      have hone : (m.pollConnection C checks a j w).mgr.listeners = m.listeners := by
        unfold pollConnection
        split
        · rfl
        · rfl
        · dsimp only
          split
          · rfl
          · split
            · rfl
            · rfl
            · split <;> rfl
      unfold each
      dsimp only
      split
      · rw [ih, hone]
      · exact hone
  obtain ⟨j1, j2, j3, j4, j5⟩ := rest_each C checks w hw (List.range _) _ _ i2 i3 (fun i hi => List.mem_range.1 hi)
  have he : m.poll C checks a acc w = each (fun a m i => m.pollConnection C checks a i w)
      (each (fun a m i => m.acceptFrom a i acc) a m (List.range m.listeners)).app
      (each (fun a m i => m.acceptFrom a i acc) a m (List.range m.listeners)).mgr
      (List.range (each (fun a m i => m.acceptFrom a i acc) a m (List.range m.listeners)).mgr.conns.length) := by
    unfold poll acceptConnections
    simp only [i1]
    rfl
  rw [he]
  refine ⟨j1, j3, by rw [j2]; exact j4, by rw [hkeep]; exact i4, j5.trans i5⟩

/-- polls of the API server, the daemon doing nothing to its tokens in between -/
def polls (C : Crypto) (checks : Bool) (a : App) (m : Mgr) : List ((Nat → List Accept) × (Nat → PollWorld)) → MgrRes
  | [] => ⟨.ok (), a, m⟩
  | (acc, w) :: rest =>
    let r := m.poll C checks a acc w
    match r.res with
    | .ok () => r.mgr.polls C checks r.app rest
    | .error _ => r

/-- **C104**, the counterexample: whatever number of polls the server makes, every client that ever connected and hung up without a word
still has its connection at the end; no slot is ever given back, so that the number of connections (sockets, buffers of secret memory)
grows without bound. -/
theorem hung_up_connections_kept (C : Crypto) (checks : Bool) (rounds : List ((Nat → List Accept) × (Nat → PollWorld))) :
    ∀ (a : App) (m : Mgr), AllRest m → Sound a m → (∀ r ∈ rounds, Silent r.1 ∧ ∀ i, HungUp (r.2 i)) →
      (m.polls C checks a rounds).res = .ok ()
      ∧ (m.polls C checks a rounds).mgr.conns.map (Option.map Client.id)
          = ((rounds.map fun r => newcomers r.1 m.listeners).reverse.flatten.map some) ++ m.conns.map (Option.map Client.id) := by
  induction rounds with
  | nil => intro a m _ _ _; exact ⟨rfl, rfl⟩
  | cons r rounds ih =>
    intro a m h hs hr
    obtain ⟨acc, w⟩ := r
    obtain ⟨h1, h2⟩ := hr _ List.mem_cons_self
    obtain ⟨q1, q2, q3, q4, q5⟩ := rest_pass C checks a m acc w h hs h1 h2
    obtain ⟨i1, i2⟩ := ih _ _ q2 q3 (fun x hx => hr x (List.mem_cons_of_mem _ hx))
    unfold polls
    simp only [q1]
    refine ⟨i1, ?_⟩
    rw [i2, q4, q5]
    simp

/-- the number of connections after `n` polls in each of which one client connects to the only API socket and hangs up -/
theorem connections_grow (C : Crypto) (checks : Bool) (n id : Nat) (a : App) (w : Nat → PollWorld) (hw : ∀ i, HungUp (w i)) (m : Mgr)
    (hm : Sound a m) (h0 : m.conns = []) (h1 : m.listeners = 1) :
    (m.polls C checks a (List.replicate n (fun _ => [.conn id [] true], w))).mgr.conns.length = n := by
  have h := (hung_up_connections_kept C checks (List.replicate n (fun _ => [.conn id [] true], w)) a m
    (by intro x hx; rw [h0] at hx; simp at hx) hm (by
      intro r hr
      rw [List.eq_of_mem_replicate hr]
      exact ⟨fun i x hx => ⟨id, by simpa using hx⟩, hw⟩)).2
  have hl := congrArg List.length h
  rw [h0, h1] at hl
  simpa [newcomers, List.length_flatten, List.sum_replicate_nat] using hl

/-- **C104**, what holds: a poll that succeeds gives the slot of a connection back exactly if the server refuses to read on from this client
(after a request that was too long) and everything that was to be sent has been sent. -/
theorem slot_freed_iff_partial (C : Crypto) (checks : Bool) (a : App) (m : Mgr) (idx : Nat) (w : Nat → PollWorld) (cl : Client)
    (hget : m.conns[idx]? = some (some cl)) (h : (m.pollConnection C checks a idx w).res = .ok ()) :
    (m.pollConnection C checks a idx w).mgr.conns[idx]? = some none
      ↔ (cl.link.conn.poll C checks a cl.link.chan (w idx)).conn.invalid = true
        ∧ (cl.link.conn.poll C checks a cl.link.chan (w idx)).conn.enc.exhausted = some true := by
  obtain ⟨o, ho, hc⟩ := pollConnection_conns C checks a m idx w h
  rw [hget] at ho
  injection ho with ho
  subst ho
  have hlt := (List.getElem?_eq_some_iff.mp hget).1
  rw [hc, List.getElem?_set_self hlt]
  dsimp only [Option.bind, afterPoll]
  generalize cl.link.conn.poll C checks a cl.link.chan (w idx) = p
  unfold Conn.shouldClose
  cases hi : p.conn.invalid <;> cases hx : p.conn.enc.exhausted with
  | none => simp
  | some b => cases b <;> simp

/-- the hypotheses are met: a daemon with its API socket, polled while clients come and go -/
example (a : App) (n : Nat) (req : ReqWorld) : (Mgr.polls Toy.crypto true (dispense a).2 ⟨1, [], [(a.brokers.next, .listener 0)]⟩
      (List.replicate n (fun _ => [.conn 7 [] true], fun _ => ⟨[], [⟨.ok 1, []⟩], req, []⟩))).mgr.conns.length = n :=
  connections_grow _ _ _ _ _ _ (fun _ => ⟨fun o ho => by simp at ho; subst ho; exact ⟨⟨0, rfl⟩, by simp⟩, (by simp), by intro o ho; simp at ho⟩)
    _ ⟨by simp, by simp, by simp, by simp [dispense]⟩ rfl rfl

end Mgr
end Verif.Api
