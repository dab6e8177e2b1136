import Verif.Model.ApiManager
import Verif.Thm.ApiLive
/-
C39-C40: many API connections: each behaves as if it were alone; which events reach which connection; what one client
can do to the others.
-/
namespace Verif.Api
open LengthPrefix (IoKind IoOut Enc Dec DecErr frame frames frame_length)
open FdPass (Chan RdOut bytes rights)
namespace Mgr

theorem sublist_insertIdx {α : Type} (l : List α) : ∀ (i : Nat) (b : α), l.Sublist (l.insertIdx i b) := by
  induction l with
  | nil => intro i b; exact List.nil_sublist _
  | cons x xs ih =>
    intro i b
    cases i with
    | zero => exact List.sublist_cons_self _ _
    | succ i => rw [List.insertIdx_succ_cons]; exact (ih i b).cons_cons x

theorem mem_insertIdx' {α : Type} (l : List α) (i : Nat) (a b : α) (h : a ∈ l.insertIdx i b) : a = b ∨ a ∈ l := by
  by_cases hi : i ≤ l.length
  · exact (List.mem_insertIdx hi).mp h
  · rw [List.insertIdx_of_length_lt (by omega)] at h
    exact .inr h

/-- what accepting connections can do -/
structure Accepts (m m' : Mgr) (opened : Nat → Chan → Prop) : Prop where
  listeners : m'.listeners = m.listeners
  index : ∀ x ∈ m'.index, x ∈ m.index ∨ ∃ i, x.2 = .listener i
  keep : m.conns.Sublist m'.conns
  fresh : ∀ cl, some cl ∈ m'.conns → some cl ∈ m.conns ∨ ∃ c0 tok, opened cl.id c0 ∧ cl.link = { Link.new tok with chan := c0 }

theorem Accepts.refl (m : Mgr) (o : Nat → Chan → Prop) : Accepts m m o :=
  ⟨rfl, fun _ h => .inl h, List.Sublist.refl _, fun _ h => .inl h⟩

theorem Accepts.trans {m1 m2 m3 : Mgr} {o : Nat → Chan → Prop} (h1 : Accepts m1 m2 o) (h2 : Accepts m2 m3 o) : Accepts m1 m3 o := by
  refine ⟨h2.listeners.trans h1.listeners, ?_, h1.keep.trans h2.keep, ?_⟩
  · intro x hx
    rcases h2.index x hx with h | h
    · exact h1.index x h
    · exact .inr h
  · intro cl hcl
    rcases h2.fresh cl hcl with h | h
    · exact h1.fresh cl h
    · exact .inr h

theorem Accepts.mono {m m' : Mgr} {o o' : Nat → Chan → Prop} (h : Accepts m m' o) (hm : ∀ i c, o i c → o' i c) : Accepts m m' o' := by
  refine ⟨h.listeners, h.index, h.keep, fun cl hcl => ?_⟩
  rcases h.fresh cl hcl with h | ⟨c0, tok, h1, h2⟩
  · exact .inl h
  · exact .inr ⟨c0, tok, hm _ _ h1, h2⟩

theorem mem_put {α : Type} (l : List (Nat × α)) (k : Nat) (v : α) (x : Nat × α) (h : x ∈ Brokers.put l k v) : x = (k, v) ∨ x ∈ l := by
  unfold Brokers.put at h
  rcases List.mem_cons.mp h with h | h
  · exact .inl h
  · exact .inr (List.mem_filter.mp h).1

theorem registerSource_mgr (a : App) (m : Mgr) (tok : Nat) (src : Src) :
    (registerSource a m tok src).mgr = { m with index := Brokers.put m.index tok src } ∧ (registerSource a m tok src).app = a := by
  unfold registerSource
  dsimp only
  split <;> exact ⟨rfl, rfl⟩

theorem addConnection_spec (a : App) (m : Mgr) (id : Nat) (chan : Chan) (reg : Bool) :
    Accepts m (m.addConnection a id chan reg).mgr (fun i c => i = id ∧ c = chan ∧ reg = true) := by
  unfold addConnection
  dsimp only
  cases reg with
  | false => exact .refl _ _
  | true =>
    rw [if_neg (by simp), Link.new_eq]
    dsimp only
    rw [(registerSource_mgr _ _ _ _).1]
    refine ⟨rfl, ?_, sublist_insertIdx _ _ _, ?_⟩
    · intro x hx
      rcases mem_put _ _ _ _ hx with rfl | h
      · exact .inr ⟨_, rfl⟩
      · exact .inl h
    · intro cl hcl
      rcases mem_insertIdx' _ _ _ _ hcl with h | h
      · cases h
        exact .inr ⟨chan, _, ⟨rfl, rfl, rfl⟩, rfl⟩
      · exact .inl h

theorem acceptLoop_spec (l : List Accept) : ∀ (a : App) (m : Mgr),
    Accepts m (m.acceptLoop a l).mgr (fun i c => Accept.conn i c true ∈ l) := by
  induction l with
  | nil => intro a m; exact .refl _ _
  | cons x l ih =>
    intro a m
    cases x with
    | err => exact .refl _ _
    | conn id chan reg =>
      unfold acceptLoop
      dsimp only
      have h1 : Accepts m (m.addConnection a id chan reg).mgr (fun i c => Accept.conn i c true ∈ Accept.conn id chan reg :: l) :=
        (addConnection_spec a m id chan reg).mono (fun i c ⟨h1, h2, h3⟩ => by rw [h1, h2, h3]; exact List.mem_cons_self)
      cases hr : (m.addConnection a id chan reg).res with
      | error f => exact h1
      | ok u =>
        exact h1.trans ((ih _ _).mono (fun i c h => List.mem_cons_of_mem _ h))

theorem acceptFrom_spec (a : App) (m : Mgr) (idx : Nat) (acc : Nat → List Accept) :
    Accepts m (m.acceptFrom a idx acc).mgr (fun i c => ∃ n, Accept.conn i c true ∈ acc n) := by
  unfold acceptFrom
  split
  · exact (acceptLoop_spec _ a m).mono (fun i c h => ⟨idx, h⟩)
  · exact .refl _ _

theorem each_spec (f : App → Mgr → Nat → MgrRes) (R : Mgr → Mgr → Prop) (hrefl : ∀ m, R m m) (htrans : ∀ a b c, R a b → R b c → R a c)
    (good : Except Fail Unit → Prop) (hgood : good (.ok ()))
    (hf : ∀ a m i, good (f a m i).res → R m (f a m i).mgr) (is : List Nat) : ∀ a m, good (each f a m is).res → R m (each f a m is).mgr := by
  induction is with
  | nil => intro a m _; exact hrefl m
  | cons i is ih =>
    intro a m hg
    unfold each at hg ⊢
    dsimp only at hg ⊢
    cases hr : (f a m i).res with
    | error e =>
      rw [hr] at hg
      dsimp only at hg ⊢
      exact hf a m i hg
    | ok u =>
      rw [hr] at hg
      dsimp only at hg ⊢
      exact htrans _ _ _ (hf a m i (by rw [hr]; exact hgood)) (ih _ _ hg)

theorem acceptConnections_spec (a : App) (m : Mgr) (acc : Nat → List Accept) :
    Accepts m (m.acceptConnections a acc).mgr (fun i c => ∃ n, Accept.conn i c true ∈ acc n) := by
  unfold acceptConnections
  exact each_spec _ (fun m m' => Accepts m m' _) (fun m => .refl m _) (fun _ _ _ h1 h2 => h1.trans h2) (fun _ => True) trivial
    (fun a m i _ => acceptFrom_spec a m i acc) _ _ _ trivial

/-! ### Each connection behaves as if it were alone -/

/-- the same client later, after some polls of its connection -/
def Later (C : Crypto) (checks : Bool) (cl cl' : Client) : Prop :=
  cl'.id = cl.id ∧ ∃ es recs, cl.link.run C checks es = some (cl'.link, recs) ∧ arrived es = []

theorem run_append' (C : Crypto) (checks : Bool) (es fs : List Ev) : ∀ (l m r : Link) (rs1 rs2 : List Rec), l.run C checks es = some (m, rs1) →
    m.run C checks fs = some (r, rs2) → l.run C checks (es ++ fs) = some (r, rs1 ++ rs2) := by
  induction es with
  | nil => intro l m r rs1 rs2 h1 h2; cases h1; exact h2
  | cons e es ih =>
    intro l m r rs1 rs2 h1 h2
    cases e with
    | arrive c => exact ih _ _ _ _ _ h1 h2
    | poll a w =>
      rw [List.cons_append, run_poll]
      rw [run_poll] at h1
      by_cases hne : (l.conn.poll C checks a l.chan w).res = .error .panic ∨ (l.conn.poll C checks a l.chan w).res = .error .blocked
      · rw [if_pos hne] at h1
        cases h1
      · rw [if_neg hne] at h1 ⊢
        obtain ⟨⟨r1, rs⟩, hr1, hr2⟩ := Option.map_eq_some_iff.mp h1
        cases hr2
        rw [ih _ _ _ _ _ hr1 h2]
        rfl

theorem arrived_append (es fs : List Ev) : arrived (es ++ fs) = arrived es ++ arrived fs := by
  induction es with
  | nil => rfl
  | cons e es ih =>
    cases e with
    | arrive c => simp [arrived, ih]
    | poll a w => simp [arrived, ih]

theorem Later.refl (C : Crypto) (checks : Bool) (cl : Client) : Later C checks cl cl := ⟨rfl, [], [], rfl, rfl⟩
theorem Later.trans {C : Crypto} {checks : Bool} {a b c : Client} (h1 : Later C checks a b) (h2 : Later C checks b c) : Later C checks a c := by
  obtain ⟨i1, e1, r1, h1, h1'⟩ := h1
  obtain ⟨i2, e2, r2, h2, h2'⟩ := h2
  exact ⟨i2.trans i1, e1 ++ e2, r1 ++ r2, run_append' C checks e1 e2 _ _ _ _ _ h1 h2, by rw [arrived_append, h1', h2']; rfl⟩

/-- A result after which the daemon goes on. -/
def Goes (r : Except Fail Unit) : Prop := r ≠ .error .panic ∧ r ≠ .error .blocked

/-- what polling connections can do -/
structure Polls (C : Crypto) (checks : Bool) (m m' : Mgr) : Prop where
  listeners : m'.listeners = m.listeners
  index : ∀ x ∈ m'.index, x ∈ m.index
  later : ∀ cl', some cl' ∈ m'.conns → ∃ cl, some cl ∈ m.conns ∧ Later C checks cl cl'

theorem Polls.refl (C : Crypto) (checks : Bool) (m : Mgr) : Polls C checks m m :=
  ⟨rfl, fun _ h => h, fun cl h => ⟨cl, h, .refl _ _ _⟩⟩

theorem Polls.trans {C : Crypto} {checks : Bool} {m1 m2 m3 : Mgr} (h1 : Polls C checks m1 m2) (h2 : Polls C checks m2 m3) : Polls C checks m1 m3 := by
  refine ⟨h2.listeners.trans h1.listeners, fun x hx => h1.index x (h2.index x hx), fun cl hcl => ?_⟩
  obtain ⟨c2, a, b⟩ := h2.later cl hcl
  obtain ⟨c1, d, e⟩ := h1.later c2 a
  exact ⟨c1, d, e.trans b⟩

theorem poll_later (C : Crypto) (checks : Bool) (a : App) (cl : Client) (w : PollWorld)
    (h : Goes (cl.link.conn.poll C checks a cl.link.chan w).res) :
    Later C checks cl ⟨cl.id, ⟨(cl.link.conn.poll C checks a cl.link.chan w).conn, (cl.link.conn.poll C checks a cl.link.chan w).chan, cl.link.out ++ (cl.link.conn.poll C checks a cl.link.chan w).sent⟩⟩ := by
  refine ⟨rfl, [.poll a w], [⟨a, w.req, (cl.link.conn.poll C checks a cl.link.chan w).res, (cl.link.conn.poll C checks a cl.link.chan w).app⟩], ?_, rfl⟩
  rw [run_poll, if_neg (fun x => x.elim h.1 h.2)]
  rfl

theorem pollConnection_spec (C : Crypto) (checks : Bool) (a : App) (m : Mgr) (idx : Nat) (w : Nat → PollWorld)
    (h : Goes (m.pollConnection C checks a idx w).res) : Polls C checks m (m.pollConnection C checks a idx w).mgr := by
  unfold pollConnection at h ⊢
  cases hc : m.conns[idx]? with
  | none => exact .refl _ _ _
  | some o =>
    cases o with
    | none => exact .refl _ _ _
    | some cl =>
      rw [hc] at h
      dsimp only at h ⊢
      have hmem : some cl ∈ m.conns := List.mem_of_getElem? hc
      have hset : ∀ x cl', some cl' ∈ m.conns.set idx x → some cl' = x ∨ some cl' ∈ m.conns := fun x cl' hx => (List.mem_or_eq_of_mem_set hx).symm
      have base : Goes (cl.link.conn.poll C checks a cl.link.chan (w idx)).res → ∀ cl',
          some cl' ∈ m.conns.set idx (some ⟨cl.id, ⟨(cl.link.conn.poll C checks a cl.link.chan (w idx)).conn, (cl.link.conn.poll C checks a cl.link.chan (w idx)).chan, cl.link.out ++ (cl.link.conn.poll C checks a cl.link.chan (w idx)).sent⟩⟩) →
          ∃ cl, some cl ∈ m.conns ∧ Later C checks cl cl' := by
        intro hg cl' hcl'
        rcases hset _ _ hcl' with h1 | h1
        · cases h1
          exact ⟨cl, hmem, poll_later C checks a cl (w idx) hg⟩
        · exact ⟨cl', h1, .refl _ _ _⟩
      cases hr : (cl.link.conn.poll C checks a cl.link.chan (w idx)).res with
      | error f =>
        rw [hr] at h
        dsimp only at h ⊢
        exact ⟨rfl, fun _ hx => hx, base (by rw [hr]; exact h)⟩
      | ok u =>
        rw [hr] at h
        dsimp only at h ⊢
        have hg : Goes (cl.link.conn.poll C checks a cl.link.chan (w idx)).res := by rw [hr]; exact ⟨nofun, nofun⟩
        cases hs : (cl.link.conn.poll C checks a cl.link.chan (w idx)).conn.shouldClose with
        | none =>
          rw [hs] at h
          exact absurd rfl h.1
        | some b =>
          cases b with
          | false => exact ⟨rfl, fun _ hx => hx, base hg⟩
          | true =>
            have key : ∀ i, Polls C checks m ⟨m.listeners, m.conns.set idx none, m.index.filter i⟩ := by
              intro i
              refine ⟨rfl, fun x hx => (List.mem_filter.mp hx).1, fun cl' hcl' => ?_⟩
              rcases hset _ _ hcl' with h1 | h1
              · cases h1
              · exact ⟨cl', h1, .refl _ _ _⟩
            dsimp only
            split <;> exact key _

theorem pollConnections_spec (C : Crypto) (checks : Bool) (a : App) (m : Mgr) (w : Nat → PollWorld)
    (h : Goes (m.pollConnections C checks a w).res) : Polls C checks m (m.pollConnections C checks a w).mgr := by
  unfold pollConnections at h ⊢
  exact each_spec _ (fun m m' => Polls C checks m m') (Polls.refl C checks) (fun _ _ _ h1 h2 => h1.trans h2) Goes ⟨nofun, nofun⟩
    (fun a m i hg => pollConnection_spec C checks a m i w hg) _ _ _ h

/-- Specification: operation `o` may connect client `id`, with `c0` in its socket. -/
def Opens (o : Op) (id : Nat) (c0 : Chan) : Prop :=
  match o with
  | .connect _ i reg => i = id ∧ c0 = [] ∧ reg = true
  | .event _ _ acc _ => ∃ n, Accept.conn id c0 true ∈ acc n
  | .poll _ acc _ => ∃ n, Accept.conn id c0 true ∈ acc n
  | _ => False

/-- Specification: what client `id` sends. -/
def sent (id : Nat) : List Op → Chan
  | [] => []
  | .send i c :: os => (if i = id then c else []) ++ sent id os
  | _ :: os => sent id os

theorem sent_append (id : Nat) (a b : List Op) : sent id (a ++ b) = sent id a ++ sent id b := by
  induction a with
  | nil => rfl
  | cons o os ih => cases o <;> simp [sent, ih]

/-- one step, seen from the connections -/
theorem step_clients (C : Crypto) (checks : Bool) (m : Mgr) (o : Op) (hg : Goes (m.step C checks o).1) (cl' : Client)
    (h : some cl' ∈ (m.step C checks o).2.conns) :
    (∃ cl, some cl ∈ m.conns ∧ cl'.id = cl.id ∧ ∃ es recs, cl.link.run C checks es = some (cl'.link, recs) ∧ arrived es = sent cl.id [o]) ∨
    (∃ c0 tok es recs, Opens o cl'.id c0 ∧ (Link.new tok).run C checks es = some (cl'.link, recs) ∧ arrived es = c0 ∧ sent cl'.id [o] = []) := by
  -- connections that were accepted and then perhaps polled
  have accepted : ∀ (m1 : Mgr) (opened : Nat → Chan → Prop), Accepts m m1 opened → ∀ cl1, some cl1 ∈ m1.conns → Later C checks cl1 cl' →
      (∃ cl, some cl ∈ m.conns ∧ cl'.id = cl.id ∧ ∃ es recs, cl.link.run C checks es = some (cl'.link, recs) ∧ arrived es = []) ∨
      (∃ c0 tok es recs, opened cl'.id c0 ∧ (Link.new tok).run C checks es = some (cl'.link, recs) ∧ arrived es = c0) := by
    intro m1 opened ha cl1 hcl1 hl
    rcases ha.fresh cl1 hcl1 with h1 | ⟨c0, tok, h1, h2⟩
    · exact .inl ⟨cl1, h1, hl⟩
    · right
      obtain ⟨hid, es, recs, hr, he⟩ := hl
      rw [h2] at hr
      exact ⟨c0, tok, .arrive c0 :: es, recs, by rw [hid]; exact h1, hr, by rw [arrived, he, List.append_nil]⟩
  cases o with
  | listener a reg =>
    left
    have : (m.addListener a reg).mgr.conns = m.conns := by
      unfold addListener
      dsimp only
      cases reg with
      | false => rfl
      | true => rw [if_neg (by simp), (registerSource_mgr _ _ _ _).1]
    dsimp only [step] at h
    rw [this] at h
    exact ⟨cl', h, rfl, [], [], rfl, rfl⟩
  | connect a id reg =>
    rcases accepted _ _ (addConnection_spec a m id [] reg) cl' h (.refl _ _ _) with h1 | ⟨c0, tok, es, recs, ⟨h1, h2, h3⟩, h4, h5⟩
    · exact .inl h1
    · exact .inr ⟨c0, tok, es, recs, ⟨h1.symm, h2, h3⟩, h4, h5, rfl⟩
  | send id chunk =>
    left
    dsimp only [step, arrive] at h
    obtain ⟨o, ho, hm⟩ := List.mem_map.mp h
    obtain ⟨cl, rfl, hcl⟩ := Option.map_eq_some_iff.mp hm
    by_cases hid : cl.id = id
    · rw [if_pos hid] at hcl
      subst hcl
      refine ⟨cl, ho, rfl, [.arrive chunk], [], rfl, ?_⟩
      simp [arrived, sent, hid]
    · rw [if_neg hid] at hcl
      subst hcl
      refine ⟨cl, ho, rfl, [], [], rfl, ?_⟩
      simp [arrived, sent, Ne.symm hid]
  | event a tok acc w =>
    dsimp only [step] at h hg
    unfold event at h hg
    cases hl : m.index.lookup tok with
    | none =>
      rw [hl] at h
      exact .inl ⟨cl', h, rfl, [], [], rfl, rfl⟩
    | some src =>
      rw [hl] at h hg
      dsimp only at h hg
      cases src with
      | listener i =>
        rcases accepted _ _ (acceptFrom_spec a m i acc) cl' h (.refl _ _ _) with h1 | ⟨c0, tok, es, recs, h1, h4, h5⟩
        · exact .inl h1
        · exact .inr ⟨c0, tok, es, recs, h1, h4, h5, rfl⟩
      | connection i =>
        obtain ⟨cl, h1, h2⟩ := (pollConnection_spec C checks a m i w hg).later cl' h
        exact .inl ⟨cl, h1, h2⟩
  | poll a acc w =>
    dsimp only [step] at h hg
    unfold poll at h hg
    dsimp only at h hg
    cases hr : (m.acceptConnections a acc).res with
    | error f =>
      rw [hr] at h
      rcases accepted _ _ (acceptConnections_spec a m acc) cl' h (.refl _ _ _) with h1 | ⟨c0, tok, es, recs, h1, h4, h5⟩
      · exact .inl h1
      · exact .inr ⟨c0, tok, es, recs, h1, h4, h5, rfl⟩
    | ok u =>
      rw [hr] at h hg
      dsimp only at h hg
      obtain ⟨cl, h1, h2⟩ := (pollConnections_spec C checks _ _ w hg).later cl' h
      rcases accepted _ _ (acceptConnections_spec a m acc) cl h1 h2 with h1 | ⟨c0, tok, es, recs, h1, h4, h5⟩
      · exact .inl h1
      · exact .inr ⟨c0, tok, es, recs, h1, h4, h5, rfl⟩

theorem run_cons (C : Crypto) (checks : Bool) (m r : Mgr) (o : Op) (os : List Op) (h : m.run C checks (o :: os) = some r) :
    Goes (m.step C checks o).1 ∧ (m.step C checks o).2.run C checks os = some r := by
  unfold run at h
  rcases hs : m.step C checks o with ⟨x, m1⟩
  rw [hs] at h
  cases x with
  | ok u => exact ⟨⟨nofun, nofun⟩, h⟩
  | error f =>
    cases f with
    | error => exact ⟨⟨nofun, nofun⟩, h⟩
    | panic => cases h
    | blocked => cases h

/-- C39, C40: connections do not influence each other's data: whatever the history of connects, events, polls and other
clients, the state of a connection and what was sent to its client is that of a connection that was polled alone, on
exactly what its own client sent (`c0` before it was accepted, then everything after). -/
theorem connections_do_not_mix (C : Crypto) (checks : Bool) (ops : List Op) (m : Mgr) (hr : Mgr.new.run C checks ops = some m) (cl : Client)
    (hcl : some cl ∈ m.conns) :
    ∃ ops1 o ops2 c0 tok es recs, ops = ops1 ++ o :: ops2 ∧ Opens o cl.id c0 ∧ (Link.new tok).run C checks es = some (cl.link, recs) ∧
      arrived es = c0 ++ sent cl.id ops2 := by
  have main : ∀ (ops done : List Op) (m r : Mgr),
      (∀ cl, some cl ∈ m.conns → ∃ ops1 o ops2 c0 tok es recs, done = ops1 ++ o :: ops2 ∧ Opens o cl.id c0 ∧ (Link.new tok).run C checks es = some (cl.link, recs) ∧
        arrived es = c0 ++ sent cl.id ops2) → m.run C checks ops = some r → ∀ cl, some cl ∈ r.conns →
      ∃ ops1 o ops2 c0 tok es recs, done ++ ops = ops1 ++ o :: ops2 ∧ Opens o cl.id c0 ∧ (Link.new tok).run C checks es = some (cl.link, recs) ∧
        arrived es = c0 ++ sent cl.id ops2 := by
    intro ops
    induction ops with
    | nil =>
      intro done m r h hr cl hcl
      cases hr
      rw [List.append_nil]
      exact h cl hcl
    | cons o os ih =>
      intro done m r h hr cl hcl
      obtain ⟨hg, hr⟩ := run_cons C checks m r o os hr
      have := ih (done ++ [o]) _ r ?_ hr cl hcl
      · rw [List.append_assoc] at this
        exact this
      · intro cl' hcl'
        rcases step_clients C checks m o hg cl' hcl' with ⟨cl, h1, hid, es, recs, h3, h4⟩ | ⟨c0, tok, es, recs, h1, h2, h3, h4⟩
        · obtain ⟨ops1, o', ops2, c0, tok, es0, recs0, a, b, c, d⟩ := h cl h1
          refine ⟨ops1, o', ops2 ++ [o], c0, tok, es0 ++ es, recs0 ++ recs, ?_, by rw [hid]; exact b, run_append' C checks _ _ _ _ _ _ _ c h3, ?_⟩
          · rw [a]; simp
          · rw [arrived_append, d, h4, sent_append, hid, List.append_assoc]
        · exact ⟨done, o, [], c0, tok, es, recs, rfl, h1, h2, by rw [h3, sent, List.append_nil]⟩
  have := main ops [] Mgr.new m (fun cl h => by simp [Mgr.new] at h) hr cl hcl
  rw [List.nil_append] at this
  exact this

/-! ### Events -/

/-- every token of the manager leads to a listener -/
def OnlyListeners (m : Mgr) : Prop := ∀ x ∈ m.index, ∃ i, x.2 = .listener i

theorem step_index (C : Crypto) (checks : Bool) (m : Mgr) (o : Op) (hg : Goes (m.step C checks o).1) (h : OnlyListeners m) :
    OnlyListeners (m.step C checks o).2 := by
  have acc : ∀ {m m' : Mgr} {op}, OnlyListeners m → Accepts m m' op → OnlyListeners m' := by
    intro m m' op h ha x hx
    rcases ha.index x hx with h1 | h1
    · exact h x h1
    · exact h1
  have pol : ∀ {m m' : Mgr}, OnlyListeners m → Polls C checks m m' → OnlyListeners m' := fun h hp x hx => h x (hp.index x hx)
  cases o with
  | listener a reg =>
    dsimp only [step]
    unfold addListener
    dsimp only
    cases reg with
    | false => exact h
    | true =>
      rw [if_neg (by simp), (registerSource_mgr _ _ _ _).1]
      intro x hx
      rcases mem_put _ _ _ _ hx with rfl | h1
      · exact ⟨_, rfl⟩
      · exact h x h1
  | connect a id reg => exact acc h (addConnection_spec a m id [] reg)
  | send id chunk => exact h
  | event a tok ac w =>
    dsimp only [step] at hg ⊢
    unfold event at hg ⊢
    cases hl : m.index.lookup tok with
    | none => exact h
    | some src =>
      rw [hl] at hg
      cases src with
      | listener i => exact acc h (acceptFrom_spec a m i ac)
      | connection i => exact pol h (pollConnection_spec C checks a m i w hg)
  | poll a ac w =>
    dsimp only [step] at hg ⊢
    unfold poll at hg ⊢
    dsimp only at hg ⊢
    cases hr : (m.acceptConnections a ac).res with
    | error f => exact acc h (acceptConnections_spec a m ac)
    | ok u =>
      rw [hr] at hg
      exact pol (acc h (acceptConnections_spec a m ac)) (pollConnections_spec C checks _ _ w hg)

theorem run_index (C : Crypto) (checks : Bool) (ops : List Op) : ∀ (m r : Mgr), m.run C checks ops = some r → OnlyListeners m → OnlyListeners r := by
  induction ops with
  | nil => intro m r hr h; cases hr; exact h
  | cons o os ih =>
    intro m r hr h
    obtain ⟨hg, hr⟩ := run_cons C checks m r o os hr
    exact ih _ _ hr (step_index C checks m o hg h)

/-- Finding: C40 is false for every connection: whatever the history, an I/O event never makes the manager poll a connection.
All it can do is to accept further connections; every connection is exactly as before. -/
theorem event_never_reaches_connection (C : Crypto) (checks : Bool) (ops : List Op) (m : Mgr) (hr : Mgr.new.run C checks ops = some m)
    (a : App) (tok : Nat) (acc : Nat → List Accept) (w : Nat → PollWorld) :
    m.conns.Sublist (m.event C checks a tok acc w).mgr.conns ∧
      ∀ w', m.event C checks a tok acc w' = m.event C checks a tok acc w := by
  have h := run_index C checks ops _ _ hr (fun x hx => by simp [Mgr.new] at hx)
  unfold event
  cases hl : m.index.lookup tok with
  | none => exact ⟨List.Sublist.refl _, fun _ => rfl⟩
  | some src =>
    have hmem : (tok, src) ∈ m.index := by
      have := List.lookup_eq_some_iff.mp hl
      obtain ⟨l1, l2, h1, -⟩ := this
      rw [h1]
      simp
    obtain ⟨i, hi⟩ := h _ hmem
    dsimp only at hi
    subst hi
    exact ⟨(acceptFrom_spec a m i acc).keep, fun _ => rfl⟩

/-- Finding: an event of a connection that has no listener of the same number makes the daemon panic. -/
theorem event_panics_of_missing_listener (C : Crypto) (checks : Bool) (ops : List Op) (m : Mgr) (hr : Mgr.new.run C checks ops = some m)
    (a : App) (tok i : Nat) (acc : Nat → List Accept) (w : Nat → PollWorld) (hl : m.index.lookup tok = some (.listener i)) (hi : m.listeners ≤ i) :
    (m.event C checks a tok acc w).res = .error .panic := by
  unfold event
  rw [hl]
  dsimp only [pollParticular, acceptFrom]
  rw [if_neg (by omega)]

/-- Finding: a daemon whose only API connection is one handed over by its parent (`stream_fd`) panics at that
connection's first event. -/
theorem lone_connection_event_panics (C : Crypto) (checks : Bool) (a a' : App) (id : Nat) (acc : Nat → List Accept) (w : Nat → PollWorld) :
    ∃ m, Mgr.new.run C checks [.connect a id true] = some m ∧ (∃ cl, m.conns = [some cl] ∧ cl.link.conn.token = a.brokers.next) ∧
      (m.event C checks a' a.brokers.next acc w).res = .error .panic := by
  have hadd : Mgr.new.addConnection a id [] true = ⟨.ok (), (dispense a).2,
      ⟨0, [some ⟨id, ⟨(Link.new a.brokers.next).conn, [], []⟩⟩], [(a.brokers.next, .listener 0)]⟩⟩ := by
    unfold addConnection
    dsimp only
    rw [if_neg (by simp), show (dispense a).1 = a.brokers.next from rfl, Link.new_eq]
    rfl
  have hrun : Mgr.new.run C checks [.connect a id true] = some ⟨0, [some ⟨id, ⟨(Link.new a.brokers.next).conn, [], []⟩⟩], [(a.brokers.next, .listener 0)]⟩ := by
    unfold run step
    dsimp only
    rw [hadd]
    rfl
  refine ⟨_, hrun, ⟨_, rfl, rfl⟩, ?_⟩
  exact event_panics_of_missing_listener C checks _ _ hrun a' a.brokers.next 0 acc w (by simp) (Nat.le_refl _)

/-! ### A full pass -/

/-- the client after a poll, or nothing if the connection was closed -/
def afterPoll (C : Crypto) (checks : Bool) (a : App) (cl : Client) (w : PollWorld) : Option Client :=
  let p := cl.link.conn.poll C checks a cl.link.chan w
  if p.conn.shouldClose = some true then none else some ⟨cl.id, ⟨p.conn, p.chan, cl.link.out ++ p.sent⟩⟩

theorem pollConnection_conns (C : Crypto) (checks : Bool) (a : App) (m : Mgr) (idx : Nat) (w : Nat → PollWorld)
    (h : (m.pollConnection C checks a idx w).res = .ok ()) :
    ∃ o, m.conns[idx]? = some o ∧ (m.pollConnection C checks a idx w).mgr.conns = m.conns.set idx (o.bind (fun cl => afterPoll C checks a cl (w idx))) := by
  unfold pollConnection at h ⊢
  cases hc : m.conns[idx]? with
  | none => rw [hc] at h; cases h
  | some o =>
    cases o with
    | none =>
      refine ⟨none, rfl, ?_⟩
      dsimp only [Option.bind]
      apply List.ext_getElem?
      intro j
      rw [List.getElem?_set]
      split
      · rename_i hj
        subst hj
        rw [hc]
        have := (List.getElem?_eq_some_iff.mp hc).1
        rw [if_pos this]
      · rfl
    | some cl =>
      rw [hc] at h
      refine ⟨some cl, rfl, ?_⟩
      dsimp only at h ⊢
      dsimp only [Option.bind, afterPoll]
      cases hr : (cl.link.conn.poll C checks a cl.link.chan (w idx)).res with
      | error f => rw [hr] at h; cases h
      | ok u =>
        rw [hr] at h
        dsimp only at h ⊢
        cases hs : (cl.link.conn.poll C checks a cl.link.chan (w idx)).conn.shouldClose with
        | none => rw [hs] at h; cases h
        | some b =>
          cases b with
          | false => dsimp only; rw [if_neg (show ¬ ((some false : Option Bool) = some true) from nofun)]
          | true =>
            rw [if_pos rfl]
            dsimp only
            split <;> rfl

/-- If a pass over all connections succeeds, every connection was polled, once, in the environment of its slot. -/
theorem every_connection_polled_partial (C : Crypto) (checks : Bool) (a : App) (m : Mgr) (w : Nat → PollWorld)
    (h : (m.pollConnections C checks a w).res = .ok ()) (i : Nat) (cl : Client) (hi : m.conns[i]? = some (some cl)) :
    ∃ a', (m.pollConnections C checks a w).mgr.conns[i]? = some (afterPoll C checks a' cl (w i)) := by
  unfold pollConnections at h ⊢
  have main : ∀ (is : List Nat) (a : App) (m : Mgr), is.Nodup → (each (fun a m i => m.pollConnection C checks a i w) a m is).res = .ok () →
      ∀ i o, m.conns[i]? = some o →
        (i ∉ is → (each (fun a m i => m.pollConnection C checks a i w) a m is).mgr.conns[i]? = some o) ∧
        (i ∈ is → ∀ cl, o = some cl → ∃ a', (each (fun a m i => m.pollConnection C checks a i w) a m is).mgr.conns[i]? = some (afterPoll C checks a' cl (w i))) := by
    intro is
    induction is with
    | nil => intro a m _ _ i o hi; exact ⟨fun _ => hi, fun h => by simp at h⟩
    | cons j is ih =>
      intro a m hnd hok i o hi
      unfold each at hok ⊢
      dsimp only at hok ⊢
      cases hr : (m.pollConnection C checks a j w).res with
      | error f => rw [hr] at hok; dsimp only at hok; rw [hr] at hok; cases hok
      | ok u =>
        rw [hr] at hok
        dsimp only at hok ⊢
        obtain ⟨oj, hj, hconns⟩ := pollConnection_conns C checks a m j w hr
        rw [List.nodup_cons] at hnd
        by_cases hij : i = j
        · subst hij
          have hoj : oj = o := by rw [hj] at hi; exact Option.some.inj hi
          subst hoj
          refine ⟨fun hn => absurd List.mem_cons_self hn, fun _ cl hcl => ?_⟩
          subst hcl
          have hlt := (List.getElem?_eq_some_iff.mp hi).1
          have h2 := (ih (m.pollConnection C checks a i w).app (m.pollConnection C checks a i w).mgr hnd.2 hok i (afterPoll C checks a cl (w i))
            (by rw [hconns]; exact List.getElem?_set_self hlt)).1 hnd.1
          exact ⟨a, h2⟩
        · have h2 := ih (m.pollConnection C checks a j w).app (m.pollConnection C checks a j w).mgr hnd.2 hok i o
            (by rw [hconns, List.getElem?_set_ne (fun e => hij e.symm)]; exact hi)
          refine ⟨fun hn => h2.1 (fun hm => hn (List.mem_cons_of_mem _ hm)), fun hm => h2.2 ?_⟩
          rcases List.mem_cons.mp hm with h | h
          · exact absurd h hij
          · exact h
  have hlt := (List.getElem?_eq_some_iff.mp hi).1
  exact (main (List.range m.conns.length) a m List.nodup_range h i (some cl) hi).2 (List.mem_range.mpr hlt) cl rfl

/-! ### One client against the rest -/

/-- a connection that holds a malformed request -/
def Poisoned (cl : Client) : Prop :=
  ∃ cur req, Malformed req ∧ EncInv cl.link.conn [] ∧ DecInv cl.link.conn cur ∧ bytes cur = frame req ∧ req.length ≤ 4096 ∧ cl.link.conn.invalid = false

theorem poisoned_pollConnection (C : Crypto) (checks : Bool) (a : App) (m : Mgr) (idx : Nat) (w : Nat → PollWorld) (cl : Client)
    (hc : m.conns[idx]? = some (some cl)) (hp : Poisoned cl) : m.pollConnection C checks a idx w = ⟨.error .error, a, m⟩ := by
  obtain ⟨cur, req, h1, h2, h3, h4, h5, h6⟩ := hp
  unfold pollConnection
  rw [hc]
  dsimp only
  rw [poisoned_poll C checks cl.link.conn cur req h1 h2 h3 h4 h5 h6 a cl.link.chan (w idx)]
  dsimp only
  have : (⟨cl.id, ⟨cl.link.conn, cl.link.chan, cl.link.out ++ []⟩⟩ : Client) = cl := by rw [List.append_nil]
  rw [this]
  have : m.conns.set idx (some cl) = m.conns := by
    apply List.ext_getElem?
    intro j
    rw [List.getElem?_set]
    split
    · rename_i hj
      subst hj
      rw [hc, if_pos (List.getElem?_eq_some_iff.mp hc).1]
    · rfl
  rw [this]

/-- Finding: once a client has sent a malformed request, a pass over the API connections always fails; the connections after
that client's slot are not polled. -/
theorem poisoned_pass_fails (C : Crypto) (checks : Bool) (a : App) (m : Mgr) (w : Nat → PollWorld) (idx : Nat) (cl : Client)
    (hc : m.conns[idx]? = some (some cl)) (hp : Poisoned cl) :
    (∃ f, (m.pollConnections C checks a w).res = .error f) ∧
    (∀ i, idx ≤ i → (m.pollConnections C checks a w).mgr.conns[i]? = m.conns[i]?) := by
  have hlen : ∀ a (m : Mgr) j, (m.pollConnection C checks a j w).mgr.conns.length = m.conns.length := by
    intro a m j
    unfold pollConnection
    cases hc : m.conns[j]? with
    | none => rfl
    | some o =>
      cases o with
      | none => rfl
      | some cl =>
        dsimp only
        cases (cl.link.conn.poll C checks a cl.link.chan (w j)).res with
        | error f => exact List.length_set
        | ok u =>
          dsimp only
          cases (cl.link.conn.poll C checks a cl.link.chan (w j)).conn.shouldClose with
          | none => exact List.length_set
          | some b =>
            cases b with
            | false => exact List.length_set
            | true => dsimp only; split <;> exact List.length_set
  have hother : ∀ a (m : Mgr) j i, j ≠ i → (m.pollConnection C checks a j w).mgr.conns[i]? = m.conns[i]? := by
    intro a m j i hij
    unfold pollConnection
    cases hc : m.conns[j]? with
    | none => rfl
    | some o =>
      cases o with
      | none => rfl
      | some cl =>
        dsimp only
        cases (cl.link.conn.poll C checks a cl.link.chan (w j)).res with
        | error f => exact List.getElem?_set_ne hij
        | ok u =>
          dsimp only
          cases (cl.link.conn.poll C checks a cl.link.chan (w j)).conn.shouldClose with
          | none => exact List.getElem?_set_ne hij
          | some b =>
            cases b with
            | false => exact List.getElem?_set_ne hij
            | true => dsimp only; split <;> exact List.getElem?_set_ne hij
  -- the pass goes through `0 .. idx - 1`, and then fails at `idx` or before
  have main : ∀ (pre post : List Nat) (a : App) (m : Mgr), (∀ j ∈ pre, j < idx) → m.conns[idx]? = some (some cl) →
      (∃ f, (each (fun a m i => m.pollConnection C checks a i w) a m (pre ++ idx :: post)).res = .error f) ∧
      (∀ i, idx ≤ i → (each (fun a m i => m.pollConnection C checks a i w) a m (pre ++ idx :: post)).mgr.conns[i]? = m.conns[i]?) := by
    intro pre
    induction pre with
    | nil =>
      intro post a m _ hc
      rw [List.nil_append]
      unfold each
      rw [poisoned_pollConnection C checks a m idx w cl hc hp]
      exact ⟨⟨_, rfl⟩, fun _ _ => rfl⟩
    | cons j pre ih =>
      intro post a m hpre hc
      have hj : j < idx := hpre j (by simp)
      rw [List.cons_append]
      unfold each
      dsimp only
      cases hr : (m.pollConnection C checks a j w).res with
      | error f =>
        dsimp only
        exact ⟨⟨f, hr⟩, fun i hi => hother a m j i (by omega)⟩
      | ok u =>
        dsimp only
        obtain ⟨h1, h2⟩ := ih post (m.pollConnection C checks a j w).app (m.pollConnection C checks a j w).mgr (fun x hx => hpre x (by simp [hx]))
          (by rw [hother a m j idx (by omega)]; exact hc)
        exact ⟨h1, fun i hi => by rw [h2 i hi]; exact hother a m j i (by omega)⟩
  have hlt := (List.getElem?_eq_some_iff.mp hc).1
  have hrange : List.range m.conns.length = List.range idx ++ idx :: (List.range' (idx + 1) (m.conns.length - idx - 1)) := by
    rw [List.range_eq_range', List.range_eq_range']
    have : m.conns.length = idx + (1 + (m.conns.length - idx - 1)) := by omega
    conv => lhs; rw [this]
    rw [← List.range'_append_1, ← List.range'_append_1]
    simp
  unfold pollConnections
  rw [hrange]
  exact main _ _ a m (fun j hj => List.mem_range.mp hj) hc
