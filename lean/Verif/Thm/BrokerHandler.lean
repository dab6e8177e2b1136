import Verif.Model.BrokerHandler
import Verif.Thm.BrokerSocket
/- C129: the end of the privileged broker process. -/
namespace Verif.Broker
variable {σ : Type} {inner : Inner σ}

/-! ### Steps -/

inductive SStep (inner : Inner σ) (s : Sock σ) : Act → Sock σ → Prop
  | accept (i : Nat) : s.phase i = .fresh → SStep inner s (.accept i) (s.setPhase i .reading)
  | arrive (i : Nat) (m : Bytes) : SStep inner s (.arrive i m) { s with inbox := s.inbox ++ [(i, m)] }
  | long (i : Nat) (m : Bytes) : s.phase i = .reading → (i, m) ∈ s.inbox → SStep inner s (.take i) (s.setPhase i .closed)
  | take (i : Nat) (m : Bytes) : s.phase i = .reading → (i, m) ∈ s.inbox →
      SStep inner s (.take i) { s.setPhase i .waiting with inbox := s.inbox.eraseP (fun x => x.1 = i), queue := s.queue ++ [(i, m)] }
  | hangup (i : Nat) : s.phase i = .reading → SStep inner s (.hangup i) (s.setPhase i .closed)
  | forward (i : Nat) (m : Bytes) (q : List (Nat × Bytes)) : s.worker = .idle → s.queue = (i, m) :: q → SStep inner s .forward { s with worker := .sent i m, queue := q }
  | silent (i : Nat) (m : Bytes) (x : σ) : s.worker = .sent i m → SStep inner s .backend { s with worker := .silent i, state := x }
  | answer (i : Nat) (m r : Bytes) (x : σ) : s.worker = .sent i m → SStep inner s .backend { s with worker := .answered i r, state := x }
  | reply (i : Nat) (r : Bytes) : s.worker = .answered i r → SStep inner s .reply { s.setPhase i (.replied r) with worker := .idle }
  | deliver (i : Nat) (r : Bytes) : s.phase i = .replied r → SStep inner s (.deliver i true) { s.setPhase i .reading with out := s.out ++ [(i, r)] }
  | lose (i : Nat) (r : Bytes) : s.phase i = .replied r → SStep inner s (.deliver i false) (s.setPhase i .closed)

theorem find_client {i : Nat} {l : List (Nat × Bytes)} {x : Nat × Bytes} (h : l.find? (fun x => x.1 = i) = some x) : x.1 = i ∧ x ∈ l :=
  ⟨by simpa using List.find?_some h, List.mem_of_find?_eq_some h⟩

theorem sstep {s s' : Sock σ} {a : Act} (h : s.step inner a = some s') : SStep inner s a s' := by
  cases a with
  | accept i =>
    simp only [Sock.step] at h
    split at h
    · rename_i g; cases h; exact .accept i g
    · cases h
  | arrive i m => cases h; exact .arrive i m
  | take i =>
    simp only [Sock.step] at h
    split at h
    · rename_i g
      split at h
      · cases h
      · rename_i j m hf
        obtain ⟨rfl, hm⟩ := find_client hf
        split at h
        · cases h; exact .long _ m g hm
        · split at h
          · cases h; exact .take _ m g hm
          · cases h
    · cases h
  | hangup i =>
    simp only [Sock.step] at h
    split at h
    · rename_i g; cases h; exact .hangup i g
    · cases h
  | forward =>
    simp only [Sock.step] at h
    split at h
    · rename_i i m q g1 g2; cases h; exact .forward i m q g1 g2
    · cases h
  | backend =>
    simp only [Sock.step] at h
    split at h
    · rename_i i m g
      split at h
      · cases h; exact .silent i m _ g
      · rename_i r _; cases h; exact .answer i m r _ g
    · cases h
  | reply =>
    simp only [Sock.step] at h
    split at h
    · rename_i i r g; cases h; exact .reply i r g
    · cases h
  | deliver i ok =>
    simp only [Sock.step] at h
    split at h
    · rename_i r g
      cases ok with
      | true => rw [if_pos rfl] at h; cases h; exact .deliver i r g
      | false => rw [if_neg Bool.false_ne_true] at h; cases h; exact .lose i r g
    · cases h

inductive HStep (inner : Inner σ) (h : Handler σ) : HEv → Handler σ → Prop
  | task (a : Act) (s' : Sock σ) : h.s.step inner a = some s' → (a = .backend → h.priv = true) → (a = .reply → h.work = true) → (∀ i, a = .take i → h.work = true) →
      (∀ i, a = .accept i → h.listening = true) → (a = .forward → h.work = true) → HStep inner h (.act a) (h.with s')
  | refused (i : Nat) (m : Bytes) : h.work = false → h.s.phase i = .reading → (i, m) ∈ h.s.inbox → HStep inner h (.act (.take i)) (h.with (h.s.setPhase i .closed))
  | privEnds : h.priv = true → HStep inner h .privEnds { h with priv := false }
  | fail : h.work = true → h.priv = false → HStep inner h .fail { h with work := false, s := { h.s with queue := [], worker := .idle } }
  | notice (i : Nat) : h.work = false → h.s.phase i = .waiting → HStep inner h (.notice i) (h.with (h.s.setPhase i .closed))
  | acceptFails : h.listening = true → HStep inner h .acceptFails { h with up := false }

theorem hstep {h h' : Handler σ} {e : HEv} (hs : h.step inner e = some h') : h.up = true ∧ HStep inner h e h' := by
  unfold Handler.step at hs
  split at hs
  · rename_i hu
    refine ⟨hu, ?_⟩
    cases e with
    | act a =>
      cases a with
      | accept i =>
        dsimp only at hs
        split at hs
        · rename_i g
          obtain ⟨s', h1, rfl⟩ := Option.map_eq_some_iff.mp hs
          exact .task _ _ h1 nofun nofun nofun (fun _ _ => g) nofun
        · cases hs
      | take i =>
        dsimp only at hs
        split at hs
        · rename_i g
          obtain ⟨s', h1, rfl⟩ := Option.map_eq_some_iff.mp hs
          exact .task _ _ h1 nofun nofun (fun _ _ => g) nofun nofun
        · rename_i g
          split at hs
          · rename_i g2
            split at hs
            · cases hs
            · rename_i x hf
              obtain ⟨rfl, hm⟩ := find_client hf
              cases hs
              exact .refused _ x.2 (by simpa using g) g2 hm
          · cases hs
      | forward =>
        dsimp only at hs
        split at hs
        · rename_i g
          rw [Bool.and_eq_true] at g
          obtain ⟨s', h1, rfl⟩ := Option.map_eq_some_iff.mp hs
          exact .task _ _ h1 nofun nofun nofun nofun (fun _ => g.1)
        · cases hs
      | backend =>
        dsimp only at hs
        split at hs
        · rename_i g
          obtain ⟨s', h1, rfl⟩ := Option.map_eq_some_iff.mp hs
          exact .task _ _ h1 (fun _ => g) nofun nofun nofun nofun
        · cases hs
      | reply =>
        dsimp only at hs
        split at hs
        · rename_i g
          obtain ⟨s', h1, rfl⟩ := Option.map_eq_some_iff.mp hs
          exact .task _ _ h1 nofun (fun _ => g) nofun nofun nofun
        · cases hs
      | arrive i m =>
        obtain ⟨s', h1, rfl⟩ := Option.map_eq_some_iff.mp hs
        exact .task _ _ h1 nofun nofun nofun nofun nofun
      | hangup i =>
        obtain ⟨s', h1, rfl⟩ := Option.map_eq_some_iff.mp hs
        exact .task _ _ h1 nofun nofun nofun nofun nofun
      | deliver i ok =>
        obtain ⟨s', h1, rfl⟩ := Option.map_eq_some_iff.mp hs
        exact .task _ _ h1 nofun nofun nofun nofun nofun
    | privEnds =>
      dsimp only at hs
      split at hs
      · rename_i g; cases hs; exact .privEnds g
      · cases hs
    | fail =>
      dsimp only at hs
      split at hs
      · rename_i g
        simp only [Bool.and_eq_true, Bool.not_eq_true'] at g
        cases hs; exact .fail g.1.1 g.1.2
      · cases hs
    | notice i =>
      dsimp only at hs
      split at hs
      · rename_i g
        simp only [Bool.and_eq_true, Bool.not_eq_true', decide_eq_true_eq] at g
        cases hs; exact .notice i g.1 g.2
      · cases hs
    | acceptFails =>
      dsimp only at hs
      split at hs
      · rename_i g; cases hs; exact .acceptFails g
      · cases hs
  · cases hs

theorem hrun_inv {P : Handler σ → Prop} (hP : ∀ h e h', P h → h.step inner e = some h' → P h') {es : List HEv} : ∀ {h h' : Handler σ}, P h → h.run inner es = some h' → P h' := by
  induction es with
  | nil => intro h h' hp hr; cases hr; exact hp
  | cons e es ih =>
    intro h h' hp hr
    unfold Handler.run at hr
    cases hs : h.step inner e with
    | none => rw [hs] at hr; cases hr
    | some h1 => rw [hs] at hr; exact ih (hP _ _ _ hp hs) hr

theorem run_append_h (es es' : List HEv) : ∀ h : Handler σ, h.run inner (es ++ es') = (h.run inner es).bind (fun h => h.run inner es') := by
  induction es with
  | nil => intro h; rfl
  | cons e es ih =>
    intro h
    show Handler.run inner h (e :: (es ++ es')) = _
    rw [Handler.run, Handler.run]
    cases h.step inner e with
    | none => rfl
    | some h1 => exact ih h1

/-! ### Who waits for what -/

/-- clients whose request is on its way -/
def Sock.under (s : Sock σ) : List Nat := s.worker.owner.toList ++ s.queue.map (·.1)

structure Tidy (h : Handler σ) : Prop where
  wait : ∀ i ∈ h.s.under, h.s.phase i = .waiting
  once : h.s.under.Nodup
  known : h.work = true → ∀ i, h.s.phase i = .waiting → i ∈ h.s.under
  main : h.listening = false → h.s.phase 0 ≠ .fresh ∧ (h.up = true → h.s.phase 0 ≠ .closed)
  gone : h.work = false → h.s.under = [] ∧ h.priv = false

theorem phase_set (s : Sock σ) (k : Nat) (p : Phase) (j : Nat) : (s.setPhase k p).phase j = if j = k then p else s.phase j := rfl

/-- a client that is not under way changes its phase, not to waiting -/
theorem Tidy.set {h : Handler σ} (t : Tidy h) {k : Nat} {p : Phase} (hk : h.s.phase k ≠ .waiting) (hp : p ≠ .waiting) (hf : p ≠ .fresh) : Tidy (h.with (h.s.setPhase k p)) := by
  refine ⟨?_, t.once, ?_, ?_, t.gone⟩
  · intro i hi
    have := t.wait i hi
    show (if i = k then p else h.s.phase i) = _
    rw [if_neg (by rintro rfl; exact hk this)]; exact this
  · intro hw i hi
    change (if i = k then p else h.s.phase i) = _ at hi
    split at hi
    · exact absurd hi hp
    · exact t.known hw i hi
  · intro hl
    refine ⟨?_, ?_⟩
    · show (if 0 = k then p else h.s.phase 0) ≠ _
      split
      · exact hf
      · exact (t.main hl).1
    · intro hu
      have hl' : h.listening = false := hl
      change (h.listening || decide _) = true at hu
      rw [hl', Bool.false_or, decide_eq_true_eq] at hu
      exact hu

theorem with_up {h : Handler σ} {s : Sock σ} (hl : h.listening = false) (hu : (h.with s).up = true) : s.phase 0 ≠ .closed := by
  change (h.listening || decide _) = true at hu
  rw [hl, Bool.false_or, decide_eq_true_eq] at hu
  exact hu

theorem tidy_step (h : Handler σ) (e : HEv) (h' : Handler σ) (t : Tidy h) (hs : h.step inner e = some h') : Tidy h' := by
  obtain ⟨hup, hs⟩ := hstep hs
  cases hs with
  | task a s' h1 hb hr ht ha hfw =>
    cases sstep h1 with
    | accept i g => exact t.set (by rw [g]; exact nofun) nofun nofun
    | arrive i m => exact ⟨t.wait, t.once, t.known, fun hl => ⟨(t.main hl).1, fun hu => with_up hl hu⟩, t.gone⟩
    | long i m g hm => exact t.set (by rw [g]; exact nofun) nofun nofun
    | take i m g hm =>
      have hw := ht i rfl
      have hi : i ∉ h.s.under := fun x => by have := t.wait i x; rw [g] at this; cases this
      have hu : Sock.under { h.s.setPhase i .waiting with inbox := h.s.inbox.eraseP (fun x => x.1 = i), queue := h.s.queue ++ [(i, m)] } = h.s.under ++ [i] := by
        simp [Sock.under, Sock.setPhase]
      refine ⟨?_, ?_, ?_, ?_, ?_⟩
      · intro j hj
        show (if j = i then .waiting else h.s.phase j) = _
        split
        · rfl
        · rename_i hn
          rw [show (h.with _).s.under = _ from hu] at hj
          rcases List.mem_append.mp hj with hj | hj
          · exact t.wait j hj
          · exact absurd (List.mem_singleton.mp hj) hn
      · show List.Nodup _
        rw [show (h.with _).s.under = _ from hu, List.nodup_append]
        refine ⟨t.once, (by simp), ?_⟩
        rintro a ha b hb rfl
        exact hi (List.mem_singleton.mp hb ▸ ha)
      · intro _ j hj
        show j ∈ (h.with _).s.under
        rw [show (h.with _).s.under = _ from hu]
        change (if j = i then .waiting else h.s.phase j) = _ at hj
        split at hj
        · rename_i e; subst e; exact List.mem_append_right _ (List.mem_singleton.mpr rfl)
        · exact List.mem_append_left _ (t.known hw j hj)
      · intro hl
        refine ⟨?_, fun hu => with_up hl hu⟩
        show (if 0 = i then Phase.waiting else h.s.phase 0) ≠ _
        split
        · exact nofun
        · exact (t.main hl).1
      · intro hn; change h.work = false at hn; rw [hw] at hn; cases hn
    | hangup i g => exact t.set (by rw [g]; exact nofun) nofun nofun
    | forward i m q g1 g2 =>
      have hu : Sock.under { h.s with worker := .sent i m, queue := q } = h.s.under := by simp [Sock.under, g1, g2, Worker.owner]
      refine ⟨fun j hj => t.wait j (hu ▸ hj), (show List.Nodup (Sock.under _) from hu ▸ t.once), fun hw j hj => ?_, fun hl => ⟨(t.main hl).1, fun hu => with_up hl hu⟩, fun hn => ?_⟩
      · have := t.known hw j hj; rw [← hu] at this; exact this
      · have := hfw rfl; change h.work = false at hn; rw [this] at hn; cases hn
    | silent i m x g =>
      have hu : Sock.under { h.s with worker := .silent i, state := x } = h.s.under := by simp [Sock.under, g, Worker.owner]
      refine ⟨fun j hj => t.wait j (hu ▸ hj), (show List.Nodup (Sock.under _) from hu ▸ t.once), fun hw j hj => ?_, fun hl => ⟨(t.main hl).1, fun hu => with_up hl hu⟩, fun hn => ?_⟩
      · have := t.known hw j hj; rw [← hu] at this; exact this
      · have := (t.gone hn).1; rw [← hu] at this; exact ⟨this, (t.gone hn).2⟩
    | answer i m r x g =>
      have hu : Sock.under { h.s with worker := .answered i r, state := x } = h.s.under := by simp [Sock.under, g, Worker.owner]
      refine ⟨fun j hj => t.wait j (hu ▸ hj), (show List.Nodup (Sock.under _) from hu ▸ t.once), fun hw j hj => ?_, fun hl => ⟨(t.main hl).1, fun hu => with_up hl hu⟩, fun hn => ?_⟩
      · have := t.known hw j hj; rw [← hu] at this; exact this
      · have := (t.gone hn).1; rw [← hu] at this; exact ⟨this, (t.gone hn).2⟩
    | reply i r g =>
      have hu : h.s.under = i :: Sock.under { h.s.setPhase i (.replied r) with worker := .idle } := by simp [Sock.under, g, Worker.owner, Sock.setPhase]
      have hnd := t.once
      rw [hu, List.nodup_cons] at hnd
      refine ⟨?_, hnd.2, ?_, ?_, ?_⟩
      · intro j hj
        show (if j = i then .replied r else h.s.phase j) = _
        rw [if_neg (by rintro rfl; exact hnd.1 hj)]
        exact t.wait j (by rw [hu]; exact List.mem_cons_of_mem _ hj)
      · intro hw j hj
        change (if j = i then .replied r else h.s.phase j) = _ at hj
        split at hj
        · cases hj
        · rename_i hn
          have := t.known hw j hj
          rw [hu] at this
          exact (List.mem_cons.mp this).resolve_left hn
      · intro hl
        refine ⟨?_, fun hu => with_up hl hu⟩
        show (if 0 = i then Phase.replied r else h.s.phase 0) ≠ _
        split
        · exact nofun
        · exact (t.main hl).1
      · intro hn
        have := (t.gone hn).1
        rw [hu] at this; cases this
    | deliver i r g =>
      have := t.set (k := i) (p := .reading) (by rw [g]; exact nofun) nofun nofun
      exact ⟨this.wait, this.once, this.known, this.main, this.gone⟩
    | lose i r g => exact t.set (by rw [g]; exact nofun) nofun nofun
  | refused i m hw g hm => exact t.set (by rw [g]; exact nofun) nofun nofun
  | privEnds g => exact ⟨t.wait, t.once, t.known, t.main, fun hn => ⟨(t.gone hn).1, rfl⟩⟩
  | fail g1 g2 => exact ⟨fun i hi => (nomatch hi), List.nodup_nil, fun hw => (by cases hw), t.main, fun _ => ⟨rfl, g2⟩⟩
  | notice i hw g =>
    have hu := (t.gone hw).1
    refine ⟨fun j hj => ?_, t.once, ?_, ?_, t.gone⟩
    · change j ∈ h.s.under at hj; rw [hu] at hj; cases hj
    · intro hx; change h.work = true at hx; rw [hw] at hx; cases hx
    · intro hl
      refine ⟨?_, fun hu => with_up hl hu⟩
      show (if 0 = i then Phase.closed else h.s.phase 0) ≠ _
      split
      · exact nofun
      · exact (t.main hl).1
  | acceptFails g => exact ⟨t.wait, t.once, t.known, fun hl => (by change h.listening = false at hl; rw [g] at hl; cases hl), t.gone⟩

theorem tidy_init (listening started : Bool) (s : σ) : Tidy (Handler.init listening started s) := by
  unfold Handler.init
  cases listening with
  | true => exact ⟨fun i hi => (nomatch hi), List.nodup_nil, fun _ i hi => (by cases hi), fun hl => (by cases hl), fun hn => ⟨rfl, hn⟩⟩
  | false =>
    refine ⟨fun i hi => (nomatch hi), List.nodup_nil, fun _ i hi => ?_, fun _ => ⟨nofun, fun _ => nofun⟩, fun hn => ⟨rfl, hn⟩⟩
    change (if i = 0 then Phase.reading else .fresh) = _ at hi
    split at hi <;> cases hi

/-! ### Specification -/

/-- A handler as it can be at some time, started with a privileged broker that could be started or not. -/
def Handler.Reached (inner : Inner σ) (h : Handler σ) : Prop := ∃ listening started s0 es, (Handler.init listening started s0).run inner es = some h

/-- what the handler and the privileged broker do by themselves, as opposed to what clients and the operating system do -/
def HEv.internal : HEv → Bool
  | .act a => a.internal
  | .fail | .notice _ => true
  | _ => false

/-- nothing is left to do -/
def Handler.Quiet (inner : Inner σ) (h : Handler σ) : Prop := ∀ e, e.internal = true → h.step inner e = none

theorem Handler.Reached.tidy {h : Handler σ} (hr : h.Reached inner) : Tidy h := by
  obtain ⟨l, st, s0, es, hr⟩ := hr
  exact hrun_inv tidy_step (tidy_init l st s0) hr

/-! ### After the privileged broker has ended -/

theorem priv_stays (h : Handler σ) (e : HEv) (h' : Handler σ) (hp : h.priv = false) (hs : h.step inner e = some h') : h'.priv = false ∧ h'.s.state = h.s.state := by
  obtain ⟨_, hs⟩ := hstep hs
  cases hs with
  | task a s' h1 hb hr ht ha hfw =>
    refine ⟨hp, ?_⟩
    cases sstep h1 with
    | silent i m x g => have := hb rfl; rw [hp] at this; cases this
    | answer i m r x g => have := hb rfl; rw [hp] at this; cases this
    | _ => rfl
  | refused i m hw g hm => exact ⟨hp, rfl⟩
  | privEnds g => exact ⟨rfl, rfl⟩
  | fail g1 g2 => exact ⟨hp, rfl⟩
  | notice i hw g => exact ⟨hp, rfl⟩
  | acceptFails g => exact ⟨hp, rfl⟩

/-- **C129.** Once the privileged broker has ended no request is carried out. -/
theorem nothing_done_after_end {h h' : Handler σ} {es : List HEv} (hp : h.priv = false) (hr : h.run inner es = some h') : h'.s.state = h.s.state :=
  (hrun_inv (P := fun x => x.priv = false ∧ x.s.state = h.s.state) (fun x e x' hx hs => ⟨(priv_stays x e x' hx.1 hs).1, (priv_stays x e x' hx.1 hs).2.trans hx.2⟩) ⟨hp, rfl⟩ hr).2

/-- the answer that is on its way to client `i` -/
def Sock.due (s : Sock σ) (i : Nat) : List Bytes :=
  match s.phase i, s.worker with
  | .replied r, _ => [r]
  | .waiting, .answered j r => if j = i then [r] else []
  | _, _ => []

theorem due_of_phase {s : Sock σ} {i : Nat} (h1 : s.phase i ≠ .waiting) (h2 : ∀ r, s.phase i ≠ .replied r) : s.due i = [] := by
  unfold Sock.due
  split
  · rename_i r _ g; exact absurd g (h2 _)
  · rename_i g _; exact absurd g h1
  · rfl

theorem due_step (i : Nat) (h : Handler σ) (e : HEv) (h' : Handler σ) (t : Tidy h) (hp : h.priv = false) (hs : h.step inner e = some h') :
    ∃ l, ofClient i h.s.out ++ h.s.due i = (ofClient i h'.s.out ++ h'.s.due i) ++ l := by
  obtain ⟨_, hs⟩ := hstep hs
  -- another client's phase does not matter
  have other : ∀ (k : Nat) (p : Phase), i ≠ k → (h.s.setPhase k p).due i = h.s.due i := by
    intro k p hk
    unfold Sock.due
    rw [phase_set, if_neg hk]; rfl
  have closing : ∀ k, ∃ l, ofClient i h.s.out ++ h.s.due i = (ofClient i h.s.out ++ (h.s.setPhase k .closed).due i) ++ l := by
    intro k
    by_cases hk : i = k
    · subst hk
      refine ⟨h.s.due i, ?_⟩
      rw [due_of_phase (s := h.s.setPhase i .closed) (by rw [phase_set, if_pos rfl]; exact nofun) (by intro r; rw [phase_set, if_pos rfl]; exact nofun), List.append_nil]
    · exact ⟨[], by rw [other k _ hk, List.append_nil]⟩
  cases hs with
  | task a s' h1 hb hr ht ha hfw =>
    cases sstep h1 with
    | accept k g =>
      refine ⟨[], ?_⟩
      rw [List.append_nil]
      by_cases hk : i = k
      · subst hk
        rw [due_of_phase (s := h.s) (by rw [g]; exact nofun) (by rw [g]; exact nofun)]
        show _ = ofClient i h.s.out ++ (h.s.setPhase i .reading).due i
        rw [due_of_phase (by rw [phase_set, if_pos rfl]; exact nofun) (by intro r; rw [phase_set, if_pos rfl]; exact nofun)]
      · show _ = ofClient i h.s.out ++ (h.s.setPhase k .reading).due i
        rw [other k _ hk]
    | arrive k m => exact ⟨[], (List.append_nil _).symm⟩
    | long k m g hm => exact closing k
    | take k m g hm =>
      refine ⟨[], ?_⟩
      rw [List.append_nil]
      show _ = ofClient i h.s.out ++ Sock.due (h.s.setPhase k .waiting) i
      by_cases hk : i = k
      · subst hk
        rw [due_of_phase (s := h.s) (by rw [g]; exact nofun) (by rw [g]; exact nofun)]
        have : (h.s.setPhase i .waiting).due i = [] := by
          unfold Sock.due
          rw [phase_set, if_pos rfl]
          split
          · rename_i g2; cases g2
          · rename_i j r _ hw
            have : j ∈ h.s.under := by
              have hw : h.s.worker = .answered j r := hw
              unfold Sock.under; rw [hw]; exact List.mem_cons_self
            have hj := t.wait j this
            rw [if_neg (by rintro rfl; rw [g] at hj; cases hj)]
          · rfl
        rw [this]
      · rw [other k _ hk]
    | hangup k g => exact closing k
    | forward k m q g1 g2 =>
      refine ⟨[], ?_⟩
      rw [List.append_nil]
      have : Sock.due { h.s with worker := .sent k m, queue := q } i = h.s.due i := by
        unfold Sock.due
        cases hph : h.s.phase i <;> simp [g1]
      exact congrArg (ofClient i h.s.out ++ ·) this.symm
    | silent k m x g => have := hb rfl; rw [hp] at this; cases this
    | answer k m r x g => have := hb rfl; rw [hp] at this; cases this
    | reply k r g =>
      refine ⟨[], ?_⟩
      rw [List.append_nil]
      show _ = ofClient i h.s.out ++ Sock.due { h.s.setPhase k (.replied r) with worker := .idle } i
      have hk' := t.wait k (by unfold Sock.under; rw [g]; exact List.mem_cons_self)
      congr 1
      unfold Sock.due
      show _ = match (if i = k then Phase.replied r else h.s.phase i), Worker.idle with | .replied r, _ => [r] | .waiting, .answered j r => if j = i then [r] else [] | _, _ => []
      by_cases hk : i = k
      · subst hk
        rw [if_pos rfl, hk', g]
        simp
      · rw [if_neg hk, g]
        cases hph : h.s.phase i <;> simp
        intro e; exact absurd e.symm hk
    | deliver k r g =>
      refine ⟨[], ?_⟩
      rw [List.append_nil]
      show _ = ofClient i (h.s.out ++ [(k, r)]) ++ (h.s.setPhase k .reading).due i
      rw [ofClient_append, ofClient_one]
      by_cases hk : i = k
      · subst hk
        rw [if_pos rfl, due_of_phase (s := h.s.setPhase i .reading) (by rw [phase_set, if_pos rfl]; exact nofun) (by intro r; rw [phase_set, if_pos rfl]; exact nofun), List.append_nil]
        congr 1
        unfold Sock.due; rw [g]
      · rw [if_neg (fun e => hk e.symm), other k _ hk, List.append_nil]
    | lose k r g => exact closing k
  | refused k m hw g hm => exact closing k
  | privEnds g => exact ⟨[], (List.append_nil _).symm⟩
  | fail g1 g2 =>
    show ∃ l, _ = (ofClient i h.s.out ++ Sock.due { h.s with queue := [], worker := .idle } i) ++ l
    cases hph : h.s.phase i with
    | replied r =>
      refine ⟨[], ?_⟩
      rw [List.append_nil]
      congr 1
      unfold Sock.due; simp [hph]
    | _ =>
      refine ⟨h.s.due i, ?_⟩
      have : Sock.due { h.s with queue := [], worker := .idle } i = [] := by unfold Sock.due; simp [hph]
      rw [this, List.append_nil]
  | notice k hw g => exact closing k
  | acceptFails g => exact ⟨[], (List.append_nil _).symm⟩

/-- **C129.** A client gets no answer any more either, except the one that was on its way when the privileged broker ended. -/
theorem only_due_answers_after_end {h h' : Handler σ} {es : List HEv} (ho : h.Reached inner) (hp : h.priv = false) (hr : h.run inner es = some h') (i : Nat) :
    ofClient i h'.s.out <+: ofClient i h.s.out ++ h.s.due i := by
  have := hrun_inv (inner := inner) (P := fun x => (Tidy x ∧ x.priv = false) ∧ ∃ l, ofClient i h.s.out ++ h.s.due i = (ofClient i x.s.out ++ x.s.due i) ++ l)
    (fun x e x' hx hs => by
      obtain ⟨⟨t, p⟩, l, hl⟩ := hx
      obtain ⟨l', hl'⟩ := due_step i x e x' t p hs
      exact ⟨⟨tidy_step x e x' t hs, (priv_stays x e x' p hs).1⟩, l' ++ l, by rw [hl, hl', List.append_assoc]⟩) ⟨⟨ho.tidy, hp⟩, [], (List.append_nil _).symm⟩ hr
  obtain ⟨_, l, hl⟩ := this
  exact ⟨h'.s.due i ++ l, by rw [hl, List.append_assoc]⟩

/-- **C129.** When the handler has come to rest, no client is left waiting: -/
theorem nobody_waits_after_end {h : Handler σ} (ho : h.Reached inner) (hp : h.priv = false) (hu : h.up = true) (hq : h.Quiet inner) (i : Nat) :
    h.s.phase i ≠ .waiting ∧ (∀ r, h.s.phase i ≠ .replied r) ∧ (h.s.phase i = .reading → ∀ m, (i, m) ∉ h.s.inbox) := by
  have t := ho.tidy
  have hnw : h.s.phase i ≠ .waiting := by
    intro hph
    cases hw : h.work with
    | false =>
      have := hq (.notice i) rfl
      unfold Handler.step at this
      rw [if_pos hu] at this
      dsimp only at this
      rw [hw, hph] at this
      cases this
    | true =>
      have hf := hq .fail rfl
      have hr := hq (.act .reply) rfl
      unfold Handler.step at hf hr
      rw [if_pos hu] at hf hr
      dsimp only at hf hr
      rw [hw, hp] at hf
      rw [if_pos hw] at hr
      have hin := t.known hw i hph
      unfold Sock.under at hin
      cases hk : h.s.worker with
      | idle =>
        rw [hk] at hin
        cases hqu : h.s.queue with
        | nil => rw [hqu] at hin; cases hin
        | cons x q => simp [Sock.needs, hk, hqu] at hf
      | sent j m => simp [Sock.needs, hk] at hf
      | silent j => simp [Sock.needs, hk] at hf
      | answered j r => simp [Sock.step, hk] at hr
  refine ⟨hnw, ?_, ?_⟩
  · intro r hph
    have := hq (.act (.deliver i true)) rfl
    unfold Handler.step at this
    rw [if_pos hu] at this
    simp [Sock.step, hph] at this
  · intro hph m hm
    have hfind : ∃ x, h.s.inbox.find? (fun x => x.1 = i) = some x := by
      cases hf : h.s.inbox.find? (fun x => x.1 = i) with
      | some x => exact ⟨x, rfl⟩
      | none => exact absurd (List.find?_eq_none.mp hf (i, m) hm) (by simp)
    obtain ⟨x, hx⟩ := hfind
    have htk := hq (.act (.take i)) rfl
    unfold Handler.step at htk
    rw [if_pos hu] at htk
    dsimp only at htk
    cases hw : h.work with
    | false =>
      rw [hw, if_neg Bool.false_ne_true, if_pos hph, hx] at htk
      cases htk
    | true =>
      rw [if_pos hw, Option.map_eq_none_iff] at htk
      simp only [Sock.step] at htk
      rw [if_pos hph, hx] at htk
      dsimp only at htk
      split at htk
      · cases htk
      · rename_i hlen
        split at htk
        · cases htk
        · rename_i hfull
          -- the queue is full, so the worker has something to do
          have hf := hq .fail rfl
          have hr := hq (.act .reply) rfl
          unfold Handler.step at hf hr
          rw [if_pos hu] at hf hr
          dsimp only at hf hr
          rw [hw, hp] at hf
          rw [if_pos hw] at hr
          have hqn : h.s.queue ≠ [] := by intro e; rw [e] at hfull; exact hfull (by decide)
          cases hk : h.s.worker with
          | idle =>
            cases hqu : h.s.queue with
            | nil => exact hqn hqu
            | cons x q => simp [Sock.needs, hk, hqu] at hf
          | sent j m => simp [Sock.needs, hk] at hf
          | silent j => simp [Sock.needs, hk] at hf
          | answered j r => simp [Sock.step, hk] at hr

/-- client `i` will not be served -/
def Sock.Doomed (s : Sock σ) (i : Nat) : Prop := (∃ m, (i, m) ∈ s.inbox) ∨ s.phase i = .closed ∨ (s.phase i = .waiting ∧ ∀ r, s.worker ≠ .answered i r)

theorem doomed_step (i : Nat) (h : Handler σ) (e : HEv) (h' : Handler σ) (t : Tidy h) (hp : h.priv = false) (hs : h.step inner e = some h') (hd : h.s.Doomed i) : h'.s.Doomed i := by
  obtain ⟨_, hs⟩ := hstep hs
  -- a change of phase of another client, or to closed
  have set : ∀ (k : Nat) (p : Phase), (i = k → p = .closed ∨ (h.s.phase i ≠ .waiting ∧ h.s.phase i ≠ .closed)) → (h.s.setPhase k p).Doomed i := by
    intro k p hk
    by_cases e : i = k
    · rcases hk e with rfl | ⟨g1, g2⟩
      · exact .inr (.inl (by rw [phase_set, if_pos e]))
      · rcases hd with hd | hd | hd
        · exact .inl hd
        · exact absurd hd g2
        · exact absurd hd.1 g1
    · rcases hd with hd | hd | hd
      · exact .inl hd
      · exact .inr (.inl (by rw [phase_set, if_neg e]; exact hd))
      · exact .inr (.inr ⟨by rw [phase_set, if_neg e]; exact hd.1, hd.2⟩)
  cases hs with
  | task a s' h1 hb hr ht ha hfw =>
    cases sstep h1 with
    | accept k g => exact set k _ (fun e => .inr ⟨by rw [e, g]; exact nofun, by rw [e, g]; exact nofun⟩)
    | arrive k m =>
      rcases hd with ⟨x, hd⟩ | hd | hd
      · exact .inl ⟨x, List.mem_append_left _ hd⟩
      · exact .inr (.inl hd)
      · exact .inr (.inr hd)
    | long k m g hm => exact set k _ (fun _ => .inl rfl)
    | take k m g hm =>
      by_cases e : i = k
      · subst e
        refine .inr (.inr ⟨?_, ?_⟩)
        · show (if i = i then Phase.waiting else _) = _; rw [if_pos rfl]
        · intro r hw
          change h.s.worker = _ at hw
          have := t.wait i (by unfold Sock.under; rw [hw]; exact List.mem_cons_self)
          rw [g] at this; cases this
      · rcases hd with ⟨x, hd⟩ | hd | hd
        · refine .inl ⟨x, ?_⟩
          show (i, x) ∈ h.s.inbox.eraseP _
          exact (List.mem_eraseP_of_neg (by simpa using e)).mpr hd
        · exact .inr (.inl (by show (if i = k then Phase.waiting else _) = _; rw [if_neg e]; exact hd))
        · exact .inr (.inr ⟨by show (if i = k then Phase.waiting else _) = _; rw [if_neg e]; exact hd.1, hd.2⟩)
    | hangup k g => exact set k _ (fun _ => .inl rfl)
    | forward k m q g1 g2 =>
      rcases hd with hd | hd | hd
      · exact .inl hd
      · exact .inr (.inl hd)
      · exact .inr (.inr ⟨hd.1, nofun⟩)
    | silent k m x g => have := hb rfl; rw [hp] at this; cases this
    | answer k m r x g => have := hb rfl; rw [hp] at this; cases this
    | reply k r g =>
      have hk := t.wait k (by unfold Sock.under; rw [g]; exact List.mem_cons_self)
      rcases hd with hd | hd | hd
      · exact .inl hd
      · refine .inr (.inl ?_)
        show (if i = k then Phase.replied r else _) = _
        rw [if_neg (by rintro rfl; rw [hk] at hd; cases hd)]; exact hd
      · refine .inr (.inr ⟨?_, nofun⟩)
        show (if i = k then Phase.replied r else _) = _
        rw [if_neg (by rintro rfl; exact hd.2 r g)]; exact hd.1
    | deliver k r g => exact set k .reading (fun e => .inr ⟨by rw [e, g]; exact nofun, by rw [e, g]; exact nofun⟩)
    | lose k r g => exact set k _ (fun _ => .inl rfl)
  | refused k m hw g hm => exact set k _ (fun _ => .inl rfl)
  | privEnds g => exact hd
  | fail g1 g2 =>
    rcases hd with hd | hd | hd
    · exact .inl hd
    · exact .inr (.inl hd)
    · exact .inr (.inr ⟨hd.1, nofun⟩)
  | notice k hw g => exact set k _ (fun _ => .inl rfl)
  | acceptFails g => exact hd

theorem doomed_run {es : List HEv} {i : Nat} {m : Bytes} (he : .act (.arrive i m) ∈ es) : ∀ {h h' : Handler σ}, Tidy h → h.priv = false → h.run inner es = some h' → h'.s.Doomed i := by
  induction es with
  | nil => cases he
  | cons e es ih =>
    intro h h' t hp hr
    unfold Handler.run at hr
    cases hs : h.step inner e with
    | none => rw [hs] at hr; cases hr
    | some h1 =>
      rw [hs] at hr
      have t1 := tidy_step _ _ _ t hs
      have p1 := (priv_stays _ _ _ hp hs).1
      rcases List.mem_cons.mp he with he | he
      · subst he
        have hd1 : h1.s.Doomed i := by
          obtain ⟨_, hs⟩ := hstep hs
          cases hs with
          | task a s' g =>
            cases sstep g with
            | arrive => exact .inl ⟨m, List.mem_append_right _ (List.mem_singleton.mpr rfl)⟩
        exact (hrun_inv (inner := inner) (P := fun x => (Tidy x ∧ x.priv = false) ∧ x.s.Doomed i) (fun x e x' hx hs =>
          ⟨⟨tidy_step x e x' hx.1.1 hs, (priv_stays x e x' hx.1.2 hs).1⟩, doomed_step i x e x' hx.1.1 hx.1.2 hs hx.2⟩) ⟨⟨t1, p1⟩, hd1⟩ hr).2
      · exact ih he t1 p1 hr

/-- **C129.** … and every client that has sent something since the end has learned of it: its connection has been closed (a client that was never accepted excepted). -/
theorem clients_learn_of_end {h h' : Handler σ} {es : List HEv} (ho : h.Reached inner) (hp : h.priv = false) (hr : h.run inner es = some h') {i : Nat} {m : Bytes}
    (he : .act (.arrive i m) ∈ es) (hq : h'.Quiet inner) : h'.up = false ∨ h'.s.phase i = .closed ∨ h'.s.phase i = .fresh := by
  have hd := doomed_run he ho.tidy hp hr
  cases hu : h'.up with
  | false => exact .inl rfl
  | true =>
    refine .inr ?_
    have ho' : h'.Reached inner := by
      obtain ⟨l, st, s0, es0, h0⟩ := ho
      exact ⟨l, st, s0, es0 ++ es, by rw [run_append_h, h0]; exact hr⟩
    obtain ⟨g1, g2, g3⟩ := nobody_waits_after_end ho' (hrun_inv (P := fun x => x.priv = false) (fun x e x' hx hs => (priv_stays x e x' hx hs).1) hp hr) hu hq i
    cases hph : h'.s.phase i with
    | fresh => exact .inr rfl
    | closed => exact .inl rfl
    | waiting => exact absurd hph g1
    | replied r => exact absurd hph (g2 r)
    | reading =>
      rcases hd with ⟨x, hd⟩ | hd | hd
      · exact absurd hd (g3 hph x)
      · rw [hph] at hd; cases hd
      · rw [hph] at hd; cases hd.1

/-- **C129** (the part that holds). If the handler serves the one stream it was given, it ends itself as soon as it is asked for something. -/
theorem stream_handler_ends_partial {h h' : Handler σ} {es : List HEv} (ho : h.Reached inner) (hl : h.listening = false) (hp : h.priv = false) (hr : h.run inner es = some h') {m : Bytes}
    (he : .act (.arrive 0 m) ∈ es) (hq : h'.Quiet inner) : h'.up = false := by
  have t' : Tidy h' ∧ h'.listening = false := hrun_inv (inner := inner) (P := fun x => Tidy x ∧ x.listening = false)
    (fun x e x' hx hs => ⟨tidy_step x e x' hx.1 hs, by obtain ⟨_, hs⟩ := hstep hs; cases hs <;> exact hx.2⟩) ⟨ho.tidy, hl⟩ hr
  rcases clients_learn_of_end ho hp hr he hq with g | g | g
  · exact g
  · cases hu : h'.up with
    | false => rfl
    | true => exact absurd g ((t'.1.main t'.2).2 hu)
  · exact absurd g (t'.1.main t'.2).1

/-- **C129** (counterexample). A listening handler does not end: whatever happens, as long as `accept` does not fail it runs, also if its privileged broker has ended or could not be
started at all, and can never be of use again. -/
theorem listening_handler_stays {es : List HEv} : ∀ {h h' : Handler σ}, h.listening = true → h.up = true → .acceptFails ∉ es → h.run inner es = some h' → h'.up = true := by
  induction es with
  | nil => intro h h' _ hu _ hr; cases hr; exact hu
  | cons e es ih =>
    intro h h' hl hu he hr
    unfold Handler.run at hr
    cases hs : h.step inner e with
    | none => rw [hs] at hr; cases hr
    | some h1 =>
      rw [hs] at hr
      obtain ⟨_, hs⟩ := hstep hs
      have : h1.listening = true ∧ h1.up = true := by
        cases hs with
        | task a s' => exact ⟨hl, by show (h.listening || _) = true; rw [hl]; rfl⟩
        | refused => exact ⟨hl, by show (h.listening || _) = true; rw [hl]; rfl⟩
        | privEnds => exact ⟨hl, hu⟩
        | fail => exact ⟨hl, hu⟩
        | notice => exact ⟨hl, by show (h.listening || _) = true; rw [hl]; rfl⟩
        | acceptFails => exact absurd List.mem_cons_self he
      exact ih this.1 this.2 (fun x => he (List.mem_cons_of_mem _ x)) hr

/-! ### It comes to rest -/

/-- Specification: connections made, counting the given stream. -/
def hAccepts : List HEv → Nat
  | [] => 0
  | .act (.accept _) :: es => hAccepts es + 1
  | _ :: es => hAccepts es

def hArrivals : List HEv → Nat
  | [] => 0
  | .act (.arrive _ _) :: es => hArrivals es + 1
  | _ :: es => hArrivals es

def HEv.adds : HEv → Nat
  | .act a => a.adds
  | _ => 0

def Handler.work' (h : Handler σ) (n : Nat) : Nat := h.s.work n + (if h.work then 1 else 0)

theorem hstep_work (n : Nat) (h : Handler σ) (e : HEv) (h' : Handler σ) (t : Tidy h) (hn : ∀ i, n ≤ i → h.s.phase i = .fresh) (hacc : ∀ i, e = .act (.accept i) → i < n)
    (hs : h.step inner e = some h') : (∀ i, n ≤ i → h'.s.phase i = .fresh) ∧ h'.work' n + (if e.internal = true then 1 else 0) ≤ h.work' n + e.adds := by
  obtain ⟨_, hs⟩ := hstep hs
  have close : ∀ k, h.s.phase k = .reading ∨ h.s.phase k = .waiting →
      (∀ i, n ≤ i → (h.s.setPhase k .closed).phase i = .fresh) ∧ (h.s.setPhase k .closed).work n + 1 ≤ h.s.work n := by
    intro k hk
    have hlt : k < n := Nat.lt_of_not_le (fun x => by have := hn k x; rcases hk with hk | hk <;> rw [hk] at this <;> cases this)
    refine ⟨?_, ?_⟩
    · intro i hi
      rw [phase_set, if_neg (by omega)]; exact hn i hi
    · have := setPhase_weight h.s k n .closed hlt
      unfold Sock.work
      show 5 * h.s.inbox.length + 4 * h.s.queue.length + h.s.worker.weight + _ + 1 ≤ _
      rcases hk with hk | hk <;> rw [hk] at this <;> simp only [Phase.weight] at this ⊢ <;> omega
  cases hs with
  | task a s' h1 hb hr ht ha hfw =>
    have hwt : ∀ i r, h.s.worker = .answered i r → h.s.phase i = .waiting := fun i r hw => t.wait i (by unfold Sock.under; rw [hw]; exact List.mem_cons_self)
    obtain ⟨g1, g2⟩ := step_work inner n h.s s' a hn (fun i hi => hacc i (by rw [hi])) hwt h1
    refine ⟨g1, ?_⟩
    show s'.work n + (if h.work then 1 else 0) + (if a.internal = true then 1 else 0) ≤ h.s.work n + (if h.work then 1 else 0) + a.adds
    omega
  | refused k m hw g hm =>
    obtain ⟨g1, g2⟩ := close k (.inl g)
    refine ⟨g1, ?_⟩
    show (h.s.setPhase k .closed).work n + (if h.work then 1 else 0) + 1 ≤ h.s.work n + (if h.work then 1 else 0) + 0
    omega
  | privEnds g => exact ⟨hn, Nat.le_refl _⟩
  | fail g1 g2 =>
    refine ⟨hn, ?_⟩
    show Sock.work { h.s with queue := [], worker := .idle } n + 0 + 1 ≤ h.s.work n + (if h.work then 1 else 0) + 0
    rw [if_pos g1]
    have : Sock.work { h.s with queue := [], worker := .idle } n ≤ h.s.work n := by
      unfold Sock.work
      show 5 * h.s.inbox.length + 4 * 0 + 0 + sumTo (fun i => (h.s.phase i).weight) n ≤ _
      omega
    omega
  | notice k hw g =>
    obtain ⟨g1, g2⟩ := close k (.inr g)
    refine ⟨g1, ?_⟩
    show (h.s.setPhase k .closed).work n + (if h.work then 1 else 0) + 1 ≤ h.s.work n + (if h.work then 1 else 0) + 0
    omega
  | acceptFails g => exact ⟨hn, Nat.le_refl _⟩

theorem hrun_work (n : Nat) {es : List HEv} : ∀ {h h' : Handler σ}, Tidy h → (∀ i, n ≤ i → h.s.phase i = .fresh) → (∀ i, .act (.accept i) ∈ es → i < n) → h.run inner es = some h' →
    h'.work' n + (es.filter (·.internal)).length ≤ h.work' n + 5 * hArrivals es + hAccepts es := by
  induction es with
  | nil => intro h h' _ _ _ hr; cases hr; exact Nat.le_refl _
  | cons e es ih =>
    intro h h' t hn ha hr
    unfold Handler.run at hr
    cases hs : h.step inner e with
    | none => rw [hs] at hr; cases hr
    | some h1 =>
      rw [hs] at hr
      obtain ⟨g1, g2⟩ := hstep_work n h e h1 t hn (fun i hi => ha i (by rw [hi]; exact List.mem_cons_self)) hs
      have := ih (tidy_step _ _ _ t hs) g1 (fun i hi => ha i (List.mem_cons_of_mem _ hi)) hr
      have hl : ((e :: es).filter (·.internal)).length = (if e.internal = true then 1 else 0) + (es.filter (·.internal)).length := by
        by_cases x : e.internal = true
        · rw [List.filter_cons_of_pos x, if_pos x, List.length_cons]; exact Nat.add_comm _ _
        · rw [List.filter_cons_of_neg x, if_neg x]; exact (Nat.zero_add _).symm
      have hk : e.adds + 5 * hArrivals es + hAccepts es = 5 * hArrivals (e :: es) + hAccepts (e :: es) := by
        cases e with
        | act a => cases a <;> simp only [HEv.adds, Act.adds, hArrivals, hAccepts] <;> omega
        | _ => simp only [HEv.adds, hArrivals, hAccepts] <;> omega
      rw [hl]
      omega

/-- **C129.** The state of rest is reached: with or without its privileged broker, the handler makes no more than five steps for a message, one for a connection and two more. -/
theorem handler_rests {h : Handler σ} {listening started : Bool} {s0 : σ} {es : List HEv} (hr : (Handler.init listening started s0).run inner es = some h) :
    (es.filter (·.internal)).length ≤ 5 * hArrivals es + hAccepts es + 2 := by
  obtain ⟨n, hn0, hn⟩ : ∃ n, 0 < n ∧ ∀ i, .act (.accept i) ∈ es → i < n := by
    clear hr
    induction es with
    | nil => exact ⟨1, by omega, fun i h => (nomatch h)⟩
    | cons x l ih =>
      obtain ⟨n, h0, hn⟩ := ih
      refine ⟨max n ((match x with | .act (.accept i) => i | _ => 0) + 1), by omega, fun i hi => ?_⟩
      rcases List.mem_cons.1 hi with rfl | hi
      · dsimp only; omega
      · have := hn i hi; omega
  have hw := hrun_work n (tidy_init listening started s0) (by
    intro i hi
    unfold Handler.init
    cases listening with
    | true => rfl
    | false => show (if i = 0 then Phase.reading else .fresh) = _; rw [if_neg (by omega)]) hn hr
  have h0 : ∀ m, sumTo (fun i => ((Sock.init s0).phase i).weight) m = 0 := by
    intro m
    induction m with
    | zero => rfl
    | succ m ih => unfold sumTo; rw [ih]; rfl
  have hi : (Handler.init listening started s0).work' n ≤ 2 := by
    unfold Handler.work' Handler.init
    cases listening with
    | true =>
      unfold Sock.work
      show 5 * 0 + 4 * 0 + 0 + sumTo (fun i => ((Sock.init s0).phase i).weight) n + _ ≤ 2
      rw [h0 n]; dsimp only; split <;> omega
    | false =>
      unfold Sock.work
      have := setPhase_weight (Sock.init s0) 0 n .reading hn0
      rw [h0 n] at this
      show 5 * 0 + 4 * 0 + 0 + sumTo (fun i => (((Sock.init s0).setPhase 0 .reading).phase i).weight) n + _ ≤ 2
      have hf : ((Sock.init s0).phase 0).weight = 0 := rfl
      rw [hf] at this
      simp only [Phase.weight] at this ⊢
      split <;> omega
  omega

/-! ### Concrete runs -/
namespace HandlerEx
open SockEx

/-- One request is served, then the privileged broker ends. Nobody notices, until client 0 makes another request: its connection is closed, also that of client 1, who waits in the
queue. Client 2 is still accepted, and turned away when it makes a request. -/
def evs : List HEv :=
  [.act (.accept 0), .act (.arrive 0 req), .act (.take 0), .act .forward, .act .backend, .act .reply, .act (.deliver 0 true), .privEnds, .act (.accept 1), .act (.arrive 0 req),
   .act (.arrive 1 req2), .act (.take 0), .act (.take 1), .fail, .notice 1, .notice 0, .act (.accept 2), .act (.arrive 2 req), .act (.take 2)]

set_option maxRecDepth 20000 in
example : ((Handler.init true true []).run keeper evs).map (fun h => (h.up, h.priv, [h.s.phase 0, h.s.phase 1, h.s.phase 2], h.s.out.length, h.s.state.length)) =
    some (true, false, [.closed, .closed, .closed], 1, 1) := by decide +kernel

/-- With one given stream the handler ends. -/
def evs1 : List HEv := [.privEnds, .act (.arrive 0 req), .act (.take 0), .fail, .notice 0]

set_option maxRecDepth 20000 in
example : ((Handler.init false true []).run keeper evs1).map (fun h => (h.up, h.s.phase 0)) = some (false, .closed) := by decide +kernel

end HandlerEx
end Verif.Broker
