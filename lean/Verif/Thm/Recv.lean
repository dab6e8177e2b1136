import Verif.Model.Recv
import Verif.Thm.AppHist
/-
Receiving: load detection (C50), when the server blocks (C71), delivery of datagrams (C72), starvation (C73).
-/
namespace Verif
namespace Recv

/-! ### C50: load detection -/

/-- **Specification**: did this call wait in a blocking poll? -/
def _root_.Verif.PollKind.blocks : PollKind → Option (List (List Dgram))
  | .blocked w => some w
  | .failed w => w
  | _ => none

/-- the poll failed -/
def _root_.Verif.PollKind.isFailed : PollKind → Bool
  | .failed _ => true
  | _ => false

/-- **Specification**: in this period more polls found events at once than had to wait; or there was no poll
at all because there was always something left to do. -/
def Heavy (w : List PollKind) : Prop :=
  w.countP (fun k => k.blocks.isSome) < w.count .busy ∨ (w.count .busy = 0 ∧ w.countP (fun k => k.blocks.isSome) = 0 ∧ 0 < w.count .unpolled)

instance (w : List PollKind) : Decidable (Heavy w) := by unfold Heavy; infer_instance

/-- **Specification**: the periods into which a sequence of calls falls: a period ends with the first call (whose
poll does not fail) more than 500 ms after the end of the period before. The last one is not yet complete. -/
def periods (t0 : Nat) (cur : List PollKind) : List (Nat × PollKind) → List (List PollKind)
  | [] => [cur]
  | (t, k) :: rest =>
    if k.isFailed = false ∧ t - t0 > 500 then (cur ++ [k]) :: periods t [] rest else periods t0 (cur ++ [k]) rest

/-- The fields of load detection. -/
def SameLoad (r r' : Recv) : Prop :=
  r'.blocking = r.blocking ∧ r'.nonBlocking = r.nonBlocking ∧ r'.unpolled = r.unpolled ∧ r'.lastUpdate = r.lastUpdate ∧ r'.underLoad = r.underLoad

theorem SameLoad.refl (r : Recv) : SameLoad r r := ⟨rfl, rfl, rfl, rfl, rfl⟩
theorem SameLoad.trans {a b c : Recv} (h : SameLoad a b) (g : SameLoad b c) : SameLoad a c :=
  ⟨g.1.trans h.1, g.2.1.trans h.2.1, g.2.2.1.trans h.2.2.1, g.2.2.2.1.trans h.2.2.2.1, g.2.2.2.2.trans h.2.2.2.2⟩

theorem recvSock_load (r : Recv) (f : Nat → Bool) (i : Nat) : SameLoad r (r.recvSock f i).2 := by
  unfold recvSock
  split
  · exact .refl _
  · split <;> exact ⟨rfl, rfl, rfl, rfl, rfl⟩

theorem recvTok_load (r : Recv) (e : RecvWorld) (t : Tok) : SameLoad r (r.recvTok e t).2 := by
  cases t with
  | sock i =>
    dsimp only [recvTok]
    split
    · have := recvSock_load r e.fail i
      generalize r.recvSock e.fail i = x at this
      obtain ⟨x, r1⟩ := x
      cases x <;> exact this
    · exact .refl _
  | signal => dsimp only [recvTok]; split <;> exact ⟨rfl, rfl, rfl, rfl, rfl⟩
  | other => exact .refl _

theorem takeQueue_load (e : RecvWorld) (q : List Tok) : ∀ r : Recv, SameLoad r (r.takeQueue e q).2 := by
  induction q with
  | nil => intro r; exact ⟨rfl, rfl, rfl, rfl, rfl⟩
  | cons t q ih =>
    intro r
    unfold takeQueue
    have h := recvTok_load r e t
    generalize r.recvTok e t = x at h
    obtain ⟨x, r1⟩ := x
    cases x with
    | none => exact h.trans (ih r1)
    | _ => exact h.trans ⟨rfl, rfl, rfl, rfl, rfl⟩

theorem takeSocks_load (f : Nat → Bool) (n : Nat) : ∀ (r : Recv) (i wb : Nat), SameLoad r (r.takeSocks f n i wb).2 := by
  induction n with
  | zero => intro r i wb; exact ⟨rfl, rfl, rfl, rfl, rfl⟩
  | succ n ih =>
    intro r i wb
    unfold takeSocks
    have h := recvSock_load r f i
    generalize r.recvSock f i = x at h
    obtain ⟨x, r1⟩ := x
    cases x with
    | wouldBlock => exact h.trans (ih r1 _ _)
    | err => exact h
    | msg d => exact h.trans ⟨rfl, rfl, rfl, rfl, rfl⟩

theorem passStage_load (r : Recv) (e : RecvWorld) : SameLoad r (r.passStage e).2 := by
  unfold passStage
  split
  · exact ⟨rfl, rfl, rfl, rfl, rfl⟩
  · have h := takeSocks_load e.fail r.waiting.length r 0 0
    generalize r.takeSocks e.fail r.waiting.length 0 0 = x at h
    obtain ⟨x, r1⟩ := x
    cases x with
    | none => dsimp only; split <;> exact h.trans ⟨rfl, rfl, rfl, rfl, rfl⟩
    | _ => exact h

theorem serve_load (r : Recv) (e : RecvWorld) : SameLoad r (r.serve e).2 := by
  unfold serve
  have h := takeQueue_load e r.queue r
  generalize r.takeQueue e r.queue = x at h
  obtain ⟨x, r3⟩ := x
  cases x with
  | none => exact h.trans (passStage_load r3 e)
  | _ => exact h

theorem arrive_load (r : Recv) (i d a) : SameLoad r (r.arrive i d a) := by
  unfold arrive
  split <;> exact ⟨rfl, rfl, rfl, rfl, rfl⟩

theorem arriveAll_load (l : List (Nat × Bytes × Addr)) : ∀ r : Recv, SameLoad r (l.foldl (fun r x => r.arrive x.1 x.2.1 x.2.2) r) := by
  induction l with
  | nil => exact .refl
  | cons x l ih => intro r; exact (arrive_load r _ _ _).trans (ih _)

/-- the state of load detection agrees with the current period `cur`, begun at `t0` -/
structure LoadOk (r : Recv) (t0 : Nat) (cur : List PollKind) : Prop where
  blocking : r.blocking = cur.countP (fun k => k.blocks.isSome)
  nonBlocking : r.nonBlocking = cur.count .busy
  unpolled : r.unpolled = cur.count .unpolled
  last : r.lastUpdate = t0

theorem LoadOk.same {r r' : Recv} {t0 : Nat} {cur : List PollKind} (h : LoadOk r t0 cur) (g : SameLoad r r') : LoadOk r' t0 cur :=
  ⟨g.1.trans h.1, g.2.1.trans h.2, g.2.2.1.trans h.3, g.2.2.2.1.trans h.4⟩

theorem pollStage_load (r : Recv) (e : RecvWorld) (t0 : Nat) (cur : List PollKind) (h : LoadOk r t0 cur) :
    LoadOk (r.pollStage e).2.1 t0 (cur ++ [(r.pollStage e).2.2]) ∧ (r.pollStage e).2.1.underLoad = r.underLoad ∧
    ((r.pollStage e).1 = !(r.pollStage e).2.2.isFailed) := by
  obtain ⟨h1, h2, h3, h4⟩ := h
  unfold pollStage
  split
  · exact ⟨⟨by simp [h1, PollKind.blocks], by simp [h2], by simp [h3], h4⟩, rfl, rfl⟩
  · split
    · exact ⟨⟨by simp [h1, PollKind.blocks], by simp [h2], by simp [h3], h4⟩, rfl, rfl⟩
    · dsimp only
      split
      · exact ⟨⟨by simp [h1, PollKind.blocks, mioPoll], by simp [h2, mioPoll], by simp [h3, mioPoll], h4⟩, rfl, rfl⟩
      · split
        · exact ⟨⟨by simp [h1, PollKind.blocks, mioPoll], by simp [h2, mioPoll], by simp [h3, mioPoll], h4⟩, rfl, rfl⟩
        · split
          · exact ⟨⟨by simp [h1, PollKind.blocks, mioPoll], by simp [h2, mioPoll], by simp [h3, mioPoll], h4⟩, rfl, rfl⟩
          · have g := arriveAll_load e.during { (r.mioPoll e.more0) with blocking := (r.mioPoll e.more0).blocking + 1 }
            exact ⟨⟨by simpa [h1, PollKind.blocks, mioPoll] using g.1, by simpa [h2, mioPoll] using g.2.1, by simpa [h3, mioPoll] using g.2.2.1, by simpa [h4, mioPoll] using g.2.2.2.1⟩,
              g.2.2.2.2, rfl⟩

/-- one call -/
theorem tryRecv_load (r : Recv) (e : RecvWorld) (t0 : Nat) (cur : List PollKind) (h : LoadOk r t0 cur) :
    let k := (r.tryRecv e).2.2
    if k.isFailed = false ∧ e.now - t0 > 500 then
      LoadOk (r.tryRecv e).2.1 e.now [] ∧ ((r.tryRecv e).2.1.underLoad = true ↔ Heavy (cur ++ [k]))
    else LoadOk (r.tryRecv e).2.1 t0 (cur ++ [k]) ∧ (r.tryRecv e).2.1.underLoad = r.underLoad := by
  obtain ⟨h1, h2, h3⟩ := pollStage_load r e t0 cur h
  unfold tryRecv
  generalize r.pollStage e = x at h1 h2 h3
  obtain ⟨ok, r1, k⟩ := x
  dsimp only at h1 h2 h3
  cases ok with
  | false =>
    have : k.isFailed = true := by simpa using h3.symm
    dsimp only
    rw [if_neg (by rw [this]; simp)]
    exact ⟨h1, h2⟩
  | true =>
    have hk : k.isFailed = false := by simpa using h3.symm
    dsimp only
    have g1 := serve_load (r1.loadStage e.now) e
    by_cases ht : e.now - t0 > 500
    · rw [if_pos ⟨hk, ht⟩]
      have hl : r1.loadStage e.now = { r1 with lastUpdate := e.now, underLoad := decide (if r1.blocking + r1.nonBlocking > 0 then 2 * r1.nonBlocking > r1.blocking + r1.nonBlocking else r1.unpolled > 0), blocking := 0, nonBlocking := 0, unpolled := 0 } := by
        unfold loadStage
        rw [if_pos (by rw [h1.last]; exact ht)]
      rw [hl] at g1
      rw [hl]
      refine ⟨LoadOk.same ⟨rfl, rfl, rfl, rfl⟩ g1, ?_⟩
      have := g1.2.2.2.2
      dsimp only at this
      rw [this, decide_eq_true_eq, h1.blocking, h1.nonBlocking, h1.unpolled]
      unfold Heavy
      split <;> omega
    · rw [if_neg (fun h => ht h.2)]
      have hl : r1.loadStage e.now = r1 := by unfold loadStage; rw [if_neg (by rw [h1.last]; exact ht)]
      rw [hl] at g1
      rw [hl]
      exact ⟨h1.same g1, g1.2.2.2.2.trans h2⟩

theorem load_run (os : List Act) : ∀ (r : Recv) (t0 : Nat) (cur : List PollKind), LoadOk r t0 cur →
    ((r.run os).underLoad = true ↔
      match (periods t0 cur ((r.trace os).map (fun x => x.2))).dropLast.getLast? with
      | some w => Heavy w
      | none => r.underLoad = true) := by
  have ne : ∀ (l : List (Nat × PollKind)) t0 cur, periods t0 cur l ≠ [] := by
    intro l
    induction l with
    | nil => intro t0 cur; simp [periods]
    | cons x l ih =>
      intro t0 cur
      obtain ⟨t, k⟩ := x
      unfold periods
      split
      · simp
      · exact ih _ _
  induction os with
  | nil => intro r t0 cur h; simp [run, trace, periods]
  | cons o os ih =>
    intro r t0 cur h
    have skip : ∀ r' : Recv, SameLoad r r' → r.observe o = [] → r.apply o = r' →
        ((r.run (o :: os)).underLoad = true ↔ match (periods t0 cur ((r.trace (o :: os)).map (fun x => x.2))).dropLast.getLast? with
          | some w => Heavy w
          | none => r.underLoad = true) := by
      intro r' h1 h2 h3
      have := ih r' t0 cur (h.same h1)
      rw [h1.2.2.2.2] at this
      show ((r.apply o).run os).underLoad = true ↔ _
      simp only [trace, h2, h3, List.nil_append]
      exact this
    cases o with
    | arrive i d a => exact skip _ (arrive_load r i d a) rfl rfl
    | raise => exact skip r.raise ⟨rfl, rfl, rfl, rfl, rfl⟩ rfl rfl
    | recv e =>
      have hc := tryRecv_load r e t0 cur h
      show ((r.tryRecv e).2.1.run os).underLoad = true ↔ _
      simp only [trace, observe, apply, List.map_append, List.map_cons, List.map_nil, List.singleton_append, periods]
      dsimp only at hc
      by_cases hb : (r.tryRecv e).2.2.isFailed = false ∧ e.now - t0 > 500
      · rw [if_pos hb] at hc
        rw [if_pos hb, ih _ _ _ hc.1]
        have hne := ne (((r.tryRecv e).2.1.trace os).map (fun x => x.2)) e.now []
        rw [List.dropLast_cons_of_ne_nil hne, List.getLast?_cons]
        cases hg : (periods e.now [] (((r.tryRecv e).2.1.trace os).map (fun x => x.2))).dropLast.getLast? with
        | none => simp [hc.2]
        | some w => simp
      · rw [if_neg hb] at hc
        rw [if_neg hb, ih _ _ _ hc.1, hc.2]

/-- **C50**. At every point of every history the server is under load exactly if the last complete period was
heavy: more of its polls found events at once than had to wait, or it had no time to poll at all. A period
lasts more than 500 ms, so the status changes at most twice a second. -/
theorem load_detection_exact (n t0 : Nat) (os : List Act) :
    ((new n t0).run os).underLoad = true ↔
      ∃ w, (periods t0 [] (((new n t0).trace os).map (fun x => x.2))).dropLast.getLast? = some w ∧ Heavy w := by
  rw [load_run os (new n t0) t0 [] ⟨rfl, rfl, rfl, rfl⟩]
  cases (periods t0 [] (((new n t0).trace os).map (fun x => x.2))).dropLast.getLast? with
  | none => simp [new]
  | some w => simp

/-! ### What a call takes from the sockets -/

/-- the effect of serving events on the waiting datagrams -/
structure Took (r : Recv) (res : RecvRes) (r' : Recv) : Prop where
  arrived : r'.arrived = r.arrived
  msg : ∀ i d, res = .msg i d → ∃ l, r.waiting[i]? = some (d :: l) ∧ r'.waiting = r.waiting.set i l
  other : (∀ i d, res ≠ .msg i d) → r'.waiting = r.waiting
  long : r'.longPoll = r.longPoll ∨ res = .none
  empty : res = .none → ∀ l ∈ r'.waiting, l = []

theorem recvSock_took (r : Recv) (f : Nat → Bool) (i : Nat) :
    (r.recvSock f i).2.arrived = r.arrived ∧ (r.recvSock f i).2.longPoll = r.longPoll ∧
    (∀ d, (r.recvSock f i).1 = .msg d → ∃ l, r.waiting[i]? = some (d :: l) ∧ (r.recvSock f i).2.waiting = r.waiting.set i l) ∧
    ((∀ d, (r.recvSock f i).1 ≠ .msg d) → (r.recvSock f i).2 = r) ∧
    ((r.recvSock f i).1 = .wouldBlock → i < r.waiting.length → r.waiting[i]? = some []) := by
  unfold recvSock
  split
  · exact ⟨rfl, rfl, fun d h => (nomatch h), fun _ => rfl, fun h => (nomatch h)⟩
  · split
    · rename_i d l hd
      exact ⟨rfl, rfl, fun d' h => (by cases h; exact ⟨l, hd, rfl⟩), fun h => absurd rfl (h d), fun h => (nomatch h)⟩
    · rename_i h
      refine ⟨rfl, rfl, fun d h => (nomatch h), fun _ => rfl, fun _ hlt => ?_⟩
      rw [List.getElem?_eq_getElem hlt] at h ⊢
      cases hw : r.waiting[i] with
      | nil => rfl
      | cons d l => exact absurd (by rw [hw]) (h d l)

theorem recvTok_took (r : Recv) (e : RecvWorld) (t : Tok) :
    (r.recvTok e t).2.arrived = r.arrived ∧ (r.recvTok e t).2.longPoll = r.longPoll ∧
    (∀ i d, (r.recvTok e t).1 = .msg i d → ∃ l, r.waiting[i]? = some (d :: l) ∧ (r.recvTok e t).2.waiting = r.waiting.set i l) ∧
    ((∀ i d, (r.recvTok e t).1 ≠ .msg i d) → (r.recvTok e t).2.waiting = r.waiting) := by
  cases t with
  | sock i =>
    dsimp only [recvTok]
    split
    · obtain ⟨h1, h2, h3, h4, -⟩ := recvSock_took r e.fail i
      generalize r.recvSock e.fail i = x at h1 h2 h3 h4
      obtain ⟨x, r1⟩ := x
      cases x with
      | wouldBlock => exact ⟨h1, h2, fun i d h => (nomatch h), fun _ => by rw [show r1 = r from h4 (fun d h => (nomatch h))]⟩
      | err => exact ⟨h1, h2, fun i d h => (nomatch h), fun _ => by rw [show r1 = r from h4 (fun d h => (nomatch h))]⟩
      | msg d => exact ⟨h1, h2, fun i d h => (by cases h; exact h3 d rfl), fun h => absurd rfl (h i d)⟩
    · exact ⟨rfl, rfl, fun i d h => (nomatch h), fun _ => rfl⟩
  | signal =>
    dsimp only [recvTok]
    split <;> exact ⟨rfl, rfl, fun i d h => (nomatch h), fun _ => rfl⟩
  | other =>
    dsimp only [recvTok]
    refine ⟨rfl, rfl, fun i d h => ?_, fun _ => rfl⟩
    split at h <;> cases h

/-- the queue of events -/
theorem takeQueue_took (e : RecvWorld) (q : List Tok) : ∀ r : Recv,
    (r.takeQueue e q).2.arrived = r.arrived ∧ (r.takeQueue e q).2.longPoll = r.longPoll ∧
    (∀ i d, (r.takeQueue e q).1 = .msg i d → ∃ l, r.waiting[i]? = some (d :: l) ∧ (r.takeQueue e q).2.waiting = r.waiting.set i l) ∧
    ((∀ i d, (r.takeQueue e q).1 ≠ .msg i d) → (r.takeQueue e q).2.waiting = r.waiting) := by
  induction q with
  | nil => intro r; exact ⟨rfl, rfl, fun i d h => (nomatch h), fun _ => rfl⟩
  | cons t q ih =>
    intro r
    unfold takeQueue
    obtain ⟨h1, h2, h3, h4⟩ := recvTok_took r e t
    generalize r.recvTok e t = x at h1 h2 h3 h4
    obtain ⟨x, r1⟩ := x
    cases x with
    | none =>
      obtain ⟨g1, g2, g3, g4⟩ := ih r1
      have hw : r1.waiting = r.waiting := h4 (fun i d h => (nomatch h))
      rw [hw] at g3 g4
      exact ⟨g1.trans h1, g2.trans h2, g3, g4⟩
    | terminate => exact ⟨h1, h2, h3, h4⟩
    | err => exact ⟨h1, h2, h3, h4⟩
    | msg i d => exact ⟨h1, h2, h3, h4⟩

/-- the pass over all sockets -/
theorem takeSocks_took (f : Nat → Bool) (n : Nat) : ∀ (r : Recv) (i wb : Nat), i + n = r.waiting.length →
    (r.takeSocks f n i wb).2.arrived = r.arrived ∧ (r.takeSocks f n i wb).2.longPoll = r.longPoll ∧
    (∀ j d, (r.takeSocks f n i wb).1 = .msg j d → ∃ l, r.waiting[j]? = some (d :: l) ∧ (r.takeSocks f n i wb).2.waiting = r.waiting.set j l) ∧
    ((∀ j d, (r.takeSocks f n i wb).1 ≠ .msg j d) → (r.takeSocks f n i wb).2.waiting = r.waiting) ∧
    ((r.takeSocks f n i wb).1 = .none → ∀ j, i ≤ j → j < r.waiting.length → r.waiting[j]? = some []) := by
  induction n with
  | zero =>
    intro r i wb hn
    exact ⟨rfl, rfl, fun i d h => (nomatch h), fun _ => rfl, fun _ j h1 h2 => by omega⟩
  | succ n ih =>
    intro r i wb hn
    unfold takeSocks
    obtain ⟨h1, h2, h3, h4, h5⟩ := recvSock_took r f i
    generalize r.recvSock f i = x at h1 h2 h3 h4 h5
    obtain ⟨x, r1⟩ := x
    cases x with
    | wouldBlock =>
      have hr : r1 = r := h4 (fun d h => (nomatch h))
      subst hr
      obtain ⟨g1, g2, g3, g4, g5⟩ := ih r1 (i + 1) (wb + 1) (by omega)
      refine ⟨g1, g2, g3, g4, fun h j hj hlt => ?_⟩
      by_cases hij : j = i
      · subst hij; exact h5 rfl hlt
      · exact g5 h j (by omega) hlt
    | err =>
      have hr : r1 = r := h4 (fun d h => (nomatch h))
      subst hr
      exact ⟨rfl, rfl, fun i d h => (nomatch h), fun _ => rfl, fun h => (nomatch h)⟩
    | msg d =>
      exact ⟨h1, h2, fun j d h => (by cases h; exact h3 d rfl), fun h => absurd rfl (h i d), fun h => (nomatch h)⟩

theorem passStage_took (r : Recv) (e : RecvWorld) : Took r (r.passStage e).1 (r.passStage e).2 := by
  unfold passStage
  split
  · exact ⟨rfl, fun i d h => (nomatch h), fun _ => rfl, .inl rfl, fun h => (nomatch h)⟩
  · obtain ⟨h1, h2, h3, h4, h5⟩ := takeSocks_took e.fail r.waiting.length r 0 0 (by omega)
    generalize r.takeSocks e.fail r.waiting.length 0 0 = x at h1 h2 h3 h4 h5
    obtain ⟨x, r1⟩ := x
    dsimp only at h1 h2 h3 h4 h5
    cases x with
    | none =>
      have hw : r1.waiting = r.waiting := h4 (fun i d h => (nomatch h))
      dsimp only
      split
      · refine ⟨h1, fun i d h => (nomatch h), fun _ => hw, .inr rfl, fun _ l hl => ?_⟩
        obtain ⟨j, hj⟩ := List.mem_iff_getElem?.mp hl
        dsimp only at hj
        rw [hw] at hj
        have := h5 rfl j (Nat.zero_le _) (List.getElem?_eq_some_iff.mp hj).1
        rw [this] at hj
        exact (Option.some.inj hj).symm
      · exact ⟨h1, fun i d h => (nomatch h), fun _ => hw, .inl h2, fun h => (nomatch h)⟩
    | terminate => exact ⟨h1, h3, h4, .inl h2, fun h => (nomatch h)⟩
    | err => exact ⟨h1, h3, h4, .inl h2, fun h => (nomatch h)⟩
    | msg i d => exact ⟨h1, h3, h4, .inl h2, fun h => (nomatch h)⟩

theorem serve_took (r : Recv) (e : RecvWorld) : Took r (r.serve e).1 (r.serve e).2 := by
  unfold serve
  obtain ⟨h1, h2, h3, h4⟩ := takeQueue_took e r.queue r
  generalize r.takeQueue e r.queue = x at h1 h2 h3 h4
  obtain ⟨x, r1⟩ := x
  dsimp only at h1 h2 h3 h4
  cases x with
  | none =>
    have hw : r1.waiting = r.waiting := h4 (fun i d h => (nomatch h))
    obtain ⟨g1, g2, g3, g4, g5⟩ := passStage_took r1 e
    rw [hw] at g2 g3
    exact ⟨g1.trans h1, g2, g3, g4.imp (fun h => h.trans h2) id, g5⟩
  | terminate => exact ⟨h1, h3, h4, .inl h2, fun h => (nomatch h)⟩
  | err => exact ⟨h1, h3, h4, .inl h2, fun h => (nomatch h)⟩
  | msg i d => exact ⟨h1, h3, h4, .inl h2, fun h => (nomatch h)⟩

/-- what arrives during a blocking poll -/
def arriveAll (r : Recv) (l : List (Nat × Bytes × Addr)) : Recv := l.foldl (fun r x => r.arrive x.1 x.2.1 x.2.2) r

/-- what arrives during a call, given what the call did -/
def duringOf (e : RecvWorld) : PollKind → List (Nat × Bytes × Addr)
  | .blocked _ => e.during
  | _ => []

/-- the polling part: only the arrivals during a blocking poll change what is waiting -/
theorem pollStage_took (r : Recv) (e : RecvWorld) :
    ((r.pollStage e).2.1.waiting = (r.arriveAll (duringOf e (r.pollStage e).2.2)).waiting ∧
      (r.pollStage e).2.1.arrived = (r.arriveAll (duringOf e (r.pollStage e).2.2)).arrived) ∧
    (∀ w, (r.pollStage e).2.2.blocks = some w → w = r.waiting ∧ r.longPoll = true) ∧
    ((r.pollStage e).2.1.longPoll = r.longPoll ∨ (r.pollStage e).2.1.longPoll = false) ∧
    (∀ w, (r.pollStage e).2.2 = .blocked w → (r.pollStage e).2.1.longPoll = false) := by
  have keep : ∀ (l : List (Nat × Bytes × Addr)) (a b : Recv), a.waiting = b.waiting → a.arrived = b.arrived →
      (l.foldl (fun r x => r.arrive x.1 x.2.1 x.2.2) a).waiting = (b.arriveAll l).waiting ∧
      (l.foldl (fun r x => r.arrive x.1 x.2.1 x.2.2) a).arrived = (b.arriveAll l).arrived := by
    intro l
    induction l with
    | nil => intro a b h1 h2; exact ⟨h1, h2⟩
    | cons x l ih =>
      intro a b h1 h2
      unfold arriveAll
      refine ih _ _ ?_ ?_ <;> unfold arrive <;> dsimp only <;> rw [h1] <;> split <;> simp [h1, h2]
  unfold pollStage
  split
  · exact ⟨⟨rfl, rfl⟩, fun w h => (nomatch h), .inl rfl, fun w h => (nomatch h)⟩
  · split
    · exact ⟨⟨rfl, rfl⟩, fun w h => (nomatch h), .inl rfl, fun w h => (nomatch h)⟩
    · dsimp only
      split
      · exact ⟨⟨rfl, rfl⟩, fun w h => (nomatch h), .inl rfl, fun w h => (nomatch h)⟩
      · split
        · exact ⟨⟨rfl, rfl⟩, fun w h => (nomatch h), .inl rfl, fun w h => (nomatch h)⟩
        · rename_i hl
          have hl' : r.longPoll = true := by simpa [mioPoll] using hl
          split
          · exact ⟨⟨rfl, rfl⟩, fun w h => (by cases h; exact ⟨rfl, hl'⟩), .inl rfl, fun w h => (nomatch h)⟩
          · have := keep e.during { (r.mioPoll e.more0) with blocking := (r.mioPoll e.more0).blocking + 1 } r rfl rfl
            exact ⟨⟨this.1, this.2⟩, fun w h => (by cases h; exact ⟨rfl, hl'⟩), .inr rfl, fun w _ => rfl⟩

/-! ### C71: blocking -/

/-- datagrams waiting have serial numbers already used, and those waiting while the server may block at once came
after the serial number `S` -/
structure Since (S : Nat) (r : Recv) : Prop where
  le : S ≤ r.arrived
  lt : ∀ l ∈ r.waiting, ∀ d ∈ l, d.no < r.arrived
  long : r.longPoll = true → ∀ l ∈ r.waiting, ∀ d ∈ l, S ≤ d.no

theorem arrive_since {S : Nat} {r : Recv} (h : Since S r) (i d a) : Since S (r.arrive i d a) := by
  unfold arrive
  split
  · refine ⟨Nat.le_succ_of_le h.le, fun l hl x hx => ?_, fun hlong l hl x hx => ?_⟩ <;>
    · obtain ⟨j, hj⟩ := List.mem_iff_getElem?.mp hl
      dsimp only at hj
      rw [List.getElem?_modify] at hj
      cases hw : r.waiting[j]? with
      | none => rw [hw] at hj; simp at hj
      | some l0 =>
        rw [hw] at hj
        have hm : l0 ∈ r.waiting := List.mem_of_getElem? hw
        by_cases hij : i = j
        · simp only [hij, if_true, Functor.map, Option.map_some, Option.some.injEq] at hj
          subst hj
          rcases List.mem_append.mp hx with hx | hx
          · first | exact Nat.lt_succ_of_lt (h.lt l0 hm x hx) | exact h.long hlong l0 hm x hx
          · simp only [List.mem_singleton] at hx
            subst hx
            first | exact Nat.lt_succ_self _ | exact h.le
        · simp only [hij, if_false, Functor.map, Option.map_some, Option.some.injEq, id] at hj
          subst hj
          first | exact Nat.lt_succ_of_lt (h.lt l0 hm x hx) | exact h.long hlong l0 hm x hx
  · exact h

theorem arriveAll_since {S : Nat} (l : List (Nat × Bytes × Addr)) : ∀ {r : Recv}, Since S r → Since S (r.arriveAll l) := by
  induction l with
  | nil => exact fun h => h
  | cons x l ih => intro r h; exact ih (arrive_since h _ _ _)

theorem took_sub {r r' : Recv} {res : RecvRes} (h : Took r res r') : ∀ l ∈ r'.waiting, ∀ d ∈ l, ∃ l0 ∈ r.waiting, d ∈ l0 := by
  intro l hl d hd
  by_cases hm : ∃ i x, res = .msg i x
  · obtain ⟨i, x, hm⟩ := hm
    obtain ⟨l0, h1, h2⟩ := h.msg i x hm
    rw [h2] at hl
    rcases List.mem_or_eq_of_mem_set hl with hl | rfl
    · exact ⟨l, hl, hd⟩
    · exact ⟨x :: l, List.mem_of_getElem? h1, List.mem_cons_of_mem _ hd⟩
  · have := h.other (fun i d h => hm ⟨i, d, h⟩)
    rw [this] at hl
    exact ⟨l, hl, hd⟩

/-- one call: it blocks only while datagrams younger than `S` wait; and afterwards the server will block only
for datagrams younger than the call, if it blocked -/
theorem tryRecv_since {S : Nat} {r : Recv} (h : Since S r) (e : RecvWorld) :
    Since S (r.tryRecv e).2.1 ∧
    (∀ w, (r.tryRecv e).2.2.blocks = some w → (∀ l ∈ w, ∀ d ∈ l, S ≤ d.no ∧ d.no < r.arrived) ∧ w = r.waiting) ∧
    (∀ w, (r.tryRecv e).2.2 = .blocked w → Since r.arrived (r.tryRecv e).2.1) := by
  obtain ⟨⟨p1, p2⟩, p3, p4, p5⟩ := pollStage_took r e
  generalize duringOf e (r.pollStage e).2.2 = l at p1 p2
  have hS : Since S (r.arriveAll l) := arriveAll_since l h
  have h0 : Since 0 r := ⟨Nat.zero_le _, h.lt, fun _ _ _ _ _ => Nat.zero_le _⟩
  have hle : ∀ (l : List (Nat × Bytes × Addr)) (r : Recv), r.arrived ≤ (r.arriveAll l).arrived := by
    intro l
    induction l with
    | nil => intro r; exact Nat.le_refl _
    | cons x l ih =>
      intro r
      refine Nat.le_trans ?_ (ih (r.arrive x.1 x.2.1 x.2.2))
      unfold arrive
      split
      · exact Nat.le_succ _
      · exact Nat.le_refl _
  have hll : (r.arriveAll l).longPoll = r.longPoll := by
    have : ∀ (l : List (Nat × Bytes × Addr)) (r : Recv), (r.arriveAll l).longPoll = r.longPoll := by
      intro l
      induction l with
      | nil => intro r; rfl
      | cons x l ih =>
        intro r
        refine (ih (r.arrive x.1 x.2.1 x.2.2)).trans ?_
        unfold arrive
        split <;> rfl
    exact this l r
  -- after the poll
  have h1 : Since S (r.pollStage e).2.1 := by
    refine ⟨by rw [p2]; exact hS.le, by rw [p1, p2]; exact hS.lt, fun hlong => ?_⟩
    rw [p1]
    refine hS.long ?_
    rw [hll]
    rcases p4 with p4 | p4
    · rw [← p4]; exact hlong
    · rw [p4] at hlong; cases hlong
  have h2 : ∀ w, (r.pollStage e).2.2 = .blocked w → Since r.arrived (r.pollStage e).2.1 := by
    intro w hw
    refine ⟨by rw [p2]; exact hle l r, by rw [p1, p2]; exact hS.lt, fun hlong => ?_⟩
    rw [p5 w hw] at hlong; cases hlong
  have hblk : ∀ w, (r.pollStage e).2.2.blocks = some w → (∀ l ∈ w, ∀ d ∈ l, S ≤ d.no ∧ d.no < r.arrived) ∧ w = r.waiting := by
    intro w hw
    obtain ⟨rfl, hlong⟩ := p3 w hw
    exact ⟨fun l hl d hd => ⟨h.long hlong l hl d hd, h.lt l hl d hd⟩, rfl⟩
  -- serving
  have hserve : ∀ (T : Nat) (r1 : Recv), Since T r1 → Since T ((r1.loadStage e.now).serve e).2 := by
    intro T r1 h
    have hw : (r1.loadStage e.now).waiting = r1.waiting ∧ (r1.loadStage e.now).arrived = r1.arrived ∧ (r1.loadStage e.now).longPoll = r1.longPoll := by
      unfold loadStage
      split <;> exact ⟨rfl, rfl, rfl⟩
    have g := serve_took (r1.loadStage e.now) e
    have sub := took_sub g
    rw [hw.1] at sub
    refine ⟨by rw [g.arrived, hw.2.1]; exact h.le, fun l hl d hd => ?_, fun hlong l hl d hd => ?_⟩
    · obtain ⟨l0, h0, hd0⟩ := sub l hl d hd
      rw [g.arrived, hw.2.1]; exact h.lt l0 h0 d hd0
    · rcases g.long with g1 | g1
      · obtain ⟨l0, h0, hd0⟩ := sub l hl d hd
        exact h.long (by rw [← hw.2.2, ← g1]; exact hlong) l0 h0 d hd0
      · have := g.empty g1 l hl
        rw [this] at hd; cases hd
  unfold tryRecv
  generalize r.pollStage e = x at h1 h2 hblk
  obtain ⟨ok, r1, k⟩ := x
  cases ok with
  | false => exact ⟨h1, hblk, h2⟩
  | true => exact ⟨hserve S r1 h1, hblk, fun w hw => hserve _ r1 (h2 w hw)⟩

/-- what was waiting at each blocking poll -/
def blocks (t : List (RecvRes × Nat × PollKind)) : List (List (List Dgram)) := t.filterMap (fun x => x.2.2.blocks)

theorem blocks_since (os : List Act) : ∀ (S : Nat) (r : Recv), Since S r → ∀ w ∈ blocks (r.trace os), ∀ l ∈ w, ∀ d ∈ l, S ≤ d.no := by
  induction os with
  | nil => intro S r _ w hw; cases hw
  | cons o os ih =>
    intro S r h w hw
    unfold blocks trace at hw
    rw [List.filterMap_append, List.mem_append] at hw
    cases o with
    | arrive i d a =>
      rcases hw with hw | hw
      · cases hw
      · exact ih S _ (arrive_since h i d a) w hw
    | raise =>
      rcases hw with hw | hw
      · cases hw
      · exact ih S _ (⟨h.le, h.lt, h.long⟩ : Since S r.raise) w hw
    | recv e =>
      obtain ⟨h1, h2, -⟩ := tryRecv_since h e
      rcases hw with hw | hw
      · simp only [observe, List.filterMap_cons, List.filterMap_nil] at hw
        split at hw
        · cases hw
        · rename_i w' hw'
          simp only [List.mem_singleton] at hw
          subst hw
          exact fun l hl d hd => ((h2 w hw').1 l hl d hd).1
      · exact ih S _ h1 w hw

/-- **Specification**: what was waiting, at each poll that waited for events. -/
def waits (t : List (RecvRes × Nat × PollKind)) : List (List (List Dgram)) :=
  t.filterMap (fun x => match x.2.2 with | .blocked w => some w | _ => none)

theorem waits_sub (t : List (RecvRes × Nat × PollKind)) : ∀ w ∈ waits t, w ∈ blocks t := by
  intro w hw
  unfold waits at hw
  unfold blocks
  rw [List.mem_filterMap] at hw ⊢
  obtain ⟨x, hx, h⟩ := hw
  refine ⟨x, hx, ?_⟩
  split at h
  · rename_i w' hk
    cases h
    rw [hk]; rfl
  · cases h

/-- **C71** (what holds). In every history, no datagram is waiting at two different blocking polls: before the
server blocks again, it has looked at all sockets, so a datagram waits for at most one blocking poll. -/
theorem datagram_delayed_at_most_once_partial (n t0 : Nat) (os : List Act) :
    (waits ((new n t0).trace os)).Pairwise (fun w w' => ∀ l ∈ w, ∀ d ∈ l, ∀ l' ∈ w', d ∉ l') := by
  have main : ∀ (os : List Act) (S : Nat) (r : Recv), Since S r →
      (waits (r.trace os)).Pairwise (fun w w' => ∀ l ∈ w, ∀ d ∈ l, ∀ l' ∈ w', d ∉ l') := by
    intro os
    induction os with
    | nil => intro S r _; exact List.Pairwise.nil
    | cons o os ih =>
      intro S r h
      cases o with
      | arrive i d a => exact ih S _ (arrive_since h i d a)
      | raise => exact ih S r.raise ⟨h.le, h.lt, h.long⟩
      | recv e =>
        obtain ⟨h1, h2, h3⟩ := tryRecv_since h e
        have hrest := ih S _ h1
        show (List.filterMap _ ([((r.tryRecv e).1, e.now, (r.tryRecv e).2.2)] ++ (r.tryRecv e).2.1.trace os)).Pairwise _
        rw [List.filterMap_append]
        cases hk : (r.tryRecv e).2.2 with
        | blocked w =>
          have hb := (h2 w (by rw [hk]; rfl)).1
          simp only [List.filterMap_cons, List.filterMap_nil, List.singleton_append]
          refine List.Pairwise.cons (fun w' hw' l hl d hd l' hl' hd' => ?_) hrest
          have := blocks_since os _ _ (h3 w hk) w' (waits_sub _ w' hw') l' hl' d hd'
          have := (hb l hl d hd).2
          omega
        | _ => exact hrest
  refine main os 0 _ ⟨Nat.zero_le _, fun l hl d hd => ?_, fun h => (nomatch h)⟩
  simp only [new, List.mem_replicate] at hl
  rw [hl.2] at hd; cases hd

/-- environments in which all I/O succeeds -/
def fine (now : Nat) : RecvWorld :=
  { more0 := [], more1 := [], poll0 := true, poll1 := true, during := [], now := now, fail := fun _ => false, others := true }

/-- **C71** fails: two datagrams arrive at a socket, the first is read because of the readiness event, and then
the server blocks although the second is waiting (readiness is reported once per arrival). -/
theorem blocks_while_datagram_waits (t0 : Nat) (x y : Bytes) (a b : Addr) :
    waits ((new 1 t0).trace [.recv (fine t0), .arrive 0 x a, .arrive 0 y b, .recv (fine t0), .recv (fine t0)]) = [[[⟨1, y, b⟩]]] := by
  simp [waits, trace, observe, apply, tryRecv, pollStage, new, fine, loadStage, serve, takeQueue, passStage, takeSocks, recvSock, arrive, mioPoll, recvTok]

/-! ### C72: delivery -/

/-- the arrival of a datagram -/
def cameOne (r : Recv) (i : Nat) (data : Bytes) (addr : Addr) : List (Nat × Dgram) :=
  if i < r.waiting.length then [(i, ⟨r.arrived, data, addr⟩)] else []

/-- the arrivals during a blocking poll -/
def cameAll (r : Recv) : List (Nat × Bytes × Addr) → List (Nat × Dgram)
  | [] => []
  | x :: l => r.cameOne x.1 x.2.1 x.2.2 ++ (r.arrive x.1 x.2.1 x.2.2).cameAll l

/-- the arrivals that belong to an action -/
def came (r : Recv) : Act → List (Nat × Dgram)
  | .arrive i data addr => r.cameOne i data addr
  | .raise => []
  | .recv e => r.cameAll (duringOf e (r.tryRecv e).2.2)

/-- **Specification**: the datagrams that arrived, in order. -/
def arrivals (r : Recv) : List Act → List (Nat × Dgram)
  | [] => []
  | o :: os => r.came o ++ (r.apply o).arrivals os

/-- **Specification**: the datagrams handed to the protocol, in order. -/
def delivered (t : List (RecvRes × Nat × PollKind)) : List (Nat × Dgram) :=
  t.filterMap (fun x => match x.1 with | .msg i d => some (i, d) | _ => none)

/-- those of socket `i` -/
def ofSock (i : Nat) (l : List (Nat × Dgram)) : List Dgram := l.filterMap (fun x => if x.1 = i then some x.2 else none)

/-- the datagrams waiting at socket `i` -/
def at' (r : Recv) (i : Nat) : List Dgram := (r.waiting[i]?).getD []

theorem ofSock_append (i : Nat) (l m : List (Nat × Dgram)) : ofSock i (l ++ m) = ofSock i l ++ ofSock i m := List.filterMap_append

theorem arrive_at (r : Recv) (i : Nat) (d : Bytes) (a : Addr) (j : Nat) : (r.arrive i d a).at' j = r.at' j ++ ofSock j (r.cameOne i d a) := by
  unfold arrive cameOne at'
  split
  · rename_i h
    dsimp only
    rw [List.getElem?_modify]
    by_cases hij : i = j
    · subst hij
      rw [List.getElem?_eq_getElem h]
      simp [ofSock]
    · simp [ofSock, hij]
  · simp [ofSock]

theorem arriveAll_at (l : List (Nat × Bytes × Addr)) : ∀ (r : Recv) (j : Nat), (r.arriveAll l).at' j = r.at' j ++ ofSock j (r.cameAll l) := by
  induction l with
  | nil => intro r j; simp [arriveAll, cameAll, ofSock]
  | cons x l ih =>
    intro r j
    show ((r.arrive x.1 x.2.1 x.2.2).arriveAll l).at' j = _
    rw [ih, arrive_at, cameAll, ofSock_append, List.append_assoc]

/-- the datagram a call returns -/
def _root_.Verif.RecvRes.got : RecvRes → List (Nat × Dgram)
  | .msg i d => [(i, d)]
  | _ => []

theorem took_at {r r' : Recv} {res : RecvRes} (h : Took r res r') (j : Nat) :
    r.at' j = ofSock j res.got ++ r'.at' j := by
  have other : (∀ i d, res ≠ .msg i d) → r'.at' j = r.at' j := fun hm => by unfold at'; rw [h.other hm]
  cases res with
  | msg i d =>
    obtain ⟨l, h1, h2⟩ := h.msg i d rfl
    unfold at'
    rw [h2]
    by_cases hij : i = j
    · subst hij
      have := (List.getElem?_eq_some_iff.mp h1).1
      rw [h1]
      simp [ofSock, List.getElem?_set, this, RecvRes.got]
    · simp [ofSock, List.getElem?_set, hij, RecvRes.got]
  | _ => rw [other (fun i d h => (nomatch h))]; rfl

theorem tryRecv_at (r : Recv) (e : RecvWorld) (j : Nat) :
    r.at' j ++ ofSock j (r.cameAll (duringOf e (r.tryRecv e).2.2)) =
      ofSock j (r.tryRecv e).1.got ++ (r.tryRecv e).2.1.at' j := by
  obtain ⟨⟨p1, -⟩, -⟩ := pollStage_took r e
  unfold tryRecv
  generalize r.pollStage e = x at p1
  obtain ⟨ok, r1, k⟩ := x
  dsimp only at p1
  have h1 : r1.at' j = r.at' j ++ ofSock j (r.cameAll (duringOf e k)) := by
    rw [← arriveAll_at]; unfold at'; rw [p1]
  cases ok with
  | false => rw [← h1]; rfl
  | true =>
    dsimp only
    have hw : (r1.loadStage e.now).at' j = r1.at' j := by
      unfold at' loadStage
      split <;> rfl
    rw [← h1, ← hw]
    exact took_at (serve_took (r1.loadStage e.now) e) j

/-- **C72**, exactly once and in order: in every history, for every socket, the datagrams handed to the protocol so
far, followed by those still waiting, are the datagrams that arrived there. -/
theorem datagrams_delivered_in_order (n t0 : Nat) (os : List Act) (i : Nat) :
    ofSock i (delivered ((new n t0).trace os)) ++ ((new n t0).run os).at' i = ofSock i ((new n t0).arrivals os) := by
  have main : ∀ (os : List Act) (r : Recv), ofSock i (delivered (r.trace os)) ++ (r.run os).at' i = r.at' i ++ ofSock i (r.arrivals os) := by
    intro os
    induction os with
    | nil => intro r; simp [delivered, trace, run, arrivals, ofSock]
    | cons o os ih =>
      intro r
      have hd : ∀ t u, delivered (t ++ u) = delivered t ++ delivered u := fun t u => List.filterMap_append
      show ofSock i (delivered (r.observe o ++ (r.apply o).trace os)) ++ ((r.apply o).run os).at' i = _
      rw [hd, ofSock_append, List.append_assoc, ih, arrivals, ofSock_append, ← List.append_assoc, ← List.append_assoc]
      congr 1
      cases o with
      | arrive j d a =>
        show ofSock i [] ++ (r.arrive j d a).at' i = _
        rw [arrive_at]; rfl
      | raise => exact (List.append_nil _).symm
      | recv e =>
        show _ = r.at' i ++ ofSock i (r.cameAll (duringOf e (r.tryRecv e).2.2))
        rw [tryRecv_at]
        congr 1
        show ofSock i (List.filterMap _ [((r.tryRecv e).1, e.now, (r.tryRecv e).2.2)]) = _
        cases (r.tryRecv e).1 <;> rfl
  have h := main os (new n t0)
  rw [h]
  have : (new n t0).at' i = [] := by
    unfold at' new
    dsimp only
    rw [List.getElem?_replicate]
    split <;> rfl
  rw [this]; rfl

/-- **C72**, progress: a call comes back empty-handed only if no datagram is waiting afterwards. -/
theorem none_only_if_empty (r : Recv) (e : RecvWorld) (h : (r.tryRecv e).1 = .none) : ∀ l ∈ (r.tryRecv e).2.1.waiting, l = [] := by
  unfold tryRecv at h ⊢
  generalize r.pollStage e = x at h
  obtain ⟨ok, r1, k⟩ := x
  cases ok with
  | false => cases h
  | true => exact (serve_took (r1.loadStage e.now) e).empty h

/-! ### C73: starvation -/

/-- a call, and then one more datagram at socket 0 -/
def flood (x : Bytes) (a : Addr) (e : RecvWorld) : List Act := [.recv e, .arrive 0 x a]

/-- **C73** fails: while datagrams keep arriving at the first socket, one per call, the datagram waiting at the
second socket is never read, for any number of calls; nor are brokers and API connections processed. -/
theorem flooded_socket_starves_others (t0 : Nat) (x y : Bytes) (a b : Addr) (es : List RecvWorld) (hf : ∀ e ∈ es, ∀ i, e.fail i = false) :
    let os := [.arrive 0 x a, .arrive 1 y b] ++ (es.map (flood x a)).flatten
    ((new 2 t0).run os).at' 1 = [⟨1, y, b⟩] ∧ ((new 2 t0).trace os).length = es.length ∧
    ∀ z ∈ (new 2 t0).trace os, z.2.2 = .unpolled ∧ ∃ d, z.1 = .msg 0 d := by
  have main : ∀ (es : List RecvWorld), (∀ e ∈ es, ∀ i, e.fail i = false) → ∀ (r : Recv) (d : Dgram), r.drained = false → r.queue = [] → r.signal = false →
      r.waiting = [[d], [⟨1, y, b⟩]] →
      (r.run (es.map (flood x a)).flatten).at' 1 = [⟨1, y, b⟩] ∧ (r.trace (es.map (flood x a)).flatten).length = es.length ∧
      ∀ z ∈ r.trace (es.map (flood x a)).flatten, z.2.2 = .unpolled ∧ ∃ d, z.1 = .msg 0 d := by
    intro es
    induction es with
    | nil =>
      intro _ r d _ _ _ hw
      exact ⟨by simp [run, at', hw], rfl, fun z hz => (nomatch hz)⟩
    | cons e es ih =>
      intro hf r d h1 h2 h3 hw
      have he := hf e (by simp) 0
      have hp : r.pollStage e = (true, { r with unpolled := r.unpolled + 1 }, .unpolled) := by unfold pollStage; rw [if_pos (by simp [h1])]
      obtain ⟨r2, hl, l1, l2, l3, l4⟩ : ∃ r2, ({ r with unpolled := r.unpolled + 1 } : Recv).loadStage e.now = r2 ∧ r2.drained = false ∧ r2.queue = [] ∧ r2.signal = false ∧
          r2.waiting = [[d], [⟨1, y, b⟩]] := by
        refine ⟨_, rfl, ?_⟩
        unfold loadStage
        split <;> exact ⟨h1, h2, h3, hw⟩
      have hs : r2.serve e = (.msg 0 d, { r2 with waiting := [[], [⟨1, y, b⟩]], drained := false, queue := [] }) := by
        simp [serve, takeQueue, passStage, takeSocks, recvSock, l2, l3, l4, he]
      have ht : r.tryRecv e = (.msg 0 d, { r2 with waiting := [[], [⟨1, y, b⟩]], drained := false, queue := [] }, .unpolled) := by
        unfold tryRecv
        rw [hp]
        dsimp only
        rw [hl, hs]
      have ha : ∃ d', (({ r2 with waiting := [[], [⟨1, y, b⟩]], drained := false, queue := [] } : Recv).arrive 0 x a).waiting = [[d'], [⟨1, y, b⟩]] ∧
          (({ r2 with waiting := [[], [⟨1, y, b⟩]], drained := false, queue := [] } : Recv).arrive 0 x a).drained = false ∧
          (({ r2 with waiting := [[], [⟨1, y, b⟩]], drained := false, queue := [] } : Recv).arrive 0 x a).queue = [] ∧
          (({ r2 with waiting := [[], [⟨1, y, b⟩]], drained := false, queue := [] } : Recv).arrive 0 x a).signal = false :=
        ⟨⟨r2.arrived, x, a⟩, by simp [arrive], by simp [arrive], by simp [arrive], by simp [arrive, l3]⟩
      obtain ⟨d', a1, a2, a3, a4⟩ := ha
      obtain ⟨i1, i2, i3⟩ := ih (fun e he => hf e (by simp [he])) _ d' a2 a3 a4 a1
      simp only [List.map_cons, List.flatten_cons, flood, List.cons_append, List.nil_append, run, trace, observe, apply, ht]
      refine ⟨i1, ?_, ?_⟩
      · simp only [List.length_cons]
        exact congrArg (· + 1) i2
      · intro z hz
        rcases List.mem_cons.mp hz with rfl | hz
        · exact ⟨rfl, d, rfl⟩
        · exact i3 z hz
  have h0 : ∃ r d, r = ((new 2 t0).arrive 0 x a).arrive 1 y b ∧ r.drained = false ∧ r.queue = [] ∧ r.signal = false ∧ r.waiting = [[d], [⟨1, y, b⟩]] :=
    ⟨_, ⟨0, x, a⟩, rfl, by simp [new, arrive], by simp [new, arrive], by simp [new, arrive], by simp [new, arrive]⟩
  obtain ⟨r, d, hr, h1, h2, h3, h4⟩ := h0
  have := main es hf r d h1 h2 h3 h4
  dsimp only
  simp only [List.cons_append, List.nil_append, run, trace, observe, apply]
  rw [← hr]
  exact this

/-- the number of datagrams waiting -/
def total (r : Recv) : Nat := (r.waiting.map List.length).sum

theorem recvSock_signal (r : Recv) (f : Nat → Bool) (i : Nat) : (r.recvSock f i).2.signal = r.signal := by
  unfold recvSock
  split
  · rfl
  · split <;> rfl

/-- when nothing fails, an event gives a datagram or nothing -/
theorem recvTok_fine (r : Recv) (e : RecvWorld) (hf : ∀ i, e.fail i = false) (ho : e.others = true) (hs : r.signal = false) (t : Tok) :
    ((r.recvTok e t).1 = .none ∨ ∃ i d, (r.recvTok e t).1 = .msg i d) ∧ (r.recvTok e t).2.signal = false := by
  cases t with
  | sock i =>
    dsimp only [recvTok]
    split
    · have h := recvSock_signal r e.fail i
      have hne : (r.recvSock e.fail i).1 ≠ .err := by
        unfold recvSock
        rw [hf i, if_neg (by simp)]
        split <;> simp
      generalize r.recvSock e.fail i = x at h hne
      obtain ⟨x, r1⟩ := x
      cases x with
      | wouldBlock => exact ⟨.inl rfl, h.trans hs⟩
      | err => exact absurd rfl hne
      | msg d => exact ⟨.inr ⟨i, d, rfl⟩, h.trans hs⟩
    · exact ⟨.inl rfl, hs⟩
  | signal => dsimp only [recvTok]; rw [hs]; exact ⟨.inl rfl, hs⟩
  | other => dsimp only [recvTok]; rw [ho]; exact ⟨.inl rfl, hs⟩

theorem takeQueue_fine (e : RecvWorld) (hf : ∀ i, e.fail i = false) (ho : e.others = true) (q : List Tok) : ∀ r : Recv, r.signal = false →
    ((r.takeQueue e q).1 = .none ∨ ∃ i d, (r.takeQueue e q).1 = .msg i d) ∧ (r.takeQueue e q).2.signal = false := by
  induction q with
  | nil => intro r hs; exact ⟨.inl rfl, hs⟩
  | cons t q ih =>
    intro r hs
    unfold takeQueue
    obtain ⟨h1, h2⟩ := recvTok_fine r e hf ho hs t
    generalize r.recvTok e t = x at h1 h2
    obtain ⟨x, r1⟩ := x
    rcases h1 with h1 | ⟨i, d, h1⟩
    · dsimp only at h1; subst h1; exact ih r1 h2
    · dsimp only at h1; subst h1; exact ⟨.inr ⟨i, d, rfl⟩, h2⟩

theorem takeSocks_fine (f : Nat → Bool) (hf : ∀ i, f i = false) (n : Nat) : ∀ (r : Recv) (i wb : Nat), r.signal = false →
    ((r.takeSocks f n i wb).1 = .none ∨ ∃ i' d, (r.takeSocks f n i wb).1 = .msg i' d) ∧ (r.takeSocks f n i wb).2.signal = false := by
  induction n with
  | zero => intro r i wb hs; exact ⟨.inl rfl, hs⟩
  | succ n ih =>
    intro r i wb hs
    unfold takeSocks
    have h := recvSock_signal r f i
    have hne : (r.recvSock f i).1 ≠ .err := by
      unfold recvSock
      rw [hf i, if_neg (by simp)]
      split <;> simp
    generalize r.recvSock f i = x at h hne
    obtain ⟨x, r1⟩ := x
    cases x with
    | wouldBlock => exact ih r1 _ _ (h.trans hs)
    | err => exact absurd rfl hne
    | msg d => exact ⟨.inr ⟨i, d, rfl⟩, h.trans hs⟩

/-- when nothing fails, serving gives a datagram or nothing -/
theorem serve_fine (r : Recv) (e : RecvWorld) (hf : ∀ i, e.fail i = false) (ho : e.others = true) (hs : r.signal = false) :
    ((r.serve e).1 = .none ∨ ∃ i d, (r.serve e).1 = .msg i d) ∧ (r.serve e).2.signal = false := by
  unfold serve
  obtain ⟨h1, h2⟩ := takeQueue_fine e hf ho r.queue r hs
  generalize r.takeQueue e r.queue = x at h1 h2
  obtain ⟨x, r1⟩ := x
  rcases h1 with h1 | ⟨i, d, h1⟩
  · dsimp only at h1 h2; subst h1
    dsimp only
    unfold passStage
    rw [h2, if_neg (by simp)]
    obtain ⟨g1, g2⟩ := takeSocks_fine e.fail hf r1.waiting.length r1 0 0 h2
    generalize r1.takeSocks e.fail r1.waiting.length 0 0 = y at g1 g2
    obtain ⟨y, r2⟩ := y
    rcases g1 with g1 | ⟨i, d, g1⟩
    · dsimp only at g1; subst g1
      dsimp only
      rw [ho]
      exact ⟨.inl rfl, g2⟩
    · dsimp only at g1; subst g1; exact ⟨.inr ⟨i, d, rfl⟩, g2⟩
  · dsimp only at h1; subst h1; exact ⟨.inr ⟨i, d, rfl⟩, h2⟩

theorem total_set {w : List (List Dgram)} {i : Nat} {d : Dgram} {l : List Dgram} (h : w[i]? = some (d :: l)) :
    ((w.set i l).map List.length).sum + 1 = (w.map List.length).sum := by
  induction w generalizing i with
  | nil => cases h
  | cons x w ih =>
    cases i with
    | zero => simp at h; subst h; simp; omega
    | succ i =>
      simp only [List.getElem?_cons_succ] at h
      have := ih h
      simp only [List.set_cons_succ, List.map_cons, List.sum_cons]
      omega

/-- **C73** (what holds): once no more datagrams arrive, and as long as nothing fails and no signal comes, every call
delivers one of the waiting datagrams, whichever socket it waits at, until none is left. -/
theorem backlog_is_worked_off_partial (r : Recv) (es : List RecvWorld) (hq : ∀ e ∈ es, e.during = [] ∧ (∀ i, e.fail i = false) ∧ e.poll0 = true ∧ e.poll1 = true ∧ e.others = true)
    (hs : r.signal = false) (hn : r.total ≤ es.length) : (r.run (es.map .recv)).total = 0 ∧ (delivered (r.trace (es.map .recv))).length = r.total := by
  have main : ∀ (es : List RecvWorld) (r : Recv), (∀ e ∈ es, e.during = [] ∧ (∀ i, e.fail i = false) ∧ e.poll0 = true ∧ e.poll1 = true ∧ e.others = true) →
      r.signal = false → (r.run (es.map .recv)).total + min r.total es.length = r.total ∧ (delivered (r.trace (es.map .recv))).length = min r.total es.length := by
    intro es
    induction es with
    | nil => intro r _ _; simp [run, trace, delivered]
    | cons e es ih =>
      intro r hq hs
      obtain ⟨q1, q2, q3, q4, q5⟩ := hq e (by simp)
      -- the poll
      have hp : ∃ r1 k, r.pollStage e = (true, r1, k) ∧ r1.waiting = r.waiting ∧ r1.signal = false := by
        unfold pollStage
        rw [q1, q3, q4]
        split
        · exact ⟨_, _, rfl, rfl, hs⟩
        · dsimp only
          rw [if_neg (by simp)]
          split
          · exact ⟨_, _, rfl, rfl, hs⟩
          · split
            · exact ⟨_, _, rfl, rfl, hs⟩
            · rw [if_neg (by simp)]
              exact ⟨_, _, rfl, rfl, hs⟩
      obtain ⟨r1, k, hp, w1, s1⟩ := hp
      have hl : (r1.loadStage e.now).waiting = r.waiting ∧ (r1.loadStage e.now).signal = false := by
        unfold loadStage
        split <;> exact ⟨w1, s1⟩
      have ht : r.tryRecv e = (((r1.loadStage e.now).serve e).1, ((r1.loadStage e.now).serve e).2, k) := by
        unfold tryRecv; rw [hp]
      have g := serve_took (r1.loadStage e.now) e
      obtain ⟨f1, f2⟩ := serve_fine (r1.loadStage e.now) e q2 q5 hl.2
      generalize (r1.loadStage e.now).serve e = x at ht g f1 f2
      obtain ⟨res, r2⟩ := x
      dsimp only at ht g f1 f2
      obtain ⟨i1, i2⟩ := ih r2 (fun e he => hq e (by simp [he])) f2
      have hd : ∀ t u, delivered (t ++ u) = delivered t ++ delivered u := fun t u => List.filterMap_append
      simp only [List.map_cons, run, trace, apply, observe, ht, hd, List.length_append]
      rcases f1 with rfl | ⟨i, d, rfl⟩
      · have hw : r2.waiting = r.waiting := (g.other (fun i d h => (nomatch h))).trans hl.1
        have hz : r2.total = 0 := by
          have : ∀ w : List (List Dgram), (∀ l ∈ w, l = []) → (w.map List.length).sum = 0 := by
            intro w
            induction w with
            | nil => intro _; rfl
            | cons x w ih => intro h; simp [h x (by simp), ih (fun l hl => h l (by simp [hl]))]
          exact this _ (g.empty rfl)
        have hz' : r.total = 0 := by unfold total at hz ⊢; rw [← hw]; exact hz
        rw [hz] at i1 i2
        rw [hz']
        simp only [delivered, List.filterMap_cons, List.filterMap_nil, List.length_nil] at i2 ⊢
        omega
      · obtain ⟨l, h1, h2⟩ := g.msg i d rfl
        rw [hl.1] at h1 h2
        have : r2.total + 1 = r.total := by unfold total; rw [h2]; exact total_set h1
        simp only [delivered, List.filterMap_cons, List.filterMap_nil, List.length_cons, List.length_nil] at i2 ⊢
        omega
  obtain ⟨h1, h2⟩ := main es r hq hs
  rw [Nat.min_eq_left hn] at h1 h2
  exact ⟨by omega, h2⟩

/-- C73: the hypotheses are met with three datagrams at two sockets -/
example : ∃ r : Recv, r.signal = false ∧ r.total = 3 :=
  ⟨(((new 2 0).arrive 0 [1] (.v4 [10, 0, 0, 1] 9)).arrive 1 [2] (.v4 [10, 0, 0, 1] 9)).arrive 0 [3] (.v4 [10, 0, 0, 1] 9), by decide, by decide⟩

/-- C50: a server that always finds something to read is under load after half a second, and no longer under load
half a second after the flood has ended -/
example : ((new 1 0).run [.recv (fine 1), .arrive 0 [1] (.v4 [10, 0, 0, 1] 9), .recv (fine 100), .recv (fine 501)]).underLoad = false ∧
    ((new 1 0).run [.arrive 0 [1] (.v4 [10, 0, 0, 1] 9), .arrive 0 [1] (.v4 [10, 0, 0, 1] 9), .recv (fine 1), .recv (fine 501)]).underLoad = true ∧
    ((new 1 0).run [.arrive 0 [1] (.v4 [10, 0, 0, 1] 9), .arrive 0 [1] (.v4 [10, 0, 0, 1] 9), .recv (fine 1), .recv (fine 501), .recv (fine 502), .recv (fine 503), .recv (fine 1002)]).underLoad = false := by
  decide

end Recv

/-! ### C50: what the load status is used for -/

namespace Daemon
open Server
variable {C : Crypto}

/-- **C50**, use: a received datagram is handled through the cookie path, under the identity of the socket and address it
came from, if the server is under load, and in the ordinary way otherwise. -/
theorem load_status_selects_path (d : Daemon) (e : World) (re : RecvWorld) (s s1 : Server) (t : Time) (hs : d.app.site = .product s)
    (hp : s.poll e.now e.prnd = some (.sleep t, s1)) (i : Nat) (g : Dgram) (hm : (d.recv.tryRecv re).1 = .msg i g) :
    ((d.recv.tryRecv re).2.1.underLoad = true →
      (d.round C e re).2.app.site = .product (s1.handleMsgUnderLoad C g.data e.tx (hostId i g.addr) e.later e.rnd).2) ∧
    ((d.recv.tryRecv re).2.1.underLoad = false →
      (d.round C e re).2.app.site = .product (s1.handleMsg C g.data e.tx e.later e.rnd).2) := by
  have hl : listens d.app e = true := by unfold listens; rw [hs]; dsimp only; rw [hp]
  have site : ∀ (a : App) (m : MsgResult) (sock : Nat) (addr : Addr) (e : World), (a.received C m sock addr e).app.site = a.site := by
    intro a m sock addr e
    unfold App.received App.Res.andThen
    have ex : ∀ p, (a.exchanged C p sock addr e).app.site = a.site := by
      intro p
      unfold App.exchanged
      split
      · rfl
      · dsimp only
        split
        · rfl
        · split
          · rfl
          · rename_i k _
            obtain ⟨fs, hfs⟩ := App.outputKey_app (C := C) ({ a with peers := a.peers.set p _ } : App) p .exchanged k e
            rw [hfs]
    dsimp only
    cases m.resp with
    | none =>
      dsimp only
      cases m.exchanged with
      | none => rfl
      | some p => exact ex p
    | some msg =>
      dsimp only
      by_cases he : e.sendTo = true
      · rw [if_pos he]
        dsimp only
        cases m.exchanged with
        | none => rfl
        | some p => exact ex p
      · rw [if_neg he]
  have main : (d.round C e re).2.app = (d.app.step C { e with io := ioOf (d.recv.tryRecv re).1, load := (d.recv.tryRecv re).2.1.underLoad }).app := by
    unfold round
    rw [if_pos hl]
  have hstep : ∀ load, (d.app.step C { e with io := .msg g.data i g.addr, load := load }).app.site =
      .product (if load then s1.handleMsgUnderLoad C g.data e.tx (hostId i g.addr) e.later e.rnd else s1.handleMsg C g.data e.tx e.later e.rnd).2 := by
    intro load
    unfold App.step
    rw [hs]
    dsimp only
    rw [hp]
    dsimp only
    unfold App.message
    dsimp only
    split
    · rfl
    · rfl
    · rw [site]
  rw [main, hm]
  exact ⟨fun h => by rw [h]; exact hstep true, fun h => by rw [h]; exact hstep false⟩

end Daemon
end Verif
