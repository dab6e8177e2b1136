import Verif.Model.BrokerSocket
import Verif.Thm.BrokerClient
/-
The socket handler in front of the privileged broker: C75 (answers go to the client that asked, in order), C76 (a client
cannot block the others: false; proved for well-formed requests), for every interleaving of its tasks.
-/
namespace Verif.Broker

/-- Specification: the messages of client `i` in a list of messages of all clients. -/
def ofClient (i : Nat) (l : List (Nat × Bytes)) : List Bytes := (l.filter (fun x => x.1 = i)).map (·.2)

/-- Specification: the messages clients sent. -/
def arrivals : List Act → List (Nat × Bytes)
  | [] => []
  | .arrive i m :: as => (i, m) :: arrivals as
  | _ :: as => arrivals as

/-- Specification: the answers of a broker to a sequence of messages of several clients. -/
def answersTo {σ : Type} (inner : Inner σ) : σ → List (Nat × Bytes) → List (Nat × Bytes)
  | _, [] => []
  | s, (i, m) :: l => (handleMessage inner s m).1.toList.map (fun r => (i, r)) ++ answersTo inner (handleMessage inner s m).2 l

theorem ofClient_append (i : Nat) (a b : List (Nat × Bytes)) : ofClient i (a ++ b) = ofClient i a ++ ofClient i b := by
  simp [ofClient]
theorem ofClient_one (i j : Nat) (m : Bytes) : ofClient i [(j, m)] = if j = i then [m] else [] := by
  unfold ofClient
  by_cases h : j = i <;> simp [h]
theorem ofClient_cons (i j : Nat) (m : Bytes) (l : List (Nat × Bytes)) : ofClient i ((j, m) :: l) = (if j = i then [m] else []) ++ ofClient i l := by
  rw [show (j, m) :: l = [(j, m)] ++ l from rfl, ofClient_append, ofClient_one]

theorem find_erase (i : Nat) (l : List (Nat × Bytes)) (j : Nat) (m : Bytes) (h : l.find? (fun x => x.1 = i) = some (j, m)) :
    j = i ∧ ofClient i l = m :: ofClient i (l.eraseP (fun x => x.1 = i)) ∧
      (∀ k, k ≠ i → ofClient k (l.eraseP (fun x => x.1 = i)) = ofClient k l) ∧ (l.eraseP (fun x => x.1 = i)).length + 1 = l.length := by
  induction l with
  | nil => cases h
  | cons x l ih =>
    obtain ⟨a, b⟩ := x
    by_cases ha : a = i
    · rw [List.find?_cons_of_pos (by simpa using ha)] at h
      cases h
      rw [List.eraseP_cons_of_pos (by simpa using ha)]
      refine ⟨ha, by rw [ofClient_cons, if_pos ha]; rfl, ?_, rfl⟩
      intro k hk
      rw [ofClient_cons, if_neg (by rintro rfl; exact hk ha)]; rfl
    · rw [List.find?_cons_of_neg (by simpa using ha)] at h
      obtain ⟨h1, h2, h3, h4⟩ := ih h
      rw [List.eraseP_cons_of_neg (by simpa using ha)]
      refine ⟨h1, by rw [ofClient_cons, if_neg ha, ofClient_cons, if_neg ha]; exact h2, ?_, by simp only [List.length_cons]; omega⟩
      intro k hk
      rw [ofClient_cons, ofClient_cons, h3 k hk]

theorem answersTo_append {σ : Type} (inner : Inner σ) (l l' : List (Nat × Bytes)) : ∀ s,
    answersTo inner s (l ++ l') = answersTo inner s l ++ answersTo inner (handleAll inner s (l.map (·.2))).2 l' := by
  induction l with
  | nil => intro s; rfl
  | cons x l ih =>
    intro s
    obtain ⟨i, m⟩ := x
    simp [answersTo, handleAll, ih]

theorem handleAll_append {σ : Type} (inner : Inner σ) (l l' : List Bytes) : ∀ s,
    (handleAll inner s (l ++ l')).2 = (handleAll inner (handleAll inner s l).2 l').2 := by
  induction l with
  | nil => intro s; rfl
  | cons m l ih => intro s; simp [handleAll, ih]

/-- the client the worker is busy with -/
def Worker.owner : Worker → Option Nat
  | .idle => none
  | .sent i _ => some i
  | .answered i _ => some i
  | .silent i => some i

/-- the request in the pipe -/
def Worker.pending : Worker → List (Nat × Bytes)
  | .sent i m => [(i, m)]
  | _ => []

/-- what is known about client `i` -/
inductive ClientInv (p : Phase) (q : List Bytes) (w : Worker) (i : Nat) (out ans : List Bytes) : Prop where
  | calm (hp : p = .fresh ∨ p = .reading) (hq : q = []) (hw : w.owner ≠ some i) (h : out = ans)
  | closed (hp : p = .closed) (hq : q = []) (hw : w.owner ≠ some i) (h : out = ans ∨ ∃ r, ans = out ++ [r])
  | queued (hp : p = .waiting) (m : Bytes) (hq : q = [m]) (hw : w.owner ≠ some i) (h : out = ans)
  | sent (hp : p = .waiting) (hq : q = []) (m : Bytes) (hw : w = .sent i m) (h : out = ans)
  | answered (hp : p = .waiting) (hq : q = []) (r : Bytes) (hw : w = .answered i r) (h : ans = out ++ [r])
  | silent (hp : p = .waiting) (hq : q = []) (hw : w = .silent i) (h : out = ans)
  | replied (r : Bytes) (hp : p = .replied r) (hq : q = []) (hw : w.owner ≠ some i) (h : ans = out ++ [r])

/-- Invariant: `h` are the messages the broker has handled, `A` those that arrived. -/
structure SockInv {σ : Type} (inner : Inner σ) (s0 : σ) (A : List (Nat × Bytes)) (s : Sock σ) (h : List (Nat × Bytes)) : Prop where
  state : s.state = (handleAll inner s0 (h.map (·.2))).2
  msgs : ∀ i, ofClient i h ++ ofClient i s.worker.pending ++ ofClient i s.queue ++ ofClient i s.inbox = ofClient i A
  client : ∀ i, ClientInv (s.phase i) (ofClient i s.queue) s.worker i (ofClient i s.out) (ofClient i (answersTo inner s0 h))

theorem ClientInv.reading {q : List Bytes} {w : Worker} {i : Nat} {out ans : List Bytes} (h : ClientInv .reading q w i out ans) :
    q = [] ∧ w.owner ≠ some i ∧ out = ans := by
  cases h with
  | calm _ a b c => exact ⟨a, b, c⟩
  | closed hp => cases hp
  | queued hp => cases hp
  | sent hp => cases hp
  | answered hp => cases hp
  | silent hp => cases hp
  | replied _ hp => cases hp

theorem ClientInv.toReplied {r : Bytes} {q : List Bytes} {w : Worker} {i : Nat} {out ans : List Bytes} (h : ClientInv (.replied r) q w i out ans) :
    q = [] ∧ w.owner ≠ some i ∧ ans = out ++ [r] := by
  cases h with
  | calm hp => rcases hp with hp | hp <;> cases hp
  | closed hp => cases hp
  | queued hp => cases hp
  | sent hp => cases hp
  | answered hp => cases hp
  | silent hp => cases hp
  | replied _ hp a b c => cases hp; exact ⟨a, b, c⟩

/-- another worker state that does not concern the client -/
theorem ClientInv.other {p : Phase} {q : List Bytes} {w w' : Worker} {i : Nat} {out ans : List Bytes} (h : ClientInv p q w i out ans)
    (h1 : w.owner ≠ some i) (h2 : w'.owner ≠ some i) : ClientInv p q w' i out ans := by
  cases h with
  | calm hp hq _ h => exact .calm hp hq h2 h
  | closed hp hq _ h => exact .closed hp hq h2 h
  | queued hp m hq _ h => exact .queued hp m hq h2 h
  | sent hp hq m hw h => subst hw; exact absurd rfl h1
  | answered hp hq r hw h => subst hw; exact absurd rfl h1
  | silent hp hq hw h => subst hw; exact absurd rfl h1
  | replied r hp hq _ h => exact .replied r hp hq h2 h

theorem step_inv {σ : Type} (inner : Inner σ) (s0 : σ) (A : List (Nat × Bytes)) (s s' : Sock σ) (h : List (Nat × Bytes)) (a : Act)
    (hi : SockInv inner s0 A s h) (hs : s.step inner a = some s') :
    ∃ h', SockInv inner s0 (A ++ arrivals [a]) s' h' := by
  cases a with
  | accept i =>
    unfold Sock.step at hs
    dsimp only at hs
    by_cases hp : s.phase i = .fresh
    · rw [if_pos hp] at hs; cases hs
      refine ⟨h, hi.state, fun j => by simpa [arrivals, Sock.setPhase] using hi.msgs j, fun j => ?_⟩
      have hj := hi.client j
      show ClientInv (if j = i then _ else _) _ _ _ _ _
      by_cases e : j = i
      · rw [if_pos e]; subst e; rw [hp] at hj
        cases hj with
        | calm _ a b c => exact .calm (.inr rfl) a b c
        | closed hp => cases hp
        | queued hp => cases hp
        | sent hp => cases hp
        | answered hp => cases hp
        | silent hp => cases hp
        | replied _ hp => cases hp
      · rw [if_neg e]; exact hj
    · rw [if_neg hp] at hs; cases hs
  | arrive i m =>
    cases hs
    refine ⟨h, hi.state, fun j => ?_, hi.client⟩
    show _ ++ ofClient j (s.inbox ++ [(i, m)]) = ofClient j (A ++ [(i, m)])
    rw [ofClient_append, ofClient_append, ← hi.msgs j]
    simp
  | take i =>
    unfold Sock.step at hs
    dsimp only at hs
    by_cases hp : s.phase i = .reading
    · rw [if_pos hp] at hs
      cases hf : s.inbox.find? (fun x => x.1 = i) with
      | none => rw [hf] at hs; cases hs
      | some x =>
        obtain ⟨j0, m⟩ := x
        rw [hf] at hs
        dsimp only at hs
        obtain ⟨_, hmi, hmo, _⟩ := find_erase i s.inbox j0 m hf
        have hci := hi.client i
        rw [hp] at hci
        obtain ⟨hq, hw, ho⟩ := hci.reading
        by_cases hbig : requestSize < m.length
        · rw [if_pos hbig] at hs; cases hs
          refine ⟨h, hi.state, fun j => by simpa [arrivals, Sock.setPhase] using hi.msgs j, fun j => ?_⟩
          show ClientInv (if j = i then _ else _) _ _ _ _ _
          by_cases e : j = i
          · rw [if_pos e]; subst e; exact .closed rfl hq hw (.inl ho)
          · rw [if_neg e]; exact hi.client j
        · rw [if_neg hbig] at hs
          by_cases hfull : s.queue.length < queueSize
          · rw [if_pos hfull] at hs; cases hs
            refine ⟨h, hi.state, fun j => ?_, fun j => ?_⟩
            · show _ ++ ofClient j s.worker.pending ++ ofClient j (s.queue ++ [(i, m)]) ++ ofClient j (s.inbox.eraseP (fun x => x.1 = i)) = ofClient j (A ++ [])
              rw [List.append_nil, ← hi.msgs j, ofClient_append, ofClient_one]
              by_cases e : j = i
              · subst e; rw [if_pos rfl, hmi]; simp
              · rw [if_neg (fun x => e x.symm), hmo j e]; simp
            · show ClientInv (if j = i then _ else _) (ofClient j (s.queue ++ [(i, m)])) _ _ _ _
              rw [ofClient_append, ofClient_one]
              by_cases e : j = i
              · rw [if_pos e, if_pos e.symm]; subst e; exact .queued rfl m (by rw [hq]; rfl) hw ho
              · rw [if_neg e, if_neg (fun x => e x.symm), List.append_nil]; exact hi.client j
          · rw [if_neg hfull] at hs; cases hs
    · rw [if_neg hp] at hs; cases hs
  | hangup i =>
    unfold Sock.step at hs
    dsimp only at hs
    by_cases hp : s.phase i = .reading
    · rw [if_pos hp] at hs; cases hs
      refine ⟨h, hi.state, fun j => by simpa [arrivals, Sock.setPhase] using hi.msgs j, fun j => ?_⟩
      have hci := hi.client i
      rw [hp] at hci
      obtain ⟨hq, hw, ho⟩ := hci.reading
      show ClientInv (if j = i then _ else _) _ _ _ _ _
      by_cases e : j = i
      · rw [if_pos e]; subst e; exact .closed rfl hq hw (.inl ho)
      · rw [if_neg e]; exact hi.client j
    · rw [if_neg hp] at hs; cases hs
  | forward =>
    unfold Sock.step at hs
    dsimp only at hs
    cases hw : s.worker with
    | sent i m => rw [hw] at hs; cases hs
    | answered i r => rw [hw] at hs; cases hs
    | silent i => rw [hw] at hs; cases hs
    | idle =>
      cases hq : s.queue with
      | nil => rw [hw, hq] at hs; cases hs
      | cons x q =>
        obtain ⟨i, m⟩ := x
        rw [hw, hq] at hs
        cases hs
        refine ⟨h, hi.state, fun j => ?_, fun j => ?_⟩
        · show _ ++ ofClient j [(i, m)] ++ ofClient j q ++ _ = ofClient j (A ++ [])
          rw [List.append_nil, ← hi.msgs j, hq, hw, ofClient_cons j i m q, ofClient_one]
          simp [Worker.pending, ofClient]
        · have hj := hi.client j
          rw [hq, hw, ofClient_cons] at hj
          show ClientInv _ (ofClient j q) (.sent i m) j _ _
          by_cases e : i = j
          · subst e
            rw [if_pos rfl] at hj
            cases hj with
            | calm _ a => simp at a
            | closed _ a => simp at a
            | queued hp m' hq hw ho =>
              simp at hq
              exact .sent hp hq.2 m rfl ho
            | sent _ a => simp at a
            | answered _ a => simp at a
            | silent _ a => simp at a
            | replied _ _ a => simp at a
          · rw [if_neg e] at hj
            exact ClientInv.other hj (by intro x; cases x) (by intro x; exact e (Option.some.inj x))
  | backend =>
    unfold Sock.step at hs
    dsimp only at hs
    cases hw : s.worker with
    | idle => rw [hw] at hs; cases hs
    | answered i r => rw [hw] at hs; cases hs
    | silent i => rw [hw] at hs; cases hs
    | sent i m =>
      rw [hw] at hs
      dsimp only at hs
      have hst : (handleMessage inner s.state m).2 = (handleAll inner s0 ((h ++ [(i, m)]).map (·.2))).2 := by
        rw [List.map_append, handleAll_append, ← hi.state]; rfl
      have hans : answersTo inner s0 (h ++ [(i, m)]) = answersTo inner s0 h ++ (handleMessage inner s.state m).1.toList.map (fun r => (i, r)) := by
        rw [answersTo_append, ← hi.state]; simp [answersTo]
      have hmsg : ∀ j, ofClient j (h ++ [(i, m)]) ++ ofClient j [] ++ ofClient j s.queue ++ ofClient j s.inbox = ofClient j (A ++ []) := by
        intro j
        rw [List.append_nil, ← hi.msgs j, hw, ofClient_append]
        simp [Worker.pending, ofClient]
      cases hx : (handleMessage inner s.state m).1 with
      | none =>
        rw [hx] at hs; cases hs
        rw [hx] at hans
        refine ⟨h ++ [(i, m)], hst, hmsg, fun j => ?_⟩
        rw [hans]
        have hj := hi.client j
        rw [hw] at hj
        show ClientInv _ _ (.silent i) j _ (ofClient j (_ ++ []))
        rw [List.append_nil]
        by_cases e : j = i
        · subst e
          cases hj with
          | calm _ _ a => exact absurd rfl a
          | closed _ _ a => exact absurd rfl a
          | queued _ _ _ a => exact absurd rfl a
          | sent hp hq _ _ ho => exact .silent hp hq rfl ho
          | answered _ _ _ a => cases a
          | silent _ _ a => cases a
          | replied _ _ _ a => exact absurd rfl a
        · exact ClientInv.other hj (fun x => e (Option.some.inj x).symm) (fun x => e (Option.some.inj x).symm)
      | some r =>
        rw [hx] at hs; cases hs
        rw [hx] at hans
        refine ⟨h ++ [(i, m)], hst, hmsg, fun j => ?_⟩
        rw [hans]
        have hj := hi.client j
        rw [hw] at hj
        show ClientInv _ _ (.answered i r) j _ (ofClient j (_ ++ [(i, r)]))
        rw [ofClient_append, ofClient_one]
        by_cases e : j = i
        · subst e
          rw [if_pos rfl]
          cases hj with
          | calm _ _ a => exact absurd rfl a
          | closed _ _ a => exact absurd rfl a
          | queued _ _ _ a => exact absurd rfl a
          | sent hp hq _ _ ho => exact .answered hp hq r rfl (by rw [ho])
          | answered _ _ _ a => cases a
          | silent _ _ a => cases a
          | replied _ _ _ a => exact absurd rfl a
        · rw [if_neg (fun x => e x.symm), List.append_nil]
          exact ClientInv.other hj (fun x => e (Option.some.inj x).symm) (fun x => e (Option.some.inj x).symm)
  | reply =>
    unfold Sock.step at hs
    dsimp only at hs
    cases hw : s.worker with
    | idle => rw [hw] at hs; cases hs
    | sent i m => rw [hw] at hs; cases hs
    | silent i => rw [hw] at hs; cases hs
    | answered i r =>
      rw [hw] at hs
      cases hs
      refine ⟨h, hi.state, fun j => ?_, fun j => ?_⟩
      · have := hi.msgs j
        rw [hw] at this
        simpa [arrivals, Sock.setPhase, Worker.pending] using this
      · have hj := hi.client j
        rw [hw] at hj
        show ClientInv (if j = i then _ else _) _ .idle _ _ _
        by_cases e : j = i
        · rw [if_pos e]; subst e
          cases hj with
          | calm _ _ a => exact absurd rfl a
          | closed _ _ a => exact absurd rfl a
          | queued _ _ _ a => exact absurd rfl a
          | sent _ _ _ a => cases a
          | answered hp hq r' a ho => cases a; exact .replied r rfl hq nofun ho
          | silent _ _ a => cases a
          | replied _ _ _ a => exact absurd rfl a
        · rw [if_neg e]
          exact ClientInv.other hj (fun x => e (Option.some.inj x).symm) nofun
  | deliver i ok =>
    unfold Sock.step at hs
    dsimp only at hs
    cases hp : s.phase i with
    | fresh => rw [hp] at hs; cases hs
    | reading => rw [hp] at hs; cases hs
    | waiting => rw [hp] at hs; cases hs
    | closed => rw [hp] at hs; cases hs
    | replied r =>
      rw [hp] at hs
      dsimp only at hs
      have hci := hi.client i
      rw [hp] at hci
      obtain ⟨hq, hw, ho⟩ := hci.toReplied
      cases ok with
      | true =>
        rw [if_pos rfl] at hs; cases hs
        refine ⟨h, hi.state, fun j => by simpa [arrivals, Sock.setPhase] using hi.msgs j, fun j => ?_⟩
        show ClientInv (if j = i then _ else _) _ _ _ (ofClient j (s.out ++ [(i, r)])) _
        rw [ofClient_append, ofClient_one]
        by_cases e : j = i
        · rw [if_pos e]; subst e; rw [if_pos rfl]; exact .calm (.inr rfl) hq hw ho.symm
        · rw [if_neg e, if_neg (fun x => e x.symm), List.append_nil]; exact hi.client j
      | false =>
        rw [if_neg (by decide)] at hs; cases hs
        refine ⟨h, hi.state, fun j => by simpa [arrivals, Sock.setPhase] using hi.msgs j, fun j => ?_⟩
        show ClientInv (if j = i then _ else _) _ _ _ _ _
        by_cases e : j = i
        · rw [if_pos e]; subst e; exact .closed rfl hq hw (.inr ⟨r, ho⟩)
        · rw [if_neg e]; exact hi.client j

theorem init_inv {σ : Type} (inner : Inner σ) (s0 : σ) : SockInv inner s0 [] (Sock.init s0) [] :=
  ⟨rfl, fun _ => rfl, fun _ => .calm (.inl rfl) rfl nofun rfl⟩

theorem arrivals_append (a b : List Act) : arrivals (a ++ b) = arrivals a ++ arrivals b := by
  induction a with
  | nil => rfl
  | cons x a ih => cases x <;> simp [arrivals, ih]

theorem sock_run_inv {σ : Type} (inner : Inner σ) (s0 : σ) (acts : List Act) : ∀ (A h : List (Nat × Bytes)) (s s' : Sock σ),
    SockInv inner s0 A s h → s.run inner acts = some s' → ∃ h', SockInv inner s0 (A ++ arrivals acts) s' h' := by
  induction acts with
  | nil => intro A h s s' hi hr; cases hr; exact ⟨h, by simpa [arrivals] using hi⟩
  | cons a as ih =>
    intro A h s s' hi hr
    unfold Sock.run at hr
    cases hs : s.step inner a with
    | none => rw [hs] at hr; cases hr
    | some s1 =>
      rw [hs] at hr
      obtain ⟨h1, hi1⟩ := step_inv inner s0 A s s1 h a hi hs
      obtain ⟨h2, hi2⟩ := ih _ _ _ _ hi1 hr
      refine ⟨h2, ?_⟩
      rw [show a :: as = [a] ++ as from rfl, arrivals_append, ← List.append_assoc]
      exact hi2

/-- **C75.** For every interleaving of any number of clients: there is one order `h` in which the broker has handled
messages, and for every client, the messages of it that were handled are the first ones it sent, in order, each once;
the answers it was sent are the answers to its own messages, in order, and at most the latest one is still to come. -/
theorem answers_go_to_their_client {σ : Type} (inner : Inner σ) (s0 : σ) (acts : List Act) (s : Sock σ)
    (hr : (Sock.init s0).run inner acts = some s) :
    ∃ h, s.state = (handleAll inner s0 (h.map (·.2))).2 ∧ ∀ i,
      ofClient i h <+: ofClient i (arrivals acts) ∧
      ofClient i s.out <+: ofClient i (answersTo inner s0 h) ∧
      (ofClient i (answersTo inner s0 h)).length ≤ (ofClient i s.out).length + 1 := by
  obtain ⟨h, hi⟩ := sock_run_inv inner s0 acts _ _ _ _ (init_inv inner s0) hr
  rw [List.nil_append] at hi
  refine ⟨h, hi.state, fun i => ⟨?_, ?_⟩⟩
  · rw [← hi.msgs i, List.append_assoc, List.append_assoc]; exact List.prefix_append _ _
  · have key : ofClient i s.out = ofClient i (answersTo inner s0 h) ∨ ∃ r, ofClient i (answersTo inner s0 h) = ofClient i s.out ++ [r] := by
      cases hi.client i with
      | calm _ _ _ h => exact .inl h
      | closed _ _ _ h => exact h
      | queued _ _ _ _ h => exact .inl h
      | sent _ _ _ _ h => exact .inl h
      | answered _ _ r _ h => exact .inr ⟨r, h⟩
      | silent _ _ _ h => exact .inl h
      | replied r _ _ _ h => exact .inr ⟨r, h⟩
    rcases key with h | ⟨r, h⟩
    · rw [h]; exact ⟨List.prefix_refl _, by omega⟩
    · rw [h]; exact ⟨List.prefix_append _ _, by simp⟩

/-! ### Progress -/

/-- Specification: steps the handler and the broker take by themselves, as opposed to what clients do. -/
def Act.internal : Act → Bool
  | .take _ | .forward | .backend | .reply | .deliver _ true => true
  | _ => false

/-- Specification: nothing is left to do. -/
def Sock.Quiet {σ : Type} (inner : Inner σ) (s : Sock σ) : Prop := ∀ a, a.internal = true → s.step inner a = none

/-- the broker never falls silent if all messages are requests -/
theorem never_silent {σ : Type} (inner : Inner σ) (acts : List Act) : ∀ (s s' : Sock σ),
    (∀ x ∈ s.inbox, ∃ c, IsRequest x.2 c) → (∀ x ∈ s.queue, ∃ c, IsRequest x.2 c) → (∀ x ∈ s.worker.pending, ∃ c, IsRequest x.2 c) →
    (∀ i, s.worker ≠ .silent i) → (∀ x ∈ arrivals acts, ∃ c, IsRequest x.2 c) → s.run inner acts = some s' →
    (∀ x ∈ s'.inbox, ∃ c, IsRequest x.2 c) ∧ (∀ x ∈ s'.queue, ∃ c, IsRequest x.2 c) ∧ (∀ x ∈ s'.worker.pending, ∃ c, IsRequest x.2 c) ∧
    (∀ i, s'.worker ≠ .silent i) := by
  induction acts with
  | nil => intro s s' h1 h2 h3 h4 _ hr; cases hr; exact ⟨h1, h2, h3, h4⟩
  | cons a as ih =>
    intro s s' h1 h2 h3 h4 h5 hr
    unfold Sock.run at hr
    cases hs : s.step inner a with
    | none => rw [hs] at hr; cases hr
    | some s1 =>
      rw [hs] at hr
      dsimp only at hr
      have h5' : ∀ x ∈ arrivals as, ∃ c, IsRequest x.2 c := by
        intro x hx
        refine h5 x ?_
        rw [show a :: as = [a] ++ as from rfl, arrivals_append]
        exact List.mem_append_right _ hx
      suffices hh : (∀ x ∈ s1.inbox, ∃ c, IsRequest x.2 c) ∧ (∀ x ∈ s1.queue, ∃ c, IsRequest x.2 c) ∧
          (∀ x ∈ s1.worker.pending, ∃ c, IsRequest x.2 c) ∧ (∀ i, s1.worker ≠ .silent i) from
        ih s1 s' hh.1 hh.2.1 hh.2.2.1 hh.2.2.2 h5' hr
      cases a with
      | accept i =>
        unfold Sock.step at hs
        dsimp only at hs
        by_cases hp : s.phase i = .fresh
        · rw [if_pos hp] at hs; cases hs; exact ⟨h1, h2, h3, h4⟩
        · rw [if_neg hp] at hs; cases hs
      | hangup i =>
        unfold Sock.step at hs
        dsimp only at hs
        by_cases hp : s.phase i = .reading
        · rw [if_pos hp] at hs; cases hs; exact ⟨h1, h2, h3, h4⟩
        · rw [if_neg hp] at hs; cases hs
      | arrive i m =>
        cases hs
        refine ⟨?_, h2, h3, h4⟩
        intro x hx
        rcases List.mem_append.1 hx with hx | hx
        · exact h1 x hx
        · have : x = (i, m) := by simpa using hx
          subst this
          exact h5 _ List.mem_cons_self
      | take i =>
        unfold Sock.step at hs
        dsimp only at hs
        by_cases hp : s.phase i = .reading
        · rw [if_pos hp] at hs
          cases hf : s.inbox.find? (fun x => x.1 = i) with
          | none => rw [hf] at hs; cases hs
          | some x =>
            obtain ⟨j, m⟩ := x
            rw [hf] at hs
            dsimp only at hs
            have hmem := List.mem_of_find?_eq_some hf
            have hji := (find_erase i _ _ _ hf).1
            by_cases hbig : requestSize < m.length
            · rw [if_pos hbig] at hs; cases hs; exact ⟨h1, h2, h3, h4⟩
            · rw [if_neg hbig] at hs
              by_cases hfull : s.queue.length < queueSize
              · rw [if_pos hfull] at hs; cases hs
                refine ⟨fun x hx => h1 x (List.mem_of_mem_eraseP hx), ?_, h3, h4⟩
                intro x hx
                rcases List.mem_append.1 hx with hx | hx
                · exact h2 x hx
                · have : x = (i, m) := by simpa using hx
                  subst this; subst hji
                  exact h1 _ hmem
              · rw [if_neg hfull] at hs; cases hs
        · rw [if_neg hp] at hs; cases hs
      | forward =>
        unfold Sock.step at hs
        dsimp only at hs
        cases hw : s.worker with
        | sent i m => rw [hw] at hs; cases hs
        | answered i r => rw [hw] at hs; cases hs
        | silent i => rw [hw] at hs; cases hs
        | idle =>
          cases hq : s.queue with
          | nil => rw [hw, hq] at hs; cases hs
          | cons x q =>
            obtain ⟨i, m⟩ := x
            rw [hw, hq] at hs
            cases hs
            rw [hq] at h2
            refine ⟨h1, fun x hx => h2 x (List.mem_cons_of_mem _ hx), ?_, nofun⟩
            intro x hx
            have : x = (i, m) := by simpa [Worker.pending] using hx
            subst this; exact h2 _ List.mem_cons_self
      | backend =>
        unfold Sock.step at hs
        dsimp only at hs
        cases hw : s.worker with
        | idle => rw [hw] at hs; cases hs
        | answered i r => rw [hw] at hs; cases hs
        | silent i => rw [hw] at hs; cases hs
        | sent i m =>
          rw [hw] at hs h3
          obtain ⟨c, hc⟩ := h3 (i, m) List.mem_cons_self
          dsimp only at hs
          rw [handle_request inner s.state hc] at hs
          cases hs
          exact ⟨h1, h2, nofun, nofun⟩
      | reply =>
        unfold Sock.step at hs
        dsimp only at hs
        cases hw : s.worker with
        | idle => rw [hw] at hs; cases hs
        | sent i m => rw [hw] at hs; cases hs
        | silent i => rw [hw] at hs; cases hs
        | answered i r => rw [hw] at hs; cases hs; exact ⟨h1, h2, nofun, nofun⟩
      | deliver i ok =>
        unfold Sock.step at hs
        dsimp only at hs
        cases hp : s.phase i with
        | fresh => rw [hp] at hs; cases hs
        | reading => rw [hp] at hs; cases hs
        | waiting => rw [hp] at hs; cases hs
        | closed => rw [hp] at hs; cases hs
        | replied r =>
          rw [hp] at hs
          dsimp only at hs
          cases ok with
          | true => rw [if_pos rfl] at hs; cases hs; exact ⟨h1, h2, h3, h4⟩
          | false => rw [if_neg (by decide)] at hs; cases hs; exact ⟨h1, h2, h3, h4⟩

/-- **C76, for well-formed requests.** If all clients send requests in the specified format, then whenever the handler and
the broker have nothing left to do, every client that is connected has received an answer to every request it sent:
no client blocks another. -/
theorem all_clients_answered_partial {σ : Type} (inner : Inner σ) (s0 : σ) (acts : List Act) (s : Sock σ)
    (hr : (Sock.init s0).run inner acts = some s) (hw : ∀ x ∈ arrivals acts, ∃ c, IsRequest x.2 c) (hq : s.Quiet inner) (i : Nat)
    (hi : s.phase i ≠ .fresh) (hc : s.phase i ≠ .closed) :
    ∃ h, s.state = (handleAll inner s0 (h.map (·.2))).2 ∧ ofClient i h = ofClient i (arrivals acts) ∧
      ofClient i s.out = ofClient i (answersTo inner s0 h) := by
  obtain ⟨h, hv⟩ := sock_run_inv inner s0 acts _ _ _ _ (init_inv inner s0) hr
  rw [List.nil_append] at hv
  obtain ⟨n1, n2, n3, n4⟩ := never_silent inner acts (Sock.init s0) s (fun x h => nomatch h) (fun x h => nomatch h) (fun x h => nomatch h) (fun i h => nomatch h) hw hr
  -- the worker is idle and the queue is empty
  have hwk : s.worker = .idle := by
    cases hw : s.worker with
    | idle => rfl
    | sent j m =>
      exfalso
      have := hq .backend rfl
      unfold Sock.step at this
      rw [hw] at this
      dsimp only at this
      cases hx : (handleMessage inner s.state m).1 with
      | none => rw [hx] at this; cases this
      | some r => rw [hx] at this; cases this
    | answered j r =>
      exfalso
      have := hq .reply rfl
      unfold Sock.step at this
      rw [hw] at this; cases this
    | silent j => exact absurd hw (n4 j)
  have hqu : s.queue = [] := by
    cases hqq : s.queue with
    | nil => rfl
    | cons x q =>
      exfalso
      have := hq .forward rfl
      unfold Sock.step at this
      rw [hwk, hqq] at this; cases this
  have hci := hv.client i
  rw [hwk, hqu] at hci
  have hrd : s.phase i = .reading ∧ ofClient i s.out = ofClient i (answersTo inner s0 h) := by
    cases hci with
    | calm hp _ _ ho => rcases hp with hp | hp; exact absurd hp hi; exact ⟨hp, ho⟩
    | closed hp => exact absurd hp hc
    | queued _ m a => simp [ofClient] at a
    | sent _ _ _ a => cases a
    | answered _ _ _ a => cases a
    | silent _ _ a => cases a
    | replied r hp =>
      exfalso
      have := hq (.deliver i true) rfl
      unfold Sock.step at this
      dsimp only at this
      rw [hp] at this
      dsimp only at this
      rw [if_pos rfl] at this; cases this
  have hin : ofClient i s.inbox = [] := by
    have := hq (.take i) rfl
    unfold Sock.step at this
    dsimp only at this
    rw [if_pos hrd.1] at this
    cases hf : s.inbox.find? (fun x => x.1 = i) with
    | none =>
      unfold ofClient
      rw [List.map_eq_nil_iff, List.filter_eq_nil_iff]
      intro x hx
      exact List.find?_eq_none.1 hf x hx
    | some x =>
      exfalso
      obtain ⟨j, m⟩ := x
      rw [hf] at this
      dsimp only at this
      obtain ⟨c, hcq⟩ := n1 _ (List.mem_of_find?_eq_some hf)
      have hl : m.length = requestSize := hcq.fields.1
      rw [if_neg (by omega), if_pos (by rw [hqu]; decide)] at this
      cases this
  refine ⟨h, hv.state, ?_, hrd.2⟩
  have := hv.msgs i
  rw [hwk, hqu, hin] at this
  simpa [Worker.pending, ofClient] using this

/-- steps the task of a client can still take by itself -/
def Phase.weight : Phase → Nat
  | .fresh | .closed => 0
  | .reading | .waiting => 1
  | .replied _ => 2

def Worker.weight : Worker → Nat
  | .idle | .silent _ => 0
  | .sent _ _ => 3
  | .answered _ _ => 2

def sumTo (f : Nat → Nat) : Nat → Nat
  | 0 => 0
  | n + 1 => sumTo f n + f n

theorem sumTo_update (f : Nat → Nat) (k v : Nat) : ∀ n, k < n →
    sumTo (fun j => if j = k then v else f j) n + f k = sumTo f n + v := by
  have hlow : ∀ n, n ≤ k → sumTo (fun j => if j = k then v else f j) n = sumTo f n := by
    intro n
    induction n with
    | zero => intro _; rfl
    | succ n ih => intro h; unfold sumTo; rw [ih (by omega), if_neg (by omega)]
  intro n
  induction n with
  | zero => intro h; omega
  | succ n ih =>
    intro h
    unfold sumTo
    by_cases e : n = k
    · subst e; rw [hlow n (by omega), if_pos rfl]; omega
    · rw [if_neg e]; have := ih (by omega); omega

/-- how much the handler and the broker can still do: five steps for a message not read, four for a queued one, … -/
def Sock.work {σ : Type} (s : Sock σ) (n : Nat) : Nat :=
  5 * s.inbox.length + 4 * s.queue.length + s.worker.weight + sumTo (fun i => (s.phase i).weight) n

theorem setPhase_weight {σ : Type} (s : Sock σ) (k n : Nat) (p : Phase) (h : k < n) :
    sumTo (fun i => ((s.setPhase k p).phase i).weight) n + (s.phase k).weight = sumTo (fun i => (s.phase i).weight) n + p.weight := by
  rw [← sumTo_update (fun i => (s.phase i).weight) k p.weight n h]
  have : (fun i => ((s.setPhase k p).phase i).weight) = (fun j => if j = k then p.weight else (s.phase j).weight) := by
    funext j
    show (if j = k then p else s.phase j).weight = _
    by_cases e : j = k
    · rw [if_pos e, if_pos e]
    · rw [if_neg e, if_neg e]
  rw [this]

/-- Specification: connections made. -/
def accepts : List Act → List Nat
  | [] => []
  | .accept i :: as => i :: accepts as
  | _ :: as => accepts as

/-- what an action can add to the work -/
def Act.adds : Act → Nat
  | .accept _ => 1
  | .arrive _ _ => 5
  | _ => 0

theorem step_work {σ : Type} (inner : Inner σ) (n : Nat) (s s' : Sock σ) (a : Act) (hn : ∀ i, n ≤ i → s.phase i = .fresh)
    (hacc : ∀ i, a = .accept i → i < n) (hwt : ∀ i r, s.worker = .answered i r → s.phase i = .waiting) (hs : s.step inner a = some s') :
    (∀ i, n ≤ i → s'.phase i = .fresh) ∧ s'.work n + (if a.internal = true then 1 else 0) ≤ s.work n + a.adds := by
  have lt_of : ∀ i, s.phase i ≠ .fresh → i < n := fun i h => Nat.lt_of_not_le (fun x => h (hn i x))
  have fr : ∀ k p, k < n → ∀ i, n ≤ i → (s.setPhase k p).phase i = .fresh := by
    intro k p hk i hi
    show (if i = k then p else s.phase i) = _
    rw [if_neg (by omega)]; exact hn i hi
  cases a with
  | accept i =>
    unfold Sock.step at hs
    dsimp only at hs
    by_cases hp : s.phase i = .fresh
    · rw [if_pos hp] at hs; cases hs
      have hi := hacc i rfl
      have := setPhase_weight s i n .reading hi
      rw [hp] at this
      refine ⟨fr i _ hi, ?_⟩
      show 5 * s.inbox.length + 4 * s.queue.length + s.worker.weight + _ + 0 ≤ 5 * s.inbox.length + 4 * s.queue.length + s.worker.weight + sumTo (fun i => (s.phase i).weight) n + 1
      simp only [Phase.weight] at this ⊢
      omega
    · rw [if_neg hp] at hs; cases hs
  | hangup i =>
    unfold Sock.step at hs
    dsimp only at hs
    by_cases hp : s.phase i = .reading
    · rw [if_pos hp] at hs; cases hs
      have hi := lt_of i (by rw [hp]; exact nofun)
      have := setPhase_weight s i n .closed hi
      rw [hp] at this
      refine ⟨fr i _ hi, ?_⟩
      show 5 * s.inbox.length + 4 * s.queue.length + s.worker.weight + _ + 0 ≤ 5 * s.inbox.length + 4 * s.queue.length + s.worker.weight + sumTo (fun i => (s.phase i).weight) n + 0
      simp only [Phase.weight] at this ⊢
      omega
    · rw [if_neg hp] at hs; cases hs
  | arrive i m =>
    cases hs
    refine ⟨hn, ?_⟩
    show 5 * (s.inbox ++ [(i, m)]).length + 4 * s.queue.length + s.worker.weight + sumTo (fun i => (s.phase i).weight) n + 0 ≤ 5 * s.inbox.length + 4 * s.queue.length + s.worker.weight + sumTo (fun i => (s.phase i).weight) n + 5
    rw [List.length_append, List.length_singleton]
    omega
  | take i =>
    unfold Sock.step at hs
    dsimp only at hs
    by_cases hp : s.phase i = .reading
    · rw [if_pos hp] at hs
      have hi := lt_of i (by rw [hp]; exact nofun)
      cases hf : s.inbox.find? (fun x => x.1 = i) with
      | none => rw [hf] at hs; cases hs
      | some x =>
        obtain ⟨j0, m⟩ := x
        rw [hf] at hs
        dsimp only at hs
        obtain ⟨_, _, _, hlen⟩ := find_erase i s.inbox j0 m hf
        by_cases hbig : requestSize < m.length
        · rw [if_pos hbig] at hs; cases hs
          have := setPhase_weight s i n .closed hi
          rw [hp] at this
          refine ⟨fr i _ hi, ?_⟩
          show 5 * s.inbox.length + 4 * s.queue.length + s.worker.weight + _ + 1 ≤ 5 * s.inbox.length + 4 * s.queue.length + s.worker.weight + sumTo (fun i => (s.phase i).weight) n + 0
          simp only [Phase.weight] at this ⊢
          omega
        · rw [if_neg hbig] at hs
          by_cases hfull : s.queue.length < queueSize
          · rw [if_pos hfull] at hs; cases hs
            have := setPhase_weight s i n .waiting hi
            rw [hp] at this
            refine ⟨fr i _ hi, ?_⟩
            show 5 * (s.inbox.eraseP (fun x => x.1 = i)).length + 4 * (s.queue ++ [(i, m)]).length + s.worker.weight + sumTo (fun k => ((s.setPhase i .waiting).phase k).weight) n + 1 ≤ 5 * s.inbox.length + 4 * s.queue.length + s.worker.weight + sumTo (fun i => (s.phase i).weight) n + 0
            rw [List.length_append, List.length_singleton]
            simp only [Phase.weight] at this ⊢
            omega
          · rw [if_neg hfull] at hs; cases hs
    · rw [if_neg hp] at hs; cases hs
  | forward =>
    unfold Sock.step at hs
    dsimp only at hs
    cases hw : s.worker with
    | sent i m => rw [hw] at hs; cases hs
    | answered i r => rw [hw] at hs; cases hs
    | silent i => rw [hw] at hs; cases hs
    | idle =>
      cases hq : s.queue with
      | nil => rw [hw, hq] at hs; cases hs
      | cons x q =>
        obtain ⟨i, m⟩ := x
        rw [hw, hq] at hs
        cases hs
        refine ⟨hn, ?_⟩
        show 5 * s.inbox.length + 4 * q.length + 3 + sumTo (fun i => (s.phase i).weight) n + 1 ≤ 5 * s.inbox.length + 4 * s.queue.length + s.worker.weight + sumTo (fun i => (s.phase i).weight) n + 0
        rw [hw, hq, List.length_cons]
        simp only [Worker.weight]
        omega
  | backend =>
    unfold Sock.step at hs
    dsimp only at hs
    cases hw : s.worker with
    | idle => rw [hw] at hs; cases hs
    | answered i r => rw [hw] at hs; cases hs
    | silent i => rw [hw] at hs; cases hs
    | sent i m =>
      rw [hw] at hs
      dsimp only at hs
      cases hx : (handleMessage inner s.state m).1 with
      | none =>
        rw [hx] at hs; cases hs
        refine ⟨hn, ?_⟩
        show 5 * s.inbox.length + 4 * s.queue.length + 0 + sumTo (fun i => (s.phase i).weight) n + 1 ≤ 5 * s.inbox.length + 4 * s.queue.length + s.worker.weight + sumTo (fun i => (s.phase i).weight) n + 0
        rw [hw]; simp only [Worker.weight]; omega
      | some r =>
        rw [hx] at hs; cases hs
        refine ⟨hn, ?_⟩
        show 5 * s.inbox.length + 4 * s.queue.length + 2 + sumTo (fun i => (s.phase i).weight) n + 1 ≤ 5 * s.inbox.length + 4 * s.queue.length + s.worker.weight + sumTo (fun i => (s.phase i).weight) n + 0
        rw [hw]; simp only [Worker.weight]; omega
  | reply =>
    unfold Sock.step at hs
    dsimp only at hs
    cases hw : s.worker with
    | idle => rw [hw] at hs; cases hs
    | sent i m => rw [hw] at hs; cases hs
    | silent i => rw [hw] at hs; cases hs
    | answered i r =>
      rw [hw] at hs
      cases hs
      have hp := hwt i r hw
      have hi := lt_of i (by rw [hp]; exact nofun)
      have := setPhase_weight s i n (.replied r) hi
      rw [hp] at this
      refine ⟨fr i _ hi, ?_⟩
      show 5 * s.inbox.length + 4 * s.queue.length + 0 + sumTo (fun k => ((s.setPhase i (.replied r)).phase k).weight) n + 1 ≤ 5 * s.inbox.length + 4 * s.queue.length + s.worker.weight + sumTo (fun i => (s.phase i).weight) n + 0
      rw [hw]; simp only [Worker.weight, Phase.weight] at this ⊢; omega
  | deliver i ok =>
    unfold Sock.step at hs
    dsimp only at hs
    cases hp : s.phase i with
    | fresh => rw [hp] at hs; cases hs
    | reading => rw [hp] at hs; cases hs
    | waiting => rw [hp] at hs; cases hs
    | closed => rw [hp] at hs; cases hs
    | replied r =>
      rw [hp] at hs
      dsimp only at hs
      have hi := lt_of i (by rw [hp]; exact nofun)
      cases ok with
      | true =>
        rw [if_pos rfl] at hs; cases hs
        have := setPhase_weight s i n .reading hi
        rw [hp] at this
        refine ⟨fr i _ hi, ?_⟩
        show 5 * s.inbox.length + 4 * s.queue.length + s.worker.weight + sumTo (fun k => ((s.setPhase i .reading).phase k).weight) n + 1 ≤ 5 * s.inbox.length + 4 * s.queue.length + s.worker.weight + sumTo (fun i => (s.phase i).weight) n + 0
        simp only [Phase.weight] at this ⊢; omega
      | false =>
        rw [if_neg (by decide)] at hs; cases hs
        have := setPhase_weight s i n .closed hi
        rw [hp] at this
        refine ⟨fr i _ hi, ?_⟩
        show 5 * s.inbox.length + 4 * s.queue.length + s.worker.weight + _ + 0 ≤ 5 * s.inbox.length + 4 * s.queue.length + s.worker.weight + sumTo (fun i => (s.phase i).weight) n + 0
        simp only [Phase.weight] at this ⊢; omega

theorem run_work {σ : Type} (inner : Inner σ) (s0 : σ) (n : Nat) (acts : List Act) : ∀ (A h : List (Nat × Bytes)) (s s' : Sock σ),
    SockInv inner s0 A s h → (∀ i, n ≤ i → s.phase i = .fresh) → (∀ i ∈ accepts acts, i < n) → s.run inner acts = some s' →
    s'.work n + (acts.filter (·.internal)).length ≤ s.work n + 5 * (arrivals acts).length + (accepts acts).length := by
  induction acts with
  | nil => intro A h s s' _ _ _ hr; cases hr; exact Nat.le_refl _
  | cons a as ih =>
    intro A h s s' hi hn ha hr
    unfold Sock.run at hr
    cases hs : s.step inner a with
    | none => rw [hs] at hr; cases hr
    | some s1 =>
      rw [hs] at hr
      dsimp only at hr
      have hwt : ∀ i r, s.worker = .answered i r → s.phase i = .waiting := by
        intro i r hw
        cases hi.client i with
        | calm _ _ a => rw [hw] at a; exact absurd rfl a
        | closed _ _ a => rw [hw] at a; exact absurd rfl a
        | queued hp => exact hp
        | sent hp => exact hp
        | answered hp => exact hp
        | silent hp => exact hp
        | replied _ _ _ a => rw [hw] at a; exact absurd rfl a
      obtain ⟨hn1, hw1⟩ := step_work inner n s s1 a hn (by rintro i rfl; exact ha i List.mem_cons_self) hwt hs
      obtain ⟨h1, hi1⟩ := step_inv inner s0 A s s1 h a hi hs
      have ha' : ∀ i ∈ accepts as, i < n := by
        intro i hi'
        refine ha i ?_
        cases a <;> first | exact List.mem_cons_of_mem _ hi' | exact hi'
      have := ih _ _ _ _ hi1 hn1 ha' hr
      have hl : ((a :: as).filter (·.internal)).length = (if a.internal = true then 1 else 0) + (as.filter (·.internal)).length := by
        by_cases e : a.internal = true
        · rw [List.filter_cons_of_pos e, if_pos e, List.length_cons]; exact Nat.add_comm _ _
        · rw [List.filter_cons_of_neg e, if_neg e]; exact (Nat.zero_add _).symm
      have hk : a.adds + 5 * (arrivals as).length + (accepts as).length = 5 * (arrivals (a :: as)).length + (accepts (a :: as)).length := by
        cases a <;> simp only [Act.adds, arrivals, accepts, List.length_cons] <;> omega
      rw [hl]
      omega

/-- **C76.** The handler and the broker never take more than five steps for a message and one for a connection, whatever
clients do: they come to rest, unless messages keep arriving. -/
theorem handler_comes_to_rest {σ : Type} (inner : Inner σ) (s0 : σ) (acts : List Act) (s : Sock σ)
    (hr : (Sock.init s0).run inner acts = some s) :
    (acts.filter (·.internal)).length ≤ 5 * (arrivals acts).length + (accepts acts).length := by
  obtain ⟨n, hn⟩ : ∃ n, ∀ i ∈ accepts acts, i < n := by
    generalize accepts acts = l
    induction l with
    | nil => exact ⟨0, fun i h => nomatch h⟩
    | cons x l ih =>
      obtain ⟨n, hn⟩ := ih
      refine ⟨max n (x + 1), fun i hi => ?_⟩
      rcases List.mem_cons.1 hi with rfl | hi
      · omega
      · have := hn i hi; omega
  have := run_work inner s0 n acts _ _ _ s (init_inv inner s0) (fun _ _ => rfl) hn hr
  have h0 : (Sock.init s0).work n = 0 := by
    have : ∀ m, sumTo (fun i => ((Sock.init s0).phase i).weight) m = 0 := by
      intro m
      induction m with
      | zero => rfl
      | succ m ih => unfold sumTo; rw [ih]; rfl
    unfold Sock.work
    rw [this n]; rfl
  omega

/-- **C76, false of the code.** Once the broker process has been given a message that is not a request, the handler is
stuck for ever: whatever happens afterwards, no message of any client is given to the broker, and no client gets another
answer (except replies that were already on their way to their client). -/
theorem silent_for_ever {σ : Type} (inner : Inner σ) (acts : List Act) : ∀ (s s' : Sock σ) (i : Nat), s.worker = .silent i →
    s.run inner acts = some s' →
    s'.worker = .silent i ∧ s'.state = s.state ∧ ∀ j, (∀ r, s.phase j ≠ .replied r) → ofClient j s'.out = ofClient j s.out ∧ ∀ r, s'.phase j ≠ .replied r := by
  induction acts with
  | nil => intro s s' i hw hr; cases hr; exact ⟨hw, rfl, fun j hj => ⟨rfl, hj⟩⟩
  | cons a as ih =>
    intro s s' i hw hr
    unfold Sock.run at hr
    cases hs : s.step inner a with
    | none => rw [hs] at hr; cases hr
    | some s1 =>
      rw [hs] at hr
      dsimp only at hr
      suffices hh : s1.worker = .silent i ∧ s1.state = s.state ∧ ∀ j, (∀ r, s.phase j ≠ .replied r) →
          ofClient j s1.out = ofClient j s.out ∧ ∀ r, s1.phase j ≠ .replied r by
        obtain ⟨h1, h2, h3⟩ := hh
        obtain ⟨h4, h5, h6⟩ := ih s1 s' i h1 hr
        refine ⟨h4, h5.trans h2, fun j hj => ?_⟩
        obtain ⟨h7, h8⟩ := h3 j hj
        obtain ⟨h9, h10⟩ := h6 j h8
        exact ⟨h9.trans h7, h10⟩
      have setp : ∀ (k : Nat) (p : Phase), (∀ r, p ≠ .replied r) → ∀ j, (∀ r, s.phase j ≠ .replied r) → ∀ r, (s.setPhase k p).phase j ≠ .replied r := by
        intro k p hp j hj r
        show (if j = k then p else s.phase j) ≠ _
        by_cases e : j = k
        · rw [if_pos e]; exact hp r
        · rw [if_neg e]; exact hj r
      cases a with
      | accept k =>
        unfold Sock.step at hs
        dsimp only at hs
        by_cases hp : s.phase k = .fresh
        · rw [if_pos hp] at hs; cases hs
          exact ⟨hw, rfl, fun j hj => ⟨rfl, setp k _ (by intro r h; cases h) j hj⟩⟩
        · rw [if_neg hp] at hs; cases hs
      | hangup k =>
        unfold Sock.step at hs
        dsimp only at hs
        by_cases hp : s.phase k = .reading
        · rw [if_pos hp] at hs; cases hs
          exact ⟨hw, rfl, fun j hj => ⟨rfl, setp k _ (by intro r h; cases h) j hj⟩⟩
        · rw [if_neg hp] at hs; cases hs
      | arrive k m => cases hs; exact ⟨hw, rfl, fun j hj => ⟨rfl, hj⟩⟩
      | take k =>
        unfold Sock.step at hs
        dsimp only at hs
        by_cases hp : s.phase k = .reading
        · rw [if_pos hp] at hs
          cases hf : s.inbox.find? (fun x => x.1 = k) with
          | none => rw [hf] at hs; cases hs
          | some x =>
            obtain ⟨j0, m⟩ := x
            rw [hf] at hs
            dsimp only at hs
            by_cases hbig : requestSize < m.length
            · rw [if_pos hbig] at hs; cases hs
              exact ⟨hw, rfl, fun j hj => ⟨rfl, setp k _ (by intro r h; cases h) j hj⟩⟩
            · rw [if_neg hbig] at hs
              by_cases hfull : s.queue.length < queueSize
              · rw [if_pos hfull] at hs; cases hs
                exact ⟨hw, rfl, fun j hj => ⟨rfl, setp k _ (by intro r h; cases h) j hj⟩⟩
              · rw [if_neg hfull] at hs; cases hs
        · rw [if_neg hp] at hs; cases hs
      | forward => unfold Sock.step at hs; rw [hw] at hs; cases hs
      | backend => unfold Sock.step at hs; rw [hw] at hs; cases hs
      | reply => unfold Sock.step at hs; rw [hw] at hs; cases hs
      | deliver k ok =>
        unfold Sock.step at hs
        dsimp only at hs
        cases hp : s.phase k with
        | fresh => rw [hp] at hs; cases hs
        | reading => rw [hp] at hs; cases hs
        | waiting => rw [hp] at hs; cases hs
        | closed => rw [hp] at hs; cases hs
        | replied r =>
          rw [hp] at hs
          dsimp only at hs
          cases ok with
          | true =>
            rw [if_pos rfl] at hs; cases hs
            refine ⟨hw, rfl, fun j hj => ⟨?_, setp k _ (by intro r h; cases h) j hj⟩⟩
            show ofClient j (s.out ++ [(k, r)]) = _
            rw [ofClient_append, ofClient_one, if_neg (by rintro rfl; exact hj r hp), List.append_nil]
          | false =>
            rw [if_neg (by decide)] at hs; cases hs
            exact ⟨hw, rfl, fun j hj => ⟨rfl, setp k _ (by intro r h; cases h) j hj⟩⟩

/-- **C76, false of the code.** One client, one message of at most 324 bytes that is not a request, is enough. -/
theorem bad_message_blocks_everyone {σ : Type} (inner : Inner σ) (s0 : σ) (i : Nat) (m : Bytes) (hl : m.length ≤ 324)
    (hm : ¬ ∃ c, IsRequest m c) :
    ∃ s, (Sock.init s0).run inner [.accept i, .arrive i m, .take i, .forward, .backend] = some s ∧
      ∀ acts s', s.run inner acts = some s' → s'.state = s0 ∧ ∀ j, ofClient j s'.out = [] := by
  have hbad : handleMessage inner s0 m = (none, s0) := by
    rcases malformed_requests_refused inner s0 m with ⟨c, hc, _⟩ | ⟨_, h⟩
    · exact absurd ⟨c, hc⟩ hm
    · exact h
  refine ⟨⟨fun j => if j = i then .waiting else if j = i then .reading else .fresh, [], [], .silent i, s0, []⟩, ?_, ?_⟩
  · have e1 : (Sock.init s0).step inner (.accept i) = some ⟨fun j => if j = i then .reading else .fresh, [], [], .idle, s0, []⟩ := rfl
    have e2 : (⟨fun j => if j = i then .reading else .fresh, [], [], .idle, s0, []⟩ : Sock σ).step inner (.arrive i m)
        = some ⟨fun j => if j = i then .reading else .fresh, [(i, m)], [], .idle, s0, []⟩ := rfl
    have e3 : (⟨fun j => if j = i then .reading else .fresh, [(i, m)], [], .idle, s0, []⟩ : Sock σ).step inner (.take i)
        = some ⟨fun j => if j = i then .waiting else if j = i then .reading else .fresh, [], [(i, m)], .idle, s0, []⟩ := by
      unfold Sock.step
      dsimp only
      rw [if_pos (if_pos rfl), List.find?_cons_of_pos (by simp)]
      dsimp only
      have e : requestSize = 324 := rfl
      rw [if_neg (by omega), if_pos (by decide), List.eraseP_cons_of_pos (by simp)]
      rfl
    have e4 : (⟨fun j => if j = i then .waiting else if j = i then .reading else .fresh, [], [(i, m)], .idle, s0, []⟩ : Sock σ).step inner .forward
        = some ⟨fun j => if j = i then .waiting else if j = i then .reading else .fresh, [], [], .sent i m, s0, []⟩ := rfl
    have e5 : (⟨fun j => if j = i then .waiting else if j = i then .reading else .fresh, [], [], .sent i m, s0, []⟩ : Sock σ).step inner .backend
        = some ⟨fun j => if j = i then .waiting else if j = i then .reading else .fresh, [], [], .silent i, s0, []⟩ := by
      unfold Sock.step
      dsimp only
      rw [hbad]
    rw [Sock.run, e1]; dsimp only
    rw [Sock.run, e2]; dsimp only
    rw [Sock.run, e3]; dsimp only
    rw [Sock.run, e4]; dsimp only
    rw [Sock.run, e5]; rfl
  · intro acts s' hr
    obtain ⟨_, h2, h3⟩ := silent_for_ever inner acts _ s' i rfl hr
    refine ⟨h2, fun j => ?_⟩
    refine (h3 j ?_).1
    intro r
    dsimp only
    by_cases e : j = i
    · rw [if_pos e]; exact nofun
    · rw [if_neg e, if_neg e]; exact nofun

/-- **C76** At most 100 requests wait for the broker, and a client that has sent a request is read as long as fewer than 100 wait. -/
theorem at_most_100_waiting {σ : Type} (inner : Inner σ) (s0 : σ) (acts : List Act) (s : Sock σ) (h : (Sock.init s0).run inner acts = some s) :
    s.queue.length ≤ 100 ∧
    ∀ i m, s.phase i = .reading → s.inbox.find? (fun x => x.1 = i) = some (i, m) → m.length ≤ 324 →
      ((s.step inner (.take i)).isSome ↔ s.queue.length < 100) := by
  constructor
  · have step : ∀ (a : Act) (s s' : Sock σ), s.queue.length ≤ 100 → s.step inner a = some s' → s'.queue.length ≤ 100 := by
      intro a s s' hs ha
      cases a with
      | accept i => simp only [Sock.step] at ha; split at ha <;> cases ha; exact hs
      | arrive i m => simp only [Sock.step] at ha; cases ha; exact hs
      | take i =>
        simp only [Sock.step] at ha
        split at ha
        · split at ha
          · cases ha
          · split at ha
            · cases ha; exact hs
            · split at ha
              · rename_i hq
                cases ha
                simp only [List.length_append, List.length_singleton]
                simp only [queueSize] at hq
                omega
              · cases ha
        · cases ha
      | hangup i => simp only [Sock.step] at ha; split at ha <;> cases ha; exact hs
      | forward =>
        simp only [Sock.step] at ha
        split at ha
        · rename_i q _ hq
          cases ha
          rw [hq] at hs
          exact Nat.le_of_succ_le hs
        · cases ha
      | backend =>
        simp only [Sock.step] at ha
        split at ha
        · split at ha <;> cases ha <;> exact hs
        · cases ha
      | reply => simp only [Sock.step] at ha; split at ha <;> cases ha; exact hs
      | deliver i ok =>
        simp only [Sock.step] at ha
        split at ha
        · split at ha <;> cases ha <;> exact hs
        · cases ha
    have run : ∀ (acts : List Act) (s s' : Sock σ), s.queue.length ≤ 100 → s.run inner acts = some s' → s'.queue.length ≤ 100 := by
      intro acts
      induction acts with
      | nil => intro s s' hs h; simp only [Sock.run, Option.some.injEq] at h; rw [← h]; exact hs
      | cons a as ih =>
        intro s s' hs h
        simp only [Sock.run] at h
        split at h
        · cases h
        · rename_i s1 h1; exact ih s1 s' (step a s s1 hs h1) h
    exact run acts _ _ (by simp [Sock.init]) h
  · intro i m hp hf hm
    have hr : ¬ requestSize < m.length := Nat.not_lt.mpr hm
    simp only [Sock.step, hp, hf, if_true, if_neg hr]
    show _ ↔ s.queue.length < queueSize
    by_cases h100 : s.queue.length < queueSize
    · rw [if_pos h100]; simp [h100]
    · rw [if_neg h100]; simp [h100]

/-! ### A concrete run -/
namespace SockEx
open Ex

/-- a broker that keeps the keys it was given -/
def keeper : Inner (List Bytes) := fun s c => (.ok (), s ++ [c.psk])
def req : Bytes := match buildRequest cfg with | .ok m => m | .error _ => []
def req2 : Bytes := match buildRequest cfg2 with | .ok m => m | .error _ => []
/-- two clients; the second one is served while the first one waits, and the answers overtake each other -/
def acts : List Act :=
  [.accept 0, .accept 1, .arrive 0 req, .arrive 1 req2, .arrive 0 req, .take 1, .take 0, .forward, .backend, .reply, .forward,
   .backend, .reply, .deliver 0 true, .deliver 1 true, .take 0, .forward, .backend, .reply, .deliver 0 true]

set_option maxRecDepth 20000 in
example : ((Sock.init []).run keeper acts).map (fun s => (s.out.map (·.1), s.state.length, s.inbox.length, s.queue.length)) = some ([0, 1, 0], 3, 0, 0) := by
  decide +kernel
/-- the messages of both clients are requests -/
theorem reqs_ok : ∀ x ∈ arrivals acts, ∃ c, IsRequest x.2 c := by
  have h1 : ∃ c, IsRequest req c := by
    rcases buildRequest_spec cfg cfg_wf with ⟨_, _, _, m, hm, h⟩ | ⟨h, _⟩
    · exact ⟨cfg, by unfold req; rw [hm]; exact h⟩
    · exact absurd ⟨"wg0", rfl⟩ (h (by decide))
  have h2 : ∃ c, IsRequest req2 c := by
    rcases buildRequest_spec cfg2 cfg2_wf with ⟨_, _, _, m, hm, h⟩ | ⟨h, _⟩
    · exact ⟨cfg2, by unfold req2; rw [hm]; exact h⟩
    · exact absurd ⟨"wg0", rfl⟩ (h (by decide))
  intro x hx
  have hx' : x = (0, req) ∨ x = (1, req2) ∨ x = (0, req) := by simpa [acts, arrivals] using hx
  rcases hx' with rfl | rfl | rfl
  · exact h1
  · exact h2
  · exact h1
/-- an empty message is not a request -/
example : ([] : Bytes).length ≤ 324 ∧ ¬ ∃ c, IsRequest [] c := ⟨by decide, fun ⟨_, h⟩ => by have := h.fields.1; cases this⟩

end SockEx
end Verif.Broker
