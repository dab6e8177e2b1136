import Verif.Thm.AppHist
import Verif.Thm.TimerEx
/-
The outer event loop (failure counter), the table of brokers, and supplying the key pair.
-/
namespace Verif
open Server FileIO
namespace App
variable {C : Crypto}

/-! ### C47: when the event loop gives up -/

/-- The fates of successive rounds, each starting where the previous one ended. -/
def fates (C : Crypto) (a : App) : List World → List Fate
  | [] => []
  | e :: es => (a.step C e).fate :: (a.step C e).app.fates C es

/-- Neither of these ends the event loop by itself. -/
def Goes (f : Fate) : Prop := f = .next ∨ f = .error

theorem loop_gaveUp_iff (a : App) (cnt : Nat) (hc : cnt ≤ 10) (es : List World) :
    (a.loop C cnt es).1 = .gaveUp ↔ ∃ n, (∀ f ∈ (a.fates C es).take n, Goes f) ∧ ((a.fates C es).take n).count .error = 11 - cnt := by
  induction es generalizing a cnt with
  | nil =>
    simp only [loop, fates, List.take_nil]
    constructor
    · intro h; cases h
    · rintro ⟨n, -, h⟩; simp at h; omega
  | cons e es ih =>
    have no : ∀ f : Fate, f ≠ .next → f ≠ .error → (a.step C e).fate = f →
        ¬ ∃ n, (∀ f ∈ (a.fates C (e :: es)).take n, Goes f) ∧ ((a.fates C (e :: es)).take n).count .error = 11 - cnt := by
      rintro f h1 h2 hf ⟨n, h3, h4⟩
      cases n with
      | zero => simp at h4; omega
      | succ n =>
        have := h3 f (by simp [fates, hf])
        rcases this with h | h
        · exact h1 h
        · exact h2 h
    cases hf : (a.step C e).fate with
    | next =>
      have hl : a.loop C cnt (e :: es) = (a.step C e).app.loop C cnt es := by simp only [loop, hf]
      rw [hl, ih _ cnt hc]
      constructor
      · rintro ⟨n, h1, h2⟩
        refine ⟨n + 1, ?_, ?_⟩
        · simp only [fates, List.take_succ_cons, List.mem_cons]
          rintro f (rfl | h)
          · exact .inl hf
          · exact h1 f h
        · simp [fates, List.take_succ_cons, hf, h2]
      · rintro ⟨n, h1, h2⟩
        cases n with
        | zero => simp at h2; omega
        | succ n =>
          simp only [fates, List.take_succ_cons, List.mem_cons] at h1
          refine ⟨n, fun f h => h1 f (.inr h), ?_⟩
          simpa [fates, List.take_succ_cons, hf] using h2
    | exit =>
      refine iff_of_false ?_ (no _ (by simp) (by simp) hf)
      simp [loop, hf]
    | panic =>
      refine iff_of_false ?_ (no _ (by simp) (by simp) hf)
      simp [loop, hf]
    | killed =>
      refine iff_of_false ?_ (no _ (by simp) (by simp) hf)
      simp [loop, hf]
    | error =>
      have hl : a.loop C cnt (e :: es) = if (10 - (((cnt + 1 : Nat) : Int) - 1) : Int) > 0 then (a.step C e).app.loop C (cnt + 1) es else (.gaveUp, (a.step C e).app) := by
        simp only [loop, hf]
        rfl
      rw [hl]
      by_cases hlast : cnt = 10
      · subst hlast
        rw [if_neg (by decide)]
        simp only [true_iff]
        exact ⟨1, by simp [fates, hf, Goes], by simp [fates, hf]⟩
      · rw [if_pos (by omega), ih _ (cnt + 1) (by omega)]
        constructor
        · rintro ⟨n, h1, h2⟩
          refine ⟨n + 1, ?_, ?_⟩
          · simp only [fates, List.take_succ_cons, List.mem_cons]
            rintro f (rfl | h)
            · exact .inr hf
            · exact h1 f h
          · simp only [fates, List.take_succ_cons, hf, List.count_cons_self, h2]; omega
        · rintro ⟨n, h1, h2⟩
          cases n with
          | zero => simp at h2; omega
          | succ n =>
            simp only [fates, List.take_succ_cons, List.mem_cons] at h1
            refine ⟨n, fun f h => h1 f (.inr h), ?_⟩
            simp only [fates, List.take_succ_cons, hf, List.count_cons_self] at h2; omega

/-- **C47** (what holds). For every application and whatever the environment does, the event loop gives up
exactly when eleven rounds have failed; so never after at most ten failures. (The claim asks for eleven
failures *in a row*; see `scattered_failures_stop_daemon`.) -/
theorem gives_up_after_eleven_failures_partial (a : App) (es : List World) :
    (a.loop C 0 es).1 = .gaveUp ↔
      ∃ n, (∀ f ∈ (a.fates C es).take n, Goes f) ∧ ((a.fates C es).take n).count .error = 11 :=
  loop_gaveUp_iff a 0 (by omega) es

/-- **C47** fails: with whatever number `n` of successful rounds between any two failures, the eleventh failure
stops the daemon. Here a failure is an error of the receiving socket. -/
theorem scattered_failures_stop_daemon (r : NewRnd) (nsock : Nat) (fs : Fs) (good bad : World) (hg : good.io = .none) (hb : bad.io = .err) (n : Nat) :
    ((App.new none r nsock fs).loop C 0 (List.replicate 11 (bad :: List.replicate n good)).flatten).1 = .gaveUp := by
  have stepG : (App.new none r nsock fs).step C good = ⟨.next, App.new none r nsock fs, []⟩ := by simp [step, App.new, hg]
  have stepB : (App.new none r nsock fs).step C bad = ⟨.error, App.new none r nsock fs, []⟩ := by simp [step, App.new, hb]
  generalize App.new none r nsock fs = a at *
  have goods : ∀ m rest, a.fates C (List.replicate m good ++ rest) = List.replicate m .next ++ a.fates C rest := by
    intro m rest
    induction m with
    | zero => rfl
    | succ m ih => simp [List.replicate_succ, fates, stepG, ih]
  have all : ∀ m, a.fates C (List.replicate m (bad :: List.replicate n good)).flatten = (List.replicate m (.error :: List.replicate n .next)).flatten := by
    intro m
    induction m with
    | zero => rfl
    | succ m ih => simp [List.replicate_succ, fates, stepB, goods, ih]
  rw [gives_up_after_eleven_failures_partial, all]
  have hcount : ∀ m, (List.replicate m (Fate.error :: List.replicate n Fate.next)).flatten.count .error = m := by
    intro m
    induction m with
    | zero => rfl
    | succ m ih => simp [List.replicate_succ, ih, List.count_replicate]
  refine ⟨(List.replicate 11 (Fate.error :: List.replicate n Fate.next)).flatten.length, ?_, ?_⟩
  · rw [List.take_length]
    intro f hf
    simp only [List.mem_flatten, List.mem_replicate] at hf
    obtain ⟨l, ⟨-, rfl⟩, hf⟩ := hf
    simp only [List.mem_cons, List.mem_replicate] at hf
    rcases hf with rfl | ⟨-, rfl⟩
    · exact .inr rfl
    · exact .inl rfl
  · rw [List.take_length]; exact hcount 11

/-- **C47**: a failed attempt to answer a received message is such a failure, so whoever can make the
answer undeliverable (for instance with a forged source address) can cause it. -/
theorem undeliverable_answer_is_failure (a : App) (s s1 : Server) (t : Time) (e : World) (rx : Bytes) (sock : Nat) (addr : Addr) (m : MsgResult) (msg : Bytes)
    (hs : a.site = .product s) (hp : s.poll e.now e.prnd = some (.sleep t, s1)) (hio : e.io = .msg rx sock addr)
    (hres : (e.receive rx sock addr).result C s1 = .ok m) (hm : m.resp = some msg) (hsend : e.sendTo = false) :
    (a.step C e).fate = .error := by
  unfold step
  rw [hs]
  dsimp only
  rw [hp]
  dsimp only
  rw [hio]
  dsimp only
  rw [message_eq, hres]
  dsimp only
  unfold received
  rw [hm]
  simp [hsend, Res.andThen]

/-! ### C49: broker handles -/

/-- Histories of a table of brokers, with the handles that were given out and not yet taken back, most recent
first, each with the broker it was given out for. `lifo`: only the most recent handle is taken back (this is
what `main` and the API do). -/
inductive BrokerHistory (lifo : Bool) : Brokers → List (Nat × Nat) → Prop
  | start (next) : BrokerHistory lifo ⟨[], [], next⟩ []
  | registered (b live name h) : BrokerHistory lifo b live → (b.register name true).1 = .ok h →
      BrokerHistory lifo (b.register name true).2 ((h, name) :: live)
  | unregistered (b live h ok) : BrokerHistory lifo b live → (lifo = true → ∃ name rest, live = (h, name) :: rest) →
      (∃ name, (h, name) ∈ live) → BrokerHistory lifo (b.unregister h ok).2 (live.filter (fun x => x.1 ≠ h))
  | socket (b live) : BrokerHistory lifo b live → BrokerHistory lifo { b with next := b.next + 1 } live

/-- **Specification**: the broker `name` is found under handle `h`, and I/O events of its token go to it. -/
def Holds (b : Brokers) (h name : Nat) : Prop :=
  ∃ tok, b.store.lookup h = some ⟨name, some tok⟩ ∧ b.io.lookup tok = some h

/-- the invariant -/
structure BrokersOk (b : Brokers) (live : List (Nat × Nat)) : Prop where
  names : b.store.map (fun x => (x.1, x.2.name)) = live
  keys : live.map (·.1) = (List.range live.length).reverse
  toks : ∀ x ∈ b.store, ∃ tok, x.2.token = some tok ∧ b.io.lookup tok = some x.1
  fresh : ∀ x ∈ b.io, x.1 < b.next

theorem lookup_put {α : Type} (l : List (Nat × α)) (k j : Nat) (v : α) : (Brokers.put l k v).lookup j = if j = k then some v else l.lookup j := by
  unfold Brokers.put
  rw [List.lookup_cons]
  by_cases h : j = k
  · simp [h]
  · rw [if_neg h]
    have : (j == k) = false := by simpa using h
    rw [this]
    dsimp only
    induction l with
    | nil => rfl
    | cons x l ih =>
      obtain ⟨a, b⟩ := x
      rw [List.lookup_cons]
      by_cases ha : a = k
      · have h1 : (j == a) = false := by rw [ha]; exact this
        rw [List.filter_cons_of_neg (by simp [ha]), h1, ih]
      · rw [List.filter_cons_of_pos (by simp [ha]), List.lookup_cons, ih]

theorem lookup_filter {α : Type} (l : List (Nat × α)) (k j : Nat) : (l.filter (fun x => x.1 ≠ k)).lookup j = if j = k then none else l.lookup j := by
  have h := lookup_put l k j
  unfold Brokers.put at h
  by_cases hj : j = k
  · subst hj
    rw [if_pos rfl]
    induction l with
    | nil => rfl
    | cons x l ih =>
      by_cases ha : x.1 = j
      · rw [List.filter_cons_of_neg (by simp [ha])]; exact ih (fun v => lookup_put l j j v)
      · rw [List.filter_cons_of_pos (by simp [ha]), List.lookup_cons]
        have : (j == x.1) = false := by simpa using fun h => ha h.symm
        rw [this]; exact ih (fun v => lookup_put l j j v)
  · rw [if_neg hj]
    cases l with
    | nil => rfl
    | cons x l =>
      have := h x.2
      rw [if_neg hj, List.lookup_cons] at this
      have hk : (j == k) = false := by simpa using hj
      rw [hk] at this
      exact this

theorem lookup_none_of {α : Type} (l : List (Nat × α)) (k : Nat) (h : ∀ x ∈ l, x.1 ≠ k) : l.lookup k = none := by
  induction l with
  | nil => rfl
  | cons x l ih =>
    rw [List.lookup_cons]
    have : (k == x.1) = false := by simpa using fun e => h x (by simp) e.symm
    rw [this]; exact ih (fun y hy => h y (by simp [hy]))

theorem lookup_of_mem {α : Type} (l : List (Nat × α)) (k : Nat) (v : α) (hn : (l.map (·.1)).Nodup) (h : (k, v) ∈ l) : l.lookup k = some v := by
  induction l with
  | nil => cases h
  | cons x l ih =>
    rw [List.lookup_cons]
    simp only [List.map_cons, List.nodup_cons] at hn
    rcases List.mem_cons.mp h with rfl | h
    · simp
    · have : (k == x.1) = false := by
        simp only [beq_eq_false_iff_ne]
        rintro rfl
        exact hn.1 (List.mem_map.mpr ⟨_, h, rfl⟩)
      rw [this]; exact ih hn.2 h

theorem filter_self {α : Type} (l : List (Nat × α)) (k : Nat) (h : ∀ x ∈ l, x.1 ≠ k) : l.filter (fun x => x.1 ≠ k) = l :=
  List.filter_eq_self.mpr (fun x hx => by simpa using h x hx)

theorem BrokersOk.storeKeys {b : Brokers} {live : List (Nat × Nat)} (h : BrokersOk b live) : b.store.map (·.1) = (List.range live.length).reverse := by
  have h1 := h.keys
  rw [← h.names, List.map_map] at h1
  rw [← h.names]
  exact h1

theorem BrokersOk.lt {b : Brokers} {live : List (Nat × Nat)} (h : BrokersOk b live) (x) (hx : x ∈ b.store) : x.1 < live.length := by
  have : x.1 ∈ b.store.map (·.1) := List.mem_map.mpr ⟨x, hx, rfl⟩
  rw [h.storeKeys] at this
  simpa using this

theorem BrokersOk.len {b : Brokers} {live : List (Nat × Nat)} (h : BrokersOk b live) : b.store.length = live.length := by
  rw [← h.names, List.length_map]

/-- registering a broker when handles are taken back in order -/
theorem BrokersOk.register {b : Brokers} {live : List (Nat × Nat)} (h : BrokersOk b live) (name : Nat) :
    (b.register name true).1 = .ok live.length ∧ BrokersOk (b.register name true).2 ((live.length, name) :: live) := by
  have h1 : b.store.lookup b.store.length = none := lookup_none_of _ _ (fun x hx => by have := h.lt x hx; rw [h.len]; omega)
  have h2 : b.io.lookup b.next = none := lookup_none_of _ _ (fun x hx => by have := h.fresh x hx; omega)
  have hr : b.register name true = (.ok live.length, ⟨Brokers.put b.store live.length ⟨name, some b.next⟩, Brokers.put b.io b.next live.length, b.next + 1⟩) := by
    unfold Brokers.register
    dsimp only
    rw [h1, if_neg (by simp), if_neg (by simp), h2, if_neg (by simp), h.len]
  rw [hr]
  refine ⟨rfl, ?_, ?_, ?_, ?_⟩
  · dsimp only
    unfold Brokers.put
    rw [filter_self _ _ (fun x hx => by have := h.lt x hx; omega)]
    simp [h.names]
  · simp [h.keys, List.range_succ]
  · dsimp only
    intro x hx
    unfold Brokers.put at hx
    rw [filter_self _ _ (fun x hx => by have := h.lt x hx; omega)] at hx
    rcases List.mem_cons.mp hx with rfl | hx
    · exact ⟨b.next, rfl, by rw [lookup_put, if_pos rfl]⟩
    · obtain ⟨tok, t1, t2⟩ := h.toks x hx
      refine ⟨tok, t1, ?_⟩
      rw [lookup_put, if_neg ?_]
      · exact t2
      · rintro rfl; rw [h2] at t2; cases t2
  · dsimp only
    intro x hx
    unfold Brokers.put at hx
    rcases List.mem_cons.mp hx with rfl | hx
    · exact Nat.lt_succ_self _
    · have := h.fresh x (List.mem_filter.mp hx).1
      omega

/-- taking back the most recent handle -/
theorem BrokersOk.unregister {b : Brokers} {rest : List (Nat × Nat)} {h name : Nat} (hb : BrokersOk b ((h, name) :: rest)) (ok : Bool) :
    (b.unregister h ok).1 = (if ok then .ok () else .error .unregister) ∧ BrokersOk (b.unregister h ok).2 rest := by
  obtain ⟨x, st, hst⟩ : ∃ x st, b.store = x :: st := by
    have := hb.names
    cases hs : b.store with
    | nil => rw [hs] at this; cases this
    | cons x st => exact ⟨x, st, rfl⟩
  have hn := hb.names
  rw [hst, List.map_cons, List.cons.injEq, Prod.mk.injEq] at hn
  obtain ⟨⟨hx1, hx2⟩, hn⟩ := hn
  have hk := hb.keys
  rw [List.map_cons, List.length_cons, List.range_succ, List.reverse_append, List.reverse_singleton, List.singleton_append, List.cons.injEq] at hk
  obtain ⟨rfl, hk⟩ := hk
  have hlt : ∀ y ∈ st, y.1 < rest.length := by
    intro y hy
    have : (y.1, y.2.name) ∈ rest := by rw [← hn]; exact List.mem_map.mpr ⟨y, hy, rfl⟩
    have : y.1 ∈ rest.map (·.1) := List.mem_map.mpr ⟨_, this, rfl⟩
    rw [hk] at this
    simpa using this
  obtain ⟨tok, t1, t2⟩ := hb.toks x (by rw [hst]; simp)
  have hf : b.store.filter (fun y => y.1 ≠ rest.length) = st := by
    rw [hst, List.filter_cons_of_neg (by simp [hx1])]
    exact filter_self _ _ (fun y hy => by have := hlt y hy; omega)
  have hlook : b.store.lookup rest.length = some x.2 := by rw [hst, List.lookup_cons]; simp [hx1]
  have hu : b.unregister rest.length ok = (if ok then .ok () else .error .unregister, ⟨st, b.io.filter (fun y => y.1 ≠ tok), b.next⟩) := by
    unfold Brokers.unregister
    rw [hlook]
    dsimp only
    rw [t1]
    dsimp only
    rw [if_neg (by rw [t2]; simp), hf]
    cases ok <;> rfl
  rw [hu]
  refine ⟨rfl, hn, hk, ?_, ?_⟩
  · intro y hy
    obtain ⟨tok', u1, u2⟩ := hb.toks y (by rw [hst]; exact List.mem_cons_of_mem _ hy)
    refine ⟨tok', u1, ?_⟩
    dsimp only
    rw [lookup_filter, if_neg ?_]
    · exact u2
    · rintro rfl
      rw [t2] at u2
      have := Option.some.inj u2
      have := hlt y hy
      omega
  · intro y hy
    exact hb.fresh y (List.mem_filter.mp hy).1

theorem broker_history_ok {b : Brokers} {live : List (Nat × Nat)} (h : BrokerHistory true b live) : BrokersOk b live := by
  induction h with
  | start next => exact ⟨rfl, rfl, fun x hx => (nomatch hx), fun x hx => (nomatch hx)⟩
  | registered b live name h _ hok ih =>
    obtain ⟨h1, h2⟩ := ih.register name
    rw [h1] at hok; cases hok
    exact h2
  | unregistered b live h ok _ hl _ ih =>
    obtain ⟨name, rest, rfl⟩ := hl rfl
    have h2 := (ih.unregister ok).2
    have hk := ih.keys
    rw [List.map_cons, List.length_cons, List.range_succ, List.reverse_append, List.reverse_singleton, List.singleton_append, List.cons.injEq] at hk
    rw [List.filter_cons_of_neg (by simp), filter_self]
    · exact h2
    · intro y hy
      have : y.1 ∈ rest.map (·.1) := List.mem_map.mpr ⟨_, hy, rfl⟩
      rw [hk.2] at this
      have : y.1 < rest.length := by simpa using this
      have := hk.1
      dsimp only at this
      omega
  | socket b live _ ih => exact ⟨ih.names, ih.keys, ih.toks, fun x hx => Nat.lt_succ_of_lt (ih.fresh x hx)⟩

/-- **C49** (what holds). In every history in which handles are taken back in the opposite order of
registration: the handles given out are distinct, each still leads to the broker it was given out for, and
registering a further broker succeeds with a handle not in use. -/
theorem broker_handles_unique_partial {b : Brokers} {live : List (Nat × Nat)} (h : BrokerHistory true b live) :
    (live.map (·.1)).Nodup ∧ (∀ x ∈ live, Holds b x.1 x.2) ∧
    ∀ name, ∃ h, (b.register name true).1 = .ok h ∧ (∀ x ∈ live, x.1 ≠ h) := by
  have hok := broker_history_ok h
  have hnd : (live.map (·.1)).Nodup := by rw [hok.keys]; exact List.nodup_reverse.mpr List.nodup_range
  refine ⟨hnd, fun x hx => ?_, fun name => ⟨live.length, (hok.register name).1, fun x hx => ?_⟩⟩
  · rw [← hok.names] at hx
    obtain ⟨y, hy, rfl⟩ := List.mem_map.mp hx
    obtain ⟨tok, t1, t2⟩ := hok.toks y hy
    refine ⟨tok, ?_, t2⟩
    dsimp only
    have : b.store.lookup y.1 = some y.2 := lookup_of_mem _ _ _ (by rw [hok.storeKeys]; exact List.nodup_reverse.mpr List.nodup_range) hy
    rw [this, ← t1]
  · have : x.1 ∈ live.map (·.1) := List.mem_map.mpr ⟨x, hx, rfl⟩
    rw [hok.keys] at this
    have : x.1 < live.length := by simpa using this
    omega

/-- **C49** fails when an earlier handle is taken back first: registering a third broker after the first of
two was unregistered reports an error and silently replaces the second broker, whose handle is still in use. -/
theorem broker_handle_collision (next : Nat) (n1 n2 n3 : Nat) : ∃ b live, BrokerHistory false b live ∧ live = [(1, n2)] ∧
    (b.register n3 true).1 = .error .duplicate ∧ (b.register n3 true).2.store.lookup 1 = some ⟨n3, none⟩ := by
  have h1 := BrokerHistory.registered (lifo := false) ⟨[], [], next⟩ [] n1 0 (.start next) rfl
  have h2 := BrokerHistory.registered (lifo := false) _ _ n2 1 h1 (by simp [Brokers.register, Brokers.put, List.lookup])
  have h3 := BrokerHistory.unregistered (lifo := false) _ _ 0 true h2 (fun h => (nomatch h)) ⟨n1, by simp⟩
  have hne : (next + 1 == next) = false := by simp
  have hne' : (next == next + 1) = false := by simp
  refine ⟨_, _, h3, rfl, ?_, ?_⟩ <;> simp [Brokers.register, Brokers.unregister, Brokers.put, List.lookup, hne, hne']

/-- **C49** fails when registration with the poll fails: the broker stays in the table without a token, and
unregistering it panics. -/
theorem failed_registration_panics_later (b : Brokers) (name : Nat) (h : b.store.lookup b.store.length = none) (ok : Bool) :
    (b.register name false).1 = .error .register ∧
    ((b.register name false).2.unregister b.store.length ok).1 = .error .panic := by
  have hr : b.register name false = (.error .register, { b with store := Brokers.put b.store b.store.length ⟨name, none⟩, next := b.next + 1 }) := by
    unfold Brokers.register
    simp [h]
  rw [hr]
  refine ⟨rfl, ?_⟩
  unfold Brokers.unregister
  dsimp only
  rw [lookup_put, if_pos rfl]

/-- C49: a history with three brokers, of which one was unregistered -/
example : ∃ b, BrokerHistory true b [(1, 20), (0, 10)] := by
  have h1 := BrokerHistory.registered (lifo := true) ⟨[], [], 3⟩ [] 10 0 (.start 3) rfl
  have h2 := BrokerHistory.registered (lifo := true) _ _ 20 1 h1 rfl
  have h3 := BrokerHistory.registered (lifo := true) _ _ 30 2 h2 rfl
  exact ⟨_, BrokerHistory.unregistered (lifo := true) _ _ 2 true h3 (fun _ => ⟨30, _, rfl⟩) ⟨30, by simp⟩⟩

/-! ### C41: the key pair is supplied once -/

/-- a sequence of actions -/
def run (C : Crypto) (a : App) (acts : List Act) : App := acts.foldl (fun a o => a.apply C o) a

/-- the tokens in use by brokers are below the next free one, and are not `tok` -/
def Spares (tok : Nat) (b : Brokers) : Prop := tok < b.next ∧ ∀ x ∈ b.io, x.1 < b.next ∧ x.1 ≠ tok

theorem register_io (b : Brokers) (name : Nat) (ok : Bool) : b.next ≤ (b.register name ok).2.next ∧
    ∀ x ∈ (b.register name ok).2.io, x ∈ b.io ∨ (x.1 = b.next ∧ b.next < (b.register name ok).2.next) := by
  unfold Brokers.register
  dsimp only
  split
  · exact ⟨Nat.le_refl _, fun x h => .inl h⟩
  · split
    · exact ⟨Nat.le_succ _, fun x h => .inl h⟩
    · split
      · exact ⟨Nat.le_succ _, fun x h => .inl h⟩
      · refine ⟨Nat.le_succ _, fun x h => ?_⟩
        unfold Brokers.put at h
        rcases List.mem_cons.mp h with rfl | h
        · exact .inr ⟨rfl, Nat.lt_succ_self _⟩
        · exact .inl (List.mem_of_mem_filter h)

theorem unregister_io (b : Brokers) (ptr : Nat) (ok : Bool) : (b.unregister ptr ok).2.next = b.next ∧ ∀ x ∈ (b.unregister ptr ok).2.io, x ∈ b.io := by
  unfold Brokers.unregister
  split
  · exact ⟨rfl, fun _ h => h⟩
  · dsimp only
    repeat' split
    all_goals first | exact ⟨rfl, fun _ h => h⟩ | exact ⟨rfl, fun _ h => List.mem_of_mem_filter h⟩

theorem addPeer_brokers (a : App) (x : NewPeer) : (a.addPeer C x).2.brokers = a.brokers := by
  have push : ∀ (b : App) (m : Nat), (b.pushPeer m x).2.brokers = b.brokers := by
    intro b m; unfold pushPeer; split <;> rfl
  unfold addPeer
  repeat' split
  all_goals first | rfl | exact push _ _ | (dsimp only; repeat' split; all_goals first | rfl | exact push _ _)

theorem supply_brokers (a : App) (kp : Bytes × Bytes) (r : NewRnd) : (a.supply C kp r).2.brokers = a.brokers := by
  unfold supply
  split
  · rfl
  · rfl
  · dsimp only; split <;> rfl

theorem spares_apply {tok : Nat} {a : App} (h : Spares tok a.brokers) (o : Act) (ho : o.WF C) : Spares tok (a.apply C o).brokers := by
  cases o with
  | round e => show Spares tok (a.step C e).app.brokers; rw [(step_frame (C := C) a e ho).1.brokers]; exact h
  | addPeer x => show Spares tok (a.addPeer C x).2.brokers; rw [addPeer_brokers]; exact h
  | supply kp r => show Spares tok (a.supply C kp r).2.brokers; rw [supply_brokers]; exact h
  | registerBroker name ok =>
    show Spares tok (a.brokers.register name ok).2
    obtain ⟨h1, h2⟩ := register_io a.brokers name ok
    refine ⟨Nat.lt_of_lt_of_le h.1 h1, fun x hx => ?_⟩
    rcases h2 x hx with hx | ⟨hx, hlt⟩
    · exact ⟨Nat.lt_of_lt_of_le (h.2 x hx).1 h1, (h.2 x hx).2⟩
    · rw [hx]; exact ⟨hlt, Nat.ne_of_gt h.1⟩
  | unregisterBroker ptr ok =>
    show Spares tok (a.brokers.unregister ptr ok).2
    obtain ⟨h1, h2⟩ := unregister_io a.brokers ptr ok
    unfold Spares
    rw [h1]
    exact ⟨h.1, fun x hx => h.2 x (h2 x hx)⟩
  | addSocket =>
    show Spares tok { a.brokers with next := a.brokers.next + 1 }
    exact ⟨Nat.lt_succ_of_lt h.1, fun x hx => ⟨Nat.lt_succ_of_lt (h.2 x hx).1, (h.2 x hx).2⟩⟩

/-- **C49.** The token a socket is registered under (the next one the application hands out) is never one of a broker's, whatever was done before and is
done afterwards: an I/O event of a socket never goes to a broker. -/
theorem socket_token_not_a_brokers (a : App) (h0 : a.brokers.io = []) (pre post : List Act) (hpre : ∀ o ∈ pre, o.WF C) (hpost : ∀ o ∈ post, o.WF C) :
    (run C a (pre ++ .addSocket :: post)).brokers.io.lookup (run C a pre).brokers.next = none := by
  have below : ∀ (l : List Act) (a : App), (∀ o ∈ l, o.WF C) → (∀ x ∈ a.brokers.io, x.1 < a.brokers.next) → ∀ x ∈ (run C a l).brokers.io, x.1 < (run C a l).brokers.next := by
    intro l
    induction l with
    | nil => intro a _ h; exact h
    | cons o l ih =>
      intro a hw h
      refine ih (a.apply C o) (fun o' ho' => hw o' (List.mem_cons_of_mem _ ho')) (fun x hx => ?_)
      -- one action keeps all tokens below the next one
      have ho := hw o List.mem_cons_self
      cases o with
      | round e =>
        have : (a.apply C (.round e)).brokers = a.brokers := (step_frame (C := C) a e ho).1.brokers
        rw [this] at hx ⊢; exact h x hx
      | addPeer y =>
        have : (a.apply C (.addPeer y)).brokers = a.brokers := addPeer_brokers a y
        rw [this] at hx ⊢; exact h x hx
      | supply kp r =>
        have : (a.apply C (.supply kp r)).brokers = a.brokers := supply_brokers a kp r
        rw [this] at hx ⊢; exact h x hx
      | registerBroker name ok =>
        obtain ⟨h1, h2⟩ := register_io a.brokers name ok
        rcases h2 x hx with hx | ⟨hx, hlt⟩
        · exact Nat.lt_of_lt_of_le (h x hx) h1
        · rw [hx]; exact hlt
      | unregisterBroker ptr ok =>
        obtain ⟨h1, h2⟩ := unregister_io a.brokers ptr ok
        show x.1 < (a.brokers.unregister ptr ok).2.next
        rw [h1]; exact h x (h2 x hx)
      | addSocket => exact Nat.lt_succ_of_lt (h x hx)
  have spared : ∀ (l : List Act) (a : App) (tok : Nat), (∀ o ∈ l, o.WF C) → Spares tok a.brokers → Spares tok (run C a l).brokers := by
    intro l
    induction l with
    | nil => intro a tok _ h; exact h
    | cons o l ih => intro a tok hw h; exact ih _ tok (fun o' ho' => hw o' (List.mem_cons_of_mem _ ho')) (spares_apply h o (hw o List.mem_cons_self))
  have hb := below pre a hpre (by rw [h0]; exact nofun)
  have hs : Spares (run C a pre).brokers.next ((run C a pre).apply C .addSocket).brokers :=
    ⟨Nat.lt_succ_self _, fun x hx => ⟨Nat.lt_succ_of_lt (hb x hx), Nat.ne_of_lt (hb x hx)⟩⟩
  have hrun : run C a (pre ++ .addSocket :: post) = run C ((run C a pre).apply C .addSocket) post := List.foldl_append ..
  rw [hrun]
  have := (spared post _ _ hpost hs).2
  generalize (run C a pre).brokers.next = tok at this ⊢
  rw [List.lookup_eq_none_iff]
  intro x hx
  simpa using (this x hx).2.symm

/-- A new application has no brokers; a broker registered before the socket has another token. -/
example (kp : Option (Bytes × Bytes)) (r : NewRnd) (fs : FileIO.Fs) : (App.new kp r 0 fs).brokers.io = [] ∧
    (run Toy.crypto (App.new kp r 0 fs) [.registerBroker 7 true, .addSocket, .registerBroker 8 true]).brokers.io = [(3, 1), (1, 0)] := ⟨rfl, rfl⟩

/-- The server of the application works with the key pair `kp`. -/
def HasKeys (a : App) (kp : Bytes × Bytes) : Prop := ∃ s, a.site = .product s ∧ s.sskm = kp.1 ∧ s.spkm = kp.2

theorem apply_hasKeys (L : C.Lawful) (a : App) (kp : Bytes × Bytes) (h : a.HasKeys kp) (o : Act) (ho : o.WF C) : (a.apply C o).HasKeys kp := by
  obtain ⟨s, hs, h1, h2⟩ := h
  cases o with
  | round e =>
    obtain ⟨-, f, -, -⟩ := step_frame (C := C) a e ho
    obtain ⟨ops, hop, hsite⟩ := f s hs
    have hl := run_later L ops (fun o hm => (hop o hm).1) s
    exact ⟨_, hsite, hl.sskm.trans h1, hl.spkm.trans h2⟩
  | addPeer x =>
    show ((a.addPeer C x).2).HasKeys kp
    have key : ∃ s1, (a.addPeer C x).2.site = .product s1 ∧ s1.sskm = s.sskm ∧ s1.spkm = s.spkm := by
      unfold addPeer
      rw [hs]
      dsimp only
      rcases server_addPeer_cases (C := C) s x.params.psk x.params.pk x.params.version x.params.osk with hA | ⟨g1, g2, -⟩
      · rw [hA]; exact ⟨s, rfl, rfl, rfl⟩
      · have hl := step_later L s (.addPeer x.params.psk x.params.pk x.params.version x.params.osk) ho
        rw [← g2] at hl
        generalize s.addPeer C x.params.psk x.params.pk x.params.version x.params.osk = g at g1 hl
        obtain ⟨g1', s1⟩ := g
        dsimp only at g1 hl
        subst g1
        dsimp only
        split
        · unfold pushPeer
          split <;> exact ⟨s1, rfl, hl.sskm, hl.spkm⟩
        · exact ⟨s1, rfl, hl.sskm, hl.spkm⟩
    obtain ⟨s1, g1, g2, g3⟩ := key
    exact ⟨s1, g1, g2.trans h1, g3.trans h2⟩
  | supply kp' r =>
    refine ⟨s, ?_, h1, h2⟩
    show (a.supply C kp' r).2.site = _
    unfold supply
    rw [hs]
    exact hs
  | registerBroker name ok => exact ⟨s, hs, h1, h2⟩
  | unregisterBroker name ok => exact ⟨s, hs, h1, h2⟩
  | addSocket => exact ⟨s, hs, h1, h2⟩

/-- **C41**: once a request to supply a key pair was answered with success, the server works with this key
pair, and whatever happens afterwards it goes on working with it; every further request is answered by
"already supplied" and changes nothing. -/
theorem keypair_supplied_once (L : C.Lawful) (a : App) (hr : Sane C a) (kp : Bytes × Bytes) (r : NewRnd) (hrr : rndOk r) (hok : (a.supply C kp r).1 = .ok)
    (acts : List Act) (ha : ∀ o ∈ acts, o.WF C) :
    ((a.supply C kp r).2.run C acts).HasKeys kp ∧
    ∀ kp' r', ((a.supply C kp r).2.run C acts).supply C kp' r' = (.already, (a.supply C kp r).2.run C acts) := by
  have h0 : (a.supply C kp r).2.HasKeys kp := by
    unfold supply at hok ⊢
    cases hs : a.site with
    | void => rw [hs] at hok; cases hok
    | product s => rw [hs] at hok; cases hok
    | builder b =>
      rw [hs] at hok
      dsimp only at hok ⊢
      obtain ⟨-, b2, b3⟩ := build_exact (C := C) r hrr { b with keypair := some kp } (hr.2 b hs)
      by_cases hnd : (b.peers.map (PeerParams.id C)).Nodup
      · obtain ⟨s, e1, e2, e3, e4, e5⟩ := b3 kp.1 kp.2 rfl hnd
        simp only [Site.erect, Site.modifyTakenWithReturn, Site.take, e1, Option.getD_some]
        exact ⟨s, rfl, e2, e3⟩
      · have e1 := b2 kp.1 kp.2 rfl hnd
        simp only [Site.erect, Site.modifyTakenWithReturn, Site.take, e1, Option.getD_some] at hok
        cases hok
  have hrun : ∀ (b : App), b.HasKeys kp → (b.run C acts).HasKeys kp := by
    induction acts with
    | nil => exact fun b hb => hb
    | cons o acts ih =>
      intro b hb
      exact ih (fun o ho => ha o (by simp [ho])) _ (apply_hasKeys L b kp hb o (ha o (by simp)))
  have h1 := hrun _ h0
  refine ⟨h1, fun kp' r' => ?_⟩
  obtain ⟨s, hs, -, -⟩ := h1
  generalize (a.supply C kp r).2.run C acts = b at hs ⊢
  unfold supply
  rw [hs]

end App
end Verif
