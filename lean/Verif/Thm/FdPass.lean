import Verif.Model.FdPass
import Verif.Thm.LengthPrefix
/-
C60: passing file descriptors over unix sockets.
-/
namespace Verif.FdPass
open LengthPrefix (IoKind IoOut)

theorem rights_append (a b : Chan) : rights (a ++ b) = rights a ++ rights b := by simp [rights]
theorem bytes_append (a b : Chan) : bytes (a ++ b) = bytes a ++ bytes b := by simp [bytes]
theorem bytes_take (a : Chan) (n : Nat) : bytes (a.take n) = (bytes a).take n := by simp [bytes, List.map_take]
theorem bytes_drop (a : Chan) (n : Nat) : bytes (a.drop n) = (bytes a).drop n := by simp [bytes, List.map_drop]
theorem rights_split (a : Chan) (n : Nat) : rights (a.take n) ++ rights (a.drop n) = rights a := by
  rw [← rights_append, List.take_append_drop]

theorem packet_bytes (b : Bytes) (fds : List Nat) : bytes (packet b fds) = b := by
  cases b with
  | nil => rfl
  | cons x xs => simp [packet, bytes, Function.comp_def]

theorem flatMap_nil_of (l : List UInt8) : (l.map (fun x => ((x, []) : UInt8 × List Nat))).flatMap (·.2) = [] := by
  induction l with
  | nil => rfl
  | cons x xs ih => simpa using ih

theorem packet_rights (b : Bytes) (fds : List Nat) (h : b ≠ []) : rights (packet b fds) = fds := by
  cases b with
  | nil => exact absurd rfl h
  | cons x xs => simp only [packet, rights, List.flatMap_cons, flatMap_nil_of, List.append_nil]

/-- one write: what it does to the queue and to the socket -/
theorem write_spec (q : List Nat) (buf : Bytes) (o : IoOut) :
    rights (write q buf o).2.2 ++ (write q buf o).2.1 = q ∧
    bytes (write q buf o).2.2 <+: buf ∧
    (∀ n, (write q buf o).1 = .ok n → (bytes (write q buf o).2.2).length = n ∧ (buf ≠ [] → 0 < n)) ∧
    (∀ k, (write q buf o).1 = .error k → (write q buf o).2 = (q, [])) ∧
    (rights (write q buf o).2.2).length ≤ 253 := by
  unfold write
  by_cases hb : buf.isEmpty
  · rw [if_pos hb]
    have : buf = [] := by simpa using hb
    subst this
    refine ⟨by simp [rights], by simp [bytes], ?_, (fun k h => nomatch h), by simp [rights]⟩
    intro n h
    cases h
    simp [bytes]
  · rw [if_neg hb]
    have hne : buf ≠ [] := by simpa using hb
    cases o with
    | err k => exact ⟨by simp [rights], by simp [bytes], (fun n h => nomatch h), (fun _ _ => rfl), by simp [rights]⟩
    | ok n =>
      simp only []
      generalize hc : (if q.length ≤ scmMaxFd then buf else buf.take 1) = b1
      have hp : b1 <+: buf := by
        rw [← hc]; split
        · exact List.prefix_refl _
        · exact List.take_prefix _ _
      have hl : 1 ≤ b1.length := by
        have := List.length_pos_iff.mpr hne
        rw [← hc]; split
        · omega
        · simp only [List.length_take]; omega
      have hm : (b1.take (max 1 (min n b1.length))).length = max 1 (min n b1.length) := by
        rw [List.length_take]; omega
      have hn : b1.take (max 1 (min n b1.length)) ≠ [] := by
        intro h
        rw [h] at hm
        simp at hm
        omega
      refine ⟨?_, ?_, ?_, (fun k h => nomatch h), ?_⟩
      · rw [packet_rights _ _ hn, List.take_append_drop]
      · rw [packet_bytes]
        exact (List.take_prefix _ _).trans hp
      · intro m h
        cases h
        rw [packet_bytes]
        exact ⟨hm, fun _ => by omega⟩
      · rw [packet_rights _ _ hn, List.length_take]
        simp only [scmMaxFd]
        omega

theorem claimAll_spec (fds : List Nat) : ∀ c, (claimAll fds c).2 = none → (claimAll fds c).1 = fds := by
  induction fds with
  | nil => intro c _; rfl
  | cons fd fds ih =>
    intro c h
    unfold claimAll at h ⊢
    cases hc : c.headD none with
    | some k => simp only [hc] at h; cases h
    | none =>
      simp only [hc] at h ⊢
      rw [ih _ h]

theorem claimAll_ok (fds : List Nat) (c : List (Option IoKind)) (hc : ∀ x ∈ c, x = none) : (claimAll fds c).2 = none := by
  induction fds generalizing c with
  | nil => rfl
  | cons fd fds ih =>
    unfold claimAll
    have : c.headD none = none := by
      cases c with
      | nil => rfl
      | cons x xs => exact hc x (by simp)
    rw [this]
    exact ih c.tail (fun x hx => hc x (List.mem_of_mem_tail hx))

/-- Everything one read does. `n` bytes leave the socket; the descriptors attached to them are either all that was
missing, or are closed. -/
theorem read_spec (maxFds : Nat) (held : List Nat) (c : Chan) (len : Nat) (o : RdOut) :
    ∃ n, (read maxFds held c len o).chan = c.drop n ∧ (read maxFds held c len o).taken = bytes (c.take n) ∧
      n ≤ len ∧ n ≤ c.length ∧
      ((∃ k, (read maxFds held c len o).res = .error k ∧ (read maxFds held c len o).held = held ∧
          (read maxFds held c len o).closed = rights (c.take n)) ∨
       ((read maxFds held c len o).res = .ok (bytes (c.take n)) ∧
          (read maxFds held c len o).held = held ++ (rights (c.take n)).take (maxFds - held.length) ∧
          (read maxFds held c len o).closed = (rights (c.take n)).drop (maxFds - held.length))) := by
  have hs : ∀ (seen : Bool) (c : Chan), stops seen c ≤ c.length := by
    intro seen c
    induction c generalizing seen with
    | nil => simp [stops]
    | cons x xs ih =>
      obtain ⟨b, fds⟩ := x
      unfold stops
      split
      · simp
      · have := ih (seen || !fds.isEmpty)
        simp only [List.length_cons]; omega
  unfold read
  cases hio : o.io with
  | err k => exact ⟨0, by simp, by simp [bytes], by simp, by simp, .inl ⟨k, rfl, rfl, by simp [rights]⟩⟩
  | ok n =>
    simp only []
    have hst := hs false c
    refine ⟨min n (min len (stops false c)), ?_⟩
    cases hcl : claimAll (List.take (maxFds - held.length) (rights (List.take (min n (min len (stops false c))) c))) o.claim with
    | mk got r =>
      cases r with
      | none =>
        dsimp only
        have hg := claimAll_spec _ o.claim (by rw [hcl])
        rw [hcl] at hg
        refine ⟨by rfl, by rfl, by omega, by omega, .inr ⟨by rfl, ?_, by rfl⟩⟩
        simp only [] at hg
        rw [hg]
      | some x =>
        obtain ⟨k, rest⟩ := x
        dsimp only
        refine ⟨by rfl, by rfl, by omega, by omega, .inl ⟨k, by rfl, ?_, ?_⟩⟩
        · simp
        · rw [List.take_append_drop]

/-! ### The property -/

/-- A sender, a socket and a receiver: descriptors queued at the sender, what is in the socket, descriptors the
receiver's queue holds, descriptors the application took from it, and descriptors that were closed. -/
structure Sys where
  queue : List Nat
  chan : Chan
  held : List Nat
  taken : List Nat
  closed : List Nat

/-- What can happen: a write, a read into a slice of `len` bytes, the application takes the first `n` descriptors
received, or queues more descriptors. -/
inductive Ev where
  | write (buf : Bytes) (o : IoOut)
  | read (len : Nat) (o : RdOut)
  | take (n : Nat)
  | queue (fds : List Nat)

def Sys.step (maxFds : Nat) (s : Sys) : Ev → Sys
  | .write buf o => { s with queue := (FdPass.write s.queue buf o).2.1, chan := s.chan ++ (FdPass.write s.queue buf o).2.2 }
  | .read len o =>
    { s with held := (FdPass.read maxFds s.held s.chan len o).held, chan := (FdPass.read maxFds s.held s.chan len o).chan,
             closed := s.closed ++ (FdPass.read maxFds s.held s.chan len o).closed }
  | .take n => { s with taken := s.taken ++ s.held.take n, held := s.held.drop n }
  | .queue fds => { s with queue := s.queue ++ fds }

def Sys.run (maxFds : Nat) (s : Sys) (es : List Ev) : Sys := es.foldl (Sys.step maxFds) s

/-- the descriptors queued during a history -/
def queued : List Ev → List Nat
  | [] => []
  | .queue fds :: es => fds ++ queued es
  | _ :: es => queued es

/-- the descriptors of a system that are on their way or arrived, in order -/
def Sys.alive (s : Sys) : List Nat := s.taken ++ s.held ++ rights s.chan ++ s.queue

theorem Sys.step_spec (maxFds : Nat) (s : Sys) (e : Ev) :
    (s.step maxFds e).alive.Sublist (s.alive ++ queued [e]) ∧
    ((s.step maxFds e).closed ++ (s.step maxFds e).alive).Perm (s.closed ++ (s.alive ++ queued [e])) ∧
    ((s.step maxFds e).closed = s.closed → (s.step maxFds e).alive = s.alive ++ queued [e]) ∧
    (s.held.length ≤ maxFds → (s.step maxFds e).held.length ≤ maxFds) ∧ s.closed <+: (s.step maxFds e).closed := by
  cases e with
  | write buf o =>
    have h := (write_spec s.queue buf o).1
    have he : (s.step maxFds (.write buf o)).alive = s.alive ++ queued [.write buf o] := by
      simp only [Sys.alive, Sys.step, queued, List.append_nil, rights_append, List.append_assoc]
      rw [h]
    refine ⟨by rw [he]; exact List.Sublist.refl _, ?_, fun _ => he, id, List.prefix_refl _⟩
    rw [he]
    exact List.Perm.refl _
  | queue fds =>
    have he : (s.step maxFds (.queue fds)).alive = s.alive ++ queued [.queue fds] := by
      simp [Sys.alive, Sys.step, queued]
    refine ⟨by rw [he]; exact List.Sublist.refl _, ?_, fun _ => he, id, List.prefix_refl _⟩
    rw [he]
    exact List.Perm.refl _
  | take n =>
    have he : (s.step maxFds (.take n)).alive = s.alive ++ queued [.take n] := by
      simp [Sys.alive, Sys.step, queued]
    refine ⟨by rw [he]; exact List.Sublist.refl _, ?_, fun _ => he, ?_, List.prefix_refl _⟩
    · rw [he]
      exact List.Perm.refl _
    · intro h
      simp only [Sys.step, List.length_drop]
      omega
  | read len o =>
    obtain ⟨n, hc, -, -, -, h⟩ := read_spec maxFds s.held s.chan len o
    have hr := rights_split s.chan n
    rcases h with ⟨k, -, hh, hcl⟩ | ⟨-, hh, hcl⟩
    · simp only [Sys.step, Sys.alive, queued, List.append_nil, hc, hh, hcl]
      rw [← hr]
      refine ⟨?_, ?_, ?_, id, List.prefix_append _ _⟩
      · simp only [List.append_assoc]
        refine List.Sublist.append_left (List.Sublist.append_left ?_ _) _
        exact List.sublist_append_right _ _
      · rw [List.append_assoc s.closed]
        refine List.Perm.append_left _ ?_
        simp only [← List.append_assoc]
        refine List.Perm.append_right _ (List.Perm.append_right _ ?_)
        rw [List.append_assoc]
        exact List.perm_append_comm
      · intro h
        have : rights (s.chan.take n) = [] := by simpa using h
        rw [this]
        simp
    · simp only [Sys.step, Sys.alive, queued, List.append_nil, hc, hh, hcl]
      have ht : ∀ m, (rights (s.chan.take n)).take m ++ (rights (s.chan.take n)).drop m = rights (s.chan.take n) :=
        fun m => List.take_append_drop _ _
      refine ⟨?_, ?_, ?_, ?_, List.prefix_append _ _⟩
      · rw [← hr, ← ht (maxFds - s.held.length)]
        simp only [List.append_assoc]
        refine List.Sublist.append_left (List.Sublist.append_left (List.Sublist.append ?_ ?_) _) _
        · rw [ht]; exact List.Sublist.refl _
        · exact List.sublist_append_right _ _
      · rw [← hr, ← ht (maxFds - s.held.length), ht, ← ht (maxFds - s.held.length)]
        rw [ht]
        generalize hD : (rights (s.chan.take n)).drop (maxFds - s.held.length) = D
        generalize hT : (rights (s.chan.take n)).take (maxFds - s.held.length) = T
        have hR : rights (s.chan.take n) = T ++ D := by rw [← hD, ← hT, ht]
        rw [hR]
        simp only [List.append_assoc]
        refine List.Perm.append_left _ ?_
        have h1 : (D ++ (s.taken ++ (s.held ++ T))).Perm (s.taken ++ (s.held ++ T) ++ D) := List.perm_append_comm
        have h2 := List.Perm.append_right (rights (s.chan.drop n) ++ s.queue) h1
        simpa only [List.append_assoc] using h2
      · intro h
        have hz : (rights (s.chan.take n)).drop (maxFds - s.held.length) = [] := by simpa using h
        have := ht (maxFds - s.held.length)
        rw [hz, List.append_nil] at this
        rw [this, ← hr]
        simp
      · intro hb
        simp only [List.length_append, List.length_take]
        omega

theorem queued_cons (e : Ev) (es : List Ev) : queued (e :: es) = queued [e] ++ queued es := by
  cases e <;> simp [queued]

/-- C60: descriptors arrive in the order in which they were queued: what the application took, what the
receiver holds, what is in the socket and what is still queued is, in this order, a subsequence of what was
queued; nothing is duplicated. The receiver never holds more than `maxFds`. Every descriptor that is missing was
closed (none leaks), and if none was closed, none is missing. For every history of writes, reads (with any
number of bytes transferred and any failures), takes and further queueing. -/
theorem descriptors_in_order_and_bounded (maxFds : Nat) (es : List Ev) (r : Sys)
    (hr : r = Sys.run maxFds ⟨[], [], [], [], []⟩ es) :
    (r.taken ++ r.held ++ rights r.chan ++ r.queue).Sublist (queued es) ∧
    r.held.length ≤ maxFds ∧
    (r.closed ++ (r.taken ++ r.held ++ rights r.chan ++ r.queue)).Perm (queued es) ∧
    (r.closed = [] → r.taken ++ r.held ++ rights r.chan ++ r.queue = queued es) := by
  subst hr
  suffices h : ∀ s : Sys, s.held.length ≤ maxFds →
      (Sys.run maxFds s es).alive.Sublist (s.alive ++ queued es) ∧ (Sys.run maxFds s es).held.length ≤ maxFds ∧
      ((Sys.run maxFds s es).closed ++ (Sys.run maxFds s es).alive).Perm (s.closed ++ (s.alive ++ queued es)) ∧
      ((Sys.run maxFds s es).closed = s.closed → (Sys.run maxFds s es).alive = s.alive ++ queued es) ∧
      s.closed <+: (Sys.run maxFds s es).closed by
    have := h ⟨[], [], [], [], []⟩ (by simp)
    simp only [Sys.alive, rights, List.flatMap_nil, List.append_nil, List.nil_append] at this ⊢
    exact ⟨this.1, this.2.1, this.2.2.1, this.2.2.2.1⟩
  induction es with
  | nil =>
    intro s hs
    simp only [Sys.run, List.foldl_nil, queued, List.append_nil]
    exact ⟨List.Sublist.refl _, hs, List.Perm.refl _, fun _ => trivial, List.prefix_refl _⟩
  | cons e es ih =>
    intro s hs
    obtain ⟨h1, h2, h3, h4, h5⟩ := s.step_spec maxFds e
    obtain ⟨i1, i2, i3, i4, i5⟩ := ih (s.step maxFds e) (h4 hs)
    have hrun : Sys.run maxFds s (e :: es) = Sys.run maxFds (s.step maxFds e) es := rfl
    rw [hrun, queued_cons]
    refine ⟨?_, i2, ?_, ?_, h5.trans i5⟩
    · rw [← List.append_assoc]
      exact i1.trans (List.Sublist.append_right h1 _)
    · refine i3.trans ?_
      rw [← List.append_assoc, ← List.append_assoc s.alive, ← List.append_assoc s.closed]
      exact List.Perm.append_right _ h2
    · intro h
      have hc : (s.step maxFds e).closed = s.closed := by
        rw [h] at i5
        exact (h5.eq_of_length (Nat.le_antisymm h5.length_le i5.length_le)).symm
      rw [i4 (by rw [h, hc]), h3 hc, List.append_assoc]

/-- C60: a batch that fits is received completely; if claiming one descriptor of a batch fails, the whole batch is
closed, what was held before stays, and the caller sees the error. -/
theorem batch_all_or_none (maxFds : Nat) (held : List Nat) (c : Chan) (len : Nat) (o : RdOut) (rd : Rd)
    (h : rd = read maxFds held c len o) :
    ∃ n, rd.chan = c.drop n ∧
      (∀ k, rd.res = .error k → rd.held = held ∧ rd.closed = rights (c.take n)) ∧
      (∀ b, rd.res = .ok b → b = bytes (c.take n) ∧
        (held.length + (rights (c.take n)).length ≤ maxFds → rd.held = held ++ rights (c.take n) ∧ rd.closed = [])) ∧
      ((∃ k, o.io = .err k) → n = 0) ∧
      ((∀ x ∈ o.claim, x = none) → (∃ m, o.io = .ok m) → ∃ b, rd.res = .ok b) := by
  subst h
  obtain ⟨n, h1, -, -, -, h4⟩ := read_spec maxFds held c len o
  by_cases hio : ∃ k, o.io = .err k
  · obtain ⟨k, hk⟩ := hio
    refine ⟨0, ?_, ?_, ?_, fun _ => rfl, ?_⟩
    · simp [read, hk]
    · intro _ _
      simp [read, hk, rights]
    · intro b hb
      simp [read, hk] at hb
    · rintro - ⟨m, hm⟩
      rw [hk] at hm
      cases hm
  · refine ⟨n, h1, ?_, ?_, fun h => absurd h hio, ?_⟩
    · intro k hk
      rcases h4 with ⟨k', -, a, b⟩ | ⟨a, -⟩
      · exact ⟨a, b⟩
      · rw [a] at hk; cases hk
    · intro b hb
      rcases h4 with ⟨k', a, -⟩ | ⟨a, x, y⟩
      · rw [a] at hb; cases hb
      · rw [a] at hb
        cases hb
        refine ⟨rfl, fun hf => ?_⟩
        rw [x, y, List.take_of_length_le (by omega), List.drop_of_length_le (by omega)]
        exact ⟨rfl, rfl⟩
    · rintro hcl ⟨m, hm⟩
      simp only [read, hm]
      have := claimAll_ok (List.take (maxFds - held.length) (rights (List.take (min m (min len (stops false c))) c))) o.claim hcl
      cases hx : claimAll (List.take (maxFds - held.length) (rights (List.take (min m (min len (stops false c))) c))) o.claim with
      | mk a b =>
        rw [hx] at this
        simp only [] at this
        subst this
        exact ⟨_, rfl⟩

/-- C60: a successful write of a non-empty buffer sends the first descriptors of the queue, all of them if there are at
most 253, otherwise 253 together with a single byte; a failed write sends nothing. -/
theorem write_sends_queue_front (q : List Nat) (buf : Bytes) (o : IoOut) :
    (∀ k, (write q buf o).1 = .error k → (write q buf o).2 = (q, [])) ∧
    (∀ n, (write q buf o).1 = .ok n → buf ≠ [] →
      rights (write q buf o).2.2 = q.take 253 ∧ (write q buf o).2.1 = q.drop 253 ∧
      bytes (write q buf o).2.2 = buf.take n ∧ 0 < n ∧ n ≤ buf.length ∧ (253 < q.length → n = 1)) := by
  obtain ⟨-, h2, h3, h4, -⟩ := write_spec q buf o
  refine ⟨h4, fun n hn hb => ?_⟩
  obtain ⟨hl, hp⟩ := h3 n hn
  have hpre : bytes (write q buf o).2.2 = buf.take n := by
    rw [← hl]; exact List.prefix_iff_eq_take.mp h2
  have hle : n ≤ buf.length := by rw [← hl]; exact h2.length_le
  refine ⟨?_, ?_, hpre, hp hb, hle, ?_⟩
  all_goals
    unfold write at hn
    rw [if_neg (by simpa using hb)] at hn
    cases o with
    | err k => cases hn
    | ok m => ?_
  · unfold write
    rw [if_neg (by simpa using hb)]
    dsimp only
    rw [packet_rights]
    · rw [scmMaxFd]
      by_cases hq : q.length ≤ 253
      · rw [Nat.min_eq_right hq, List.take_of_length_le hq, List.take_length]
      · rw [Nat.min_eq_left (by omega)]
    · have := List.length_pos_iff.mpr hb
      intro h
      have := congrArg List.length h
      simp only [List.length_take, List.length_nil] at this
      split at this
      · omega
      · simp only [List.length_take] at this
        omega
  · unfold write
    rw [if_neg (by simpa using hb)]
    dsimp only
    rw [scmMaxFd]
    by_cases hq : q.length ≤ 253
    · rw [Nat.min_eq_right hq, List.drop_of_length_le hq, List.drop_length]
    · rw [Nat.min_eq_left (by omega)]
  · intro hq
    have hn' : n = max 1 (min m (List.length (if q.length ≤ scmMaxFd then buf else List.take 1 buf))) := by
      cases hn; rfl
    rw [if_neg (by simp only [scmMaxFd]; omega)] at hn'
    simp only [List.length_take] at hn'
    omega

/-- Finding: when claiming a descriptor fails, the bytes of that read are gone although the caller is told that the
read failed: if the error is `Interrupted` the caller tries again and loses its place in the stream. -/
theorem claim_failure_loses_bytes : ∃ (c : Chan) (o : RdOut),
    (read 2 [] c 8 o).res = .error .interrupted ∧
    (read 2 [] c 8 o).chan.length < c.length :=
  ⟨[(1, [7]), (2, [])], ⟨.ok 8, [some .interrupted]⟩, rfl, by decide⟩

/-- Not vacuous: 300 descriptors are sent with two writes and two of the first batch are received, the operating system
closes the others of this batch (the receiver has room for two). -/
example : (Sys.run 2 ⟨[], [], [], [], []⟩
    [.queue (List.range 300), .write [1, 2, 3] (.ok 3), .write [2, 3] (.ok 2), .read 8 ⟨.ok 8, []⟩, .take 1]).held = [1] := by
  decide +kernel

/-- Not vacuous: with enough room nothing is closed and all descriptors arrive in order. -/
example : (Sys.run 2 ⟨[], [], [], [], []⟩
    [.queue [5, 6], .write [1, 2, 3] (.ok 3), .read 1 ⟨.ok 8, []⟩, .take 2]).taken = [5, 6] ∧
    (Sys.run 2 ⟨[], [], [], [], []⟩
      [.queue [5, 6], .write [1, 2, 3] (.ok 3), .read 1 ⟨.ok 8, []⟩, .take 2]).closed = [] := by decide +kernel

end Verif.FdPass
