import Verif.Model.BrokerFlush
import Verif.Thm.BrokerClient
import Verif.Thm.Fds
/-
C109: `flush_blocking` of the broker client. It delivers what is queued when it returns, but it never makes the socket blocking.
-/
namespace Verif.Broker
open LengthPrefix (IoKind IoOut Enc)

/-- What `write` may answer on descriptor `n`: the kernel never answers `EWOULDBLOCK` on a file in blocking mode. -/
def Allowed (p : Fds.Proc) (n : Nat) (os : List IoOut) : Prop :=
  ∀ e, p.at? n = some e → p.nonblock e.file = false → IoOut.err .wouldBlock ∉ os

/-- Setting the flags of a descriptor to what they are, whatever is set in the other bits, changes nothing. -/
theorem setFd_same {p : Fds.Proc} {n : Nat} {e : Fds.Entry} (he : p.at? n = some e) (flags : Nat)
    (h : flags.testBit 0 = e.cloexec) : p.setFd n flags = some p := by
  unfold Fds.Proc.setFd
  rw [he]
  simp only [Option.map_some, h]
  have ht := Fds.Proc.tab_of_at? he
  have hl := Fds.Proc.at?_lt he
  congr 1
  unfold Fds.Proc.put
  have : p.tab.set n (some ⟨e.file, e.cloexec⟩) = p.tab := by
    apply List.ext_getElem?
    intro i
    rw [List.getElem?_set]
    by_cases hi : n = i
    · subst hi; rw [if_pos rfl, if_pos hl, ht]
    · rw [if_neg hi]
  rw [this]

theorem getFd_eq {p : Fds.Proc} {n : Nat} {e : Fds.Entry} (he : p.at? n = some e) :
    p.getFd n = some (if e.cloexec then 1 else 0) := by simp [Fds.Proc.getFd, he]

theorem makeBlocking_nothing {p : Fds.Proc} {n : Nat} {e : Fds.Entry} (he : p.at? n = some e) : p.makeBlocking n = some p := by
  unfold Fds.Proc.makeBlocking
  rw [getFd_eq he]
  refine setFd_same he _ ?_
  cases e.cloexec <;> decide

theorem restore_nothing {p : Fds.Proc} {n : Nat} {e : Fds.Entry} (he : p.at? n = some e) :
    p.restoreFlags n (if e.cloexec then 1 else 0) = some p := by
  refine setFd_same he _ ?_
  cases e.cloexec <;> decide

theorem flushOn_eq (c : Client) {p : Fds.Proc} {n : Nat} {e : Fds.Entry} (he : p.at? n = some e) (os0 os1 : List IoOut) :
    ((c.flushOn p n os0 os1).res, (c.flushOn p n os0 os1).client) = c.flushBlocking os0 os1 ∧ (c.flushOn p n os0 os1).after = p ∧
      ((c.flushOn p n os0 os1).during = none ∨ (c.flushOn p n os0 os1).during = some p) := by
  unfold Client.flushOn Client.flushBlocking
  rcases c.flush os0 with ⟨r, c1⟩
  cases r with
  | error f => exact ⟨rfl, rfl, .inl rfl⟩
  | ok u =>
    dsimp only
    cases c1.enc.exhausted with
    | none => exact ⟨rfl, rfl, .inl rfl⟩
    | some x =>
      cases x with
      | true => exact ⟨rfl, rfl, .inl rfl⟩
      | false =>
        simp only [getFd_eq he, makeBlocking_nothing he, restore_nothing he]
        exact ⟨trivial, trivial, .inr trivial⟩

/-- **C109** (the part that holds) If `flush_blocking` returns without an error everything queued has been handed to the socket, in
order; it never panics; what it takes from the queue is what it hands over. The flags of the descriptor and all other descriptors
are afterwards as before. Missing: that the socket is in blocking mode while the loop runs (`flush_stays_nonblocking`), so that it
waits in the kernel rather than calling `write` over and over (`flush_spins`). -/
theorem flush_blocking_partial (c : Client) (h : c.enc.Ok) (p : Fds.Proc) (n : Nat) (e : Fds.Entry) (he : p.at? n = some e)
    (os0 os1 : List IoOut) :
    ((c.flushOn p n os0 os1).res = .ok () → (c.flushOn p n os0 os1).client.left = [] ∧ (c.flushOn p n os0 os1).client.out = c.out ++ c.left) ∧
    (c.flushOn p n os0 os1).client.out ++ (c.flushOn p n os0 os1).client.left = c.out ++ c.left ∧
    (c.flushOn p n os0 os1).res ≠ .error .panic ∧ (c.flushOn p n os0 os1).after = p := by
  obtain ⟨h1, h2, -⟩ := flushOn_eq c he os0 os1
  obtain ⟨hm, hr⟩ := Client.flushBlocking_spec os0 os1 h
  rw [← h1] at hm hr
  dsimp only at hm hr
  refine ⟨?_, hm.stream, ?_, h2⟩
  · intro hok
    rcases hr with ⟨-, hl⟩ | hr | hr
    · refine ⟨hl, ?_⟩
      have := hm.stream; rw [hl, List.append_nil] at this; exact this
    · rw [hok] at hr; simp at hr
    · rw [hok] at hr; simp at hr
  · rcases hr with ⟨hr, -⟩ | hr | hr <;> rw [hr] <;> intro hh <;> cases hh

/-- While the loop of `flush_blocking` runs the socket is in the mode it was in before, and so are all files. -/
theorem flush_stays_nonblocking (c : Client) (p : Fds.Proc) (n : Nat) (e : Fds.Entry) (he : p.at? n = some e) (os0 os1 : List IoOut)
    (q : Fds.Proc) (hq : (c.flushOn p n os0 os1).during = some q) : q.at? n = some e ∧ q.nonblock = p.nonblock := by
  obtain ⟨-, -, h | h⟩ := flushOn_eq c he os0 os1
  · rw [h] at hq; simp at hq
  · rw [h] at hq; cases hq; exact ⟨he, rfl⟩

theorem write_blocked {c : Client} (h : c.enc.Ok) (hl : c.left ≠ []) :
    c.enc.exhausted = some false ∧ c.enc.write (.err .wouldBlock) = (.error (.io .wouldBlock), c.enc, []) := by
  obtain ⟨x, hx, hxl⟩ := exhausted_eq h
  have hx' : x = false := by cases x with | false => rfl | true => exact absurd (hxl.1 rfl) hl
  subst hx'
  refine ⟨hx, ?_⟩
  unfold Enc.exhausted at hx
  unfold Enc.write
  cases hs : c.enc.nextSlice with
  | none => rw [hs] at hx; simp at hx
  | some s =>
    rw [hs] at hx
    simp at hx
    simp [hx]

theorem loopWrites_spin {c : Client} (h : c.enc.Ok) (hl : c.left ≠ []) (k : Nat) (os : List IoOut) :
    c.loopWrites (List.replicate k (.err .wouldBlock) ++ os) = k + c.loopWrites os := by
  induction k with
  | zero => simp
  | succ k ih =>
    obtain ⟨hx, hw⟩ := write_blocked h hl
    rw [List.replicate_succ, List.cons_append]
    rw [Client.loopWrites, if_pos hx, hw]
    simp only [List.append_nil]
    rw [ih]; omega

theorem flush_blocked {c : Client} (h : c.enc.Ok) (hl : c.left ≠ []) : c.flush [.err .wouldBlock] = (.ok (), c) := by
  obtain ⟨-, hw⟩ := write_blocked h hl
  unfold Client.flush
  rw [hw]
  simp

/-- **C109** (counterexample) If something is queued and the socket, in non-blocking mode as it always is, takes nothing for a while,
`flush_blocking` calls `write` over and over: for every number there is an execution the kernel allows with more calls than that,
none of which transfers a byte. -/
theorem flush_spins (c : Client) (h : c.enc.Ok) (hl : c.left ≠ []) (p : Fds.Proc) (n : Nat) (e : Fds.Entry) (he : p.at? n = some e)
    (hnb : p.nonblock e.file = true) (k : Nat) :
    ∃ os0 os1 q, (c.flushOn p n os0 os1).during = some q ∧ Allowed q n os1 ∧ (c.flushOn p n os0 os1).writes = k ∧
      (c.flushOn p n os0 os1).client.out = c.out := by
  refine ⟨[.err .wouldBlock], List.replicate k (.err .wouldBlock), p, ?_⟩
  have hx := (write_blocked h hl).1
  have hw := loopWrites_spin h hl k []
  simp only [List.append_nil, Client.loopWrites, Nat.add_zero] at hw
  have hall : ∀ k, c.flushAll (List.replicate k (.err .wouldBlock)) = (.error .hang, c) := by
    intro k
    induction k with
    | zero => simp [Client.flushAll, hx]
    | succ k ih =>
      rw [List.replicate_succ]
      unfold Client.flushAll
      simp only [hx, (write_blocked h hl).2, List.append_nil]
      exact ih
  have heq : c.flushOn p n [.err .wouldBlock] (List.replicate k (.err .wouldBlock)) = ⟨.error .hang, c, some p, p, k⟩ := by
    unfold Client.flushOn
    simp only [flush_blocked h hl, hx, getFd_eq he, makeBlocking_nothing he, restore_nothing he, hall, hw]
  rw [heq]
  refine ⟨rfl, ?_, rfl, rfl⟩
  intro e' he' hf
  rw [he] at he'; cases he'
  rw [hnb] at hf; simp at hf

/-- What blocking mode would give: if no `write` fails and each takes at least one byte, there are no more calls than bytes left. -/
theorem blocking_writes_bounded (os : List IoOut) : ∀ (c : Client), c.enc.Ok → (∀ o ∈ os, ∃ k, o = .ok (k + 1)) →
    c.loopWrites os ≤ c.left.length := by
  induction os with
  | nil => intro c _ _; simp [Client.loopWrites]
  | cons o os ih =>
    intro c h ho
    obtain ⟨k, hk⟩ := ho o (by simp)
    obtain ⟨x, hx, hxl⟩ := exhausted_eq h
    unfold Client.loopWrites
    cases x with
    | true => rw [hx]; simp
    | false =>
      rw [if_pos hx]
      obtain ⟨r, e, b, he, hm, hr⟩ := Client.write_moved h o
      rw [he]
      rcases hr with ⟨y, rfl⟩ | ⟨k', hk', rfl⟩
      · dsimp only
        have hi := ih _ hm.enc (fun o' h' => ho o' (by simp [h']))
        have hlen : 0 < b.length := by
          unfold Enc.exhausted at hx
          unfold Enc.write at he
          cases hs : c.enc.nextSlice with
          | none => rw [hs] at hx; simp at hx
          | some s =>
            rw [hs] at hx he
            simp only [Option.map_some, Option.some.injEq] at hx
            dsimp only at he
            rw [hx, hk] at he
            have hpos : 0 < s.length := by
              cases s with
              | nil => simp at hx
              | cons a t => simp
            simp only [Bool.false_eq_true, if_false] at he
            split at he
            · simp at he
            · split at he <;> simp at he <;> rw [← he.2.2] <;> simp <;> omega
        have hs := hm.stream
        have := congrArg List.length hs
        simp only [List.length_append] at this
        omega
      · rw [hk] at hk'; cases hk'

/-- A client with a message queued: the hypotheses of the theorems above are met. -/
example : ∃ c : Client, c.enc.Ok ∧ c.left ≠ [] ∧ ∃ (p : Fds.Proc) (e : Fds.Entry), p.at? 3 = some e ∧ p.nonblock e.file = true := by
  obtain ⟨hok, hwire⟩ := Enc.ok_mk [1, 2, 3, 4] 3 0 (by decide) (by decide) (by decide)
  refine ⟨⟨.new [], _, [], []⟩, hok, ?_, ⟨[none, none, none, some ⟨7, true⟩], fun _ => .unixStream, fun _ => true, 8, false⟩, ⟨7, true⟩, rfl, rfl⟩
  unfold Client.left
  decide

end Verif.Broker
