import Verif.Thm.Authentic
/-
Concrete cases that meet the hypotheses of the theorems C17–C22.
-/
namespace Verif
open Server

namespace Ex

/-- randomness of a poll -/
def prnd : PollRnd := { b := fun _ => List.replicate 32 5, c := fun _ => List.replicate 16 6, jit := 12345 }

/-- the events of polling until told to sleep, at most `n` calls -/
def drain (now : Time) : Nat → Server → List PollResult
  | 0, _ => []
  | n + 1, s => match s.poll now prnd with
    | none => []
    | some (.sleep _, _) => []
    | some (c, s1) => c :: drain now n s1

end Ex

/-- C17, C18: a fresh server asks to initiate; 0.5 s after the initiation it asks to retransmit; 200 s after the
exchange the initiator is told to drop the key and to initiate again (the unfinished handshake being too old) -/
example : Ex.drain 0 9 (Ex.A0 .v03) = [.sendInitiation 0] ∧ Ex.drain 5000 9 (Ex.A1 .v03) = [.sendRetransmission 0] ∧
    Ex.drain (secs 200) 9 (Ex.A2 .v03) = [.deleteKey 0, .sendInitiation 0] ∧ Ex.drain (secs 125) 9 (Ex.A3 .v03) = [] ∧
    Ex.drain (secs 125) 9 (Ex.B2 .v03) = [.sendInitiation 0] ∧ Ex.drain (secs 135) 9 (Ex.A3 .v03) = [.sendInitiation 0] := by
  decide +kernel

/-- C18: a complete run of polls exists -/
example : ∃ evs s' t, PollRun (secs 200) (fun _ => Ex.prnd) (Ex.A2 .v03) evs s' t ∧ evs.length ≤ 3 * (Ex.A2 .v03).peers.length :=
  poll_run_terminates Toy.lawful (Ex.A2_reach _) _ _ (fun _ => ⟨fun _ => ⟨rfl, rfl⟩, by show 12345 < 2 ^ 53; decide⟩)

/-- C19: the hypotheses are met by the history in which the application follows the request -/
example : ∃ ops : List Op, ops.length = 2 ∧ Answered Toy.crypto 0 (Ex.A0 .v03) ops ∧ (∀ o ∈ ops, ∀ u, o.time = some u → u ≤ (0 : Time)) ∧
    (∃ q, (Ex.A0 .v03).peers[0]? = some q ∧ CreatedBefore 0 q ∧ q.initReq = false) ∧
    (∃ o ∈ ops, o.Requests (Ex.A0 .v03) 0) := by
  obtain ⟨x, hx⟩ : ∃ x, (Ex.A0 .v03).poll 0 Ex.prnd = some x := Option.isSome_iff_exists.mp (by decide +kernel)
  have h1 : x.1 = .sendInitiation 0 := by
    have : ((Ex.A0 .v03).poll 0 Ex.prnd).map (·.1) = some (.sendInitiation 0) := by decide +kernel
    rw [hx] at this; exact Option.some.inj this
  have hreq : (Op.poll 0 Ex.prnd).Requests (Ex.A0 .v03) 0 := ⟨x.2, by rw [hx]; exact congrArg some (Prod.ext h1 rfl)⟩
  refine ⟨[.poll 0 Ex.prnd, .initiate 0 0 (Ex.rnd 9) Ex.buf], rfl, ⟨fun _ => ⟨[], _, [], rfl, ?_⟩, ?_, trivial⟩, ?_, ?_, ⟨_, List.mem_cons_self, hreq⟩⟩
  · have hok : Ex.isErr (((Ex.A0 .v03).step Toy.crypto (.poll 0 Ex.prnd)).initiate Toy.crypto 0 0 (Ex.rnd 9) Ex.buf) = false := by decide +kernel
    refine ⟨rfl, ?_⟩
    show ∃ m, (((Ex.A0 .v03).step Toy.crypto (.poll 0 Ex.prnd)).initiate Toy.crypto 0 0 (Ex.rnd 9) Ex.buf).1 = .ok m
    unfold Ex.isErr at hok
    split at hok
    · cases hok
    · rename_i m hm; exact ⟨m, hm⟩
  · intro h; exact h.elim
  · intro o ho u hu
    simp only [List.mem_cons, List.not_mem_nil, or_false] at ho
    rcases ho with rfl | rfl <;> (cases hu; exact Int.le_refl _)
  · obtain ⟨q, hq⟩ : ∃ q, (Ex.A0 .v03).peers[0]? = some q := Option.isSome_iff_exists.mp (by decide +kernel)
    have h2 : ((Ex.A0 .v03).peers[0]?).map (fun q => (q.session.isSome, q.handshake.isSome, q.initReq)) = some (false, false, false) := by decide +kernel
    rw [hq] at h2
    simp only [Option.map_some, Option.some.injEq, Prod.mk.injEq, Option.isSome_eq_false_iff, Option.isNone_iff_eq_none] at h2
    obtain ⟨e1, e2, e3⟩ := h2
    exact ⟨q, hq, ⟨fun x hx => (nomatch (e1 ▸ hx : none = some x)), fun x hx => (nomatch (e2 ▸ hx : none = some x))⟩, e3⟩

/-- C20: a retransmission happens (hypothesis of `retransmissions_spaced`), and `retransmit_handshake` then gives the
message that was sent -/
example : (∃ s', (Ex.A1 .v03).poll 5000 Ex.prnd = some (.sendRetransmission 0, s')) ∧
    (match ((Ex.A1 .v03).retransmit Toy.crypto 0 Ex.buf).1 with | .ok m => m == Ex.m1 .v03 | .error _ => false) = true := by
  constructor
  · obtain ⟨x, hx⟩ : ∃ x, (Ex.A1 .v03).poll 5000 Ex.prnd = some x := Option.isSome_iff_exists.mp (by decide +kernel)
    have h1 : x.1 = .sendRetransmission 0 := by
      have : ((Ex.A1 .v03).poll 5000 Ex.prnd).map (·.1) = some (.sendRetransmission 0) := by decide +kernel
      rw [hx] at this; exact Option.some.inj this
    exact ⟨x.2, by rw [hx]; exact congrArg some (Prod.ext h1 rfl)⟩
  · decide +kernel

/-- C20, C21: the genuine EmptyData is accepted, and ends the handshake -/
example : (Ex.m4 .v03).head? = some 0x84 ∧ ((Ex.A2 .v03).handleMsg Toy.crypto (Ex.m4 .v03) Ex.buf 4 (fun _ => Ex.rnd 50)).1 = .ok ⟨none, none⟩ ∧
    (Ex.A2 .v03).peers.map (·.handshake.isSome) = [true] ∧ (Ex.A3 .v03).peers.map (·.handshake.isSome) = [false] := by
  decide +kernel

end Verif
