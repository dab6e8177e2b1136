import Verif.Thm.Timers
/-
C18 in numbers: how long `poll` may ask its caller to sleep. A tick of the clock is 100 microseconds.
-/
namespace Verif
namespace Server
variable {now : Time} {r : PollRnd}

/-- **C18** (the numbers) When `poll` reports a sleep it is at least 2.5 ms (25 ticks of 100 µs) and at most 8 hours; it is exactly 8 hours,
or ends exactly when a timer runs out. -/
theorem poll_sleep_bounds {s s' : Server} {t : Time} (h : s.poll now r = some (.sleep t, s')) :
    (25 : Int) ≤ t ∧ t ≤ (8 * 60 * 60 * 10000 : Int) ∧ (t = (8 * 60 * 60 * 10000 : Int) ∨ Timer s' (now + t)) := by
  obtain ⟨_, h1, h2, _, _, h3⟩ := (poll_exact h).2 t rfl
  have e1 : eventGrace = (25 : Int) := by decide
  have e2 : unending = (8 * 60 * 60 * 10000 : Int) := by decide
  rw [e1] at h1
  rw [e2] at h2 h3
  exact ⟨h1, h2, h3⟩

/-- A server without peers sleeps for the full 8 hours: there is nothing to wait for. -/
example : ((Server.new [1] [2] [] [] [] [] []).poll (secs 3) ⟨fun _ => [], fun _ => [], 0⟩).map (fun x => match x.1 with | .sleep t => some t | _ => none) =
    some (some (8 * 60 * 60 * 10000 : Int)) := by decide +kernel

end Server
end Verif
