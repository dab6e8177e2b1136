/-
Model of util/src/tokio/janitor.rs: the janitor's agent, supervisor and client as tasks that run in any order.

One scope (`try_enter_janitor`) is modelled, from the moment its agent has been started. Jobs are arbitrary: they run for any
time and end with success, an error or a panic. The scope's future is not cancelled and the runtime is not shut down meanwhile.
-/
namespace Verif.Janitor

/-- a job started with `tokio::spawn` -/
inductive Job where
  | running
  | ok
  | err
  | panicked
  deriving DecidableEq, Repr

/-- The internal task that receives tickets (269-284): waiting, or finished with its event. -/
inductive Recv where
  | waiting
  | got (j : Nat)
  | closed
  deriving DecidableEq, Repr

/-- The internal task that awaits job `j` (287-298): waiting, or finished with its event. -/
structure Watch where
  job : Nat
  event : Option Bool
  deriving DecidableEq, Repr

/-- how the agent's event loop returned: `Ok`, an error of a job, an internal error -/
inductive End where
  | ok
  | jobFailed
  | internal
  deriving DecidableEq, Repr

/-- The state of a scope. `queue`: tickets sent and not yet received; `tx`: the supervisor still holds its sender (the clients
only hold weak ones); `recv`, `watch`: the agent's join set; `flag`: `ticket_queue_closed`; `agent`: the result of the agent's task;
`callee`: whether the future that was passed in has finished; `result`: the janitor's part of what the scope returned. -/
structure St where
  jobs : List Job
  queue : List Nat
  tx : Bool
  recv : Option Recv
  watch : List Watch
  flag : Bool
  agent : Option End
  callee : Bool
  result : Option End
  deriving DecidableEq, Repr

/-- 158-170: the agent was started, and seeded its join set with the receiving task -/
def St.start : St := ⟨[], [], true, some .waiting, [], false, none, false, none⟩

/-- Where a call comes from: from the future that was passed to the scope (or from the destructors that run in it), or from
a task that was spawned, such as a cleanup job. `task_local` variables are not inherited by spawned tasks. -/
inductive Caller where
  | callee
  | task
  deriving DecidableEq, Repr

/-- 563-575 `TrySpawnCleanupJobError` -/
inductive SpawnErr where
  | noActiveJanitor
  | terminating
  deriving DecidableEq, Repr

/-- 585-597 `try_spawn_cleanup_job` with 325-338 `spawn_cleanup_task`: the job is started first. The queue takes tickets as long as the agent
exists. -/
def St.trySpawn (s : St) (c : Caller) : Except SpawnErr Unit × St :=
  match c with
  | .task => (.error .noActiveJanitor, s)
  | .callee =>
    let j := s.jobs.length
    let s := { s with jobs := s.jobs ++ [.running] }
    if !s.tx then (.error .terminating, s)
    else if s.agent.isSome then (.error .terminating, s)
    else (.ok (), { s with queue := s.queue ++ [j] })

/-- 317-323 `is_closed`, 578-582 `has_active_janitor` -/
def St.hasActiveJanitor (s : St) (c : Caller) : Bool :=
  match c with
  | .task => false
  | .callee => if s.tx then s.agent.isSome else false

/-- What can happen next. -/
inductive Ev where
  /-- the callee (or a task) submits a job -/
  | spawn (c : Caller)
  /-- a job ends -/
  | jobEnds (j : Nat) (how : Job)
  /-- the receiving task makes progress -/
  | recvRuns
  /-- the task watching the `k`-th job makes progress -/
  | watchRuns (k : Nat)
  /-- `join_next` yields the receiving task -/
  | joinRecv
  /-- `join_next` yields the `k`-th watching task -/
  | joinWatch (k : Nat)
  /-- `join_next` finds the set empty -/
  | joinNone
  /-- the callee finishes; the supervisor drops its sender (368-371) -/
  | calleeEnds
  /-- the supervisor awaits the agent -/
  | returns
  deriving DecidableEq, Repr

/-- the agent's loop ends: the join set and the queue are dropped; the jobs go on by themselves -/
def St.agentEnds (s : St) (e : End) : St := { s with agent := some e, recv := none, watch := [], queue := [] }

/-- One step, if it is possible. 166-267 `event_loop`, `handle_one_event`; 269-298 the internal tasks; 510-522 `try_enter_janitor`. -/
def St.step (s : St) : Ev → Option St
  | .spawn c => if s.callee then none else some (s.trySpawn c).2
  | .jobEnds j how =>
    if s.jobs[j]? = some .running ∧ how ≠ .running then some { s with jobs := s.jobs.set j how } else none
  | .recvRuns =>
    if s.recv = some .waiting then
      match s.queue with
      | j :: q => some { s with queue := q, recv := some (.got j) }
      | [] => if s.tx then none else some { s with recv := some .closed }
    else none
  | .watchRuns k =>
    match s.watch[k]? with
    | some ⟨j, none⟩ =>
      match s.jobs[j]? with
      | some .ok => some { s with watch := s.watch.set k ⟨j, some true⟩ }
      | some .err => some { s with watch := s.watch.set k ⟨j, some false⟩ }
      | some .panicked => some { s with watch := s.watch.set k ⟨j, some false⟩ }
      | _ => none
    | _ => none
  | .joinRecv =>
    if s.agent.isSome then none
    else match s.recv with
      | some (.got j) => some { s with recv := some .waiting, watch := s.watch ++ [⟨j, none⟩] }
      | some .closed => some { s with recv := none, flag := true }
      | _ => none
  | .joinWatch k =>
    if s.agent.isSome then none
    else match s.watch[k]? with
      | some ⟨_, some true⟩ => some { s with watch := s.watch.eraseIdx k }
      | some ⟨_, some false⟩ => some (s.agentEnds .jobFailed)
      | _ => none
  | .joinNone =>
    if s.agent.isSome then none
    else if s.recv = none ∧ s.watch = [] then some (s.agentEnds (if s.flag then .ok else .internal)) else none
  | .calleeEnds => if s.callee then none else some { s with callee := true, tx := false }
  | .returns => if s.callee ∧ s.result = none then (match s.agent with | some e => some { s with result := some e } | none => none) else none

/-- the states of a scope -/
inductive Reachable : St → Prop
  | start : Reachable St.start
  | step (s s' : St) (e : Ev) : Reachable s → s.step e = some s' → Reachable s'

end Verif.Janitor
