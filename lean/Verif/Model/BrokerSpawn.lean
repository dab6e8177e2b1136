import Verif.Model.Base
/-
Model of rosenpass/src/cli.rs:557-609 `get_broker_socket` (case `SocketPair`), of the start of
wireguard-broker/src/bin/socket_handler.rs (`--stream-fd`, 86-89, and the child process, 101-105), and of the part of the operating system that
decides when a stream ends: which process has which open file under which number. The processes are the daemon (0), the socket handler (1), the
privileged broker (2) and any others. Which free numbers the kernel hands out is left open. Failing system calls are left out: the daemon
does not start then.
-/
namespace Verif.BrokerSpawn

/-- A descriptor: the open file it refers to, whether execve(2) closes it, and whether the program has it as an `OwnedFd`: a Rust program closes
no other descriptors. -/
structure Desc where
  file : Nat
  cloexec : Bool
  owned : Bool
  deriving DecidableEq, Repr

/-- the descriptors of a process -/
abbrev Tab := Nat → Option Desc

def Tab.set (t : Tab) (n : Nat) (d : Option Desc) : Tab := fun m => if m = n then d else t m

/-- execve(2): the new program owns nothing yet -/
def Tab.exec (t : Tab) : Tab := fun n =>
  match t n with
  | some d => if d.cloexec then none else some { d with owned := false }
  | none => none

/-- crate command-fds, `map_fds` with one mapping: the flag is cleared if the numbers agree, otherwise dup2(2) -/
def Tab.mapFd (t : Tab) (b c : Nat) : Tab :=
  match t b with
  | none => t
  | some d => t.set c (some ⟨d.file, false, false⟩)

/-- The processes. `next`: the number of the next file to be opened; `stdin`: the file through which the handler writes to the privileged broker, if
that was started. -/
structure Sys where
  tab : Nat → Tab
  alive : Nat → Bool
  next : Nat
  stdin : Option Nat

def Sys.upd (s : Sys) (p : Nat) (t : Tab) : Sys := { s with tab := fun q => if q = p then t else s.tab q }

/-- The number is free in the process. -/
def Sys.free (s : Sys) (p n : Nat) : Bool := (s.tab p n).isNone

/-- cli.rs:567-606: `socketpair` hands out the free numbers `a` ("ours") and `b` ("theirs") for new files; `flag` says whether `SocketFlags` contains
`CLOEXEC` (in the code it is empty, 571-576); the child gets "theirs" as number 3 (584-590); then "theirs" is dropped. -/
def Sys.spawnBroker (s : Sys) (flag : Bool) (a b : Nat) : Sys :=
  let t := ((s.tab 0).set a (some ⟨s.next, flag, true⟩)).set b (some ⟨s.next + 1, flag, true⟩)
  { tab := fun p => if p = 0 then t.set b none else if p = 1 then (t.mapFd b 3).exec else s.tab p
    alive := fun p => if p = 1 then true else s.alive p
    next := s.next + 2
    stdin := none }

/-- What happens afterwards. -/
inductive Ev where
  /-- process `p` opens a file; everything the Rust library opens is closed by execve -/
  | opens (p n : Nat)
  /-- `p` duplicates one of its descriptors (`F_DUPFD_CLOEXEC`) -/
  | dup (p n m : Nat)
  /-- `p` drops an `OwnedFd` -/
  | closes (p n : Nat)
  /-- `p` takes over a descriptor given by number (util/src/fd.rs:42-46 `claim_fd`), and puts /dev/null in its place. The handler was told number 3, the
  privileged broker none (it uses its standard streams) -/
  | claim (p n m : Nat)
  /-- socket_handler.rs:101-108: the handler starts the privileged broker, with pipes for standard input and output; it has its ends under the numbers `i`, `o` -/
  | launch (i o : Nat)
  /-- another process than the handler and the privileged broker starts a child -/
  | child (p c : Nat)
  /-- process `p` ends, for whatever reason -/
  | dies (p : Nat)
  deriving DecidableEq, Repr

/-- One event; `none` if it cannot happen. -/
def Sys.step (s : Sys) : Ev → Option Sys
  | .opens p n => if s.alive p && s.free p n then some { s.upd p ((s.tab p).set n (some ⟨s.next, true, true⟩)) with next := s.next + 1 } else none
  | .dup p n m =>
    match s.tab p n with
    | none => none
    | some d => if s.alive p && d.owned && s.free p m then some (s.upd p ((s.tab p).set m (some ⟨d.file, true, true⟩))) else none
  | .closes p n =>
    match s.tab p n with
    | none => none
    | some d => if s.alive p && d.owned then some (s.upd p ((s.tab p).set n none)) else none
  | .claim p n m =>
    match s.tab p n with
    | none => none
    | some d =>
      if s.alive p && s.free p m && (p != 1 || n == 3) && p != 2 then
        some { s.upd p (((s.tab p).set m (some ⟨d.file, true, true⟩)).set n (some ⟨s.next, true, false⟩)) with next := s.next + 1 }
      else none
  | .launch i o =>
    if s.alive 1 && !s.alive 2 && s.stdin.isNone && s.free 1 i && s.free 1 o && i != o then
      let t := (((s.tab 1).set 0 (some ⟨s.next, false, false⟩)).set 1 (some ⟨s.next + 3, false, false⟩)).exec
      some { tab := fun p => if p = 1 then ((s.tab 1).set i (some ⟨s.next + 1, true, true⟩)).set o (some ⟨s.next + 2, true, true⟩) else if p = 2 then t else s.tab p
             alive := fun p => if p = 2 then true else s.alive p
             next := s.next + 4
             stdin := some (s.next + 1) }
    else none
  | .child p c => if s.alive p && p != 1 && p != 2 && !s.alive c && decide (2 < c) then some { s.upd c (s.tab p).exec with alive := fun q => if q = c then true else s.alive q } else none
  | .dies p => if s.alive p then some { s.upd p (fun _ => none) with alive := fun q => if q = p then false else s.alive q } else none

def Sys.run (s : Sys) : List Ev → Option Sys
  | [] => some s
  | e :: es => match s.step e with
    | none => none
    | some s => s.run es

end Verif.BrokerSpawn
