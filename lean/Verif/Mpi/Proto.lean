import Verif.Mpi.Sync
/-!
# Model of the leader/worker protocol

`MpiPartition.apart/leaders_loop/worker_loop/together` (simsopt/util/mpi.py L173-330), `MPIFiniteDifference.__enter__/jac/_jac/mpi_leaders_task/mpi_workers_task/__exit__`
(simsopt/_core/finite_difference.py L166-390) and `least_squares_mpi_solve` / `constrained_mpi_solve` (simsopt/solve/mpi.py).  Only the collective calls and the
data that steer them are modelled; `X` is the type of dof vectors.  The solver (scipy, on proc 0) is an arbitrary sequence of function and Jacobian evaluations.
-/
namespace Simsopt.Mpi

/-- the communicators: `comm_leaders`, `comm_groups` of group `g`, `comm_world` -/
inductive Comm | leaders | group (g : Nat) | world
  deriving DecidableEq

/-- mpi4py's pickled `bcast`, buffer `Bcast`, and `reduce` do not match each other -/
inductive Kind | bcast | bufBcast | reduce
  deriving DecidableEq

/-- contents of messages -/
inductive Msg (X : Type)
  | stop | task (n : Nat) | x (v : X) | fullX | x0 (v : X) | steps (v : X) | method (centered : Bool) | size | evals | nothing

/-- a process: group and rank within the group -/
abbrev Proc := Nat × Nat

/-- Partition and finite-difference settings: number of groups, size of each group, number of dofs, `grad` flag of the solve, scheme, and the trial point number `j` computed from
    `x0` and `steps` (columns of `xs`, finite_difference.py L221-238). -/
structure Cfg (X : Type) where
  ngroups : Nat
  size : Nat → Nat
  nparams : Nat
  grad : Bool
  centered : Bool
  pt : Bool → X → X → Nat → X
  stepsOf : X → X

variable {X : Type}

/-- `nevals_jac` (L222, L231) -/
def nevals (cfg : Cfg X) (centered : Bool) : Nat := if centered then 2 * cfg.nparams else cfg.nparams + 1

/-- the `j` with `np.mod(j, ngroups) == rank_leaders` (L252) -/
def share (cfg : Cfg X) (centered : Bool) (g : Nat) : List Nat := (List.range (nevals cfg centered)).filter (fun j => j % cfg.ngroups == g)

/-- One evaluation by the leader of group `g` at `v` as seen on the group's communicator: `mobilize_workers(ARB_VAL)`, `comm_groups.bcast(x)` (L253-255; solve/mpi.py L137-139). -/
def evalCalls (g : Nat) (n : Nat) (v : X) : List (Comm × Kind × Msg X) := [(.group g, .bcast, .task n), (.group g, .bcast, .x v)]

/-- What the solver on proc 0 does: a function evaluation (`_f_proc0` or `_nlc_proc0`), a Jacobian evaluation, or a Jacobian evaluation in which proc 0's own
    evaluation number `k` raises. -/
inductive Action (X : Type)
  | feval (v : X)
  | jac (v : X)
  | jacRaise (v : X) (k : Nat)

/-- How it ends: `together()` and the final `comm_world.Bcast(x)`, or an exception that leaves the solve function on proc 0 before `together()`. -/
inductive Ending (X : Type)
  | together (xres : X)
  | dead

/-- The own evaluations of proc 0 in `_jac` (L250-265): after its first one it broadcasts `jac_size` to the leaders (L260-262). -/
def proc0Evals (pts : List X) : List (Comm × Kind × Msg X) :=
  match pts with
  | [] => []
  | p :: ps => evalCalls 0 100 p ++ [(.leaders, .bcast, .size)] ++ ps.flatMap (evalCalls 0 100)

/-- the prologue of `jac` and `_jac` on proc 0 (L347-366, L207-219) -/
def jacPrologue (cfg : Cfg X) (sizeKnown : Bool) (v : X) : List (Comm × Kind × Msg X) :=
  (if sizeKnown then [] else evalCalls 0 100 v) ++
  [(.leaders, .bcast, .task 100), (.leaders, .bcast, .fullX), (.leaders, .bufBcast, .x0 v), (.leaders, .bufBcast, .steps (cfg.stepsOf v)),
   (.leaders, .bcast, .method cfg.centered)]

/-- the trial points of group `g` -/
def sharePts (cfg : Cfg X) (centered : Bool) (x0 steps : X) (g : Nat) : List X := (share cfg centered g).map (cfg.pt centered x0 steps)

/-- `together()` (util/mpi.py L318-330) and the final `comm_world.Bcast(x)` (solve/mpi.py L251, L507) on proc 0 -/
def endCalls : Ending X → List (Comm × Kind × Msg X)
  | .together xres => [(.leaders, .bcast, .stop), (.group 0, .bcast, .stop), (.world, .bufBcast, .x xres)]
  | .dead => []

/-- The calls of proc 0 for the rest of the solve.  `jacRaise`: the exception ends the solver; the `with` block of `least_squares_mpi_solve` (L211-225) catches it
    and goes on to `together()`. -/
def proc0Calls (cfg : Cfg X) (ending : Ending X) : Bool → List (Action X) → List (Comm × Kind × Msg X)
  | _, [] => endCalls ending
  | known, .feval v :: as => evalCalls 0 1 v ++ proc0Calls cfg ending known as
  | known, .jac v :: as =>
    jacPrologue cfg known v ++ proc0Evals (sharePts cfg cfg.centered v (cfg.stepsOf v) 0) ++ [(.leaders, .reduce, .evals)] ++ proc0Calls cfg ending true as
  | known, .jacRaise v k :: _ =>
    jacPrologue cfg known v ++ (proc0Evals ((sharePts cfg cfg.centered v (cfg.stepsOf v) 0).take k) ++
      match (sharePts cfg cfg.centered v (cfg.stepsOf v) 0)[k]? with | some p => evalCalls 0 100 p | none => []) ++ endCalls ending

/-- Program counter of a group leader other than proc 0: `leaders_loop` (util/mpi.py L240-256), `mpi_leaders_task` and `_jac`. -/
inductive LPc (X : Type)
  | wait | full | x0 | steps (x0 : X) | method (x0 steps : X) | size (centered : Bool) (x0 steps : X)
  | eval (pts : List X) | evalX (p : X) (pts : List X) | reduce | stopWorkers | final | done | crashed

/-- Program counter of a worker: `worker_loop` (L270-284) and `mpi_workers_task`. -/
inductive WPc | wait | task | final | done

/-- State of a process: its program counter, how many STOPs it received, the points at which it evaluated, and the final `x`. -/
inductive PState (X : Type)
  | proc0 (calls : List (Comm × Kind × Msg X))
  | leader (pc : LPc X) (stops : Nat) (seen : List X) (xres : Option X)
  | worker (pc : WPc) (stops : Nat) (seen : List X) (xres : Option X)
  | absent

/-- the next collective call of a process -/
def nextCall (p : Proc) : PState X → Option (Comm × Kind × Msg X)
  | .proc0 calls => calls.head?
  | .leader pc _ _ _ => match pc with
    | .wait => some (.leaders, .bcast, .nothing)
    | .full => some (.leaders, .bcast, .nothing)
    | .x0 => some (.leaders, .bufBcast, .nothing)
    | .steps _ => some (.leaders, .bufBcast, .nothing)
    | .method _ _ => some (.leaders, .bcast, .nothing)
    | .size _ _ _ => some (.leaders, .bcast, .nothing)
    | .eval [] => some (.leaders, .reduce, .nothing)
    | .eval (_ :: _) => some (.group p.1, .bcast, .task 100)
    | .evalX v _ => some (.group p.1, .bcast, .x v)
    | .reduce => some (.leaders, .reduce, .nothing)
    | .stopWorkers => some (.group p.1, .bcast, .stop)
    | .final => some (.world, .bufBcast, .nothing)
    | .done => none
    | .crashed => none
  | .worker pc _ _ _ => match pc with
    | .wait => some (.group p.1, .bcast, .nothing)
    | .task => some (.group p.1, .bcast, .nothing)
    | .final => some (.world, .bufBcast, .nothing)
    | .done => none
  | .absent => none

/-- Leader: what it does with the delivered message.  In a derivative-free solve the leaders' action does nothing (solve/mpi.py L228, L472).  A message of the wrong
    sort (for instance STOP where `jac_size` is expected) raises: `crashed`. -/
def leaderStep (cfg : Cfg X) (g : Nat) (pc : LPc X) (stops : Nat) (seen : List X) (xres : Option X) (m : Msg X) : PState X :=
  match pc, m with
  | .wait, .stop => .leader .stopWorkers (stops + 1) seen xres
  | .wait, _ => .leader (if cfg.grad then .full else .wait) stops seen xres
  | .full, .fullX => .leader .x0 stops seen xres
  | .x0, .x0 v => .leader (.steps v) stops seen xres
  | .steps v, .steps h => .leader (.method v h) stops seen xres
  | .method v h, .method c => .leader (.size c v h) stops seen xres
  | .size c v h, .size => .leader (.eval (sharePts cfg c v h g)) stops seen xres
  | .eval [], _ => .leader .wait stops seen xres
  | .eval (p :: ps), _ => .leader (.evalX p ps) stops seen xres
  | .evalX p ps, _ => .leader (.eval ps) stops (seen ++ [p]) xres
  | .reduce, _ => .leader .wait stops seen xres
  | .stopWorkers, _ => .leader .final stops seen xres
  | .final, .x v => .leader .done stops seen (some v)
  | _, _ => .leader .crashed stops seen xres

/-- Worker: STOP ends the loop; any other task is followed by the dof vector, at which the function is evaluated (an exception in it is caught). -/
def workerStep (pc : WPc) (stops : Nat) (seen : List X) (xres : Option X) (m : Msg X) : PState X :=
  match pc, m with
  | .wait, .stop => .worker .final (stops + 1) seen xres
  | .wait, _ => .worker .task stops seen xres
  | .task, .x v => .worker .wait stops (seen ++ [v]) xres
  | .final, .x v => .worker .done stops seen (some v)
  | pc, _ => .worker pc stops seen xres

/-- continuation of a process on the delivered message -/
def resumeProc (cfg : Cfg X) (p : Proc) : PState X → Msg X → PState X
  | .proc0 calls, _ => .proc0 calls.tail
  | .leader pc st seen xr, m => leaderStep cfg p.1 pc st seen xr m
  | .worker pc st seen xr, m => workerStep pc st seen xr m
  | .absent, _ => .absent

/-- which processes exist -/
def valid (cfg : Cfg X) (p : Proc) : Bool := decide (p.1 < cfg.ngroups) && decide (p.2 < cfg.size p.1)

/-- membership: `comm_leaders` = the processes of rank 0 in their group; `comm_groups`; `comm_world`. -/
def member (cfg : Cfg X) (c : Comm) (p : Proc) : Bool := match c with
  | .leaders => valid cfg p && p.2 == 0
  | .group g => valid cfg p && p.1 == g
  | .world => valid cfg p

/-- `root=0` of the communicator (an index beyond the last group has no members; its root is a dummy) -/
def rootOf (c : Comm) : Proc := match c with
  | .leaders => (0, 0)
  | .group g => (g, 0)
  | .world => (0, 0)

/-- the network -/
def net (cfg : Cfg X) : Net Proc Comm Kind (Msg X) (PState X) where
  member := member cfg
  root := rootOf
  next := nextCall
  resume := resumeProc cfg

/-- State right after `apart()` (all processes) with `acts` the evaluations the solver is going to ask for. -/
def initial (cfg : Cfg X) (acts : List (Action X)) (ending : Ending X) (p : Proc) : PState X :=
  if valid cfg p then
    if p = (0, 0) then .proc0 (proc0Calls cfg ending false acts)
    else if p.2 = 0 then .leader .wait 0 [] none
    else .worker .wait 0 [] none
  else .absent

end Simsopt.Mpi
