import Verif.Objectives.Model
import Verif.Util.Model
/-!
# Model of `MPIObjective` on several processes (simsopt/objectives/utilities.py L35-50, L107-145)

All processes of the communicator execute the same call.  Each has its own heap of Derivatives; Optimizables of different
processes correspond by construction order and are identified (`K`).  Position `r` of a list is rank `r`.
-/
namespace Simsopt.Objectives
open Simsopt Deriv
variable {K : Type}

/-- What a collective call leads to on one process: it returns, raises, or waits for ever for a process that raised or
    went on to something else. -/
inductive Outcome (α : Type) where
  | ret (a : α)
  | raised (e : Err)
  | blocked

/-- continue with `f` after a call that returned -/
def Outcome.bind {α β : Type} : Outcome α → (α → Outcome β) → Outcome β
  | .ret a, f => f a
  | .raised e, _ => .raised e
  | .blocked, _ => .blocked

/-- all values, if no entry is an error -/
def collect {α : Type} : List (Except Err α) → Option (List α)
  | [] => some []
  | .ok a :: l => (collect l).map (a :: ·)
  | .error _ :: _ => none

/-- `comm.allgather(x)`, where `xs` are the arguments computed on the processes: everybody receives the list of all arguments; if
    a process raised before the call, the others wait. -/
def allgather {α : Type} (xs : List (Except Err α)) : List (Outcome (List α)) :=
  match collect xs with
  | some l => xs.map (fun _ => .ret l)
  | none => xs.map fun x => match x with
    | .ok _ => .blocked
    | .error e => .raised e

/-- The objectives of rank `r` of `size` with `needs_splitting=True` (utilities.py L121-124). -/
def splitObjectives {α : Type} (r size : Nat) (all : List α) : Except Err (List α) := do
  let (a, b) ← Util.parallelLoopBounds (some (r, size)) all.length
  pure (pySlice all a b)

/-- `self.n` (utilities.py L127-128). -/
def totalCount {α : Type} (objs : List (List α)) : Nat := (objs.map List.length).sum

/-- `MPIObjective.J()` on all processes (utilities.py L130-134); `n = 0` gives a NaN, modelled as an error. -/
noncomputable def mpiJ (L : Leaves K) (w : Nat → ℝ) (X : K → List ℝ) (objs : List (List Expr)) : List (Outcome ℝ) :=
  (allgather (objs.map (Expr.Js L w X))).map fun o => o.bind fun vss =>
    if totalCount objs = 0 then .raised .runtimeError else .ret (vss.flatten.sum / totalCount objs)

/-- NumPy `a + b` of one-dimensional arrays with broadcasting. -/
def npAdd (a b : List ℝ) : Except Err (List ℝ) :=
  if a.length = b.length then .ok (List.zipWith (· + ·) a b)
  else match a, b with
    | [x], b => .ok (b.map (fun y => x + y))
    | a, [y] => .ok (a.map (fun x => x + y))
    | _, _ => .error .valueError

/-- `sum` of a non-empty list of arrays. -/
def npSum : List (List ℝ) → Except Err (List ℝ)
  | [] => .error .typeError
  | a :: l => l.foldlM npAdd a

/-- `sum_across_comm` (utilities.py L35-50) on all processes, where `cs` are their dicts: the `j`-th collective call gathers the
    array of the `j`-th key *of each process*; every process stores the sum under its own `j`-th key.  Processes that have more keys than
    another one wait for ever.  `fuel` counts the keys still to be processed. -/
def sumAcross : Nat → List (List (K × List ℝ)) → List (Outcome (List (K × List ℝ)))
  | 0, cs => cs.map fun c => if c.isEmpty then .ret [] else .blocked
  | fuel + 1, cs =>
    if cs.any (·.isEmpty) then cs.map fun c => if c.isEmpty then .ret [] else .blocked
    else
      match npSum (cs.map fun c => (c.head?.map (·.2)).getD []) with
      | .error e => cs.map fun _ => .raised e
      | .ok a =>
        List.zipWith (fun c o => o.bind fun rest => match c with
          | [] => .ret rest
          | (k, _) :: _ => .ret ((k, a) :: rest)) cs (sumAcross fuel (cs.map List.tail))

section
variable [DecidableEq K]

/-- `sum([J.dJ(partials=True) for J in self.objectives])`, preceded by the check for an empty list (L138-140). -/
noncomputable def localDerivs (L : Leaves K) (w : Nat → ℝ) (X : K → List ℝ) (l : List Expr) : M K ℝ PyVal :=
  if l.length = 0 then throw .runtimeError else do
    let ds ← Expr.dJs L w X l
    pySumVals (.num 0) ds

/-- `derivative.data` with the arrays: a number has no attribute `data`. -/
def contents : PyVal → M K ℝ (List (K × List ℝ))
  | .num _ => throw .attributeError
  | .der i => fun h => .ok ((h.der i).map (fun e => (e.1, h.arr e.2))) h

/-- the dict a process passes to `sum_across_comm`, and its heap -/
noncomputable def localPart (L : Leaves K) (w : Nat → ℝ) (X : K → List ℝ) (l : List Expr) (h : Heap K ℝ) :
    Except Err (List (K × List ℝ) × Heap K ℝ) :=
  match (localDerivs L w X l >>= contents) h with
  | .ok c h' => .ok (c, h')
  | .error e _ => .error e

/-- `Derivative(newdict)` followed by `*= 1./n` (L50, L142). -/
noncomputable def finish (n : Nat) (c : List (K × List ℝ)) (h : Heap K ℝ) : Outcome (PyVal × Heap K ℝ) :=
  match (do let i ← Deriv.mk c; pyMul (1 / n) (.der i) : M K ℝ PyVal) h with
  | .ok v h' => .ret (v, h')
  | .error e _ => .raised e

/-- `MPIObjective.dJ(partials=True)` on all processes (utilities.py L136-143); `hs` are their heaps. -/
noncomputable def mpiDJ (L : Leaves K) (w : Nat → ℝ) (X : K → List ℝ) (objs : List (List Expr)) (hs : List (Heap K ℝ)) :
    List (Outcome (PyVal × Heap K ℝ)) :=
  let parts := List.zipWith (localPart L w X) objs hs
  match collect parts with
  | none => parts.map fun p => match p with
    | .ok (c, h) => if c.isEmpty then finish (totalCount objs) c h else .blocked
    | .error e => .raised e
  | some l =>
    List.zipWith (fun p o => o.bind fun c => finish (totalCount objs) c p.2) l
      (sumAcross ((l.map (fun p => p.1.length)).foldl max 0) (l.map (·.1)))
end
end Simsopt.Objectives
