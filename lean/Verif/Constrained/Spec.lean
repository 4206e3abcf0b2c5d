import Verif.Constrained.Model
/-!
# Specification vocabulary for constrained problems
-/
namespace Simsopt.Constrained
open Simsopt Simsopt.LSq
open Simsopt.Graph (State Cfg Op Reachable Step)
variable {V R : Type}

/-- All functions return in store `g`, with these values. -/
def Gives (fs : List (Bound V R)) (g : State V) (outs : List (Out R)) : Prop := List.Forall₂ (fun f o => f.call g = .ok o) fs outs

/-- Some function raises `ObjectiveFailure` and those before it return. -/
def Breaks (fs : List (Bound V R)) (g : State V) : Prop :=
  ∃ pre f post outs, fs = pre ++ f :: post ∧ Gives pre g outs ∧ f.call g = .error .objectiveFailure

/-- `l <= c` for an extended lower bound. -/
def Ext.below [LE R] : Ext R → R → Prop
  | .ninf, _ => True
  | .fin l, c => l ≤ c
  | .pinf, _ => False

/-- `c <= u` for an extended upper bound. -/
def Ext.above [LE R] : Ext R → R → Prop
  | .ninf, _ => False
  | .fin u, c => c ≤ u
  | .pinf, _ => True

/-- `v <= 0` for an entry of the constraint vector. -/
def Ext.nonpos [LE R] [Zero R] : Ext R → Prop
  | .ninf => True
  | .fin v => v ≤ 0
  | .pinf => False

/-- `l <= c <= u`, entry by entry (bounds and value may be scalars or arrays). -/
def Feasible [LE R] (lhs rhs : Out (Ext R)) (c : Out R) : Prop :=
  (∀ ps, bcast lhs c = some ps → ∀ e ∈ ps, e.1.below e.2) ∧ (∀ ps, bcast c rhs = some ps → ∀ e ∈ ps, e.2.above e.1)

/-- Lower bounds are numbers or `-inf`, upper bounds numbers or `+inf`. -/
def Con.Proper (c : Con V R) : Prop := Ext.pinf ∉ c.lhs.toArray ∧ Ext.ninf ∉ c.rhs.toArray

/-- The bound can be compared with the value: both arrays of the same length, or one of them a scalar or of length one. -/
def Con.Fits (c : Con V R) (o : Out R) : Prop := (bcast c.lhs o).isSome ∧ (bcast o c.rhs).isSome

/-- `[l - c, c - u]`, leaving out a side without any finite bound. -/
def conEntry [Sub R] (c : Con V R) (o : Out R) : List (Ext R) :=
  (if c.lhs.toArray.any Ext.isFinite then ((bcast c.lhs o).getD []).map fun e => e.1.minus e.2 else []) ++
  (if c.rhs.toArray.any Ext.isFinite then ((bcast o c.rhs).getD []).map fun e => minusExt e.1 e.2 else [])

/-- The vector `[l_1 - c_1, c_1 - u_1, l_2 - c_2, ...]`. -/
def constraintVector [Sub R] (cons : List (Con V R)) (outs : List (Out R)) : List (Ext R) :=
  ((cons.zip outs).map fun e => conEntry e.1 e.2).flatten

inductive Call (V : Type) where
  | objective (x : Option (List V))
  | constraints (x : Option (List V))
  | allFuncs (x : Option (List V))

/-- the world after a call, and the exception if it raised -/
def Call.run [DecidableEq V] [Sub R] (cfg : Cfg V) (c : Call V) (w : World V R) : World V R × Option Err :=
  let fin {α : Type} : Res V R α → World V R × Option Err
    | .ok _ w' => (w', none)
    | .error e w' => (w', some e)
  match c with
  | .objective x => fin (Constrained.objective cfg x w)
  | .constraints x => fin (Constrained.constraints cfg x w)
  | .allFuncs x => fin (Constrained.allFuncs cfg x w)

/-- A problem just constructed from existing objects, whose functions read only their owners' inputs. -/
def Created (cfg : Cfg V) (w0 : World V R) : Prop :=
  ∃ (g : State V) (cls : Nat) (obj : Bound V R) (nlc : Option (List (Con V R))) (fail : Option R), Reachable cfg g ∧
    (∀ f ∈ obj :: (nlc.getD []).map (·.fn), g.alive f.owner = true) ∧ create cfg cls g obj nlc fail = .ok w0 ∧
    ∀ f ∈ obj :: (nlc.getD []).map (·.fn), ReadsInputs cfg f

/-- Histories of one problem: any calls on any objects of the store, interleaved with any evaluations of the problem, returning or raising.
    Excluded: exhausting the recursion limit, collecting the problem or detaching it from the owners of its functions, and lowering its flag
    by hand. -/
inductive Hist [DecidableEq V] [Sub R] (cfg : Cfg V) (w0 : World V R) : World V R → Prop
  | start : Hist cfg w0 w0
  | graph {w : World V R} {op : Op V} {g' : State V} : Hist cfg w0 w → op.Safe w.g → op ≠ .clearNewX w.p.self →
      Step cfg w.g op g' → g'.alive w.p.self = true → (∀ f ∈ w.p.funcs, f.owner ∈ (g'.obj w.p.self).parents) →
      Hist cfg w0 { w with g := g' }
  | call {w : World V R} (c : Call V) : Hist cfg w0 w → (c.run cfg w).2 ≠ some .recursionError → Hist cfg w0 (c.run cfg w).1

end Simsopt.Constrained
