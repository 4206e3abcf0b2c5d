import Verif.LeastSquares.Model
/-!
# Specification vocabulary for least-squares problems
-/
namespace Simsopt.LSq
open Simsopt
open Simsopt.Graph (State Cfg Op Reachable SameInputs Step)
variable {V R : Type}

/-- All component functions return in store `g`, with these values (a number counts as a one-entry array). -/
def Returns (fs : List (Bound V R)) (g : State V) (outs : List (List R)) : Prop :=
  List.Forall₂ (fun f o => ∃ out, f.call g = .ok out ∧ out.toArray = o) fs outs

/-- Some component function raises `ObjectiveFailure` and those before it return. -/
def Fails (fs : List (Bound V R)) (g : State V) : Prop :=
  ∃ pre f post outs, fs = pre ++ f :: post ∧ Returns pre g outs ∧ f.call g = .error .objectiveFailure

/-- `f_i - goal_i` for all components, one after the other. -/
def residualVector [Sub R] (goals : List R) (outs : List (List R)) : List R :=
  ((outs.zip goals).map fun e => e.1.map fun f => f - e.2).flatten

/-- `sum_i w_i sum_k (f_ik - goal_i)^2`. -/
def weightedSquares [Field R] (goals weights : List R) (outs : List (List R)) : R :=
  ((outs.zip (goals.zip weights)).map fun e => e.2.2 * (e.1.map fun f => (f - e.2.1) ^ 2).sum).sum

/-- The function reads nothing but the values, names and structure of the objects its owner depends on. -/
def ReadsInputs (cfg : Cfg V) (f : Bound V R) : Prop :=
  ∀ s s' : State V, Reachable cfg s → Reachable cfg s' → s.alive f.owner = true → s'.alive f.owner = true →
    SameInputs s s' f.owner → f.call s' = f.call s

/-- The objects named by the constructor arguments exist. -/
def Source.Safe (g : State V) : Source V R → Prop
  | .funcs l => ∀ f ∈ l, g.alive f.owner = true
  | .depends ps _ => ∀ p ∈ ps, g.alive p = true

/-- Calls on a problem. -/
inductive Call (V : Type) where
  | unweighted (x : Option (List V))
  | residuals (x : Option (List V))
  | objective (x : Option (List V))

def Call.run [Field R] (sqrt : R → R) (cfg : Cfg V) : Call V → M V R Unit
  | .unweighted x => do discard (LSq.unweighted cfg x)
  | .residuals x => do discard (LSq.residuals sqrt cfg x)
  | .objective x => do discard (LSq.objective cfg x)

/-- A problem just constructed from existing objects, whose functions read only their owners' inputs. -/
def Created [Field R] [LinearOrder R] (cfg : Cfg V) (w0 : World V R) : Prop :=
  ∃ (g : State V) (cls : Nat) (fm : FnMap V R) (reg : Registry V R) (goals weights : NumArg R) (src : Source V R) (fail : Option R)
    (reg' : Registry V R), Reachable cfg g ∧ src.Safe g ∧ create cfg cls fm reg g goals weights src fail = .ok (w0, reg') ∧
      ∀ f ∈ w0.p.funcs, ReadsInputs cfg f

/-- Histories of one problem: after its construction, any calls on any objects of the store are interleaved with any
    evaluations of the problem, returning or raising.  The Boolean tells whether an evaluation of the problem has returned; `early` allows
    evaluations that raise before that.  Excluded: exhausting the recursion limit, collecting the problem or detaching it from the owners of
    its functions, and lowering its flag by hand. -/
inductive Hist [Field R] [LinearOrder R] (cfg : Cfg V) (sqrt : R → R) (early : Prop) (w0 : World V R) : World V R → Bool → Prop
  | start : Hist cfg sqrt early w0 w0 false
  | graph {w : World V R} {b : Bool} {op : Op V} {g' : State V} : Hist cfg sqrt early w0 w b → op.Safe w.g → op ≠ .clearNewX w.p.self →
      Step cfg w.g op g' → g'.alive w.p.self = true → (∀ f ∈ w.p.funcs, f.owner ∈ (g'.obj w.p.self).parents) →
      Hist cfg sqrt early w0 { w with g := g' } b
  | returned {w w' : World V R} {b : Bool} {c : Call V} : Hist cfg sqrt early w0 w b → c.run sqrt cfg w = .ok () w' → Hist cfg sqrt early w0 w' true
  | raised {w w' : World V R} {b : Bool} {c : Call V} {e : Err} : Hist cfg sqrt early w0 w b → (b = true ∨ early) →
      c.run sqrt cfg w = .error e w' → e ≠ Err.recursionError → Hist cfg sqrt early w0 w' b

/-- Whenever the functions return, the `i`-th returns `lens[i]` numbers. -/
def FixedLengths (fs : List (Bound V R)) (lens : List Nat) : Prop := ∀ g outs, Returns fs g outs → outs.map List.length = lens

end Simsopt.LSq
