import Verif.Graph.Model
import Mathlib.Logic.Relation
import Mathlib.Data.List.Chain
/-!
# Specification vocabulary for the graph properties
-/
namespace Simsopt.Graph
variable {V : Type}

/-- `p` is listed in `c.parents`, `c` a live object. -/
def Parent (s : State V) (p c : Nat) : Prop := s.alive c = true ∧ p ∈ (s.obj c).parents

/-- `a` is an ancestor of `c`: reached by following `parents` one or more times. -/
def Ancestor (s : State V) : Nat → Nat → Prop := Relation.TransGen (Parent s)

/-- `j` depends on `o`: it is `o` or a (transitive) child of it. -/
def DependsOn (s : State V) (j o : Nat) : Prop := j = o ∨ Ancestor s o j

/-- The class table gives distinct names to distinct (class, instance number) pairs. -/
def NameInj (cfg : Cfg V) : Prop :=
  ∀ c c' k k' : Nat, cfg.cname c ++ toString k = cfg.cname c' ++ toString k' → c = c' ∧ k = k'

/-- Set mutation may reorder the elements arbitrarily but neither loses nor invents any. -/
def ShuffleOK (cfg : Cfg V) : Prop := ∀ k l, (cfg.shuffle k l).Perm l

/-- Arguments are live objects and existing DOFs objects, and a parent that is being removed
    is listed only once (`depends_on=[a, a]` followed by `remove_parent(a)` breaks the graph, see
    `C10_duplicate_parent_violated`). -/
def Op.Safe (s : State V) : Op V → Prop
  | .newDofs _ => True
  | .new _ src _ depends _ => (∀ p ∈ depends, s.alive p = true) ∧
      match src with
      | .shared d => d < s.ndof
      | .fresh _ => True
  | .replaceDofs i d => s.alive i = true ∧ d < s.ndof
  | .addParent i _ p => s.alive i = true ∧ s.alive p = true
  | .appendParent i p => s.alive i = true ∧ s.alive p = true
  | .popParent i _ => s.alive i = true ∧ (s.obj i).parents.Nodup
  | .removeParent i p => s.alive i = true ∧ s.alive p = true ∧ (s.obj i).parents.Nodup
  | .setX i _ => s.alive i = true
  | .setFullX i _ => s.alive i = true
  | .setLocalX i _ => s.alive i = true
  | .setLocalFullX i _ => s.alive i = true
  | .setKey i _ _ => s.alive i = true
  | .fix i _ => s.alive i = true
  | .unfix i _ => s.alive i = true
  | .localFixAll i => s.alive i = true
  | .localUnfixAll i => s.alive i = true
  | .fixAll i => s.alive i = true
  | .unfixAll i => s.alive i = true
  | .fullFix i _ => s.alive i = true
  | .fullUnfix i _ => s.alive i = true
  | .bounds i _ => s.alive i = true
  | .gc _ => True
  | .clearNewX _ => True

/-- The store after a call, whether it returned or raised something other than `RecursionError`. -/
def Step (cfg : Cfg V) (s : State V) (op : Op V) (s' : State V) : Prop :=
  exec cfg op s = .ok () s' ∨ ∃ e, e ≠ Err.recursionError ∧ exec cfg op s = .error e s'

/-- States reachable from the empty store by API calls; calls that raise (other than by exhausting the
    recursion limit) may be followed by further calls. -/
inductive Reachable (cfg : Cfg V) : State V → Prop
  | init : Reachable cfg State.empty
  | step {s s' : State V} {op : Op V} : Reachable cfg s → op.Safe s → Step cfg s op s' → Reachable cfg s'

/-- No chain of live objects, each a parent of the next, is longer than the recursion limit. -/
def NoDeepChain (cfg : Cfg V) (s : State V) : Prop :=
  ∀ l : List Nat, (∀ j ∈ l, s.alive j = true) → l.IsChain (Parent s) → l.length ≤ cfg.limit

/-- `j` has been told to recompute between `s` and `s'`: its flag is up and its callback has been called
    at least once more. -/
def Notified (s s' : State V) (j : Nat) : Prop := (s'.obj j).newX = true ∧ (s.obj j).bells < (s'.obj j).bells

/-- The C++ side of every live object that has an external dof setter holds the same values as
    its DOFs object. -/
def MirrorInSync (s : State V) : Prop :=
  ∀ j, s.alive j = true → (s.obj j).setter = true → (s.obj j).ext = (s.dof (s.obj j).dofs).x

/-- Reachable without `replace_dofs` on objects that have an external setter. -/
inductive ReachableNoSwap (cfg : Cfg V) : State V → Prop
  | init : ReachableNoSwap cfg State.empty
  | step {s s' : State V} {op : Op V} : ReachableNoSwap cfg s → op.Safe s →
      (∀ i d, op = .replaceDofs i d → (s.obj i).setter = false) → Step cfg s op s' → ReachableNoSwap cfg s'

end Simsopt.Graph
