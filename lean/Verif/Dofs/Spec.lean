import Verif.Dofs.Model
/-!
# Specification vocabulary for the dof properties

Independent of the helpers used by the model.
-/
namespace Simsopt
namespace Dofs
variable {V : Type}

/-- The entries of `l` whose mask entry is `True`, in order. -/
def maskedSpec {α : Type _} (mask : List Bool) (l : List α) : List α :=
  ((mask.zip l).filter (·.1)).map (·.2)

/-- Number of free dofs. -/
def numFree (d : Dofs V) : Nat := d.free.count true

/-- `key` designates dof number `i`: it is the dof's name, or its index, or its index counted from the end. -/
def Addresses (d : Dofs V) : Key → Nat → Prop
  | .name s, i => d.names[i]? = some s
  | .idx k, i => i < d.x.length ∧ (k = (i : Int) ∨ k = (i : Int) - d.x.length)

/-- `d'` agrees with `d` on everything except possibly the values. -/
def SameButX (d d' : Dofs V) : Prop :=
  d'.names = d.names ∧ d'.free = d.free ∧ d'.lb = d.lb ∧ d'.ub = d.ub

/-- `d'` agrees with `d` on everything except possibly the free/fixed status. -/
def SameButFree (d d' : Dofs V) : Prop :=
  d'.names = d.names ∧ d'.x = d.x ∧ d'.lb = d.lb ∧ d'.ub = d.ub

end Dofs
end Simsopt
