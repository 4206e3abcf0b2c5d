import Verif.Deriv.Model
/-!
# Specification vocabulary for Derivatives
-/
namespace Simsopt.Deriv
variable {K V : Type} [DecidableEq K]

/-- The array stored by Derivative `i` for the Optimizable `k`, if any. -/
def value (h : Heap K V) (i : Nat) (k : K) : Option (List V) := (find (h.der i) k).map h.arr

/-- The partial derivative with respect to `k`: the stored array, or zeros. -/
def partialD [Zero V] (size : K → Nat) (h : Heap K V) (i : Nat) (k : K) : List V :=
  (value h i k).getD (List.replicate (size k) 0)

/-- Entrywise combination of two stored arrays where a missing one is skipped. -/
def combine (op : V → V → V) (new : V → V) : Option (List V) → Option (List V) → Option (List V)
  | some a, some b => some (List.zipWith op a b)
  | some a, none => some a
  | none, some b => some (b.map new)
  | none, none => none

/-- Arguments are existing Derivatives; the arrays given to the constructor have one entry per dof of their Optimizable, and
    no Optimizable is listed twice (they are keys of a dict); the masks passed to `__call__` have the length of the arrays. -/
def Op.Safe (size : K → Nat) (h : Heap K V) : Op K V → Prop
  | .mk l => (l.map (·.1)).Nodup ∧ ∀ e ∈ l, e.2.length = size e.1
  | .add i j => i < h.nder ∧ j < h.nder
  | .sub i j => i < h.nder ∧ j < h.nder
  | .iadd i j => i < h.nder ∧ j < h.nder
  | .isub i j => i < h.nder ∧ j < h.nder
  | .mul i _ => i < h.nder
  | .sum l => ∀ i ∈ l, i < h.nder
  | .call i bs => i < h.nder ∧ ∀ b ∈ bs, ∀ k ∈ b.opts, b.free.length = size k

/-- Heaps reachable by any sequence of calls (results of calls that raise included). -/
inductive Reachable [Add V] [Sub V] [Neg V] [Mul V] [Zero V] (size : K → Nat) : Heap K V → Prop
  | init : Reachable size Heap.empty
  | step {h h' : Heap K V} {op : Op K V} : Reachable size h → op.Safe size h →
      (exec size op h = .ok () h' ∨ ∃ e, exec size op h = .error e h') → Reachable size h'

/-- `D(optim)` returns the vector `g`, where `bs` is what `optim` presents to the call. -/
def Gradient [Add V] [Zero V] (size : K → Nat) (h : Heap K V) (i : Nat) (bs : List (Block K)) (g : List V) : Prop :=
  ∃ h', call size i bs h = .ok g h'

/-- Masks have one entry per dof. -/
def BlocksOK (size : K → Nat) (bs : List (Block K)) : Prop := ∀ b ∈ bs, ∀ k ∈ b.opts, b.free.length = size k

/-- Derivatives `i` and `j` have an array in common. -/
def SharesArray (h : Heap K V) (i j : Nat) : Prop := ∃ e ∈ h.der i, ∃ f ∈ h.der j, e.2 = f.2

end Simsopt.Deriv
