/-!
# Shared Python/NumPy vocabulary

Tiny models of Python list / NumPy 1-d array primitives used by several areas.
These are models of the *runtime*, not of simsopt code; see DESIGN.md "Trusted base".
-/

namespace Simsopt

/-- Exceptions that the modelled code can raise. -/
inductive Err where
  | valueError | indexError | keyError | typeError | attributeError
  | assertionError | dofLengthMismatch | recursionError | runtimeError
  | objectiveFailure | exception
  deriving DecidableEq, Repr

/-- NumPy boolean-mask read `a[mask]`: the entries of `a` at the `True` positions, in order. -/
def gather {α : Type _} : List Bool → List α → List α
  | true :: m, a :: as => a :: gather m as
  | false :: m, _ :: as => gather m as
  | _, _ => []

/-- NumPy boolean-mask write `a[mask] = v` for `len v` = number of `True` entries:
    the `True` positions receive the entries of `v` in order. -/
def scatter {α : Type _} : List Bool → List α → List α → List α
  | true :: m, _ :: as, v :: vs => v :: scatter m as vs
  | false :: m, a :: as, vs => a :: scatter m as vs
  | _, as, _ => as

/-- Number of `True` entries, `len(mask[mask])`. -/
def countTrue : List Bool → Nat
  | [] => 0
  | true :: m => countTrue m + 1
  | false :: m => countTrue m

/-- Python slice `l[a:b]` for `0 ≤ a ≤ b` (over-long bounds are clipped, as in Python). -/
def pySlice {α : Type _} (l : List α) (a b : Nat) : List α := (l.take b).drop a

/-- Python/NumPy integer subscript for a container of length `n`:
    `-n ≤ i < n` is accepted, negative values count from the end; otherwise `IndexError`. -/
def pyIndex (n : Nat) (i : Int) : Except Err Nat :=
  if 0 ≤ i ∧ i < n then .ok i.toNat
  else if i < 0 ∧ -(n : Int) ≤ i then .ok (i + n).toNat
  else .error .indexError

/-- `list.index(key)`: position of the first occurrence, `ValueError` if absent. -/
def pyListIndex (names : List String) (s : String) : Except Err Nat :=
  match names.findIdx? (· == s) with
  | some i => .ok i
  | none => .error .valueError

end Simsopt
