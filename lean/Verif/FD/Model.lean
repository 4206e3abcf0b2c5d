import Verif.Util.Model
import Mathlib.Algebra.Order.Archimedean.Real.Basic
/-!
# Model of `FiniteDifference` (simsopt/_core/finite_difference.py L38-113)

The `Optimizable` is represented by what this class uses of it: the vector `opt.x` (read and written through the property `x`, whose behaviour is
the subject of C04/C05 in `Verif.Graph`) and the bound method `fn`, a function of the current `opt.x`.  Numbers are reals: the rounding of the
differences and of the quotients is not modelled.
-/
namespace Simsopt.FD
open Simsopt Simsopt.Util

/-- A NumPy vector together with the one bit of dtype that matters here: whether it is an integer array (`np.asarray` of a list of Python ints). -/
structure Arr where
  isInt : Bool
  val : List ℝ

/-- State: `opt.x`, `self.x0`, `self.jac_size`, and (ghost) the list of points at which `fn` has been called. -/
structure St where
  optX : List ℝ
  x0 : Option Arr
  jacSize : Option (Nat × Nat)
  evals : List (List ℝ)

/-- The effect of a Python statement: a result or an exception, and the state left behind (also when an exception is raised). -/
def M (α : Type) : Type := St → Except Err α × St

/-- sequencing of statements; an exception skips the rest -/
def M.bind {α β : Type} (m : M α) (f : α → M β) : M β := fun s =>
  match m s with
  | (.ok a, s') => f a s'
  | (.error e, s') => (.error e, s')

instance : Monad M where
  pure a := fun s => (.ok a, s)
  bind := M.bind

/-- `raise` -/
def raise {α : Type} (e : Err) : M α := fun s => (.error e, s)

/-- a computation that does not touch the state -/
def lift {α : Type} (r : Except Err α) : M α := fun s => (r, s)

/-- `opt.x` -/
def getOptX : M (List ℝ) := fun s => (.ok s.optX, s)

/-- `opt.x = x` (optimizable.py L1114-1124): a vector of the wrong length raises `ValueError`. -/
def setOptX (x : List ℝ) : M Unit := fun s =>
  if x.length = s.optX.length then (.ok (), { s with optX := x }) else (.error .valueError, s)

/-- `self.fn()`: the value at the current `opt.x` (or an exception); a scalar result is the one-element list. -/
def callFn (fn : List ℝ → Except Err (List ℝ)) : M (List ℝ) := fun s =>
  (fn s.optX, { s with evals := s.evals ++ [s.optX] })

/-- NumPy conversion of a float to an integer when it is stored in an integer array: truncation towards zero. -/
noncomputable def trunc (r : ℝ) : ℝ := if 0 ≤ r then ⌊r⌋ else ⌈r⌉

/-- `x = np.copy(x0); x[j] = v` -/
noncomputable def storeAt (x0 : Arr) (j : Nat) (v : ℝ) : List ℝ :=
  x0.val.set j (if x0.isInt then trunc v else v)

/-- NumPy subtraction of 1-d arrays: same length, or one of them of length 1 (broadcast), else `ValueError`. -/
noncomputable def npSub (a b : List ℝ) : Except Err (List ℝ) :=
  if a.length = b.length then .ok (List.zipWith (· - ·) a b)
  else if b.length = 1 then .ok (a.map (· - b.headD 0))
  else if a.length = 1 then .ok (b.map (a.headD 0 - ·))
  else .error .valueError

/-- `jac[:, j] = v` for `jac` stored as its list of columns, each of height `m`: `v` must have length `m` (or 1, broadcast); `j` in range. -/
def setCol (m : Nat) (jac : List (List ℝ)) (j : Nat) (v : List ℝ) : Except Err (List (List ℝ)) :=
  if jac.length ≤ j then .error .indexError
  else if v.length = m then .ok (jac.set j v)
  else if v.length = 1 then .ok (jac.set j (List.replicate m (v.headD 0)))
  else .error .valueError

/-- Body of the `for j in range(len(x0))` loop, centered branch (L84-95). -/
noncomputable def centeredStep (fn : List ℝ → Except Err (List ℝ)) (m : Nat) (x0 : Arr) (steps : List ℝ) (jac : List (List ℝ)) (j : Nat) :
    M (List (List ℝ)) := do
  setOptX (storeAt x0 j (x0.val.getD j 0 + steps.getD j 0))
  let fplus ← callFn fn
  setOptX (storeAt x0 j (x0.val.getD j 0 - steps.getD j 0))
  let fminus ← callFn fn
  let d ← lift (npSub fplus fminus)
  lift (setCol m jac j (d.map (· / (2 * steps.getD j 0))))

/-- Body of the loop, forward branch (L101-107). -/
noncomputable def forwardStep (fn : List ℝ → Except Err (List ℝ)) (m : Nat) (x0 : Arr) (steps f0 : List ℝ) (jac : List (List ℝ)) (j : Nat) :
    M (List (List ℝ)) := do
  setOptX (storeAt x0 j (x0.val.getD j 0 + steps.getD j 0))
  let fplus ← callFn fn
  let d ← lift (npSub fplus f0)
  lift (setCol m jac j (d.map (· / steps.getD j 0)))

/-- a `for` loop over a list, threading the array that is being filled -/
def forLoop {α : Type} (body : α → Nat → M α) : List Nat → α → M α
  | [], a => pure a
  | j :: js, a => do
    let a' ← body a j
    forLoop body js a'

/-- `self.x0 = np.asarray(x)` when an argument is given (L71-72). -/
def storeX0 (x : Option Arr) : M Unit := fun s => (.ok (), match x with | some a => { s with x0 := some a } | none => s)

/-- `x0 = self.x0 if self.x0 is not None else self.opt.x` (L73) -/
def pickX0 : M Arr := fun s => (.ok (match s.x0 with | some a => a | none => ⟨false, s.optX⟩), s)

/-- `jac_size`, set by one evaluation at the current `opt.x` if it is not known yet (L76-80) -/
def ensureSize (fn : List ℝ → Except Err (List ℝ)) : M (Nat × Nat) := fun s =>
  match s.jacSize with
  | some p => (.ok p, s)
  | none => match callFn fn s with
    | (.ok out, s') => (.ok (out.length, s'.optX.length), { s' with jacSize := some (out.length, s'.optX.length) })
    | (.error e, s') => (.error e, s')

/-- `FiniteDifference.jac` (L70-113).  The result is the list of columns of the NumPy matrix. -/
noncomputable def jac (fn : List ℝ → Except Err (List ℝ)) (absStep relStep : ℝ) (centered : Bool) (x : Option Arr) : M (List (List ℝ)) := do
  storeX0 x
  let x0 ← pickX0
  let optX0 ← getOptX
  let sz ← ensureSize fn
  let jac0 := List.replicate sz.2 (List.replicate sz.1 (0 : ℝ))
  let steps ← lift (finiteDifferenceSteps id x0.val absStep relStep)
  let J ← if centered then
      forLoop (centeredStep fn sz.1 x0 steps) (List.range x0.val.length) jac0
    else do
      setOptX x0.val
      let f0 ← callFn fn
      forLoop (forwardStep fn sz.1 x0 steps f0) (List.range x0.val.length) jac0
  setOptX optX0
  pure J

end Simsopt.FD
