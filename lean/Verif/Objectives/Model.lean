import Verif.Deriv.Model
import Mathlib.Data.Real.Basic
/-!
# Model of composite objectives

`ScaledOptimizable`, `OptimizableSum` and the operators that build them (simsopt/_core/optimizable.py), `QuadraticPenalty`,
`Weight` and the serial `MPIObjective` (simsopt/objectives/utilities.py).  Floating-point numbers are modelled by reals.
Simplification: the `J()` and `dJ(partials=True)` of a basic objective (a leaf) are functions of the `local_full_x` of all
Optimizables and do not raise; `dJ` builds a new Derivative at each call.
-/
namespace Simsopt.Objectives
open Simsopt Deriv

variable {K : Type}

/-- The `factor` of a ScaledOptimizable: a number, or a `Weight` object (utilities.py L205-219) living at an address. -/
inductive Factor where
  | num (c : ℝ)
  | weight (w : Nat)

/-- An objective built from basic objectives. -/
inductive Expr where
  /-- a user objective with `J` and `dJ` -/
  | leaf (n : Nat)
  /-- `ScaledOptimizable(factor, opt)` (optimizable.py L1778-1802) -/
  | scaled (c : Factor) (e : Expr)
  /-- `OptimizableSum(opts)` (optimizable.py L1805-1828) -/
  | osum (l : List Expr)
  /-- `QuadraticPenalty(obj, cons, f)` (utilities.py L148-202) -/
  | penalty (e : Expr) (cons : ℝ) (f : String)
  /-- `MPIObjective(objectives, comm=None)` (utilities.py L107-145) -/
  | mean (l : List Expr)

/-- `f + g` (optimizable.py L1503-1505). -/
def Expr.add (f g : Expr) : Expr := .osum [f, g]

/-- `f * c`, `c * f` (optimizable.py L1507-1513). -/
def Expr.mul (c : Factor) (f : Expr) : Expr := .scaled c f

/-- `sum(list)`: `0 + f1` is `f1` by `__radd__` (optimizable.py L1516-1520), every further term goes through `__add__`.
    `none` is the int 0, the sum of the empty list. -/
def Expr.pySum : List Expr → Option Expr
  | [] => none
  | f :: l => some (l.foldl Expr.add f)

/-- `float(factor)`; for a Weight its current value (utilities.py L209-210). -/
def float (w : Nat → ℝ) : Factor → ℝ
  | .num c => c
  | .weight a => w a

/-- `weight += alpha` (utilities.py L212-214). -/
noncomputable def iaddWeight (w : Nat → ℝ) (a : Nat) (alpha : ℝ) : Nat → ℝ := upd w a (w a + alpha)
/-- `weight *= alpha` (utilities.py L216-218). -/
noncomputable def imulWeight (w : Nat → ℝ) (a : Nat) (alpha : ℝ) : Nat → ℝ := upd w a (w a * alpha)

/-- The basic objectives: value and partial derivatives as functions of the `local_full_x` of all Optimizables. -/
structure Leaves (K : Type) where
  J : Nat → (K → List ℝ) → ℝ
  dJ : Nat → (K → List ℝ) → List (K × List ℝ)

/-- Value branch of `QuadraticPenalty` (utilities.py L172-181). -/
noncomputable def penaltyJ (f : String) (diff : ℝ) : Except Err ℝ :=
  if f = "max" then .ok (1 / 2 * max diff 0 ^ 2)
  else if f = "min" then .ok (1 / 2 * min diff 0 ^ 2)
  else if f = "identity" then .ok (1 / 2 * diff ^ 2)
  else .error .exception

/-- The factor in front of `dval` (utilities.py L189-198). -/
noncomputable def penaltyFactor (f : String) (diff : ℝ) : Except Err ℝ :=
  if f = "max" then .ok (max diff 0)
  else if f = "min" then .ok (min diff 0)
  else if f = "identity" then .ok diff
  else .error .exception

mutual
/-- `J()` of each class (optimizable.py L1796-1797, L1823-1824; utilities.py L130-134, L172-181).  The mean of no objectives is
    `np.float64(0)/0`, a NaN with a warning, modelled as an error. -/
noncomputable def Expr.J (L : Leaves K) (w : Nat → ℝ) (X : K → List ℝ) : Expr → Except Err ℝ
  | .leaf n => .ok (L.J n X)
  | .scaled c e => do
    let v ← e.J L w X
    pure (float w c * v)
  | .osum l => do
    let vs ← Expr.Js L w X l
    pure vs.sum
  | .penalty e cons f => do
    let val ← e.J L w X
    penaltyJ f (val - cons)
  | .mean l => do
    let vs ← Expr.Js L w X l
    if l.length = 0 then .error .runtimeError else pure (vs.sum / l.length)
/-- `[J.J() for J in objectives]` -/
noncomputable def Expr.Js (L : Leaves K) (w : Nat → ℝ) (X : K → List ℝ) : List Expr → Except Err (List ℝ)
  | [] => .ok []
  | e :: l => do
    let v ← e.J L w X
    let r ← Expr.Js L w X l
    pure (v :: r)
end

/-- A Python value that is a number or a Derivative. -/
inductive PyVal where
  | num (c : ℝ)
  | der (i : Nat)

section
variable [DecidableEq K]

/-- `a + b`: `Derivative.__add__` needs `other.data` (derivative.py L122-131), `Derivative.__radd__` accepts only 0 on its left
    (L219-223). -/
noncomputable def pyAdd : PyVal → PyVal → M K ℝ PyVal
  | .num a, .num b => pure (.num (a + b))
  | .num a, .der i => open Classical in if a = 0 then pure (.der i) else throw .attributeError
  | .der _, .num _ => throw .attributeError
  | .der i, .der j => do
    let r ← Deriv.add i j
    pure (.der r)

/-- `c * a` for a float `c` (derivative.py L164-176). -/
noncomputable def pyMul (c : ℝ) : PyVal → M K ℝ PyVal
  | .num a => pure (.num (c * a))
  | .der i => do
    let r ← Deriv.mul i c
    pure (.der r)

/-- `sum(ds)` of a list of values. -/
noncomputable def pySumVals : PyVal → List PyVal → M K ℝ PyVal
  | acc, [] => pure acc
  | acc, d :: ds => do
    let a ← pyAdd acc d
    pySumVals a ds

mutual
/-- `dJ(partials=True)` of each class (optimizable.py L1799-1802, L1826-1828; utilities.py L136-143, L183-198).
    `derivative *= 1./n` is `derivative = derivative * (1./n)`: the class has no `__imul__`. -/
noncomputable def Expr.dJ (L : Leaves K) (w : Nat → ℝ) (X : K → List ℝ) : Expr → M K ℝ PyVal
  | .leaf n => do
    let i ← Deriv.mk (L.dJ n X)
    pure (.der i)
  | .scaled c e => do
    let d ← e.dJ L w X
    pyMul (float w c) d
  | .osum l => Expr.foldDJ L w X (.num 0) l
  | .penalty e cons f => do
    let val ← lift (e.J L w X)
    let dval ← e.dJ L w X
    let c ← lift (penaltyFactor f (val - cons))
    pyMul c dval
  | .mean l =>
    if l.length = 0 then throw .runtimeError else do
      let ds ← Expr.dJs L w X l
      let s ← pySumVals (.num 0) ds
      pyMul (1 / l.length) s
/-- `sum(opt.dJ(partials=True) for opt in opts)`: a generator, each term is added as soon as it is computed. -/
noncomputable def Expr.foldDJ (L : Leaves K) (w : Nat → ℝ) (X : K → List ℝ) : PyVal → List Expr → M K ℝ PyVal
  | acc, [] => pure acc
  | acc, e :: l => do
    let d ← e.dJ L w X
    let a ← pyAdd acc d
    Expr.foldDJ L w X a l
/-- `[J.dJ(partials=True) for J in objectives]` -/
noncomputable def Expr.dJs (L : Leaves K) (w : Nat → ℝ) (X : K → List ℝ) : List Expr → M K ℝ (List PyVal)
  | [] => pure []
  | e :: l => do
    let d ← e.dJ L w X
    let r ← Expr.dJs L w X l
    pure (d :: r)
end

/-- `obj.dJ()` through `derivative_dec` (derivative.py L226-242): the Derivative is called with the object, which presents the
    blocks `bs`; a number is not callable. -/
noncomputable def Expr.gradient (L : Leaves K) (w : Nat → ℝ) (X : K → List ℝ) (size : K → Nat) (bs : List (Block K)) (e : Expr) :
    M K ℝ (List ℝ) := do
  match ← e.dJ L w X with
  | .num _ => throw .typeError
  | .der i => Deriv.call size i bs

end
end Simsopt.Objectives
