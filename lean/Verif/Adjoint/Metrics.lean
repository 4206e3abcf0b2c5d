import Verif.PyList
import Verif.Curves.Geometry
import Mathlib.Analysis.SpecialFunctions.Trigonometric.Basic
import Mathlib.Algebra.Order.BigOperators.Group.List
import Mathlib.Algebra.BigOperators.Ring.List
import Mathlib.Data.List.GetD
import Mathlib.Tactic.FieldSimp
import Mathlib.Tactic.Linarith
import Mathlib.Tactic.Positivity
/-!
# Adjoint metrics of the rotational transform and of the magnetic well (C189)

Model of `IotaTargetMetric`, `IotaWeighted` and `WellWeighted` (src/simsopt/mhd/vmec_diagnostics.py L371-709) with the parts of the class `Vmec` they drive: `run` (vmec.py L663-773), `set_profile` and the end of `set_indata`
(vmec.py L462-501, L542-578) and the radial grids (vmec.py L798-800).  Real numbers instead of doubles.

The inputs of VMEC are split into the ones these classes change (the profile arrays `ac_aux_f`, `ac_aux_s` and `pcurr_type`, or `am_aux_f`, `am_aux_s` and `pmass_type`; the scalar `curtor`, or `pres_scale`) and the rest, which
includes the boundary.  Parameters: the solver; the surface data and `parameter_derivatives` (C170); the fits of a profile object.  `B_cartesian` is part of the output of the solver (`none`: refused, C170).  Not modelled: files, MPI.
-/
namespace Simsopt.Adjoint
open Simsopt
open Simsopt.Geometry (inner)
open Simsopt.Coils

/-- The profile types that the modelled code distinguishes (`pcurr_type`, `pmass_type`). -/
inductive Kind where
  | powerSeries
  | cubicSpline
  | lineSegmentI
  | other (k : ℕ)

/-- The inputs of VMEC (`vmec.indata`) for one profile (current or pressure): the spline arrays, the power series coefficients, the type, the scalar that goes with it, and the rest. -/
structure Inp (Rest : Type) where
  auxF : List ℝ
  auxS : List ℝ
  coef : List ℝ
  kind : Kind
  tot : ℝ
  ncurr : ℤ
  rest : Rest

/-- The data of `vmec.wout` that are read (`bsubu` is `bsubumnc[0, :]`), and the field of `B_cartesian`. -/
structure Out (P : Type) where
  ns : ℕ
  iotas : List ℝ
  bsubu : List ℝ
  pres : List ℝ
  vp : List ℝ
  phiEdge : ℝ
  signgs : ℝ
  field : Option (P → V3)

structure State (Rest P : Type) where
  inp : Inp Rest
  need : Bool
  wout : Option (Out P)

/-- What is not modelled.  `profile` is the profile object of the `Vmec` object (`vmec.current_profile` or `vmec.pressure_profile`), if there is one. -/
structure Env (Rest P : Type) where
  solve : Inp Rest → Option (Out P)
  profile : Option (ℝ → ℝ)
  n : ℕ
  poly : (ℝ → ℝ) → ℕ → List ℝ
  grid : ℕ → List ℝ
  total : Kind → (ℝ → ℝ) → ℝ

variable {Rest P : Type}

/-- `a[:] = fill; a[:len(l)] = l` for an array of a fixed length. -/
def pad (cap : ℕ) (fill : ℝ) (l : List ℝ) : List ℝ := (l ++ List.replicate (cap - l.length) fill).take cap

/-- `set_profile` and the end of `set_indata` (vmec.py L462-501, L569-578).  Simplified: the number of points of the fit does not exceed the arrays. -/
def setIndata (E : Env Rest P) (i : Inp Rest) : Except Err (Inp Rest) :=
  match E.profile with
  | none => .ok i
  | some f => match i.kind with
    | .powerSeries => .ok { i with coef := pad i.coef.length 0 (E.poly f E.n), tot := E.total i.kind f }
    | .cubicSpline => .ok { i with auxS := pad i.auxS.length 0 (E.grid E.n), auxF := pad i.auxF.length 0 ((E.grid E.n).map f), tot := E.total i.kind f }
    | .lineSegmentI => .ok { i with auxS := pad i.auxS.length 0 (E.grid E.n), auxF := pad i.auxF.length 0 ((E.grid E.n).map f), tot := E.total i.kind f }
    | .other _ => .error .runtimeError

/-- `Vmec.run` (vmec.py L663-773). -/
def run (E : Env Rest P) (w : State Rest P) : State Rest P × Except Err Unit :=
  if !w.need then (w, .ok ()) else
  match setIndata E w.inp with
  | .error e => (w, .error e)
  | .ok i => match E.solve i with
    | none => ({ w with inp := i }, .error .runtimeError)
    | some o => ({ inp := i, need := false, wout := some o }, .ok ())

/-- The half grid `np.linspace(0, 1, ns)[1:] - 0.5 * ds` and `ds` (vmec.py L798-800). -/
noncomputable def ds (ns : ℕ) : ℝ := 1 / ((ns : ℝ) - 1)
noncomputable def sHalf (ns : ℕ) : List ℝ := (List.range (ns - 1)).map fun j : ℕ => ((j : ℝ) + 1) / ((ns : ℝ) - 1) - 0.5 * ds ns

noncomputable def mu0 : ℝ := 4 * Real.pi * 1e-7

/-- One of the three metrics: its value, the perturbation of the profile, whether it changes the scalar (`curtor`), the type it sets, the condition on `ncurr`, and the last line of `shape_gradient`. -/
structure Metric (P : Type) where
  value : Out P → ℝ
  base : Out P → List ℝ
  perturbation : Out P → List ℝ
  setsTot : Bool
  newKind : Kind
  checks : Bool
  finish : Out P → Out P → ℝ → ℝ

/-- `It_half = signgs * 2 * pi * bsubumnc[0, 1:] / mu0` (L446, L556). -/
noncomputable def itHalf (o : Out P) : List ℝ := (o.bsubu.drop 1).map fun b => o.signgs * (2 * Real.pi) * b / mu0

/-- `IotaTargetMetric` (L397-484). -/
noncomputable def iotaTarget (P : Type) (target : ℝ → ℝ) : Metric P where
  value o := 0.5 * ((List.zipWith (fun i t => i - t) (o.iotas.drop 1) ((sHalf o.ns).map target)).map fun d => d ^ 2).sum * ds o.ns
  base := itHalf
  perturbation o := (List.zipWith (fun i t => i - t) (o.iotas.drop 1) ((sHalf o.ns).map target)).map fun d => d / (o.phiEdge * o.signgs / (2 * Real.pi))
  setsTot := true
  newKind := .lineSegmentI
  checks := true
  finish _ _ d := d / (2 * Real.pi * mu0)

/-- `IotaWeighted` (L510-591). -/
noncomputable def iotaWeighted (P : Type) (weight : ℝ → ℝ) : Metric P where
  value o := (List.zipWith (· * ·) ((sHalf o.ns).map weight) (o.iotas.drop 1)).sum / ((sHalf o.ns).map weight).sum
  base := itHalf
  perturbation o := (sHalf o.ns).map weight
  setsTot := true
  newKind := .lineSegmentI
  checks := true
  finish _ o1 d := d / (mu0 * ds o1.ns * o1.phiEdge * o1.signgs * ((sHalf o1.ns).map weight).sum)

noncomputable def wellNum (w1 w2 : ℝ → ℝ) (o : Out P) : ℝ := (List.zipWith (· * ·) ((sHalf o.ns).map fun s => w1 s - w2 s) (o.vp.drop 1)).sum
noncomputable def wellDen (w1 w2 : ℝ → ℝ) (o : Out P) : ℝ := (List.zipWith (· * ·) ((sHalf o.ns).map fun s => w1 s + w2 s) (o.vp.drop 1)).sum

noncomputable def wellPert (w1 w2 : ℝ → ℝ) (o : Out P) : List ℝ :=
  (sHalf o.ns).map fun s => ((w1 s - w2 s) - wellNum w1 w2 o / wellDen w1 w2 o * (w1 s + w2 s)) / (wellDen w1 w2 o * ds o.ns * 4 * Real.pi * Real.pi)

/-- `WellWeighted` (L624-709). -/
noncomputable def wellWeighted (P : Type) (w1 w2 : ℝ → ℝ) : Metric P where
  value o := wellNum w1 w2 o / wellDen w1 w2 o
  base o := o.pres.drop 1
  perturbation := wellPert w1 w2
  setsTot := false
  newKind := .cubicSpline
  checks := false
  finish o _ d := d / mu0 + (wellPert w1 w2 o).getLastD 0

/-- `J` (L407-416, L520-527, L635-642). -/
def evalJ (E : Env Rest P) (m : Metric P) (w : State Rest P) : State Rest P × Except Err ℝ :=
  match run E w with
  | (w1, .error e) => (w1, .error e)
  | (w1, .ok ()) => match w1.wout with
    | none => (w1, .error .attributeError)
    | some o => (w1, .ok (m.value o))

/-- `It_new = It_half + adjoint_epsilon * perturbation` (L457, L565, L688). -/
def newProfile (m : Metric P) (eps : ℝ) (o : Out P) : List ℝ := List.zipWith (fun b p => b + eps * p) (m.base o) (m.perturbation o)

/-- `curtor = 1.5 * It_new[-1] - 0.5 * It_new[-2]` (L458, L566). -/
noncomputable def newTot (l : List ℝ) : Except Err ℝ :=
  match l.reverse with
  | a :: b :: _ => .ok (1.5 * a - 0.5 * b)
  | _ => .error .indexError

/-- `shape_gradient` (L430-484, L541-591, L654-709), with the points of the surface as index. -/
noncomputable def shapeGradient (E : Env Rest P) (m : Metric P) (eps : ℝ) (w : State Rest P) : State Rest P × Except Err (P → ℝ) :=
  match run E w with
  | (w1, .error e) => (w1, .error e)
  | (w1, .ok ()) => match w1.wout with
    | none => (w1, .error .attributeError)
    | some o => match o.field with
      | none => (w1, .error .runtimeError)
      | some B0 =>
        let new := newProfile m eps o
        match (if m.setsTot then newTot new else .ok w1.inp.tot) with
        | .error e => (w1, .error e)
        | .ok tot =>
          let saved := w1.inp
          let ones := fun l : List ℝ => l.map fun _ => (-1 : ℝ)
          let cleared : Inp Rest := { saved with auxF := ones saved.auxF, auxS := ones saved.auxS }
          if saved.auxF.length < new.length ∨ saved.auxS.length < new.length then ({ w1 with inp := cleared }, .error .valueError) else
          let perturbed : Inp Rest := { cleared with auxF := pad saved.auxF.length (-1) new, auxS := pad saved.auxS.length (-1) (sHalf o.ns), tot := tot, kind := m.newKind }
          match run E { w1 with inp := perturbed, need := true } with
          | (w2, .error e) => (w2, .error e)
          | (w2, .ok ()) => match w2.wout with
            | none => (w2, .error .attributeError)
            | some o1 => match o1.field with
              | none => (w2, .error .runtimeError)
              | some B1 =>
                let restored : Inp Rest := { w2.inp with auxF := saved.auxF, auxS := saved.auxS, kind := saved.kind, tot := if m.setsTot then saved.tot else w2.inp.tot }
                ({ w2 with inp := restored, need := true }, .ok fun p => m.finish o o1 (inner (B1 p - B0 p) (B0 p) / eps))

/-- `dJ` (L418-428, L529-539, L644-652); `grad` is `parameter_derivatives` (C170). -/
noncomputable def evalDJ (E : Env Rest P) (m : Metric P) (eps : ℝ) (grad : (P → ℝ) → List ℝ) (w : State Rest P) : State Rest P × Except Err (List ℝ) :=
  if m.checks ∧ w.inp.ncurr ≠ 1 then (w, .error .runtimeError) else
  let w := if m.checks then w else { w with need := true }
  match shapeGradient E m eps w with
  | (w1, .error e) => (w1, .error e)
  | (w1, .ok G) => (w1, .ok (grad G))

end Simsopt.Adjoint
