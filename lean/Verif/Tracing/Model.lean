import Verif.Fields.Model
import Mathlib.Algebra.Order.Round
import Mathlib.Data.Real.Archimedean
/-!
# Tracing of particles and field lines: src/simsoptpp/tracing.cpp, tracing.h, src/simsopt/field/tracing.py

The adaptive integrator (boost `runge_kutta_dopri5` with dense output) and the root finder (`toms748_solve`) are parameters of the model:
`Integrator` below is any sequence of accepted steps with any interpolation in each step and any choice of root.  Real arithmetic.
-/
namespace Simsopt.Tracing
open Fields

/-- `std::round(x)`: the nearest integer, halves away from zero. -/
noncomputable def cround (x : ℝ) : ℤ := if 0 ≤ x then ⌊x + 1 / 2⌋ else ⌈x - 1 / 2⌉

/-- The angle in `[0, 2π)` computed everywhere in tracing.cpp (L58-60, L285-287, L321-323, L334-336) and tracing.h (L125-127):
`phi = std::atan2(y, x); if(phi < 0) phi += 2*M_PI`. -/
noncomputable def atan2pos (y x : ℝ) : ℝ := if arctan2 y x < 0 then arctan2 y x + 2 * Real.pi else arctan2 y x

/-- `get_phi(x, y, phi_near)` (tracing.cpp L333-351).  The unused `phi_near_mod` is left out. -/
noncomputable def getPhi (x y near : ℝ) : ℝ :=
  let phi := atan2pos y x
  let mult := (cround (near / (2 * Real.pi)) : ℝ) * 2 * Real.pi
  let opt1 := mult - 2 * Real.pi + phi
  let opt2 := mult + phi
  let opt3 := mult + 2 * Real.pi + phi
  let dist1 := |opt1 - near|
  let dist2 := |opt2 - near|
  let dist3 := |opt3 - near|
  if dist1 ≤ min dist2 dist3 then opt1 else if dist2 ≤ min dist1 dist3 then opt2 else opt3

/-! ## Stopping criteria -/

/-- The stopping criteria of tracing.h L21-132; `null` is an empty pointer in the list (Python's `None`). -/
inductive Crit
  | transit (maxTransits : ℤ) (flux : Bool)
  | maxFlux (s : ℝ) | minFlux (s : ℝ) | minZ (z : ℝ) | maxZ (z : ℝ) | minR (r : ℝ) | maxR (r : ℝ)
  | iter (maxIter : ℤ)
  | levelset (f : ℝ → ℝ → ℝ → ℝ)
  | null

/-- The attributes `phi_last` and `phi_init` of `ToroidalTransitStoppingCriterion` (tracing.h L24-26); the other criteria have no state. -/
structure CState where
  last : ℝ
  init : ℝ

/-- `operator()` of `ToroidalTransitStoppingCriterion` (tracing.h L30-44). -/
noncomputable def transitCall (m : ℤ) (flux : Bool) (c : CState) (iter : ℕ) (x y z : ℝ) : Bool × CState :=
  let last := if iter = 1 then Real.pi else c.last
  let phi := if flux then z else getPhi x y last
  let init := if iter = 1 then phi else c.init
  let ntransits := |⌊(phi - init) / (2 * Real.pi)⌋|
  (decide (m ≤ ntransits), ⟨phi, init⟩)

open Classical in
/-- `operator()(iter, t, x, y, z)` of the criteria (tracing.h L30-131); a null pointer is never called (tracing.cpp L433). -/
noncomputable def Crit.call (c : Crit) (σ : CState) (iter : ℕ) (x y z : ℝ) : Bool × CState :=
  match c with
  | .transit m flux => transitCall m flux σ iter x y z
  | .maxFlux s => (decide (s ≤ x), σ)
  | .minFlux s => (decide (x ≤ s), σ)
  | .minZ c => (decide (z ≤ c), σ)
  | .maxZ c => (decide (c ≤ z), σ)
  | .minR r => (decide (√(x * x + y * y) ≤ r), σ)
  | .maxR r => (decide (r ≤ √(x * x + y * y)), σ)
  | .iter m => (decide (m < (iter : ℤ)), σ)
  | .levelset f => (decide (f √(x * x + y * y) (atan2pos y x) z < 0), σ)
  | .null => (false, σ)

/-- The loop over the criteria (tracing.cpp L432-438): the index of the first one that is satisfied (`break`), and the states afterwards. -/
noncomputable def callAll : List Crit → List CState → ℕ → ℕ → ℝ → ℝ → ℝ → Option ℕ × List CState
  | c :: cs, σ :: σs, i, iter, x, y, z =>
    let r := c.call σ iter x y z
    if r.1 then (some i, r.2 :: σs)
    else let q := callAll cs σs (i + 1) iter x y z; (q.1, r.2 :: q.2)
  | _, σs, _, _, _, _, _ => (none, σs)

/-! ## The loop -/

/-- What boost supplies: `t k`, `y k` is the state after `k` accepted steps, `dense k s` what `calc_state(s)` gives during step `k + 1`, and
`root k i target` the time chosen from the bracket that `toms748_solve` returns for plane `i` and the value `phi_shift` (tracing.cpp L408-419). -/
structure Integrator (S : Type) where
  t : ℕ → ℝ
  y : ℕ → S
  dense : ℕ → ℝ → S
  root : ℕ → ℕ → ℝ → ℝ

/-- The first three numbers of a state, `y[0], y[1], y[2]`. -/
structure Coords (S : Type) where
  x : S → ℝ
  y : S → ℝ
  z : S → ℝ

/-- One row `[time, idx, state]` of `res_phi_hits`. -/
structure Hit (S : Type) where
  time : ℝ
  idx : ℤ
  state : S

variable {S : Type}

/-- `phi_current` (tracing.cpp L394-397). -/
noncomputable def phiOf (C : Coords S) (flux : Bool) (s : S) (last : ℝ) : ℝ := if flux then C.z s else getPhi (C.x s) (C.y s) last

/-- The loop over the planes (tracing.cpp L401-430) during step `k + 1`. -/
noncomputable def planeHits (D : Integrator S) (k : ℕ) (last cur : ℝ) : ℕ → List ℝ → List (Hit S)
  | _, [] => []
  | i, phi :: phis =>
    (if ⌊(last - phi) / (2 * Real.pi)⌋ ≠ ⌊(cur - phi) / (2 * Real.pi)⌋ then
      let fak := cround (((last + cur) / 2 - phi) / (2 * Real.pi))
      let shift := (fak : ℝ) * 2 * Real.pi + phi
      [⟨D.root k i shift, i, D.dense k (D.root k i shift)⟩]
    else []) ++ planeHits D k last cur (i + 1) phis

/-- The do-while loop of `solve` (tracing.cpp L388-444) from step `k + 1` on; the results are appended to what was recorded before.  `none` if the
loop has not ended within `fuel` steps. -/
noncomputable def loop (C : Coords S) (D : Integrator S) (flux : Bool) (tmax : ℝ) (phis : List ℝ) (crits : List Crit) :
    ℕ → ℕ → ℝ → List CState → List (ℝ × S) → List (Hit S) → Option (List (ℝ × S) × List (Hit S))
  | 0, _, _, _, _, _ => none
  | fuel + 1, k, last, σs, res, hits =>
    let res := res ++ [(D.t k, D.y k)]
    let t := D.t (k + 1)
    let y := D.y (k + 1)
    let cur := phiOf C flux y last
    let hits := hits ++ planeHits D k last cur 0 phis
    let r := callAll crits σs 0 (k + 1) (C.x y) (C.y y) (C.z y)
    match r.1 with
    | some i => some (res, hits ++ [⟨t, -1 - (i : ℤ), y⟩])
    | none =>
      if t < tmax then loop C D flux tmax phis crits fuel (k + 1) cur r.2 res hits
      else some (res ++ [(tmax, D.dense k tmax)], hits)

/-- `solve` (tracing.cpp L367-446) with the criteria in any state `σs` (they may have been used before). -/
noncomputable def solve (C : Coords S) (D : Integrator S) (flux : Bool) (tmax : ℝ) (phis : List ℝ) (crits : List Crit) (fuel : ℕ) (σs : List CState) :
    Option (List (ℝ × S) × List (Hit S)) :=
  loop C D flux tmax phis crits fuel 0 (phiOf C flux (D.y 0) Real.pi) σs [] []

/-! ## Counting of transits: tracing.py L562-654 -/

/-- The unwrapped angle along the rows of a trajectory: `get_phi(a, b, prev)` from row to row (tracing.py L583-590, L633-650). -/
noncomputable def follow : ℝ → List (ℝ × ℝ) → ℝ
  | prev, [] => prev
  | prev, (a, b) :: ps => follow (getPhi a b prev) ps

/-- `np.round`: halves to even. -/
noncomputable def npRound (x : ℝ) : ℤ :=
  if Int.fract x < 1 / 2 then ⌊x⌋ else if 1 / 2 < Int.fract x then ⌊x⌋ + 1 else if Even ⌊x⌋ then ⌊x⌋ else ⌊x⌋ + 1

/-- `compute_toroidal_transits(flux=False)` for one particle (tracing.py L575-593), given the list of `(x, y)` of the rows; also
`compute_poloidal_transits` (L626-653), given the list of `(R - R_ma, Z - Z_ma)`.  No rows: the Python raises, here 0. -/
noncomputable def transits : List (ℝ × ℝ) → ℤ
  | [] => 0
  | (a, b) :: ps => let init := getPhi a b Real.pi; if ps.length + 1 > 1 then npRound ((follow init ps - init) / (2 * Real.pi)) else 0

/-- The same with `flux=True`: the angle is a column of the array. -/
noncomputable def transitsFlux (angles : List ℝ) : ℤ :=
  match angles with
  | [] => 0
  | a :: ps => if ps.length + 1 > 1 then npRound ((ps.getLastD a - a) / (2 * Real.pi)) else 0

end Simsopt.Tracing
