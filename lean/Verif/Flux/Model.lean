import Verif.Coils.Vjp
/-!
# SquaredFlux

Model of `SquaredFlux` (src/simsopt/objectives/fluxobjective.py) and of `integral_BdotN` (src/simsoptpp/integral_BdotN.cpp).
The `nphi x ntheta` grid is flattened, as the C++ code does: `N = nphi * ntheta` and `i : Fin N`.  Simplification: real numbers instead of doubles;
the checks of shapes and storage order (L17-44) are not modelled.
-/
namespace Simsopt.Flux
open Simsopt.Coils Simsopt.Penalties
open Simsopt.Geometry hiding norm

/-- The argument `definition`, already checked (fluxobjective.py L64-66, integral_BdotN.cpp L47-56). -/
inductive Definition where
  | quadraticFlux
  | normalized
  | localDef
  deriving DecidableEq

/-- The private variables of one iteration: `normN` and `BcoildotN` (integral_BdotN.cpp L63-79). -/
noncomputable def normN (n : V3) : ℝ := Real.sqrt (n.1 * n.1 + n.2.1 * n.2.1 + n.2.2 * n.2.2)
noncomputable def BdotN (B : V3) (target : ℝ) (n : V3) : ℝ :=
  let Nx := n.1 / normN n
  let Ny := n.2.1 / normN n
  let Nz := n.2.2 / normN n
  (B.1 * Nx + B.2.1 * Ny + B.2.2 * Nz) - target

/-- `mod_B_squared` (L81-85). -/
def modSq (B : V3) : ℝ := B.1 * B.1 + B.2.1 * B.2.1 + B.2.2 * B.2.2

/-- What one iteration adds to `numerator_sum` (L87-97), given the value of `mod_B_squared` it reads. -/
noncomputable def numTerm (d : Definition) (B : V3) (target : ℝ) (n : V3) (mod : ℝ) : ℝ :=
  match d with
  | .quadraticFlux => BdotN B target n * BdotN B target n * normN n
  | .normalized => BdotN B target n * BdotN B target n * normN n
  | .localDef => BdotN B target n * BdotN B target n / mod * normN n

/-- What one iteration adds to `denominator_sum` (L91). -/
noncomputable def denTerm (d : Definition) (n : V3) (mod : ℝ) : ℝ :=
  match d with
  | .normalized => mod * normN n
  | _ => 0

/-- The last lines (L101-108). -/
noncomputable def finish (d : Definition) (N : Nat) (num den : ℝ) : ℝ :=
  match d with
  | .normalized => 0.5 * num / den
  | _ => 0.5 * num / N

/-- `integral_BdotN` executed by one thread. -/
noncomputable def integral {N : Nat} (d : Definition) (B : Fin N → V3) (target : Fin N → ℝ) (n : Fin N → V3) : ℝ :=
  finish d N (∑ i, numTerm d (B i) (target i) (n i) (modSq (B i))) (∑ i, denTerm d (n i) (modSq (B i)))

/-! ### Execution by several threads

`#pragma omp parallel for reduction(+:numerator_sum, denominator_sum)` (L61): the two sums are private and added at the end; `mod_B_squared` is
declared outside of the loop (L59) and is therefore shared.  One iteration writes it (L81-85) and later reads it (L87-97). -/

/-- The steps of iteration `i` as seen by the other threads. -/
inductive Step (N : Nat) where
  | write (i : Fin N)
  | accumulate (i : Fin N)
  deriving DecidableEq

/-- The shared variable, and the sum of all private sums (they are added in the end). -/
structure Sums where
  mod : ℝ
  num : ℝ
  den : ℝ

/-- One step. -/
noncomputable def step {N : Nat} (d : Definition) (B : Fin N → V3) (target : Fin N → ℝ) (n : Fin N → V3) (s : Sums) : Step N → Sums
  | .write i => { s with mod := if d = .quadraticFlux then s.mod else modSq (B i) }
  | .accumulate i => { s with num := s.num + numTerm d (B i) (target i) (n i) s.mod, den := s.den + denTerm d (n i) s.mod }

/-- The program of a thread that is given the iterations `is`. -/
def program {N : Nat} (is : List (Fin N)) : List (Step N) := is.flatMap fun i => [.write i, .accumulate i]

/-- The result for one interleaving of the steps; `mod0` is the uninitialised value. -/
noncomputable def runSchedule {N : Nat} (d : Definition) (B : Fin N → V3) (target : Fin N → ℝ) (n : Fin N → V3) (mod0 : ℝ) (l : List (Step N)) : ℝ :=
  let s := l.foldl (step d B target n) ⟨mod0, 0, 0⟩
  finish d N s.num s.den

/-- `l` is an interleaving of the lists `ps`. -/
inductive Interleaving {α : Type} : List (List α) → List α → Prop where
  | nil (ps : List (List α)) (h : ∀ p ∈ ps, p = []) : Interleaving ps []
  | cons (before : List (List α)) (a : α) (p : List α) (after : List (List α)) (l : List α) (h : Interleaving (before ++ p :: after) l) :
      Interleaving (before ++ (a :: p) :: after) (a :: l)

/-- A schedule of the parallel loop: the iterations are dealt out to threads in any way (each to exactly one thread), and the steps of the threads
are interleaved in any way. -/
def Schedule {N : Nat} (chunks : List (List (Fin N))) (l : List (Step N)) : Prop :=
  chunks.flatten.Perm (List.finRange N) ∧ Interleaving (chunks.map program) l

/-! ### The gradient -/

section
variable {N : Nat}

/-- `absn`, `unitn`, `B_n` (fluxobjective.py L80-87). -/
noncomputable def absn (n : Fin N → V3) (i : Fin N) : ℝ := Geometry.norm (n i)
noncomputable def unitn (n : Fin N → V3) (i : Fin N) : V3 := (1 / absn n i) • n i
noncomputable def Bn (B : Fin N → V3) (target : Fin N → ℝ) (n : Fin N → V3) (i : Fin N) : ℝ := inner (B i) (unitn n i) - target i

/-- `dJdB` (L89-112). -/
noncomputable def dJdB (d : Definition) (B : Fin N → V3) (target : Fin N → ℝ) (n : Fin N → V3) (i : Fin N) : V3 :=
  match d with
  | .quadraticFlux => (1 / N : ℝ) • (absn n i • (Bn B target n i • unitn n i))
  | .localDef =>
    let modB := Geometry.norm (B i)
    (1 / N : ℝ) • (absn n i • ((Bn B target n i / modB) • ((1 / modB) • unitn n i - (Bn B target n i / modB ^ 3) • B i)))
  | .normalized =>
    let num := mean fun i => Bn B target n i ^ 2 * absn n i
    let denom := mean fun i => Geometry.norm (B i) ^ 2 * absn n i
    let dnum := (2 / N : ℝ) • (absn n i • (Bn B target n i • unitn n i))
    let ddenom := (2 / N : ℝ) • (absn n i • B i)
    (0.5 : ℝ) • ((1 / denom) • dnum - (num / denom ^ 2) • ddenom)

end

/-! ### The object -/

/-- A field with its evaluation points (`set_points`, magneticfield.h L192-200) and the objects that use it. -/
structure World where
  /-- the points of the field: `xyz.reshape((-1, 3))` -/
  points : List V3
  /-- the dofs of the coils, as the field they make -/
  field : V3 → V3

/-- A surface: the flattened arrays `gamma()` and `normal()`, with one row each per quadrature point. -/
structure Surf where
  rows : List (V3 × V3)

/-- A `SquaredFlux` object: its surface, target and definition. -/
structure Obj where
  surface : Surf
  target : List ℝ
  definition : Definition

/-- `__init__` (fluxobjective.py L55-67): the points of the field are set. -/
def World.construct (w : World) (s : Surf) (target : Option (List ℝ)) (d : Definition) : World × Obj :=
  ({ w with points := s.rows.map Prod.fst }, ⟨s, target.getD (s.rows.map fun _ => 0), d⟩)

/-- `field.set_points(xyz)` by the user or another objective. -/
def World.setPoints (w : World) (xyz : List V3) : World := { w with points := xyz }

/-- New dofs of the coils. -/
def World.setDofs (w : World) (f : V3 → V3) : World := { w with field := f }

/-- `J()` (L69-72) for arrays of a common length: `self.field.B().reshape(n.shape)` raises (`none`) unless the numbers of points agree. -/
noncomputable def J (w : World) (o : Obj) : Option ℝ :=
  if w.points.length = o.surface.rows.length ∧ o.target.length = o.surface.rows.length then
    some (integral (N := o.surface.rows.length) o.definition (fun i => w.field (w.points.getD i 0)) (fun i => o.target.getD i 0)
      fun i => (o.surface.rows.getD i (0, 0)).2)
  else none

end Simsopt.Flux
