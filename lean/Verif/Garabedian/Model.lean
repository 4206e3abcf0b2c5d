import Verif.PyList
import Verif.Surfaces.RZOps
/-!
# SurfaceGarabedian: model

Model of src/simsopt/geo/surfacegarabedian.py.  Simplifications: real numbers for doubles; the quadrature points are not modelled (the class has no
`gamma`, they are only stored); the dofs object is the list of its values (names, fixing and bounds are covered by C01-C08); `none` stands for a raised exception.
-/
namespace Simsopt.Garab
open Simsopt Simsopt.RZSurf

/-- The attributes (L67-82) and the values of all dofs, `local_full_x`. -/
structure Gar where
  nfp : Nat
  mmin : Int
  mmax : Int
  nmin : Int
  nmax : Int
  x : List ℝ

/-- `self.mdim` (L80). -/
def Gar.mdim (s : Gar) : Nat := (s.mmax - s.mmin + 1).toNat

/-- `self.ndim` (L81). -/
def Gar.ndim (s : Gar) : Nat := (s.nmax - s.nmin + 1).toNat

/-- NumPy subscript, negative values count from the end. -/
def npIx (n : Nat) (i : Int) : Option Nat := (pyIndex n i).toOption

/-- `get_Delta(m, n)` (L121-125): `self.Delta[m - self.mmin, n - self.nmin]` on `local_full_x.reshape(self.shape)` (L111-113). -/
def getDelta (s : Gar) (m n : Int) : Option ℝ := do
  let i ← npIx s.mdim (m - s.mmin)
  let j ← npIx s.ndim (n - s.nmin)
  s.x[i * s.ndim + j]?

/-- `set_Delta(m, n, val)` (L127-132) with `Optimizable.set` (optimizable.py L240-252, L1132-1141). -/
def setDelta (s : Gar) (m n : Int) (v : ℝ) : Option Gar := do
  let i ← npIx s.x.length (s.ndim * (m - s.mmin) + n - s.nmin)
  pure { s with x := s.x.set i v }

/-- `_make_dof_names` (L98-103): the name `Delta(m,n)` is the pair `(m, n)`. -/
def dofNames (s : Gar) : List (Int × Int) :=
  (intRange s.mmin (s.mmax + 1)).flatMap fun m => (intRange s.nmin (s.nmax + 1)).map fun n => (m, n)

/-- The constructor (L57-96) with the validations of `nmin`, `nmax`, `mmin`, `mmax` (L51-52, L62-65); `dofs` are the values of the argument `dofs`.
The last two statements are executed in both cases. -/
noncomputable def construct (nfp : Nat) (mmax mmin nmax : Int) (nmin : Option Int) (dofs : Option (List ℝ)) : Option Gar :=
  let nmin := nmin.getD (-nmax)
  if mmax < mmin ∨ nmax < nmin ∨ 0 < mmin ∨ mmax < 1 then none
  else
    let s : Gar := ⟨nfp, mmin, mmax, nmin, nmax, []⟩
    let s := { s with x := match dofs with | none => List.replicate (s.mdim * s.ndim) 0 | some d => d }
    do
      let s ← setDelta s 1 0 1.0
      setDelta s 0 0 0.1

/-- `get_dofs` (L134-138) has no return statement, so `set_dofs` (L140-152) computes `None - np.array(x)` and raises `TypeError`. -/
def setDofs (_s : Gar) (_x : List ℝ) : Option Gar := none

/-- `range(nmin, ntor + 1)` of L187-190 for all `m`: the modes of the loop. -/
def loopModes (mpol ntor : Nat) : List (Int × Int) :=
  (List.range (mpol + 1)).flatMap fun (m : Nat) => (intRange (if m = 0 then 1 else -(ntor : Int)) (ntor + 1)).map fun n => ((m : Int), n)

/-- L191-192, L193-194: the coefficient `Delta1` of a mode. -/
def delta1 (s : Gar) (m n : Int) : Option ℝ := if 1 - m ≥ s.mmin ∧ -n ≥ s.nmin ∧ -n ≤ s.nmax then getDelta s (1 - m) (-n) else some 0

/-- L192, L195-196: the coefficient `Delta2` of a mode. -/
def delta2 (s : Gar) (m n : Int) : Option ℝ := if 1 + m ≤ s.mmax ∧ n ≥ s.nmin ∧ n ≤ s.nmax then getDelta s (1 + m) n else some 0

/-- One pass of the loop (L191-198). -/
def toStep (s : Gar) (r : Surf) (mn : Int × Int) : Option Surf := do
  let d1 ← delta1 s mn.1 mn.2
  let d2 ← delta2 s mn.1 mn.2
  let r ← setCoef r .rc mn.1 mn.2 (d1 + d2)
  setCoef r .zs mn.1 mn.2 (d1 - d2)

/-- `mpol` (L182). -/
def rzMpol (s : Gar) : Nat := (max 1 (max (s.mmax - 1) (1 - s.mmin))).toNat

/-- `ntor` (L183). -/
def rzNtor (s : Gar) : Nat := (max s.nmax (-s.nmin)).toNat

/-- `to_RZFourier` (L175-200). -/
noncomputable def toRZ (s : Gar) : Option Surf := do
  let r ← RZSurf.construct (rzMpol s) (rzNtor s) s.nfp true
  let d ← getDelta s 1 0
  let r ← setCoef r .rc 0 0 d
  (loopModes (rzMpol s) (rzNtor s)).foldlM (toStep s) r

/-- L221-223: half the difference, for `m - 1 >= 0`. -/
noncomputable def fromA (r : Surf) (m n : Int) : Option ℝ :=
  if m - 1 ≥ 0 then do
    let a ← getCoef r .rc (m - 1) n
    let b ← getCoef r .zs (m - 1) n
    pure (0.5 * (a - b))
  else some 0

/-- L224-225: half the sum, for `1 - m >= 0`. -/
noncomputable def fromB (r : Surf) (m n : Int) : Option ℝ :=
  if 1 - m ≥ 0 then do
    let a ← getCoef r .rc (1 - m) (-n)
    let b ← getCoef r .zs (1 - m) (-n)
    pure (0.5 * (a + b))
  else some 0

/-- One pass of the loop (L221-226). -/
noncomputable def fromStep (r : Surf) (s : Gar) (mn : Int × Int) : Option Gar := do
  let a ← fromA r mn.1 mn.2
  let b ← fromB r mn.1 mn.2
  setDelta s mn.1 mn.2 (a + b)

/-- The modes of the loops L219-220. -/
def fromModes (mmin mmax nmin nmax : Int) : List (Int × Int) :=
  (intRange nmin (nmax + 1)).flatMap fun n => (intRange mmin (mmax + 1)).map fun m => (m, n)

/-- `from_RZFourier` (L203-228). -/
noncomputable def fromRZ (r : Surf) : Option Gar :=
  if r.stellsym = false then none
  else
    let mmax : Int := r.mpol + 1
    let mmin : Int := min 0 (1 - r.mpol)
    do
      let s ← construct r.nfp mmax mmin r.ntor (some (-r.ntor)) none
      (fromModes mmin mmax (-r.ntor) r.ntor).foldlM (fromStep r) s

/-! ### Area and volume -/

/-- The object with `new_x` (optimizable.py L1113) and the attributes `_area`, `_volume`. -/
structure Obj where
  s : Gar
  newX : Bool
  kept : Option (ℝ × ℝ)

/-- A call that changes or reads the object: `set_Delta`, `local_full_x = x` (L1104-1110; also `Delta = ...`, L115-118), `area()`, `volume()`, and an assignment
`s.Delta[i, j] = v` to the array returned by the property `Delta`, which is a view of the dofs (optimizable.py L334). -/
inductive Op
  | setDelta (m n : Int) (v : ℝ)
  | setX (x : List ℝ)
  | area
  | volume
  | write (i : Nat) (v : ℝ)

/-- `area_volume` (L230-246); `A`, `V` are `area()` and `volume()` of `SurfaceRZFourier`.  `new_x` is cleared before the conversion is attempted. -/
noncomputable def areaVolume (A V : Surf → ℝ) (o : Obj) : Obj :=
  if o.newX then
    match toRZ o.s with
    | some r => ⟨o.s, false, some (A r, V r)⟩
    | none => ⟨o.s, false, o.kept⟩
  else o

/-- The effect of a call on the object. -/
noncomputable def step (A V : Surf → ℝ) (o : Obj) : Op → Obj
  | .setDelta m n v => match setDelta o.s m n v with | some s => ⟨s, true, o.kept⟩ | none => o
  | .setX x => if x.length = o.s.x.length then ⟨{ o.s with x := x }, true, o.kept⟩ else o
  | .area => areaVolume A V o
  | .volume => areaVolume A V o
  | .write i v => { o with s := { o.s with x := o.s.x.set i v } }

/-- `area()` (L248-253) of the object, `volume()` (L255-260); `none`: the attribute does not exist. -/
noncomputable def area (A V : Surf → ℝ) (o : Obj) : Option ℝ := (areaVolume A V o).kept.map Prod.fst
noncomputable def volume (A V : Surf → ℝ) (o : Obj) : Option ℝ := (areaVolume A V o).kept.map Prod.snd

/-- A new object: the constructor has called `set_Delta`, so `new_x` is set. -/
def fresh (s : Gar) : Obj := ⟨s, true, none⟩

end Simsopt.Garab
