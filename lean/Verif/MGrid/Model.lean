import Verif.PyList
import Mathlib.Data.Real.Basic
import Mathlib.Algebra.Module.Defs
import Mathlib.Algebra.BigOperators.Group.List.Basic
import Mathlib.Analysis.SpecialFunctions.Trigonometric.Basic
/-!
# MGrid: reading and writing mgrid files, and MagneticField.to_mgrid

Model of src/simsopt/field/mgrid.py L7-330 (without the plots) and of `MagneticField.to_mgrid` (src/simsopt/field/magneticfield.py L95-156).
An array of shape `(nphi, nz, nr)` is an element of a real vector space `Arr` (the shapes are not checked by the code, nor here); `none` in place of an array is an array of NaN (what numpy makes of `None`).
The netCDF file is the record of its dimensions and variables.  Real numbers instead of doubles; characters are one byte.
-/
namespace Simsopt.MGrid

abbrev Name := List Char

/-- `_pad_string` (L7-11): centred in 30 characters, blanks replaced by underscores. -/
def padString (s : Name) : Name :=
  let n := 30 - s.length
  let centred := List.replicate (n / 2) ' ' ++ s ++ List.replicate (n - n / 2) ' '
  centred.map fun c => if c = ' ' then '_' else c

/-- `str.strip` (L19), white space is what `Char.isWhitespace` says. -/
def strip (s : Name) : Name := ((s.dropWhile Char.isWhitespace).reverse.dropWhile Char.isWhitespace).reverse

/-- `'magnet_%i' % n` (L114). -/
def defaultName (n : Nat) : Name := "magnet_".toList ++ (toString n).toList

variable {Arr : Type}

/-- The attributes of an `MGrid` (L43-71); `lists` says whether the arrays are Python lists, to which one can append, or numpy arrays. -/
structure Grid (Arr : Type) where
  nr : Nat
  nz : Nat
  nphi : Nat
  nfp : Nat
  rmin : ℝ
  rmax : ℝ
  zmin : ℝ
  zmax : ℝ
  n : Nat := 0
  names : List Name := []
  br : List Arr := []
  bz : List Arr := []
  bp : List Arr := []
  ar : List (Option Arr) := []
  az : List (Option Arr) := []
  ap : List (Option Arr) := []
  lists : Bool := true

/-- `add_field_cylindrical` (L73-118); `none` is the `AttributeError` of a numpy array, which has no `append`. -/
def addField (m : Grid Arr) (br bp bz : Arr) (ar ap az : Option Arr) (name : Option Name) : Option (Grid Arr) :=
  if m.lists = false then none else
  let m := { m with br := m.br ++ [br], bz := m.bz ++ [bz], bp := m.bp ++ [bp] }
  let m := if ar.isSome then { m with ar := m.ar ++ [ar] } else m
  let m := if ap.isSome then { m with az := m.az ++ [az] } else m
  let m := if az.isSome then { m with ap := m.ap ++ [ap] } else m
  let label := match name with | none => padString (defaultName m.n) | some s => padString s
  some { m with names := m.names ++ [label], n := m.n + 1 }

/-- An mgrid file: the scalars, the names, the mode, the currents, and the variables `br_001`, ...; a potential may be absent in a group (outer `none`). -/
structure File (Arr : Type) where
  nr : Nat
  nz : Nat
  nphi : Nat
  nfp : Nat
  nextcur : Nat
  rmin : ℝ
  rmax : ℝ
  zmin : ℝ
  zmax : ℝ
  names : List Name
  mode : Char
  raw : List ℝ
  br : List Arr
  bp : List Arr
  bz : List Arr
  ar : List (Option (Option Arr))
  ap : List (Option (Option Arr))
  az : List (Option (Option Arr))

/-- The variables of one component of the potential (L198-208): one per group, if the list is not empty; the outer `none` is the `IndexError`. -/
def writePot (n : Nat) (l : List (Option Arr)) : Option (List (Option (Option Arr))) :=
  (List.range n).mapM fun j => if l.length > 0 then (l[j]?).map some else some none

/-- `write` (L121-208); `none` is an exception (a list that is too short, or a name of more than 30 characters). -/
def write (m : Grid Arr) : Option (File Arr) := do
  guard (∀ s ∈ m.names, s.length = 30)
  guard (m.names.length = m.n)
  let br ← (List.range m.n).mapM fun j => m.br[j]?
  let bz ← (List.range m.n).mapM fun j => m.bz[j]?
  let bp ← (List.range m.n).mapM fun j => m.bp[j]?
  let ar ← writePot m.n m.ar
  let ap ← writePot m.n m.ap
  let az ← writePot m.n m.az
  some { nr := m.nr, nz := m.nz, nphi := m.nphi, nfp := m.nfp, nextcur := m.n, rmin := m.rmin, rmax := m.rmax, zmin := m.zmin, zmax := m.zmax, names := m.names, mode := 'N', raw := List.replicate m.n 1, br := br, bp := bp, bz := bz, ar := ar, ap := ap, az := az }

variable [AddCommMonoid Arr] [Module ℝ Arr]

/-- The sum of arrays some of which may be NaN. -/
def nanSum (l : List (Option Arr)) : Option Arr := l.foldr (fun a b => match a, b with | some x, some y => some (x + y) | _, _ => none) (some 0)

/-- What `from_file` returns: the object and the sums `mgrid.br`, ... (L312-323); a potential that is in no group is the empty list (`none`). -/
structure Read (Arr : Type) where
  grid : Grid Arr
  br : Arr
  bp : Arr
  bz : Arr
  ar : Option (Option Arr)
  ap : Option (Option Arr)
  az : Option (Option Arr)

/-- Scaling in mode `S` (L251-259). -/
def scaled (f : File Arr) (l : List Arr) : List Arr := if f.mode = 'S' then List.zipWith (fun c a => c • a) f.raw l else l

/-- The arrays of a potential that are in the file (L261-282), scaled in mode `S`. -/
def scaledPot (f : File Arr) (l : List (Option (Option Arr))) : List (Option Arr) :=
  if f.mode = 'S' then (List.zipWith (fun c a => a.map fun x => x.map fun y => c • y) f.raw l).reduceOption else l.reduceOption

/-- The total of a potential (L298-310). -/
def totalPot (n : Nat) (l : List (Option Arr)) : Option (Option Arr) := if n > 1 then (if l.length > 0 then some (nanSum l) else none) else l.head?

/-- `from_file` (L210-329); `none` is an exception (no group: `br_arr[0]`). -/
def fromFile (f : File Arr) : Option (Read Arr) := do
  let br := scaled f f.br
  let bp := scaled f f.bp
  let bz := scaled f f.bz
  let ar := scaledPot f f.ar
  let ap := scaledPot f f.ap
  let az := scaledPot f f.az
  let g : Grid Arr := { nr := f.nr, nz := f.nz, nphi := f.nphi, nfp := 2, rmin := f.rmin, rmax := f.rmax, zmin := f.zmin, zmax := f.zmax, n := f.nextcur, names := f.names.map strip, br := br, bz := bz, bp := bp, ar := ar, az := az, ap := ap, lists := false }
  if f.nextcur > 1 then some ⟨g, br.sum, bp.sum, bz.sum, totalPot f.nextcur ar, totalPot f.nextcur ap, totalPot f.nextcur az⟩
  else do
    let b ← br.head?
    let p ← bp.head?
    let z ← bz.head?
    some ⟨g, b, p, z, totalPot f.nextcur ar, totalPot f.nextcur ap, totalPot f.nextcur az⟩

/-! ### to_mgrid -/

/-- `np.linspace(a, b, n, endpoint=True)`, entry `i`. -/
noncomputable def linspace (a b : ℝ) (n i : Nat) : ℝ := a + i * ((b - a) / ((n - 1 : Nat) : ℝ))

/-- `phis` (magneticfield.py L118): `np.linspace(0, 2π/nfp, nphi, endpoint=False)`. -/
noncomputable def phis (nfp nphi k : Nat) : ℝ := k * (2 * Real.pi / nfp / nphi)

/-- The points `RPhiZ` (L121-126): `meshgrid(phis, zs, rs, indexing='ij')` flattened. -/
noncomputable def rphiz (nr nphi nz nfp : Nat) (rmin rmax zmin zmax : ℝ) : List (ℝ × ℝ × ℝ) :=
  (List.range nphi).flatMap fun k => (List.range nz).flatMap fun j => (List.range nr).map fun i => (linspace rmin rmax nr i, phis nfp nphi k, linspace zmin zmax nz j)

/-- `v.reshape((nphi, nz, nr))[k, j, i]`. -/
def reshape (v : List ℝ) (nz nr k j i : Nat) : Option ℝ := v[(k * nz + j) * nr + i]?

end Simsopt.MGrid
