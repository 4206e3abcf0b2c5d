import Verif.Coils.Model
/-!
# Model of the MAKEGRID filament files

`coils_to_makegrid`, `load_coils_from_makegrid_file` (simsopt/field/coil.py) and
`CurveXYZFourier.load_curves_from_makegrid_file` (simsopt/geo/curvexyzfourier.py).  A line of the file is modelled by the list of its
whitespace-separated tokens (`line.split()`).  `fmt` is `"{:23.15E}".format`, `parse` is `float`.
-/
namespace Simsopt.Makegrid
open Simsopt Simsopt.Coils

abbrev Line := List String

/-- A coil as the writer sees it: `curve.gamma()`, `current.get_value()`, and the tokens of `groups[icoil]` and `curve.name`
    (one token each unless they contain blanks). -/
structure Filament (R : Type) where
  pts : List (R × R × R)
  cur : R
  group : Line
  name : Line

/-- One line of a filament (coil.py L274-279). -/
def pointLine {R : Type} (fmt : R → String) (cur : R) (p : R × R × R) : Line := [fmt p.1, fmt p.2.1, fmt p.2.2, fmt cur]

/-- The lines of one filament, the last of which repeats the first point with current 0 (coil.py L270-284); `x[0]` raises `IndexError` if
    there is no point. -/
def filamentLines {R : Type} [Zero R] (fmt : R → String) (c : Filament R) : Except Err (List Line) :=
  match c.pts with
  | [] => .error .indexError
  | p :: _ => .ok (c.pts.map (pointLine fmt c.cur) ++ [[fmt p.1, fmt p.2.1, fmt p.2.2, fmt 0] ++ c.group ++ c.name])

/-- The loop over coils (coil.py L269). -/
def filamentsLines {R : Type} [Zero R] (fmt : R → String) : List (Filament R) → Except Err (List Line)
  | [] => .ok []
  | c :: cs => do let a ← filamentLines fmt c; let b ← filamentsLines fmt cs; .ok (a ++ b)

/-- `coils_to_makegrid` (coil.py L264-286) after the coils have been expanded by `coils_via_symmetries`: the whole file. -/
def write {R : Type} [Zero R] (fmt : R → String) (nfp : Nat) (cs : List (Filament R)) : Except Err (List Line) := do
  let body ← filamentsLines fmt cs
  .ok ([["periods", toString nfp], ["begin", "filament"], ["mirror", "NIL"]] ++ body ++ [["end"]])

/-- The test on `vals[5]` (coil.py L223-227, curvexyzfourier.py L136-141): is the coil kept? -/
def keep (groupNames : Option (List String)) (vals : Line) : Except Err Bool :=
  match groupNames with
  | none => .ok true
  | some gs => match vals[5]? with
    | none => .error .indexError
    | some g => .ok (gs.contains g)

/-- The loop over the lines that collects the currents (coil.py L211-228): `flag` says that the next line starts a filament. -/
def readCurrents {R : Type} (parse : String → Except Err R) (gs : Option (List String)) :
    List Line → Bool → R → List R → Except Err (List R)
  | [], _, _, acc => .ok acc
  | vals :: rest, flag, curr, acc => do
    let curr ← if flag then (match vals[3]? with | none => .error .indexError | some t => parse t) else pure curr
    if vals.length > 4 then
      let k ← keep gs vals
      readCurrents parse gs rest true curr (if k then acc ++ [curr] else acc)
    else readCurrents parse gs rest false curr acc

/-- `[float(val) for val in vals[:3]]`. -/
def parsePoint {R : Type} (parse : String → Except Err R) (vals : Line) : Except Err (R × R × R) :=
  match vals with
  | a :: b :: c :: _ => do let x ← parse a; let y ← parse b; let z ← parse c; .ok (x, y, z)
  | _ => .error .indexError

/-- The loop over the lines that collects the points (curvexyzfourier.py L126-148). -/
def readPoints {R : Type} (parse : String → Except Err R) (gs : Option (List String)) :
    List Line → List (R × R × R) → List (List (R × R × R)) → Except Err (List (List (R × R × R)))
  | [], _, acc => .ok acc
  | vals :: rest, single, acc =>
    if vals.length = 4 then do
      let p ← parsePoint parse vals
      readPoints parse gs rest (single ++ [p]) acc
    else if vals.length = 6 then do
      let k ← keep gs vals
      readPoints parse gs rest [] (if k then acc ++ [single] else acc)
    else if vals.length = 1 then .ok acc
    else .error .runtimeError

/-- `currents` of `load_coils_from_makegrid_file` (coil.py L208-228): the first three lines and the last one are skipped; `curr` is unbound
    before the first line, which always sets it. -/
def loadCurrents {R : Type} [Zero R] (parse : String → Except Err R) (gs : Option (List String)) (file : List Line) :
    Except Err (List R) :=
  readCurrents parse gs (file.drop 3).dropLast true 0 []

/-- `curve_data` of `load_curves_from_makegrid_file` (curvexyzfourier.py L123-148). -/
def loadPoints {R : Type} (parse : String → Except Err R) (gs : Option (List String)) (file : List Line) :
    Except Err (List (List (R × R × R))) :=
  readPoints parse gs (file.drop 3) [] []

/-! ### Fourier fit -/

/-- `rfft(x)[k].real / len(x)` and `rfft(x)[k].imag / len(x)` (scipy.fft; curvexyzfourier.py L161). -/
noncomputable def rfftRe (x : List ℝ) (k : Nat) : ℝ :=
  (∑ n ∈ Finset.range x.length, (x[n]?.getD 0) * Real.cos (2 * Real.pi * k * n / x.length)) / x.length
noncomputable def rfftIm (x : List ℝ) (k : Nat) : ℝ :=
  -(∑ n ∈ Finset.range x.length, (x[n]?.getD 0) * Real.sin (2 * Real.pi * k * n / x.length)) / x.length

/-- `combined_fft` of one coordinate (curvexyzfourier.py L160-168); the slices of `xf`, which has `len(x)//2 + 1` entries, are not clipped
    because of the assertion. -/
noncomputable def combined (order : Nat) (x : List ℝ) : Except Err (List ℝ) :=
  if x.length < 2 * order then .error .assertionError
  else .ok (((List.range (order + 1)).map fun k => -2 * rfftIm x k) ++ [rfftRe x 0]
    ++ (List.range order).map fun k => 2 * rfftRe x (k + 1))

/-- The flat `coil_data` of one curve (L156-171): the three coordinates one after the other. -/
noncomputable def curveRow (order : Nat) (pts : List (ℝ × ℝ × ℝ)) : Except Err (List ℝ) :=
  if pts = [] then .error .valueError else do
  let x ← combined order (pts.map fun p => p.1)
  let y ← combined order (pts.map fun p => p.2.1)
  let z ← combined order (pts.map fun p => p.2.2)
  .ok (x ++ y ++ z)

/-- All curves one after the other (`np.asarray(coil_data)`, L173). -/
noncomputable def allRows (order : Nat) : List (List (ℝ × ℝ × ℝ)) → Except Err (List ℝ)
  | [] => .ok []
  | c :: cs => do let a ← curveRow order c; let b ← allRows order cs; .ok (a ++ b)

/-- `coil_data[i, j]` after the reshape to `(6*len(curve_data), order + 1)` and the transposition (L174-175). -/
noncomputable def entry (order : Nat) (flat : List ℝ) (i j : Nat) : ℝ := flat[j * (order + 1) + i]?.getD 0

/-- One row of `dofs_matrix` (L183-192): `c` is the column of the sine coefficients. -/
noncomputable def dofsRow (order : Nat) (flat : List ℝ) (c : Nat) : List ℝ :=
  entry order flat 0 (c + 1) ::
    (List.range order).flatMap fun io => [entry order flat (io + 1) c, entry order flat (io + 1) (c + 1)]

/-- `local_x` of the loaded curve number `ic` (L181-193). -/
noncomputable def loadedDofs (order : Nat) (flat : List ℝ) (ic : Nat) : List ℝ :=
  dofsRow order flat (6 * ic) ++ dofsRow order flat (6 * ic + 2) ++ dofsRow order flat (6 * ic + 4)

/-- The Fourier part of `load_curves_from_makegrid_file`: the dofs of every curve. -/
noncomputable def fit (order : Nat) (curveData : List (List (ℝ × ℝ × ℝ))) : Except Err (List (List ℝ)) := do
  let flat ← allRows order curveData
  .ok ((List.range curveData.length).map (loadedDofs order flat))

/-- `load_coils_from_makegrid_file(filename, order, group_names=gs)` (coil.py L191-233): the dofs and the current of every coil.
    `currents[i]` raises `IndexError` if there are fewer currents than curves. -/
noncomputable def load (parse : String → Except Err ℝ) (gs : Option (List String)) (order : Nat) (file : List Line) :
    Except Err (List (List ℝ × ℝ)) := do
  let currents ← loadCurrents parse gs file
  let pts ← loadPoints parse gs file
  let curves ← fit order pts
  if curves.length > currents.length then .error .indexError else .ok (curves.zip currents)

/-- One coordinate of `gamma()` of a `CurveXYZFourier` of order `order` at `t` (curvexyzfourier.cpp L4-17): `d` is the row of the dofs. -/
noncomputable def fourier (order : Nat) (d : List ℝ) (t : ℝ) : ℝ :=
  d[0]?.getD 0 + ∑ j ∈ Finset.Icc 1 order,
    (d[2 * j - 1]?.getD 0 * Real.sin (2 * Real.pi * j * t) + d[2 * j]?.getD 0 * Real.cos (2 * Real.pi * j * t))

/-- `gamma()` at the `n` quadrature points `k/n` (curvexyzfourier.py L35-36). -/
noncomputable def gamma (order n : Nat) (dx dy dz : List ℝ) : List (ℝ × ℝ × ℝ) :=
  (List.range n).map fun (k : Nat) =>
    (fourier order dx ((k : ℝ) / n), fourier order dy ((k : ℝ) / n), fourier order dz ((k : ℝ) / n))

end Simsopt.Makegrid
