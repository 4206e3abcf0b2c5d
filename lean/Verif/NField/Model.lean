import Verif.NField.Transform
/-!
# NormalField: model

Model of src/simsopt/field/normal_field.py L22-516 (class NormalField, without the SPEC file readers).

Simplifications: real numbers instead of doubles; `none` stands for a Python exception (ValueError or IndexError); of the Optimizable machinery only the vector `local_full_x` is kept
(which dofs are fixed plays no role in these methods); the arrays are stored by value, so a caller's later changes to an array that he passed are not modelled.
-/
namespace Simsopt.NField
open Simsopt Simsopt.RZSurf

/-- A numpy 2D array: shape and entries. -/
structure Mat where
  rows : Nat
  cols : Nat
  a : Nat → Nat → ℝ

/-- Python's index rule for an axis of length `len`: negative indices count from the end; `none` is an IndexError. -/
def pyIdx (len : Nat) (i : Int) : Option Nat :=
  if 0 ≤ i ∧ i < len then some i.toNat else if -(len : Int) ≤ i ∧ i < 0 then some (i + len).toNat else none

/-- `A[i, j]`. -/
def Mat.get (A : Mat) (i j : Int) : Option ℝ := do
  let i ← pyIdx A.rows i
  let j ← pyIdx A.cols j
  return A.a i j

/-- `A[i, j] = v`. -/
def Mat.set (A : Mat) (i j : Int) (v : ℝ) : Option Mat := do
  let i ← pyIdx A.rows i
  let j ← pyIdx A.cols j
  return { A with a := fun i' j' => if i' = i ∧ j' = j then v else A.a i' j' }

/-- `A[0:r, lo:hi]` for nonnegative bounds: clipped to the shape. -/
def Mat.slice (A : Mat) (r lo hi : Nat) : Mat := ⟨min r A.rows, min hi A.cols - lo, fun i j => A.a i (lo + j)⟩

/-- `np.zeros((r, c))`. -/
noncomputable def Mat.zeros (r c : Nat) : Mat := ⟨r, c, fun _ _ => 0⟩

/-- The attributes (L49-81): `_vns`, `_vnc`, and `x` for `local_full_x`. -/
structure NF where
  nfp : Nat
  stellsym : Bool
  mpol : Nat
  ntor : Nat
  vns : Mat
  vnc : Option Mat
  x : List ℝ

/-- `ndof` (L68-71, L343-346). -/
def ndof (stellsym : Bool) (mpol ntor : Nat) : Nat :=
  if stellsym then ntor + mpol * (2 * ntor + 1) else 2 * (ntor + mpol * (2 * ntor + 1)) + 1

/-- `get_index_in_array` (L192-216). -/
def indexArray (mpol ntor : Nat) (m n : Int) : Option (Int × Int) :=
  if m < 0 ∨ m > mpol then none else if |n| > ntor then none else if m = 0 ∧ n < 0 then none
  else some (m, n + ntor)

/-- `get_index_in_dofs` (L219-258). -/
def indexDofs (mpol ntor : Nat) (m n : Int) (even : Bool) : Option Int :=
  if m < 0 ∨ m > mpol then none else if |n| > ntor then none else if m = 0 ∧ n < 0 then none
  else if !even && decide (m = 0 ∧ n = 0) then none
  else
    let ii := if m = 0 then n else m * (2 * ntor + 1) + n
    let nvns : Int := ntor + mpol * (ntor * 2 + 1)
    if !even then some (ii - 1) else some (ii + nvns)

/-- `check_mn` (L288-294): does not raise. -/
def checkMn (mpol ntor : Nat) (m n : Int) : Bool := !(decide (m < 0 ∨ m > mpol) || decide (n < -(ntor : Int) ∨ n > ntor) || decide (m = 0 ∧ n < 0))

/-- The assignments `dofs[ii] = value`, one after the other, starting from `np.zeros((ndof,))`; computing an index or a value may raise. -/
def writes (d : List ℝ) (l : List (Option Int × Option ℝ)) : Option (List ℝ) :=
  l.foldlM (fun d iv => do
    let i ← iv.1
    let v ← iv.2
    let k ← pyIdx d.length i
    return d.set k v) d

/-- `get_dofs` (L166-190): the loops as the sequence of their assignments. -/
noncomputable def getDofs (s : NF) : Option (List ℝ) :=
  let inputMpol : Int := (s.vns.rows : Int) - 1
  let inputNtor : Int := ((s.vns.cols - 1) / 2 : Nat)
  writes (List.replicate (ndof s.stellsym s.mpol s.ntor) 0) <|
    (List.range (s.mpol + 1)).flatMap fun (mm : Nat) => (intRange (-s.ntor) (s.ntor + 1)).flatMap fun nn =>
      if mm = 0 ∧ nn < 0 then [] else if (mm : Int) > inputMpol then [] else if nn > inputNtor then []
      else
        (if !(decide (mm = 0 ∧ nn = 0)) then [(indexDofs s.mpol s.ntor mm nn false, s.vns.get mm (inputNtor + nn))] else []) ++
        (if !s.stellsym then [(indexDofs s.mpol s.ntor mm nn true, do (← s.vnc).get mm (inputNtor + nn))] else [])

/-- The constructor (L49-81). -/
noncomputable def construct (nfp : Nat) (stellsym : Bool) (mpol ntor : Nat) (vns vnc : Option Mat) : Option NF := do
  let vns := vns.getD (Mat.zeros (mpol + 1) (2 * ntor + 1))
  let vnc := if !stellsym && vnc.isNone then some (Mat.zeros (mpol + 1) (2 * ntor + 1)) else vnc
  let s : NF := ⟨nfp, stellsym, mpol, ntor, vns, vnc, []⟩
  let dofs ← getDofs s
  return { s with x := dofs }

/-- `get_vns` (L260-263). -/
def getVns (s : NF) (m n : Int) : Option ℝ := do
  guard (checkMn s.mpol s.ntor m n)
  let ii ← indexDofs s.mpol s.ntor m n false
  let k ← pyIdx s.x.length ii
  s.x[k]?

/-- `set_vns` (L265-270). -/
noncomputable def setVns (s : NF) (m n : Int) (v : ℝ) : Option NF := do
  guard (checkMn s.mpol s.ntor m n)
  let ij ← indexArray s.mpol s.ntor m n
  let s := { s with vns := ← s.vns.set ij.1 ij.2 v }
  return { s with x := ← getDofs s }

/-- `get_vnc` (L272-278). -/
def getVnc (s : NF) (m n : Int) : Option ℝ := do
  guard (checkMn s.mpol s.ntor m n)
  let ii ← indexDofs s.mpol s.ntor m n true
  if s.stellsym then return 0
  let k ← pyIdx s.x.length ii
  s.x[k]?

/-- `set_vnc` (L280-288). -/
noncomputable def setVnc (s : NF) (m n : Int) (v : ℝ) : Option NF := do
  guard (checkMn s.mpol s.ntor m n)
  let ij ← indexArray s.mpol s.ntor m n
  guard (!s.stellsym)
  let s := { s with vnc := some (← (← s.vnc).set ij.1 ij.2 v) }
  return { s with x := ← getDofs s }

/-- Setting the dof vector (`local_full_x = d`, or `x = ...`): NormalField has no callback that would update the arrays. -/
def setX (s : NF) (d : List ℝ) : NF := { s with x := d }

/-- `_make_names_helper` (L309-334): names as (`True` for vnc, m, n); sorted by index with `np.argsort` (the indices are distinct, so the sort is determined). -/
def namesHelper (s : NF) (even : Bool) : Option (List (Bool × Int × Int)) := do
  let l := (List.range (s.mpol + 1)).flatMap fun (mm : Nat) => (intRange (-s.ntor) (s.ntor + 1)).flatMap fun nn =>
    if mm = 0 ∧ nn < 0 then [] else if !even ∧ mm = 0 ∧ nn = 0 then [] else [((even, (mm : Int), nn) : Bool × Int × Int)]
  let l ← l.mapM fun nm => do return (← indexDofs s.mpol s.ntor nm.2.1 nm.2.2 even, nm)
  return (l.mergeSort fun a b => decide (a.1 ≤ b.1)).map Prod.snd

/-- `_make_names` (L296-307). -/
def makeNames (s : NF) : Option (List (Bool × Int × Int)) := do
  if s.stellsym then namesHelper s false
  else return (← namesHelper s false) ++ (← namesHelper s true)

/-- `change_resolution` (L336-373). -/
def changeResolution (s : NF) (mpol ntor : Nat) : Option NF := do
  let minMpol := min mpol s.mpol
  let minNtor := min ntor s.ntor
  let dofs ← writes (List.replicate (ndof s.stellsym mpol ntor) 0) <|
    (List.range (minMpol + 1)).flatMap fun (m : Nat) => (intRange (-minNtor) (minNtor + 1)).flatMap fun n =>
      if m = 0 ∧ n < 0 then [] else
        (if m > 0 ∨ n > 0 then [(indexDofs mpol ntor m n false, getVns s m n)] else []) ++
        (if !s.stellsym then [(indexDofs mpol ntor m n true, getVnc s m n)] else [])
  return { s with mpol := mpol, ntor := ntor, x := dofs }

/-- The checks of the arguments `mpol`, `ntor` of the array getters and setters (e.g. L404-412). -/
def resArgs (s : NF) (mpol ntor : Option Nat) : Option (Nat × Nat) :=
  let mp := mpol.getD s.mpol
  let nt := ntor.getD s.ntor
  if mp > s.mpol then none else if nt > s.ntor then none else some (mp, nt)

/-- `get_vns_asarray` (L400-416). -/
def getVnsAsarray (s : NF) (mpol ntor : Option Nat) : Option Mat := do
  let mn ← resArgs s mpol ntor
  return s.vns.slice mn.1 (s.ntor - mn.2) (s.ntor + mn.2 + 1)

/-- `get_vnc_asarray` (L418-436). -/
noncomputable def getVncAsarray (s : NF) (mpol ntor : Option Nat) : Option Mat := do
  let mn ← resArgs s mpol ntor
  let vnc := s.vnc.getD (Mat.zeros mn.1 (2 * mn.2 + 1))
  return vnc.slice mn.1 (s.ntor - mn.2) (s.ntor + mn.2 + 1)

/-- `set_vns_asarray` (L455-471). -/
noncomputable def setVnsAsarray (s : NF) (vns : Mat) (mpol ntor : Option Nat) : Option NF := do
  let mn ← resArgs s mpol ntor
  let s := { s with vns := vns.slice mn.1 (s.ntor - mn.2) (s.ntor + mn.2 + 1) }
  return { s with x := ← getDofs s }

/-- `set_vnc_asarray` (L473-489). -/
noncomputable def setVncAsarray (s : NF) (vnc : Mat) (mpol ntor : Option Nat) : Option NF := do
  let mn ← resArgs s mpol ntor
  let s := { s with vnc := some (vnc.slice mn.1 (s.ntor - mn.2) (s.ntor + mn.2 + 1)) }
  return { s with x := ← getDofs s }

/-- `get_real_space_field` (L507-516) at the grid point `(k, j)` of the surface, whose `normal()` has length `norm` there: `-IFT(vns, vnc) / |n|` with
`normalization=(2π)²`.  For an array without rows the inverse transform has no modes, and its `A_mnc[0, ntor]` is an IndexError. -/
noncomputable def realSpace (s : NF) (g : Grid) (norm : Nat → Nat → ℝ) (k j : Nat) : Option ℝ := do
  let vns ← getVnsAsarray s none none
  let vnc ← getVncAsarray s none none
  let nt := (vns.cols - 1) / 2
  let f ← if vns.rows = 0 then (if s.stellsym then some 0 else none)
    else some (g.inverse (vns.rows - 1) nt s.stellsym (some ((2 * Real.pi) ^ 2)) (fun i => vns.a i.1 i.2) (fun i => vnc.a i.1 i.2) k j)
  return -1 * f / norm k j

end Simsopt.NField
