import Verif.Garabedian.Props
/-!
# SurfaceHenneberg: model

Model of src/simsopt/geo/surfacehenneberg.py.  Simplifications: real numbers for doubles; one quadrature point at a time (the arrays over the quadrature points are
filled elementwise; `meshgrid`, `kron` and the transposes only arrange them); a loop with several accumulators is written as one loop per accumulator;
`none` stands for a raised exception.  Aliasing of `R0nH` and `bn` with the dof vector (L239, L247 keep slices of the array they are given) is not modelled.
-/
namespace Simsopt.Henne
open Simsopt Simsopt.Coils Simsopt.RZSurf

/-- The attributes (L94-97, allocated in L138-155): `rho m i` is `rhomn[m, i]`. -/
structure Hen where
  nfp : Nat
  alphaFac : Int
  mmax : Nat
  nmax : Nat
  R0 : Nat → ℝ
  Z0 : Nat → ℝ
  b : Nat → ℝ
  rho : Nat → Nat → ℝ

/-- `_validate_mn` (L174-187). -/
def validMn (h : Hen) (m n : Int) : Bool :=
  !decide (m < 0) && !decide (m > h.mmax) && !(decide (m = 0) && decide (n < 1)) && !decide (n > h.nmax) && !decide (n < -h.nmax)

/-- `get_rhomn` (L189-194). -/
def getRho (h : Hen) (m n : Int) : Option ℝ := if validMn h m n then some (h.rho m.toNat (n + h.nmax).toNat) else none

/-- `set_rhomn` (L196-202). -/
def setRho (h : Hen) (m n : Int) (v : ℝ) : Option Hen :=
  if validMn h m n then some { h with rho := fun a i => if a = m.toNat ∧ i = (n + h.nmax).toNat then v else h.rho a i } else none

/-- The constructor (L99-132) without `dofs`, after the validations of L94-97. -/
noncomputable def construct (nfp : Nat) (alphaFac : Int) (mmax nmax : Nat) : Option Hen :=
  if 1 ≤ nfp ∧ (alphaFac = -1 ∨ alphaFac = 0 ∨ alphaFac = 1) ∧ 1 ≤ mmax then
    setRho ⟨nfp, alphaFac, mmax, nmax, fun n => if n = 0 then 1 else 0, fun _ => 0, fun n => if n = 0 then 0.1 else 0, fun _ _ => 0⟩ 1 0 0.1
  else none

/-- `alpha = 0.5 * nfp * self.alpha_fac` (L602, L662, L719). -/
noncomputable def alpha (h : Hen) : ℝ := 0.5 * h.nfp * h.alphaFac

/-- A loop `for i in l: acc += f(i)`. -/
noncomputable def loop {ι : Type} (l : List ι) (f : ι → ℝ) : ℝ := l.foldl (fun acc i => acc + f i) 0

/-- The modes of the loops over `rhomn` (L610-614, L674-678, L723-727). -/
def rhoModes (h : Hen) : List (Int × Int) :=
  (List.range (h.mmax + 1)).flatMap fun (m : Nat) => (intRange (if m = 0 then 1 else -(h.nmax : Int)) (h.nmax + 1)).map fun n => ((m : Int), n)

/-- `get_rhomn` inside these loops, where it does not raise. -/
noncomputable def rhoAt (h : Hen) (mn : Int × Int) : ℝ := (getRho h mn.1 mn.2).getD 0

/-! ### Position and derivatives -/

/-- `R0H` (L603-605, L663-667). -/
noncomputable def R0H (h : Hen) (phi : ℝ) : ℝ := loop (List.range (h.nmax + 1)) fun n => h.R0 n * Real.cos (h.nfp * n * phi)
/-- `b` (L606, L668, L720-722). -/
noncomputable def bAt (h : Hen) (phi : ℝ) : ℝ := loop (List.range (h.nmax + 1)) fun n => h.b n * Real.cos (h.nfp * n * phi)
/-- `Z0H` (L607-609). -/
noncomputable def Z0H (h : Hen) (phi : ℝ) : ℝ := loop (List.range' 1 h.nmax) fun n => h.Z0 n * Real.sin (h.nfp * n * phi)
/-- The argument of the cosine (L615, L679, L728). -/
noncomputable def rhoAngle (h : Hen) (phi theta : ℝ) (mn : Int × Int) : ℝ := mn.1 * theta + h.nfp * mn.2 * phi - alpha h * phi
/-- `rho` (L610-616, L682). -/
noncomputable def rhoSum (h : Hen) (phi theta : ℝ) : ℝ := loop (rhoModes h) fun mn => rhoAt h mn * Real.cos (rhoAngle h phi theta mn)
/-- `zeta` (L617, L687). -/
noncomputable def zeta (h : Hen) (phi theta : ℝ) : ℝ := bAt h phi * Real.sin (theta - alpha h * phi)
/-- `R` (L620, L695). -/
noncomputable def Rcyl (h : Hen) (phi theta : ℝ) : ℝ := R0H h phi + rhoSum h phi theta * Real.cos (alpha h * phi) - zeta h phi theta * Real.sin (alpha h * phi)
/-- `Z` (L621). -/
noncomputable def Zcyl (h : Hen) (phi theta : ℝ) : ℝ := Z0H h phi + rhoSum h phi theta * Real.sin (alpha h * phi) + zeta h phi theta * Real.cos (alpha h * phi)

/-- `gamma_lin` (L588-624), `gamma_impl` (L626-640), at one quadrature point. -/
noncomputable def gamma (h : Hen) (p q : ℝ) : V3 :=
  let theta := q * 2 * Real.pi
  let phi := p * 2 * Real.pi
  (Rcyl h phi theta * Real.cos phi, Rcyl h phi theta * Real.sin phi, Zcyl h phi theta)

/-- `d_R0H_d_phi` (L669). -/
noncomputable def dR0H (h : Hen) (phi : ℝ) : ℝ := loop (List.range (h.nmax + 1)) fun n => -(h.R0 n * Real.sin (h.nfp * n * phi) * h.nfp * n)
/-- `d_b_d_phi` (L670). -/
noncomputable def db (h : Hen) (phi : ℝ) : ℝ := loop (List.range (h.nmax + 1)) fun n => -(h.b n * Real.sin (h.nfp * n * phi) * h.nfp * n)
/-- `d_Z0H_d_phi` (L671-673): the term is skipped for `n = 0`. -/
noncomputable def dZ0H (h : Hen) (phi : ℝ) : ℝ := loop (List.range (h.nmax + 1)) fun n => if n > 0 then h.Z0 n * Real.cos (h.nfp * n * phi) * h.nfp * n else 0
/-- `d_rho_d_phi` (L683). -/
noncomputable def dRhoPhi (h : Hen) (phi theta : ℝ) : ℝ :=
  loop (rhoModes h) fun mn => -(rhoAt h mn * Real.sin (rhoAngle h phi theta mn) * (h.nfp * mn.2 - alpha h))
/-- `d_zeta_d_phi` (L691-692). -/
noncomputable def dZetaPhi (h : Hen) (phi theta : ℝ) : ℝ :=
  db h phi * Real.sin (theta - alpha h * phi) + bAt h phi * Real.cos (theta - alpha h * phi) * (-alpha h)

/-- `gammadash1_impl` (L642-704), at one quadrature point. -/
noncomputable def gammadash1 (h : Hen) (p q : ℝ) : V3 :=
  let theta := q * 2 * Real.pi
  let phi := p * 2 * Real.pi
  let sa := Real.sin (alpha h * phi)
  let ca := Real.cos (alpha h * phi)
  let R := Rcyl h phi theta
  let dR := dR0H h phi + dRhoPhi h phi theta * ca + rhoSum h phi theta * (-alpha h * sa) - dZetaPhi h phi theta * sa - zeta h phi theta * (alpha h * ca)
  let dZ := dZ0H h phi + dRhoPhi h phi theta * sa + rhoSum h phi theta * (alpha h * ca) + dZetaPhi h phi theta * ca + zeta h phi theta * (-alpha h * sa)
  (2 * Real.pi * (dR * Real.cos phi - R * Real.sin phi), 2 * Real.pi * (dR * Real.sin phi + R * Real.cos phi), 2 * Real.pi * dZ)

/-- `d_rho_d_theta` (L728-729). -/
noncomputable def dRhoTheta (h : Hen) (phi theta : ℝ) : ℝ := loop (rhoModes h) fun mn => -(rhoAt h mn * mn.1 * Real.sin (rhoAngle h phi theta mn))

/-- `gammadash2_impl` (L706-739), at one quadrature point. -/
noncomputable def gammadash2 (h : Hen) (p q : ℝ) : V3 :=
  let theta := q * 2 * Real.pi
  let phi := p * 2 * Real.pi
  let sa := Real.sin (alpha h * phi)
  let ca := Real.cos (alpha h * phi)
  let dzeta := bAt h phi * Real.cos (theta - alpha h * phi)
  let dR := dRhoTheta h phi theta * ca - dzeta * sa
  let dZ := dRhoTheta h phi theta * sa + dzeta * ca
  (2 * Real.pi * dR * Real.cos phi, 2 * Real.pi * dR * Real.sin phi, 2 * Real.pi * dZ)

/-! ### to_RZFourier -/

/-- `s.set_rc(m, n, s.get_rc(m, n) + x)`. -/
noncomputable def add (k : Kind) (r : Surf) (m n : Int) (x : ℝ) : Option Surf := do
  let v ← RZSurf.getCoef r k m n
  RZSurf.setCoef r k m n (v + x)

/-- One pass of the first loop (L309-323). -/
noncomputable def stepR1 (h : Hen) (r : Surf) (n : Nat) : Option Surf := do
  let r ← add .rc r 0 n (h.R0 n)
  let r ← add .rc r 1 n (0.25 * h.b n)
  let r ← add .rc r 1 (-n) (0.25 * h.b n)
  let r ← add .rc r 1 (n + h.alphaFac) (-(0.25 * h.b n))
  add .rc r 1 (-n + h.alphaFac) (-(0.25 * h.b n))

/-- One pass of the second loop (L325-335). -/
noncomputable def stepR2 (h : Hen) (r : Surf) (mn : Int × Int) : Option Surf := do
  let c ← getRho h mn.1 mn.2
  let r ← add .rc r mn.1 (-mn.2) (0.5 * c)
  let c ← getRho h mn.1 mn.2
  add .rc r mn.1 (-mn.2 + h.alphaFac) (0.5 * c)

/-- One pass of the third loop (L339-353). -/
noncomputable def stepZ1 (h : Hen) (r : Surf) (n : Nat) : Option Surf := do
  let r ← add .zs r 0 n (-h.Z0 n)
  let r ← add .zs r 1 n (0.25 * h.b n)
  let r ← add .zs r 1 (-n) (0.25 * h.b n)
  let r ← add .zs r 1 (n + h.alphaFac) (0.25 * h.b n)
  add .zs r 1 (-n + h.alphaFac) (0.25 * h.b n)

/-- One pass of the fourth loop (L355-365). -/
noncomputable def stepZ2 (h : Hen) (r : Surf) (mn : Int × Int) : Option Surf := do
  let c ← getRho h mn.1 mn.2
  let r ← add .zs r mn.1 (-mn.2) (0.5 * c)
  let c ← getRho h mn.1 mn.2
  add .zs r mn.1 (-mn.2 + h.alphaFac) (-(0.5 * c))

/-- `to_RZFourier` (L295-367). -/
noncomputable def toRZ (h : Hen) : Option Surf := do
  let r ← RZSurf.construct h.mmax (h.nmax + 1) h.nfp true
  let r := { r with rc := fun _ => 0, zs := fun _ => 0 }
  let r ← (List.range (h.nmax + 1)).foldlM (stepR1 h) r
  let r ← (rhoModes h).foldlM (stepR2 h) r
  let r ← (List.range (h.nmax + 1)).foldlM (stepZ1 h) r
  (rhoModes h).foldlM (stepZ2 h) r

/-! ### from_RZFourier

At each grid point in `phi`, `from_RZFourier` (L370-586) finds the minimum and the maximum of the rotated height by a scalar minimiser (L437-442) and interpolates `R` and `Z`
to the grid in the new poloidal angle (L463-501).  These two steps are not modelled: the model takes their results as arguments. -/

/-- The samples `R0_realsp`, `Z0_realsp`, `b_realsp`, `rho_realsp` (L410-413). -/
structure Samples where
  R0 : Nat → ℝ
  Z0 : Nat → ℝ
  b : Nat → ℝ
  rho : Nat → Nat → ℝ

/-- `phi[j]`, `theta[i]` (L405-406). -/
noncomputable def phiGrid (nfp nphi j : Nat) : ℝ := 2 * Real.pi / nfp * (j / nphi)
noncomputable def thetaGrid (ntheta i : Nat) : ℝ := 2 * Real.pi * (i / ntheta)

/-- `np.mean` of a non-empty array. -/
noncomputable def mean (n : Nat) (f : Nat → ℝ) : ℝ := (∑ j ∈ Finset.range n, f j) / n

/-- The samples computed from `R_H[i]`, `Z_H[i]` at `phi[j]` and the extrema `min_for_b`, `max_for_b` (L444-445, L503-512). -/
noncomputable def samples (nfp : Nat) (alphaFac : Int) (ntheta nphi : Nat) (RH ZH : Nat → Nat → ℝ) (lo hi : Nat → ℝ) : Samples :=
  let ca := fun j => Real.cos (0.5 * nfp * alphaFac * phiGrid nfp nphi j)
  let sa := fun j => Real.sin (0.5 * nfp * alphaFac * phiGrid nfp nphi j)
  let Q := fun j => 0.5 * (hi j + lo j)
  let avgR := fun j => mean ntheta fun i => RH i j
  let avgZ := fun j => mean ntheta fun i => ZH i j
  let R0 := fun j => avgR j * ca j * ca j + avgZ j * sa j * ca j - Q j * sa j
  let Z0 := fun j => avgR j * ca j * sa j + avgZ j * sa j * sa j + Q j * ca j
  { R0 := R0
    Z0 := Z0
    b := fun j => 0.5 * (hi j - lo j)
    rho := fun i j => (RH i j - R0 j) * ca j + (ZH i j - Z0 j) * sa j }

/-- L528-532: `2 * np.sum(f * np.cos(n * nfp * phi) / nphi)`, and with the sine. -/
noncomputable def cosCoef (nfp nphi : Nat) (f : Nat → ℝ) (n : Nat) : ℝ := 2 * ∑ j ∈ Finset.range nphi, f j * (Real.cos (n * nfp * phiGrid nfp nphi j) / nphi)
noncomputable def sinCoef (nfp nphi : Nat) (f : Nat → ℝ) (n : Nat) : ℝ := 2 * ∑ j ∈ Finset.range nphi, f j * (Real.sin (n * nfp * phiGrid nfp nphi j) / nphi)

/-- L543-544: `2 * np.sum(rho_realsp * np.cos(angle)) / (ntheta * nphi)`. -/
noncomputable def rhoCoef (nfp ntheta nphi : Nat) (alpha : ℝ) (f : Nat → Nat → ℝ) (m n : Int) : ℝ :=
  2 * (∑ i ∈ Finset.range ntheta, ∑ j ∈ Finset.range nphi, f i j * Real.cos (m * thetaGrid ntheta i + (n * nfp - alpha) * phiGrid nfp nphi j)) / (ntheta * nphi)

/-- The default grid (L399-402): `ntheta = mmax * 3`, `nphi = nmax * 3`. -/
def defaultGrid (mmax nmax : Nat) : Nat × Nat := (mmax * 3, nmax * 3)

/-- The coefficients computed from the samples (L514-518, L526-544). -/
noncomputable def transform (nfp : Nat) (alphaFac : Int) (mmax nmax ntheta nphi : Nat) (d : Samples) : Hen where
  nfp := nfp
  alphaFac := alphaFac
  mmax := mmax
  nmax := nmax
  R0 := fun n => if n = 0 then mean nphi d.R0 else cosCoef nfp nphi d.R0 n
  Z0 := fun n => if n = 0 then 0 else sinCoef nfp nphi d.Z0 n
  b := fun n => if n = 0 then mean nphi d.b else cosCoef nfp nphi d.b n
  rho := fun m i => if m = 0 ∧ i < nmax + 1 then 0 else rhoCoef nfp ntheta nphi (0.5 * nfp * alphaFac) d.rho m ((i : Int) - nmax)

open Classical in
/-- `from_RZFourier` given the results of the minimiser and of the interpolation.  The mean of an empty array is NaN, which fails the assertions (L521, L524). -/
noncomputable def fromSamples (nfp : Nat) (alphaFac : Int) (mmax nmax ntheta nphi : Nat) (RH ZH : Nat → Nat → ℝ) (lo hi : Nat → ℝ) : Option Hen :=
  let d := samples nfp alphaFac ntheta nphi RH ZH lo hi
  if ntheta ≠ 0 ∧ nphi ≠ 0 ∧ |mean nphi d.Z0| < 1e-6 ∧ |(∑ i ∈ Finset.range ntheta, ∑ j ∈ Finset.range nphi, d.rho i j) / (ntheta * nphi)| < 1e-6
  then some (transform nfp alphaFac mmax nmax ntheta nphi d) else none

/-! ### Dofs -/

/-- `get_dofs` (L204-210). -/
def getDofs (h : Hen) : List ℝ :=
  (List.range (h.nmax + 1)).map h.R0 ++ ((List.range' 1 h.nmax).map h.Z0 ++ ((List.range (h.nmax + 1)).map h.b ++
    ((List.range' (h.nmax + 1) h.nmax).map (h.rho 0) ++ (List.range (h.mmax * (2 * h.nmax + 1))).map fun j => h.rho (j / (2 * h.nmax + 1) + 1) (j % (2 * h.nmax + 1)))))

/-- `num_dofs` (L215-225). -/
def numDofs (h : Hen) : Nat := h.nmax + 1 + h.nmax + (h.nmax + 1) + h.nmax + h.mmax * (2 * h.nmax + 1)

/-- `set_dofs_impl` (L227-254); reading an array beyond its end gives 0 in the model (no entry beyond the end is used). -/
def setDofs (h : Hen) (v : List ℝ) : Option Hen :=
  if v.length ≠ numDofs h then none
  else
    let at_ := fun i => v[i]?.getD 0
    let i1 := h.nmax + 1
    let i2 := i1 + h.nmax
    let i3 := i2 + (h.nmax + 1)
    let i4 := i3 + h.nmax
    some { h with
      R0 := fun n => at_ n
      Z0 := fun n => if 1 ≤ n then at_ (i1 + (n - 1)) else h.Z0 n
      b := fun n => at_ (i2 + n)
      rho := fun m i => if m = 0 then (if h.nmax + 1 ≤ i then at_ (i3 + (i - (h.nmax + 1))) else h.rho 0 i) else at_ (i4 + ((m - 1) * (2 * h.nmax + 1) + i)) }

/-- A dof name: `R0nH(n)`, `Z0nH(n)`, `bn(n)`, `rhomn(m,n)`. -/
inductive Name | R0 (n : Int) | Z0 (n : Int) | b (n : Int) | rho (m n : Int)
  deriving DecidableEq

/-- `_make_names` (L157-172). -/
def makeNames (h : Hen) : List Name :=
  (List.range (h.nmax + 1)).map (fun n => .R0 n) ++ ((List.range' 1 h.nmax).map (fun n => .Z0 n) ++ ((List.range (h.nmax + 1)).map (fun n => .b n) ++
    ((intRange 1 (h.nmax + 1)).map (fun n => .rho 0 n) ++ (List.range' 1 h.mmax).flatMap fun (m : Nat) => (intRange (-h.nmax) (h.nmax + 1)).map fun n => .rho m n)))

/-- The object: the arrays and the dof vector of `Optimizable`. -/
structure Obj where
  h : Hen
  x : List ℝ

/-- A new object: `x0=self.get_dofs()` (L127). -/
def newObj (h : Hen) : Obj := ⟨h, getDofs h⟩

/-- `local_full_x = x` and the other dof setters: the vector is stored and `set_dofs_impl` is called with it (optimizable.py L154-164). -/
def Obj.setX (o : Obj) (x : List ℝ) : Option Obj := if x.length = o.x.length then (setDofs o.h x).map fun h => ⟨h, x⟩ else none

/-- `set(i, v)` (optimizable.py L240-252). -/
def Obj.setOne (o : Obj) (i : Nat) (v : ℝ) : Option Obj := if i < o.x.length then o.setX (o.x.set i v) else none

/-- `set_rhomn` (L196-202): the array and the C++ cache, not the dof vector. -/
def Obj.setRho (o : Obj) (m n : Int) (v : ℝ) : Option Obj := (Henne.setRho o.h m n v).map fun h => ⟨h, o.x⟩

end Simsopt.Henne
