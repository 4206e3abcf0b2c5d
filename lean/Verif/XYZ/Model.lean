import Verif.XYZ.Frame
/-!
# SurfaceXYZFourier: model

Model of src/simsoptpp/surfacexyzfourier.{h,cpp} and of the constructor in src/simsopt/geo/surfacexyzfourier.py.

Simplifications: real numbers instead of doubles; one quadrature point `(p, q)` at a time (`phi = 2 π p`, `theta = 2 π q`), since the loops over the quadrature
points are independent; the six arrays `xc, xs, yc, ys, zc, zs` are one function of (coordinate, cosine?, row-major position).
-/
namespace Simsopt.XYZ
open Simsopt Simsopt.Coils Simsopt.RZSurf

/-- A place in the arrays: coordinate (0, 1, 2 for x, y, z), `true` for the cosine array, position in the row-major buffer. -/
abbrev Key := Fin 3 × Bool × Nat

/-- The attributes (surfacexyzfourier.h L44-53). -/
structure XF where
  mpol : Nat
  ntor : Nat
  nfp : Nat
  stellsym : Bool
  a : Key → ℝ

/-- The number of columns `2*ntor+1`. -/
def XF.width (s : XF) : Nat := 2 * s.ntor + 1

/-- `shift = (mpol+1)*(2*ntor+1)` (L73, L101). -/
def XF.size (s : XF) : Nat := (s.mpol + 1) * s.width

/-- `get_coeff(dim, cos, m, i)` (L127-140). -/
def XF.at (s : XF) (d : Fin 3) (c : Bool) (m i : Nat) : ℝ := s.a (d, c, m * s.width + i)

/-- `num_dofs` (L65-70), in the integers as in the code. -/
def XF.numDofs (s : XF) : Int :=
  if s.stellsym then 3 * (s.mpol + 1) * (2 * s.ntor + 1) - 1 * s.ntor - 2 * (s.ntor + 1)
  else 6 * (s.mpol + 1) * (2 * s.ntor + 1) - 3 * s.ntor - 3 * (s.ntor + 1)

/-- Where the loop over an array starts: `i = ntor` for cosines, `i = ntor+1` for sines (L76-97). -/
def XF.lo (s : XF) (c : Bool) : Nat := if c then s.ntor else s.ntor + 1

/-- The arrays in the order of the loops of `set_dofs_impl` and `get_dofs` (L75-97, L104-124). -/
def XF.blocks (s : XF) : List (Fin 3 × Bool) :=
  if s.stellsym then [(0, true), (1, false), (2, false)]
  else [(0, true), (0, false), (1, true), (1, false), (2, true), (2, false)]

/-- `set_dofs_impl` (L72-98). -/
def setDofs (s : XF) (dofs : List ℝ) : XF :=
  { s with a := (s.blocks.foldl (fun st dc => (List.range' (s.lo dc.2) (s.size - s.lo dc.2)).foldl (fun st i => write dofs st (dc.1, dc.2, i)) st) (s.a, 0)).1 }

/-- `get_dofs` (L100-125). -/
def getDofs (s : XF) : List ℝ :=
  s.blocks.flatMap fun dc => (List.range' (s.lo dc.2) (s.size - s.lo dc.2)).map fun i => s.a (dc.1, dc.2, i)

/-- The constructor (surfacexyzfourier.h L55-63, surfacexyzfourier.py L59-81): zeros, then `xc[0,ntor] = 1`, `xc[1,ntor] = 0.1`, `zs[1,ntor] = 0.1`, which is an
`IndexError` for `mpol = 0`. -/
noncomputable def construct (mpol ntor nfp : Nat) (stellsym : Bool) : Option XF :=
  if mpol = 0 then none else
    let z : XF := ⟨mpol, ntor, nfp, stellsym, fun _ => 0⟩
    let a1 := Function.update z.a (0, true, 0 * z.width + ntor) 1
    let a2 := Function.update a1 (0, true, 1 * z.width + ntor) 0.1
    some { z with a := Function.update a2 (2, false, 1 * z.width + ntor) 0.1 }

/-! ### The shape -/

/-- `m*theta - n*nfp*phi` with `n = i - ntor`. -/
noncomputable def angle (s : XF) (phi theta : ℝ) (m i : Nat) : ℝ := m * theta - ((i : ℝ) - s.ntor) * s.nfp * phi

/-- `n*nfp` with `n = i - ntor`. -/
noncomputable def nn (s : XF) (i : Nat) : ℝ := ((i : ℝ) - s.ntor) * s.nfp

/-- The loops `for (m = 0; m <= mpol; ++m) for (i = 0; i < 2*ntor+1; ++i)` with accumulators `(x, y, z)`; `inc m i sin cos` is what is added to them. -/
noncomputable def loop (s : XF) (phi theta : ℝ) (inc : Nat → Nat → ℝ → ℝ → V3) : V3 :=
  (List.range (s.mpol + 1)).foldl (fun st m => (List.range s.width).foldl (fun st i =>
    st + inc m i (Real.sin (angle s phi theta m i)) (Real.cos (angle s phi theta m i))) st) (0, 0, 0)

/-- `gamma_impl` (surfacexyzfourier.cpp L15-27) and `gamma_lin` (L44-56): the same statements. -/
noncomputable def gamma (s : XF) (p q : ℝ) : V3 :=
  let phi := 2 * Real.pi * p
  let cp := Real.cos phi
  let sp := Real.sin phi
  loop s phi (2 * Real.pi * q) fun m i sn cs =>
    let xhat := s.at 0 true m i * cs + s.at 0 false m i * sn
    let yhat := s.at 1 true m i * cs + s.at 1 false m i * sn
    (xhat * cp - yhat * sp, xhat * sp + yhat * cp, s.at 2 true m i * cs + s.at 2 false m i * sn)

/-- `gammadash1_impl` (L62-90). -/
noncomputable def gammadash1 (s : XF) (p q : ℝ) : V3 :=
  let phi := 2 * Real.pi * p
  let cp := Real.cos phi
  let sp := Real.sin phi
  let r := loop s phi (2 * Real.pi * q) fun m i sn cs =>
    let w := nn s i
    let xhat := s.at 0 true m i * cs + s.at 0 false m i * sn
    let yhat := s.at 1 true m i * cs + s.at 1 false m i * sn
    let xhatdash := s.at 0 true m i * w * sn + s.at 0 false m i * (-w) * cs
    let yhatdash := s.at 1 true m i * w * sn + s.at 1 false m i * (-w) * cs
    (xhatdash * cp - yhatdash * sp - xhat * sp - yhat * cp, xhatdash * sp + yhatdash * cp + xhat * cp - yhat * sp,
      s.at 2 true m i * w * sn + s.at 2 false m i * (-w) * cs)
  (2 * Real.pi * r.1, 2 * Real.pi * r.2.1, 2 * Real.pi * r.2.2)

/-- `gammadash2_impl` (L92-118). -/
noncomputable def gammadash2 (s : XF) (p q : ℝ) : V3 :=
  let phi := 2 * Real.pi * p
  let cp := Real.cos phi
  let sp := Real.sin phi
  let r := loop s phi (2 * Real.pi * q) fun m i sn cs =>
    let xhatdash := s.at 0 true m i * (-(m : ℝ)) * sn + s.at 0 false m i * m * cs
    let yhatdash := s.at 1 true m i * (-(m : ℝ)) * sn + s.at 1 false m i * m * cs
    (xhatdash * cp - yhatdash * sp, xhatdash * sp + yhatdash * cp, s.at 2 true m i * (-(m : ℝ)) * sn + s.at 2 false m i * m * cs)
  (2 * Real.pi * r.1, 2 * Real.pi * r.2.1, 2 * Real.pi * r.2.2)

/-- `gammadash1dash1_impl` (L120-154). -/
noncomputable def gammadash11 (s : XF) (p q : ℝ) : V3 :=
  let phi := 2 * Real.pi * p
  let cp := Real.cos phi
  let sp := Real.sin phi
  let r := loop s phi (2 * Real.pi * q) fun m i sn cs =>
    let w := nn s i
    let xhat := s.at 0 true m i * cs + s.at 0 false m i * sn
    let yhat := s.at 1 true m i * cs + s.at 1 false m i * sn
    let xhatd := -(s.at 0 true m i) * (-w) * sn + s.at 0 false m i * (-w) * cs
    let yhatd := -(s.at 1 true m i) * (-w) * sn + s.at 1 false m i * (-w) * cs
    let xhatdd := -(s.at 0 true m i) * (-w) * (-w) * cs - s.at 0 false m i * (-w) * (-w) * sn
    let yhatdd := -(s.at 1 true m i) * (-w) * (-w) * cs - s.at 1 false m i * (-w) * (-w) * sn
    (xhatdd * cp - 2 * xhatd * sp - xhat * cp - yhatdd * sp - 2 * yhatd * cp + yhat * sp,
     xhatdd * sp + 2 * xhatd * cp - xhat * sp + yhatdd * cp - 2 * yhatd * sp - yhat * cp,
     -(s.at 2 true m i) * (-w) * (-w) * cs - s.at 2 false m i * (-w) * (-w) * sn)
  (4 * Real.pi * Real.pi * r.1, 4 * Real.pi * Real.pi * r.2.1, 4 * Real.pi * Real.pi * r.2.2)

/-- `gammadash1dash2_impl` (L156-190). -/
noncomputable def gammadash12 (s : XF) (p q : ℝ) : V3 :=
  let phi := 2 * Real.pi * p
  let cp := Real.cos phi
  let sp := Real.sin phi
  let r := loop s phi (2 * Real.pi * q) fun m i sn cs =>
    let w := nn s i
    let xhatd2 := -(s.at 0 true m i) * m * sn + s.at 0 false m i * m * cs
    let yhatd2 := -(s.at 1 true m i) * m * sn + s.at 1 false m i * m * cs
    let xhatd1d2 := -(s.at 0 true m i) * (-w) * m * cs - s.at 0 false m i * (-w) * m * sn
    let yhatd1d2 := -(s.at 1 true m i) * (-w) * m * cs - s.at 1 false m i * (-w) * m * sn
    (xhatd1d2 * cp - xhatd2 * sp - yhatd1d2 * sp - yhatd2 * cp, xhatd1d2 * sp + xhatd2 * cp + yhatd1d2 * cp - yhatd2 * sp,
     -(s.at 2 true m i) * (-w) * m * cs - s.at 2 false m i * (-w) * m * sn)
  (4 * Real.pi * Real.pi * r.1, 4 * Real.pi * Real.pi * r.2.1, 4 * Real.pi * Real.pi * r.2.2)

/-- `gammadash2dash2_impl` (L192-217). -/
noncomputable def gammadash22 (s : XF) (p q : ℝ) : V3 :=
  let phi := 2 * Real.pi * p
  let cp := Real.cos phi
  let sp := Real.sin phi
  let r := loop s phi (2 * Real.pi * q) fun m i sn cs =>
    let xhatdd := -(s.at 0 true m i) * m * m * cs - s.at 0 false m i * m * m * sn
    let yhatdd := -(s.at 1 true m i) * m * m * cs - s.at 1 false m i * m * m * sn
    (xhatdd * cp - yhatdd * sp, xhatdd * sp + yhatdd * cp, -(s.at 2 true m i) * m * m * cs - s.at 2 false m i * m * m * sn)
  (4 * Real.pi * Real.pi * r.1, 4 * Real.pi * Real.pi * r.2.1, 4 * Real.pi * Real.pi * r.2.2)

/-- The six arrays at one quadrature point. -/
noncomputable def value (s : XF) (f : Fam) (p q : ℝ) : V3 :=
  match f with
  | .g => gamma s p q
  | .g1 => gammadash1 s p q
  | .g2 => gammadash2 s p q
  | .g11 => gammadash11 s p q
  | .g12 => gammadash12 s p q
  | .g22 => gammadash22 s p q

/-! ### Jacobians in the dofs -/

/-- `if(m==0 && n<0) continue;` (cosine loops) and `if(m==0 && n<=0) continue;` (sine loops), with `n = i - ntor`. -/
def skip (s : XF) (c : Bool) (m i : Nat) : Bool :=
  let n : Int := (i : Int) - s.ntor
  decide (m = 0) && (if c then decide (n < 0) else decide (n ≤ 0))

/-- `if(stellsym) continue;`: in the cosine loops for `d = 1` and `d = 2`, in the sine loops for `d = 0`. -/
def drop (s : XF) (d : Fin 3) (c : Bool) : Bool := s.stellsym && (if c then decide (d ≠ 0) else decide (d = 0))

/-- The entries `data(k1, k2, 0..2, counter)`, those not written being zero: `dgamma_by_dcoeff_impl` (L220-267), `dgammadash1_by_dcoeff_impl` (L269-317),
`dgammadash2_by_dcoeff_impl` (L319-368), `dgammadash1dash1_by_dcoeff_impl` (L370-435), `dgammadash1dash2_by_dcoeff_impl` (L437-499),
`dgammadash2dash2_by_dcoeff_impl` (L501-550). -/
noncomputable def dRow (s : XF) (f : Fam) (d : Fin 3) (c : Bool) (phi theta : ℝ) (mi : Nat × Nat) : V3 :=
  let m : ℝ := mi.1
  let w := nn s mi.2
  let sa := Real.sin (angle s phi theta mi.1 mi.2)
  let ca := Real.cos (angle s phi theta mi.1 mi.2)
  let sp := Real.sin phi
  let cp := Real.cos phi
  let P := 2 * Real.pi
  let Q := 4 * Real.pi * Real.pi
  match f, d, c with
  | .g, 0, true => (ca * cp, ca * sp, 0)
  | .g, 1, true => (-ca * sp, ca * cp, 0)
  | .g, 2, true => (0, 0, ca)
  | .g, 0, false => (sa * cp, sa * sp, 0)
  | .g, 1, false => (-sa * sp, sa * cp, 0)
  | .g, 2, false => (0, 0, sa)
  | .g1, 0, true => (P * (w * sa * cp - ca * sp), P * (w * sa * sp + ca * cp), 0)
  | .g1, 1, true => (P * (-w * sa * sp - ca * cp), P * (w * sa * cp - ca * sp), 0)
  | .g1, 2, true => (0, 0, P * (w * sa))
  | .g1, 0, false => (P * (-w * ca * cp - sa * sp), P * (-w * ca * sp + sa * cp), 0)
  | .g1, 1, false => (P * (w * ca * sp - sa * cp), P * ((-w) * ca * cp - sa * sp), 0)
  | .g1, 2, false => (0, 0, P * ((-w) * ca))
  | .g2, 0, true => (P * ((-m) * sa * cp), P * ((-m) * sa * sp), 0)
  | .g2, 1, true => (P * ((-m) * sa * (-1) * sp), P * ((-m) * sa * cp), 0)
  | .g2, 2, true => (0, 0, P * ((-m) * sa))
  | .g2, 0, false => (P * (m * ca * cp), P * (m * ca * sp), 0)
  | .g2, 1, false => (P * (m * ca * (-1) * sp), P * (m * ca * cp), 0)
  | .g2, 2, false => (0, 0, P * (m * ca))
  | .g11, 0, true => (Q * (w * (-w) * ca * cp - 2 * w * sa * sp - ca * cp), Q * (w * (-w) * ca * sp + 2 * w * sa * cp - ca * sp), 0)
  | .g11, 1, true => (Q * (-w * (-w) * ca * sp - 2 * w * sa * cp + ca * sp), Q * (w * (-w) * ca * cp - 2 * w * sa * sp - ca * cp), 0)
  | .g11, 2, true => (0, 0, Q * (w * (-w) * ca))
  | .g11, 0, false => (Q * (w * (-w) * sa * cp + 2 * w * ca * sp - sa * cp), Q * (w * (-w) * sa * sp - 2 * w * ca * cp - sa * sp), 0)
  | .g11, 1, false => (Q * (-w * (-w) * sa * sp + 2 * w * ca * cp + sa * sp), Q * (-(-w) * (-w) * sa * cp - 2 * (-w) * ca * sp - sa * cp), 0)
  | .g11, 2, false => (0, 0, Q * (-(-w) * (-w) * sa))
  | .g12, 0, true => (Q * (w * m * ca * cp + m * sa * sp), Q * (w * m * ca * sp - m * sa * cp), 0)
  | .g12, 1, true => (Q * (-w * m * ca * sp + m * sa * cp), Q * (w * m * ca * cp + m * sa * sp), 0)
  | .g12, 2, true => (0, 0, Q * (w * m * ca))
  | .g12, 0, false => (Q * (w * m * sa * cp - m * ca * sp), Q * (w * m * sa * sp + m * ca * cp), 0)
  | .g12, 1, false => (Q * (-w * m * sa * sp - m * ca * cp), Q * (-(-w) * m * sa * cp - m * ca * sp), 0)
  | .g12, 2, false => (0, 0, Q * (-(-w) * m * sa))
  | .g22, 0, true => (Q * ((-m) * m * ca * cp), Q * ((-m) * m * ca * sp), 0)
  | .g22, 1, true => (Q * ((-m) * m * ca * (-1) * sp), Q * ((-m) * m * ca * cp), 0)
  | .g22, 2, true => (0, 0, Q * ((-m) * m * ca))
  | .g22, 0, false => (Q * (-m * m * sa * cp), Q * (-m * m * sa * sp), 0)
  | .g22, 1, false => (Q * (-m * m * sa * (-1) * sp), Q * (-m * m * sa * cp), 0)
  | .g22, 2, false => (0, 0, Q * (-m * m * sa))

/-- The loops over the modes of one array: what is written with each `counter++`. -/
noncomputable def arrayRows (s : XF) (f : Fam) (d : Fin 3) (c : Bool) (phi theta : ℝ) : List V3 :=
  (List.range (s.mpol + 1)).flatMap fun m => (List.range s.width).filterMap fun i =>
    if skip s c m i then none else if drop s d c then none else some (dRow s f d c phi theta (m, i))

/-- The columns of the Jacobian arrays at one quadrature point in the order of `counter`: for each of the coordinates, the cosine loop and then the sine loop. -/
noncomputable def jacobian (s : XF) (f : Fam) (p q : ℝ) : List V3 :=
  ([0, 1, 2] : List (Fin 3)).flatMap fun d => arrayRows s f d true (2 * Real.pi * p) (2 * Real.pi * q) ++ arrayRows s f d false (2 * Real.pi * p) (2 * Real.pi * q)

end Simsopt.XYZ
