import Verif.XYZ.Frame
/-!
# SurfaceXYZTensorFourier: model

Model of src/simsoptpp/surfacexyztensorfourier.h and of the constructor in src/simsopt/geo/surfacexyztensorfourier.py.

Simplifications: real numbers instead of doubles; one quadrature point `(p, q)` at a time (`phi = 2 π p`, `theta = 2 π q`).  The caches built by the constructor
hold the basis functions and the enforcer at the quadrature points, which never change; reading them is modelled by evaluating the expression that `build_cache` stored.
Accumulators of one loop that do not depend on each other (`xhat`, `yhat`, `zdash`, ...) are separate loops here.
Integer divisions of the code are `Nat` divisions: `nfp` is positive.
-/
namespace Simsopt.XYZ
open Simsopt Simsopt.Coils Simsopt.RZSurf

/-- A place in the arrays: coordinate, row `m`, column `n`. -/
abbrev TKey := Fin 3 × Nat × Nat

/-- The attributes (surfacexyztensorfourier.h L38-56). -/
structure TF where
  mpol : Nat
  ntor : Nat
  nfp : Nat
  stellsym : Bool
  clamped : Fin 3 → Bool
  a : TKey → ℝ

/-- `num_dofs` (L66-71). -/
def TF.numDofs (s : TF) : Nat :=
  if s.stellsym then (s.ntor + 1) * (s.mpol + 1) + s.ntor * s.mpol + 2 * (s.ntor + 1) * s.mpol + 2 * s.ntor * (s.mpol + 1)
  else 3 * (2 * s.mpol + 1) * (2 * s.ntor + 1)

/-- `skip` (L828-837). -/
def TF.skip (s : TF) (d : Fin 3) (m n : Nat) : Bool :=
  if !s.stellsym then false
  else if d = 0 then (decide (n ≤ s.ntor) && decide (m > s.mpol)) || (decide (n > s.ntor) && decide (m ≤ s.mpol))
  else if d = 1 then (decide (n ≤ s.ntor) && decide (m ≤ s.mpol)) || (decide (n > s.ntor) && decide (m > s.mpol))
  else (decide (n ≤ s.ntor) && decide (m ≤ s.mpol)) || (decide (n > s.ntor) && decide (m > s.mpol))

/-- `set_dofs_impl` (L73-93): for x, y, z in turn the loops over `m` and `n` with `if(skip(...)) continue;`. -/
def TF.setDofs (s : TF) (dofs : List ℝ) : TF :=
  { s with a := (([0, 1, 2] : List (Fin 3)).foldl (fun st d => (List.range (2 * s.mpol + 1)).foldl (fun st m => (List.range (2 * s.ntor + 1)).foldl (fun st n =>
      if s.skip d m n then st else write dofs st (d, m, n)) st) st) (s.a, 0)).1 }

/-- `get_dofs` (L95-117). -/
def TF.getDofs (s : TF) : List ℝ :=
  ([0, 1, 2] : List (Fin 3)).flatMap fun d => (List.range (2 * s.mpol + 1)).flatMap fun m => (List.range (2 * s.ntor + 1)).filterMap fun n =>
    if s.skip d m n then none else some (s.a (d, m, n))

/-- The constructor (surfacexyztensorfourier.h L58-64, surfacexyztensorfourier.py L57-82): zeros, then `xcs[0,0] = 1`, `xcs[1,0] = 0.1`, `zcs[mpol+1,0] = 0.1`, which is
an `IndexError` for `mpol = 0`. -/
noncomputable def TF.construct (mpol ntor nfp : Nat) (stellsym : Bool) (clamped : Fin 3 → Bool) : Option TF :=
  if mpol = 0 then none else
    let a1 := Function.update (fun _ : TKey => (0 : ℝ)) (0, 0, 0) 1
    let a2 := Function.update a1 (0, 1, 0) 0.1
    some ⟨mpol, ntor, nfp, stellsym, clamped, Function.update a2 (2, mpol + 1, 0) 0.1⟩

/-- `get_coeff` (L839-851). -/
def TF.coeff (s : TF) (d : Fin 3) (m n : Nat) : ℝ := if s.skip d m n then 0 else s.a (d, m, n)

/-! ### Basis functions -/

/-- `basis_fun_phi` (L786-791); `n - ntor` is the `int` difference, positive there. -/
noncomputable def TF.v (s : TF) (n : Nat) (phi : ℝ) : ℝ :=
  if n ≤ s.ntor then Real.cos (s.nfp * n * phi) else Real.sin (s.nfp * ((n : ℝ) - s.ntor) * phi)

/-- `basis_fun_phi_dash` (L793-798). -/
noncomputable def TF.v1 (s : TF) (n : Nat) (phi : ℝ) : ℝ :=
  if n ≤ s.ntor then -(s.nfp : ℝ) * n * Real.sin (s.nfp * n * phi) else s.nfp * ((n : ℝ) - s.ntor) * Real.cos (s.nfp * ((n : ℝ) - s.ntor) * phi)

/-- `basis_fun_phi_dashdash` (L800-805). -/
noncomputable def TF.v11 (s : TF) (n : Nat) (phi : ℝ) : ℝ :=
  if n ≤ s.ntor then -(s.nfp : ℝ) * n * s.nfp * n * Real.cos (s.nfp * n * phi)
  else -(s.nfp : ℝ) * ((n : ℝ) - s.ntor) * s.nfp * ((n : ℝ) - s.ntor) * Real.sin (s.nfp * ((n : ℝ) - s.ntor) * phi)

/-- `basis_fun_theta` (L807-812). -/
noncomputable def TF.w (s : TF) (m : Nat) (theta : ℝ) : ℝ :=
  if m ≤ s.mpol then Real.cos (m * theta) else Real.sin (((m : ℝ) - s.mpol) * theta)

/-- `basis_fun_theta_dash` (L814-819). -/
noncomputable def TF.w1 (s : TF) (m : Nat) (theta : ℝ) : ℝ :=
  if m ≤ s.mpol then -(m : ℝ) * Real.sin (m * theta) else ((m : ℝ) - s.mpol) * Real.cos (((m : ℝ) - s.mpol) * theta)

/-- `basis_fun_theta_dashdash` (L821-826). -/
noncomputable def TF.w11 (s : TF) (m : Nat) (theta : ℝ) : ℝ :=
  if m ≤ s.mpol then -(m : ℝ) * m * Real.cos (m * theta) else -((m : ℝ) - s.mpol) * ((m : ℝ) - s.mpol) * Real.sin (((m : ℝ) - s.mpol) * theta)

/-- `apply_bc_enforcer` (L629-631). -/
def TF.apply (s : TF) (d : Fin 3) (n m : Nat) : Bool := s.clamped d && decide (n ≤ s.ntor) && decide (m ≤ s.mpol)

/-- The enforcer and its derivatives in the caches (L619-623).  `nfp*(nfp/2)` and `(1/2)` are integer divisions. -/
noncomputable def TF.cachedEnforcer (s : TF) (phi theta : ℝ) : Jet where
  h := Real.sin (s.nfp * phi / 2) ^ 2 + Real.sin (theta / 2) ^ 2
  h1 := s.nfp * Real.cos (s.nfp * phi / 2) * Real.sin (s.nfp * phi / 2)
  h11 := ((s.nfp * (s.nfp / 2) : Nat) : ℝ) * (Real.cos (s.nfp * phi / 2) ^ 2 - Real.sin (s.nfp * phi / 2) ^ 2)
  h2 := Real.cos (theta / 2) * Real.sin (theta / 2)
  h22 := ((1 / 2 : Nat) : ℝ) * (Real.cos (theta / 2) ^ 2 - Real.sin (theta / 2) ^ 2)
  h12 := 0

/-- `bc_enforcer_fun`, `bc_enforcer_dphi_fun`, `bc_enforcer_dphidphi_fun`, `bc_enforcer_dtheta_fun`, `bc_enforcer_dthetadtheta_fun` (L633-666).
`(nfp*nfp/2)` and `(1/2)` are integer divisions. -/
noncomputable def TF.enforcer (s : TF) (d : Fin 3) (n : Nat) (phi : ℝ) (m : Nat) (theta : ℝ) : Jet where
  h := if s.apply d n m then Real.sin (s.nfp * phi / 2) ^ 2 + Real.sin (theta / 2) ^ 2 else 1
  h1 := if s.apply d n m then s.nfp * Real.cos (s.nfp * phi / 2) * Real.sin (s.nfp * phi / 2) else 0
  h11 := if s.apply d n m then ((s.nfp * s.nfp / 2 : Nat) : ℝ) * (Real.cos (s.nfp * phi / 2) ^ 2 - Real.sin (s.nfp * phi / 2) ^ 2) else 0
  h2 := if s.apply d n m then Real.cos (theta / 2) * Real.sin (theta / 2) else 0
  h22 := if s.apply d n m then ((1 / 2 : Nat) : ℝ) * (Real.cos (theta / 2) ^ 2 - Real.sin (theta / 2) ^ 2) else 0
  h12 := 0

/-- The functions of quadrature indices: `basis_fun`, `basis_fun_dphi`, `basis_fun_dtheta`, `basis_fun_dphidphi`, `basis_fun_dthetadphi`, `basis_fun_dthetadtheta`
(L668-737), which read the caches. -/
noncomputable def TF.cached (s : TF) (d : Fin 3) (n m : Nat) (phi theta : ℝ) : Jet :=
  let v := s.v n phi
  let v1 := s.v1 n phi
  let v11 := s.v11 n phi
  let w := s.w m theta
  let w1 := s.w1 m theta
  let w11 := s.w11 m theta
  let e := s.cachedEnforcer phi theta
  if s.apply d n m then
    { h := v * w * e.h
      h1 := v1 * w * e.h + v * w * e.h1
      h11 := v11 * w * e.h + 2 * (v1 * w) * e.h1 + v * w * e.h11
      h2 := v * w1 * e.h + v * w * e.h2
      h12 := v1 * w1 * e.h + v * w1 * e.h1 + v1 * w * e.h2
      h22 := v * w11 * e.h + 2 * (v * w1) * e.h2 + v * w * e.h22 }
  else ⟨v * w, v1 * w, v * w1, v11 * w, v1 * w1, v * w11⟩

/-- The functions of angles with the same names (L739-784). -/
noncomputable def TF.basis (s : TF) (d : Fin 3) (n m : Nat) (phi theta : ℝ) : Jet :=
  let v := s.v n phi
  let v1 := s.v1 n phi
  let v11 := s.v11 n phi
  let w := s.w m theta
  let w1 := s.w1 m theta
  let w11 := s.w11 m theta
  let e := s.enforcer d n phi m theta
  { h := v * w * e.h
    h1 := v1 * w * e.h + v * w * e.h1
    h2 := v * w1 * e.h + v * w * e.h2
    h22 := v * (w11 * e.h + 2 * w1 * e.h2 + w * e.h22)
    h11 := w * (v11 * e.h + 2 * v1 * e.h1 + v * e.h11)
    h12 := v1 * w1 * e.h + v * w1 * e.h1 + v1 * w * e.h2 }

/-! ### The shape -/

/-- The loops `for (m = 0; m <= 2*mpol; ++m) for (n = 0; n <= 2*ntor; ++n) acc += get_coeff(d, m, n) * b(n, m);`. -/
noncomputable def TF.acc (s : TF) (d : Fin 3) (b : Nat → Nat → ℝ) : ℝ :=
  (List.range (2 * s.mpol + 1)).foldl (fun st m => (List.range (2 * s.ntor + 1)).foldl (fun st n => st + s.coeff d m n * b n m) st) 0

/-- `gamma_impl` (L119-150) at the surface's own quadrature points, as `gamma()` calls it. -/
noncomputable def TF.gamma (s : TF) (p q : ℝ) : V3 :=
  let phi := 2 * Real.pi * p
  let theta := 2 * Real.pi * q
  let xhat := s.acc 0 fun n m => (s.cached 0 n m phi theta).h
  let yhat := s.acc 1 fun n m => (s.cached 1 n m phi theta).h
  let z := s.acc 2 fun n m => (s.cached 2 n m phi theta).h
  (xhat * Real.cos phi - yhat * Real.sin phi, xhat * Real.sin phi + yhat * Real.cos phi, z)

/-- `gamma_lin` (L151-172). -/
noncomputable def TF.gammaLin (s : TF) (p q : ℝ) : V3 :=
  let phi := 2 * Real.pi * p
  let theta := 2 * Real.pi * q
  let xhat := s.acc 0 fun n m => (s.basis 0 n m phi theta).h
  let yhat := s.acc 1 fun n m => (s.basis 1 n m phi theta).h
  let z := s.acc 2 fun n m => (s.basis 2 n m phi theta).h
  (xhat * Real.cos phi - yhat * Real.sin phi, xhat * Real.sin phi + yhat * Real.cos phi, z)

/-- `gammadash1_impl` (L175-211). -/
noncomputable def TF.gammadash1 (s : TF) (p q : ℝ) : V3 :=
  let phi := 2 * Real.pi * p
  let theta := 2 * Real.pi * q
  let sp := Real.sin phi
  let cp := Real.cos phi
  let xhat := s.acc 0 fun n m => (s.cached 0 n m phi theta).h
  let yhat := s.acc 1 fun n m => (s.cached 1 n m phi theta).h
  let xhatdash := s.acc 0 fun n m => (s.cached 0 n m phi theta).h1
  let yhatdash := s.acc 1 fun n m => (s.cached 1 n m phi theta).h1
  let zdash := s.acc 2 fun n m => (s.cached 2 n m phi theta).h1
  (2 * Real.pi * (xhatdash * cp - yhatdash * sp - xhat * sp - yhat * cp), 2 * Real.pi * (xhatdash * sp + yhatdash * cp + xhat * cp - yhat * sp), 2 * Real.pi * zdash)

/-- `gammadash2_impl` (L213-244). -/
noncomputable def TF.gammadash2 (s : TF) (p q : ℝ) : V3 :=
  let phi := 2 * Real.pi * p
  let theta := 2 * Real.pi * q
  let sp := Real.sin phi
  let cp := Real.cos phi
  let xhatdash := s.acc 0 fun n m => (s.cached 0 n m phi theta).h2
  let yhatdash := s.acc 1 fun n m => (s.cached 1 n m phi theta).h2
  let zdash := s.acc 2 fun n m => (s.cached 2 n m phi theta).h2
  (2 * Real.pi * (xhatdash * cp - yhatdash * sp), 2 * Real.pi * (xhatdash * sp + yhatdash * cp), 2 * Real.pi * zdash)

/-- `gammadash2dash2_impl` (L246-270). -/
noncomputable def TF.gammadash22 (s : TF) (p q : ℝ) : V3 :=
  let phi := 2 * Real.pi * p
  let theta := 2 * Real.pi * q
  let sp := Real.sin phi
  let cp := Real.cos phi
  let xhatdd := s.acc 0 fun n m => (s.cached 0 n m phi theta).h22
  let yhatdd := s.acc 1 fun n m => (s.cached 1 n m phi theta).h22
  let zdd := s.acc 2 fun n m => (s.cached 2 n m phi theta).h22
  (4 * Real.pi * Real.pi * (xhatdd * cp - yhatdd * sp), 4 * Real.pi * Real.pi * (xhatdd * sp + yhatdd * cp), 4 * Real.pi * Real.pi * zdd)

/-- `gammadash1dash2_impl` (L272-303). -/
noncomputable def TF.gammadash12 (s : TF) (p q : ℝ) : V3 :=
  let phi := 2 * Real.pi * p
  let theta := 2 * Real.pi * q
  let sp := Real.sin phi
  let cp := Real.cos phi
  let xhatd2 := s.acc 0 fun n m => (s.cached 0 n m phi theta).h2
  let yhatd2 := s.acc 1 fun n m => (s.cached 1 n m phi theta).h2
  let xhatd1d2 := s.acc 0 fun n m => (s.cached 0 n m phi theta).h12
  let yhatd1d2 := s.acc 1 fun n m => (s.cached 1 n m phi theta).h12
  let zd1d2 := s.acc 2 fun n m => (s.cached 2 n m phi theta).h12
  (4 * Real.pi * Real.pi * (xhatd1d2 * cp - xhatd2 * sp - yhatd1d2 * sp - yhatd2 * cp),
   4 * Real.pi * Real.pi * (xhatd1d2 * sp + xhatd2 * cp + yhatd1d2 * cp - yhatd2 * sp), 4 * Real.pi * Real.pi * zd1d2)

/-- `gammadash1dash1_impl` (L305-330). -/
noncomputable def TF.gammadash11 (s : TF) (p q : ℝ) : V3 :=
  let phi := 2 * Real.pi * p
  let theta := 2 * Real.pi * q
  let sp := Real.sin phi
  let cp := Real.cos phi
  let xhat := s.acc 0 fun n m => (s.cached 0 n m phi theta).h
  let yhat := s.acc 1 fun n m => (s.cached 1 n m phi theta).h
  let xhatd := s.acc 0 fun n m => (s.cached 0 n m phi theta).h1
  let yhatd := s.acc 1 fun n m => (s.cached 1 n m phi theta).h1
  let xhatdd := s.acc 0 fun n m => (s.cached 0 n m phi theta).h11
  let yhatdd := s.acc 1 fun n m => (s.cached 1 n m phi theta).h11
  let zdd := s.acc 2 fun n m => (s.cached 2 n m phi theta).h11
  (4 * Real.pi * Real.pi * (xhatdd * cp - 2 * xhatd * sp - xhat * cp - yhatdd * sp - 2 * yhatd * cp + yhat * sp),
   4 * Real.pi * Real.pi * (xhatdd * sp + 2 * xhatd * cp - xhat * sp + yhatdd * cp - 2 * yhatd * sp - yhat * cp), 4 * Real.pi * Real.pi * zdd)

/-- The six arrays at one quadrature point. -/
noncomputable def TF.value (s : TF) (f : Fam) (p q : ℝ) : V3 :=
  match f with
  | .g => s.gamma p q
  | .g1 => s.gammadash1 p q
  | .g2 => s.gammadash2 p q
  | .g11 => s.gammadash11 p q
  | .g12 => s.gammadash12 p q
  | .g22 => s.gammadash22 p q

/-! ### Jacobians in the dofs -/

/-- What the Jacobian functions write for one dof: for `d = 0` with `dyhat = 0`, for `d = 1` with `dxhat = 0`, else only the z entry:
`dgamma_by_dcoeff_impl` (L476-511), `dgammadash1_by_dcoeff_impl` (L513-552), `dgammadash2_by_dcoeff_impl` (L554-593), `dgammadash1dash1_by_dcoeff_impl` (L332-383),
`dgammadash1dash2_by_dcoeff_impl` (L385-429), `dgammadash2dash2_by_dcoeff_impl` (L431-474). -/
noncomputable def TF.dRow (s : TF) (f : Fam) (d : Fin 3) (m n : Nat) (phi theta : ℝ) : V3 :=
  let b := s.basis d n m phi theta
  let sp := Real.sin phi
  let cp := Real.cos phi
  let put (dxhat dyhat : ℝ) : ℝ × ℝ := (dxhat * cp - dyhat * sp, dxhat * sp + dyhat * cp)
  let put1 (dxhat dyhat dxhatdash dyhatdash : ℝ) : ℝ × ℝ :=
    (dxhatdash * cp - dyhatdash * sp - dxhat * sp - dyhat * cp, dxhatdash * sp + dyhatdash * cp + dxhat * cp - dyhat * sp)
  let put11 (dxhat dyhat dxhatd dyhatd dxhatdd dyhatdd : ℝ) : ℝ × ℝ :=
    (dxhatdd * cp - 2 * dxhatd * sp - dxhat * cp - dyhatdd * sp - 2 * dyhatd * cp + dyhat * sp,
     dxhatdd * sp + 2 * dxhatd * cp - dxhat * sp + dyhatdd * cp - 2 * dyhatd * sp - dyhat * cp)
  let put12 (dxhatd2 dyhatd2 dxhatd1d2 dyhatd1d2 : ℝ) : ℝ × ℝ :=
    (dxhatd1d2 * cp - dxhatd2 * sp - dyhatd1d2 * sp - dyhatd2 * cp, dxhatd1d2 * sp + dxhatd2 * cp + dyhatd1d2 * cp - dyhatd2 * sp)
  let wrap (c : ℝ) (xy : ℝ × ℝ) : V3 := (c * xy.1, c * xy.2, 0)
  match f, d with
  | .g, 0 => wrap 1 (put b.h 0)
  | .g, 1 => wrap 1 (put 0 b.h)
  | .g, 2 => (0, 0, b.h)
  | .g1, 0 => wrap (2 * Real.pi) (put1 b.h 0 b.h1 0)
  | .g1, 1 => wrap (2 * Real.pi) (put1 0 b.h 0 b.h1)
  | .g1, 2 => (0, 0, 2 * Real.pi * b.h1)
  | .g2, 0 => wrap (2 * Real.pi) (put b.h2 0)
  | .g2, 1 => wrap (2 * Real.pi) (put 0 b.h2)
  | .g2, 2 => (0, 0, 2 * Real.pi * b.h2)
  | .g11, 0 => wrap (4 * Real.pi * Real.pi) (put11 b.h 0 b.h1 0 b.h11 0)
  | .g11, 1 => wrap (4 * Real.pi * Real.pi) (put11 0 b.h 0 b.h1 0 b.h11)
  | .g11, 2 => (0, 0, 4 * Real.pi * Real.pi * b.h11)
  | .g12, 0 => wrap (4 * Real.pi * Real.pi) (put12 b.h2 0 b.h12 0)
  | .g12, 1 => wrap (4 * Real.pi * Real.pi) (put12 0 b.h2 0 b.h12)
  | .g12, 2 => (0, 0, 4 * Real.pi * Real.pi * b.h12)
  | .g22, 0 => wrap (4 * Real.pi * Real.pi) (put b.h22 0)
  | .g22, 1 => wrap (4 * Real.pi * Real.pi) (put 0 b.h22)
  | .g22, 2 => (0, 0, 4 * Real.pi * Real.pi * b.h22)

/-- The columns of the Jacobian arrays at one quadrature point, in the order of `counter++`. -/
noncomputable def TF.jacobian (s : TF) (f : Fam) (p q : ℝ) : List V3 :=
  ([0, 1, 2] : List (Fin 3)).flatMap fun d => (List.range (2 * s.mpol + 1)).flatMap fun m => (List.range (2 * s.ntor + 1)).filterMap fun n =>
    if s.skip d m n then none else some (s.dRow f d m n (2 * Real.pi * p) (2 * Real.pi * q))

end Simsopt.XYZ
