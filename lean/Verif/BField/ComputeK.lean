import Verif.BField.Radial
import Verif.Util.Trig
import Mathlib.Tactic.IntervalCases
/-!
# `compute_K` (C140): src/simsopt/field/boozermagneticfield.py L648-723, src/simsoptpp/boozerradialinterpolant.cpp L7-137
-/
namespace Simsopt.BField
open Tracing Fields Finset

/-- The Fourier coefficients on one surface that `compute_K` passes to C++ (L677-703), without stellarator symmetry. -/
structure Coefs (k : ℕ) where
  rmnc : Fin (k + 1) → ℝ
  drmncds : Fin (k + 1) → ℝ
  zmns : Fin (k + 1) → ℝ
  dzmnsds : Fin (k + 1) → ℝ
  numns : Fin (k + 1) → ℝ
  dnumnsds : Fin (k + 1) → ℝ
  bmnc : Fin (k + 1) → ℝ
  rmns : Fin (k + 1) → ℝ
  drmnsds : Fin (k + 1) → ℝ
  zmnc : Fin (k + 1) → ℝ
  dzmncds : Fin (k + 1) → ℝ
  numnc : Fin (k + 1) → ℝ
  dnumncds : Fin (k + 1) → ℝ
  bmns : Fin (k + 1) → ℝ

/-- The last lines of the computation of `K` at a point (boozerradialinterpolant.cpp L50-63 and L117-130, the same in both functions). -/
noncomputable def finishK (iota G I ζ B R dRdtheta dRdzeta dRds dZdtheta dZdzeta dZds nu dnuds dnudtheta dnudzeta : ℝ) : ℝ :=
  let phi := ζ - nu
  let dphids := -dnuds
  let dphidtheta := -dnudtheta
  let dphidzeta := 1 - dnudzeta
  let dXdtheta := dRdtheta * Real.cos phi - R * Real.sin phi * dphidtheta
  let dYdtheta := dRdtheta * Real.sin phi + R * Real.cos phi * dphidtheta
  let dXds := dRds * Real.cos phi - R * Real.sin phi * dphids
  let dYds := dRds * Real.sin phi + R * Real.cos phi * dphids
  let dXdzeta := dRdzeta * Real.cos phi - R * Real.sin phi * dphidzeta
  let dYdzeta := dRdzeta * Real.sin phi + R * Real.cos phi * dphidzeta
  let gstheta := dXdtheta * dXds + dYdtheta * dYds + dZdtheta * dZds
  let gszeta := dXdzeta * dXds + dYdzeta * dYds + dZdzeta * dZds
  let sqrtg := (G + iota * I) / (B * B)
  (gszeta + iota * gstheta) / sqrtg

/-- `K` at a point in `compute_kmnc_kmns` (boozerradialinterpolant.cpp L22-63). -/
noncomputable def pointK {k : ℕ} (xm xn : Fin (k + 1) → ℝ) (c : Coefs k) (iota G I θ ζ : ℝ) : ℝ :=
  let co := fun im => Real.cos (xm im * θ - xn im * ζ)
  let si := fun im => Real.sin (xm im * θ - xn im * ζ)
  let B := ∑ im, (c.bmnc im * co im + c.bmns im * si im)
  let R := ∑ im, (c.rmnc im * co im + c.rmns im * si im)
  let dRdtheta := ∑ im, (-c.rmnc im * xm im * si im + c.rmns im * xm im * co im)
  let dRdzeta := ∑ im, (c.rmnc im * xn im * si im - c.rmns im * xn im * co im)
  let dRds := ∑ im, (c.drmncds im * co im + c.drmnsds im * si im)
  let dZdtheta := ∑ im, (c.zmns im * xm im * co im - c.zmnc im * xm im * si im)
  let dZdzeta := ∑ im, (-c.zmns im * xn im * co im + c.zmnc im * xn im * si im)
  let dZds := ∑ im, (c.dzmnsds im * si im + c.dzmncds im * co im)
  let nu := ∑ im, (c.numns im * si im + c.numnc im * co im)
  let dnuds := ∑ im, (c.dnumnsds im * si im + c.dnumncds im * co im)
  let dnudtheta := ∑ im, (c.numns im * xm im * co im - c.numnc im * xm im * si im)
  let dnudzeta := ∑ im, (-c.numns im * xn im * co im + c.numnc im * xn im * si im)
  finishK iota G I ζ B R dRdtheta dRdzeta dRds dZdtheta dZdzeta dZds nu dnuds dnudtheta dnudzeta

/-- `K` at a point in `compute_kmns` (boozerradialinterpolant.cpp L88-130), with stellarator symmetry. -/
noncomputable def pointKSym {k : ℕ} (xm xn : Fin (k + 1) → ℝ) (c : Coefs k) (iota G I θ ζ : ℝ) : ℝ :=
  let co := fun im => Real.cos (xm im * θ - xn im * ζ)
  let si := fun im => Real.sin (xm im * θ - xn im * ζ)
  let B := ∑ im, c.bmnc im * co im
  let R := ∑ im, c.rmnc im * co im
  let dRdtheta := ∑ im, -c.rmnc im * xm im * si im
  let dRdzeta := ∑ im, c.rmnc im * xn im * si im
  let dRds := ∑ im, c.drmncds im * co im
  let dZdtheta := ∑ im, c.zmns im * xm im * co im
  let dZdzeta := ∑ im, -c.zmns im * xn im * co im
  let dZds := ∑ im, c.dzmnsds im * si im
  let nu := ∑ im, c.numns im * si im
  let dnuds := ∑ im, c.dnumnsds im * si im
  let dnudtheta := ∑ im, c.numns im * xm im * co im
  let dnudzeta := ∑ im, -c.numns im * xn im * co im
  finishK iota G I ζ B R dRdtheta dRdzeta dRds dZdtheta dZdzeta dZds nu dnuds dnudtheta dnudzeta

/-- The coefficients that `compute_K` takes from the splines at the surface `s` (L675-691); `b`, `r`, `z`, `nu` as in `Radial`. -/
noncomputable def coefsAt {k : ℕ} (o : Radial k) (s : ℝ) : Coefs k where
  rmnc im := o.r.X im s / o.F im s
  drmncds im := (o.r.dX im s - o.r.X im s * o.dF im s / o.F im s) / o.F im s
  zmns im := o.z.X im s / o.F im s
  dzmnsds im := (o.z.dX im s - o.z.X im s * o.dF im s / o.F im s) / o.F im s
  numns im := o.nu.X im s / o.F im s
  dnumnsds im := (o.nu.dX im s - o.nu.X im s * o.dF im s / o.F im s) / o.F im s
  bmnc im := o.b.X im s / o.F im s
  rmns im := o.r.Y im s / o.F im s
  drmnsds im := (o.r.dY im s - o.r.Y im s * o.dF im s / o.F im s) / o.F im s
  zmnc im := o.z.Y im s / o.F im s
  dzmncds im := (o.z.dY im s - o.z.Y im s * o.dF im s / o.F im s) / o.F im s
  numnc im := o.nu.Y im s / o.F im s
  dnumncds im := (o.nu.dY im s - o.nu.Y im s * o.dF im s / o.F im s) / o.F im s
  bmns im := o.b.Y im s / o.F im s

/-- What is transformed (L697-710): with or without symmetry. -/
noncomputable def surfaceK {k : ℕ} (o : Radial k) (iota G I : ℝ) (p : P3) : ℝ :=
  if o.stellsym then pointKSym o.xm o.xn (coefsAt o (p 0)) iota G I (p 1) (p 2) else pointK o.xm o.xn (coefsAt o (p 0)) iota G I (p 1) (p 2)

/-- `thetas`, `zetas` (L649-657): `np.linspace(0, 2*np.pi, ntheta, endpoint=False)` and the same for one field period. -/
noncomputable def gridTheta (ntheta : ℕ) (j : ℕ) : ℝ := 2 * Real.pi * (j / ntheta)
/-- see `gridTheta` -/
noncomputable def gridZeta (nfp nzeta : ℕ) (j : ℕ) : ℝ := 2 * Real.pi / nfp * (j / nzeta)

/-- `kmns` of mode `im` on one surface: the sums in C++ (boozerradialinterpolant.cpp L65-73, L132-134) over all grid points, times `dtheta*dzeta*nfp/psi0` (L705, L710).  `K` is what was computed at the points. -/
noncomputable def kmns {k : ℕ} (xm xn : Fin (k + 1) → ℝ) (mboz nboz nfp : ℕ) (psi0 : ℝ) (K : ℝ → ℝ → ℝ) (im : Fin (k + 1)) : ℝ :=
  let ntheta := 2 * (2 * mboz + 1)
  let nzeta := 2 * (2 * nboz + 1)
  let dtheta := gridTheta ntheta 1 - gridTheta ntheta 0
  let dzeta := gridZeta nfp nzeta 1 - gridZeta nfp nzeta 0
  let total := if im = 0 then 0 else ∑ j ∈ range ntheta, ∑ l ∈ range nzeta,
    K (gridTheta ntheta j) (gridZeta nfp nzeta l) * Real.sin (xm im * gridTheta ntheta j - xn im * gridZeta nfp nzeta l) / (2 * Real.pi * Real.pi)
  total * dtheta * dzeta * nfp / psi0

/-- `kmnc` of mode `im` on one surface (boozerradialinterpolant.cpp L65-73). -/
noncomputable def kmnc {k : ℕ} (xm xn : Fin (k + 1) → ℝ) (mboz nboz nfp : ℕ) (psi0 : ℝ) (K : ℝ → ℝ → ℝ) (im : Fin (k + 1)) : ℝ :=
  let ntheta := 2 * (2 * mboz + 1)
  let nzeta := 2 * (2 * nboz + 1)
  let dtheta := gridTheta ntheta 1 - gridTheta ntheta 0
  let dzeta := gridZeta nfp nzeta 1 - gridZeta nfp nzeta 0
  let total := ∑ j ∈ range ntheta, ∑ l ∈ range nzeta,
    K (gridTheta ntheta j) (gridZeta nfp nzeta l) * Real.cos (xm im * gridTheta ntheta j - xn im * gridZeta nfp nzeta l) / (if im = 0 then 4 * Real.pi * Real.pi else 2 * Real.pi * Real.pi)
  total * dtheta * dzeta * nfp / psi0

/-! ## Specification -/

/-- The position in space of the point with Boozer coordinates `p`: `R`, `Z` and the cylindrical angle `φ = ζ - ν`. -/
noncomputable def position {k : ℕ} (o : Radial k) (p : P3) : P3 :=
  ![o.evenVal o.r p * Real.cos (p 2 - o.oddVal o.nu p), o.evenVal o.r p * Real.sin (p 2 - o.oddVal o.nu p), o.oddVal o.z p]

/-- The coordinate vector `∂r/∂(coordinate i)` at `p` is `e`. -/
def IsCoordVector {k : ℕ} (o : Radial k) (p : P3) (i : Fin 3) (e : P3) : Prop := ∀ j, Radial.Partial (fun q => position o q j) p i (e j)

/-- The mode table of booz_xform: integers `m` and multiples `n nfp` with `|m| ≤ mboz`, `|n| ≤ nboz`, the constant mode first, no mode twice (also not with the opposite sign). -/
structure Table {k : ℕ} (xm xn : Fin (k + 1) → ℝ) (mboz nboz nfp : ℕ) where
  m : Fin (k + 1) → ℤ
  n : Fin (k + 1) → ℤ
  xm_eq : ∀ im, xm im = m im
  xn_eq : ∀ im, xn im = n im * nfp
  m_le : ∀ im, |m im| ≤ mboz
  n_le : ∀ im, |n im| ≤ nboz
  first : m 0 = 0 ∧ n 0 = 0
  distinct : ∀ i j, i ≠ j → ¬(m i = m j ∧ n i = n j) ∧ ¬(m i = -m j ∧ n i = -n j)

/-! ## The value at a point -/

theorem pos_partial {k : ℕ} (o : Radial k) (p : P3) (i : Fin 3) (dR dZ dN d2 : ℝ) (hR : Radial.Partial (o.evenVal o.r) p i dR) (hZ : Radial.Partial (o.oddVal o.z) p i dZ)
    (hN : Radial.Partial (o.oddVal o.nu) p i dN) (h2 : Radial.Partial (fun q => q 2) p i d2) :
    IsCoordVector o p i ![dR * Real.cos (p 2 - o.oddVal o.nu p) - o.evenVal o.r p * Real.sin (p 2 - o.oddVal o.nu p) * (d2 - dN),
      dR * Real.sin (p 2 - o.oddVal o.nu p) + o.evenVal o.r p * Real.cos (p 2 - o.oddVal o.nu p) * (d2 - dN), dZ] := by
  have hφ := HasDerivAt.fun_sub h2 hN
  intro j
  fin_cases j
  · refine HasDerivAt.congr_deriv (HasDerivAt.fun_mul hR hφ.cos) ?_
    simp; ring
  · refine HasDerivAt.congr_deriv (HasDerivAt.fun_mul hR hφ.sin) ?_
    simp; ring
  · exact hZ

theorem partial_coord (p : P3) : Radial.Partial (fun q => q 2) p 0 0 ∧ Radial.Partial (fun q => q 2) p 1 0 ∧ Radial.Partial (fun q => q 2) p 2 1 := by
  refine ⟨?_, ?_, ?_⟩
  · simpa [Radial.Partial] using hasDerivAt_const (p 0) (p 2)
  · simpa [Radial.Partial] using hasDerivAt_const (p 1) (p 2)
  · simpa [Radial.Partial] using hasDerivAt_id' (p 2)

theorem surfaceK_eq {k : ℕ} (o : Radial k) (h0 : o.FirstConst) (iota G I : ℝ) (p : P3) : surfaceK o iota G I p =
    finishK iota G I (p 2) (o.evenVal o.b p) (o.evenVal o.r p) (o.evenDtheta o.r p) (o.evenDzeta o.r p) (o.evenDs o.r p) (o.oddDtheta o.z p) (o.oddDzeta o.z p) (o.oddDs o.z p)
      (o.oddVal o.nu p) (o.oddDs o.nu p) (o.oddDtheta o.nu p) (o.oddDzeta o.nu p) := by
  unfold surfaceK
  cases hs : o.stellsym
  · simp only [Bool.false_eq_true, if_false, pointK, Radial.evenVal, Radial.evenDtheta, Radial.evenDzeta, Radial.evenDs, Radial.oddVal, Radial.oddDtheta, Radial.oddDzeta, Radial.oddDs, hs,
      o.sum_odd h0, Radial.invEven, ← Finset.sum_add_distrib, coefsAt, Radial.angle]
    congr 1 <;> exact Finset.sum_congr rfl fun im _ => by ring
  · simp only [if_true, pointKSym, Radial.evenVal, Radial.evenDtheta, Radial.evenDzeta, Radial.evenDs, Radial.oddVal, Radial.oddDtheta, Radial.oddDzeta, Radial.oddDs, hs,
      o.sum_odd h0, Radial.invEven, coefsAt, Radial.angle]
    congr 1 <;> exact Finset.sum_congr rfl fun im _ => by ring

/-- **C140.** What is computed at each point is `ψ₀ K`, the component of `B = G ∇ζ + I ∇θ + K ∇ψ` along `∂r/∂s`, for the `B` of the contravariant form `(∂r/∂ζ + ι ∂r/∂θ)/√g` with
`√g = (G + ι I)/|B|²`: the derivatives of the position that enter are the exact ones. -/
theorem C140_point {k : ℕ} (o : Radial k) (h0 : o.FirstConst) (iota G I : ℝ) (p : P3) (hF : ∀ im, HasDerivAt (o.F im) (o.dF im (p 0)) (p 0)) (hF0 : ∀ im, o.F im (p 0) ≠ 0)
    (hd : ∀ S : Spl k, S = o.r ∨ S = o.z ∨ S = o.nu → (∀ im, HasDerivAt (S.X im) (S.dX im (p 0)) (p 0)) ∧ ∀ im, HasDerivAt (S.Y im) (S.dY im (p 0)) (p 0)) :
    ∃ es eθ eζ : P3, IsCoordVector o p 0 es ∧ IsCoordVector o p 1 eθ ∧ IsCoordVector o p 2 eζ ∧
      surfaceK o iota G I p = dot3 ((1 / ((G + iota * I) / o.modB p ^ 2)) • (eζ + iota • eθ)) es := by
  have hr := o.C139_radial o.r p hF hF0 (hd o.r (Or.inl rfl)).1 (hd o.r (Or.inl rfl)).2
  have hz := o.C139_radial o.z p hF hF0 (hd o.z (Or.inr (Or.inl rfl))).1 (hd o.z (Or.inr (Or.inl rfl))).2
  have hn := o.C139_radial o.nu p hF hF0 (hd o.nu (Or.inr (Or.inr rfl))).1 (hd o.nu (Or.inr (Or.inr rfl))).2
  have ar := o.C139_even_angles h0 o.r p
  have az := o.C139_odd_angles h0 o.z p
  have an := o.C139_odd_angles h0 o.nu p
  obtain ⟨c0, c1, c2⟩ := partial_coord p
  refine ⟨_, _, _, pos_partial o p 0 _ _ _ _ hr.1 hz.2 hn.2 c0, pos_partial o p 1 _ _ _ _ ar.1 az.1 an.1 c1, pos_partial o p 2 _ _ _ _ ar.2 az.2 an.2 c2, ?_⟩
  rw [surfaceK_eq o h0]
  simp only [finishK, dot3, Pi.smul_apply, Pi.add_apply, smul_eq_mul, Matrix.cons_val_zero, Matrix.cons_val_one, Matrix.cons_val, Radial.modB, div_eq_mul_inv, one_mul, pow_two]
  ring

/-! ## The transform -/

theorem grid_angle {k : ℕ} {xm xn : Fin (k + 1) → ℝ} {mboz nboz nfp : ℕ} (T : Table xm xn mboz nboz nfp) (hn : 0 < nfp) (K L : ℕ) (im : Fin (k + 1)) (j l : ℕ) :
    xm im * gridTheta K j - xn im * gridZeta nfp L l = (T.m im : ℝ) * (2 * Real.pi * (j / K)) + ((-T.n im : ℤ) : ℝ) * (2 * Real.pi * (l / L)) := by
  have hn' : (nfp : ℝ) ≠ 0 := by exact_mod_cast hn.ne'
  rw [T.xm_eq, T.xn_eq, gridTheta, gridZeta]
  push_cast
  field_simp
  ring

section
variable (K L : ℕ) (hK : 0 < K) (hL : 0 < L) (a b c d : ℤ)

theorem prod_cc : ∑ j ∈ range K, ∑ l ∈ range L, Real.cos (a * (2 * Real.pi * (j / K)) + b * (2 * Real.pi * (l / L))) * Real.cos (c * (2 * Real.pi * (j / K)) + d * (2 * Real.pi * (l / L))) =
    ((∑ j ∈ range K, ∑ l ∈ range L, Real.cos (((a - c : ℤ) : ℝ) * (2 * Real.pi * (j / K)) + ((b - d : ℤ) : ℝ) * (2 * Real.pi * (l / L)) + 0)) +
      ∑ j ∈ range K, ∑ l ∈ range L, Real.cos (((a + c : ℤ) : ℝ) * (2 * Real.pi * (j / K)) + ((b + d : ℤ) : ℝ) * (2 * Real.pi * (l / L)) + 0)) / 2 := by
  rw [← Finset.sum_add_distrib, Finset.sum_div]
  refine Finset.sum_congr rfl fun j _ => ?_
  rw [← Finset.sum_add_distrib, Finset.sum_div]
  refine Finset.sum_congr rfl fun l _ => ?_
  push_cast
  generalize 2 * Real.pi * ((j : ℝ) / K) = x
  generalize 2 * Real.pi * ((l : ℝ) / L) = y
  rw [show ((a : ℝ) - c) * x + (b - d) * y + 0 = (a * x + b * y) - (c * x + d * y) by ring, show ((a : ℝ) + c) * x + (b + d) * y + 0 = (a * x + b * y) + (c * x + d * y) by ring]
  generalize (a : ℝ) * x + b * y = u
  generalize (c : ℝ) * x + d * y = w
  rw [Real.cos_add, Real.cos_sub]
  ring

theorem prod_ss : ∑ j ∈ range K, ∑ l ∈ range L, Real.sin (a * (2 * Real.pi * (j / K)) + b * (2 * Real.pi * (l / L))) * Real.sin (c * (2 * Real.pi * (j / K)) + d * (2 * Real.pi * (l / L))) =
    ((∑ j ∈ range K, ∑ l ∈ range L, Real.cos (((a - c : ℤ) : ℝ) * (2 * Real.pi * (j / K)) + ((b - d : ℤ) : ℝ) * (2 * Real.pi * (l / L)) + 0)) -
      ∑ j ∈ range K, ∑ l ∈ range L, Real.cos (((a + c : ℤ) : ℝ) * (2 * Real.pi * (j / K)) + ((b + d : ℤ) : ℝ) * (2 * Real.pi * (l / L)) + 0)) / 2 := by
  rw [← Finset.sum_sub_distrib, Finset.sum_div]
  refine Finset.sum_congr rfl fun j _ => ?_
  rw [← Finset.sum_sub_distrib, Finset.sum_div]
  refine Finset.sum_congr rfl fun l _ => ?_
  push_cast
  generalize 2 * Real.pi * ((j : ℝ) / K) = x
  generalize 2 * Real.pi * ((l : ℝ) / L) = y
  rw [show ((a : ℝ) - c) * x + (b - d) * y + 0 = (a * x + b * y) - (c * x + d * y) by ring, show ((a : ℝ) + c) * x + (b + d) * y + 0 = (a * x + b * y) + (c * x + d * y) by ring]
  generalize (a : ℝ) * x + b * y = u
  generalize (c : ℝ) * x + d * y = w
  rw [Real.cos_add, Real.cos_sub]
  ring

theorem prod_sc : ∑ j ∈ range K, ∑ l ∈ range L, Real.sin (a * (2 * Real.pi * (j / K)) + b * (2 * Real.pi * (l / L))) * Real.cos (c * (2 * Real.pi * (j / K)) + d * (2 * Real.pi * (l / L))) =
    ((∑ j ∈ range K, ∑ l ∈ range L, Real.sin (((a - c : ℤ) : ℝ) * (2 * Real.pi * (j / K)) + ((b - d : ℤ) : ℝ) * (2 * Real.pi * (l / L)) + 0)) +
      ∑ j ∈ range K, ∑ l ∈ range L, Real.sin (((a + c : ℤ) : ℝ) * (2 * Real.pi * (j / K)) + ((b + d : ℤ) : ℝ) * (2 * Real.pi * (l / L)) + 0)) / 2 := by
  rw [← Finset.sum_add_distrib, Finset.sum_div]
  refine Finset.sum_congr rfl fun j _ => ?_
  rw [← Finset.sum_add_distrib, Finset.sum_div]
  refine Finset.sum_congr rfl fun l _ => ?_
  push_cast
  generalize 2 * Real.pi * ((j : ℝ) / K) = x
  generalize 2 * Real.pi * ((l : ℝ) / L) = y
  rw [show ((a : ℝ) - c) * x + (b - d) * y + 0 = (a * x + b * y) - (c * x + d * y) by ring, show ((a : ℝ) + c) * x + (b + d) * y + 0 = (a * x + b * y) + (c * x + d * y) by ring]
  generalize (a : ℝ) * x + b * y = u
  generalize (c : ℝ) * x + d * y = w
  rw [Real.sin_add, Real.sin_sub]
  ring

include hK hL in
theorem prod_sc_zero : ∑ j ∈ range K, ∑ l ∈ range L, Real.sin (a * (2 * Real.pi * (j / K)) + b * (2 * Real.pi * (l / L))) * Real.cos (c * (2 * Real.pi * (j / K)) + d * (2 * Real.pi * (l / L))) = 0 := by
  rw [prod_sc, Trig.sum_sin_grid K L hK hL, Trig.sum_sin_grid K L hK hL]
  simp
end

theorem dvd_iff_zero {K : ℕ} {a : ℤ} (h : |a| < K) : (K : ℤ) ∣ a ↔ a = 0 := by
  constructor
  · intro hd
    by_contra h0
    have := Int.le_of_dvd (abs_pos.2 h0) ((dvd_abs _ _).2 hd)
    omega
  · rintro rfl; exact dvd_zero _

section
variable {k : ℕ} {xm xn : Fin (k + 1) → ℝ} {mboz nboz nfp : ℕ} (T : Table xm xn mboz nboz nfp)

theorem Table.orth (i j : Fin (k + 1)) :
    ((((2 * (2 * mboz + 1) : ℕ) : ℤ) ∣ T.m i - T.m j ∧ ((2 * (2 * nboz + 1) : ℕ) : ℤ) ∣ -T.n i - -T.n j) ↔ i = j) ∧
    ((((2 * (2 * mboz + 1) : ℕ) : ℤ) ∣ T.m i + T.m j ∧ ((2 * (2 * nboz + 1) : ℕ) : ℤ) ∣ -T.n i + -T.n j) ↔ i = 0 ∧ j = 0) := by
  have m1 := abs_le.1 (T.m_le i)
  have m2 := abs_le.1 (T.m_le j)
  have n1 := abs_le.1 (T.n_le i)
  have n2 := abs_le.1 (T.n_le j)
  rw [dvd_iff_zero (by rw [abs_lt]; push_cast; omega), dvd_iff_zero (by rw [abs_lt]; push_cast; omega), dvd_iff_zero (by rw [abs_lt]; push_cast; omega), dvd_iff_zero (by rw [abs_lt]; push_cast; omega)]
  refine ⟨⟨fun h => ?_, fun h => ?_⟩, ⟨fun h => ?_, fun h => ?_⟩⟩
  · by_contra hij
    exact (T.distinct i j hij).1 ⟨by omega, by omega⟩
  · subst h; omega
  · by_cases hij : i = j
    · subst hij
      by_contra hi
      have hi' : i ≠ 0 := fun h => hi ⟨h, h⟩
      exact (T.distinct i 0 hi').1 ⟨by rw [T.first.1]; omega, by rw [T.first.2]; omega⟩
    · exact absurd ⟨by omega, by omega⟩ (T.distinct i j hij).2
  · rw [h.1, h.2, T.first.1, T.first.2]; simp

include T in
/-- The grid sums of products of modes. -/
theorem Table.sums (hn : 0 < nfp) (i j : Fin (k + 1)) :
    let K := 2 * (2 * mboz + 1)
    let L := 2 * (2 * nboz + 1)
    let A := fun (im : Fin (k + 1)) (j l : ℕ) => xm im * gridTheta K j - xn im * gridZeta nfp L l
    (∑ a ∈ range K, ∑ b ∈ range L, Real.cos (A i a b) * Real.cos (A j a b) = if i = j then (if i = 0 then (K * L : ℝ) else K * L / 2) else 0) ∧
    (∑ a ∈ range K, ∑ b ∈ range L, Real.sin (A i a b) * Real.sin (A j a b) = if i = j ∧ i ≠ 0 then (K * L / 2 : ℝ) else 0) ∧
    (∑ a ∈ range K, ∑ b ∈ range L, Real.sin (A i a b) * Real.cos (A j a b) = 0) := by
  intro K L A
  have hK : 0 < K := by omega
  have hL : 0 < L := by omega
  have o := T.orth i j
  refine ⟨?_, ?_, ?_⟩
  · simp only [A, grid_angle T hn]
    rw [prod_cc, Trig.sum_cos_grid K L hK hL, Trig.sum_cos_grid K L hK hL]
    simp only [K, L, o.1, o.2, Real.cos_zero, mul_one]
    by_cases hij : i = j
    · subst hij
      by_cases hi : i = 0 <;> simp [hi]
    · have : ¬(i = 0 ∧ j = 0) := fun h => hij (h.1.trans h.2.symm)
      simp [hij, this]
  · simp only [A, grid_angle T hn]
    rw [prod_ss, Trig.sum_cos_grid K L hK hL, Trig.sum_cos_grid K L hK hL]
    simp only [K, L, o.1, o.2, Real.cos_zero, mul_one]
    by_cases hij : i = j
    · subst hij
      by_cases hi : i = 0 <;> simp [hi]
    · have : ¬(i = 0 ∧ j = 0) := fun h => hij (h.1.trans h.2.symm)
      simp [hij, this]
  · simp only [A, grid_angle T hn]
    exact prod_sc_zero K L hK hL _ _ _ _

/-- A Fourier series in the modes of the table. -/
noncomputable def series (xm xn : Fin (k + 1) → ℝ) (c d : Fin (k + 1) → ℝ) (θ ζ : ℝ) : ℝ := ∑ jm, (c jm * Real.cos (xm jm * θ - xn jm * ζ) + d jm * Real.sin (xm jm * θ - xn jm * ζ))

theorem steps (K : ℕ) (hK : 0 < K) (L : ℕ) (hn : 0 < nfp) (hL : 0 < L) (psi0 t c : ℝ) (hc : c ≠ 0) :
    (t * (K * L : ℝ) / c) / (4 * Real.pi * Real.pi) * (gridTheta K 1 - gridTheta K 0) * (gridZeta nfp L 1 - gridZeta nfp L 0) * nfp / psi0 = t / c / psi0 := by
  have h1 : (K : ℝ) ≠ 0 := by exact_mod_cast hK.ne'
  have h2 : (L : ℝ) ≠ 0 := by exact_mod_cast hL.ne'
  have h3 : (nfp : ℝ) ≠ 0 := by exact_mod_cast hn.ne'
  have h4 : Real.pi ≠ 0 := Real.pi_ne_zero
  simp only [gridTheta, gridZeta]
  congr 1
  push_cast
  field_simp
  ring

include T in
/-- **C140.** The transform is exact on the modes of the table: if what was computed on the surface is the series with coefficients `c` (cosine) and `d` (sine) at the grid points, then
`kmns` and `kmnc` are `d/ψ₀` and `c/ψ₀`, with no aliasing. -/
theorem C140_transform (hn : 0 < nfp) (psi0 : ℝ) (K : ℝ → ℝ → ℝ) (c d : Fin (k + 1) → ℝ) (hd : d 0 = 0)
    (hK : ∀ j l, K (gridTheta (2 * (2 * mboz + 1)) j) (gridZeta nfp (2 * (2 * nboz + 1)) l) = series xm xn c d (gridTheta (2 * (2 * mboz + 1)) j) (gridZeta nfp (2 * (2 * nboz + 1)) l)) (im : Fin (k + 1)) :
    kmns xm xn mboz nboz nfp psi0 K im = d im / psi0 ∧ kmnc xm xn mboz nboz nfp psi0 K im = c im / psi0 := by
  set M := 2 * (2 * mboz + 1) with hM
  set L := 2 * (2 * nboz + 1) with hLd
  have hM0 : 0 < M := by omega
  have hL0 : 0 < L := by omega
  let A := fun (im : Fin (k + 1)) (j l : ℕ) => xm im * gridTheta M j - xn im * gridZeta nfp L l
  have S : ∀ i j, _ := fun i j => T.sums hn i j
  have es : ∑ a ∈ range M, ∑ b ∈ range L, series xm xn c d (gridTheta M a) (gridZeta nfp L b) * Real.sin (A im a b) = if im = 0 then 0 else d im * (M * L) / 2 := by
    have e1 : ∀ a b, series xm xn c d (gridTheta M a) (gridZeta nfp L b) * Real.sin (A im a b) =
        ∑ jm, (c jm * (Real.sin (A im a b) * Real.cos (A jm a b)) + d jm * (Real.sin (A im a b) * Real.sin (A jm a b))) := by
      intro a b
      rw [series, Finset.sum_mul]
      exact Finset.sum_congr rfl fun jm _ => by simp only [A]; ring
    simp only [e1]
    rw [Finset.sum_congr rfl fun a _ => Finset.sum_comm, Finset.sum_comm]
    have e2 : ∀ jm, ∑ a ∈ range M, ∑ b ∈ range L, (c jm * (Real.sin (A im a b) * Real.cos (A jm a b)) + d jm * (Real.sin (A im a b) * Real.sin (A jm a b))) =
        if im = jm ∧ im ≠ 0 then d jm * (M * L / 2) else 0 := by
      intro jm
      simp only [Finset.sum_add_distrib, ← Finset.mul_sum]
      rw [(S im jm).2.2, (S im jm).2.1]
      split_ifs <;> simp [hM, hLd]
    rw [Finset.sum_congr rfl fun jm _ => e2 jm]
    by_cases hi : im = 0
    · simp [hi]
    · simp [hi]; ring
  have ec : ∑ a ∈ range M, ∑ b ∈ range L, series xm xn c d (gridTheta M a) (gridZeta nfp L b) * Real.cos (A im a b) = if im = 0 then c im * (M * L) else c im * (M * L) / 2 := by
    have e1 : ∀ a b, series xm xn c d (gridTheta M a) (gridZeta nfp L b) * Real.cos (A im a b) =
        ∑ jm, (c jm * (Real.cos (A im a b) * Real.cos (A jm a b)) + d jm * (Real.sin (A jm a b) * Real.cos (A im a b))) := by
      intro a b
      rw [series, Finset.sum_mul]
      exact Finset.sum_congr rfl fun jm _ => by simp only [A]; ring
    simp only [e1]
    rw [Finset.sum_congr rfl fun a _ => Finset.sum_comm, Finset.sum_comm]
    have e2 : ∀ jm, ∑ a ∈ range M, ∑ b ∈ range L, (c jm * (Real.cos (A im a b) * Real.cos (A jm a b)) + d jm * (Real.sin (A jm a b) * Real.cos (A im a b))) =
        if im = jm then c jm * (if im = 0 then (M * L : ℝ) else M * L / 2) else 0 := by
      intro jm
      simp only [Finset.sum_add_distrib, ← Finset.mul_sum]
      rw [(S jm im).2.2, (S im jm).1]
      split_ifs <;> simp [hM, hLd]
    rw [Finset.sum_congr rfl fun jm _ => e2 jm]
    by_cases hi : im = 0
    · simp [hi]
    · simp [hi]; ring
  constructor
  · unfold kmns
    simp only [← hM, ← hLd, hK, ← Finset.sum_div]
    by_cases hi : im = 0
    · simp [hi, hd]
    · simp only [hi, if_false]
      rw [es, if_neg hi]
      have := steps (nfp := nfp) M hM0 L hn hL0 psi0 (d im) 1 one_ne_zero
      rw [div_one] at this
      rw [show d im / psi0 = d im / 1 / psi0 by rw [div_one], ← steps (nfp := nfp) M hM0 L hn hL0 psi0 (d im) 1 one_ne_zero]
      have h4 : Real.pi ≠ 0 := Real.pi_ne_zero
      congr 4
      field_simp
      norm_num
  · unfold kmnc
    simp only [← hM, ← hLd, hK, ← Finset.sum_div]
    rw [ec, show c im / psi0 = c im / 1 / psi0 by rw [div_one], ← steps (nfp := nfp) M hM0 L hn hL0 psi0 (c im) 1 one_ne_zero]
    have h4 : Real.pi ≠ 0 := Real.pi_ne_zero
    by_cases hi : im = 0
    · simp only [hi, if_true, div_one]
    · simp only [hi, if_false]
      congr 4
      field_simp
      norm_num

end

/-- **C140.** Hence on every surface where the splines of `K` pass through their data, `K` is the computed function divided by `ψ₀`, at all angles, if that function is a series in the modes of the table (a sine
series in the symmetric case). -/
theorem C140_reproduces {k : ℕ} (o : Radial k) {mboz nboz nfp : ℕ} (T : Table o.xm o.xn mboz nboz nfp) (hn : 0 < nfp) (psi0 s : ℝ) (hk : o.noK = false) (f : ℝ → ℝ → ℝ) (c d : Fin (k + 1) → ℝ) (hd : d 0 = 0)
    (hf : ∀ θ ζ, f θ ζ = series o.xm o.xn c d θ ζ) (hsym : o.stellsym = true → c = 0) (hF : ∀ im, o.F im s ≠ 0)
    (hX : ∀ im, o.kk.X im s = o.F im s * kmns o.xm o.xn mboz nboz nfp psi0 f im) (hY : ∀ im, o.kk.Y im s = o.F im s * kmnc o.xm o.xn mboz nboz nfp psi0 f im) (θ ζ : ℝ) :
    o.K ![s, θ, ζ] = f θ ζ / psi0 := by
  have h0 : o.FirstConst := by
    refine ⟨?_, ?_⟩
    · rw [T.xm_eq, T.first.1]; simp
    · rw [T.xn_eq, T.first.2]; simp
  have ht := C140_transform T hn psi0 f c d hd (fun j l => hf _ _)
  have eX : ∀ im, o.kk.X im s / o.F im s = d im / psi0 := fun im => by rw [hX, (ht im).1, mul_div_cancel_left₀ _ (hF im)]
  have eY : ∀ im, o.kk.Y im s / o.F im s = c im / psi0 := fun im => by rw [hY, (ht im).2, mul_div_cancel_left₀ _ (hF im)]
  simp only [Radial.K, hk, Bool.false_eq_true, if_false, Radial.oddVal, o.sum_odd h0, Radial.invEven, Matrix.cons_val_zero, eX, eY, Radial.angle, Matrix.cons_val_one, Matrix.cons_val]
  rw [hf, series, Finset.sum_div]
  cases hs : o.stellsym
  · simp only [Bool.false_eq_true, if_false]
    rw [← Finset.sum_add_distrib]
    exact Finset.sum_congr rfl fun im _ => by ring
  · simp only [if_true]
    refine Finset.sum_congr rfl fun im _ => ?_
    rw [hsym hs]
    simp; ring

/-- Not vacuous: a table with three modes. -/
example : Nonempty (Table ![(0 : ℝ), 1, 2] ![(0 : ℝ), 6, -3] 2 2 3) := by
  refine ⟨⟨![0, 1, 2], ![0, 2, -1], fun im => ?_, fun im => ?_, by decide, by decide, by decide, by decide⟩⟩
  · fin_cases im <;> simp
  · fin_cases im <;> simp <;> norm_num

end Simsopt.BField
