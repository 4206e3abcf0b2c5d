import Verif.Tracing.Rhs
import Mathlib.Analysis.SpecialFunctions.Trigonometric.Deriv
import Mathlib.Analysis.SpecialFunctions.Pow.Deriv
/-!
# `BoozerRadialInterpolant` (C139): src/simsopt/field/boozermagneticfield.py L302-1085, src/simsoptpp/boozerradialinterpolant.cpp

The radial splines (scipy's `InterpolatedUnivariateSpline`) are arbitrary functions of `s`; where a theorem needs a fact about them it is a hypothesis.  There are `k + 1` Fourier modes.
-/
namespace Simsopt.BField
open Tracing Fields

/-- What the object holds: mode numbers, `mn_factor_splines`, `d_mn_factor_splines`, and for each quantity the splines of the main coefficients (`X`), of their `s` derivatives (`dX`), and of the coefficients
that are used only without stellarator symmetry (`Y`, `dY`). -/
structure Spl (k : ℕ) where
  X : Fin (k + 1) → ℝ → ℝ
  dX : Fin (k + 1) → ℝ → ℝ
  Y : Fin (k + 1) → ℝ → ℝ
  dY : Fin (k + 1) → ℝ → ℝ

/-- The mode table and the scale factors. -/
structure Radial (k : ℕ) where
  xm : Fin (k + 1) → ℝ
  xn : Fin (k + 1) → ℝ
  F : Fin (k + 1) → ℝ → ℝ
  dF : Fin (k + 1) → ℝ → ℝ
  stellsym : Bool
  noK : Bool
  /-- `bmnc`, `bmns` -/
  b : Spl k
  /-- `rmnc`, `rmns` -/
  r : Spl k
  /-- `zmns`, `zmnc` -/
  z : Spl k
  /-- `numns`, `numnc` -/
  nu : Spl k
  /-- `kmns`, `kmnc` -/
  kk : Spl k

namespace Radial
variable {k : ℕ} (o : Radial k)

/-- `xm(im)*thetas(ip)-xn(im)*zetas(ip)` -/
def angle (im : Fin (k + 1)) (p : P3) : ℝ := o.xm im * p 1 - o.xn im * p 2

/-- `inverse_fourier_transform_even` (boozerradialinterpolant.cpp L200-220), one point. -/
noncomputable def invEven (c : Fin (k + 1) → ℝ) (p : P3) : ℝ := ∑ im, c im * Real.cos (o.angle im p)

/-- `inverse_fourier_transform_odd` (boozerradialinterpolant.cpp L178-198), one point; the loop starts at `im = 1`. -/
noncomputable def invOdd (c : Fin (k + 1) → ℝ) (p : P3) : ℝ := ∑ im : Fin k, c im.succ * Real.sin (o.angle im.succ p)

/-- `_modB_impl` (L1018-1032), `_R_impl` (L899-913). -/
noncomputable def evenVal (S : Spl k) (p : P3) : ℝ :=
  let v := o.invEven (fun im => S.X im (p 0) / o.F im (p 0)) p
  if o.stellsym then v else v + o.invOdd (fun im => S.Y im (p 0) / o.F im (p 0)) p

/-- `_dmodBdtheta_impl` (L1034-1048), `_dRdtheta_impl` (L847-861). -/
noncomputable def evenDtheta (S : Spl k) (p : P3) : ℝ :=
  let v := o.invOdd (fun im => -o.xm im * S.X im (p 0) / o.F im (p 0)) p
  if o.stellsym then v else v + o.invEven (fun im => o.xm im * S.Y im (p 0) / o.F im (p 0)) p

/-- `_dmodBdzeta_impl` (L1050-1064), `_dRdzeta_impl` (L863-877). -/
noncomputable def evenDzeta (S : Spl k) (p : P3) : ℝ :=
  let v := o.invOdd (fun im => o.xn im * S.X im (p 0) / o.F im (p 0)) p
  if o.stellsym then v else v + o.invEven (fun im => -o.xn im * S.Y im (p 0) / o.F im (p 0)) p

/-- `_dmodBds_impl` (L1066-1084), `_dRds_impl` (L879-897). -/
noncomputable def evenDs (S : Spl k) (p : P3) : ℝ :=
  let v := o.invEven (fun im => (S.dX im (p 0) - S.X im (p 0) * o.dF im (p 0) / o.F im (p 0)) / o.F im (p 0)) p
  if o.stellsym then v else v + o.invOdd (fun im => (S.dY im (p 0) - S.Y im (p 0) * o.dF im (p 0) / o.F im (p 0)) / o.F im (p 0)) p

/-- `_nu_impl` (L779-793), `_Z_impl` (L967-981), and `_K_impl` (L725-741) after its test of `no_K`. -/
noncomputable def oddVal (S : Spl k) (p : P3) : ℝ :=
  let v := o.invOdd (fun im => S.X im (p 0) / o.F im (p 0)) p
  if o.stellsym then v else v + o.invEven (fun im => S.Y im (p 0) / o.F im (p 0)) p

/-- `_dnudtheta_impl` (L795-809), `_dZdtheta_impl` (L915-929), `_dKdtheta_impl` (L743-759) after its test. -/
noncomputable def oddDtheta (S : Spl k) (p : P3) : ℝ :=
  let v := o.invEven (fun im => S.X im (p 0) * o.xm im / o.F im (p 0)) p
  if o.stellsym then v else v + o.invOdd (fun im => -S.Y im (p 0) * o.xm im / o.F im (p 0)) p

/-- `_dnudzeta_impl` (L811-825), `_dZdzeta_impl` (L931-945), `_dKdzeta_impl` (L761-777) after its test. -/
noncomputable def oddDzeta (S : Spl k) (p : P3) : ℝ :=
  let v := o.invEven (fun im => -S.X im (p 0) * o.xn im / o.F im (p 0)) p
  if o.stellsym then v else v + o.invOdd (fun im => S.Y im (p 0) * o.xn im / o.F im (p 0)) p

/-- `_dnuds_impl` (L827-845), `_dZds_impl` (L947-965). -/
noncomputable def oddDs (S : Spl k) (p : P3) : ℝ :=
  let v := o.invOdd (fun im => (S.dX im (p 0) - S.X im (p 0) * o.dF im (p 0) / o.F im (p 0)) / o.F im (p 0)) p
  if o.stellsym then v else v + o.invEven (fun im => (S.dY im (p 0) - S.Y im (p 0) * o.dF im (p 0) / o.F im (p 0)) / o.F im (p 0)) p

/-- `modB` -/
noncomputable def modB : P3 → ℝ := o.evenVal o.b
/-- `K`: zero if `no_K` -/
noncomputable def K (p : P3) : ℝ := if o.noK then 0 else o.oddVal o.kk p
/-- `dKdtheta` -/
noncomputable def dKdtheta (p : P3) : ℝ := if o.noK then 0 else o.oddDtheta o.kk p
/-- `dKdzeta` -/
noncomputable def dKdzeta (p : P3) : ℝ := if o.noK then 0 else o.oddDzeta o.kk p

/-! ## Angular derivatives -/

/-- The first mode is the constant one (booz_xform lists `m = 0, n = 0` first). -/
def FirstConst : Prop := o.xm 0 = 0 ∧ o.xn 0 = 0

theorem sum_odd (h : o.FirstConst) (c : Fin (k + 1) → ℝ) (p : P3) : o.invOdd c p = ∑ im, c im * Real.sin (o.angle im p) := by
  rw [Fin.sum_univ_succ]
  simp [invOdd, angle, h.1, h.2]

/-- `f` along the line through `p` in the direction of the coordinate `i` has the derivative `d`. -/
def Partial (f : P3 → ℝ) (p : P3) (i : Fin 3) (d : ℝ) : Prop := HasDerivAt (fun t => f (Function.update p i t)) d (p i)

theorem d_angle (im : Fin (k + 1)) (p : P3) : HasDerivAt (fun t => o.angle im (Function.update p 1 t)) (o.xm im) (p 1) ∧
    HasDerivAt (fun t => o.angle im (Function.update p 2 t)) (-o.xn im) (p 2) := by
  refine ⟨?_, ?_⟩
  · have := ((hasDerivAt_id (p 1)).const_mul (o.xm im)).sub_const (o.xn im * p 2)
    simpa [angle] using this
  · have := ((hasDerivAt_id (p 2)).const_mul (o.xn im)).const_sub (o.xm im * p 1)
    simpa [angle] using this

theorem even_partial (c : P3 → Fin (k + 1) → ℝ) (p : P3) (i : Fin 3) (d : Fin (k + 1) → ℝ) (hc : ∀ t, c (Function.update p i t) = c p)
    (ha : ∀ im, HasDerivAt (fun t => o.angle im (Function.update p i t)) (d im) (p i)) :
    Partial (fun q => o.invEven (c q) q) p i (∑ im, -d im * c p im * Real.sin (o.angle im p)) := by
  have h := HasDerivAt.fun_sum (u := Finset.univ) (fun im _ => ((ha im).cos).const_mul (c p im))
  unfold Partial
  simp only [invEven, hc]
  refine h.congr_deriv (Finset.sum_congr rfl fun im _ => ?_)
  simp only [Function.update_eq_self]; ring

theorem odd_partial (h0 : o.FirstConst) (c : P3 → Fin (k + 1) → ℝ) (p : P3) (i : Fin 3) (d : Fin (k + 1) → ℝ) (hc : ∀ t, c (Function.update p i t) = c p)
    (ha : ∀ im, HasDerivAt (fun t => o.angle im (Function.update p i t)) (d im) (p i)) :
    Partial (fun q => o.invOdd (c q) q) p i (∑ im, d im * c p im * Real.cos (o.angle im p)) := by
  have h := HasDerivAt.fun_sum (u := Finset.univ) (fun im _ => ((ha im).sin).const_mul (c p im))
  unfold Partial
  simp only [o.sum_odd h0, hc]
  refine h.congr_deriv (Finset.sum_congr rfl fun im _ => ?_)
  simp only [Function.update_eq_self]; ring

theorem partial_if {f g : P3 → ℝ} {p : P3} {i : Fin 3} {a b : ℝ} (st : Bool) (hf : Partial f p i a) (hg : Partial g p i b) :
    Partial (fun q => if st then f q else f q + g q) p i (if st then a else a + b) := by
  cases st
  · simpa [Partial] using HasDerivAt.fun_add hf hg
  · simpa [Partial] using hf

/-- **C139.** The angular derivatives of the quantities with a cosine series as their symmetric part (`modB`, `R`) are exact, whatever the splines. -/
theorem C139_even_angles (h0 : o.FirstConst) (S : Spl k) (p : P3) : Partial (o.evenVal S) p 1 (o.evenDtheta S p) ∧ Partial (o.evenVal S) p 2 (o.evenDzeta S p) := by
  have hc : ∀ (i : Fin 3), i ≠ 0 → ∀ (T : Fin (k + 1) → ℝ → ℝ) (t : ℝ), (fun im => T im ((Function.update p i t) 0) / o.F im ((Function.update p i t) 0)) = fun im => T im (p 0) / o.F im (p 0) := by
    intro i hi T t; rw [Function.update_of_ne (Ne.symm hi)]
  refine ⟨?_, ?_⟩
  · refine partial_if (f := fun q => o.invEven (fun im => S.X im (q 0) / o.F im (q 0)) q) (g := fun q => o.invOdd (fun im => S.Y im (q 0) / o.F im (q 0)) q) o.stellsym ?_ ?_
    · rw [o.sum_odd h0]
      refine HasDerivAt.congr_deriv (o.even_partial (fun q im => S.X im (q 0) / o.F im (q 0)) p 1 o.xm (hc 1 (by decide) S.X) fun im => (o.d_angle im p).1) (Finset.sum_congr rfl fun im _ => ?_)
      ring
    · refine HasDerivAt.congr_deriv (o.odd_partial h0 (fun q im => S.Y im (q 0) / o.F im (q 0)) p 1 o.xm (hc 1 (by decide) S.Y) fun im => (o.d_angle im p).1) (Finset.sum_congr rfl fun im _ => ?_)
      ring
  · refine partial_if (f := fun q => o.invEven (fun im => S.X im (q 0) / o.F im (q 0)) q) (g := fun q => o.invOdd (fun im => S.Y im (q 0) / o.F im (q 0)) q) o.stellsym ?_ ?_
    · rw [o.sum_odd h0]
      refine HasDerivAt.congr_deriv (o.even_partial (fun q im => S.X im (q 0) / o.F im (q 0)) p 2 (fun im => -o.xn im) (hc 2 (by decide) S.X) fun im => (o.d_angle im p).2) (Finset.sum_congr rfl fun im _ => ?_)
      ring
    · refine HasDerivAt.congr_deriv (o.odd_partial h0 (fun q im => S.Y im (q 0) / o.F im (q 0)) p 2 (fun im => -o.xn im) (hc 2 (by decide) S.Y) fun im => (o.d_angle im p).2) (Finset.sum_congr rfl fun im _ => ?_)
      ring

/-- **C139.** The same for the quantities with a sine series as their symmetric part (`Z`, `nu`, `K`). -/
theorem C139_odd_angles (h0 : o.FirstConst) (S : Spl k) (p : P3) : Partial (o.oddVal S) p 1 (o.oddDtheta S p) ∧ Partial (o.oddVal S) p 2 (o.oddDzeta S p) := by
  have hc : ∀ (i : Fin 3), i ≠ 0 → ∀ (T : Fin (k + 1) → ℝ → ℝ) (t : ℝ), (fun im => T im ((Function.update p i t) 0) / o.F im ((Function.update p i t) 0)) = fun im => T im (p 0) / o.F im (p 0) := by
    intro i hi T t; rw [Function.update_of_ne (Ne.symm hi)]
  refine ⟨?_, ?_⟩
  · refine partial_if (f := fun q => o.invOdd (fun im => S.X im (q 0) / o.F im (q 0)) q) (g := fun q => o.invEven (fun im => S.Y im (q 0) / o.F im (q 0)) q) o.stellsym ?_ ?_
    · refine HasDerivAt.congr_deriv (o.odd_partial h0 (fun q im => S.X im (q 0) / o.F im (q 0)) p 1 o.xm (hc 1 (by decide) S.X) fun im => (o.d_angle im p).1) (Finset.sum_congr rfl fun im _ => ?_)
      ring
    · rw [o.sum_odd h0]
      refine HasDerivAt.congr_deriv (o.even_partial (fun q im => S.Y im (q 0) / o.F im (q 0)) p 1 o.xm (hc 1 (by decide) S.Y) fun im => (o.d_angle im p).1) (Finset.sum_congr rfl fun im _ => ?_)
      ring
  · refine partial_if (f := fun q => o.invOdd (fun im => S.X im (q 0) / o.F im (q 0)) q) (g := fun q => o.invEven (fun im => S.Y im (q 0) / o.F im (q 0)) q) o.stellsym ?_ ?_
    · refine HasDerivAt.congr_deriv (o.odd_partial h0 (fun q im => S.X im (q 0) / o.F im (q 0)) p 2 (fun im => -o.xn im) (hc 2 (by decide) S.X) fun im => (o.d_angle im p).2) (Finset.sum_congr rfl fun im _ => ?_)
      ring
    · rw [o.sum_odd h0]
      refine HasDerivAt.congr_deriv (o.even_partial (fun q im => S.Y im (q 0) / o.F im (q 0)) p 2 (fun im => -o.xn im) (hc 2 (by decide) S.Y) fun im => (o.d_angle im p).2) (Finset.sum_congr rfl fun im _ => ?_)
      ring

/-- **C139.** `dKdtheta` and `dKdzeta` are the derivatives of `K`, also with `no_K`. -/
theorem C139_K (h0 : o.FirstConst) (p : P3) : Partial o.K p 1 (o.dKdtheta p) ∧ Partial o.K p 2 (o.dKdzeta p) := by
  unfold K dKdtheta dKdzeta
  cases o.noK
  · simpa using o.C139_odd_angles h0 o.kk p
  · exact ⟨by simpa [Partial] using hasDerivAt_const (p 1) (0 : ℝ), by simpa [Partial] using hasDerivAt_const (p 2) (0 : ℝ)⟩

/-! ## The radial derivative -/

/-- **C139.** The radial derivatives undo the scaling of the coefficients correctly: if the second splines are the derivatives of the first (coefficients and scale factors alike), the radial derivative of
`modB`, `R`, `Z` and `nu` is exact. -/
theorem C139_radial (S : Spl k) (p : P3) (hF : ∀ im, HasDerivAt (o.F im) (o.dF im (p 0)) (p 0)) (hF0 : ∀ im, o.F im (p 0) ≠ 0)
    (hX : ∀ im, HasDerivAt (S.X im) (S.dX im (p 0)) (p 0)) (hY : ∀ im, HasDerivAt (S.Y im) (S.dY im (p 0)) (p 0)) :
    Partial (o.evenVal S) p 0 (o.evenDs S p) ∧ Partial (o.oddVal S) p 0 (o.oddDs S p) := by
  have ha : ∀ im t, o.angle im (Function.update p 0 t) = o.angle im p := fun im t => by simp [angle]
  have hq : ∀ (T dT : Fin (k + 1) → ℝ → ℝ), (∀ im, HasDerivAt (T im) (dT im (p 0)) (p 0)) → ∀ im,
      HasDerivAt (fun t => T im t / o.F im t) ((dT im (p 0) - T im (p 0) * o.dF im (p 0) / o.F im (p 0)) / o.F im (p 0)) (p 0) := by
    intro T dT hT im
    refine ((hT im).fun_div (hF im) (hF0 im)).congr_deriv ?_
    have := hF0 im
    field_simp
  have he : ∀ (T dT : Fin (k + 1) → ℝ → ℝ), (∀ im, HasDerivAt (T im) (dT im (p 0)) (p 0)) →
      Partial (fun q => o.invEven (fun im => T im (q 0) / o.F im (q 0)) q) p 0 (o.invEven (fun im => (dT im (p 0) - T im (p 0) * o.dF im (p 0) / o.F im (p 0)) / o.F im (p 0)) p) := by
    intro T dT hT
    unfold Partial invEven
    simp only [ha, Function.update_self]
    exact HasDerivAt.fun_sum fun im _ => (hq T dT hT im).mul_const _
  have ho : ∀ (T dT : Fin (k + 1) → ℝ → ℝ), (∀ im, HasDerivAt (T im) (dT im (p 0)) (p 0)) →
      Partial (fun q => o.invOdd (fun im => T im (q 0) / o.F im (q 0)) q) p 0 (o.invOdd (fun im => (dT im (p 0) - T im (p 0) * o.dF im (p 0) / o.F im (p 0)) / o.F im (p 0)) p) := by
    intro T dT hT
    unfold Partial invOdd
    simp only [ha, Function.update_self]
    exact HasDerivAt.fun_sum fun im _ => (hq T dT hT im.succ).mul_const _
  exact ⟨partial_if o.stellsym (he S.X S.dX hX) (ho S.Y S.dY hY), partial_if o.stellsym (ho S.X S.dX hX) (he S.Y S.dY hY)⟩

/-! ## Symmetries -/

/-- **C139.** With stellarator symmetry `modB` and `R` are even and `Z`, `nu` and `K` odd under `(θ, ζ) → (-θ, -ζ)`. -/
theorem C139_parity (S : Spl k) (hs : o.stellsym = true) (s θ ζ : ℝ) : o.evenVal S ![s, -θ, -ζ] = o.evenVal S ![s, θ, ζ] ∧ o.oddVal S ![s, -θ, -ζ] = -o.oddVal S ![s, θ, ζ] := by
  have e : ∀ im, o.angle im ![s, -θ, -ζ] = -o.angle im ![s, θ, ζ] := fun im => by simp [angle]; ring
  constructor
  · simp [evenVal, invEven, hs, e]
  · simp [oddVal, invOdd, hs, e]

/-- **C139.** All quantities have the period `2π` in `θ` and, if the toroidal mode numbers are multiples of `nfp`, the period `2π/nfp` in `ζ`. -/
theorem C139_period (S : Spl k) (nfp : ℕ) (hn : 0 < nfp) (m n : Fin (k + 1) → ℤ) (hm : ∀ im, o.xm im = m im) (hx : ∀ im, o.xn im = n im * nfp) (s θ ζ : ℝ) (a b : ℤ) :
    o.evenVal S ![s, θ + a * (2 * Real.pi), ζ + b * (2 * Real.pi / nfp)] = o.evenVal S ![s, θ, ζ] ∧ o.oddVal S ![s, θ + a * (2 * Real.pi), ζ + b * (2 * Real.pi / nfp)] = o.oddVal S ![s, θ, ζ] := by
  have hn' : (nfp : ℝ) ≠ 0 := by exact_mod_cast hn.ne'
  have e : ∀ im, o.angle im ![s, θ + a * (2 * Real.pi), ζ + b * (2 * Real.pi / nfp)] = o.angle im ![s, θ, ζ] + ((m im * a - n im * b : ℤ) : ℝ) * (2 * Real.pi) := by
    intro im
    simp only [angle, hm, hx, Matrix.cons_val_one, Matrix.cons_val]
    push_cast
    field_simp
    ring
  constructor
  · simp [evenVal, invEven, invOdd, e, Real.cos_add_int_mul_two_pi, Real.sin_add_int_mul_two_pi, -Int.cast_sub, -Int.cast_mul]
  · simp [oddVal, invEven, invOdd, e, Real.cos_add_int_mul_two_pi, Real.sin_add_int_mul_two_pi, -Int.cast_sub, -Int.cast_mul]

/-- The coefficients filtered by `N` (L597-601, L629-633, L716-724): a mode with `xn ≠ N xm` gets a spline through zeros. -/
noncomputable def filterQS (N : ℝ) (xm xn : Fin (k + 1) → ℝ) (zeroSpline : ℝ → ℝ) (T : Fin (k + 1) → ℝ → ℝ) (im : Fin (k + 1)) : ℝ → ℝ :=
  open Classical in if xn im ≠ N * xm im then zeroSpline else T im

/-- **C139.** If `N` is given, `modB` and `K` depend on the angles only through `θ - N ζ` (the spline through zeros is zero). -/
theorem C139_quasisymmetric (N : ℝ) (X Y : Fin (k + 1) → ℝ → ℝ) (dX dY : Fin (k + 1) → ℝ → ℝ) (z : ℝ → ℝ) (hz : ∀ s, z s = 0) (S : Spl k)
    (hS : S = ⟨filterQS N o.xm o.xn z X, dX, filterQS N o.xm o.xn z Y, dY⟩) (p p' : P3) (hs : p 0 = p' 0) (hc : p 1 - N * p 2 = p' 1 - N * p' 2) :
    o.evenVal S p = o.evenVal S p' ∧ o.oddVal S p = o.oddVal S p' := by
  have key : ∀ (T : Fin (k + 1) → ℝ → ℝ) (f : ℝ → ℝ) (im : Fin (k + 1)),
      filterQS N o.xm o.xn z T im (p 0) / o.F im (p 0) * f (o.angle im p) = filterQS N o.xm o.xn z T im (p' 0) / o.F im (p' 0) * f (o.angle im p') := by
    intro T f im
    rw [hs]
    by_cases h : o.xn im = N * o.xm im
    · have : o.angle im p = o.angle im p' := by
        simp only [angle, h]; linear_combination o.xm im * hc
      rw [this]
    · simp [filterQS, h, hz]
  subst hS
  have e1 : ∀ T : Fin (k + 1) → ℝ → ℝ, o.invEven (fun im => filterQS N o.xm o.xn z T im (p 0) / o.F im (p 0)) p = o.invEven (fun im => filterQS N o.xm o.xn z T im (p' 0) / o.F im (p' 0)) p' :=
    fun T => Finset.sum_congr rfl fun im _ => key T Real.cos im
  have e2 : ∀ T : Fin (k + 1) → ℝ → ℝ, o.invOdd (fun im => filterQS N o.xm o.xn z T im (p 0) / o.F im (p 0)) p = o.invOdd (fun im => filterQS N o.xm o.xn z T im (p' 0) / o.F im (p' 0)) p' :=
    fun T => Finset.sum_congr rfl fun im _ => key T Real.sin im.succ
  constructor
  · simp only [evenVal, e1, e2]
  · simp only [oddVal, e1, e2]

end Radial

/-! ## The data behind the splines -/

/-- `mn_factor` with `rescale=True` (L496-503). -/
noncomputable def mnFactor (m : ℕ) (s : ℝ) : ℝ := if m = 1 then s ^ (-0.5 : ℝ) else if m % 2 = 1 ∧ 1 < m then s ^ (-1.5 : ℝ) else if m % 2 = 0 ∧ 1 < m then s ^ (-1 : ℝ) else 1

/-- `d_mn_factor` (L497-503). -/
noncomputable def dMnFactor (m : ℕ) (s : ℝ) : ℝ :=
  if m = 1 then -0.5 * s ^ (-1.5 : ℝ) else if m % 2 = 1 ∧ 1 < m then -1.5 * s ^ (-2.5 : ℝ) else if m % 2 = 0 ∧ 1 < m then -s ^ (-2 : ℝ) else 0

/-- **C139.** `d_mn_factor` is the derivative of `mn_factor`. -/
theorem C139_factor (m : ℕ) (s : ℝ) (hs : 0 < s) : HasDerivAt (mnFactor m) (dMnFactor m s) s := by
  have h : ∀ e : ℝ, HasDerivAt (fun s : ℝ => s ^ e) (e * s ^ (e - 1)) s := fun e => Real.hasDerivAt_rpow_const (Or.inl hs.ne')
  unfold mnFactor dMnFactor
  split_ifs
  · exact (h (-0.5)).congr_deriv (by norm_num)
  · exact (h (-1.5)).congr_deriv (by norm_num)
  · exact (h (-1)).congr_deriv (by norm_num)
  · exact hasDerivAt_const s 1

/-- **C139.** The scaled coefficient is the documented one: divided by `s^(1/2)`, `s` or `s^(3/2)`. -/
theorem C139_factor_documented (m : ℕ) (s b : ℝ) (hs : 0 < s) : mnFactor m s * b = if m = 1 then b / s ^ (1/2 : ℝ) else if m = 0 then b else if m % 2 = 0 then b / s else b / s ^ (3/2 : ℝ) := by
  have e : ∀ x : ℝ, s ^ (-x) = 1 / s ^ x := fun x => by rw [Real.rpow_neg hs.le, one_div]
  unfold mnFactor
  rcases Nat.lt_or_ge 1 m with h | h
  · have h1 : m ≠ 1 := by omega
    have h0 : m ≠ 0 := by omega
    rcases Nat.mod_two_eq_zero_or_one m with h2 | h2
    · simp only [h1, h0, h2, h, if_false, and_true, if_true, zero_ne_one]
      rw [e]; simp; ring
    · simp only [h1, h0, h2, h, if_false, and_true, if_true, one_ne_zero]
      rw [e]; norm_num; ring
  · obtain rfl | rfl : m = 0 ∨ m = 1 := by omega
    · simp
    · simp only [if_true]; rw [e]; norm_num; ring

/-- An array extended to the ends of the interval (L506-509, and in the same way for all arrays, L512-522, L556-561): `b` on the half grid has `ns` values, the result `ns + 2`. -/
noncomputable def extend (ns : ℕ) (b : ℕ → ℝ) (i : ℕ) : ℝ := if i = 0 then 1.5 * b 0 - 0.5 * b 1 else if i = ns + 1 then 1.5 * b (ns - 1) - 0.5 * b (ns - 2) else b (i - 1)

/-- `s_half_ext` (L461-463): 0, the half grid, 1. -/
noncomputable def sHalfExt (ns : ℕ) (sIn : ℕ → ℝ) (i : ℕ) : ℝ := if i = 0 then 0 else if i = ns + 1 then 1 else sIn (i - 1)

/-- `(b[2:-1] - b[1:-2])/ds` (L510, L563-565), entry `i`, on the grid `s_full[1:-1]`. -/
noncomputable def diffs (ns : ℕ) (b : ℕ → ℝ) (ds : ℝ) (i : ℕ) : ℝ := (extend ns b (i + 2) - extend ns b (i + 1)) / ds

/-- The half grid of `ns` surfaces, and `s_full[1:-1]`, entry `i` (`np.linspace(0, 1, ns+1)`). -/
noncomputable def halfGrid (ns : ℕ) (j : ℕ) : ℝ := (j + 0.5) / ns
/-- see `halfGrid` -/
noncomputable def fullInner (ns : ℕ) (i : ℕ) : ℝ := (i + 1) / ns

/-- **C139.** The values added at the ends are exact for linear profiles, and then the extended array is the profile on the extended grid. -/
theorem C139_extend (ns : ℕ) (h : 2 ≤ ns) (α β : ℝ) (i : ℕ) (hi : i < ns + 2) : extend ns (fun j => α + β * halfGrid ns j) i = α + β * sHalfExt ns (halfGrid ns) i := by
  have hn : (ns : ℝ) ≠ 0 := by exact_mod_cast (by omega : ns ≠ 0)
  unfold extend sHalfExt
  split_ifs with h0 h1
  · simp [halfGrid]; field_simp; ring
  · simp only [halfGrid]
    rw [Nat.cast_sub (by omega), Nat.cast_sub (by omega)]; push_cast
    field_simp; ring
  · rfl

/-- **C139.** The differences are exact for quadratic profiles: they are the derivative at the points of the grid they are interpolated on. -/
theorem C139_diffs (ns : ℕ) (h : 2 ≤ ns) (α β γ : ℝ) (i : ℕ) (hi : i < ns - 1) :
    diffs ns (fun j => α + β * halfGrid ns j + γ * halfGrid ns j ^ 2) (halfGrid ns 1 - halfGrid ns 0) i = β + 2 * γ * fullInner ns i := by
  have hn : (ns : ℝ) ≠ 0 := by exact_mod_cast (by omega : ns ≠ 0)
  have h1 : ¬ i + 2 = ns + 1 := by omega
  have h2 : ¬ i + 1 = ns + 1 := by omega
  simp only [diffs, extend, h1, h2, Nat.add_eq_zero_iff, OfNat.ofNat_ne_zero, one_ne_zero, and_false, if_false, Nat.add_sub_cancel, show i + 2 - 1 = i + 1 from rfl, halfGrid, fullInner]
  push_cast
  field_simp
  ring

/-! ## Where the constructor fails -/

/-- The part of `init_splines` that handles one mode of `bmnc` (L597-606): the names bound before the loop are `bmnc`, `mn_factor` and, only without `rescale`, `dbmncds`; evaluating an unbound name raises. -/
noncomputable def initMode (rescale enforceQs : Bool) (symmetric : Bool) (bmnc : ℝ) (dbmncds : Option ℝ) : Except String (ℝ × Option ℝ) :=
  if enforceQs && !symmetric then
    match dbmncds with
    | some d => .ok (0 * bmnc, some (0 * d))
    | none => .error "NameError: dbmncds"
  else if rescale then .ok (bmnc, none) else
    match dbmncds with
    | some d => .ok (bmnc, some d)
    | none => .error "NameError: dbmncds"

/-- **C139, violated.** `rescale=True` cannot be combined with `N`: as soon as there is a mode with `xn ≠ N xm` the constructor raises, because `dbmncds` is computed only without `rescale` (L510). -/
theorem C139_rescale_with_N_violated (bmnc : ℝ) : ∃ e, initMode true true false bmnc none = .error e := ⟨_, rfl⟩

/-- What one process holds after `__init__` under MPI (L386-450): `leader` is `mpi.proc0_groups`.  The splines made by `init_splines` are broadcast from process 0, those made by `compute_K` are not. -/
structure Held (σ : Type) where
  modes : Option σ
  kmns : Option σ

/-- `__init__` on one process; `s`, `t` are the splines process 0 makes in `init_splines` and `compute_K` (all group leaders make the same). -/
def initMpi {σ : Type} (leader noK : Bool) (s t : σ) : Held σ :=
  let own : Held σ := if leader then ⟨some s, if noK then none else some t⟩ else ⟨none, none⟩
  -- bcast(root=0): everything but kmns_splines
  { own with modes := some s }

/-- `_K_impl` (L725-741): `none` stands for the `AttributeError` on a missing `kmns_splines`. -/
def evalK {σ : Type} (noK : Bool) (h : Held σ) (f : σ → ℝ) : Option ℝ := if noK then some 0 else h.kmns.map f

/-- **C139, violated.** Under MPI the processes that do not lead a group get the splines of `modB` but not those of `K`: asking for `K` (as tracing with `mode='gc'` does) raises there. -/
theorem C139_mpi_K_violated {σ : Type} (s t : σ) (f : σ → ℝ) : evalK false (initMpi true false s t) f = some (f t) ∧
    (initMpi false false s t).modes = some s ∧ evalK false (initMpi false false s t) f = none := ⟨rfl, rfl, rfl⟩

/-- **C139.** With `no_K` (or `enforce_vacuum`) all processes agree on `K = 0`. -/
theorem C139_mpi_noK {σ : Type} (leader : Bool) (s t : σ) (f : σ → ℝ) : evalK true (initMpi leader true s t) f = some 0 := rfl

/-- Not vacuous: three modes, one of them not symmetric, without stellarator symmetry, and a scale factor that varies. -/
noncomputable def demo : Radial 2 where
  xm := ![0, 1, 2]
  xn := ![0, 2, 2]
  F := fun im s => if im = 0 then 1 else s
  dF := fun im _ => if im = 0 then 0 else 1
  stellsym := false
  noK := false
  b := ⟨fun _ s => s ^ 2, fun _ s => 2 * s, fun _ s => s, fun _ _ => 1⟩
  r := ⟨fun _ s => s ^ 2, fun _ s => 2 * s, fun _ s => s, fun _ _ => 1⟩
  z := ⟨fun _ s => s ^ 2, fun _ s => 2 * s, fun _ s => s, fun _ _ => 1⟩
  nu := ⟨fun _ s => s ^ 2, fun _ s => 2 * s, fun _ s => s, fun _ _ => 1⟩
  kk := ⟨fun _ s => s ^ 2, fun _ s => 2 * s, fun _ s => s, fun _ _ => 1⟩

example : demo.FirstConst ∧ (∀ im, HasDerivAt (demo.F im) (demo.dF im 1) 1) ∧ (∀ im, demo.F im 1 ≠ 0) ∧ (∀ im, HasDerivAt (demo.b.X im) (demo.b.dX im 1) 1) ∧ ∀ im, HasDerivAt (demo.b.Y im) (demo.b.dY im 1) 1 := by
  refine ⟨⟨rfl, rfl⟩, fun im => ?_, fun im => ?_, fun im => ?_, fun im => hasDerivAt_id 1⟩
  · by_cases h : im = 0
    · simpa [demo, h] using hasDerivAt_const (1 : ℝ) (1 : ℝ)
    · simpa [demo, h] using hasDerivAt_id' (1 : ℝ)
  · simp [demo]
  · simpa [demo] using hasDerivAt_pow 2 (1 : ℝ)

end Simsopt.BField
