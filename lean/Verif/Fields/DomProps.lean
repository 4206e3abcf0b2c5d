import Verif.Fields.DomDeriv
import Verif.Fields.Cyl
/-!
# C104: the Dommaschk field is the gradient of a harmonic potential
-/
namespace Simsopt.Fields.Dom
open Finset

namespace Mode
variable (w : Mode)

/-- The derivatives of the components of one mode, as the program computes them. -/
noncomputable def cyl (R Z phi : ℝ) : CylD :=
  ⟨w.dRBR R Z phi, w.dZBR R Z phi, w.dphiBR R Z phi, w.dRBphi R Z phi, w.dZBphi R Z phi, w.dphiBphi R Z phi, w.dRBZ R Z phi, w.dZBZ R Z phi, w.dphiBZ R Z phi⟩

theorem B_eq : w.B = cylField w.BR w.Bphi w.BZ := by
  funext p
  have hsq : p 0 * p 0 + p 1 * p 1 = p 0 ^ 2 + p 1 ^ 2 := by ring
  simp only [B, cylField, hsq]

theorem dB_eq (p : P3) : w.dB p = cylJac (w.BR (√(p 0 ^ 2 + p 1 ^ 2)) (p 2) (arctan2 (p 1) (p 0))) (w.Bphi (√(p 0 ^ 2 + p 1 ^ 2)) (p 2) (arctan2 (p 1) (p 0))) (√(p 0 ^ 2 + p 1 ^ 2)) (p 0 / √(p 0 ^ 2 + p 1 ^ 2)) (p 1 / √(p 0 ^ 2 + p 1 ^ 2))
    (w.cyl (√(p 0 ^ 2 + p 1 ^ 2)) (p 2) (arctan2 (p 1) (p 0))) := by
  have hsq : p 0 * p 0 + p 1 * p 1 = p 0 ^ 2 + p 1 ^ 2 := by ring
  simp only [dB, cylJac, cyl, hsq]

variable {w} {p : P3}

theorem curve_BR (h : p 0 ^ 2 + p 1 ^ 2 ≠ 0) (hf : w.Fits p) : CurveD w.BR p (w.dRBR (√(p 0 ^ 2 + p 1 ^ 2)) (p 2) (arctan2 (p 1) (p 0))) (w.dZBR (√(p 0 ^ 2 + p 1 ^ 2)) (p 2) (arctan2 (p 1) (p 0))) (w.dphiBR (√(p 0 ^ 2 + p 1 ^ 2)) (p 2) (arctan2 (p 1) (p 0))) := by
  intro x y z x' y' z' t ex ey ez hx hy hz
  have e0 : √(x t ^ 2 + y t ^ 2) = √(p 0 ^ 2 + p 1 ^ 2) := by rw [ex, ey]
  have h' : x t ^ 2 + y t ^ 2 ≠ 0 := by rw [ex, ey]; exact h
  obtain ⟨hr, _, _, hσ, hR0, _⟩ := d_polar hx hy h' e0 (c := p 0 / √(p 0 ^ 2 + p 1 ^ 2)) (s := p 1 / √(p 0 ^ 2 + p 1 ^ 2)) (by rw [ex]) (by rw [ey])
  obtain ⟨hc, hs⟩ := d_multiple hx hy h' w.m
  rw [hσ] at hc hs
  have hD := d_dRDmn hf.1 hf.2.1 (r := fun u => √(x u ^ 2 + y u ^ 2)) (by rw [e0]; exact hR0) hr hz
  have hN := d_dRNmn hf.1 (n := w.n - 1) (by have := hf.2.1; omega) (r := fun u => √(x u ^ 2 + y u ^ 2)) (by rw [e0]; exact hR0) hr hz
  refine ((((hc.const_mul w.a).fun_add (hs.const_mul w.b)).fun_mul hD).fun_add (((hc.const_mul w.c).fun_add (hs.const_mul w.d)).fun_mul hN)).congr_deriv ?_
  rw [ex, ey, ez]
  simp only [dRBR, dZBR, dphiBR]
  ring

theorem curve_BZ (h : p 0 ^ 2 + p 1 ^ 2 ≠ 0) (hf : w.Fits p) : CurveD w.BZ p (w.dRBZ (√(p 0 ^ 2 + p 1 ^ 2)) (p 2) (arctan2 (p 1) (p 0))) (w.dZBZ (√(p 0 ^ 2 + p 1 ^ 2)) (p 2) (arctan2 (p 1) (p 0))) (w.dphiBZ (√(p 0 ^ 2 + p 1 ^ 2)) (p 2) (arctan2 (p 1) (p 0))) := by
  intro x y z x' y' z' t ex ey ez hx hy hz
  have e0 : √(x t ^ 2 + y t ^ 2) = √(p 0 ^ 2 + p 1 ^ 2) := by rw [ex, ey]
  have h' : x t ^ 2 + y t ^ 2 ≠ 0 := by rw [ex, ey]; exact h
  obtain ⟨hr, _, _, hσ, hR0, _⟩ := d_polar hx hy h' e0 (c := p 0 / √(p 0 ^ 2 + p 1 ^ 2)) (s := p 1 / √(p 0 ^ 2 + p 1 ^ 2)) (by rw [ex]) (by rw [ey])
  obtain ⟨hc, hs⟩ := d_multiple hx hy h' w.m
  rw [hσ] at hc hs
  have hD := d_dZDmn hf.1 hf.2.1 (r := fun u => √(x u ^ 2 + y u ^ 2)) (by rw [e0]; exact hR0) hr hz
  have hN := d_dZNmn hf.1 (n := w.n - 1) (by have := hf.2.1; omega) (r := fun u => √(x u ^ 2 + y u ^ 2)) (by rw [e0]; exact hR0) hr hz
  refine ((((hc.const_mul w.a).fun_add (hs.const_mul w.b)).fun_mul hD).fun_add (((hc.const_mul w.c).fun_add (hs.const_mul w.d)).fun_mul hN)).congr_deriv ?_
  rw [ex, ey, ez]
  simp only [dRBZ, dZBZ, dphiBZ]
  ring

theorem curve_Bphi (h : p 0 ^ 2 + p 1 ^ 2 ≠ 0) (hf : w.Fits p) : CurveD w.Bphi p (w.dRBphi (√(p 0 ^ 2 + p 1 ^ 2)) (p 2) (arctan2 (p 1) (p 0))) (w.dZBphi (√(p 0 ^ 2 + p 1 ^ 2)) (p 2) (arctan2 (p 1) (p 0))) (w.dphiBphi (√(p 0 ^ 2 + p 1 ^ 2)) (p 2) (arctan2 (p 1) (p 0))) := by
  intro x y z x' y' z' t ex ey ez hx hy hz
  have e0 : √(x t ^ 2 + y t ^ 2) = √(p 0 ^ 2 + p 1 ^ 2) := by rw [ex, ey]
  have h' : x t ^ 2 + y t ^ 2 ≠ 0 := by rw [ex, ey]; exact h
  obtain ⟨hr, _, _, hσ, hR0, _⟩ := d_polar hx hy h' e0 (c := p 0 / √(p 0 ^ 2 + p 1 ^ 2)) (s := p 1 / √(p 0 ^ 2 + p 1 ^ 2)) (by rw [ex]) (by rw [ey])
  obtain ⟨hc, hs⟩ := d_multiple hx hy h' w.m
  rw [hσ] at hc hs
  have hR0' : √(x t ^ 2 + y t ^ 2) ≠ 0 := by rw [e0]; exact hR0
  have hD := d_Dmn hf.1 hf.2.1 (r := fun u => √(x u ^ 2 + y u ^ 2)) hR0' hr hz
  have hN := d_Nmn hf.1 (n := w.n - 1) (by have := hf.2.1; omega) (r := fun u => √(x u ^ 2 + y u ^ 2)) hR0' hr hz
  refine ((((((hs.const_mul (-w.a)).fun_add (hc.const_mul w.b)).const_mul (w.m : ℝ)).fun_mul hD).fun_div hr hR0').fun_add (((((hs.const_mul (-w.c)).fun_add (hc.const_mul w.d)).const_mul (w.m : ℝ)).fun_mul hN).fun_div hr hR0')).congr_deriv ?_
  rw [ex, ey, ez]
  simp only [dRBphi, dZBphi, dphiBphi]
  clear hc hs hr hσ hD hN e0
  generalize p 0 / √(p 0 ^ 2 + p 1 ^ 2) = c at *
  generalize p 1 / √(p 0 ^ 2 + p 1 ^ 2) = s at *
  generalize √(p 0 ^ 2 + p 1 ^ 2) = R at *
  generalize Dmn w.m w.n R (p 2) = D
  generalize dRDmn w.m w.n R (p 2) = D1
  generalize dZDmn w.m w.n R (p 2) = D2
  generalize Nmn w.m (w.n - 1) R (p 2) = N
  generalize dRNmn w.m (w.n - 1) R (p 2) = N1
  generalize dZNmn w.m (w.n - 1) R (p 2) = N2
  generalize Real.cos (w.m * arctan2 (p 1) (p 0)) = C
  generalize Real.sin (w.m * arctan2 (p 1) (p 0)) = S
  field_simp
  ring

theorem curve_Phi (h : p 0 ^ 2 + p 1 ^ 2 ≠ 0) (hf : w.Fits p) : CurveD w.Phi p (w.BR (√(p 0 ^ 2 + p 1 ^ 2)) (p 2) (arctan2 (p 1) (p 0))) (w.BZ (√(p 0 ^ 2 + p 1 ^ 2)) (p 2) (arctan2 (p 1) (p 0))) (√(p 0 ^ 2 + p 1 ^ 2) * w.Bphi (√(p 0 ^ 2 + p 1 ^ 2)) (p 2) (arctan2 (p 1) (p 0))) := by
  intro x y z x' y' z' t ex ey ez hx hy hz
  have e0 : √(x t ^ 2 + y t ^ 2) = √(p 0 ^ 2 + p 1 ^ 2) := by rw [ex, ey]
  have h' : x t ^ 2 + y t ^ 2 ≠ 0 := by rw [ex, ey]; exact h
  obtain ⟨hr, _, _, hσ, hR0, _⟩ := d_polar hx hy h' e0 (c := p 0 / √(p 0 ^ 2 + p 1 ^ 2)) (s := p 1 / √(p 0 ^ 2 + p 1 ^ 2)) (by rw [ex]) (by rw [ey])
  obtain ⟨hc, hs⟩ := d_multiple hx hy h' w.m
  rw [hσ] at hc hs
  have hD := d_Dmn hf.1 hf.2.1 (r := fun u => √(x u ^ 2 + y u ^ 2)) (by rw [e0]; exact hR0) hr hz
  have hN := d_Nmn hf.1 (n := w.n - 1) (by have := hf.2.1; omega) (r := fun u => √(x u ^ 2 + y u ^ 2)) (by rw [e0]; exact hR0) hr hz
  refine ((((hc.const_mul w.a).fun_add (hs.const_mul w.b)).fun_mul hD).fun_add (((hc.const_mul w.c).fun_add (hs.const_mul w.d)).fun_mul hN)).congr_deriv ?_
  rw [ex, ey, ez]
  simp only [BR, BZ, Bphi]
  clear hc hs hr hσ hD hN e0
  generalize p 0 / √(p 0 ^ 2 + p 1 ^ 2) = c at *
  generalize p 1 / √(p 0 ^ 2 + p 1 ^ 2) = s at *
  generalize √(p 0 ^ 2 + p 1 ^ 2) = R at *
  generalize Dmn w.m w.n R (p 2) = D
  generalize dRDmn w.m w.n R (p 2) = D1
  generalize dZDmn w.m w.n R (p 2) = D2
  generalize Nmn w.m (w.n - 1) R (p 2) = N
  generalize dRNmn w.m (w.n - 1) R (p 2) = N1
  generalize dZNmn w.m (w.n - 1) R (p 2) = N2
  generalize Real.cos (w.m * arctan2 (p 1) (p 0)) = C
  generalize Real.sin (w.m * arctan2 (p 1) (p 0)) = S
  field_simp
  ring

end Mode

/-- **C104.** The field of a mode is the gradient of its scalar potential `Phi`. -/
theorem C104_gradient (w : Mode) (p : P3) (h : p 0 ^ 2 + p 1 ^ 2 ≠ 0) (hf : w.Fits p) (j : Fin 3) : HasDerivAt (fun t => w.potential (Function.update p j t)) (w.B p j) (p j) := by
  refine partials_of_curves (F := w.potential) (D := w.B p) ?_ j
  intro x y z x' y' z' t ex ey ez hx hy hz
  refine (Mode.curve_Phi h hf x y z x' y' z' t ex ey ez hx hy hz).congr_deriv ?_
  rw [w.B_eq]
  have hR0 : √(p 0 ^ 2 + p 1 ^ 2) ≠ 0 := by positivity
  simp only [cylField, Matrix.cons_val]
  generalize w.BR _ _ _ = br
  generalize w.BZ _ _ _ = bz
  generalize w.Bphi _ _ _ = bp
  generalize √(p 0 ^ 2 + p 1 ^ 2) = R at *
  field_simp
  ring

theorem mode_dB (w : Mode) (p : P3) (h : p 0 ^ 2 + p 1 ^ 2 ≠ 0) (hf : w.Fits p) : IsJacobian w.B p (w.dB p) := by
  rw [w.B_eq, w.dB_eq]
  exact cyl_jacobian h (Mode.curve_BR h hf) (Mode.curve_Bphi h hf) (Mode.curve_BZ h hf)

/-- **C104.** `Dommaschk.dB_by_dX` is the array of first derivatives of `Dommaschk.B`, for any list of harmonics, at every point off the z axis. -/
theorem C104_dB (modes : List Mode) (p : P3) (h : p 0 ^ 2 + p 1 ^ 2 ≠ 0) (hf : ∀ w ∈ modes, w.Fits p) : IsJacobian (B modes) p (dB modes p) := by
  intro j l
  refine HasDerivAt.fun_add ?_ (C99_toroidal_dB _ p h j l)
  induction modes with
  | nil => simpa using hasDerivAt_const (p j) (0 : ℝ)
  | cons w ws ih =>
    simp only [List.map_cons, List.sum_cons]
    exact (mode_dB w p h (hf w (List.mem_cons_self ..)) j l).fun_add (ih fun v hv => hf v (List.mem_cons_of_mem _ hv))

/-- The hypotheses are met at a point on the branch cut of the toroidal angle, by harmonics of both parities and by `n = 0`. -/
example : IsJacobian (B [⟨10, 2, -2.18, -2.18⟩, ⟨15, 3, 25.8, -25.8⟩, ⟨2, 0, 1, 1⟩]) ![-1, 0, 1 / 2] (dB [⟨10, 2, -2.18, -2.18⟩, ⟨15, 3, 25.8, -25.8⟩, ⟨2, 0, 1, 1⟩] ![-1, 0, 1 / 2]) :=
  C104_dB _ _ (by norm_num) (by intro w hw; simp only [List.mem_cons, List.not_mem_nil, or_false] at hw; rcases hw with rfl | rfl | rfl <;> simp [Mode.Fits])

theorem mode_vacuum (w : Mode) (p : P3) (h : p 0 ^ 2 + p 1 ^ 2 ≠ 0) (hf : w.Fits p) : dive (w.dB p) = 0 ∧ curl (w.dB p) = 0 := by
  have hR2 : √(p 0 ^ 2 + p 1 ^ 2) ^ 2 = p 0 ^ 2 + p 1 ^ 2 := Real.sq_sqrt (by positivity)
  have hR0 : √(p 0 ^ 2 + p 1 ^ 2) ≠ 0 := by positivity
  have hcs : (p 0 / √(p 0 ^ 2 + p 1 ^ 2)) ^ 2 + (p 1 / √(p 0 ^ 2 + p 1 ^ 2)) ^ 2 = 1 := by
    rw [div_pow, div_pow, ← add_div, hR2, div_self h]
  rw [w.dB_eq]
  constructor
  · rw [dive_cylJac hR0 hcs]
    simp only [Mode.cyl]
    have hD := laplace_D hf.1 hf.2.1 hR0 (p 2)
    have hN := laplace_N hf.1 (n := w.n - 1) (by have := hf.2.1; omega) hR0 (p 2)
    simp only [Mode.dRBR, Mode.BR, Mode.dphiBphi, Mode.dZBZ]
    generalize √(p 0 ^ 2 + p 1 ^ 2) = R at *
    generalize Real.cos (w.m * arctan2 (p 1) (p 0)) = C
    generalize Real.sin (w.m * arctan2 (p 1) (p 0)) = S
    field_simp
    linear_combination (w.a * C + w.b * S) * hD + (w.c * C + w.d * S) * hN
  · refine curl_cylJac hR0 hcs _ ?_ rfl ?_
    · simp only [Mode.cyl, Mode.dphiBZ, Mode.dZBphi]; ring
    · simp only [Mode.cyl, Mode.dRBphi, Mode.Bphi, Mode.dphiBR]
      generalize √(p 0 ^ 2 + p 1 ^ 2) = R at *
      field_simp
      ring

/-- **C104.** It is a vacuum field: its divergence and its curl are 0. -/
theorem C104_vacuum (modes : List Mode) (p : P3) (h : p 0 ^ 2 + p 1 ^ 2 ≠ 0) (hf : ∀ w ∈ modes, w.Fits p) : dive (dB modes p) = 0 ∧ curl (dB modes p) = 0 := by
  have ht := C99_toroidal_vacuum ⟨1, 1⟩ p
  have key : dive (fun j l => (modes.map fun w => w.dB p j l).sum) = 0 ∧ curl (fun j l => (modes.map fun w => w.dB p j l).sum) = 0 := by
    induction modes with
    | nil =>
      simp only [List.map_nil, List.sum_nil, dive, curl, sub_zero, add_zero]
      exact ⟨trivial, by funext i; fin_cases i <;> rfl⟩
    | cons w ws ih =>
      obtain ⟨i1, i2⟩ := ih fun v hv => hf v (List.mem_cons_of_mem _ hv)
      obtain ⟨m1, m2⟩ := mode_vacuum w p h (hf w (List.mem_cons_self ..))
      constructor
      · simp only [dive, List.map_cons, List.sum_cons] at *
        linarith
      · funext i
        have a := congrFun i2 i
        have b := congrFun m2 i
        simp only [curl, List.map_cons, List.sum_cons, Pi.zero_apply] at *
        fin_cases i <;> simp only [Matrix.cons_val, Fin.zero_eta, Fin.mk_one, Fin.reduceFinMk] at * <;> linarith
  constructor
  · have := key.1
    have t := ht.1
    simp only [dive, dB] at *
    linarith
  · funext i
    have a := congrFun key.2 i
    have b := congrFun ht.2 i
    simp only [curl, dB, Pi.zero_apply] at *
    fin_cases i <;> simp only [Matrix.cons_val, Fin.zero_eta, Fin.mk_one, Fin.reduceFinMk] at * <;> linarith

/-! ## Symmetries -/

theorem pz_flip (e : ℤ) (Z : ℝ) : pz e (-Z) = (-1) ^ e * pz e Z := by
  unfold pz
  have : (-Z) ^ e = (-1) ^ e * Z ^ e := by rw [← mul_zpow]; congr 1; ring
  rw [this]; ring

theorem neg_one_shift (n e : ℤ) (k : ℕ) : (-1 : ℝ) ^ (n - 2 * (k : ℤ) - e) = (-1) ^ (n - e) := by
  have : n - e = (n - 2 * (k : ℤ) - e) + 2 * k := by ring
  rw [this, zpow_add₀ (by norm_num), zpow_mul]
  norm_num

theorem ser_flip (n sh : ℤ) (f : ℕ → ℝ) (Z : ℝ) : ser n sh f (-Z) = (-1) ^ (n - sh) * ser n sh f Z := by
  unfold ser
  rw [mul_sum]
  refine sum_congr rfl fun k _ => ?_
  rw [pz_flip, neg_one_shift]
  ring

theorem multiple_neg {x y : ℝ} (h : x ^ 2 + y ^ 2 ≠ 0) (m : ℤ) : Real.cos (m * arctan2 (-y) x) = Real.cos (m * arctan2 y x) ∧ Real.sin (m * arctan2 (-y) x) = -Real.sin (m * arctan2 y x) := by
  obtain ⟨a, ha⟩ : ∃ j : ℤ, arctan2 (-y) x = -arctan2 y x + j * (2 * Real.pi) := by
    refine same_phase ?_ ?_
    · rw [cos_arctan2 (by rw [neg_sq]; exact h), Real.cos_neg, cos_arctan2 h, neg_sq]
    · rw [sin_arctan2, Real.sin_neg, sin_arctan2, neg_sq, neg_div]
  have : (m : ℝ) * arctan2 (-y) x = -(m * arctan2 y x) + ((m * a : ℤ) : ℝ) * (2 * Real.pi) := by rw [ha]; push_cast; ring
  rw [this, Real.cos_add_int_mul_two_pi, Real.sin_add_int_mul_two_pi, Real.cos_neg, Real.sin_neg]
  exact ⟨rfl, rfl⟩

theorem mode_flip (w : Mode) (hn : 0 ≤ w.n) (p : P3) (h : p 0 ^ 2 + p 1 ^ 2 ≠ 0) : w.B ![p 0, -p 1, -p 2] = ![-w.B p 0, w.B p 1, w.B p 2] := by
  obtain ⟨hc, hs⟩ := multiple_neg h w.m
  have fD : ∀ R, Dmn w.m w.n R (-p 2) = (-1) ^ w.n * Dmn w.m w.n R (p 2) := fun R => by rw [Dmn_eq, Dmn_eq, ser_flip, sub_zero]
  have fD1 : ∀ R, dRDmn w.m w.n R (-p 2) = (-1) ^ w.n * dRDmn w.m w.n R (p 2) := fun R => by rw [dRDmn_eq, dRDmn_eq, ser_flip, sub_zero]
  have fD2 : ∀ R, dZDmn w.m w.n R (-p 2) = (-1) ^ (w.n - 1) * dZDmn w.m w.n R (p 2) := fun R => by rw [dZDmn_eq _ hn, dZDmn_eq _ hn, ser_flip]
  have fN : ∀ R, Nmn w.m (w.n - 1) R (-p 2) = (-1) ^ (w.n - 1) * Nmn w.m (w.n - 1) R (p 2) := fun R => by rw [Nmn_eq, Nmn_eq, ser_flip, sub_zero]; ring
  have fN1 : ∀ R, dRNmn w.m (w.n - 1) R (-p 2) = (-1) ^ (w.n - 1) * dRNmn w.m (w.n - 1) R (p 2) := fun R => by rw [dRNmn_eq, dRNmn_eq, ser_flip, sub_zero]; ring
  have fN2 : ∀ R, dZNmn w.m (w.n - 1) R (-p 2) = (-1) ^ w.n * dZNmn w.m (w.n - 1) R (p 2) := fun R => by
    rw [dZNmn_eq _ (by omega), dZNmn_eq _ (by omega), ser_flip]
    have : (-1 : ℝ) ^ w.n = (-1) ^ (w.n - 1 - 1) := by
      have : w.n = (w.n - 1 - 1) + 2 := by ring
      conv_lhs => rw [this, zpow_add₀ (by norm_num)]
      norm_num
    rw [this]; ring
  have hR : w.BR (√(p 0 ^ 2 + p 1 ^ 2)) (-p 2) (arctan2 (-p 1) (p 0)) = -w.BR (√(p 0 ^ 2 + p 1 ^ 2)) (p 2) (arctan2 (p 1) (p 0)) ∧
      w.Bphi (√(p 0 ^ 2 + p 1 ^ 2)) (-p 2) (arctan2 (-p 1) (p 0)) = w.Bphi (√(p 0 ^ 2 + p 1 ^ 2)) (p 2) (arctan2 (p 1) (p 0)) ∧
      w.BZ (√(p 0 ^ 2 + p 1 ^ 2)) (-p 2) (arctan2 (-p 1) (p 0)) = w.BZ (√(p 0 ^ 2 + p 1 ^ 2)) (p 2) (arctan2 (p 1) (p 0)) := by
    simp only [Mode.BR, Mode.Bphi, Mode.BZ, hc, hs, fD, fD1, fD2, fN, fN1, fN2]
    by_cases hpar : w.n % 2 = 0
    · have e0 : (-1 : ℝ) ^ w.n = 1 := Even.neg_one_zpow (Int.even_iff.mpr hpar)
      have e1 : (-1 : ℝ) ^ (w.n - 1) = -1 := Odd.neg_one_zpow (Int.odd_iff.mpr (by omega))
      simp only [Mode.a, Mode.b, Mode.c, Mode.d, hpar, if_true, e0, e1]
      refine ⟨by ring, by ring, by ring⟩
    · have e0 : (-1 : ℝ) ^ w.n = -1 := Odd.neg_one_zpow (Int.odd_iff.mpr (by omega))
      have e1 : (-1 : ℝ) ^ (w.n - 1) = 1 := Even.neg_one_zpow (Int.even_iff.mpr (by omega))
      simp only [Mode.a, Mode.b, Mode.c, Mode.d, hpar, if_false, e0, e1]
      refine ⟨by ring, by ring, by ring⟩
  obtain ⟨h1, h2, h3⟩ := hR
  rw [w.B_eq]
  funext l
  fin_cases l
  · simp only [cylField, Matrix.cons_val, neg_sq, h1, h2, Fin.zero_eta]; ring
  · simp only [cylField, Matrix.cons_val, neg_sq, h1, h2, Fin.mk_one]; ring
  · simp only [cylField, Matrix.cons_val, neg_sq, h3, Fin.reduceFinMk]

/-- **C104.** The field is stellarator symmetric, whatever the harmonics and coefficients: the half turn about the x axis reverses the radial part. -/
theorem C104_stellarator_symmetry (modes : List Mode) (p : P3) (h : p 0 ^ 2 + p 1 ^ 2 ≠ 0) (hf : ∀ w ∈ modes, w.Fits p) : B modes ![p 0, -p 1, -p 2] = ![-B modes p 0, B modes p 1, B modes p 2] := by
  have key : ∀ l, (modes.map fun w => w.B ![p 0, -p 1, -p 2] l).sum = ![-(modes.map fun w => w.B p 0).sum, (modes.map fun w => w.B p 1).sum, (modes.map fun w => w.B p 2).sum] l := by
    intro l
    induction modes with
    | nil => fin_cases l <;> simp
    | cons w ws ih =>
      have ih := ih fun v hv => hf v (List.mem_cons_of_mem _ hv)
      simp only [List.map_cons, List.sum_cons]
      rw [ih, mode_flip w (hf w (List.mem_cons_self ..)).2.1 p h]
      fin_cases l <;> simp only [Matrix.cons_val, Fin.zero_eta, Fin.mk_one, Fin.reduceFinMk]
      ring
  funext l
  simp only [B]
  rw [key l]
  fin_cases l
  · simp only [Matrix.cons_val, Fin.zero_eta, Toroidal.B0_eq, neg_sq]; ring
  · simp only [Matrix.cons_val, Fin.mk_one, Toroidal.B1_eq, neg_sq]
  · simp only [Matrix.cons_val, Fin.reduceFinMk, Toroidal.B2_eq]

theorem multiple_rot {p : P3} (h : p 0 ^ 2 + p 1 ^ 2 ≠ 0) (m : ℤ) {α : ℝ} {j : ℤ} (hα : m * α = j * (2 * Real.pi)) :
    Real.cos (m * arctan2 (rot α p 1) (rot α p 0)) = Real.cos (m * arctan2 (p 1) (p 0)) ∧ Real.sin (m * arctan2 (rot α p 1) (rot α p 0)) = Real.sin (m * arctan2 (p 1) (p 0)) := by
  have hrad : rot α p 0 ^ 2 + rot α p 1 ^ 2 = p 0 ^ 2 + p 1 ^ 2 := by
    simp only [rot, Matrix.cons_val]
    linear_combination (p 0 ^ 2 + p 1 ^ 2) * Real.sin_sq_add_cos_sq α
  have hc : Real.cos (arctan2 (rot α p 1) (rot α p 0)) = Real.cos (arctan2 (p 1) (p 0) + α) := by
    rw [cos_arctan2 (by rw [hrad]; exact h), Real.cos_add, cos_arctan2 h, sin_arctan2, hrad]
    simp only [rot, Matrix.cons_val]; ring
  have hs : Real.sin (arctan2 (rot α p 1) (rot α p 0)) = Real.sin (arctan2 (p 1) (p 0) + α) := by
    rw [sin_arctan2, Real.sin_add, cos_arctan2 h, sin_arctan2, hrad]
    simp only [rot, Matrix.cons_val]; ring
  obtain ⟨i, hi⟩ := same_phase hc hs
  have : (m : ℝ) * arctan2 (rot α p 1) (rot α p 0) = m * arctan2 (p 1) (p 0) + ((j + m * i : ℤ) : ℝ) * (2 * Real.pi) := by
    rw [hi]; push_cast; linear_combination hα
  rw [this, Real.cos_add_int_mul_two_pi, Real.sin_add_int_mul_two_pi]
  exact ⟨rfl, rfl⟩

/-- **C104.** If every toroidal harmonic `m` is a multiple of `nfp`, the field has `nfp` field periods: it is invariant under the rotation by a full turn divided by `nfp`. -/
theorem C104_field_periods (modes : List Mode) (nfp : ℕ) (hnfp : 0 < nfp) (hm : ∀ w ∈ modes, (nfp : ℤ) ∣ w.m) (p : P3) (h : p 0 ^ 2 + p 1 ^ 2 ≠ 0) : B modes (rot (2 * Real.pi / nfp) p) = rot (2 * Real.pi / nfp) (B modes p) := by
  set α := 2 * Real.pi / nfp with hα
  have hrad : rot α p 0 ^ 2 + rot α p 1 ^ 2 = p 0 ^ 2 + p 1 ^ 2 := by
    simp only [rot, Matrix.cons_val]
    linear_combination (p 0 ^ 2 + p 1 ^ 2) * Real.sin_sq_add_cos_sq α
  have hmode : ∀ w : Mode, (nfp : ℤ) ∣ w.m → w.B (rot α p) = rot α (w.B p) := by
    intro w ⟨q, hq⟩
    have hN : (nfp : ℝ) ≠ 0 := by exact_mod_cast hnfp.ne'
    obtain ⟨hc, hs⟩ := multiple_rot h w.m (α := α) (j := q) (by rw [hq, hα]; push_cast; field_simp)
    have hz : rot α p 2 = p 2 := rfl
    have hR : w.BR (√(p 0 ^ 2 + p 1 ^ 2)) (p 2) (arctan2 (rot α p 1) (rot α p 0)) = w.BR (√(p 0 ^ 2 + p 1 ^ 2)) (p 2) (arctan2 (p 1) (p 0)) := by simp only [Mode.BR, hc, hs]
    have hP : w.Bphi (√(p 0 ^ 2 + p 1 ^ 2)) (p 2) (arctan2 (rot α p 1) (rot α p 0)) = w.Bphi (√(p 0 ^ 2 + p 1 ^ 2)) (p 2) (arctan2 (p 1) (p 0)) := by simp only [Mode.Bphi, hc, hs]
    have hZ : w.BZ (√(p 0 ^ 2 + p 1 ^ 2)) (p 2) (arctan2 (rot α p 1) (rot α p 0)) = w.BZ (√(p 0 ^ 2 + p 1 ^ 2)) (p 2) (arctan2 (p 1) (p 0)) := by simp only [Mode.BZ, hc, hs]
    rw [w.B_eq]
    funext l
    fin_cases l
    · simp only [cylField, hrad, hz, hR, hP, hZ, Fin.zero_eta, Matrix.cons_val]
      simp only [rot, Matrix.cons_val]
      ring
    · simp only [cylField, hrad, hz, hR, hP, hZ, Fin.mk_one, Matrix.cons_val]
      simp only [rot, Matrix.cons_val]
      ring
    · simp only [cylField, hrad, hz, hR, hP, hZ, Fin.reduceFinMk, Matrix.cons_val]
      simp only [rot, Matrix.cons_val]
  have key : ∀ l, (modes.map fun w => w.B (rot α p) l).sum = rot α (fun l => (modes.map fun w => w.B p l).sum) l := by
    intro l
    induction modes with
    | nil => fin_cases l <;> simp [rot]
    | cons w ws ih =>
      have ih := ih fun v hv => hm v (List.mem_cons_of_mem _ hv)
      simp only [List.map_cons, List.sum_cons]
      rw [ih, hmode w (hm w (List.mem_cons_self ..))]
      fin_cases l <;> simp only [rot, Matrix.cons_val, Fin.zero_eta, Fin.mk_one, Fin.reduceFinMk] <;> ring
  funext l
  simp only [B]
  rw [key l]
  fin_cases l
  · simp only [Fin.zero_eta, Toroidal.B0_eq, hrad]
    simp only [rot, Matrix.cons_val, B, Toroidal.B0_eq, Toroidal.B1_eq]; ring
  · simp only [Fin.mk_one, Toroidal.B1_eq, hrad]
    simp only [rot, Matrix.cons_val, B, Toroidal.B0_eq, Toroidal.B1_eq]; ring
  · simp only [Fin.reduceFinMk, Toroidal.B2_eq]
    simp only [rot, Matrix.cons_val, B, Toroidal.B2_eq]

/-- The hypotheses are met by the example of the documentation, whose harmonics are multiples of 5. -/
example (p : P3) (h : p 0 ^ 2 + p 1 ^ 2 ≠ 0) : B [⟨10, 2, -2.18, -2.18⟩, ⟨15, 3, 25.8, -25.8⟩] (rot (2 * Real.pi / (5 : ℕ)) p) = rot (2 * Real.pi / (5 : ℕ)) (B [⟨10, 2, -2.18, -2.18⟩, ⟨15, 3, 25.8, -25.8⟩] p) :=
  C104_field_periods _ 5 (by norm_num) (by intro w hw; simp only [List.mem_cons, List.not_mem_nil, or_false] at hw; rcases hw with rfl | rfl <;> norm_num) p h

end Simsopt.Fields.Dom
