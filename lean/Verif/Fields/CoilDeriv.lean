import Verif.Fields.CoilModel
/-!
# The derivatives of the field of a circular coil
-/
namespace Simsopt.Fields
open Elliptic

/-- The square of the distance to the nearest point of the coil, with its sign, and to the farthest. -/
def ca (r0 ρ z : ℝ) : ℝ := r0 ^ 2 + (ρ ^ 2 + z ^ 2) - 2 * r0 * ρ
def cb (r0 ρ z : ℝ) : ℝ := r0 ^ 2 + (ρ ^ 2 + z ^ 2) + 2 * r0 * ρ

/-- `f(ρ, z)` with `B_x = Inorm x z f`, `B_y = Inorm y z f`. -/
noncomputable def cf (r0 ρ z : ℝ) : ℝ :=
  1 / (2 * ca r0 ρ z * √(cb r0 ρ z) * ρ ^ 2) * ((r0 ^ 2 + (ρ ^ 2 + z ^ 2)) * E (1 - ca r0 ρ z / cb r0 ρ z) - ca r0 ρ z * K (1 - ca r0 ρ z / cb r0 ρ z))
/-- `B_z / Inorm`. -/
noncomputable def cg (r0 ρ z : ℝ) : ℝ :=
  1 / (2 * ca r0 ρ z * √(cb r0 ρ z)) * ((r0 ^ 2 - (ρ ^ 2 + z ^ 2)) * E (1 - ca r0 ρ z / cb r0 ρ z) + ca r0 ρ z * K (1 - ca r0 ρ z / cb r0 ρ z))

theorem ca_pos {r0 ρ z : ℝ} (h : ¬(ρ = r0 ∧ z = 0)) : 0 < ca r0 ρ z := by
  have e : ca r0 ρ z = (ρ - r0) ^ 2 + z ^ 2 := by unfold ca; ring
  rw [e]
  by_cases hz : z = 0
  · have : ρ - r0 ≠ 0 := fun hh => h ⟨by linarith, hz⟩
    positivity
  · positivity

theorem cb_pos {r0 ρ z : ℝ} (h0 : 0 < r0) (hρ : 0 ≤ ρ) : 0 < cb r0 ρ z := by unfold cb; positivity

section
variable {r0 t : ℝ} {ρ z : ℝ → ℝ} {ρ' z' : ℝ}

theorem d_ca (hρ : HasDerivAt ρ ρ' t) (hz : HasDerivAt z z' t) : HasDerivAt (fun t => ca r0 (ρ t) (z t)) (2 * ρ t * ρ' + 2 * z t * z' - 2 * r0 * ρ') t := by
  have h2 : HasDerivAt (fun t => ρ t ^ 2) (2 * ρ t * ρ') t := (hρ.fun_pow 2).congr_deriv (by simp)
  have h3 : HasDerivAt (fun t => z t ^ 2) (2 * z t * z') t := (hz.fun_pow 2).congr_deriv (by simp)
  exact ((h2.fun_add h3).const_add (r0 ^ 2)).fun_sub (hρ.const_mul (2 * r0))

theorem d_cb (hρ : HasDerivAt ρ ρ' t) (hz : HasDerivAt z z' t) : HasDerivAt (fun t => cb r0 (ρ t) (z t)) (2 * ρ t * ρ' + 2 * z t * z' + 2 * r0 * ρ') t := by
  have h2 : HasDerivAt (fun t => ρ t ^ 2) (2 * ρ t * ρ') t := (hρ.fun_pow 2).congr_deriv (by simp)
  have h3 : HasDerivAt (fun t => z t ^ 2) (2 * z t * z') t := (hz.fun_pow 2).congr_deriv (by simp)
  exact ((h2.fun_add h3).const_add (r0 ^ 2)).fun_add (hρ.const_mul (2 * r0))

theorem d_par (hρ : HasDerivAt ρ ρ' t) (hz : HasDerivAt z z' t) (hb : cb r0 (ρ t) (z t) ≠ 0) :
    HasDerivAt (fun t => 1 - ca r0 (ρ t) (z t) / cb r0 (ρ t) (z t)) (4 * r0 * ((r0 ^ 2 + (ρ t ^ 2 + z t ^ 2)) * ρ' - ρ t * (2 * ρ t * ρ' + 2 * z t * z')) / cb r0 (ρ t) (z t) ^ 2) t := by
  refine (((d_ca (r0 := r0) hρ hz).fun_div (d_cb hρ hz) hb).const_sub 1).congr_deriv ?_
  rw [← neg_div]
  congr 1
  unfold ca cb
  ring

theorem par_eq {r0 ρ z : ℝ} (hb : cb r0 ρ z ≠ 0) : 1 - ca r0 ρ z / cb r0 ρ z = 4 * r0 * ρ / cb r0 ρ z := by
  field_simp; unfold ca cb; ring

theorem d_Ecomp (h0 : 0 < r0) (hp : 0 < ρ t) (hn : ¬(ρ t = r0 ∧ z t = 0)) (hρ : HasDerivAt ρ ρ' t) (hz : HasDerivAt z z' t) :
    HasDerivAt (fun t => E (1 - ca r0 (ρ t) (z t) / cb r0 (ρ t) (z t)))
      ((E (1 - ca r0 (ρ t) (z t) / cb r0 (ρ t) (z t)) - K (1 - ca r0 (ρ t) (z t) / cb r0 (ρ t) (z t))) * ((r0 ^ 2 + (ρ t ^ 2 + z t ^ 2)) * ρ' - ρ t * (2 * ρ t * ρ' + 2 * z t * z')) / (2 * ρ t * cb r0 (ρ t) (z t))) t := by
  have ha := ca_pos hn
  have hb : 0 < cb r0 (ρ t) (z t) := cb_pos h0 hp.le
  have h1 : 1 - ca r0 (ρ t) (z t) / cb r0 (ρ t) (z t) < 1 := by have := div_pos ha hb; linarith
  have h2 : 1 - ca r0 (ρ t) (z t) / cb r0 (ρ t) (z t) ≠ 0 := by rw [par_eq hb.ne']; positivity
  refine ((d_E h1 h2).comp t (d_par hρ hz hb.ne')).congr_deriv ?_
  generalize E (1 - ca r0 (ρ t) (z t) / cb r0 (ρ t) (z t)) = e
  generalize K (1 - ca r0 (ρ t) (z t) / cb r0 (ρ t) (z t)) = k
  rw [par_eq hb.ne']
  have := hb.ne'
  have := h0.ne'
  have := hp.ne'
  field_simp

theorem d_Kcomp (h0 : 0 < r0) (hp : 0 < ρ t) (hn : ¬(ρ t = r0 ∧ z t = 0)) (hρ : HasDerivAt ρ ρ' t) (hz : HasDerivAt z z' t) :
    HasDerivAt (fun t => K (1 - ca r0 (ρ t) (z t) / cb r0 (ρ t) (z t)))
      ((E (1 - ca r0 (ρ t) (z t) / cb r0 (ρ t) (z t)) * cb r0 (ρ t) (z t) - ca r0 (ρ t) (z t) * K (1 - ca r0 (ρ t) (z t) / cb r0 (ρ t) (z t))) * ((r0 ^ 2 + (ρ t ^ 2 + z t ^ 2)) * ρ' - ρ t * (2 * ρ t * ρ' + 2 * z t * z')) / (2 * ρ t * cb r0 (ρ t) (z t) * ca r0 (ρ t) (z t))) t := by
  have ha := ca_pos hn
  have hb : 0 < cb r0 (ρ t) (z t) := cb_pos h0 hp.le
  have h1 : 1 - ca r0 (ρ t) (z t) / cb r0 (ρ t) (z t) < 1 := by have := div_pos ha hb; linarith
  have h2 : 1 - ca r0 (ρ t) (z t) / cb r0 (ρ t) (z t) ≠ 0 := by rw [par_eq hb.ne']; positivity
  refine ((d_K h1 h2).comp t (d_par hρ hz hb.ne')).congr_deriv ?_
  generalize E (1 - ca r0 (ρ t) (z t) / cb r0 (ρ t) (z t)) = e
  generalize K (1 - ca r0 (ρ t) (z t) / cb r0 (ρ t) (z t)) = k
  rw [sub_sub_cancel, par_eq hb.ne']
  have := hb.ne'
  have := ha.ne'
  have := h0.ne'
  have := hp.ne'
  field_simp

end

/-- The derivatives of `f` and `g`, `e` and `k` the elliptic integrals and `β` the distance to the farthest point. -/
noncomputable def cfρ (r0 ρ z e k β : ℝ) : ℝ :=
  ρ * (k * ca r0 ρ z * (2 * r0 ^ 4 + (ρ ^ 2 + z ^ 2) * (2 * (ρ ^ 2 + z ^ 2) + ρ ^ 2) - r0 ^ 2 * (-4 * z ^ 2 + 5 * ρ ^ 2))
    + e * (-2 * r0 ^ 6 - (ρ ^ 2 + z ^ 2) ^ 2 * (2 * (ρ ^ 2 + z ^ 2) + ρ ^ 2) + 3 * r0 ^ 4 * (-2 * z ^ 2 + 3 * ρ ^ 2) - 2 * r0 ^ 2 * (3 * z ^ 4 - z ^ 2 * ρ ^ 2 + 2 * ρ ^ 4))) / (2 * ca r0 ρ z ^ 2 * β ^ 3 * ρ ^ 4)
noncomputable def cfz (r0 ρ z e k β : ℝ) : ℝ :=
  z * (k * ca r0 ρ z * (r0 ^ 2 + (ρ ^ 2 + z ^ 2)) - e * ((ρ ^ 2 - r0 ^ 2) ^ 2 + 2 * z ^ 2 * (r0 ^ 2 + ρ ^ 2) + z ^ 4 + 16 * r0 ^ 2 * ρ ^ 2)) / (2 * ca r0 ρ z ^ 2 * β ^ 3 * ρ ^ 2)
noncomputable def cgρ (r0 ρ z e k β : ℝ) : ℝ :=
  ρ * (-(k * ca r0 ρ z * ((-r0 ^ 2 + ρ ^ 2) ^ 2 + z ^ 2 * (r0 ^ 2 + ρ ^ 2)))
    + e * (z ^ 4 * (r0 ^ 2 + ρ ^ 2) + (-r0 ^ 2 + ρ ^ 2) ^ 2 * (r0 ^ 2 + ρ ^ 2) + 2 * z ^ 2 * (r0 ^ 4 - 6 * r0 ^ 2 * ρ ^ 2 + ρ ^ 4))) / (2 * ca r0 ρ z ^ 2 * β ^ 3 * ρ ^ 2)
noncomputable def cgz (r0 ρ z e k β : ℝ) : ℝ :=
  z * (k * ca r0 ρ z * (r0 ^ 2 - (ρ ^ 2 + z ^ 2)) + e * (-7 * r0 ^ 4 + (ρ ^ 2 + z ^ 2) ^ 2 + 6 * r0 ^ 2 * (-z ^ 2 + ρ ^ 2))) / (2 * ca r0 ρ z ^ 2 * β ^ 3)

section
variable {r0 t : ℝ} {ρ z : ℝ → ℝ} {ρ' z' : ℝ}

theorem d_beta (h0 : 0 < r0) (hp : 0 < ρ t) (hρ : HasDerivAt ρ ρ' t) (hz : HasDerivAt z z' t) :
    HasDerivAt (fun t => √(cb r0 (ρ t) (z t))) ((2 * ρ t * ρ' + 2 * z t * z' + 2 * r0 * ρ') / (2 * √(cb r0 (ρ t) (z t)))) t :=
  (d_cb hρ hz).sqrt (cb_pos h0 hp.le).ne'

theorem d_g (h0 : 0 < r0) (hp : 0 < ρ t) (hn : ¬(ρ t = r0 ∧ z t = 0)) (hρ : HasDerivAt ρ ρ' t) (hz : HasDerivAt z z' t) :
    HasDerivAt (fun t => cg r0 (ρ t) (z t))
      (cgρ r0 (ρ t) (z t) (E (1 - ca r0 (ρ t) (z t) / cb r0 (ρ t) (z t))) (K (1 - ca r0 (ρ t) (z t) / cb r0 (ρ t) (z t))) (√(cb r0 (ρ t) (z t))) * ρ' +
       cgz r0 (ρ t) (z t) (E (1 - ca r0 (ρ t) (z t) / cb r0 (ρ t) (z t))) (K (1 - ca r0 (ρ t) (z t) / cb r0 (ρ t) (z t))) (√(cb r0 (ρ t) (z t))) * z') t := by
  have ha := ca_pos hn
  have hb : 0 < cb r0 (ρ t) (z t) := cb_pos h0 hp.le
  have hβ : 0 < √(cb r0 (ρ t) (z t)) := Real.sqrt_pos.mpr hb
  have hβ2 : √(cb r0 (ρ t) (z t)) ^ 2 = cb r0 (ρ t) (z t) := Real.sq_sqrt hb.le
  have hr2 : HasDerivAt (fun t => ρ t ^ 2 + z t ^ 2) (2 * ρ t * ρ' + 2 * z t * z') t :=
    ((hρ.fun_pow 2).fun_add (hz.fun_pow 2)).congr_deriv (by simp)
  have hden := ((d_ca (r0 := r0) hρ hz).const_mul 2).fun_mul (d_beta h0 hp hρ hz)
  have hden0 : 2 * ca r0 (ρ t) (z t) * √(cb r0 (ρ t) (z t)) ≠ 0 := by positivity
  have h1 := (hasDerivAt_const t (1 : ℝ)).fun_div hden hden0
  have hN := ((hr2.const_sub (r0 ^ 2)).fun_mul (d_Ecomp h0 hp hn hρ hz)).fun_add ((d_ca (r0 := r0) hρ hz).fun_mul (d_Kcomp h0 hp hn hρ hz))
  refine (h1.fun_mul hN).congr_deriv ?_
  generalize E (1 - ca r0 (ρ t) (z t) / cb r0 (ρ t) (z t)) = e
  generalize K (1 - ca r0 (ρ t) (z t) / cb r0 (ρ t) (z t)) = k
  generalize √(cb r0 (ρ t) (z t)) = β at *
  unfold cgρ cgz
  have had : ca r0 (ρ t) (z t) = r0 ^ 2 + (ρ t ^ 2 + z t ^ 2) - 2 * r0 * ρ t := rfl
  have hbd : cb r0 (ρ t) (z t) = r0 ^ 2 + (ρ t ^ 2 + z t ^ 2) + 2 * r0 * ρ t := rfl
  generalize ca r0 (ρ t) (z t) = a at *
  rw [← hβ2] at *
  generalize ρ t = p at *
  generalize z t = w at *
  have := ha.ne'
  have := hβ.ne'
  have := hp.ne'
  have e4 : β ^ 4 = (r0 ^ 2 + (p ^ 2 + w ^ 2) + 2 * r0 * p) ^ 2 := by rw [← hbd]; ring
  field_simp
  rw [hbd]
  subst had
  ring

theorem d_f (h0 : 0 < r0) (hp : 0 < ρ t) (hn : ¬(ρ t = r0 ∧ z t = 0)) (hρ : HasDerivAt ρ ρ' t) (hz : HasDerivAt z z' t) :
    HasDerivAt (fun t => cf r0 (ρ t) (z t))
      (cfρ r0 (ρ t) (z t) (E (1 - ca r0 (ρ t) (z t) / cb r0 (ρ t) (z t))) (K (1 - ca r0 (ρ t) (z t) / cb r0 (ρ t) (z t))) (√(cb r0 (ρ t) (z t))) * ρ' +
       cfz r0 (ρ t) (z t) (E (1 - ca r0 (ρ t) (z t) / cb r0 (ρ t) (z t))) (K (1 - ca r0 (ρ t) (z t) / cb r0 (ρ t) (z t))) (√(cb r0 (ρ t) (z t))) * z') t := by
  have ha := ca_pos hn
  have hb : 0 < cb r0 (ρ t) (z t) := cb_pos h0 hp.le
  have hβ : 0 < √(cb r0 (ρ t) (z t)) := Real.sqrt_pos.mpr hb
  have hβ2 : √(cb r0 (ρ t) (z t)) ^ 2 = cb r0 (ρ t) (z t) := Real.sq_sqrt hb.le
  have hr2 : HasDerivAt (fun t => ρ t ^ 2 + z t ^ 2) (2 * ρ t * ρ' + 2 * z t * z') t :=
    ((hρ.fun_pow 2).fun_add (hz.fun_pow 2)).congr_deriv (by simp)
  have hρ2 : HasDerivAt (fun t => ρ t ^ 2) (2 * ρ t * ρ') t := (hρ.fun_pow 2).congr_deriv (by simp)
  have hden := (((d_ca (r0 := r0) hρ hz).const_mul 2).fun_mul (d_beta h0 hp hρ hz)).fun_mul hρ2
  have hden0 : 2 * ca r0 (ρ t) (z t) * √(cb r0 (ρ t) (z t)) * ρ t ^ 2 ≠ 0 := by positivity
  have h1 := (hasDerivAt_const t (1 : ℝ)).fun_div hden hden0
  have hN := ((hr2.const_add (r0 ^ 2)).fun_mul (d_Ecomp h0 hp hn hρ hz)).fun_sub ((d_ca (r0 := r0) hρ hz).fun_mul (d_Kcomp h0 hp hn hρ hz))
  refine (h1.fun_mul hN).congr_deriv ?_
  generalize E (1 - ca r0 (ρ t) (z t) / cb r0 (ρ t) (z t)) = e
  generalize K (1 - ca r0 (ρ t) (z t) / cb r0 (ρ t) (z t)) = k
  generalize √(cb r0 (ρ t) (z t)) = β at *
  unfold cfρ cfz
  have had : ca r0 (ρ t) (z t) = r0 ^ 2 + (ρ t ^ 2 + z t ^ 2) - 2 * r0 * ρ t := rfl
  have hbd : cb r0 (ρ t) (z t) = r0 ^ 2 + (ρ t ^ 2 + z t ^ 2) + 2 * r0 * ρ t := rfl
  generalize ca r0 (ρ t) (z t) = a at *
  rw [← hβ2] at *
  generalize ρ t = p at *
  generalize z t = w at *
  have := ha.ne'
  have := hβ.ne'
  have := hp.ne'
  field_simp
  rw [hbd]
  subst had
  ring
end

/-! ## Along a curve in the frame of the coil -/

/-- `dB_by_dXm` without the constants `1e-31`, and without the division by x. -/
noncomputable def trueDB (inorm r0 : ℝ) (q : P3) : T2 :=
  let D := localDB 0 inorm r0 q
  let v := loc r0 q
  let gz := inorm * (cgρ r0 v.rho (q 2) v.e v.k v.beta / v.rho)
  ![![D 0 0, D 0 1, gz * q 0], ![D 1 0, D 1 1, gz * q 1], ![gz * q 0, gz * q 1, D 2 2]]

theorem loc_r2 (q : P3) : (loc r0 q).r ^ 2 = (loc r0 q).rho ^ 2 + q 2 ^ 2 := by
  show √(q 0 ^ 2 + q 1 ^ 2 + q 2 ^ 2) ^ 2 = √(q 0 ^ 2 + q 1 ^ 2) ^ 2 + q 2 ^ 2
  rw [Real.sq_sqrt (by positivity), Real.sq_sqrt (by positivity)]

theorem loc_alpha2 (r0 : ℝ) (q : P3) : (loc r0 q).alpha ^ 2 = ca r0 (loc r0 q).rho (q 2) := by
  have hr := loc_r2 (r0 := r0) q
  have e : r0 ^ 2 + (loc r0 q).r ^ 2 - 2 * r0 * (loc r0 q).rho = ca r0 (loc r0 q).rho (q 2) := by rw [hr]; rfl
  show √(r0 ^ 2 + (loc r0 q).r ^ 2 - 2 * r0 * (loc r0 q).rho) ^ 2 = _
  rw [e, Real.sq_sqrt]
  have : ca r0 (loc r0 q).rho (q 2) = ((loc r0 q).rho - r0) ^ 2 + q 2 ^ 2 := by unfold ca; ring
  rw [this]; positivity

theorem loc_beta (r0 : ℝ) (q : P3) : (loc r0 q).beta = √(cb r0 (loc r0 q).rho (q 2)) := by
  have hr := loc_r2 (r0 := r0) q
  show √(r0 ^ 2 + (loc r0 q).r ^ 2 + 2 * r0 * (loc r0 q).rho) = _
  rw [hr]; rfl

theorem rho_nonneg (r0 : ℝ) (q : P3) : 0 ≤ (loc r0 q).rho := Real.sqrt_nonneg _

theorem loc_k2 {r0 : ℝ} (h0 : 0 < r0) (q : P3) : √(1 - (loc r0 q).alpha ^ 2 / (loc r0 q).beta ^ 2) ^ 2 = 1 - ca r0 (loc r0 q).rho (q 2) / cb r0 (loc r0 q).rho (q 2) := by
  have hb := cb_pos (z := q 2) h0 (rho_nonneg r0 q)
  rw [loc_alpha2, loc_beta, Real.sq_sqrt hb.le, Real.sq_sqrt]
  rw [par_eq hb.ne']
  have := rho_nonneg r0 q
  positivity

theorem loc_e {r0 : ℝ} (h0 : 0 < r0) (q : P3) : (loc r0 q).e = E (1 - ca r0 (loc r0 q).rho (q 2) / cb r0 (loc r0 q).rho (q 2)) := by
  rw [← loc_k2 h0]; rfl
theorem loc_k {r0 : ℝ} (h0 : 0 < r0) (q : P3) : (loc r0 q).k = K (1 - ca r0 (loc r0 q).rho (q 2) / cb r0 (loc r0 q).rho (q 2)) := by
  rw [← loc_k2 h0]; rfl

theorem localB_eq {r0 : ℝ} (h0 : 0 < r0) (inorm : ℝ) (q : P3) :
    localB 0 inorm r0 q = ![inorm * q 0 * q 2 * cf r0 (loc r0 q).rho (q 2), inorm * q 1 * q 2 * cf r0 (loc r0 q).rho (q 2), inorm * cg r0 (loc r0 q).rho (q 2)] := by
  simp only [localB, loc_alpha2, loc_r2, loc_e h0, loc_k h0, loc_beta, add_zero, cf, cg]
  congr 1
  · ring
  · congr 1
    · ring
    · congr 1
      ring

/-- Along any curve off the axis and off the coil, the derivative of the field in the frame of the coil. -/
theorem d_localB {r0 : ℝ} (h0 : 0 < r0) (inorm : ℝ) (q : ℝ → P3) (v : P3) (t : ℝ) (hq : ∀ i, HasDerivAt (fun s => q s i) (v i) t)
    (hax : q t 0 ^ 2 + q t 1 ^ 2 ≠ 0) (hco : ¬(q t 0 ^ 2 + q t 1 ^ 2 = r0 ^ 2 ∧ q t 2 = 0)) (l : Fin 3) :
    HasDerivAt (fun s => localB 0 inorm r0 (q s) l) (v 0 * trueDB inorm r0 (q t) 0 l + v 1 * trueDB inorm r0 (q t) 1 l + v 2 * trueDB inorm r0 (q t) 2 l) t := by
  have hp : 0 < (loc r0 (q t)).rho := Real.sqrt_pos.mpr (by positivity)
  have hρ2 : (loc r0 (q t)).rho ^ 2 = q t 0 ^ 2 + q t 1 ^ 2 := Real.sq_sqrt (by positivity)
  have hn : ¬((loc r0 (q t)).rho = r0 ∧ q t 2 = 0) := fun hh => hco ⟨by rw [← hρ2, hh.1], hh.2⟩
  have hρ : HasDerivAt (fun s => (loc r0 (q s)).rho) ((q t 0 * v 0 + q t 1 * v 1) / (loc r0 (q t)).rho) t := by
    have h1 : HasDerivAt (fun s => q s 0 ^ 2 + q s 1 ^ 2) (2 * q t 0 * v 0 + 2 * q t 1 * v 1) t := (((hq 0).fun_pow 2).fun_add ((hq 1).fun_pow 2)).congr_deriv (by simp)
    refine (h1.sqrt hax).congr_deriv ?_
    rw [show 2 * q t 0 * v 0 + 2 * q t 1 * v 1 = 2 * (q t 0 * v 0 + q t 1 * v 1) by ring, mul_div_mul_left _ _ two_ne_zero]
    rfl
  have hf := d_f (ρ := fun s => (loc r0 (q s)).rho) (z := fun s => q s 2) h0 hp hn hρ (hq 2)
  have hg := d_g (ρ := fun s => (loc r0 (q s)).rho) (z := fun s => q s 2) h0 hp hn hρ (hq 2)
  simp only [← loc_e h0, ← loc_k h0, ← loc_beta] at hf hg
  have hfd : cf r0 (loc r0 (q t)).rho (q t 2) = 1 / (2 * ca r0 (loc r0 (q t)).rho (q t 2) * (loc r0 (q t)).beta * (loc r0 (q t)).rho ^ 2) * ((r0 ^ 2 + ((loc r0 (q t)).rho ^ 2 + q t 2 ^ 2)) * (loc r0 (q t)).e - ca r0 (loc r0 (q t)).rho (q t 2) * (loc r0 (q t)).k) := by
    rw [loc_e h0, loc_k h0, loc_beta]; rfl
  have ha := ca_pos hn
  have hb : 0 < cb r0 (loc r0 (q t)).rho (q t 2) := cb_pos h0 hp.le
  have hβ : 0 < (loc r0 (q t)).beta := by rw [loc_beta]; exact Real.sqrt_pos.mpr hb
  have hβ2 : (loc r0 (q t)).beta ^ 2 = cb r0 (loc r0 (q t)).rho (q t 2) := by rw [loc_beta]; exact Real.sq_sqrt hb.le
  have had : ca r0 (loc r0 (q t)).rho (q t 2) = r0 ^ 2 + ((loc r0 (q t)).rho ^ 2 + q t 2 ^ 2) - 2 * r0 * (loc r0 (q t)).rho := rfl
  have hbd : cb r0 (loc r0 (q t)).rho (q t 2) = r0 ^ 2 + ((loc r0 (q t)).rho ^ 2 + q t 2 ^ 2) + 2 * r0 * (loc r0 (q t)).rho := rfl
  have ha4 : (loc r0 (q t)).alpha ^ 4 = ca r0 (loc r0 (q t)).rho (q t 2) ^ 2 := by rw [← loc_alpha2]; ring
  have hr4 : (loc r0 (q t)).r ^ 4 = ((loc r0 (q t)).rho ^ 2 + q t 2 ^ 2) ^ 2 := by rw [← loc_r2]; ring
  simp only [localB_eq h0]
  fin_cases l
  · refine ((((hq 0).const_mul inorm).fun_mul (hq 2)).fun_mul hf).congr_deriv ?_
    simp only [trueDB, localDB, Matrix.cons_val, Fin.zero_eta, add_zero, loc_alpha2, loc_r2, ha4, hr4, hfd, cfρ, cfz, cgρ]
    have hy : q t 1 ^ 2 = (loc r0 (q t)).rho ^ 2 - q t 0 ^ 2 := by rw [hρ2]; ring
    simp only [hy]
    generalize (loc r0 (q t)).e = e
    generalize (loc r0 (q t)).k = k
    generalize (loc r0 (q t)).beta = β at *
    generalize (loc r0 (q t)).rho = p at *
    generalize ca r0 p (q t 2) = a at *
    have := ha.ne'
    have := hβ.ne'
    have := hp.ne'
    rw [hbd] at hβ2
    field_simp
    simp only [hβ2]
    subst had
    ring
  · refine ((((hq 1).const_mul inorm).fun_mul (hq 2)).fun_mul hf).congr_deriv ?_
    simp only [trueDB, localDB, Matrix.cons_val, Fin.mk_one, add_zero, loc_alpha2, loc_r2, ha4, hr4, hfd, cfρ, cfz, cgρ]
    have hy : q t 0 ^ 2 = (loc r0 (q t)).rho ^ 2 - q t 1 ^ 2 := by rw [hρ2]; ring
    simp only [hy]
    generalize (loc r0 (q t)).e = e
    generalize (loc r0 (q t)).k = k
    generalize (loc r0 (q t)).beta = β at *
    generalize (loc r0 (q t)).rho = p at *
    generalize ca r0 p (q t 2) = a at *
    have := ha.ne'
    have := hβ.ne'
    have := hp.ne'
    rw [hbd] at hβ2
    field_simp
    simp only [hβ2]
    subst had
    ring
  · refine (hg.const_mul inorm).congr_deriv ?_
    simp only [trueDB, localDB, Matrix.cons_val, Fin.reduceFinMk, add_zero, loc_alpha2, loc_r2, ha4, hr4, cgz]
    generalize (loc r0 (q t)).e = e
    generalize (loc r0 (q t)).k = k
    generalize (loc r0 (q t)).beta = β at *
    generalize (loc r0 (q t)).rho = p at *
    generalize cgρ r0 p (q t 2) e k β = w
    generalize ca r0 p (q t 2) = a at *
    have := ha.ne'
    have := hβ.ne'
    have := hp.ne'
    field_simp

end Simsopt.Fields
