import Verif.Coils.FieldDeriv
import Verif.Curves.Geometry
/-!
# The derivative arrays of Biot-Savart along any path of evaluation points

C51 shows that the derivative arrays are the partial derivatives.  Here: the field along any differentiable path of points has the derivative that the array gives by the
chain rule (so the array is the total derivative), for `B`, `dB_by_dX`, `A` and `dA_by_dX`.
-/
namespace Simsopt.Labels
open Simsopt Simsopt.Coils
open Simsopt.Geometry hiding norm

/-- `Σ_k v[k] G[k, :]`. -/
def lin (G : Fin 3 → V3) (v : V3) : V3 := v.1 • G 0 + v.2.1 • G 1 + v.2.2 • G 2

theorem rsqrt_path {x : ℝ → V3} {x' : V3} {t : ℝ} (h : HasDerivAt x x' t) (g : V3) (h0 : x t ≠ g) :
    HasDerivAt (fun s => rsqrt (normsq (x s - g))) (-(rsqrt (normsq (x t - g)) * rsqrt (normsq (x t - g)) * rsqrt (normsq (x t - g)) * inner (x t - g) x')) t := by
  have hd : HasDerivAt (fun s => x s - g) x' t := h.sub_const g
  have hq : HasDerivAt (fun s => normsq (x s - g)) (2 * inner (x t - g) x') t := by
    have := d_inner hd hd
    refine this.congr_deriv ?_
    simp only [inner]; ring
  have hp := normsq_pos (x t - g) (sub_ne_zero.mpr h0)
  have hs := (hq.sqrt hp.ne').inv (Real.sqrt_ne_zero'.mpr hp)
  have e : (fun s => rsqrt (normsq (x s - g))) = fun s => (√(normsq (x s - g)))⁻¹ := by
    funext s; simp [rsqrt]
  rw [e]
  refine hs.congr_deriv ?_
  have hsq : √(normsq (x t - g)) ^ 2 = normsq (x t - g) := Real.sq_sqrt hp.le
  have h1 : √(normsq (x t - g)) ≠ 0 := Real.sqrt_ne_zero'.mpr hp
  simp only [rsqrt]
  field_simp

theorem cross_path {x : ℝ → V3} {x' : V3} {t : ℝ} (h : HasDerivAt x x' t) (g d : V3) : HasDerivAt (fun s => cross d (x s - g)) (cross d x') t := by
  have := d_cross (hasDerivAt_const t d) (h.sub_const g)
  refine this.congr_deriv ?_
  refine Prod.ext ?_ (Prod.ext ?_ ?_) <;> simp [cross]

theorem comp_path {x : ℝ → V3} {x' : V3} {t : ℝ} (h : HasDerivAt x x' t) (g : V3) (k : Fin 3) : HasDerivAt (fun s => comp (x s - g) k) (comp x' k) t := by
  have hd : HasDerivAt (fun s => x s - g) x' t := h.sub_const g
  match k with
  | 0 => exact d_fst hd
  | 1 => exact d_snd hd
  | 2 => exact d_trd hd

theorem kernelTerm_path {x : ℝ → V3} {x' : V3} {t : ℝ} (h : HasDerivAt x x' t) (g d : V3) (h0 : x t ≠ g) :
    HasDerivAt (fun s => kernelTerm (x s) g d) (lin (dKernelTerm (x t) g d) x') t := by
  have hr := rsqrt_path h g h0
  have hs := ((hr.fun_mul hr).fun_mul hr).fun_smul (cross_path h g d)
  refine hs.congr_deriv ?_
  simp only [lin, dKernelTerm_eq]
  generalize rsqrt (normsq (x t - g)) = n
  generalize x t - g = u
  refine Prod.ext ?_ (Prod.ext ?_ ?_) <;> simp [cross, crossAxis, comp, inner] <;> ring

theorem dKernelTerm_path {x : ℝ → V3} {x' : V3} {t : ℝ} (h : HasDerivAt x x' t) (g d : V3) (h0 : x t ≠ g) (k : Fin 3) :
    HasDerivAt (fun s => dKernelTerm (x s) g d k) (lin (ddKernelTerm (x t) g d k) x') t := by
  have hr := rsqrt_path h g h0
  have h3 := (hr.fun_mul hr).fun_mul hr
  have h5 := (((h3.fun_mul hr).fun_mul hr).const_mul 3).fun_mul (comp_path h g k)
  have hs := (h3.smul_const (crossAxis d k)).fun_sub (h5.fun_smul (cross_path h g d))
  simp_rw [dKernelTerm_eq]
  refine hs.congr_deriv ?_
  simp only [lin, ddKernelTerm_eq, ddKernelTermLower]
  generalize rsqrt (normsq (x t - g)) = n
  generalize x t - g = u
  match k with
  | 0 | 1 | 2 => refine Prod.ext ?_ (Prod.ext ?_ ?_) <;> simp [cross, crossAxis, comp, inner] <;> ring

theorem aKernelTerm_path {x : ℝ → V3} {x' : V3} {t : ℝ} (h : HasDerivAt x x' t) (g d : V3) (h0 : x t ≠ g) :
    HasDerivAt (fun s => aKernelTerm (x s) g d) (lin (daKernelTerm (x t) g d) x') t := by
  refine ((rsqrt_path h g h0).smul_const d).congr_deriv ?_
  simp only [lin, daKernelTerm]
  generalize rsqrt (normsq (x t - g)) = n
  generalize x t - g = u
  refine Prod.ext ?_ (Prod.ext ?_ ?_) <;> simp [comp, inner] <;> ring

theorem daKernelTerm_path {x : ℝ → V3} {x' : V3} {t : ℝ} (h : HasDerivAt x x' t) (g d : V3) (h0 : x t ≠ g) (k : Fin 3) :
    HasDerivAt (fun s => daKernelTerm (x s) g d k) (lin (ddaKernelTerm (x t) g d k) x') t := by
  have hr := rsqrt_path h g h0
  have hs := (hasDerivAt_const t (0 : V3)).fun_sub ((((hr.fun_mul hr).fun_mul hr).fun_mul (comp_path h g k)).smul_const d)
  refine hs.congr_deriv ?_
  simp only [lin, ddaKernelTerm_eq, ddaKernelTermLower]
  generalize rsqrt (normsq (x t - g)) = n
  generalize x t - g = u
  match k with
  | 0 | 1 | 2 => refine Prod.ext ?_ (Prod.ext ?_ ?_) <;> simp [comp, inner] <;> ring

theorem listSum_path {α : Type} {t : ℝ} (l : List α) (f : α → ℝ → V3) (f' : α → V3) (h : ∀ a ∈ l, HasDerivAt (f a) (f' a) t) :
    HasDerivAt (fun s => (l.map fun a => f a s).sum) (l.map f').sum t := by
  induction l with
  | nil => simpa using hasDerivAt_const t (0 : V3)
  | cons a l ih =>
    simp only [List.map_cons, List.sum_cons]
    exact HasDerivAt.add (h a List.mem_cons_self) (ih fun b hb => h b (List.mem_cons_of_mem _ hb))

theorem coilSum_path {t : ℝ} (coils : List ((List V3 × List V3) × ℝ)) (x : V3) (hx : Off coils x) (f : ℝ → V3 → V3 → V3) (f' : V3 → V3 → V3)
    (h : ∀ g d, x ≠ g → HasDerivAt (fun s => f s g d) (f' g d) t) : HasDerivAt (fun s => coilSum coils (f s)) (coilSum coils f') t := by
  simp_rw [coilSum_eq]
  apply listSum_path
  intro c hc
  have hs := listSum_path (c.1.1.zip c.1.2) (fun e s => f s e.1 e.2) (fun e => f' e.1 e.2) fun e he => h e.1 e.2 (hx c hc e.1 (List.of_mem_zip he).1)
  exact (hs.const_smul (1e-7 / c.1.1.length : ℝ)).const_smul c.2

theorem coilSum_lin (coils : List ((List V3 × List V3) × ℝ)) (term : Fin 3 → V3 → V3 → V3) (v : V3) :
    coilSum coils (fun g d => lin (fun k => term k g d) v) = lin (fun k => coilSum coils (term k)) v := by
  have hl : ∀ {α : Type} (l : List α) (T : Fin 3 → α → V3), (l.map fun a => lin (fun k => T k a) v).sum = lin (fun k => (l.map (T k)).sum) v := by
    intro α l T
    induction l with
    | nil => simp [lin]
    | cons a l ih =>
      simp only [List.map_cons, List.sum_cons]
      rw [ih]; simp only [lin]; module
  have hs : ∀ (c : ℝ) (G : Fin 3 → V3), c • lin G v = lin (fun k => c • G k) v := by intro c G; simp only [lin]; module
  simp_rw [coilSum_eq, quadSum, hl, hs]
  exact hl coils fun k c => c.2 • (1e-7 / (c.1.1.length : ℝ)) • (List.map (fun a : V3 × V3 => term k a.1 a.2) (c.1.1.zip c.1.2)).sum

/-- The array `G` (indexed as `dB_by_dX`) is the total derivative of `F` at `p`: along every path of points through `p`, `F` has the derivative that the chain rule gives. -/
def Diff (F : V3 → V3) (G : Fin 3 → V3) (p : V3) : Prop :=
  ∀ (x : ℝ → V3) (x' : V3) (t : ℝ), x t = p → HasDerivAt x x' t → HasDerivAt (fun s => F (x s)) (lin G x') t

/-- **C51.** Off the quadrature points of the coils, `dB_by_dX`, `d2B_by_dXdX`, `dA_by_dX`, `d2A_by_dXdX` are total derivatives: along every path of evaluation points `B`, `dB_by_dX`, `A` and
`dA_by_dX` change as the chain rule with these arrays says. -/
theorem C51_path (coils : List ((List V3 × List V3) × ℝ)) (p : V3) (hp : Off coils p) :
    Diff (biotSavart coils) (dB coils p) p ∧ (∀ k, Diff (fun q => dB coils q k) (ddB coils p k) p) ∧
    Diff (potential coils) (dA coils p) p ∧ (∀ k, Diff (fun q => dA coils q k) (ddA coils p k) p) := by
  refine ⟨?_, ?_, ?_, ?_⟩
  · intro x x' t hx h
    subst hx
    have := coilSum_path coils (x t) hp (fun s g d => kernelTerm (x s) g d) _ fun g d h0 => kernelTerm_path h g d h0
    rw [coilSum_lin coils (fun k g d => dKernelTerm (x t) g d k)] at this
    exact this
  · intro k x x' t hx h
    subst hx
    have := coilSum_path coils (x t) hp (fun s g d => dKernelTerm (x s) g d k) _ fun g d h0 => dKernelTerm_path h g d h0 k
    rw [coilSum_lin coils (fun j g d => ddKernelTerm (x t) g d k j)] at this
    exact this
  · intro x x' t hx h
    subst hx
    have := coilSum_path coils (x t) hp (fun s g d => aKernelTerm (x s) g d) _ fun g d h0 => aKernelTerm_path h g d h0
    rw [coilSum_lin coils (fun k g d => daKernelTerm (x t) g d k)] at this
    exact this
  · intro k x x' t hx h
    subst hx
    have := coilSum_path coils (x t) hp (fun s g d => daKernelTerm (x s) g d k) _ fun g d h0 => daKernelTerm_path h g d h0 k
    rw [coilSum_lin coils (fun j g d => ddaKernelTerm (x t) g d k j)] at this
    exact this

end Simsopt.Labels
