import Verif.Coils.Kernel
/-!
# C51: theorems
-/
namespace Simsopt.Coils
open Simsopt

theorem crossAxis_smul (c : ℝ) (a : V3) (k : Fin 3) : crossAxis (c • a) k = c • crossAxis a k := by
  match k with
  | 0 | 1 | 2 => ext <;> simp [crossAxis]

/-- `dKernelTerm` with the powers of the distance collected. -/
theorem dKernelTerm_eq (x g d : V3) (k : Fin 3) :
    dKernelTerm x g d k = (rsqrt (normsq (x - g)) * rsqrt (normsq (x - g)) * rsqrt (normsq (x - g))) • crossAxis d k
      - (3 * (rsqrt (normsq (x - g)) * rsqrt (normsq (x - g)) * rsqrt (normsq (x - g)) * rsqrt (normsq (x - g)) * rsqrt (normsq (x - g)))
          * comp (x - g) k) • cross d (x - g) := by
  simp only [dKernelTerm, crossAxis_smul]
  by_cases h : x = g
  · subst h; simp [normsq, rsqrt]
  · have h1 := rsqrt_sq _ (normsq_pos (x - g) (sub_ne_zero.mpr h))
    set n := rsqrt (normsq (x - g))
    set q := normsq (x - g)
    rw [smul_sub, smul_smul, smul_smul, smul_smul]
    congr 2
    · calc n * n * n * n * (q * n) = n * n * n * (q * (n * n)) := by ring
        _ = n * n * n := by rw [h1, mul_one]
    · ring

theorem kernelTerm_deriv (x g d : V3) (h : x ≠ g) (k : Fin 3) :
    HasDerivAt (fun t : ℝ => kernelTerm (x + t • unit k) g d) (dKernelTerm x g d k) 0 := by
  have hr := hasDerivAt_rsqrt x g h k
  have h3 := (hr.mul hr).mul hr
  have hs := h3.smul (hasDerivAt_cross x g d k)
  have h0 : x + (0 : ℝ) • unit k - g = x - g := by simp
  simp only [Pi.mul_apply, h0] at hs
  rw [dKernelTerm_eq]
  refine (hs.congr_deriv ?_)
  set n := rsqrt (normsq (x - g))
  set a := comp (x - g) k
  module

theorem dKernelTerm_deriv (x g d : V3) (h : x ≠ g) (k1 k2 : Fin 3) :
    HasDerivAt (fun t : ℝ => dKernelTerm (x + t • unit k2) g d k1) (ddKernelTermLower x g d k1 k2) 0 := by
  have hr := hasDerivAt_rsqrt x g h k2
  have h3 := (hr.mul hr).mul hr
  have h5 := (((h3.mul hr).mul hr).const_mul 3).mul (hasDerivAt_comp x g k2 k1)
  have hs := (h3.smul_const (crossAxis d k1)).sub (h5.smul (hasDerivAt_cross x g d k2))
  have h0 : x + (0 : ℝ) • unit k2 - g = x - g := by simp
  simp only [Pi.mul_apply, h0] at hs
  simp_rw [dKernelTerm_eq]
  refine (hs.congr_deriv ?_)
  simp only [ddKernelTermLower]
  set n := rsqrt (normsq (x - g))
  set a := comp (x - g) k1
  set b := comp (x - g) k2
  by_cases hk : k1 = k2
  · simp only [hk, if_true, smul_add, smul_smul]
    module
  · simp only [hk, if_false, smul_add, smul_smul]
    module

theorem ddKernelTermLower_symm (x g d : V3) (k1 k2 : Fin 3) : ddKernelTermLower x g d k1 k2 = ddKernelTermLower x g d k2 k1 := by
  simp only [ddKernelTermLower]
  by_cases hk : k1 = k2
  · rw [hk]
  · rw [if_neg hk, if_neg (Ne.symm hk)]; module

theorem ddKernelTerm_eq (x g d : V3) (k1 k2 : Fin 3) : ddKernelTerm x g d k1 k2 = ddKernelTermLower x g d k1 k2 := by
  rw [ddKernelTerm]; split_ifs
  · rfl
  · exact ddKernelTermLower_symm x g d k2 k1

theorem aKernelTerm_deriv (x g d : V3) (h : x ≠ g) (k : Fin 3) :
    HasDerivAt (fun t : ℝ => aKernelTerm (x + t • unit k) g d) (daKernelTerm x g d k) 0 := by
  have hr := (hasDerivAt_rsqrt x g h k).smul_const d
  refine hr.congr_deriv ?_
  simp only [daKernelTerm]; module

theorem daKernelTerm_deriv (x g d : V3) (h : x ≠ g) (k1 k2 : Fin 3) :
    HasDerivAt (fun t : ℝ => daKernelTerm (x + t • unit k2) g d k1) (ddaKernelTermLower x g d k1 k2) 0 := by
  have hr := hasDerivAt_rsqrt x g h k2
  have h3 := (((hr.mul hr).mul hr).mul (hasDerivAt_comp x g k2 k1)).smul_const d
  have hs := (hasDerivAt_const (0 : ℝ) (0 : V3)).sub h3
  have h0 : x + (0 : ℝ) • unit k2 - g = x - g := by simp
  simp only [Pi.mul_apply, h0] at hs
  refine hs.congr_deriv ?_
  simp only [ddaKernelTermLower]
  set n := rsqrt (normsq (x - g))
  by_cases hk : k1 = k2
  · simp only [hk, if_true]; module
  · simp only [hk, if_false]; module

theorem ddaKernelTerm_eq (x g d : V3) (k1 k2 : Fin 3) : ddaKernelTerm x g d k1 k2 = ddaKernelTermLower x g d k1 k2 := by
  rw [ddaKernelTerm]; split_ifs
  · rfl
  · simp only [ddaKernelTermLower]
    by_cases hk : k1 = k2
    · rw [hk]
    · rw [if_neg hk, if_neg (Ne.symm hk)]; module

/-! ### Sums -/

theorem coilSum_eq (coils : List ((List V3 × List V3) × ℝ)) (term : V3 → V3 → V3) :
    coilSum coils term = (coils.map fun c => c.2 • quadSum c.1.1 c.1.2 term).sum := by
  have : ∀ (l : List ((List V3 × List V3) × ℝ)) (a : V3), l.foldl (fun B c => B + c.2 • quadSum c.1.1 c.1.2 term) a =
      a + (l.map fun c => c.2 • quadSum c.1.1 c.1.2 term).sum := by
    intro l
    induction l with
    | nil => intro a; simp
    | cons c l ih => intro a; rw [List.foldl_cons, ih]; simp [add_assoc]
  rw [coilSum, this]; simp

theorem hasDerivAt_listSum {α : Type} (l : List α) (f : α → ℝ → V3) (f' : α → V3) (h : ∀ a ∈ l, HasDerivAt (f a) (f' a) 0) :
    HasDerivAt (fun t => (l.map fun a => f a t).sum) (l.map f').sum 0 := by
  induction l with
  | nil => simpa using hasDerivAt_const (0 : ℝ) (0 : V3)
  | cons a l ih =>
    simp only [List.map_cons, List.sum_cons]
    exact HasDerivAt.add (h a List.mem_cons_self) (ih fun b hb => h b (List.mem_cons_of_mem _ hb))

/-- If every quadrature point's term is differentiable, so is the sum, with the sum of the derivatives. -/
theorem coilSum_deriv (coils : List ((List V3 × List V3) × ℝ)) (x : V3) (hx : Off coils x) (f : ℝ → V3 → V3 → V3) (f' : V3 → V3 → V3)
    (h : ∀ g d, x ≠ g → HasDerivAt (fun t => f t g d) (f' g d) 0) :
    HasDerivAt (fun t => coilSum coils (f t)) (coilSum coils f') 0 := by
  simp_rw [coilSum_eq]
  apply hasDerivAt_listSum
  intro c hc
  have hs := hasDerivAt_listSum (c.1.1.zip c.1.2) (fun e t => f t e.1 e.2) (fun e => f' e.1 e.2)
    fun e he => h e.1 e.2 (hx c hc e.1 (List.of_mem_zip he).1)
  exact (hs.const_smul (1e-7 / c.1.1.length : ℝ)).const_smul c.2

/-- C51: `dB_by_dX()[i, k, :]` is the partial derivative of `B()[i, :]` in the k-th coordinate, at every point off the quadrature points. -/
theorem C51_dB (coils : List ((List V3 × List V3) × ℝ)) (x : V3) (hx : Off coils x) (k : Fin 3) :
    HasDerivAt (fun t : ℝ => biotSavart coils (x + t • unit k)) (dB coils x k) 0 :=
  coilSum_deriv coils x hx (fun t g d => kernelTerm (x + t • unit k) g d) (fun g d => dKernelTerm x g d k)
    fun g d h => kernelTerm_deriv x g d h k

/-- `d2B_by_dXdX()[i, k1, k2, :]` is the partial derivative of `dB_by_dX()[i, k1, :]` in the k2-th coordinate. -/
theorem C51_ddB (coils : List ((List V3 × List V3) × ℝ)) (x : V3) (hx : Off coils x) (k1 k2 : Fin 3) :
    HasDerivAt (fun t : ℝ => dB coils (x + t • unit k2) k1) (ddB coils x k1 k2) 0 :=
  coilSum_deriv coils x hx (fun t g d => dKernelTerm (x + t • unit k2) g d k1) (fun g d => ddKernelTerm x g d k1 k2)
    fun g d h => by rw [ddKernelTerm_eq]; exact dKernelTerm_deriv x g d h k1 k2

/-- `dA_by_dX()[i, k, :]` is the partial derivative of `A()[i, :]`. -/
theorem C51_dA (coils : List ((List V3 × List V3) × ℝ)) (x : V3) (hx : Off coils x) (k : Fin 3) :
    HasDerivAt (fun t : ℝ => potential coils (x + t • unit k)) (dA coils x k) 0 :=
  coilSum_deriv coils x hx (fun t g d => aKernelTerm (x + t • unit k) g d) (fun g d => daKernelTerm x g d k)
    fun g d h => aKernelTerm_deriv x g d h k

/-- `d2A_by_dXdX()[i, k1, k2, :]` is the partial derivative of `dA_by_dX()[i, k1, :]`. -/
theorem C51_ddA (coils : List ((List V3 × List V3) × ℝ)) (x : V3) (hx : Off coils x) (k1 k2 : Fin 3) :
    HasDerivAt (fun t : ℝ => dA coils (x + t • unit k2) k1) (ddA coils x k1 k2) 0 :=
  coilSum_deriv coils x hx (fun t g d => daKernelTerm (x + t • unit k2) g d k1) (fun g d => ddaKernelTerm x g d k1 k2)
    fun g d h => by rw [ddaKernelTerm_eq]; exact daKernelTerm_deriv x g d h k1 k2

/-! ### Divergence and curl -/

/-- A linear function of the three arrays commutes with the sums. -/
theorem coilSum_linear (coils : List ((List V3 × List V3) × ℝ)) (term : Fin 3 → V3 → V3 → V3) (L : (Fin 3 → V3) → V3)
    (h0 : L (fun _ => 0) = 0) (hadd : ∀ a b, L (fun k => a k + b k) = L a + L b) (hsmul : ∀ (c : ℝ) a, L (fun k => c • a k) = c • L a) :
    L (fun k => coilSum coils (term k)) = coilSum coils fun g d => L fun k => term k g d := by
  have hl : ∀ {α : Type} (l : List α) (f : Fin 3 → α → V3), L (fun k => (l.map (f k)).sum) = (l.map fun a => L fun k => f k a).sum := by
    intro α l f
    induction l with
    | nil => simpa using h0
    | cons a l ih => simp only [List.map_cons, List.sum_cons]; rw [hadd, ih]
  simp_rw [coilSum_eq]
  rw [hl]
  congr 2
  funext c
  rw [hsmul]
  simp only [quadSum]
  rw [hsmul, hl]

/-- The divergence read off the array `dB_by_dX`. -/
def divergence (d : Fin 3 → V3) : ℝ := comp (d 0) 0 + comp (d 1) 1 + comp (d 2) 2

/-- The curl read off an array of partial derivatives `d k = ∂_k`. -/
def curl (d : Fin 3 → V3) : V3 :=
  (comp (d 1) 2 - comp (d 2) 1, comp (d 2) 0 - comp (d 0) 2, comp (d 0) 1 - comp (d 1) 0)

/-- The computed field is divergence free: the trace of `dB_by_dX()` vanishes at every point, whatever the quadrature. -/
theorem C51_div_free (coils : List ((List V3 × List V3) × ℝ)) (x : V3) : divergence (dB coils x) = 0 := by
  have h := coilSum_linear coils (fun k g d => dKernelTerm x g d k) (fun d => (divergence d, 0, 0))
    (by simp [divergence, comp]) (fun a b => by ext <;> simp [divergence, comp]; ring)
    (fun c a => by ext <;> simp [divergence, comp]; ring)
  have h2 : ∀ g d, divergence (fun k => dKernelTerm x g d k) = 0 := by
    intro g d
    simp only [divergence, dKernelTerm_eq]
    simp [comp, crossAxis, cross]; ring
  simp only [h2] at h
  have h3 : coilSum coils (fun _ _ => ((0 : ℝ), (0 : ℝ), (0 : ℝ))) = 0 := by
    rw [coilSum_eq]
    have : (coils.map fun c => c.2 • quadSum c.1.1 c.1.2 fun _ _ => ((0 : ℝ), (0 : ℝ), (0 : ℝ))) = coils.map fun _ => (0 : V3) := by
      apply List.map_congr_left
      intro c _
      have : ((c.1.1.zip c.1.2).map fun _ => ((0 : ℝ), (0 : ℝ), (0 : ℝ))).sum = 0 := by
        induction c.1.1.zip c.1.2 with
        | nil => rfl
        | cons a l ih => simp only [List.map_cons, List.sum_cons, ih]; simp
      rw [quadSum, this]; simp
    rw [this]
    induction coils with
    | nil => rfl
    | cons a l ih => simp only [List.map_cons, List.sum_cons]; simp
  rw [h3] at h
  exact congrArg Prod.fst h

/-- `B` is the curl of `A`, computed from `dA_by_dX()`, at every point, whatever the quadrature. -/
theorem C51_curl_A (coils : List ((List V3 × List V3) × ℝ)) (x : V3) : curl (dA coils x) = biotSavart coils x := by
  have h := coilSum_linear coils (fun k g d => daKernelTerm x g d k) curl
    (by simp [curl, comp]) (fun a b => by ext <;> simp [curl, comp] <;> ring)
    (fun c a => by ext <;> simp [curl, comp] <;> ring)
  have h2 : ∀ g d, curl (fun k => daKernelTerm x g d k) = kernelTerm x g d := by
    intro g d
    ext <;> simp [curl, daKernelTerm, kernelTerm, comp, cross] <;> ring
  simp only [h2] at h
  exact h

/-- The hypothesis `Off` holds of a point away from a coil with two quadrature points. -/
example : Off [(([(1, 0, 0), (-1, 0, 0)], [(0, 1, 0), (0, -1, 0)]), 5)] (0, 0, 1) := by
  intro c hc g hg
  simp only [List.mem_singleton] at hc
  subst hc
  simp only [List.mem_cons, List.not_mem_nil, or_false] at hg
  rcases hg with h | h <;> subst h <;> simp

end Simsopt.Coils
