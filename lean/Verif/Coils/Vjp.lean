import Verif.Curves.Rotated
import Verif.Coils.FieldDeriv
import Verif.Coils.Current
/-!
# C63: the vector-Jacobian products of Biot-Savart are the adjoints of its derivative in the coil dofs

Model of `biot_savart_vjp_kernel` and `biot_savart_vector_potential_vjp_kernel` (src/simsoptpp/biot_savart_vjp_impl.h L180-272, L421-505; the
xsimd versions compute the same sums in another order), of `biot_savart_vjp_graph` and `biot_savart_vector_potential_vjp_graph`
(src/simsoptpp/biot_savart_vjp_py.cpp L66-134), of `B_vjp`, `B_and_dB_vjp`, `A_vjp`, `A_and_dA_vjp` (src/simsopt/field/biotsavart.py
L64-102, L104-133, L164-202, L204-229) and of `Coil.vjp` (src/simsopt/field/coil.py L30-33).
Simplification: real numbers instead of doubles, and the loops that add into an array are written as sums.
-/
namespace Simsopt.Vjp
open Simsopt.Coils Simsopt.Penalties Simsopt.Rotated
open Simsopt.Geometry hiding norm

/-! ### The kernels -/

/-- `cross(k, a)` with a unit vector (vec3dsimd.h): the unit vector `k` cross `a`. -/
def axisCross (k : Fin 3) (a : V3) : V3 := match k with | 0 => (0, -a.2.2, a.2.1) | 1 => (a.2.2, 0, -a.1) | 2 => (-a.2.1, a.1, 0)

/-- `res_dgamma_by_dphi_add` (biot_savart_vjp_impl.h L231). -/
noncomputable def bDash (x v g d : V3) : V3 :=
  let _ := d
  let diff := x - g
  let ni := rsqrt (normsq diff)
  let ni2 := ni * ni
  let ni3 := ni2 * ni
  ni3 • cross diff v

/-- `res_gamma_add` (L236-238). -/
noncomputable def bGamma (x v g d : V3) : V3 :=
  let diff := x - g
  let ni := rsqrt (normsq diff)
  let ni2 := ni * ni
  let ni3 := ni2 * ni
  let ni5 := ni3 * ni2
  let ni5t3 := 3 * ni5
  ni3 • cross d v + (ni5t3 * inner (cross d diff) v) • diff

/-- `res_grad_dgamma_by_dphi_add` (L246, L254-255). -/
noncomputable def bGradDash (x : V3) (vg : Fin 3 → V3) (g d : V3) : V3 :=
  let _ := d
  let diff := x - g
  let ni := rsqrt (normsq diff)
  let ni2 := ni * ni
  let ni3 := ni2 * ni
  let ni5 := ni3 * ni2
  let ni5t3 := 3 * ni5
  ∑ k, (ni3 • axisCross k (vg k) - (comp diff k * ni5t3) • cross diff (vg k))

/-- `res_grad_gamma_add` (L247, L257-260). -/
noncomputable def bGradGamma (x : V3) (vg : Fin 3 → V3) (g d : V3) : V3 :=
  let diff := x - g
  let ni := rsqrt (normsq diff)
  let ni2 := ni * ni
  let ni3 := ni2 * ni
  let ni5 := ni3 * ni2
  let ni5t3 := 3 * ni5
  let ni7 := ni5 * ni2
  ∑ k, ((inner (cross d (unit k)) (vg k) * ni5t3) • diff
    + (inner (cross d diff) (vg k) * ni5t3) • unit k
    + (ni5t3 * comp diff k) • cross (vg k) d
    - (15 * comp diff k * inner (cross d diff) (vg k) * ni7) • diff)

/-- `res_dgamma_by_dphi_add` of the vector potential (L470). -/
noncomputable def aDash (x v g d : V3) : V3 :=
  let _ := d
  let diff := x - g
  let ni := rsqrt (normsq diff)
  ni • v

/-- `res_gamma_add` of the vector potential (L475-476). -/
noncomputable def aGamma (x v g d : V3) : V3 :=
  let diff := x - g
  let ni := rsqrt (normsq diff)
  let ni3 := ni * ni * ni
  (inner v d * ni3) • diff

/-- `res_grad_dgamma_by_dphi_add` of the vector potential (L483, L487). -/
noncomputable def aGradDash (x : V3) (vg : Fin 3 → V3) (g d : V3) : V3 :=
  let _ := d
  let diff := x - g
  let ni := rsqrt (normsq diff)
  let ni3 := ni * ni * ni
  ∑ k, (0 - (ni3 * comp diff k) • vg k)

/-- `res_grad_gamma_add` of the vector potential (L484, L488, L491-493). -/
noncomputable def aGradGamma (x : V3) (vg : Fin 3 → V3) (g d : V3) : V3 :=
  let diff := x - g
  let ni := rsqrt (normsq diff)
  let ni3 := ni * ni * ni
  let ni5 := ni3 * ni * ni
  (∑ k, (0 - (inner (vg k) d * (3 * comp diff k) * ni5) • diff))
    + (inner (vg 0) d * ni3, inner (vg 1) d * ni3, inner (vg 2) d * ni3)

/-! ### The sums over points and coils -/

variable {np nc m : Nat} {n : Fin nc → Nat}

/-- The arrays of all coils: `gammas`, `gammadashs` and `currents`. -/
structure Arrays (nc : Nat) (n : Fin nc → Nat) where
  gamma : (c : Fin nc) → Fin (n c) → V3
  dash : (c : Fin nc) → Fin (n c) → V3
  cur : Fin nc → ℝ

/-- The same coils in the form used by `biotSavart`, `dB`, `potential` and `dA` (Verif.Coils.Model, Verif.Coils.Kernel). -/
def Arrays.coils (a : Arrays nc n) : List ((List V3 × List V3) × ℝ) :=
  List.ofFn fun c => ((List.ofFn (a.gamma c), List.ofFn (a.dash c)), a.cur c)

/-- One output array of `biot_savart_vjp_graph` (biot_savart_vjp_py.cpp L81-98): the kernel's sum over the points, times `fak`. -/
noncomputable def graph {W : Type} (kernel : V3 → W → V3 → V3 → V3) (points : Fin np → V3) (v : Fin np → W) (a : Arrays nc n)
    (c : Fin nc) (j : Fin (n c)) : V3 :=
  (a.cur c * 1e-7 / n c : ℝ) • ∑ i, kernel (points i) (v i) (a.gamma c j) (a.dash c j)

/-- `dB_by_dcoilcurrents()[c][i]` and its relatives (biotsavart.py L35-62, L135-162): the array of coil `c` alone, for a unit current. -/
noncomputable def unitField (term : V3 → V3 → V3) (a : Arrays nc n) (c : Fin nc) : V3 :=
  quadSum (List.ofFn (a.gamma c)) (List.ofFn (a.dash c)) term

/-- `res_current[c] = np.sum(v * dB_by_dcoilcurrents[c])` (L94, L131, L195, L227). -/
noncomputable def resCurrent (term : V3 → V3 → V3 → V3) (points : Fin np → V3) (v : Fin np → V3) (a : Arrays nc n) (c : Fin nc) : ℝ :=
  ∑ i, inner (v i) (unitField (term (points i)) a c)

/-- `res_grad_current[c] = np.sum(vgrad * d2B_by_dXdcoilcurrents[c])` (L96, L197). -/
noncomputable def resGradCurrent (term : V3 → V3 → V3 → Fin 3 → V3) (points : Fin np → V3) (vg : Fin np → Fin 3 → V3) (a : Arrays nc n)
    (c : Fin nc) : ℝ :=
  ∑ i, ∑ k, inner (vg i k) (unitField (fun g d => term (points i) g d k) a c)

/-- The Jacobians of the coils in the `m` dofs: `dgamma_by_dcoeff()`, `dgammadash_by_dcoeff()`, and the derivative of the current. -/
structure Jacobians (nc : Nat) (n : Fin nc → Nat) (m : Nat) where
  gamma : (c : Fin nc) → Fin (n c) → Fin m → V3
  dash : (c : Fin nc) → Fin (n c) → Fin m → V3
  cur : Fin nc → Fin m → ℝ

/-- `Coil.vjp` (coil.py L30-33), as an array over the dofs. -/
def coilVjp {n : Nat} (E0 E1 : Fin n → Fin m → V3) (dcur : Fin m → ℝ) (vGamma vDash : Fin n → V3) (vCur : ℝ) (l : Fin m) : ℝ :=
  contract E0 vGamma l + contract E1 vDash l + vCur * dcur l

/-- `B_vjp(v)` (biotsavart.py L104-133); also the first result of `B_and_dB_vjp(v, vgrad)` (L64-102). -/
noncomputable def bVjp (points : Fin np → V3) (a : Arrays nc n) (J : Jacobians nc n m) (v : Fin np → V3) (l : Fin m) : ℝ :=
  ∑ c, coilVjp (J.gamma c) (J.dash c) (J.cur c) (graph bGamma points v a c) (graph bDash points v a c) (resCurrent kernelTerm points v a c) l

/-- The second result of `B_and_dB_vjp(v, vgrad)` (L64-102). -/
noncomputable def bGradVjp (points : Fin np → V3) (a : Arrays nc n) (J : Jacobians nc n m) (vg : Fin np → Fin 3 → V3) (l : Fin m) : ℝ :=
  ∑ c, coilVjp (J.gamma c) (J.dash c) (J.cur c) (graph bGradGamma points vg a c) (graph bGradDash points vg a c)
    (resGradCurrent dKernelTerm points vg a c) l

/-- `A_vjp(v)` (L204-229); also the first result of `A_and_dA_vjp(v, vgrad)` (L164-202).  Simplification: `dA_by_dcoilcurrents` is taken to
return the arrays `A_c` of the current coils; see `C40_dA_by_dcoilcurrents_violated` for when it does not. -/
noncomputable def aVjp (points : Fin np → V3) (a : Arrays nc n) (J : Jacobians nc n m) (v : Fin np → V3) (l : Fin m) : ℝ :=
  ∑ c, coilVjp (J.gamma c) (J.dash c) (J.cur c) (graph aGamma points v a c) (graph aDash points v a c) (resCurrent aKernelTerm points v a c) l

/-- The second result of `A_and_dA_vjp(v, vgrad)` (L164-202). -/
noncomputable def aGradVjp (points : Fin np → V3) (a : Arrays nc n) (J : Jacobians nc n m) (vg : Fin np → Fin 3 → V3) (l : Fin m) : ℝ :=
  ∑ c, coilVjp (J.gamma c) (J.dash c) (J.cur c) (graph aGradGamma points vg a c) (graph aGradDash points vg a c)
    (resGradCurrent daKernelTerm points vg a c) l

/-! ### One quadrature point -/

theorem hasDerivAt_rsqrt_path {g : ℝ → V3} {g' : V3} {u : ℝ} (x : V3) (hg : HasDerivAt g g' u) (h : x ≠ g u) :
    HasDerivAt (fun t => rsqrt (normsq (x - g t)))
      (rsqrt (normsq (x - g u)) * rsqrt (normsq (x - g u)) * rsqrt (normsq (x - g u)) * inner (x - g u) g') u := by
  have hpos := normsq_pos (x - g u) (sub_ne_zero.mpr h)
  have hd : HasDerivAt (fun t => x - g t) (0 - g') u := (hasDerivAt_const u x).sub hg
  have hn : HasDerivAt (fun t => normsq (x - g t)) (-2 * inner (x - g u) g') u := by
    refine (d_inner hd hd).congr_deriv ?_
    simp only [inner, Prod.fst_sub, Prod.snd_sub, Prod.fst_zero, Prod.snd_zero]; ring
  have hs := (hn.sqrt hpos.ne').inv (Real.sqrt_pos.mpr hpos).ne'
  have hfun : (fun t : ℝ => rsqrt (normsq (x - g t))) = (fun t : ℝ => Real.sqrt (normsq (x - g t)))⁻¹ := by
    funext t; simp [rsqrt]
  rw [hfun]
  refine hs.congr_deriv ?_
  have h1 := (Real.sqrt_pos.mpr hpos).ne'
  unfold rsqrt
  field_simp

theorem d_comp {a : ℝ → V3} {a' : V3} {u : ℝ} (h : HasDerivAt a a' u) (k : Fin 3) : HasDerivAt (fun t => comp (a t) k) (comp a' k) u := by
  match k with
  | 0 => exact d_fst h
  | 1 => exact d_snd h
  | 2 => exact d_trd h

section
variable {g d : ℝ → V3} {g' d' : V3} {u : ℝ} (x : V3) (hg : HasDerivAt g g' u) (hd : HasDerivAt d d' u) (h : x ≠ g u)
include hg hd h

theorem b_point (v : V3) : HasDerivAt (fun t => inner v (kernelTerm x (g t) (d t)))
    (inner (bGamma x v (g u) (d u)) g' + inner (bDash x v (g u) (d u)) d') u := by
  have hdiff : HasDerivAt (fun t => x - g t) (0 - g') u := (hasDerivAt_const u x).sub hg
  have hr := hasDerivAt_rsqrt_path x hg h
  have hk := ((hr.mul hr).mul hr).smul (d_cross hd hdiff)
  refine (d_inner (hasDerivAt_const u v) hk).congr_deriv ?_
  simp only [bGamma, bDash, Pi.mul_apply]
  generalize rsqrt (normsq (x - g u)) = n
  generalize x - g u = f
  simp only [inner, cross, Prod.fst_sub, Prod.snd_sub, Prod.fst_zero, Prod.snd_zero, Prod.fst_add, Prod.snd_add, Prod.smul_fst, Prod.smul_snd,
    smul_eq_mul]
  ring

theorem a_point (v : V3) : HasDerivAt (fun t => inner v (aKernelTerm x (g t) (d t)))
    (inner (aGamma x v (g u) (d u)) g' + inner (aDash x v (g u) (d u)) d') u := by
  have hr := hasDerivAt_rsqrt_path x hg h
  refine (d_inner (hasDerivAt_const u v) (hr.smul hd)).congr_deriv ?_
  simp only [aGamma, aDash]
  generalize rsqrt (normsq (x - g u)) = n
  generalize x - g u = f
  simp only [inner, Prod.fst_zero, Prod.snd_zero, Prod.fst_add, Prod.snd_add, Prod.smul_fst, Prod.smul_snd, smul_eq_mul]
  ring

theorem bGrad_point (vg : Fin 3 → V3) : HasDerivAt (fun t => ∑ k, inner (vg k) (dKernelTerm x (g t) (d t) k))
    (inner (bGradGamma x vg (g u) (d u)) g' + inner (bGradDash x vg (g u) (d u)) d') u := by
  have hdiff : HasDerivAt (fun t => x - g t) (0 - g') u := (hasDerivAt_const u x).sub hg
  have hr := hasDerivAt_rsqrt_path x hg h
  have h3 := (hr.mul hr).mul hr
  have hca : ∀ k : Fin 3, HasDerivAt (fun t => crossAxis (d t) k) (crossAxis d' k) u := by
    intro k
    match k with
    | 0 => exact (hasDerivAt_const u 0).prodMk ((d_trd hd).prodMk (d_snd hd).neg)
    | 1 => exact (d_trd hd).neg.prodMk ((hasDerivAt_const u 0).prodMk (d_fst hd))
    | 2 => exact (d_snd hd).prodMk ((d_fst hd).neg.prodMk (hasDerivAt_const u 0))
  have hk : ∀ k : Fin 3, HasDerivAt (fun t => inner (vg k) (dKernelTerm x (g t) (d t) k)) _ u := fun k => by
    have hs := (h3.smul (hca k)).sub ((((((h3.mul hr).mul hr).const_mul 3).mul (d_comp hdiff k))).smul (d_cross hd hdiff))
    have := d_inner (hasDerivAt_const u (vg k)) hs
    simp only [dKernelTerm_eq]
    exact this
  refine (HasDerivAt.fun_sum fun k _ => hk k).congr_deriv ?_
  simp only [bGradGamma, bGradDash, Pi.mul_apply]
  generalize rsqrt (normsq (x - g u)) = n
  generalize x - g u = f
  simp only [Fin.sum_univ_three]
  simp only [inner, cross, comp, unit, crossAxis, axisCross, Prod.fst_sub, Prod.snd_sub, Prod.fst_zero, Prod.snd_zero, Prod.fst_add, Prod.snd_add,
    Prod.smul_fst, Prod.smul_snd, smul_eq_mul, Pi.sub_apply]
  ring

theorem aGrad_point (vg : Fin 3 → V3) : HasDerivAt (fun t => ∑ k, inner (vg k) (daKernelTerm x (g t) (d t) k))
    (inner (aGradGamma x vg (g u) (d u)) g' + inner (aGradDash x vg (g u) (d u)) d') u := by
  have hdiff : HasDerivAt (fun t => x - g t) (0 - g') u := (hasDerivAt_const u x).sub hg
  have hr := hasDerivAt_rsqrt_path x hg h
  have h3 := (hr.mul hr).mul hr
  have hk : ∀ k : Fin 3, HasDerivAt (fun t => inner (vg k) (daKernelTerm x (g t) (d t) k)) _ u := fun k => by
    exact d_inner (hasDerivAt_const u (vg k)) ((hasDerivAt_const u (0 : V3)).sub ((h3.mul (d_comp hdiff k)).smul hd))
  refine (HasDerivAt.fun_sum fun k _ => hk k).congr_deriv ?_
  simp only [aGradGamma, aGradDash, Pi.mul_apply]
  generalize rsqrt (normsq (x - g u)) = n
  generalize x - g u = f
  simp only [Fin.sum_univ_three]
  simp only [inner, comp, Prod.fst_sub, Prod.snd_sub, Prod.fst_zero, Prod.snd_zero, Prod.fst_add, Prod.snd_add,
    Prod.smul_fst, Prod.smul_snd, smul_eq_mul]
  ring

end

/-! ### Sums -/

theorem zip_ofFn {k : Nat} (a b : Fin k → V3) : (List.ofFn a).zip (List.ofFn b) = List.ofFn fun j => (a j, b j) := by
  apply List.ext_getElem
  · simp
  · intro i h1 h2; simp

theorem quadSum_ofFn {k : Nat} (a b : Fin k → V3) (term : V3 → V3 → V3) :
    quadSum (List.ofFn a) (List.ofFn b) term = (1e-7 / k : ℝ) • ∑ j, term (a j) (b j) := by
  rw [quadSum, zip_ofFn, List.length_ofFn, List.map_ofFn, List.sum_ofFn]
  rfl

theorem coilSum_arrays (a : Arrays nc n) (term : V3 → V3 → V3) :
    coilSum a.coils term = ∑ c, a.cur c • unitField term a c := by
  rw [coilSum_eq, Arrays.coils, List.map_ofFn, List.sum_ofFn]
  rfl

theorem inner_add_right (v a b : V3) : inner v (a + b) = inner v a + inner v b := by
  simp only [inner, Prod.fst_add, Prod.snd_add]; ring

theorem inner_smul_right (v a : V3) (r : ℝ) : inner v (r • a) = r * inner v a := by
  simp only [inner, Prod.smul_fst, Prod.smul_snd, smul_eq_mul]; ring

theorem inner_sum_right {α : Type} (s : Finset α) (v : V3) (f : α → V3) : inner v (∑ i ∈ s, f i) = ∑ i ∈ s, inner v (f i) := by
  classical
  induction s using Finset.induction_on with
  | empty => simp [inner]
  | insert a s ha ih => rw [Finset.sum_insert ha, Finset.sum_insert ha, inner_add_right, ih]

theorem inner_comm' (a b : V3) : inner a b = inner b a := by simp only [inner]; ring

theorem inner_sum_left {α : Type} (s : Finset α) (v : V3) (f : α → V3) : inner (∑ i ∈ s, f i) v = ∑ i ∈ s, inner (f i) v := by
  rw [inner_comm', inner_sum_right]; exact Finset.sum_congr rfl fun i _ => inner_comm' _ _

/-- The coils at the parameter `u` move with the Jacobian `J` when the dof `l` moves. -/
structure Moves (a : ℝ → Arrays nc n) (J : Jacobians nc n m) (l : Fin m) (u : ℝ) : Prop where
  gamma : ∀ c j, HasDerivAt (fun t => (a t).gamma c j) (J.gamma c j l) u
  dash : ∀ c j, HasDerivAt (fun t => (a t).dash c j) (J.dash c j l) u
  cur : ∀ c, HasDerivAt (fun t => (a t).cur c) (J.cur c l) u

/-- The general argument: `phi i g d` is the integrand at point `i` contracted with the vector passed to the function. -/
theorem adjoint {W : Type} (kg kd : V3 → W → V3 → V3 → V3) (phi : Fin np → V3 → V3 → ℝ) (points : Fin np → V3) (w : Fin np → W)
    (hphi : ∀ i (g d : ℝ → V3) (g' d' : V3) (u : ℝ), HasDerivAt g g' u → HasDerivAt d d' u → points i ≠ g u →
      HasDerivAt (fun t => phi i (g t) (d t))
        (inner (kg (points i) (w i) (g u) (d u)) g' + inner (kd (points i) (w i) (g u) (d u)) d') u)
    (a : ℝ → Arrays nc n) (J : Jacobians nc n m) (l : Fin m) (u : ℝ) (hm : Moves a J l u)
    (hoff : ∀ i c j, points i ≠ (a u).gamma c j) :
    HasDerivAt (fun t => ∑ i, ∑ c, (a t).cur c * ((1e-7 / n c : ℝ) * ∑ j, phi i ((a t).gamma c j) ((a t).dash c j)))
      (∑ c, coilVjp (J.gamma c) (J.dash c) (J.cur c) (graph kg points w (a u) c) (graph kd points w (a u) c)
        (∑ i, (1e-7 / n c : ℝ) * ∑ j, phi i ((a u).gamma c j) ((a u).dash c j)) l) u := by
  have h := HasDerivAt.fun_sum (u := (Finset.univ : Finset (Fin np))) fun i _ =>
    HasDerivAt.fun_sum (u := (Finset.univ : Finset (Fin nc))) fun c _ =>
      (hm.cur c).mul ((HasDerivAt.fun_sum (u := (Finset.univ : Finset (Fin (n c)))) fun j _ =>
        hphi i _ _ _ _ _ (hm.gamma c j) (hm.dash c j) (hoff i c j)).const_mul (1e-7 / n c : ℝ))
  refine h.congr_deriv ?_
  rw [Finset.sum_comm]
  refine Finset.sum_congr rfl fun c _ => ?_
  simp only [coilVjp, contract_eq, graph, inner_smul_left, inner_sum_left]
  rw [Finset.sum_add_distrib, Finset.sum_mul, add_comm]
  congr 1
  · simp only [← Finset.mul_sum, Finset.sum_add_distrib, mul_add]
    rw [Finset.sum_comm (γ := Fin np), Finset.sum_comm (γ := Fin np)]
    ring
  · exact Finset.sum_congr rfl fun i _ => mul_comm _ _

theorem pair_field (term : V3 → V3 → V3 → V3) (points v : Fin np → V3) (a : Arrays nc n) :
    ∑ i, inner (v i) (coilSum a.coils (term (points i))) =
      ∑ i, ∑ c, a.cur c * ((1e-7 / n c : ℝ) * ∑ j, inner (v i) (term (points i) (a.gamma c j) (a.dash c j))) := by
  refine Finset.sum_congr rfl fun i _ => ?_
  simp only [coilSum_arrays, inner_sum_right, inner_smul_right, unitField, quadSum_ofFn]

theorem pair_grad (term : V3 → V3 → V3 → Fin 3 → V3) (points : Fin np → V3) (vg : Fin np → Fin 3 → V3) (a : Arrays nc n) :
    ∑ i, ∑ k, inner (vg i k) (coilSum a.coils fun g d => term (points i) g d k) =
      ∑ i, ∑ c, a.cur c * ((1e-7 / n c : ℝ) * ∑ j, ∑ k, inner (vg i k) (term (points i) (a.gamma c j) (a.dash c j) k)) := by
  refine Finset.sum_congr rfl fun i _ => ?_
  simp only [coilSum_arrays, inner_sum_right, inner_smul_right, unitField, quadSum_ofFn]
  rw [Finset.sum_comm]
  refine Finset.sum_congr rfl fun c _ => ?_
  rw [← Finset.mul_sum, ← Finset.mul_sum, Finset.sum_comm]

theorem resCurrent_eq (term : V3 → V3 → V3 → V3) (points v : Fin np → V3) (a : Arrays nc n) (c : Fin nc) :
    resCurrent term points v a c = ∑ i, (1e-7 / n c : ℝ) * ∑ j, inner (v i) (term (points i) (a.gamma c j) (a.dash c j)) := by
  simp only [resCurrent, unitField, quadSum_ofFn, inner_smul_right, inner_sum_right]

theorem resGradCurrent_eq (term : V3 → V3 → V3 → Fin 3 → V3) (points : Fin np → V3) (vg : Fin np → Fin 3 → V3) (a : Arrays nc n) (c : Fin nc) :
    resGradCurrent term points vg a c =
      ∑ i, (1e-7 / n c : ℝ) * ∑ j, ∑ k, inner (vg i k) (term (points i) (a.gamma c j) (a.dash c j) k) := by
  simp only [resGradCurrent, unitField, quadSum_ofFn, inner_smul_right, inner_sum_right]
  refine Finset.sum_congr rfl fun i _ => ?_
  rw [← Finset.mul_sum, Finset.sum_comm]

/-! ### The theorems -/

section
variable (points : Fin np → V3) (a : ℝ → Arrays nc n) (J : Jacobians nc n m) (l : Fin m) (u : ℝ) (hm : Moves a J l u)
  (hoff : ∀ i c j, points i ≠ (a u).gamma c j)
include hm hoff

/-- **C63.** Entry `l` of `B_vjp(v)` is the derivative in dof `l` of `sum(v * B())`, if the curves' Jacobians and the current's derivative are
right, for every set of coils, every number of quadrature points, every set of evaluation points off the quadrature points and every `v`. -/
theorem C63_B_vjp (v : Fin np → V3) :
    HasDerivAt (fun t => ∑ i, inner (v i) (biotSavart (a t).coils (points i))) (bVjp points (a u) J v l) u := by
  have h := adjoint bGamma bDash (fun i g d => inner (v i) (kernelTerm (points i) g d)) points v
    (fun i g d g' d' u hg hd hne => b_point (points i) hg hd hne (v i)) a J l u hm hoff
  simp only [biotSavart_eq, pair_field kernelTerm points v, bVjp, resCurrent_eq]
  exact h

/-- **C63.** The second result of `B_and_dB_vjp(v, vgrad)` is the derivative of `sum(vgrad * dB_by_dX())`. -/
theorem C63_dB_vjp (vg : Fin np → Fin 3 → V3) :
    HasDerivAt (fun t => ∑ i, ∑ k, inner (vg i k) (dB (a t).coils (points i) k)) (bGradVjp points (a u) J vg l) u := by
  have h := adjoint bGradGamma bGradDash (fun i g d => ∑ k, inner (vg i k) (dKernelTerm (points i) g d k)) points vg
    (fun i g d g' d' u hg hd hne => bGrad_point (points i) hg hd hne (vg i)) a J l u hm hoff
  simp only [dB, pair_grad dKernelTerm points vg, bGradVjp, resGradCurrent_eq]
  exact h

/-- **C63.** The same for `A_vjp(v)` and the vector potential. -/
theorem C63_A_vjp (v : Fin np → V3) :
    HasDerivAt (fun t => ∑ i, inner (v i) (potential (a t).coils (points i))) (aVjp points (a u) J v l) u := by
  have h := adjoint aGamma aDash (fun i g d => inner (v i) (aKernelTerm (points i) g d)) points v
    (fun i g d g' d' u hg hd hne => a_point (points i) hg hd hne (v i)) a J l u hm hoff
  simp only [potential, pair_field aKernelTerm points v, aVjp, resCurrent_eq]
  exact h

/-- **C63.** The same for the second result of `A_and_dA_vjp(v, vgrad)`. -/
theorem C63_dA_vjp (vg : Fin np → Fin 3 → V3) :
    HasDerivAt (fun t => ∑ i, ∑ k, inner (vg i k) (dA (a t).coils (points i) k)) (aGradVjp points (a u) J vg l) u := by
  have h := adjoint aGradGamma aGradDash (fun i g d => ∑ k, inner (vg i k) (daKernelTerm (points i) g d k)) points vg
    (fun i g d g' d' u hg hd hne => aGrad_point (points i) hg hd hne (vg i)) a J l u hm hoff
  simp only [dA, pair_grad daKernelTerm points vg, aGradVjp, resGradCurrent_eq]
  exact h

end

/-! ### Coils that are rotated and flipped copies of base coils -/

section
variable {N : Nat} {K : Type} [DecidableEq K]

/-- The arrays of coils given as pairs of a curve and a current: `g`, `d` are the arrays of the base curves and `val` the values of the
`Current` objects. -/
noncomputable def ofCoils (cs : Fin nc → Curve × Cur K ℝ) (g d : Nat → Fin N → V3) (val : K → ℝ) : Arrays nc (fun _ => N) where
  gamma c := rows g (cs c).1
  dash c := rows d (cs c).1
  cur c := (cs c).2.value val

/-- The Jacobians of such coils: `dgamma_by_dcoeff()`, `dgammadash_by_dcoeff()` and the coefficient of each `Current`; `E0 i k l` is the Jacobian
of the base curve `i`, and `D k l` the derivative of the value of the `Current` `k`, in dof `l`. -/
noncomputable def ofJacobians [Fintype K] (cs : Fin nc → Curve × Cur K ℝ) (E0 E1 : Nat → Fin N → Fin m → V3) (D : K → Fin m → ℝ) :
    Jacobians nc (fun _ => N) m where
  gamma c := jac E0 (cs c).1
  dash c := jac E1 (cs c).1
  cur c l := ∑ k, (cs c).2.coeff k * D k l

/-- `Coil.vjp` with the functions of `RotatedCurve` and `ScaledCurrent`: the vectors are rotated back and handed to the base curve, and the
current's number is scaled and handed to the `Current`. -/
noncomputable def symVjp [Fintype K] (c : Curve × Cur K ℝ) (E0 E1 : Nat → Fin N → Fin m → V3) (D : K → Fin m → ℝ) (vGamma vDash : Fin N → V3) (vCur : ℝ)
    (l : Fin m) : ℝ :=
  contract (E0 (vjp c.1 vGamma).1) (vjp c.1 vGamma).2 l + contract (E1 (vjp c.1 vDash).1) (vjp c.1 vDash).2 l
    + ∑ k, vCur * c.2.coeff k * D k l

theorem symVjp_eq [Fintype K] (cs : Fin nc → Curve × Cur K ℝ) (E0 E1 : Nat → Fin N → Fin m → V3) (D : K → Fin m → ℝ) (c : Fin nc)
    (vGamma vDash : Fin N → V3) (vCur : ℝ) (l : Fin m) :
    symVjp (cs c) E0 E1 D vGamma vDash vCur l =
      coilVjp ((ofJacobians cs E0 E1 D).gamma c) ((ofJacobians cs E0 E1 D).dash c) ((ofJacobians cs E0 E1 D).cur c) vGamma vDash vCur l := by
  obtain ⟨h1, h2⟩ := C61_vjp (cs c).1 E0 vGamma l
  obtain ⟨h3, h4⟩ := C61_vjp (cs c).1 E1 vDash l
  rw [symVjp, coilVjp, h1, h2, h3, h4, contract_eq, contract_eq]
  congr 1
  simp only [ofJacobians, Finset.mul_sum]
  exact Finset.sum_congr rfl fun k _ => by ring

theorem value_deriv [Fintype K] (e : Cur K ℝ) (val : ℝ → K → ℝ) (D : K → ℝ) (u : ℝ) (h : ∀ k, HasDerivAt (fun t => val t k) (D k) u) :
    HasDerivAt (fun t => e.value (val t)) (∑ k, e.coeff k * D k) u := by
  induction e with
  | base k =>
    refine (h k).congr_deriv ?_
    simp [Cur.coeff]
  | scaled c e ih =>
    refine (ih.const_mul c).congr_deriv ?_
    simp only [Cur.coeff, Finset.mul_sum]
    exact Finset.sum_congr rfl fun k _ => by ring
  | sum a b iha ihb =>
    refine (iha.add ihb).congr_deriv ?_
    simp only [Cur.coeff, add_mul, Finset.sum_add_distrib]

/-- **C63.** For coils made of base curves by any rotations and flips, and of `Current`s by any scalings and sums (for instance by
`coils_via_symmetries`), the derivative that `B_vjp` collects for the base curves' and currents' dofs is that of `sum(v * B())`. -/
theorem C63_B_vjp_symmetric [Fintype K] (cs : Fin nc → Curve × Cur K ℝ) (g d : ℝ → Nat → Fin N → V3) (val : ℝ → K → ℝ)
    (E0 E1 : Nat → Fin N → Fin m → V3) (D : K → Fin m → ℝ) (l : Fin m) (u : ℝ)
    (hg : ∀ i k, HasDerivAt (fun t => g t i k) (E0 i k l) u) (hd : ∀ i k, HasDerivAt (fun t => d t i k) (E1 i k l) u)
    (hval : ∀ k, HasDerivAt (fun t => val t k) (D k l) u) (points v : Fin np → V3)
    (hoff : ∀ i c j, points i ≠ rows (g u) (cs c).1 j) :
    HasDerivAt (fun t => ∑ i, inner (v i) (biotSavart (ofCoils cs (g t) (d t) (val t)).coils (points i)))
      (∑ c, symVjp (cs c) E0 E1 D (graph bGamma points v (ofCoils cs (g u) (d u) (val u)) c)
        (graph bDash points v (ofCoils cs (g u) (d u) (val u)) c) (resCurrent kernelTerm points v (ofCoils cs (g u) (d u) (val u)) c) l) u := by
  have h := C63_B_vjp points (fun t => ofCoils cs (g t) (d t) (val t)) (ofJacobians cs E0 E1 D) l u
    ⟨fun c j => C61_jacobian (cs c).1 g E0 l u j (hg _ j), fun c j => C61_jacobian (cs c).1 d E1 l u j (hd _ j),
      fun c => value_deriv (cs c).2 val (fun k => D k l) u hval⟩ hoff v
  refine h.congr_deriv ?_
  rw [bVjp]
  exact Finset.sum_congr rfl fun c _ => (symVjp_eq cs E0 E1 D c _ _ _ l).symm

end

/-! ### A case that meets the hypotheses -/

/-- A coil with two quadrature points that moves rigidly along `z` while its current grows, seen from the point `(0, 0, 1)`. -/
noncomputable def moving (t : ℝ) : Arrays 1 (fun _ => 2) where
  gamma _ j := if j = 0 then (1, 0, t) else (-1, 0, t)
  dash _ j := if j = 0 then (0, 1, 0) else (0, -1, 0)
  cur _ := 5 + t

/-- The Jacobian of `moving` in its only dof. -/
noncomputable def movingJac : Jacobians 1 (fun _ => 2) 1 where
  gamma _ _ _ := (0, 0, 1)
  dash _ _ _ := 0
  cur _ _ := 1

example : Moves moving movingJac 0 0 ∧ ∀ (i : Fin 1) c j, (fun _ => ((0, 0, 1) : V3)) i ≠ (moving 0).gamma c j := by
  refine ⟨⟨fun c j => ?_, fun c j => hasDerivAt_const _ _, fun c => ?_⟩, fun i c j => ?_⟩
  · simp only [moving, movingJac]
    split_ifs
    · exact (hasDerivAt_const _ _).prodMk ((hasDerivAt_const _ _).prodMk (hasDerivAt_id _))
    · exact (hasDerivAt_const _ _).prodMk ((hasDerivAt_const _ _).prodMk (hasDerivAt_id _))
  · exact (hasDerivAt_id (0 : ℝ)).const_add 5
  · simp only [moving]
    split_ifs <;> simp

end Simsopt.Vjp
