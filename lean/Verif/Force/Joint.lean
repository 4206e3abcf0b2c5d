import Verif.Force.Self
import Verif.Labels.Path
/-!
# The field of moving coils at moving points

`B_vjp` (C63) is the derivative of the field at fixed points, `dB_by_dX` (C51) at fixed coils.  Here both move, as the points of a coil and the other coils do in src/simsopt/field/force.py.
-/
namespace Simsopt.Force
open Simsopt Simsopt.Coils Simsopt.Vjp Simsopt.Labels Simsopt.Penalties
open Simsopt.Geometry hiding norm tangent

variable {n nc m : Nat} {k : Fin nc → Nat}

/-- The coils shifted by `-w`. -/
def shift (a : Arrays nc k) (w : V3) : Arrays nc k := ⟨fun c j => a.gamma c j - w, a.dash, a.cur⟩

theorem field_shift (a : Arrays nc k) (w x : V3) : biotSavart (shift a w).coils x = biotSavart a.coils (x + w) := by
  simp only [biotSavart_eq, coilSum_arrays, unitField, quadSum_ofFn]
  refine Finset.sum_congr rfl fun c _ => ?_
  simp only [shift, kernelTerm]
  congr 2
  refine Finset.sum_congr rfl fun j _ => ?_
  rw [show x - (a.gamma c j - w) = x + w - a.gamma c j by abel]

theorem bVjp_points (points : Fin n → V3) (a : Arrays nc k) (Jc : Jacobians nc k m) (v : Fin n → V3) (l : Fin m) :
    bVjp points a Jc v l = ∑ i, bVjp (np := 1) (fun _ => points i) a Jc (fun _ => v i) l := by
  simp only [bVjp, coilVjp, contract_eq, graph, resCurrent, Finset.univ_unique, Finset.sum_singleton, Finset.smul_sum, Vjp.inner_sum_left]
  rw [Finset.sum_comm]
  refine Finset.sum_congr rfl fun c _ => ?_
  rw [Finset.sum_add_distrib, Finset.sum_add_distrib, Finset.sum_mul]
  congr 2
  · rw [Finset.sum_comm]
  · rw [Finset.sum_comm]

/-- Changing the Jacobian arrays changes the product linearly. -/
theorem bVjp_add (points : Fin n → V3) (a : Arrays nc k) (J1 J2 J3 : Jacobians nc k m) (v : Fin n → V3) (l : Fin m) (hg : ∀ c j, J3.gamma c j l = J1.gamma c j l + J2.gamma c j l)
    (hd : ∀ c j, J3.dash c j l = J1.dash c j l + J2.dash c j l) (hc : ∀ c, J3.cur c l = J1.cur c l + J2.cur c l) : bVjp points a J3 v l = bVjp points a J1 v l + bVjp points a J2 v l := by
  simp only [bVjp, coilVjp, contract_eq, hg, hd, hc]
  rw [← Finset.sum_add_distrib]
  refine Finset.sum_congr rfl fun c _ => ?_
  have ha : ∀ x y z : V3, inner x (y + z) = inner x y + inner x z := fun x y z => by simp [inner]; ring
  simp only [ha, Finset.sum_add_distrib]
  ring

theorem inner_lin (v : V3) (G : Fin 3 → V3) (x : V3) : inner v (lin G x) = inner x (dJdX v G) := by simp [inner, lin, dJdX]; ring

/-- One moving point: the field contracted with any vector. -/
theorem point_joint (a : ℝ → Arrays nc k) (Jc : Jacobians nc k m) (l : Fin m) (u : ℝ) (hm : Moves a Jc l u) (x : ℝ → V3) (x' : V3) (hx : HasDerivAt x x' u) (hoff : ∀ c j, x u ≠ (a u).gamma c j) (v : V3) :
    HasDerivAt (fun t => inner v (biotSavart (a t).coils (x t))) (inner x' (dJdX v (dB (a u).coils (x u))) + bVjp (np := 1) (fun _ => x u) (a u) Jc (fun _ => v) l) u := by
  have hw : HasDerivAt (fun t => x t - x u) x' u := hx.sub_const _
  let J1 : Jacobians nc k m := ⟨fun _ _ _ => -x', fun _ _ _ => 0, fun _ _ => 0⟩
  let J2 : Jacobians nc k m := ⟨fun c j l' => Jc.gamma c j l' - x', Jc.dash, Jc.cur⟩
  -- fixed coils, moving point
  have m1 : Moves (fun t => shift (a u) (x t - x u)) J1 l u := by
    refine ⟨fun c j => ?_, fun c j => ?_, fun c => ?_⟩
    · exact ((hasDerivAt_const u ((a u).gamma c j)).fun_sub hw).congr_deriv (by simp [J1])
    · exact hasDerivAt_const _ _
    · exact hasDerivAt_const _ _
  have s0 : shift (a u) (x u - x u) = a u := by simp [shift]
  have h1 := C63_B_vjp (np := 1) (fun _ => x u) _ J1 l u m1 (fun _ c j => by rw [s0]; exact hoff c j) fun _ => v
  simp only [field_shift, Finset.univ_unique, Finset.sum_singleton, add_sub_cancel, s0] at h1
  have hoff' : Off (a u).coils (x u) := by
    intro c hc g hg
    simp only [Arrays.coils, List.mem_ofFn] at hc
    obtain ⟨c', rfl⟩ := hc
    simp only [List.mem_ofFn] at hg
    obtain ⟨j, rfl⟩ := hg
    exact hoff c' j
  have h1' := d_inner (hasDerivAt_const u v) ((C51_path (a u).coils (x u) hoff').1 x x' u rfl hx)
  have e1 := h1.unique h1'
  have ez : inner (0 : V3) (biotSavart (a u).coils (x u)) = 0 := by simp [inner]
  rw [ez, zero_add] at e1
  -- moving coils and point
  have m2 : Moves (fun t => shift (a t) (x t - x u)) J2 l u := ⟨fun c j => (hm.gamma c j).fun_sub hw, hm.dash, hm.cur⟩
  have h2 := C63_B_vjp (np := 1) (fun _ => x u) _ J2 l u m2 (fun _ c j => by rw [s0]; exact hoff c j) fun _ => v
  simp only [field_shift, Finset.univ_unique, Finset.sum_singleton, add_sub_cancel, s0] at h2
  refine h2.congr_deriv ?_
  rw [bVjp_add (n := 1) (fun _ => x u) (a u) J1 Jc J2 (fun _ => v) l (fun c j => by simp [J1, J2]; abel) (fun c j => by simp [J1, J2]) (fun c => by simp [J1, J2]), e1, inner_lin]

theorem unit_inner (w : V3) : inner (unit 0) w = w.1 ∧ inner (unit 1) w = w.2.1 ∧ inner (unit 2) w = w.2.2 := by simp [unit, inner]

/-- One moving point: the field itself has a derivative, and its contraction with every vector is the sum of the two products. -/
theorem field_joint (a : ℝ → Arrays nc k) (Jc : Jacobians nc k m) (l : Fin m) (u : ℝ) (hm : Moves a Jc l u) (x : ℝ → V3) (x' : V3) (hx : HasDerivAt x x' u) (hoff : ∀ c j, x u ≠ (a u).gamma c j) :
    ∃ B' : V3, HasDerivAt (fun t => biotSavart (a t).coils (x t)) B' u ∧ ∀ v, inner v B' = inner x' (dJdX v (dB (a u).coils (x u))) + bVjp (np := 1) (fun _ => x u) (a u) Jc (fun _ => v) l := by
  have h := point_joint a Jc l u hm x x' hx hoff
  have h0 := h (unit 0)
  have h1 := h (unit 1)
  have h2 := h (unit 2)
  simp only [unit_inner] at h0 h1 h2
  have hB := h0.prodMk (h1.prodMk h2)
  refine ⟨_, hB, fun v => ?_⟩
  exact ((d_inner (hasDerivAt_const u v) hB).congr_deriv (by simp [inner])).unique (h v)

end Simsopt.Force
