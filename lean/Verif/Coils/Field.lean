import Verif.Coils.Sym
import Mathlib.Algebra.BigOperators.Group.List.Basic
/-!
# C50: the Biot-Savart field of a symmetric coil set is symmetric
-/
namespace Simsopt.Coils
open Simsopt

/-- Rotations of space. -/
structure Rot (F : V3 → V3) : Prop where
  zero : F 0 = 0
  add : ∀ a b, F (a + b) = F a + F b
  sub : ∀ a b, F (a - b) = F a - F b
  smul : ∀ (c : ℝ) a, F (c • a) = c • F a
  cross : ∀ a b, cross (F a) (F b) = F (cross a b)
  normsq : ∀ a, normsq (F a) = normsq a

theorem rot_rotZ (phi : ℝ) : Rot (rotZ phi) := by
  have hcs := Real.sin_sq_add_cos_sq phi
  constructor
  · simp [rotZ]
  · intro a b; ext <;> simp [rotZ] <;> ring
  · intro a b; ext <;> simp [rotZ] <;> ring
  · intro c a; ext <;> simp [rotZ] <;> ring
  · intro a b
    ext
    · simp [rotZ, cross]; ring
    · simp [rotZ, cross]; ring
    · simp [rotZ, cross]; linear_combination (a.1 * b.2.1 - a.2.1 * b.1) * hcs
  · intro a; simp [rotZ, normsq]; linear_combination (a.1 * a.1 + a.2.1 * a.2.1) * hcs

theorem rot_mirror : Rot mirror := by
  constructor
  · simp [mirror]
  · intro a b; ext <;> simp [mirror] <;> ring
  · intro a b; ext <;> simp [mirror] <;> ring
  · intro c a; ext <;> simp [mirror]
  · intro a b; ext <;> simp [mirror, cross] <;> ring
  · intro a; simp [mirror, normsq]

section
variable {F : V3 → V3} (hF : Rot F)
include hF

theorem Rot.sum (l : List V3) : F l.sum = (l.map F).sum := by
  induction l with
  | nil => simp [hF.zero]
  | cons a l ih => simp [hF.add, ih]

theorem Rot.kernel (x g d : V3) : kernelTerm (F x) (F g) (F d) = F (kernelTerm x g d) := by
  unfold kernelTerm
  simp only
  rw [← hF.sub, hF.normsq, hF.cross, hF.smul]

theorem Rot.coil (gamma gammadash : List V3) (x : V3) : coilField (gamma.map F) (gammadash.map F) (F x) = F (coilField gamma gammadash x) := by
  unfold coilField
  rw [hF.smul, hF.sum, List.length_map, List.zip_map, List.map_map, List.map_map]
  congr 3
  funext e
  exact hF.kernel x e.1 e.2
end

theorem biotSavart_eq_sum (coils : List ((List V3 × List V3) × ℝ)) (x : V3) :
    biotSavart coils x = (coils.map fun c => c.2 • coilField c.1.1 c.1.2 x).sum := by
  unfold biotSavart
  have : ∀ (l : List ((List V3 × List V3) × ℝ)) (a : V3),
      l.foldl (fun B c => B + c.2 • coilField c.1.1 c.1.2 x) a = a + (l.map fun c => c.2 • coilField c.1.1 c.1.2 x).sum := by
    intro l
    induction l with
    | nil => intro a; simp
    | cons c l ih => intro a; rw [List.foldl_cons, ih]; simp [add_assoc]
  rw [this]; simp

theorem biotSavart_perm {a b : List ((List V3 × List V3) × ℝ)} (h : a.Perm b) (x : V3) : biotSavart a x = biotSavart b x := by
  rw [biotSavart_eq_sum, biotSavart_eq_sum]
  exact (h.map _).sum_eq

theorem biotSavart_transform {F : V3 → V3} (hF : Rot F) (s : ℝ) (l : List ((List V3 × List V3) × ℝ)) (x : V3) :
    biotSavart (l.map (transform F s)) (F x) = s • F (biotSavart l x) := by
  rw [biotSavart_eq_sum, biotSavart_eq_sum, hF.sum, List.smul_sum, List.map_map, List.map_map, List.map_map]
  congr 1
  apply List.map_congr_left
  intro c _
  simp only [Function.comp_apply, transform]
  rw [hF.coil, hF.smul, smul_smul]

section
variable {K : Type} {curves : List Curve} {currents : List (Cur K ℝ)} {nfp : Nat} {stellsym : Bool} {cs : List (Curve × Cur K ℝ)}

/-- C50: the field of a symmetric coil set rotates with the evaluation point by a field period. -/
theorem C50_field_period (h : coilsViaSymmetries curves currents nfp stellsym = .ok cs) (gamma gammadash : Nat → List V3) (val : K → ℝ) (x : V3) :
    biotSavart (cs.map (observe gamma gammadash val)) (rotZ (2 * Real.pi / nfp) x) =
      rotZ (2 * Real.pi / nfp) (biotSavart (cs.map (observe gamma gammadash val)) x) := by
  rw [← biotSavart_perm (C36_rotation_invariant h gamma gammadash val), biotSavart_transform (rot_rotZ _), one_smul]

/-- C50: with `stellsym`, `B(x, -y, -z) = (-Bx, By, Bz)`. -/
theorem C50_stellarator_symmetry (h : coilsViaSymmetries curves currents nfp true = .ok cs) (gamma gammadash : Nat → List V3) (val : K → ℝ) (x : V3) :
    biotSavart (cs.map (observe gamma gammadash val)) (x.1, -x.2.1, -x.2.2) =
      (-(biotSavart (cs.map (observe gamma gammadash val)) x).1, (biotSavart (cs.map (observe gamma gammadash val)) x).2.1,
        (biotSavart (cs.map (observe gamma gammadash val)) x).2.2) := by
  have := biotSavart_transform rot_mirror (-1) (cs.map (observe gamma gammadash val)) x
  rw [biotSavart_perm (C36_mirror_invariant h gamma gammadash val)] at this
  have e : mirror x = (x.1, -x.2.1, -x.2.2) := rfl
  rw [e] at this
  rw [this]
  ext <;> simp [mirror]

end

/-! ### a concrete coil set -/

/-- two base coils, three field periods, stellarator symmetry: 12 coils; number 5 is base coil 1 rotated by 2 pi/3 ... -/
example : ∃ cs, coilsViaSymmetries [.base 0, .base 1] [.base "I0", .sum (.base "I1") (.scaled 2 (.base "I0"))] 3 true = .ok cs ∧ cs.length = 12 ∧
    cs[11]? = some (.rotated (.base 1) (2 * Real.pi * (2 : ℕ) / (3 : ℕ)) true, .scaled (-1) (.sum (.base "I1") (.scaled 2 (.base "I0")))) := by
  exact ⟨_, rfl, rfl, rfl⟩

end Simsopt.Coils
