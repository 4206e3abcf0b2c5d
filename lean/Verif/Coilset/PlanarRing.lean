import Verif.Coilset.Even
import Verif.Curves.Planar
/-!
# C161: equally spaced planar curves

Model of `create_equally_spaced_planar_curves` (src/simsopt/geo/curve.py L888-927).
-/
namespace Simsopt.Coilset
open Simsopt Coils Geometry

/-- The dofs of curve `k` (L903-925): `rc`, `rs`, the quaternion, the center, in this order. -/
noncomputable def planarDofs (n nfp : ℕ) (stellsym : Bool) (R0 R1 : ℝ) (order k : ℕ) : List ℝ :=
  let a := angle n nfp stellsym k
  (R1 :: List.replicate order 0) ++ List.replicate order 0 ++ [1, -Real.cos a, -Real.sin a, 0] ++ [R0 * Real.cos a, R0 * Real.sin a, 0]

theorem planar_inPlane (m : Fin 4) (R1 : ℝ) (order : ℕ) (tail : List ℝ) (c0 : Fin 4 → ℝ → ℝ) (c s : Fin 4 → ℝ → ℝ → ℝ) (phi : ℝ) :
    Planar.inPlane m order ((R1 :: List.replicate order 0) ++ List.replicate order 0 ++ tail) c0 c s phi = R1 * c0 m phi * Planar.scale m := by
  have hget : ∀ i, 1 ≤ i → i < order + 1 + order → ((R1 :: List.replicate order 0) ++ List.replicate order 0 ++ tail)[i]?.getD 0 = 0 := by
    intro i h1 h2
    rw [List.append_assoc, List.cons_append, ← List.append_assoc, List.replicate_append_replicate]
    obtain ⟨j, rfl⟩ : ∃ j, i = j + 1 := ⟨i - 1, by omega⟩
    rw [List.getElem?_cons_succ, List.getElem?_append_left (by simp; omega), List.getElem?_replicate, if_pos (by omega)]
    rfl
  unfold Planar.inPlane
  have h0 : Planar.rc order ((R1 :: List.replicate order 0) ++ List.replicate order 0 ++ tail) 0 = R1 := by simp [Planar.rc]
  rw [h0]
  have hf : ∀ (l : List ℕ), (∀ j ∈ l, j < order) → l.foldl (fun acc m' => acc + (Planar.rc order ((R1 :: List.replicate order 0) ++ List.replicate order 0 ++ tail) (m' + 1) * c m ((m' + 1 : ℕ) : ℝ) phi +
      Planar.rs order ((R1 :: List.replicate order 0) ++ List.replicate order 0 ++ tail) m' * s m ((m' + 1 : ℕ) : ℝ) phi)) (R1 * c0 m phi) = R1 * c0 m phi := by
    intro l
    induction l with
    | nil => intro _; rfl
    | cons a l ih =>
      intro h
      have ha := h a List.mem_cons_self
      rw [List.foldl_cons]
      have e1 : Planar.rc order ((R1 :: List.replicate order 0) ++ List.replicate order 0 ++ tail) (a + 1) = 0 := hget _ (by omega) (by omega)
      have e2 : Planar.rs order ((R1 :: List.replicate order 0) ++ List.replicate order 0 ++ tail) a = 0 := hget _ (by omega) (by omega)
      rw [e1, e2]
      simp only [zero_mul, add_zero]
      exact ih fun j hj => h j (List.mem_cons_of_mem _ hj)
  rw [hf _ fun j hj => List.mem_range.1 hj]

/-- **C161**: the planar curve `k` runs through the same circle as the curve of `create_equally_spaced_curves`, in the same direction, with another starting point. -/
theorem C161_planar (n nfp : ℕ) (stellsym : Bool) (R0 R1 : ℝ) (order k : ℕ) (t : ℝ) :
    Planar.curve 0 order (planarDofs n nfp stellsym R0 R1 order k) t = ring R0 R1 (angle n nfp stellsym k) (t - angle n nfp stellsym k / (2 * Real.pi)) ∧
    Planar.curve 1 order (planarDofs n nfp stellsym R0 R1 order k) t = ringDash R1 (angle n nfp stellsym k) (t - angle n nfp stellsym k / (2 * Real.pi)) := by
  generalize ha : angle n nfp stellsym k = a
  have hpre : ∀ (i : ℕ) (tail : List ℝ), ((R1 :: List.replicate order (0 : ℝ)) ++ List.replicate order 0 ++ tail)[order + 1 + order + i]?.getD 0 = tail[i]?.getD 0 := by
    intro i tail
    rw [List.getElem?_append_right (by simp; omega)]
    congr 2
    simp
    omega
  have hd : planarDofs n nfp stellsym R0 R1 order k = (R1 :: List.replicate order 0) ++ List.replicate order 0 ++ [1, -Real.cos a, -Real.sin a, 0, R0 * Real.cos a, R0 * Real.sin a, 0] := by
    unfold planarDofs
    rw [ha, List.append_assoc]
    rfl
  have q : ∀ i, Planar.quat order (planarDofs n nfp stellsym R0 R1 order k) i = ([1, -Real.cos a, -Real.sin a, 0, R0 * Real.cos a, R0 * Real.sin a, 0] : List ℝ)[i]?.getD 0 := fun i => by
    rw [hd]; exact hpre i _
  have cc : ∀ i, Planar.center order (planarDofs n nfp stellsym R0 R1 order k) i = ([1, -Real.cos a, -Real.sin a, 0, R0 * Real.cos a, R0 * Real.sin a, 0] : List ℝ)[4 + i]?.getD 0 := fun i => by
    rw [hd, ← hpre (4 + i), ← add_assoc]; rfl
  have h2 : Real.sin a ^ 2 + Real.cos a ^ 2 = 1 := Real.sin_sq_add_cos_sq a
  have hs : (1 : ℝ) * 1 + -Real.cos a * -Real.cos a + -Real.sin a * -Real.sin a + 0 * 0 = 2 := by nlinarith
  have hw : Planar.invMagnitude 1 (-Real.cos a) (-Real.sin a) 0 = 1 / Real.sqrt 2 := by
    unfold Planar.invMagnitude
    simp only [hs]
    rw [if_pos (by norm_num)]
  have hw2 : (1 / Real.sqrt 2) * (1 / Real.sqrt 2) = (1 / 2 : ℝ) := by
    rw [div_mul_div_comm, Real.mul_self_sqrt (by norm_num)]; norm_num
  have hrot : ∀ i j, Planar.rotDofs order (planarDofs n nfp stellsym R0 R1 order k) i j =
      ((i * Real.cos a + j * Real.sin a) * Real.cos a, (i * Real.cos a + j * Real.sin a) * Real.sin a, i * Real.sin a - j * Real.cos a) := by
    intro i j
    unfold Planar.rotDofs
    simp only [q, List.getElem?_cons_zero, List.getElem?_cons_succ, Option.getD_some, hw]
    unfold Planar.rot
    generalize 1 / Real.sqrt 2 = w at hw2
    refine Prod.ext ?_ (Prod.ext ?_ ?_) <;> simp only
    · linear_combination (-2 * Real.sin a ^ 2 * i + 2 * Real.cos a * Real.sin a * j) * hw2 - i * h2
    · linear_combination (2 * Real.cos a * Real.sin a * i - 2 * Real.cos a ^ 2 * j) * hw2 - j * h2
    · linear_combination (2 * Real.sin a * i - 2 * Real.cos a * j) * hw2
  have hpi : 2 * Real.pi * (t - a / (2 * Real.pi)) = 2 * Real.pi * t - a := by
    have : Real.pi ≠ 0 := Real.pi_ne_zero
    field_simp
  unfold Planar.curve
  constructor
  · simp only [hrot]
    rw [hd, planar_inPlane, planar_inPlane, ← hd]
    unfold Planar.shift ring
    simp only [cc, Planar.c0i, Planar.c0j, Planar.scale]
    rw [hpi, Real.cos_sub, Real.sin_sub]
    refine Prod.ext ?_ (Prod.ext ?_ ?_)
    · simp; ring
    · simp; ring
    · simp; ring
  · simp only [hrot]
    rw [hd, planar_inPlane, planar_inPlane]
    unfold Planar.shift ringDash
    simp only [Planar.c0i, Planar.c0j, Planar.scale]
    rw [hpi, Real.cos_sub, Real.sin_sub]
    refine Prod.ext ?_ (Prod.ext ?_ ?_)
    · simp; ring
    · simp; ring
    · simp; ring

end Simsopt.Coilset
