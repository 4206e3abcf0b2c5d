import Verif.Curves.Geometry
import Verif.Coils.Sym
/-!
# C161: equally spaced coils

Model of `create_equally_spaced_curves` (src/simsopt/geo/curve.py L851-885), followed by `coils_via_symmetries`, and of `CoilSet.for_surface` (src/simsopt/field/coilset.py L76-113, L206-219).
-/
namespace Simsopt.Coilset
open Simsopt Coils Geometry

/-- `curve.set(name, value)` (optimizable.py L240-252, L1132-1141) on the list of dof values of a `CurveXYZFourier` of order `order`. -/
def setDof (order : ℕ) (name : String) (v : ℝ) (d : List ℝ) : Except Err (List ℝ) := do
  let i ← pyListIndex (Curves.makeNames order) name
  return d.set i v

/-- `angle` (L874): curve `i` of `n`. -/
noncomputable def angle (n nfp : ℕ) (stellsym : Bool) (i : ℕ) : ℝ := ((i : ℝ) + 0.5) * (2 * Real.pi) / ((1 + (stellsym.toNat : ℝ)) * nfp * n)

/-- The dofs of curve `i` (L872-882): all zero in a new curve, then five of them are set. -/
noncomputable def equalDofs (n nfp : ℕ) (stellsym : Bool) (R0 R1 : ℝ) (order i : ℕ) : Except Err (List ℝ) := do
  let d := List.replicate (3 * (2 * order + 1)) (0 : ℝ)
  let d ← setDof order "xc(0)" (Real.cos (angle n nfp stellsym i) * R0) d
  let d ← setDof order "xc(1)" (Real.cos (angle n nfp stellsym i) * R1) d
  let d ← setDof order "yc(0)" (Real.sin (angle n nfp stellsym i) * R0) d
  let d ← setDof order "yc(1)" (Real.sin (angle n nfp stellsym i) * R1) d
  setDof order "zs(1)" (-R1) d

/-- `create_equally_spaced_curves` (L851-885): the dofs of all the curves. -/
noncomputable def equallySpaced (n nfp : ℕ) (stellsym : Bool) (R0 R1 : ℝ) (order : ℕ) : Except Err (List (List ℝ)) :=
  (List.range n).mapM fun i => equalDofs n nfp stellsym R0 R1 order i

/-- `numquadpoints` (L869-870) and the quadrature points `linspace(0, 1, numquadpoints, endpoint=False)` of the curves. -/
noncomputable def quadpoints (order : ℕ) (numquadpoints : Option ℕ) : List ℝ := let N := numquadpoints.getD (15 * order); (List.range N).map fun (j : ℕ) => (j : ℝ) / N

/-- The rows of `gamma()` (`m = 0`) or `gammadash()` (`m = 1`) of curve `i`. -/
noncomputable def rows (order : ℕ) (ts : List ℝ) (ds : List (List ℝ)) (m : Fin 4) (i : ℕ) : List V3 := ts.map fun t => xyz m order (ds[i]?.getD []) t

/-! ### Specification -/

/-- The point `t` of a circle of radius `R1` in the half plane at the toroidal angle `a`, around the point at distance `R0` from the axis. -/
noncomputable def ring (R0 R1 a t : ℝ) : V3 := ((R0 + R1 * Real.cos (2 * Real.pi * t)) * Real.cos a, (R0 + R1 * Real.cos (2 * Real.pi * t)) * Real.sin a, -(R1 * Real.sin (2 * Real.pi * t)))

/-- Its derivative in `t`. -/
noncomputable def ringDash (R1 a t : ℝ) : V3 :=
  (-(2 * Real.pi * R1 * Real.sin (2 * Real.pi * t)) * Real.cos a, -(2 * Real.pi * R1 * Real.sin (2 * Real.pi * t)) * Real.sin a, -(2 * Real.pi * R1 * Real.cos (2 * Real.pi * t)))

/-- Angle number `p` of `T` equally spaced angles. -/
noncomputable def place (T p : ℕ) : ℝ := ((p : ℝ) + 1 / 2) * (2 * Real.pi / T)

theorem ring_deriv (R0 R1 a t : ℝ) : HasDerivAt (fun t => ring R0 R1 a t) (ringDash R1 a t) t := by
  have h0 : HasDerivAt (fun t => 2 * Real.pi * t) (2 * Real.pi) t := ((hasDerivAt_id t).const_mul (2 * Real.pi)).congr_deriv (by ring)
  have hc := h0.cos
  have hs := h0.sin
  unfold ring ringDash
  refine HasDerivAt.prodMk ?_ (HasDerivAt.prodMk ?_ ?_)
  · exact (((hc.const_mul R1).const_add R0).mul_const _).congr_deriv (by ring)
  · exact (((hc.const_mul R1).const_add R0).mul_const _).congr_deriv (by ring)
  · exact ((hs.const_mul R1).fun_neg).congr_deriv (by ring)

/-! ### Positions of the names -/

theorem rowNames_succ (v : String) (o : ℕ) : ∃ rest, Curves.rowNames v (o + 1) = (v ++ "c(0)") :: (v ++ "s(" ++ toString (0 + 1) ++ ")") :: (v ++ "c(" ++ toString (0 + 1) ++ ")") :: rest := by
  unfold Curves.rowNames
  rw [List.range_succ_eq_map, List.flatMap_cons]
  exact ⟨_, rfl⟩

theorem rowNames_length (v : String) (o : ℕ) : (Curves.rowNames v o).length = 2 * o + 1 := by
  unfold Curves.rowNames
  rw [List.length_cons, List.length_flatMap]
  simp
  ring

theorem rowNames_head (v : String) (o : ℕ) (s : String) (hs : s ∈ Curves.rowNames v o) : ∃ r, s = v ++ r := by
  unfold Curves.rowNames at hs
  rcases List.mem_cons.1 hs with h | h
  · exact ⟨_, h⟩
  · obtain ⟨i, -, hi⟩ := List.mem_flatMap.1 h
    simp only [List.mem_cons, List.not_mem_nil, or_false] at hi
    rcases hi with rfl | rfl
    · exact ⟨_, by rw [String.append_assoc, String.append_assoc]⟩
    · exact ⟨_, by rw [String.append_assoc, String.append_assoc]⟩

theorem rowNames_none (v : String) (o : ℕ) (s : String) (h : v.toList.head? ≠ s.toList.head?) (hv : v.toList ≠ []) : (Curves.rowNames v o).findIdx? (· == s) = none := by
  rw [List.findIdx?_eq_none_iff]
  intro x hx
  obtain ⟨r, rfl⟩ := rowNames_head v o x hx
  rw [beq_eq_false_iff_ne]
  intro e
  apply h
  rw [← e, String.toList_append, List.head?_append_of_ne_nil _ hv]

theorem index_x (o : ℕ) : pyListIndex (Curves.makeNames (o + 1)) "xc(0)" = .ok 0 ∧ pyListIndex (Curves.makeNames (o + 1)) "xc(1)" = .ok 2 := by
  obtain ⟨rest, h⟩ := rowNames_succ "x" o
  unfold pyListIndex Curves.makeNames
  rw [h]
  exact ⟨rfl, rfl⟩

theorem index_y (o : ℕ) : pyListIndex (Curves.makeNames (o + 1)) "yc(0)" = .ok (2 * (o + 1) + 1) ∧ pyListIndex (Curves.makeNames (o + 1)) "yc(1)" = .ok (2 * (o + 1) + 3) := by
  obtain ⟨rest, h⟩ := rowNames_succ "y" o
  have hl := rowNames_length "x" (o + 1)
  have n1 := rowNames_none "x" (o + 1) "yc(0)" (by decide) (by decide)
  have n2 := rowNames_none "x" (o + 1) "yc(1)" (by decide) (by decide)
  unfold pyListIndex Curves.makeNames
  simp only [List.append_assoc]
  rw [List.findIdx?_append, List.findIdx?_append (p := (· == "yc(1)")), n1, n2, hl, h]
  have e1 : (("y" ++ "c(0)") :: ("y" ++ "s(" ++ toString (0 + 1) ++ ")") :: ("y" ++ "c(" ++ toString (0 + 1) ++ ")") :: rest ++ Curves.rowNames "z" (o + 1)).findIdx? (· == "yc(0)") = some 0 := rfl
  have e2 : (("y" ++ "c(0)") :: ("y" ++ "s(" ++ toString (0 + 1) ++ ")") :: ("y" ++ "c(" ++ toString (0 + 1) ++ ")") :: rest ++ Curves.rowNames "z" (o + 1)).findIdx? (· == "yc(1)") = some 2 := rfl
  rw [e1, e2]
  constructor
  · simp
  · simp; ring

theorem index_z (o : ℕ) : pyListIndex (Curves.makeNames (o + 1)) "zs(1)" = .ok (2 * (2 * (o + 1) + 1) + 1) := by
  obtain ⟨rest, h⟩ := rowNames_succ "z" o
  have hx := rowNames_length "x" (o + 1)
  have hy := rowNames_length "y" (o + 1)
  have n1 := rowNames_none "x" (o + 1) "zs(1)" (by decide) (by decide)
  have n2 := rowNames_none "y" (o + 1) "zs(1)" (by decide) (by decide)
  unfold pyListIndex Curves.makeNames
  rw [List.findIdx?_append, List.findIdx?_append, n1, n2, List.length_append, hx, hy, h]
  have e1 : (("z" ++ "c(0)") :: ("z" ++ "s(" ++ toString (0 + 1) ++ ")") :: ("z" ++ "c(" ++ toString (0 + 1) ++ ")") :: rest).findIdx? (· == "zs(1)") = some 1 := rfl
  rw [e1]
  simp
  ring

/-! ### The curves -/

theorem equalDofs_eq (n nfp : ℕ) (stellsym : Bool) (R0 R1 : ℝ) (o i : ℕ) : equalDofs n nfp stellsym R0 R1 (o + 1) i =
    .ok ((((((List.replicate (3 * (2 * (o + 1) + 1)) (0 : ℝ)).set 0 (Real.cos (angle n nfp stellsym i) * R0)).set 2 (Real.cos (angle n nfp stellsym i) * R1)).set (2 * (o + 1) + 1)
      (Real.sin (angle n nfp stellsym i) * R0)).set (2 * (o + 1) + 3) (Real.sin (angle n nfp stellsym i) * R1)).set (2 * (2 * (o + 1) + 1) + 1) (-R1)) := by
  unfold equalDofs setDof
  rw [(index_x o).1, (index_x o).2, (index_y o).1, (index_y o).2, index_z o]
  rfl

theorem curve_order (n : Fin 4) (o : ℕ) (d : List ℝ) (i : ℕ) (hi : i < 3) (t : ℝ)
    (hz : ∀ j, 1 ≤ j → j < o + 1 → d[i * (2 * (o + 1) + 1) + (2 * (j + 1) - 1)]?.getD 0 = 0 ∧ d[i * (2 * (o + 1) + 1) + 2 * (j + 1)]?.getD 0 = 0) :
    Curves.curve n (o + 1) d i t = Curves.c0 n * d[i * (2 * (o + 1) + 1)]?.getD 0 + d[i * (2 * (o + 1) + 1) + 1]?.getD 0 * Curves.sfac n t 1 + d[i * (2 * (o + 1) + 1) + 2]?.getD 0 * Curves.cfac n t 1 := by
  rw [Curves.curve_sum n (o + 1) d i hi t, Finset.sum_range_succ', Finset.sum_eq_zero]
  · simp only [zero_add, Nat.mul_one, add_assoc]
  · intro j hj
    have := hz (j + 1) (by omega) (by have := Finset.mem_range.1 hj; omega)
    rw [this.1, this.2]
    ring

/-- **C161**: base curve `i` is the circle at the angle `angle`, for every order at least 1. -/
theorem C161_base (n nfp : ℕ) (stellsym : Bool) (R0 R1 : ℝ) (o i : ℕ) : ∃ d, equalDofs n nfp stellsym R0 R1 (o + 1) i = .ok d ∧
    ∀ t, xyz 0 (o + 1) d t = ring R0 R1 (angle n nfp stellsym i) t ∧ xyz 1 (o + 1) d t = ringDash R1 (angle n nfp stellsym i) t := by
  refine ⟨_, equalDofs_eq n nfp stellsym R0 R1 o i, fun t => ?_⟩
  generalize hd : (((((List.replicate (3 * (2 * (o + 1) + 1)) (0 : ℝ)).set 0 (Real.cos (angle n nfp stellsym i) * R0)).set 2 (Real.cos (angle n nfp stellsym i) * R1)).set (2 * (o + 1) + 1)
      (Real.sin (angle n nfp stellsym i) * R0)).set (2 * (o + 1) + 3) (Real.sin (angle n nfp stellsym i) * R1)).set (2 * (2 * (o + 1) + 1) + 1) (-R1) = d
  have hg : ∀ q, d[q]?.getD 0 = if q = 2 * (2 * (o + 1) + 1) + 1 then -R1 else if q = 2 * (o + 1) + 3 then Real.sin (angle n nfp stellsym i) * R1 else if q = 2 * (o + 1) + 1 then
      Real.sin (angle n nfp stellsym i) * R0 else if q = 2 then Real.cos (angle n nfp stellsym i) * R1 else if q = 0 then Real.cos (angle n nfp stellsym i) * R0 else 0 := by
    intro q
    rw [← hd]
    simp only [List.getElem?_set, List.length_set, List.length_replicate]
    by_cases h1 : 2 * (2 * (o + 1) + 1) + 1 = q
    · subst h1; rw [if_pos rfl, if_pos rfl, if_pos (by omega)]; rfl
    rw [if_neg h1, if_neg (Ne.symm h1)]
    by_cases h2 : 2 * (o + 1) + 3 = q
    · subst h2; rw [if_pos rfl, if_pos rfl, if_pos (by omega)]; rfl
    rw [if_neg h2, if_neg (Ne.symm h2)]
    by_cases h3 : 2 * (o + 1) + 1 = q
    · subst h3; rw [if_pos rfl, if_pos rfl, if_pos (by omega)]; rfl
    rw [if_neg h3, if_neg (Ne.symm h3)]
    by_cases h4 : 2 = q
    · subst h4; rw [if_pos rfl, if_pos rfl, if_pos (by omega)]; rfl
    rw [if_neg h4, if_neg (Ne.symm h4)]
    by_cases h5 : 0 = q
    · subst h5; simp
    rw [if_neg h5, if_neg (Ne.symm h5)]
    rw [List.getElem?_replicate]
    by_cases h6 : q < 3 * (2 * (o + 1) + 1)
    · rw [if_pos h6]; rfl
    · rw [if_neg h6]; rfl
  have key : ∀ m : Fin 4, xyz m (o + 1) d t = (Curves.c0 m * (Real.cos (angle n nfp stellsym i) * R0) + Real.cos (angle n nfp stellsym i) * R1 * Curves.cfac m t 1,
      Curves.c0 m * (Real.sin (angle n nfp stellsym i) * R0) + Real.sin (angle n nfp stellsym i) * R1 * Curves.cfac m t 1, -R1 * Curves.sfac m t 1) := by
    intro m
    unfold xyz
    rw [curve_order m o d 0 (by omega) t, curve_order m o d 1 (by omega) t, curve_order m o d 2 (by omega) t]
    · simp only [hg]
      refine Prod.ext ?_ (Prod.ext ?_ ?_)
      · simp
      · have e1 : ¬ (1 * (2 * (o + 1) + 1) = 2 * (2 * (o + 1) + 1) + 1) := by omega
        have e2 : ¬ (1 * (2 * (o + 1) + 1) = 2 * (o + 1) + 3) := by omega
        have e3 : 1 * (2 * (o + 1) + 1) = 2 * (o + 1) + 1 := by omega
        have e4 : ¬ (1 * (2 * (o + 1) + 1) + 1 = 2 * (2 * (o + 1) + 1) + 1) := by omega
        have e5 : ¬ (1 * (2 * (o + 1) + 1) + 1 = 2 * (o + 1) + 3) := by omega
        have e6 : ¬ (1 * (2 * (o + 1) + 1) + 1 = 2 * (o + 1) + 1) := by omega
        have e7 : ¬ (1 * (2 * (o + 1) + 1) + 1 = 2) := by omega
        have e8 : ¬ (1 * (2 * (o + 1) + 1) + 1 = 0) := by omega
        have e9 : ¬ (1 * (2 * (o + 1) + 1) + 2 = 2 * (2 * (o + 1) + 1) + 1) := by omega
        have e10 : 1 * (2 * (o + 1) + 1) + 2 = 2 * (o + 1) + 3 := by omega
        simp only [if_neg e1, if_neg e2, if_pos e3, if_neg e4, if_neg e5, if_neg e6, if_neg e7, if_neg e8, if_neg e9, if_pos e10]
        ring
      · have e1 : ¬ (2 * (2 * (o + 1) + 1) = 2 * (2 * (o + 1) + 1) + 1) := by omega
        have e2 : ¬ (2 * (2 * (o + 1) + 1) = 2 * (o + 1) + 3) := by omega
        have e3 : ¬ (2 * (2 * (o + 1) + 1) = 2 * (o + 1) + 1) := by omega
        have e4 : ¬ (2 * (2 * (o + 1) + 1) = 2) := by omega
        have e5 : ¬ (2 * (2 * (o + 1) + 1) = 0) := by omega
        have e6 : ¬ (2 * (2 * (o + 1) + 1) + 2 = 2 * (2 * (o + 1) + 1) + 1) := by omega
        have e7 : ¬ (2 * (2 * (o + 1) + 1) + 2 = 2 * (o + 1) + 3) := by omega
        have e8 : ¬ (2 * (2 * (o + 1) + 1) + 2 = 2 * (o + 1) + 1) := by omega
        have e9 : ¬ (2 * (2 * (o + 1) + 1) + 2 = 2) := by omega
        have e10 : ¬ (2 * (2 * (o + 1) + 1) + 2 = 0) := by omega
        simp only [if_neg e1, if_neg e2, if_neg e3, if_neg e4, if_neg e5, if_neg e6, if_neg e7, if_neg e8, if_neg e9, if_neg e10, if_true]
        ring
    all_goals
      intro j hj hj'
      rw [hg, hg]
      constructor <;> (repeat rw [if_neg (by omega)])
  constructor
  · rw [key]
    unfold ring
    simp only [Curves.c0, Curves.cfac, Curves.sfac, Nat.cast_one, mul_one]
    refine Prod.ext ?_ (Prod.ext ?_ ?_) <;> simp only <;> ring
  · rw [key]
    unfold ringDash
    simp only [Curves.c0, Curves.cfac, Curves.sfac, Nat.cast_one, mul_one]
    refine Prod.ext ?_ (Prod.ext ?_ ?_) <;> simp only <;> ring

/-- **C161**: order 0 is refused. -/
theorem C161_order_zero (n nfp : ℕ) (stellsym : Bool) (R0 R1 : ℝ) (i : ℕ) : equalDofs n nfp stellsym R0 R1 0 i = .error .valueError := by
  unfold equalDofs setDof
  rfl

end Simsopt.Coilset
