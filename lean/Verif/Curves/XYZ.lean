import Verif.Makegrid.Model
import Mathlib.Analysis.SpecialFunctions.Trigonometric.Deriv
import Mathlib.Analysis.Calculus.Deriv.Add
import Mathlib.Analysis.Calculus.Deriv.Mul
/-!
# Model of CurveXYZFourier (C52)

simsoptpp/curvexyzfourier.cpp, simsoptpp/curvexyzfourier.h and the names made in simsopt/geo/curvexyzfourier.py L44-61.
-/
namespace Simsopt.Curves
open Simsopt

/-- `set_dofs_impl` (curvexyzfourier.h L55-64): the three rows of coefficients; `_dofs[counter++]` in the order of the loops, so the rows
    are consecutive slices. -/
def setDofs (order : Nat) (d : List ℝ) : List (List ℝ) :=
  (List.range 3).map fun i => (d[i * (2 * order + 1)]?.getD 0) ::
    (List.range order).flatMap fun j => [d[i * (2 * order + 1) + 2 * j + 1]?.getD 0, d[i * (2 * order + 1) + 2 * j + 2]?.getD 0]

/-- `get_dofs` (L66-77): the rows one after the other, in the order `0; 1, 2; 3, 4; ...`. -/
def getDofs (order : Nat) (m : List (List ℝ)) : List ℝ :=
  (List.range 3).flatMap fun i => ((m[i]?.getD [])[0]?.getD 0) ::
    (List.range order).flatMap fun j => [(m[i]?.getD [])[2 * (j + 1) - 1]?.getD 0, (m[i]?.getD [])[2 * (j + 1)]?.getD 0]

/-- `data(k, i)` of `gamma_impl`, `gammadash_impl`, ... (curvexyzfourier.cpp L4-58): `c0`, `s j`, `c j` are the factors of the mean, of the
    sine coefficient and of the cosine coefficient of mode `j`. -/
def evalRow (order : Nat) (c0 : ℝ) (s c : Nat → ℝ) (row : List ℝ) : ℝ :=
  (List.range order).foldl (fun acc j => acc + row[2 * (j + 1) - 1]?.getD 0 * s (j + 1) + row[2 * (j + 1)]?.getD 0 * c (j + 1))
    (c0 * row[0]?.getD 0)

/-- `data(k, i, :)` of `dgamma_by_dcoeff_impl` and the others (L60-110): zeros (curve.h L58, L70), then the assignments of the loop. -/
def jacRow (order : Nat) (c0 : ℝ) (s c : Nat → ℝ) (i : Nat) : List ℝ :=
  (List.range order).foldl (fun d j => (d.set (i * (2 * order + 1) + 2 * (j + 1) - 1) (s (j + 1))).set (i * (2 * order + 1) + 2 * (j + 1))
    (c (j + 1))) ((List.replicate (3 * (2 * order + 1)) 0).set (i * (2 * order + 1)) c0)

/-- The factors in the four functions: `gamma` (L9-12), `gammadash` (L25-26), `gammadashdash` (L38-39), `gammadashdashdash` (L51-52), and
    the same in the Jacobians (L63-66, L76-77, L89-90, L101-102). -/
noncomputable def c0 (n : Fin 4) : ℝ := match n with | 0 => 1 | 1 => 0 | 2 => 0 | 3 => 0
noncomputable def sfac (n : Fin 4) (t : ℝ) (j : Nat) : ℝ := match n with
  | 0 => Real.sin (2 * Real.pi * j * t)
  | 1 => 2 * Real.pi * j * Real.cos (2 * Real.pi * j * t)
  | 2 => -((2 * Real.pi * j) * (2 * Real.pi * j) * Real.sin (2 * Real.pi * j * t))
  | 3 => -((2 * Real.pi * j) * (2 * Real.pi * j) * (2 * Real.pi * j) * Real.cos (2 * Real.pi * j * t))
noncomputable def cfac (n : Fin 4) (t : ℝ) (j : Nat) : ℝ := match n with
  | 0 => Real.cos (2 * Real.pi * j * t)
  | 1 => -(2 * Real.pi * j * Real.sin (2 * Real.pi * j * t))
  | 2 => -((2 * Real.pi * j) * (2 * Real.pi * j) * Real.cos (2 * Real.pi * j * t))
  | 3 => (2 * Real.pi * j) * (2 * Real.pi * j) * (2 * Real.pi * j) * Real.sin (2 * Real.pi * j * t)

/-- Coordinate `i` of `gamma()`, `gammadash()`, `gammadashdash()`, `gammadashdashdash()` (`n` = 0, 1, 2, 3) at the parameter `t`, for the
    dof vector `d`. -/
noncomputable def curve (n : Fin 4) (order : Nat) (d : List ℝ) (i : Nat) (t : ℝ) : ℝ :=
  evalRow order (c0 n) (sfac n t) (cfac n t) ((setDofs order d)[i]?.getD [])

/-- `dgamma_by_dcoeff()[k, i, :]` and the others. -/
noncomputable def dcurve (n : Fin 4) (order : Nat) (i : Nat) (t : ℝ) : List ℝ := jacRow order (c0 n) (sfac n t) (cfac n t) i

/-- `_make_names` (curvexyzfourier.py L44-61). -/
def rowNames (v : String) (order : Nat) : List String :=
  (v ++ "c(0)") :: (List.range order).flatMap fun i => [v ++ "s(" ++ toString (i + 1) ++ ")", v ++ "c(" ++ toString (i + 1) ++ ")"]
def makeNames (order : Nat) : List String := rowNames "x" order ++ rowNames "y" order ++ rowNames "z" order

/-! ### Position of the coefficients -/

theorem pairs_get {α : Type} (o : Nat) (f g : Nat → α) (j : Nat) (hj : j < o) :
    ((List.range o).flatMap fun j => [f j, g j])[2 * j]? = some (f j) ∧
    ((List.range o).flatMap fun j => [f j, g j])[2 * j + 1]? = some (g j) := by
  induction o with
  | zero => omega
  | succ o ih =>
    have hl : ((List.range o).flatMap fun j => [f j, g j]).length = 2 * o := by
      clear ih hj; induction o with
      | zero => rfl
      | succ o ih => rw [List.range_succ, List.flatMap_append, List.length_append, ih]; simp; omega
    rw [List.range_succ, List.flatMap_append]
    by_cases h : j < o
    · rw [List.getElem?_append_left (by omega), List.getElem?_append_left (by omega)]; exact ih h
    · have : j = o := by omega
      subst this
      rw [List.getElem?_append_right (by omega), List.getElem?_append_right (by omega), hl]
      simp

theorem pairs_length {α : Type} (o : Nat) (f g : Nat → α) : ((List.range o).flatMap fun j => [f j, g j]).length = 2 * o := by
  induction o with
  | zero => rfl
  | succ o ih => rw [List.range_succ, List.flatMap_append, List.length_append, ih]; simp; omega

/-- The row `i` of the coefficient matrix is the i-th block of the dof vector. -/
theorem setDofs_get (order : Nat) (d : List ℝ) (i : Nat) (hi : i < 3) (q : Nat) (hq : q < 2 * order + 1) :
    ((setDofs order d)[i]?.getD [])[q]?.getD 0 = d[i * (2 * order + 1) + q]?.getD 0 := by
  simp only [setDofs, List.getElem?_map, List.getElem?_range hi, Option.map_some, Option.getD_some]
  rcases Nat.eq_zero_or_pos q with h | h
  · subst h; simp
  · have hj : (q - 1) / 2 < order := by omega
    have hp := pairs_get order (fun j => d[i * (2 * order + 1) + 2 * j + 1]?.getD 0)
      (fun j => d[i * (2 * order + 1) + 2 * j + 2]?.getD 0) ((q - 1) / 2) hj
    obtain ⟨p, rfl⟩ : ∃ p, q = p + 1 := ⟨q - 1, by omega⟩
    rw [List.getElem?_cons_succ]
    rcases Nat.mod_two_eq_zero_or_one p with h2 | h2
    · have : p = 2 * ((p + 1 - 1) / 2) := by omega
      rw [this, hp.1, Option.getD_some]; congr 2
    · have : p = 2 * ((p + 1 - 1) / 2) + 1 := by omega
      rw [this, hp.2, Option.getD_some]; congr 2

/-- C52: `get_dofs()` after `set_dofs(d)` returns `d`, for every order and every vector of the right length. -/
theorem C52_set_get (order : Nat) (d : List ℝ) (hd : d.length = 3 * (2 * order + 1)) : getDofs order (setDofs order d) = d := by
  have hrow : ∀ i < 3, (((setDofs order d)[i]?.getD [])[0]?.getD 0 :: (List.range order).flatMap fun j =>
      [((setDofs order d)[i]?.getD [])[2 * (j + 1) - 1]?.getD 0, ((setDofs order d)[i]?.getD [])[2 * (j + 1)]?.getD 0]) =
      (d.drop (i * (2 * order + 1))).take (2 * order + 1) := by
    intro i hi
    apply List.ext_getElem?
    intro q
    by_cases hq : q < 2 * order + 1
    · rw [List.getElem?_take_of_lt hq, List.getElem?_drop]
      have hlt : i * (2 * order + 1) + q < d.length := by
        have : (i + 1) * (2 * order + 1) ≤ 3 * (2 * order + 1) := Nat.mul_le_mul_right _ (by omega)
        have e : (i + 1) * (2 * order + 1) = i * (2 * order + 1) + (2 * order + 1) := by ring
        omega
      have hs := setDofs_get order d i hi q hq
      rw [List.getElem?_eq_getElem hlt, Option.getD_some] at hs
      rw [List.getElem?_eq_getElem hlt, ← hs]
      rcases Nat.eq_zero_or_pos q with h | h
      · subst h; rfl
      · obtain ⟨p, rfl⟩ : ∃ p, q = p + 1 := ⟨q - 1, by omega⟩
        rw [List.getElem?_cons_succ]
        have hp := pairs_get order (fun j => ((setDofs order d)[i]?.getD [])[2 * (j + 1) - 1]?.getD 0)
          (fun j => ((setDofs order d)[i]?.getD [])[2 * (j + 1)]?.getD 0) (p / 2) (by omega)
        rcases Nat.mod_two_eq_zero_or_one p with h2 | h2
        · have e : p = 2 * (p / 2) := by omega
          rw [show (List.flatMap _ _)[p]? = (List.flatMap _ _)[2 * (p / 2)]? from congrArg _ e, hp.1]; congr 4; omega
        · have e : p = 2 * (p / 2) + 1 := by omega
          rw [show (List.flatMap _ _)[p]? = (List.flatMap _ _)[2 * (p / 2) + 1]? from congrArg _ e, hp.2]; congr 4; omega
    · rw [List.getElem?_eq_none (by rw [List.length_cons, pairs_length]; omega),
        List.getElem?_eq_none (by rw [List.length_take]; omega)]
  rw [getDofs, show List.range 3 = [0, 1, 2] from rfl]
  simp only [List.flatMap_cons, List.flatMap_nil, List.append_nil]
  rw [hrow 0 (by omega), hrow 1 (by omega), hrow 2 (by omega)]
  set w := 2 * order + 1
  simp only [Nat.zero_mul, List.drop_zero, Nat.one_mul]
  have h3 : (d.drop (2 * w)).take w = d.drop (2 * w) := List.take_of_length_le (by rw [List.length_drop]; omega)
  rw [h3, show d.drop (2 * w) = (d.drop w).drop w by rw [List.drop_drop]; congr 1; omega, List.take_append_drop, List.take_append_drop]

/-- The sum the loop computes. -/
theorem evalRow_sum (order : Nat) (a : ℝ) (s c : Nat → ℝ) (row : List ℝ) :
    evalRow order a s c row = a * row[0]?.getD 0 + ∑ j ∈ Finset.range order,
      (row[2 * (j + 1) - 1]?.getD 0 * s (j + 1) + row[2 * (j + 1)]?.getD 0 * c (j + 1)) := by
  rw [evalRow]
  induction order with
  | zero => simp
  | succ o ih => rw [List.range_succ, List.foldl_append, ih, Finset.sum_range_succ]; simp [add_assoc]

theorem curve_sum (n : Fin 4) (order : Nat) (d : List ℝ) (i : Nat) (hi : i < 3) (t : ℝ) :
    curve n order d i t = c0 n * d[i * (2 * order + 1)]?.getD 0 + ∑ j ∈ Finset.range order,
      (d[i * (2 * order + 1) + (2 * (j + 1) - 1)]?.getD 0 * sfac n t (j + 1)
        + d[i * (2 * order + 1) + 2 * (j + 1)]?.getD 0 * cfac n t (j + 1)) := by
  rw [curve, evalRow_sum, setDofs_get order d i hi 0 (by omega), Nat.add_zero]
  congr 1
  refine Finset.sum_congr rfl fun j hj => ?_
  have hj := Finset.mem_range.mp hj
  rw [setDofs_get order d i hi _ (by omega), setDofs_get order d i hi _ (by omega)]

/-- The function sampled in the MAKEGRID model is the same as `gamma` here. -/
theorem fourier_eq (order : Nat) (row : List ℝ) (t : ℝ) : Makegrid.fourier order row t = evalRow order (c0 0) (sfac 0 t) (cfac 0 t) row := by
  rw [evalRow_sum, Makegrid.fourier, show c0 0 = 1 from rfl, one_mul]
  congr 1
  refine Finset.sum_nbij' (fun j => j - 1) (fun j => j + 1) ?_ ?_ ?_ ?_ ?_
  · intro j hj; have := Finset.mem_Icc.mp hj; exact Finset.mem_range.mpr (by omega)
  · intro j hj; have := Finset.mem_range.mp hj; exact Finset.mem_Icc.mpr (by omega)
  · intro j hj; have := Finset.mem_Icc.mp hj; omega
  · intro j hj; omega
  · intro j hj
    have := Finset.mem_Icc.mp hj
    rw [show j - 1 + 1 = j by omega]; rfl

/-! ### Derivatives in the parameter -/

theorem sfac_deriv (n : Fin 3) (j : Nat) (t : ℝ) : HasDerivAt (fun t => sfac n.castSucc t j) (sfac n.succ t j) t := by
  have hl : HasDerivAt (fun t : ℝ => 2 * Real.pi * j * t) (2 * Real.pi * j) t := by
    simpa using (hasDerivAt_id t).const_mul (2 * Real.pi * j)
  match n with
  | 0 => exact hl.sin.congr_deriv (by simp [sfac]; ring)
  | 1 => exact (hl.cos.const_mul (2 * Real.pi * j)).congr_deriv (by simp [sfac]; ring)
  | 2 => exact ((hl.sin.const_mul ((2 * Real.pi * j) * (2 * Real.pi * j))).neg).congr_deriv (by simp [sfac]; ring)

theorem cfac_deriv (n : Fin 3) (j : Nat) (t : ℝ) : HasDerivAt (fun t => cfac n.castSucc t j) (cfac n.succ t j) t := by
  have hl : HasDerivAt (fun t : ℝ => 2 * Real.pi * j * t) (2 * Real.pi * j) t := by
    simpa using (hasDerivAt_id t).const_mul (2 * Real.pi * j)
  match n with
  | 0 => exact hl.cos.congr_deriv (by simp [cfac]; ring)
  | 1 => exact ((hl.sin.const_mul (2 * Real.pi * j)).neg).congr_deriv (by simp [cfac]; ring)
  | 2 => exact ((hl.cos.const_mul ((2 * Real.pi * j) * (2 * Real.pi * j))).neg).congr_deriv (by simp [cfac]; ring)

/-- C52: `gammadash`, `gammadashdash` and `gammadashdashdash` are the first, second and third derivatives of `gamma` with respect to the
    curve parameter (which runs over one period in [0, 1)), for every order, dof vector and parameter. -/
theorem C52_dash (n : Fin 3) (order : Nat) (d : List ℝ) (i : Nat) (hi : i < 3) (t : ℝ) :
    HasDerivAt (fun t => curve n.castSucc order d i t) (curve n.succ order d i t) t := by
  simp_rw [curve_sum _ order d i hi]
  have h0 : c0 n.succ = 0 := by match n with | 0 | 1 | 2 => rfl
  rw [h0, zero_mul, zero_add]
  apply HasDerivAt.const_add
  have := HasDerivAt.sum (u := Finset.range order) (A := fun j t => d[i * (2 * order + 1) + (2 * (j + 1) - 1)]?.getD 0 * sfac n.castSucc t (j + 1)
        + d[i * (2 * order + 1) + 2 * (j + 1)]?.getD 0 * cfac n.castSucc t (j + 1)) (x := t)
    (A' := fun j => d[i * (2 * order + 1) + (2 * (j + 1) - 1)]?.getD 0 * sfac n.succ t (j + 1)
        + d[i * (2 * order + 1) + 2 * (j + 1)]?.getD 0 * cfac n.succ t (j + 1))
    fun j _ => ((sfac_deriv n (j + 1) t).const_mul _).add ((cfac_deriv n (j + 1) t).const_mul _)
  refine this.congr_of_eventuallyEq (Filter.Eventually.of_forall fun t => ?_)
  simp [Finset.sum_apply]

/-! ### Derivatives in the dofs -/

/-- The factor of dof number `q` of the row. -/
noncomputable def factor (n : Fin 4) (t : ℝ) (q : Nat) : ℝ :=
  if q = 0 then c0 n else if q % 2 = 1 then sfac n t ((q + 1) / 2) else cfac n t (q / 2)

theorem jacRow_get (order m : Nat) (hm : m ≤ order) (n : Fin 4) (t : ℝ) (i : Nat) (hi : i < 3) :
    ((List.range m).foldl (fun d j => (d.set (i * (2 * order + 1) + 2 * (j + 1) - 1) (sfac n t (j + 1))).set
      (i * (2 * order + 1) + 2 * (j + 1)) (cfac n t (j + 1))) ((List.replicate (3 * (2 * order + 1)) (0 : ℝ)).set (i * (2 * order + 1)) (c0 n)))
    = (List.range (3 * (2 * order + 1))).map fun p =>
      if i * (2 * order + 1) ≤ p ∧ p < i * (2 * order + 1) + 2 * m + 1 then factor n t (p - i * (2 * order + 1)) else 0 := by
  have hb : (i + 1) * (2 * order + 1) ≤ 3 * (2 * order + 1) := Nat.mul_le_mul_right _ (by omega)
  have e : (i + 1) * (2 * order + 1) = i * (2 * order + 1) + (2 * order + 1) := by ring
  set b := i * (2 * order + 1)
  induction m with
  | zero =>
    apply List.ext_getElem?
    intro p
    simp only [List.range_zero, List.foldl_nil]
    by_cases hp : p < 3 * (2 * order + 1)
    · simp only [List.getElem?_map, List.getElem?_range hp, Option.map_some]
      rw [List.getElem?_set]
      by_cases h : b = p
      · subst h; simp [factor]; omega
      · rw [if_neg h, if_neg (by omega)]; simp [hp]
    · rw [List.getElem?_eq_none (by simp; omega), List.getElem?_eq_none (by simp; omega)]
  | succ m ih =>
    rw [List.range_succ, List.foldl_append, ih (by omega)]
    simp only [List.foldl_cons, List.foldl_nil]
    apply List.ext_getElem?
    intro p
    by_cases hp : p < 3 * (2 * order + 1)
    · simp only [List.getElem?_map, List.getElem?_range hp, Option.map_some]
      rw [List.getElem?_set, List.getElem?_set]
      by_cases h1 : b + 2 * (m + 1) = p
      · rw [if_pos h1, if_pos (by simp; omega), if_pos (by omega)]
        rw [factor, if_neg (by omega), if_neg (by omega)]
        congr 2; omega
      · rw [if_neg h1]
        by_cases h2 : b + 2 * (m + 1) - 1 = p
        · rw [if_pos h2, if_pos (by simp; omega), if_pos (by omega), factor, if_neg (by omega), if_pos (by omega)]
          congr 2; omega
        · rw [if_neg h2]
          simp only [List.getElem?_map, List.getElem?_range hp, Option.map_some]
          by_cases h3 : b ≤ p ∧ p < b + 2 * m + 1
          · rw [if_pos h3, if_pos (by omega)]
          · rw [if_neg h3, if_neg (by omega)]
    · rw [List.getElem?_eq_none (by simp; omega), List.getElem?_eq_none (by simp; omega)]

theorem dcurve_get (n : Fin 4) (order i : Nat) (hi : i < 3) (t : ℝ) (p : Nat) (hp : p < 3 * (2 * order + 1)) :
    (dcurve n order i t)[p]?.getD 0 =
      if i * (2 * order + 1) ≤ p ∧ p < i * (2 * order + 1) + 2 * order + 1 then factor n t (p - i * (2 * order + 1)) else 0 := by
  rw [dcurve, jacRow, jacRow_get order order (le_refl _) n t i hi]
  simp [List.getElem?_range hp]

/-- C52: `dgamma_by_dcoeff()[k, i, p]` is the derivative of `gamma()[k, i]` with respect to the dof `p`, and likewise for the three derivatives
    of the curve: changing dof `p` by any amount `h` changes the coordinate by exactly `h` times that entry (the representation is linear). -/
theorem C52_dcoeff (n : Fin 4) (order : Nat) (d : List ℝ) (hd : d.length = 3 * (2 * order + 1)) (i : Nat) (hi : i < 3) (t : ℝ)
    (p : Nat) (hp : p < 3 * (2 * order + 1)) (h : ℝ) :
    curve n order (d.set p (d[p]?.getD 0 + h)) i t = curve n order d i t + h * (dcurve n order i t)[p]?.getD 0 := by
  have hset : ∀ q, (d.set p (d[p]?.getD 0 + h))[q]?.getD 0 = d[q]?.getD 0 + if p = q then h else 0 := by
    intro q
    rw [List.getElem?_set]
    by_cases hq : p = q
    · subst hq; rw [if_pos rfl, if_pos (by omega), if_pos rfl]; rfl
    · rw [if_neg hq, if_neg hq, add_zero]
  rw [curve_sum n order _ i hi, curve_sum n order d i hi, dcurve_get n order i hi t p hp]
  simp only [hset, add_mul]
  have hsplit : ∀ j ∈ Finset.range order,
      d[i * (2 * order + 1) + (2 * (j + 1) - 1)]?.getD 0 * sfac n t (j + 1) + (if p = i * (2 * order + 1) + (2 * (j + 1) - 1) then h else 0) * sfac n t (j + 1)
       + (d[i * (2 * order + 1) + 2 * (j + 1)]?.getD 0 * cfac n t (j + 1) + (if p = i * (2 * order + 1) + 2 * (j + 1) then h else 0) * cfac n t (j + 1))
      = (d[i * (2 * order + 1) + (2 * (j + 1) - 1)]?.getD 0 * sfac n t (j + 1) + d[i * (2 * order + 1) + 2 * (j + 1)]?.getD 0 * cfac n t (j + 1))
        + ((if p = i * (2 * order + 1) + (2 * (j + 1) - 1) then h * factor n t (p - i * (2 * order + 1)) else 0)
          + (if p = i * (2 * order + 1) + 2 * (j + 1) then h * factor n t (p - i * (2 * order + 1)) else 0)) := by
    intro j _
    have hs : (if p = i * (2 * order + 1) + (2 * (j + 1) - 1) then h else 0) * sfac n t (j + 1) =
        if p = i * (2 * order + 1) + (2 * (j + 1) - 1) then h * factor n t (p - i * (2 * order + 1)) else 0 := by
      split_ifs with hh
      · rw [hh, Nat.add_sub_cancel_left, factor, if_neg (by omega), if_pos (by omega), show (2 * (j + 1) - 1 + 1) / 2 = j + 1 by omega]
      · ring
    have hc : (if p = i * (2 * order + 1) + 2 * (j + 1) then h else 0) * cfac n t (j + 1) =
        if p = i * (2 * order + 1) + 2 * (j + 1) then h * factor n t (p - i * (2 * order + 1)) else 0 := by
      split_ifs with hh
      · rw [hh, Nat.add_sub_cancel_left, factor, if_neg (by omega), if_neg (by omega), show 2 * (j + 1) / 2 = j + 1 by omega]
      · ring
    rw [hs, hc]; ring
  rw [Finset.sum_congr rfl hsplit, Finset.sum_add_distrib]
  set b := i * (2 * order + 1)
  have key : (∑ j ∈ Finset.range order, ((if p = b + (2 * (j + 1) - 1) then h * factor n t (p - b) else 0)
      + (if p = b + 2 * (j + 1) then h * factor n t (p - b) else 0))) =
      if b < p ∧ p < b + 2 * order + 1 then h * factor n t (p - b) else 0 := by
    by_cases hr : b < p ∧ p < b + 2 * order + 1
    · rw [if_pos hr, Finset.sum_eq_single ((p - b - 1) / 2)]
      · rcases Nat.mod_two_eq_zero_or_one (p - b) with h2 | h2
        · rw [if_neg (by omega), if_pos (by omega), zero_add]
        · rw [if_pos (by omega), if_neg (by omega), add_zero]
      · intro j _ hj
        rw [if_neg (by omega), if_neg (by omega), add_zero]
      · intro hj
        exact absurd (Finset.mem_range.mpr (by omega)) hj
    · rw [if_neg hr]
      apply Finset.sum_eq_zero
      intro j hj
      have := Finset.mem_range.mp hj
      rw [if_neg (by omega), if_neg (by omega), add_zero]
  rw [key]
  by_cases h0 : p = b
  · rw [if_pos h0, if_neg (by omega), if_pos (by omega), h0, Nat.sub_self, factor, if_pos rfl]; ring
  · rw [if_neg h0]
    by_cases hr : b < p ∧ p < b + 2 * order + 1
    · rw [if_pos hr, if_pos (by omega)]; ring
    · rw [if_neg hr, if_neg (by omega)]; ring

/-- C52: the dof whose name is `xs(m)` multiplies `sin(2 pi m t)` in `x`, `yc(m)` multiplies `cos(2 pi m t)` in `y`, and so on: position of
    every name and the derivative of the coordinates with respect to that dof. -/
theorem C52_names (order : Nat) (i : Nat) (hi : i < 3) (v : String) (hv : ["x", "y", "z"][i]? = some v) (m : Nat) (hm : m ≤ order) :
    (makeNames order)[i * (2 * order + 1) + 2 * m]? = some (v ++ "c(" ++ toString m ++ ")") ∧
    (1 ≤ m → (makeNames order)[i * (2 * order + 1) + (2 * m - 1)]? = some (v ++ "s(" ++ toString m ++ ")")) ∧
    (∀ t, (dcurve 0 order i t)[i * (2 * order + 1) + 2 * m]?.getD 0 = Real.cos (2 * Real.pi * m * t)) ∧
    (1 ≤ m → ∀ t, (dcurve 0 order i t)[i * (2 * order + 1) + (2 * m - 1)]?.getD 0 = Real.sin (2 * Real.pi * m * t)) := by
  have hlen : ∀ v, (rowNames v order).length = 2 * order + 1 := by intro v; rw [rowNames, List.length_cons, pairs_length]
  have hrow : ∀ q < 2 * order + 1, (makeNames order)[i * (2 * order + 1) + q]? = (rowNames v order)[q]? := by
    intro q hq
    rw [makeNames]
    match i, hi, hv with
    | 0, _, hv =>
      cases hv
      rw [List.getElem?_append_left (by rw [List.length_append, hlen, hlen]; omega), List.getElem?_append_left (by rw [hlen]; omega)]
      simp
    | 1, _, hv =>
      cases hv
      rw [List.getElem?_append_left (by rw [List.length_append, hlen, hlen]; omega), List.getElem?_append_right (by rw [hlen]; omega), hlen]
      congr 1; omega
    | 2, _, hv =>
      cases hv
      rw [List.getElem?_append_right (by rw [List.length_append, hlen, hlen]; omega), List.length_append, hlen, hlen]
      congr 1; omega
  have hb : (i + 1) * (2 * order + 1) ≤ 3 * (2 * order + 1) := Nat.mul_le_mul_right _ (by omega)
  have e : (i + 1) * (2 * order + 1) = i * (2 * order + 1) + (2 * order + 1) := by ring
  refine ⟨?_, ?_, ?_, ?_⟩
  · rw [hrow _ (by omega), rowNames]
    rcases Nat.eq_zero_or_pos m with h | h
    · subst h; simp only [Nat.mul_zero, List.getElem?_cons_zero, String.append_assoc]; rfl
    · obtain ⟨p, rfl⟩ : ∃ p, m = p + 1 := ⟨m - 1, by omega⟩
      rw [show 2 * (p + 1) = 2 * p + 1 + 1 by omega, List.getElem?_cons_succ]
      exact (pairs_get order _ _ p (by omega)).2
  · intro h
    rw [hrow _ (by omega), rowNames]
    obtain ⟨p, rfl⟩ : ∃ p, m = p + 1 := ⟨m - 1, by omega⟩
    rw [show 2 * (p + 1) - 1 = 2 * p + 1 by omega, List.getElem?_cons_succ]
    exact (pairs_get order _ _ p (by omega)).1
  · intro t
    rw [dcurve_get 0 order i hi t _ (by omega), if_pos (by omega), Nat.add_sub_cancel_left, factor]
    rcases Nat.eq_zero_or_pos m with h | h
    · subst h; simp [c0]
    · rw [if_neg (by omega), if_neg (by omega), show 2 * m / 2 = m by omega]; rfl
  · intro h t
    rw [dcurve_get 0 order i hi t _ (by omega), if_pos (by omega), Nat.add_sub_cancel_left, factor, if_neg (by omega), if_pos (by omega),
      show (2 * m - 1 + 1) / 2 = m by omega]; rfl

example : makeNames 1 = ["xc(0)", "xs(1)", "xc(1)", "yc(0)", "ys(1)", "yc(1)", "zc(0)", "zs(1)", "zc(1)"] := by decide +kernel

end Simsopt.Curves
