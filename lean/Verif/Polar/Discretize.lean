import Verif.Polar.Sets
import Mathlib.Analysis.SpecialFunctions.Complex.Arg
import Mathlib.Data.List.GetD
import Mathlib.Tactic.IntervalCases
import Mathlib.Tactic.LinearCombination
/-!
# Nearest allowed polarization (C182)

Model of `discretize_polarizations` (src/simsopt/util/polarization_project.py L441-539) for one magnet.  Real numbers instead of doubles.
-/
namespace Simsopt.Polar
open Real

/-- A magnet of the FAMUS data (`mag_data`): density `pho`, exponent `momentq`, polar angle `mt` and azimuth `mp` of the dipole. -/
structure Magnet where
  pho : ℝ
  q : ℕ
  mt : ℝ
  mp : ℝ

/-- `pol_x, pol_y, pol_z` (L473-486) of an axis given by its r, φ and z components in the frame of the magnet with the angle `orientation_phi`. -/
noncomputable def lab (φ : ℝ) (a : V) : V := (a.1 * cos φ + a.2.1 * -sin φ, a.1 * sin φ + a.2.1 * cos φ, a.2.2)
/-- The candidates (L488-493): the null magnet, then the axes. -/
noncomputable def candidates (φ : ℝ) (axes : List V) : List V := (0, 0, 0) :: axes.map (lab φ)
/-- `rmx_orig, rmy_orig, rmz_orig` (L496-505). -/
noncomputable def moment (m : Magnet) : V := (m.pho ^ m.q * (cos m.mp * sin m.mt), m.pho ^ m.q * (sin m.mp * sin m.mt), m.pho ^ m.q * cos m.mt)
/-- `resid2` (L508). -/
def dist2 (v w : V) : ℝ := (v.1 - w.1) ^ 2 + (v.2.1 - w.2.1) ^ 2 + (v.2.2 - w.2.2) ^ 2
open Classical in
/-- `np.argmin` (L511): the index of the first least entry. -/
noncomputable def argmin : List ℝ → ℕ
  | [] => 0
  | a :: t => if ∀ b ∈ t, a ≤ b then 0 else argmin t + 1
/-- `min_ind` (L511, L514). -/
noncomputable def choice (φ : ℝ) (axes : List V) (m : Magnet) : ℕ := argmin ((candidates φ axes).map fun v => dist2 v (moment m))
/-- `np.arctan2(y, x)`. -/
noncomputable def arctan2 (y x : ℝ) : ℝ := Complex.arg ⟨x, y⟩
/-- The chosen axis (L517-521). -/
noncomputable def chosen (φ : ℝ) (axes : List V) (m : Magnet) : V := (candidates φ axes).getD (choice φ axes m) (0, 0, 0)
/-- The magnet afterwards (L524-525, L536-539). -/
noncomputable def discretize (φ : ℝ) (axes : List V) (m : Magnet) : Magnet where
  pho := if choice φ axes m = 0 then 0 else 1
  q := m.q
  mt := arctan2 √((chosen φ axes m).1 ^ 2 + (chosen φ axes m).2.1 ^ 2) (chosen φ axes m).2.2
  mp := arctan2 (chosen φ axes m).2.1 (chosen φ axes m).1
/-- `cyl_r, cyl_p, cyl_z` (L520-521, L528-530). -/
noncomputable def cyl (φ : ℝ) (axes : List V) (m : Magnet) : V := ((0, 0, 0) :: axes).getD (choice φ axes m) (0, 0, 0)
/-- `pol_type` (L494, L533). -/
noncomputable def typeOf (φ : ℝ) (axes : List V) (types : List ℕ) (m : Magnet) : ℕ := (0 :: types).getD (choice φ axes m) 0

/-! ### Theorems -/

theorem argmin_spec (l : List ℝ) (h : l ≠ []) : argmin l < l.length ∧ (∀ b ∈ l, l.getD (argmin l) 0 ≤ b) ∧ ∀ i < argmin l, l.getD (argmin l) 0 < l.getD i 0 := by
  induction l with
  | nil => exact absurd rfl h
  | cons a t ih =>
    by_cases ha : ∀ b ∈ t, a ≤ b
    · have e : argmin (a :: t) = 0 := if_pos ha
      rw [e]
      refine ⟨by simp, ?_, by simp⟩
      intro b hb
      rcases List.mem_cons.mp hb with rfl | hb
      · simp
      · simpa using ha b hb
    · have e : argmin (a :: t) = argmin t + 1 := if_neg ha
      have ht : t ≠ [] := by rintro rfl; simp at ha
      obtain ⟨h1, h2, h3⟩ := ih ht
      push Not at ha
      obtain ⟨b, hb, hba⟩ := ha
      have hlt : t.getD (argmin t) 0 < a := lt_of_le_of_lt (h2 b hb) hba
      rw [e]
      refine ⟨by simpa using h1, ?_, ?_⟩
      · intro c hc
        rw [List.getD_cons_succ]
        rcases List.mem_cons.mp hc with rfl | hc
        · exact hlt.le
        · exact h2 c hc
      · intro i hi
        rw [List.getD_cons_succ]
        cases i with
        | zero => simpa using hlt
        | succ i => rw [List.getD_cons_succ]; exact h3 i (by omega)

theorem argmin_unique (l : List ℝ) (k : ℕ) (hk : k < l.length) (h : ∀ i < l.length, l.getD k 0 ≤ l.getD i 0) (h' : ∀ i < k, l.getD k 0 < l.getD i 0) : argmin l = k := by
  have hl : l ≠ [] := by rintro rfl; simp at hk
  obtain ⟨h1, h2, h3⟩ := argmin_spec l hl
  rcases lt_trichotomy (argmin l) k with hlt | he | hgt
  · have a := h' _ hlt
    have b := h2 (l.getD k 0) (by rw [List.getD_eq_getElem _ _ hk]; exact List.getElem_mem hk)
    linarith
  · exact he
  · have a := h3 _ hgt
    have b := h _ h1
    linarith

theorem choice_lt (φ : ℝ) (axes : List V) (m : Magnet) : choice φ axes m < axes.length + 1 := by
  have := (argmin_spec ((candidates φ axes).map fun v => dist2 v (moment m)) (by simp [candidates])).1
  rw [List.length_map] at this
  exact this.trans_le (by simp [candidates])

theorem dist_getD (φ : ℝ) (axes : List V) (m : Magnet) (i : ℕ) (hi : i < axes.length + 1) :
    ((candidates φ axes).map fun v => dist2 v (moment m)).getD i 0 = dist2 ((candidates φ axes).getD i (0, 0, 0)) (moment m) := by
  have h : i < (candidates φ axes).length := by simpa [candidates] using hi
  rw [List.getD_eq_getElem _ _ (by simpa using h), List.getD_eq_getElem _ _ h, List.getElem_map]

/-- **C182** The chosen polarization is the null magnet or an allowed axis in the laboratory, and none of these is nearer to the moment (direction times `pho ** momentq`) of the magnet. -/
theorem C182_nearest (φ : ℝ) (axes : List V) (m : Magnet) :
    (chosen φ axes m = (0, 0, 0) ∨ ∃ a ∈ axes, chosen φ axes m = lab φ a) ∧ dist2 (chosen φ axes m) (moment m) ≤ dist2 (0, 0, 0) (moment m) ∧ ∀ a ∈ axes, dist2 (chosen φ axes m) (moment m) ≤ dist2 (lab φ a) (moment m) := by
  have hlt := choice_lt φ axes m
  have hs := argmin_spec ((candidates φ axes).map fun v => dist2 v (moment m)) (by simp [candidates])
  have hm : chosen φ axes m ∈ candidates φ axes := by
    have : choice φ axes m < (candidates φ axes).length := by simpa [candidates] using hlt
    unfold chosen
    rw [List.getD_eq_getElem _ _ this]
    exact List.getElem_mem this
  have hmin : ∀ v ∈ candidates φ axes, dist2 (chosen φ axes m) (moment m) ≤ dist2 v (moment m) := by
    intro v hv
    have := hs.2.1 (dist2 v (moment m)) (List.mem_map_of_mem hv)
    rwa [show argmin ((candidates φ axes).map fun v => dist2 v (moment m)) = choice φ axes m from rfl, dist_getD φ axes m _ hlt] at this
  refine ⟨?_, hmin _ (by simp [candidates]), fun a ha => hmin _ (by simp only [candidates, List.mem_cons, List.mem_map]; exact Or.inr ⟨a, ha, rfl⟩)⟩
  simp only [candidates, List.mem_cons, List.mem_map] at hm
  rcases hm with h | ⟨a, ha, h⟩
  · exact Or.inl h
  · exact Or.inr ⟨a, ha, h.symm⟩

/-- **C182** The laboratory axes are those of the magnet turned about the z axis: lengths are kept, and the first axis of the frame points to the azimuth `orientation_phi`. -/
theorem C182_frame (φ : ℝ) (a b : V) :
    (lab φ a).1 * (lab φ b).1 + (lab φ a).2.1 * (lab φ b).2.1 + (lab φ a).2.2 * (lab φ b).2.2 = a.1 * b.1 + a.2.1 * b.2.1 + a.2.2 * b.2.2 ∧
    lab φ (1, 0, 0) = (cos φ, sin φ, 0) ∧ lab φ (0, 0, 1) = (0, 0, 1) ∧ (Unit a → Unit (lab φ a)) := by
  have h := sin_sq_add_cos_sq φ
  refine ⟨?_, by simp [lab], by simp [lab], ?_⟩
  · simp only [lab]; linear_combination (a.1 * b.1 + a.2.1 * b.2.1) * h
  · unfold Unit
    intro hu
    simp only [lab]
    linear_combination hu + (a.1 ^ 2 + a.2.1 ^ 2) * h

/-- **C182** The recorded components in the magnet's frame and the recorded type belong to the chosen axis; the null magnet has type 0. -/
theorem C182_record (φ : ℝ) (axes : List V) (types : List ℕ) (m : Magnet) (hl : axes.length = types.length) :
    lab φ (cyl φ axes m) = chosen φ axes m ∧ (choice φ axes m = 0 → typeOf φ axes types m = 0) ∧
    ∀ j, choice φ axes m = j + 1 → axes[j]? = some (cyl φ axes m) ∧ types[j]? = some (typeOf φ axes types m) := by
  have hlt := choice_lt φ axes m
  unfold cyl chosen typeOf candidates
  generalize choice φ axes m = k at *
  cases k with
  | zero => exact ⟨by simp [lab], fun _ => rfl, fun j h => by omega⟩
  | succ j =>
    have hj : j < axes.length := by omega
    have hj' : j < types.length := by omega
    refine ⟨?_, fun h => by omega, ?_⟩
    · simp only [List.getD_cons_succ]
      rw [List.getD_eq_getElem _ _ hj, List.getD_eq_getElem _ _ (by simpa using hj), List.getElem_map]
    · intro j' h
      obtain rfl : j = j' := by omega
      simp only [List.getD_cons_succ]
      rw [List.getD_eq_getElem _ _ hj, List.getD_eq_getElem _ _ hj']
      exact ⟨List.getElem?_eq_getElem hj, List.getElem?_eq_getElem hj'⟩

theorem cos_arctan2 (y x : ℝ) : √(x ^ 2 + y ^ 2) * cos (arctan2 y x) = x ∧ √(x ^ 2 + y ^ 2) * sin (arctan2 y x) = y := by
  have hn : ‖(⟨x, y⟩ : ℂ)‖ = √(x ^ 2 + y ^ 2) := by
    rw [Complex.norm_def, Complex.normSq_mk]; ring_nf
  rw [← hn]
  exact ⟨Complex.norm_mul_cos_arg ⟨x, y⟩, Complex.norm_mul_sin_arg ⟨x, y⟩⟩

/-- The direction of the new angles is the chosen axis, for a unit vector. -/
theorem direction (v : V) (hv : Unit v) : (cos (arctan2 v.2.1 v.1) * sin (arctan2 √(v.1 ^ 2 + v.2.1 ^ 2) v.2.2), sin (arctan2 v.2.1 v.1) * sin (arctan2 √(v.1 ^ 2 + v.2.1 ^ 2) v.2.2), cos (arctan2 √(v.1 ^ 2 + v.2.1 ^ 2) v.2.2)) = v := by
  obtain ⟨x, y, z⟩ := v
  simp only
  have hu : x ^ 2 + y ^ 2 + z ^ 2 = 1 := hv
  obtain ⟨h1, h2⟩ := cos_arctan2 y x
  obtain ⟨h3, h4⟩ := cos_arctan2 √(x ^ 2 + y ^ 2) z
  have hs : √(z ^ 2 + √(x ^ 2 + y ^ 2) ^ 2) = 1 := by
    rw [sq_sqrt (by positivity), show z ^ 2 + (x ^ 2 + y ^ 2) = 1 by linarith, sqrt_one]
  rw [hs, one_mul] at h3 h4
  rw [h3, h4, mul_comm, h1, mul_comm, h2]

theorem chosen_unit (φ : ℝ) (axes : List V) (m : Magnet) (hu : ∀ a ∈ axes, Unit a) (h : choice φ axes m ≠ 0) : Unit (chosen φ axes m) := by
  obtain ⟨j, hj⟩ := Nat.exists_eq_succ_of_ne_zero h
  obtain ⟨h1, _, h3⟩ := C182_record φ axes (axes.map fun _ => 0) m (by simp)
  rw [← h1]
  exact (C182_frame φ (cyl φ axes m) (0, 0, 0)).2.2.2 (hu _ (List.mem_of_getElem? (h3 j hj).1))

/-- **C182** The new moment of the magnet is the chosen axis (zero for the null magnet), with density 1 (0), whatever the exponent, if it is positive. -/
theorem C182_moment (φ : ℝ) (axes : List V) (m : Magnet) (hu : ∀ a ∈ axes, Unit a) (hq : 0 < m.q) :
    moment (discretize φ axes m) = chosen φ axes m ∧ ((discretize φ axes m).pho = 0 ∨ (discretize φ axes m).pho = 1) ∧ ((discretize φ axes m).pho = 0 ↔ chosen φ axes m = (0, 0, 0)) := by
  by_cases h : choice φ axes m = 0
  · have hc : chosen φ axes m = (0, 0, 0) := by unfold chosen; rw [h]; rfl
    have hp : (discretize φ axes m).pho = 0 := if_pos h
    refine ⟨?_, Or.inl hp, ?_⟩
    · unfold moment
      rw [hp, show (discretize φ axes m).q = m.q from rfl, zero_pow hq.ne', hc]
      simp
    · simp [hp, hc]
  · have hun := chosen_unit φ axes m hu h
    have hp : (discretize φ axes m).pho = 1 := if_neg h
    have hne : chosen φ axes m ≠ (0, 0, 0) := by
      intro e
      rw [e] at hun
      simp [Unit] at hun
    refine ⟨?_, Or.inr hp, ?_⟩
    · unfold moment
      rw [hp, one_pow, one_mul, one_mul, one_mul]
      exact direction _ hun
    · rw [hp]; simp [hne]

theorem dist2_zero (v w : V) : dist2 v w = 0 ↔ v = w := by
  obtain ⟨a, b, c⟩ := v
  obtain ⟨a', b', c'⟩ := w
  simp only [dist2, Prod.mk.injEq]
  constructor
  · intro h
    have h1 : (a - a') ^ 2 = 0 := by nlinarith [sq_nonneg (a - a'), sq_nonneg (b - b'), sq_nonneg (c - c')]
    have h2 : (b - b') ^ 2 = 0 := by nlinarith [sq_nonneg (a - a'), sq_nonneg (b - b'), sq_nonneg (c - c')]
    have h3 : (c - c') ^ 2 = 0 := by nlinarith [sq_nonneg (a - a'), sq_nonneg (b - b'), sq_nonneg (c - c')]
    exact ⟨sub_eq_zero.mp (pow_eq_zero_iff (two_ne_zero) |>.mp h1), sub_eq_zero.mp (pow_eq_zero_iff (two_ne_zero) |>.mp h2), sub_eq_zero.mp (pow_eq_zero_iff (two_ne_zero) |>.mp h3)⟩
  · rintro ⟨rfl, rfl, rfl⟩; simp

/-- **C182** Discretizing twice is discretizing once: the second time the same entry is chosen and the magnet does not change. -/
theorem C182_idempotent (φ : ℝ) (axes : List V) (m : Magnet) (hu : ∀ a ∈ axes, Unit a) (hq : 0 < m.q) :
    choice φ axes (discretize φ axes m) = choice φ axes m ∧ discretize φ axes (discretize φ axes m) = discretize φ axes m := by
  have hlt := choice_lt φ axes m
  have hlen : ∀ w : V, ((candidates φ axes).map fun v => dist2 v w).length = axes.length + 1 := fun w => by simp [candidates]
  have hm := (C182_moment φ axes m hu hq).1
  have hnn : ∀ v w : V, 0 ≤ dist2 v w := fun v w => by unfold dist2; positivity
  have e : choice φ axes (discretize φ axes m) = choice φ axes m := by
    refine argmin_unique _ _ (by rw [hlen]; exact hlt) ?_ ?_
    · intro i hi
      rw [hlen] at hi
      rw [dist_getD _ _ _ _ hlt, dist_getD _ _ _ _ hi, hm]
      rw [show (candidates φ axes).getD (choice φ axes m) (0, 0, 0) = chosen φ axes m from rfl, (dist2_zero _ _).mpr rfl]
      exact hnn _ _
    · intro i hi
      rw [dist_getD _ _ _ _ hlt, dist_getD _ _ _ _ (by omega), hm]
      rw [show (candidates φ axes).getD (choice φ axes m) (0, 0, 0) = chosen φ axes m from rfl, (dist2_zero _ _).mpr rfl]
      refine lt_of_le_of_ne (hnn _ _) fun h => ?_
      have he := (dist2_zero _ _).mp h.symm
      have := (argmin_spec ((candidates φ axes).map fun v => dist2 v (moment m)) (by simp [candidates])).2.2 i hi
      rw [show argmin ((candidates φ axes).map fun v => dist2 v (moment m)) = choice φ axes m from rfl, dist_getD _ _ _ _ hlt, dist_getD _ _ _ _ (by omega), he] at this
      exact lt_irrefl _ this
  refine ⟨e, ?_⟩
  have hc : chosen φ axes (discretize φ axes m) = chosen φ axes m := by unfold chosen; rw [e]
  have congr : ∀ m', choice φ axes m' = choice φ axes m → chosen φ axes m' = chosen φ axes m → m'.q = m.q → discretize φ axes m' = discretize φ axes m := by
    intro m' h1 h2 h3
    unfold discretize
    rw [h1, h2, h3]
  exact congr _ e hc rfl

/-- **C182, exception** With the exponent 0 a null magnet (density 0) counts as a full one: already at the direction of an allowed axis it gets density 1. -/
theorem C182_exponent_violated (mt mp : ℝ) : moment ⟨0, 0, mt, mp⟩ = moment ⟨1, 0, mt, mp⟩ ∧ (discretize 0 [(0, 0, 1)] ⟨0, 0, 0, 0⟩).pho = 1 := by
  refine ⟨by simp [moment], ?_⟩
  have h : choice 0 [(0, 0, 1)] ⟨0, 0, 0, 0⟩ = 1 := by
    unfold choice
    refine argmin_unique _ 1 (by simp [candidates]) ?_ ?_
    · intro i hi
      have : i < 2 := by simpa [candidates] using hi
      interval_cases i <;> simp [candidates, dist2, moment, lab]
    · intro i hi
      interval_cases i
      simp [candidates, dist2, moment, lab]
  exact if_neg (by rw [h]; norm_num)

/-- The hypotheses hold in a concrete case: with the face set a magnet of density 1 along z stays what it is. -/
example : (∀ a ∈ both rowsF, Unit a) ∧ 0 < (⟨1, 1, 0, 0⟩ : Magnet).q := ⟨is_unit is_F (by norm_num), one_pos⟩
end Simsopt.Polar
