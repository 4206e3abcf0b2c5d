import Verif.PyList
import Mathlib.MeasureTheory.Constructions.Pi
import Mathlib.MeasureTheory.Measure.Count
import Mathlib.MeasureTheory.Measure.Lebesgue.Basic
import Mathlib.MeasureTheory.Measure.Typeclasses.Probability
import Mathlib.Data.List.Sort
import Mathlib.Tactic.FieldSimp
/-!
# C160: drawing points on a curve or surface

Model of `draw_uniform_on_curve` and `draw_uniform_on_surface` (src/simsopt/field/sampling.py L4-49).  `w k` is the length of `gammadash` (or of the normal) at the grid point `k`;
`np.random.randint` and `np.random.uniform` are independent uniform variables.  Real numbers instead of doubles.
-/
namespace Simsopt.Sampling
open MeasureTheory

variable {N : ℕ}

/-- `M = np.max(alen)` (L15, L38): `max` of a list that starts from the first entry. -/
noncomputable def maximum [NeZero N] (w : Fin N → ℝ) : ℝ := Finset.univ.sup' ⟨0, Finset.mem_univ _⟩ w

/-- `np.random.uniform(...) < alen[idxs]/M` (L18, L41) for one attempt: the drawn grid point and the uniform number. -/
noncomputable def accepts [NeZero N] (w : Fin N → ℝ) (a : Fin N × ℝ) : Bool := decide (a.2 < w a.1 / maximum w)

/-- `idxs[accept[:nsamples]]` before the sort (L18-20, L41-43), with the assertion of L19 / L42. -/
noncomputable def chosen [NeZero N] (w : Fin N → ℝ) (n : ℕ) (att : List (Fin N × ℝ)) : Except Err (List (Fin N)) :=
  if n < (att.filter (accepts w)).length then .ok (((att.filter (accepts w)).take n).map Prod.fst) else .error .assertionError

/-- `idxs = np.sort(...)` (L20, L43). -/
noncomputable def draw [NeZero N] (w : Fin N → ℝ) (n : ℕ) (att : List (Fin N × ℝ)) : Except Err (List (Fin N)) :=
  (chosen w n att).map fun l => l.mergeSort (fun a b => decide (a ≤ b))

/-- `nattempts = 10 * nsamples` (L16, L39): the argument `safetyfactor` is not used. -/
def nattempts (n _safetyfactor : ℕ) : ℕ := 10 * n

/-- `draw_uniform_on_curve` (L4-22) given all the random numbers: points and indices. -/
noncomputable def drawCurve [NeZero N] {P : Type} (w : Fin N → ℝ) (gamma : Fin N → P) (n : ℕ) (att : List (Fin N × ℝ)) : Except Err (List P × List (Fin N)) := do
  let idxs ← draw w n att
  return (idxs.map gamma, idxs)

/-- `draw_uniform_on_surface` (L25-49) given all the random numbers, with `np.unravel_index` in C order, the order of the arrays of `Surface` (`np.isfortran` is false for them).  `w` is the length of the
normal, flattened by `reshape((-1, 3))`. -/
noncomputable def drawSurface {np nt : ℕ} [NeZero (np * nt)] {P : Type} (norm : Fin np → Fin nt → ℝ) (gamma : Fin np → Fin nt → P) (n : ℕ) (att : List (Fin (np * nt) × ℝ)) :
    Except Err (List P × List (Fin np) × List (Fin nt)) := do
  let idxs ← draw (fun k => norm k.divNat k.modNat) n att
  return (idxs.map (fun k => gamma k.divNat k.modNat), idxs.map Fin.divNat, idxs.map Fin.modNat)

/-! ### Specification -/

/-- One attempt: a uniform grid point, a uniform number in `[0, 1)`. -/
noncomputable def law (N : ℕ) : Measure (Fin N × ℝ) := (((N : ENNReal)⁻¹ • Measure.count : Measure (Fin N))).prod (volume.restrict (Set.Ico (0 : ℝ) 1))

/-- `m` independent attempts. -/
noncomputable def attempts (N m : ℕ) : Measure (Fin m → Fin N × ℝ) := Measure.pi fun _ => law N

/-- The probability of grid point `k` under the uniform distribution with respect to arclength (area). -/
noncomputable def weight (w : Fin N → ℝ) (k : Fin N) : ℝ := w k / ∑ j, w j

/-! ### Lemmas -/

instance prob_index [NeZero N] : IsProbabilityMeasure ((N : ENNReal)⁻¹ • Measure.count : Measure (Fin N)) := by
  constructor
  rw [Measure.smul_apply, Measure.count_univ]
  simp only [ENat.card_eq_coe_fintype_card, Fintype.card_fin, smul_eq_mul]
  exact ENNReal.inv_mul_cancel (by exact_mod_cast NeZero.ne N) (ENNReal.natCast_ne_top N)

instance prob_unif : IsProbabilityMeasure (volume.restrict (Set.Ico (0 : ℝ) 1)) := by
  constructor
  simp

instance prob_law [NeZero N] : IsProbabilityMeasure (law N) := by unfold law; infer_instance

instance prob_attempts [NeZero N] (m : ℕ) : IsProbabilityMeasure (attempts N m) := by unfold attempts; infer_instance

theorem le_maximum [NeZero N] (w : Fin N → ℝ) (k : Fin N) : w k ≤ maximum w := Finset.le_sup' w (Finset.mem_univ k)

/-- The attempts that choose `k`. -/
def hit [NeZero N] (w : Fin N → ℝ) (k : Fin N) : Set (Fin N × ℝ) := {a | accepts w a = true ∧ a.1 = k}

def miss [NeZero N] (w : Fin N → ℝ) : Set (Fin N × ℝ) := {a | ¬ accepts w a = true}

theorem maximum_pos [NeZero N] (w : Fin N → ℝ) (hs : 0 < ∑ k, w k) : 0 < maximum w := by
  by_contra h
  push Not at h
  have : ∑ k, w k ≤ 0 := Finset.sum_nonpos fun k _ => (le_maximum w k).trans h
  linarith

theorem law_hit [NeZero N] (w : Fin N → ℝ) (hw : ∀ k, 0 ≤ w k) (hs : 0 < ∑ k, w k) (k : Fin N) : law N (hit w k) = ENNReal.ofReal (w k / (N * maximum w)) := by
  have hM := maximum_pos w hs
  have e : hit w k = {k} ×ˢ Set.Iio (w k / maximum w) := by
    ext a
    simp only [hit, accepts, Set.mem_ofPred_eq, decide_eq_true_eq, Set.mem_prod, Set.mem_singleton_iff, Set.mem_Iio]
    constructor
    · rintro ⟨h1, h2⟩; rw [h2] at h1; exact ⟨h2, h1⟩
    · rintro ⟨h1, h2⟩; rw [h1]; exact ⟨h2, rfl⟩
  rw [e, law, Measure.prod_prod, Measure.smul_apply, Measure.count_singleton, Measure.restrict_apply measurableSet_Iio]
  have e2 : Set.Iio (w k / maximum w) ∩ Set.Ico (0 : ℝ) 1 = Set.Ico 0 (w k / maximum w) := by
    ext u
    simp only [Set.mem_inter_iff, Set.mem_Iio, Set.mem_Ico]
    have : w k / maximum w ≤ 1 := (div_le_one hM).2 (le_maximum w k)
    constructor
    · rintro ⟨a, b, c⟩; exact ⟨b, a⟩
    · rintro ⟨a, b⟩; exact ⟨b, a, by linarith⟩
  rw [e2, Real.volume_Ico, sub_zero, smul_eq_mul, mul_one]
  have hN : (0 : ℝ) < N := by exact_mod_cast NeZero.pos N
  rw [show w k / (N * maximum w) = (N : ℝ)⁻¹ * (w k / maximum w) by field_simp, ENNReal.ofReal_mul (by positivity), ENNReal.ofReal_inv_of_pos hN, ENNReal.ofReal_natCast]

end Simsopt.Sampling
