import Verif.Surfaces.Torus
/-!
# C73: quadrature grids

Model of `get_theta_quadpoints`, `get_phi_quadpoints` (src/simsopt/geo/surface.py L112-183) and `deduced_range` (L846-860), and what the ranges mean for integrals over symmetric surfaces.

Simplification: real numbers instead of doubles.
-/
namespace Simsopt.Surface
open Simsopt Simsopt.Coils Simsopt.RZSurf
open Simsopt.Geometry hiding norm normal

/-- The options for `range` (surface.py L40-42). -/
inductive Range | full | field | half
  deriving DecidableEq

/-- `np.linspace(0.0, e, n, endpoint=False)`. -/
noncomputable def linspace (e : ℝ) (n : Nat) : List ℝ := (List.range n).map fun (j : Nat) => (j : ℝ) * (e / n)

/-- `get_theta_quadpoints` (surface.py L112-126). -/
noncomputable def thetaQuad (ntheta : Option Nat) : List ℝ := linspace 1 (ntheta.getD 62)

/-- `get_phi_quadpoints` (surface.py L128-183); `none`: the `IndexError` of `quadpoints_phi[1]` or `quadpoints_phi[0]`, if there are less than two points in the half-period case. -/
noncomputable def phiQuad (nphi : Option Nat) (range : Option Range) (nfp : Nat) : Option (List ℝ) :=
  let range := range.getD .full
  let div : ℝ := if range = .full then 1 else nfp
  let endVal : ℝ := if range = .half then 0.5 else 1
  let l := linspace (endVal / div) (nphi.getD 61)
  if range = .half then
    match l with
    | a :: b :: _ => some (l.map fun x => x + 0.5 * (b - a))
    | _ => none
  else some l

/-- `deduced_range` (surface.py L846-860); `np.isclose(a, b, atol=1e-10)` is `|a - b| <= 1e-10 + 1e-5*|b|`.  `none`: `IndexError` on an empty array. -/
noncomputable def deducedRange (l : List ℝ) : Option Range :=
  match l.getLast?, l.head? with
  | some last, some first =>
    open Classical in
    if |last - (1 - 1 / (l.length : ℝ))| ≤ 1e-10 + 1e-5 * |1 - 1 / (l.length : ℝ)| then some .full
    else if first = 0 then some .field else some .half
  | _, _ => none

theorem linspace_get (e : ℝ) (n j : Nat) (h : j < n) : (linspace e n)[j]? = some (j * (e / n)) := by
  rw [linspace, List.getElem?_map, List.getElem?_range h]; rfl

/-- **C73.** `get_theta_quadpoints(n)` are the `n` points `j/n`. -/
theorem C73_theta (n : Nat) : (thetaQuad (some n)).length = n ∧ (∀ j < n, (thetaQuad (some n))[j]? = some ((j : ℝ) / n)) ∧ thetaQuad none = thetaQuad (some 62) := by
  refine ⟨by simp [thetaQuad, linspace], fun j hj => ?_, rfl⟩
  rw [thetaQuad, Option.getD_some, linspace_get _ _ _ hj]; congr 1; ring

theorem phiQuad_full (n nfp : Nat) : phiQuad (some n) (some .full) nfp = some (linspace 1 n) := by simp [phiQuad]

theorem phiQuad_field (n nfp : Nat) : phiQuad (some n) (some .field) nfp = some (linspace (1 / nfp) n) := by simp [phiQuad]

theorem linspace_two (e : ℝ) (n : Nat) (h : 2 ≤ n) : ∃ l, linspace e n = 0 :: (e / n) :: l := by
  obtain ⟨k, rfl⟩ : ∃ k, n = k + 2 := ⟨n - 2, by omega⟩
  refine ⟨((List.range k).map fun (j : Nat) => ((j + 2 : Nat) : ℝ) * (e / (k + 2 : Nat))), ?_⟩
  simp only [linspace, List.range_succ_eq_map, List.map_cons, List.map_map]
  congr 1
  · simp
  · congr 1
    · simp

theorem phiQuad_half (n nfp : Nat) (h : 2 ≤ n) :
    phiQuad (some n) (some .half) nfp = some ((List.range n).map fun (j : Nat) => ((j : ℝ) + 1 / 2) / (2 * n * nfp)) := by
  obtain ⟨l, hl⟩ := linspace_two (0.5 / nfp) n h
  have hn : (n : ℝ) ≠ 0 := by have : 0 < n := by omega
                              positivity
  have e : phiQuad (some n) (some .half) nfp = some ((linspace (0.5 / (nfp : ℝ)) n).map fun (x : ℝ) => x + 0.5 * ((0.5 / (nfp : ℝ)) / (n : ℝ) - 0)) := by
    simp only [phiQuad, Option.getD_some, if_true]
    have : ¬ (Range.half = Range.full) := by decide
    simp only [this, if_false]
    rw [hl]
  rw [e, linspace, List.map_map]
  congr 1
  apply List.map_congr_left
  intro j _
  simp only [Function.comp]
  rcases Nat.eq_zero_or_pos nfp with rfl | hf
  · simp
  · have : (nfp : ℝ) ≠ 0 := by positivity
    field_simp
    norm_num
    ring

/-- **C73.** `get_phi_quadpoints`: `nphi` points; for `"full torus"` the points `j/nphi`, for `"field period"` the points `j/(nphi*nfp)`, for `"half period"` the midpoints `(j+1/2)/(2*nphi*nfp)`
(for at least two points). -/
theorem C73_phi (n nfp : Nat) (hf : nfp ≠ 0) :
    (∃ l, phiQuad (some n) (some .full) nfp = some l ∧ l.length = n ∧ ∀ j < n, l[j]? = some ((j : ℝ) / n)) ∧
    (∃ l, phiQuad (some n) (some .field) nfp = some l ∧ l.length = n ∧ ∀ j < n, l[j]? = some ((j : ℝ) / (n * nfp))) ∧
    (2 ≤ n → ∃ l, phiQuad (some n) (some .half) nfp = some l ∧ l.length = n ∧ ∀ j < n, l[j]? = some (((j : ℝ) + 1 / 2) / (2 * n * nfp))) ∧
    phiQuad none none nfp = phiQuad (some 61) (some .full) nfp := by
  refine ⟨⟨_, phiQuad_full n nfp, by simp [linspace], fun j hj => ?_⟩, ⟨_, phiQuad_field n nfp, by simp [linspace], fun j hj => ?_⟩,
    fun h => ⟨_, phiQuad_half n nfp h, by simp, fun j hj => ?_⟩, rfl⟩
  · rw [linspace_get _ _ _ hj]; congr 1; ring
  · rw [linspace_get _ _ _ hj]; congr 1
    have h1 : (nfp : ℝ) ≠ 0 := by exact_mod_cast hf
    have h2 : (n : ℝ) ≠ 0 := by
      have : n ≠ 0 := by omega
      exact_mod_cast this
    field_simp
  · rw [List.getElem?_map, List.getElem?_range hj]; rfl

/-- **C73.** All the points of `"full torus"`, `"field period"`, `"half period"` lie in `[0, 1)`, `[0, 1/nfp)`, `(0, 1/(2 nfp))`, in increasing order. -/
theorem C73_phi_range (n nfp : Nat) (hf : nfp ≠ 0) (r : Range) (l : List ℝ) (h : phiQuad (some n) (some r) nfp = some l) :
    l.Pairwise (· < ·) ∧ ∀ x ∈ l, 0 ≤ x ∧ x < (match r with | .full => 1 | .field => 1 / (nfp : ℝ) | .half => 1 / (2 * nfp)) ∧ (r = .half → 0 < x) := by
  have hfp : (0 : ℝ) < nfp := by have : 0 < nfp := by omega
                                 exact_mod_cast this
  have mono : ∀ (e c : ℝ), 0 < e → ((List.range n).map fun (j : Nat) => (j : ℝ) * e + c).Pairwise (· < ·) := by
    intro e c he
    rw [List.pairwise_map]
    refine List.pairwise_lt_range.imp ?_
    intro a b hab
    have : (a : ℝ) < b := by exact_mod_cast hab
    nlinarith
  rcases Nat.eq_zero_or_pos n with rfl | hn
  · cases r
    · rw [phiQuad_full] at h; simp only [Option.some.injEq] at h; subst h; simp [linspace]
    · rw [phiQuad_field] at h; simp only [Option.some.injEq] at h; subst h; simp [linspace]
    · simp [phiQuad, linspace] at h
  have hn' : (0 : ℝ) < n := by exact_mod_cast hn
  cases r with
  | full =>
    rw [phiQuad_full] at h; simp only [Option.some.injEq] at h; subst h
    refine ⟨by simpa [linspace] using mono (1 / n) 0 (by positivity), ?_⟩
    intro x hx
    obtain ⟨j, hj, rfl⟩ := List.mem_map.mp hx
    have : (j : ℝ) < n := by exact_mod_cast List.mem_range.mp hj
    refine ⟨by positivity, ?_, by simp⟩
    rw [mul_one_div, div_lt_one hn']; exact this
  | field =>
    rw [phiQuad_field] at h; simp only [Option.some.injEq] at h; subst h
    refine ⟨by simpa [linspace] using mono (1 / nfp / n) 0 (by positivity), ?_⟩
    intro x hx
    obtain ⟨j, hj, rfl⟩ := List.mem_map.mp hx
    have : (j : ℝ) < n := by exact_mod_cast List.mem_range.mp hj
    refine ⟨by positivity, ?_, by simp⟩
    have e : (j : ℝ) * (1 / nfp / n) = (j / n) * (1 / nfp) := by ring
    have h1 : (j : ℝ) / n < 1 := (div_lt_one hn').mpr this
    have h2 : (0 : ℝ) < 1 / nfp := by positivity
    simp only
    rw [e]; nlinarith
  | half =>
    by_cases h2 : 2 ≤ n
    · rw [phiQuad_half n nfp h2] at h; simp only [Option.some.injEq] at h; subst h
      constructor
      · have := mono (1 / (2 * n * nfp)) (1 / 2 / (2 * n * nfp)) (by positivity)
        convert this using 3
        ring
      · intro x hx
        obtain ⟨j, hj, rfl⟩ := List.mem_map.mp hx
        have : (j : ℝ) + 1 ≤ n := by exact_mod_cast List.mem_range.mp hj
        refine ⟨by positivity, ?_, fun _ => by positivity⟩
        simp only
        rw [div_lt_div_iff₀ (by positivity) (by positivity)]
        nlinarith
    · have : n = 1 := by omega
      subst this
      simp [phiQuad, linspace] at h

/-- **C73, violated.** `get_phi_quadpoints(nphi=1, range="half period")` raises an `IndexError`. -/
theorem C73_half_period_single_violated (nfp : Nat) : phiQuad (some 1) (some .half) nfp = none := by simp [phiQuad, linspace]

/-! ### `deduced_range` -/

theorem linspace_last (e : ℝ) (n : Nat) (h : 0 < n) : (linspace e n).getLast? = some (((n : ℝ) - 1) * (e / n)) ∧ (linspace e n).head? = some 0 := by
  obtain ⟨k, rfl⟩ : ∃ k, n = k + 1 := ⟨n - 1, by omega⟩
  constructor
  · rw [linspace, List.range_succ, List.map_append, List.map_cons, List.map_nil, List.getLast?_append]
    simp
  · rw [linspace, List.range_succ_eq_map]; simp

/-- **C73.** For grids of at least two points `deduced_range` returns the range with which they were made (with one field period, "field period" and "full torus" are the same grid, reported as "full torus"). -/
theorem C73_deduced_range (n nfp : Nat) (hf : nfp ≠ 0) (h2 : 2 ≤ n) (r : Range) (l : List ℝ) (h : phiQuad (some n) (some r) nfp = some l) :
    deducedRange l = some (if r = .field ∧ nfp = 1 then .full else r) := by
  have hn1 : (0 : ℝ) < n := by have : 0 < n := by omega
                               exact_mod_cast this
  have hn2 : (2 : ℝ) ≤ n := by exact_mod_cast h2
  have hf1 : (1 : ℝ) ≤ nfp := by exact_mod_cast Nat.one_le_iff_ne_zero.mpr hf
  have hq : (1 : ℝ) / n ≤ 1 / 2 := one_div_le_one_div_of_le two_pos hn2
  have hq0 : (0 : ℝ) < 1 / n := by positivity
  have habs : |1 - 1 / (n : ℝ)| = 1 - 1 / n := abs_of_nonneg (by linarith)
  have hfull : deducedRange (linspace 1 n) = some .full := by
    obtain ⟨e1, e2⟩ := linspace_last 1 n (by omega)
    simp only [deducedRange, e1, e2]
    rw [if_pos]
    have : (linspace 1 n).length = n := by simp [linspace]
    rw [this]
    have e : ((n : ℝ) - 1) * (1 / n) - (1 - 1 / n) = 0 := by field_simp; ring
    rw [e, abs_zero]; positivity
  cases r with
  | full =>
    rw [phiQuad_full] at h; simp only [Option.some.injEq] at h; subst h
    simpa using hfull
  | field =>
    rw [phiQuad_field] at h; simp only [Option.some.injEq] at h; subst h
    by_cases h1 : nfp = 1
    · subst h1; simpa using hfull
    · have hf2 : (2 : ℝ) ≤ nfp := by
        have : 2 ≤ nfp := by omega
        exact_mod_cast this
      obtain ⟨e1, e2⟩ := linspace_last (1 / nfp) n (by omega)
      simp only [deducedRange, e1, e2, h1, and_false, if_false]
      have : (linspace (1 / nfp) n).length = n := by simp [linspace]
      rw [this, if_neg, if_pos trivial]
      have e : ((n : ℝ) - 1) * (1 / nfp / n) = (1 - 1 / n) * (1 / nfp) := by field_simp
      have hk : (1 : ℝ) / nfp ≤ 1 / 2 := one_div_le_one_div_of_le two_pos hf2
      have hk0 : (0 : ℝ) < 1 / nfp := by positivity
      have hprod : (1 - 1 / (n : ℝ)) * (1 / 2) ≤ (1 - 1 / (n : ℝ)) * (1 - 1 / nfp) := mul_le_mul_of_nonneg_left (by linarith) (by linarith)
      rw [e, habs, abs_sub_comm, abs_of_nonneg (by nlinarith), not_le]
      generalize (1 : ℝ) / n = a at *
      generalize (1 : ℝ) / nfp = b at *
      norm_num
      nlinarith
  | half =>
    rw [phiQuad_half n nfp h2] at h; simp only [Option.some.injEq] at h; subst h
    obtain ⟨k, rfl⟩ : ∃ k, n = k + 1 := ⟨n - 1, by omega⟩
    have el : ((List.range (k + 1)).map fun (j : Nat) => ((j : ℝ) + 1 / 2) / (2 * (k + 1 : Nat) * nfp)).getLast? = some (((k : ℝ) + 1 / 2) / (2 * (k + 1 : Nat) * nfp)) := by
      rw [List.range_succ, List.map_append, List.map_cons, List.map_nil, List.getLast?_append]; simp
    have eh : ((List.range (k + 1)).map fun (j : Nat) => ((j : ℝ) + 1 / 2) / (2 * (k + 1 : Nat) * nfp)).head? = some ((1 / 2 : ℝ) / (2 * (k + 1 : Nat) * nfp)) := by
      rw [List.range_succ_eq_map]; simp
    simp only [deducedRange, el, eh]
    have hr : ¬ (Range.half = Range.field ∧ nfp = 1) := by rintro ⟨h, _⟩; exact absurd h (by decide)
    rw [if_neg, if_neg, if_neg hr]
    · positivity
    · rw [List.length_map, List.length_range, habs]
      have hlast : ((k : ℝ) + 1 / 2) / (2 * (k + 1 : Nat) * nfp) ≤ (1 - 1 / (2 * (k + 1 : Nat))) / 2 := by
        rw [div_le_iff₀ (by positivity)]
        have e : (1 - 1 / (2 * ((k + 1 : Nat) : ℝ))) / 2 * (2 * (k + 1 : Nat) * nfp) = ((k : ℝ) + 1 / 2) * nfp := by push_cast; field_simp; ring
        rw [e]
        have : (0 : ℝ) ≤ (k : ℝ) + 1 / 2 := by positivity
        nlinarith
      have e2 : (1 : ℝ) / (2 * (k + 1 : Nat)) = 1 / 2 * (1 / ((k + 1 : Nat) : ℝ)) := by field_simp
      rw [e2] at hlast
      rw [abs_sub_comm, abs_of_nonneg (by linarith)]
      norm_num
      norm_num at hlast hq hq0
      linarith

/-- **C73, violated.** A `"field period"` grid with a single point is reported as "full torus" however many field periods there are. -/
theorem C73_deduced_single_violated (nfp : Nat) : ∃ l, phiQuad (some 1) (some .field) nfp = some l ∧ deducedRange l = some .full := by
  refine ⟨_, phiQuad_field 1 nfp, ?_⟩
  simp [deducedRange, linspace]
  norm_num

end Simsopt.Surface
