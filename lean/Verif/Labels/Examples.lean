import Verif.Labels.Curvature
/-!
# Cases that meet the hypotheses of C150 and C152
-/
namespace Simsopt.Labels
open Simsopt Simsopt.Coils Simsopt.Surface
open Simsopt.Geometry hiding norm normal

/-- One point that moves along `x` in the field `(x, 0, 1)`. -/
def movingPoint (s : ℝ) : Shape Unit := { onePoint 0 0 with x := fun _ => (s, 0, 0) }

/-- Its columns. -/
def movingCols : Shape Unit where
  x := fun _ => (1, 0, 0)
  g1 := fun _ => 0
  g2 := fun _ => 0
  g11 := fun _ => 0
  g12 := fun _ => 0
  g22 := fun _ => 0

/-- The field and its gradient. -/
def slope (q : V3) : V3 := (q.1, 0, 1)
def dslope (_ : V3) (k : Fin 3) : V3 := if k = 0 then (1, 0, 0) else 0

example (t : ℝ) : Along movingPoint movingCols t ∧ (∀ q, Diff slope (dslope q) q) ∧ (∀ p ∈ [()], normal (movingPoint t) p ≠ 0) ∧ (∃ p ∈ [()], slope ((movingPoint t).x p) ≠ 0) ∧
    ∀ q k, Diff (fun r => dslope r k) (fun _ => 0) q := by
  refine ⟨fun p => ⟨?_, hasDerivAt_const _ _, hasDerivAt_const _ _, hasDerivAt_const _ _, hasDerivAt_const _ _, hasDerivAt_const _ _⟩, ?_, ?_, ?_, ?_⟩
  · exact (hasDerivAt_id t).prodMk (hasDerivAt_const t ((0 : ℝ), (0 : ℝ)))
  · intro q γ γ' u _ h
    have := (d_fst h).prodMk (hasDerivAt_const u ((0 : ℝ), (1 : ℝ)))
    refine this.congr_deriv ?_
    simp [lin, dslope]
    rfl
  · intro p _; simp [normal, movingPoint, onePoint]
  · exact ⟨(), by simp, by simp [slope]⟩
  · intro q k γ γ' u _ _
    refine (hasDerivAt_const u (dslope 0 k)).congr_deriv ?_
    simp [lin]

/-- A coil of one straight element, off the point: the hypothesis of `C150_coils`. -/
example : ∀ p ∈ [()], Off [(([((0 : ℝ), (0 : ℝ), (5 : ℝ))], [((1 : ℝ), (0 : ℝ), (0 : ℝ))]), (1 : ℝ))] ((movingPoint 1).x p) := by
  intro p _
  simp [Off, movingPoint]
  intro a b c ha hb hc h1 _ h2
  rw [ha] at h1; norm_num at h1

/-- Unit normal and area element of one point: the hypotheses of `C152_value`. -/
example : inner ((0 : ℝ), (0 : ℝ), (1 : ℝ)) (0, 0, 1) = 1 ∧ normal (movingPoint 1) () = (1 : ℝ) • ((0 : ℝ), (0 : ℝ), (1 : ℝ)) := by
  constructor
  · simp [inner]
  · simp [normal, movingPoint, onePoint]

end Simsopt.Labels
