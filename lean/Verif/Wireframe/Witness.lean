import Verif.Wireframe.Currents
/-! # The hypotheses of the wireframe theorems are met by non-trivial wireframes -/
namespace Simsopt.Wireframe

/-- A wireframe with `n_phi = 4`, `n_theta = 6`. -/
def demo : Grid := ⟨4, 3⟩

/-- One ampere around cell `(1, 2)`. -/
def demoCurrents : Int → ℝ := addLoop 1 (demo.cell 1 2) fun _ => 0

theorem demo_continuous : demo.Continuous demoCurrents :=
  C83_loop_continuous (by decide) (by decide) 1 2 (by decide) (by decide) 1 fun i _ j _ _ => by simp [Grid.apply]

/-- The loop is not the zero current: segment `8` (from node `(1, 2)` to node `(2, 2)`) carries it. -/
example : demoCurrents 8 = 1 := by
  simp [demoCurrents, addLoop, Grid.cell, Grid.torKey, Grid.polKey, demo, Grid.n, Grid.nTor]

/-- It has a flow on the torus, which accumulates nothing; hence its total currents are the same through all sections. -/
example : ∃ T P, demo.IsFlow demoCurrents T P ∧ DivFree T P ∧ ∀ I : Int, demo.apply demo.torRow demoCurrents = ∑ j ∈ Finset.range demo.n, T I j := by
  obtain ⟨T, P, hf⟩ := (C83_unfold (g := demo) (by decide) (by decide) demoCurrents).1
  exact ⟨T, P, hf, (C83_continuity (by decide) (by decide) hf).mp demo_continuous, C83_toroidal_current (by decide) (by decide) hf demo_continuous⟩

/-- A current that stops at a node is refused. -/
example : ¬ demo.Continuous fun s => if s = 8 then 1 else 0 := by
  intro h
  have := h 1 (by decide) 2 (by decide) (by decide)
  rw [Grid.apply, Finset.sum_eq_single_of_mem 8 (by decide) (fun b _ hb => by rw [if_neg (by exact_mod_cast hb), mul_zero])] at this
  simp [contRow, Grid.connected, Grid.torKey, Grid.polKey, demo, Grid.n, Grid.nTor] at this

end Simsopt.Wireframe
