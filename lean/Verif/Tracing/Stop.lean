import Verif.Tracing.Loop
import Verif.Util.Props
import Mathlib.Analysis.Real.Pi.Bounds
/-!
# The stopping criteria (C125), reuse of criterion objects and the distribution over MPI processes (C124, C125)
-/
namespace Simsopt.Tracing
open Fields

variable {S : Type}

theorem callAll_fst_eq (C : Coords S) (D : Integrator S) (k : ℕ) (cs : List Crit) (σs τs : List CState) (i : ℕ)
    (hg : List.Forall₂ (Good C D k) cs σs) (hg' : List.Forall₂ (Good C D k) cs τs) :
    (callAll cs σs i (k + 1) (C.x (D.y (k + 1))) (C.y (D.y (k + 1))) (C.z (D.y (k + 1)))).1 =
      (callAll cs τs i (k + 1) (C.x (D.y (k + 1))) (C.y (D.y (k + 1))) (C.z (D.y (k + 1)))).1 := by
  induction hg generalizing i τs with
  | nil => cases hg'; rfl
  | @cons c σ cs σs hc hcs ih =>
    cases hg' with
    | @cons _ τ _ τs hc' hcs' =>
      have h1 := (call_spec C D k c σ hc).1
      have h2 := (call_spec C D k c τ hc').1
      simp only [callAll]
      by_cases hb : Sat C D (k + 1) c
      · rw [if_pos (h1.2 hb), if_pos (h2.2 hb)]
      · rw [if_neg (fun h => hb (h1.1 h)), if_neg (fun h => hb (h2.1 h))]
        exact ih τs (i + 1) hcs'

theorem loop_states (C : Coords S) (D : Integrator S) (flux : Bool) (tmax : ℝ) (phis : List ℝ) (crits : List Crit) (fuel k : ℕ) (last : ℝ) (σs τs : List CState)
    (res : List (ℝ × S)) (hits : List (Hit S)) (hg : List.Forall₂ (Good C D k) crits σs) (hg' : List.Forall₂ (Good C D k) crits τs) :
    loop C D flux tmax phis crits fuel k last σs res hits = loop C D flux tmax phis crits fuel k last τs res hits := by
  induction fuel generalizing k last σs τs res hits with
  | zero => rfl
  | succ fuel ih =>
    simp only [loop]
    have e := callAll_fst_eq C D k crits σs τs 0 hg hg'
    cases hr : (callAll crits σs 0 (k + 1) (C.x (D.y (k + 1))) (C.y (D.y (k + 1))) (C.z (D.y (k + 1)))).1 with
    | some i => rw [hr] at e; rw [← e]
    | none =>
      rw [hr] at e; rw [← e]
      simp only
      split
      · exact ih (k + 1) _ _ _ _ _ (callAll_none C D k crits σs 0 hg hr).2 (callAll_none C D k crits τs 0 hg' e.symm).2
      · rfl

/-- **C125.** Criterion objects can be used for many particles: the result of a run does not depend on what the objects were used for before. -/
theorem C125_reusable (C : Coords S) (D : Integrator S) (flux : Bool) (tmax : ℝ) (phis : List ℝ) (crits : List Crit) (fuel : ℕ) (σs τs : List CState)
    (hσ : crits.length = σs.length) (hτ : crits.length = τs.length) :
    solve C D flux tmax phis crits fuel σs = solve C D flux tmax phis crits fuel τs :=
  loop_states C D flux tmax phis crits fuel 0 _ σs τs [] [] (List.forall₂_iff_zip.2 ⟨hσ, fun _ h0 => absurd h0 (by omega)⟩)
    (List.forall₂_iff_zip.2 ⟨hτ, fun _ h0 => absurd h0 (by omega)⟩)

/-- The loop over the particles of one process (tracing.py L165-184, L270-293, L688-695): particle `i` is traced with whatever states the shared criterion objects have by then. -/
def traceLocal {α : Type} (bounds : ℕ × ℕ) (one : ℕ → α) : List α := (List.range' bounds.1 (bounds.2 - bounds.1)).map one

/-- `[i for o in comm.allgather(res) for i in o]` (tracing.py L188-189, L297-298, L697-698). -/
def traceGather {α : Type} (size n : ℕ) (one : ℕ → ℕ → α) : Except Err (List α) := do
  let parts ← (List.range size).mapM fun (r : ℕ) => do
    let b ← Util.parallelLoopBounds (some (r, size)) n
    pure (traceLocal b (one r))
  pure parts.flatten

theorem mapM_ok {α β : Type} (f : α → Except Err β) (g : α → β) (l : List α) (h : ∀ a ∈ l, f a = .ok (g a)) : l.mapM f = .ok (l.map g) := by
  induction l with
  | nil => rfl
  | cons a l ih =>
    rw [List.mapM_cons, h a (by simp), ih fun b hb => h b (by simp [hb])]
    rfl

/-- **C124.** Distribution over processes: with any number of MPI processes every process gets the results of all particles, in the order of the particles, and each is the one a single
process computes, although the criterion objects of each process have been used for other particles before. -/
theorem C124_mpi (C : Coords S) (D : ℕ → Integrator S) (flux : Bool) (tmax : ℝ) (phis : List ℝ) (crits : List Crit) (fuel : ℕ) (size n : ℕ) (hs : 0 < size)
    (σ : ℕ → ℕ → List CState) (σ₀ : ℕ → List CState) (hσ : ∀ r i, crits.length = (σ r i).length) (hσ₀ : ∀ i, crits.length = (σ₀ i).length) :
    traceGather size n (fun r i => solve C (D i) flux tmax phis crits fuel (σ r i)) =
      .ok (traceLocal (0, n) fun i => solve C (D i) flux tmax phis crits fuel (σ₀ i)) := by
  have hb : ∀ r ∈ List.range size, (do
      let b ← Util.parallelLoopBounds (some (r, size)) n
      pure (traceLocal b fun i => solve C (D i) flux tmax phis crits fuel (σ r i)) : Except Err _) =
      .ok (traceLocal (r * n / size, (r + 1) * n / size) fun i => solve C (D i) flux tmax phis crits fuel (σ₀ i)) := by
    intro r hr
    rw [Util.bounds_eq (List.mem_range.1 hr)]
    show Except.ok _ = _
    congr 1
    unfold traceLocal
    exact List.map_congr_left fun i _ => C125_reusable C (D i) flux tmax phis crits fuel _ _ (hσ r i) (hσ₀ i)
  unfold traceGather
  rw [mapM_ok _ _ _ hb]
  show Except.ok _ = _
  congr 1
  generalize (fun i => solve C (D i) flux tmax phis crits fuel (σ₀ i)) = g
  have key : ∀ m, ((List.range m).map fun (r : ℕ) => traceLocal (r * n / size, (r + 1) * n / size) g).flatten = (List.range (m * n / size)).map g := by
    intro m
    induction m with
    | zero => simp
    | succ m ih =>
      rw [List.range_succ, List.map_append, List.flatten_append, ih]
      simp only [List.map_cons, List.map_nil, List.flatten_cons, List.flatten_nil, List.append_nil, traceLocal]
      have hle : m * n / size ≤ (m + 1) * n / size := Nat.div_le_div_right (Nat.mul_le_mul_right n (Nat.le_succ m))
      rw [← List.map_append, List.range_eq_range', List.range_eq_range']
      congr 1
      have := List.range'_append (s := 0) (m := m * n / size) (n := (m + 1) * n / size - m * n / size) (step := 1)
      simp only [Nat.zero_add, Nat.one_mul] at this
      rw [this]
      congr 1; omega
  rw [key size, Nat.mul_div_cancel_left n hs]
  simp [traceLocal, List.range_eq_range']

/-! ### Toroidal transits -/

/-- **C125.** `ToroidalTransitStoppingCriterion(N, flux)` for a particle that has moved forward since the first step: satisfied exactly after `N` full turns from the position after
the first step. -/
theorem C125_transit_forward (C : Coords S) (D : Integrator S) (n : ℕ) (N : ℤ) (flux : Bool) (hN : 0 ≤ N)
    (hf : angleFrom C D flux 1 0 ≤ angleFrom C D flux 1 (n - 1)) :
    Sat C D n (.transit N flux) ↔ N * (2 * Real.pi) ≤ angleFrom C D flux 1 (n - 1) - angleFrom C D flux 1 0 := by
  have hp : 0 < 2 * Real.pi := by have := Real.pi_pos; positivity
  have h0 : 0 ≤ ⌊(angleFrom C D flux 1 (n - 1) - angleFrom C D flux 1 0) / (2 * Real.pi)⌋ := Int.floor_nonneg.2 (div_nonneg (by linarith) hp.le)
  show N ≤ |_| ↔ _
  rw [abs_of_nonneg h0, Int.le_floor, le_div_iff₀ hp]

/-- **C125.** For a particle that has moved backward the criterion is satisfied one turn too early: as soon as it has gone more than `N - 1` turns. -/
theorem C125_transit_backward (C : Coords S) (D : Integrator S) (n : ℕ) (N : ℤ) (flux : Bool)
    (hb : angleFrom C D flux 1 (n - 1) < angleFrom C D flux 1 0) :
    Sat C D n (.transit N flux) ↔ (N - 1) * (2 * Real.pi) < angleFrom C D flux 1 0 - angleFrom C D flux 1 (n - 1) := by
  have hp : 0 < 2 * Real.pi := by have := Real.pi_pos; positivity
  set u := (angleFrom C D flux 1 (n - 1) - angleFrom C D flux 1 0) / (2 * Real.pi) with hu
  have hneg : u < 0 := div_neg_of_neg_of_pos (by linarith) hp
  have h0 : ⌊u⌋ < 0 := Int.floor_lt.2 (by simpa using hneg)
  show N ≤ |⌊u⌋| ↔ _
  rw [abs_of_neg h0]
  have e : (N ≤ -⌊u⌋) ↔ u < ((1 - N : ℤ) : ℝ) := by rw [← Int.floor_lt]; omega
  rw [e, hu, div_lt_iff₀ hp]
  push_cast
  constructor <;> intro h <;> linarith

/-- Coordinates of states that are triples. -/
def xyz : Coords (ℝ × ℝ × ℝ) := ⟨fun s => s.1, fun s => s.2.1, fun s => s.2.2⟩

/-- A particle in flux coordinates that moves by `v` in the third coordinate per unit time, `dt` per step. -/
noncomputable def line (v dt : ℝ) : Integrator (ℝ × ℝ × ℝ) := ⟨fun k => k * dt, fun k => (0, 0, v * (k * dt)), fun _ s => (0, 0, v * s), fun _ _ target => target / v⟩

/-- **C125, violated.** "Stop the iteration once the maximum number of toroidal transits is reached": a particle that moves backward is stopped by
`ToroidalTransitStoppingCriterion(1, True)` after its second step, when it has gone a fifth of a radian. -/
theorem C125_backward_violated : ∃ R H, solve xyz (line (-1) (1 / 10)) true 100 [] [.transit 1 true] 2 [⟨0, 0⟩] = some (R, H) ∧
    R.length = 2 ∧ H = [⟨1 / 5, -1, (0, 0, -(1 / 5))⟩] ∧ (1 / 5 : ℝ) < 2 * Real.pi := by
  have hp := Real.pi_gt_three
  have hfl : ⌊(-1 * (2 * (1 / 10)) - -1 * (1 * (1 / 10))) / (2 * Real.pi)⌋ = -1 := by
    rw [Int.floor_eq_iff]
    have h2 : (0 : ℝ) < 2 * Real.pi := by linarith
    constructor
    · rw [le_div_iff₀ h2]; push_cast; linarith
    · rw [div_lt_iff₀ h2]; push_cast; linarith
  refine ⟨rows (line (-1) (1 / 10)) 2, [⟨1 / 5, -1, (0, 0, -(1 / 5))⟩], ?_, by simp [rows], rfl, by linarith⟩
  have c1 : callAll [.transit 1 true] [⟨0, 0⟩] 0 (0 + 1) (xyz.x ((line (-1) (1 / 10)).y (0 + 1))) (xyz.y ((line (-1) (1 / 10)).y (0 + 1)))
      (xyz.z ((line (-1) (1 / 10)).y (0 + 1))) = (none, [⟨-1 * (1 * (1 / 10)), -1 * (1 * (1 / 10))⟩]) := by
    simp [callAll, Crit.call, transitCall, xyz, line]
  have c2 : callAll [.transit 1 true] [⟨-1 * (1 * (1 / 10)), -1 * (1 * (1 / 10))⟩] 0 (0 + 1 + 1) (xyz.x ((line (-1) (1 / 10)).y (0 + 1 + 1)))
      (xyz.y ((line (-1) (1 / 10)).y (0 + 1 + 1))) (xyz.z ((line (-1) (1 / 10)).y (0 + 1 + 1))) = (some 0, [⟨-1 * (2 * (1 / 10)), -1 * (1 * (1 / 10))⟩]) := by
    have e : (xyz.z ((line (-1) (1 / 10)).y (0 + 1 + 1))) = -1 * (2 * (1 / 10)) := by simp [xyz, line]
    rw [e]
    simp only [callAll, Crit.call, transitCall, if_neg (show ¬(0 + 1 + 1 = 1) by omega), if_true, hfl]
    norm_num
  simp only [solve, loop, c1, c2]
  rw [if_pos (by simp [line]; norm_num)]
  simp [rows, planeHits, line, List.range_succ]
  norm_num

/-- **C125.** `IterationStoppingCriterion(N)` alone, with `tmax` not reached before: the run takes `N + 1` steps. -/
theorem C125_iterations (C : Coords S) (D : Integrator S) (flux : Bool) (tmax : ℝ) (phis : List ℝ) (N fuel : ℕ) (σ : CState) (ht : ∀ k ≤ N, D.t k < tmax)
    (R : List (ℝ × S)) (H : List (Hit S)) (h : solve C D flux tmax phis [.iter N] fuel [σ] = some (R, H)) :
    R = rows D (N + 1) ∧ H.getLast? = some ⟨D.t (N + 1), -1, D.y (N + 1)⟩ := by
  obtain ⟨n, hn, hb, hc⟩ := C124_result C D flux tmax phis [.iter N] fuel [σ] rfl R H h
  have hge : n ≤ N + 1 := by
    by_contra hlt
    have := (hb (N + 1) (by omega) (by omega)).2 (.iter N) (by simp)
    exact this (by show (N : ℤ) < ((N + 1 : ℕ) : ℤ); push_cast; omega)
  rcases hc with ⟨i, c, hi, hsat, _, hR, hH⟩ | ⟨_, htm, _, _⟩
  · have : i = 0 ∧ c = .iter N := by
      cases i with
      | zero => simp at hi; exact ⟨rfl, hi.symm⟩
      | succ i => simp at hi
    obtain ⟨rfl, rfl⟩ := this
    have h1 : (N : ℤ) < n := hsat
    have : n = N + 1 := by omega
    subst this
    exact ⟨hR, by rw [hH]; simp⟩
  · by_cases e : n = N + 1
    · subst e
      rename_i h5 _ _
      exact absurd (by show (N : ℤ) < ((N + 1 : ℕ) : ℤ); push_cast; omega : Sat C D (N + 1) (.iter N)) (h5 _ (by simp))
    · exact absurd (ht n (by omega)) (not_lt.2 htm)

/-- **C125, violated.** "Stop the iteration once the maximum number of iterations is reached": with `IterationStoppingCriterion(1)` two steps are taken, the time recorded is that of
the second. -/
theorem C125_iteration_violated : ∃ R H, solve xyz (line 1 1) true 100 [] [.iter 1] 2 [⟨0, 0⟩] = some (R, H) ∧ H = [⟨2, -1, (0, 0, 2)⟩] := by
  have hs : (solve xyz (line 1 1) true 100 [] [.iter 1] 2 [⟨0, 0⟩]).isSome = true := by
    simp [solve, loop, callAll, Crit.call, line, xyz]
  obtain ⟨⟨R, H⟩, h⟩ := Option.isSome_iff_exists.1 hs
  refine ⟨R, H, h, ?_⟩
  simp [solve, loop, callAll, Crit.call, line, xyz, planeHits] at h
  exact h.2.symm

/-! ### Times after `tmax` -/

/-- **C124, violated.** Rows of `res_phi_hits` can lie after `tmax`: the last step goes beyond `tmax` and its hits are recorded.  Here `tmax = 1`, one step of length 2, and plane
`3/2` is hit at time `3/2`. -/
theorem C124_hit_after_tmax_violated : ∃ R H, solve xyz (line 1 2) true 1 [3 / 2] [] 1 [] = some (R, H) ∧ H = [⟨3 / 2, 0, (0, 0, 3 / 2)⟩] := by
  have hp := Real.pi_gt_three
  have h2 : (0 : ℝ) < 2 * Real.pi := by linarith
  have f1 : ⌊(0 - 3 / 2) / (2 * Real.pi)⌋ = -1 := by
    rw [Int.floor_eq_iff]
    constructor
    · rw [le_div_iff₀ h2]; push_cast; linarith
    · rw [div_lt_iff₀ h2]; push_cast; linarith
  have f2 : ⌊((2 : ℝ) - 3 / 2) / (2 * Real.pi)⌋ = 0 := by
    rw [Int.floor_eq_iff]
    constructor
    · rw [le_div_iff₀ h2]; push_cast; linarith
    · rw [div_lt_iff₀ h2]; push_cast; linarith
  have f3 : cround (((0 + 2 : ℝ) / 2 - 3 / 2) / (2 * Real.pi)) = 0 := by
    apply cround_eq
    rw [abs_lt]
    push_cast
    constructor
    · rw [sub_zero, lt_div_iff₀ h2]; linarith
    · rw [sub_zero, div_lt_iff₀ h2]; linarith
  refine ⟨[(0, (0, 0, 0)), (1, (0, 0, 1))], _, ?_, rfl⟩
  have e0 : phiOf xyz true ((line 1 2).y 0) Real.pi = 0 := by simp [phiOf, xyz, line]
  have e1 : phiOf xyz true ((line 1 2).y 1) 0 = 2 := by simp [phiOf, xyz, line]
  simp only [solve, loop, callAll, e0, Nat.zero_add, e1, planeHits, f1, f2, f3]
  rw [if_neg (by simp [line])]
  simp [line]

/-- **C124, violated.** A particle that meets a criterion only after `tmax` is reported as stopped, at a time after `tmax`, and `res_tys` does not reach `tmax` (it is counted as lost).  Here
`z` reaches 3/2 at time 3/2, `tmax` is 1, and the only row of `res_tys` is the initial one. -/
theorem C124_stop_after_tmax_violated : solve xyz (line 1 2) true 1 [] [.maxZ (3 / 2)] 1 [⟨0, 0⟩] = some ([(0, (0, 0, 0))], [⟨2, -1, (0, 0, 2)⟩]) := by
  simp [solve, loop, callAll, Crit.call, line, xyz, planeHits]
  norm_num

end Simsopt.Tracing
