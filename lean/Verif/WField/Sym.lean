import Verif.WField.Torus
/-!
# The field of a wireframe has the symmetries of the device (C130), and what is wrong with its derivatives (C129)
-/
namespace Simsopt.WField
open Fields Wireframe Coils

theorem dot_rot (a : ℝ) (u v : P3) : dot (rot a u) (rot a v) = dot u v := by
  have := Real.sin_sq_add_cos_sq a
  simp only [dot, rot, Matrix.cons_val_zero, Matrix.cons_val_one, Matrix.cons_val]
  linear_combination (u 0 * v 0 + u 1 * v 1) * this

theorem dot_refl (u v : P3) : dot (refl u) (refl v) = dot u v := by
  simp [dot, refl]

theorem rot_sub (a : ℝ) (u v : P3) : rot a u - rot a v = rot a (u - v) := by
  funext i; fin_cases i <;> simp [rot] <;> ring

theorem refl_sub (u v : P3) : refl u - refl v = refl (u - v) := by
  funext i; fin_cases i <;> simp [refl] <;> ring

theorem cross_rot (a : ℝ) (u v : P3) : cross (rot a u) (rot a v) = rot a (cross u v) := by
  have := Real.sin_sq_add_cos_sq a
  funext i
  fin_cases i <;> simp [cross, rot]
  · ring
  · ring
  · linear_combination (u 0 * v 1 - u 1 * v 0) * this

theorem cross_refl (u v : P3) : cross (refl u) (refl v) = refl (cross u v) := by
  funext i; fin_cases i <;> simp [cross, refl] <;> ring

theorem segB_rot (a : ℝ) (n0 n1 p : P3) : segB (rot a n0) (rot a n1) (rot a p) = rot a (segB n0 n1 p) := by
  have e : factor (rot a (p - n0)) (rot a (p - n1)) = factor (p - n0) (p - n1) := by simp only [factor, denom, nrm, dot_rot]
  unfold segB
  simp only [rot_sub, e, cross_rot]
  funext i; fin_cases i <;> simp [rot] <;> ring

theorem segB_refl (n0 n1 p : P3) : segB (refl n0) (refl n1) (refl p) = refl (segB n0 n1 p) := by
  have e : factor (refl (p - n0)) (refl (p - n1)) = factor (p - n0) (p - n1) := by simp only [factor, denom, nrm, dot_refl]
  unfold segB
  simp only [refl_sub, e, cross_refl]
  funext i; fin_cases i <;> simp [refl]

theorem refl_rot (a : ℝ) (p : P3) : refl (rot a p) = rot (-a) (refl p) := by
  funext i; fin_cases i <;> simp [rot, refl] <;> ring

theorem refl_refl (p : P3) : refl (refl p) = p := by
  funext i; fin_cases i <;> simp [refl]

/-- The field of the two images of a segment in field period `m`. -/
noncomputable def pair (nfp : ℕ) (n0 n1 : P3) (m : ℤ) (p : P3) : P3 :=
  segB (rot (2 * m * Real.pi / nfp) n0) (rot (2 * m * Real.pi / nfp) n1) p - segB (rot (2 * m * Real.pi / nfp) (refl n0)) (rot (2 * m * Real.pi / nfp) (refl n1)) p

theorem halves_vec (nfp : ℕ) (hn : nfp ≠ 0) (nodes : ℕ → P3) (u v : ℕ) (p : P3) :
    ((halves nfp nodes).map fun h => h.2 • segB (h.1 u) (h.1 v) p).sum = ∑ m ∈ Finset.range nfp, pair nfp (nodes u) (nodes v) m p := by
  obtain ⟨k, rfl⟩ : ∃ k, nfp = k + 1 := ⟨nfp - 1, by omega⟩
  unfold halves pair
  simp only []
  generalize ((k + 1 : ℕ) : ℝ) = c
  rw [Finset.sum_range_succ', List.map_append, List.sum_append, add_comm]
  congr 1
  · simp only [Nat.add_sub_cancel]
    generalize k = q
    induction q with
    | zero => simp
    | succ q ih =>
      rw [List.range_succ, List.flatMap_append, List.map_append, List.sum_append, ih, Finset.sum_range_succ]
      congr 1
      simp [sub_eq_add_neg]
  · simp [rot_zero, sub_eq_add_neg]

/-- The field, as a sum over the segments of the half period and the field periods. -/
theorem wire_sum (s : RZSurf.Surf) (hnfp : s.nfp ≠ 0) (junk : ℕ → ℝ × ℝ) (g : Grid) (x : ℤ → ℝ) (p : P3) :
    (wireOf s junk g x).B p = ∑ t ∈ Finset.range g.nSeg, x t • ∑ m ∈ Finset.range s.nfp, pair s.nfp (nodes0 s junk g (g.segStart t)) (nodes0 s junk g (g.segEnd t)) m p := by
  have e1 : (wireOf s junk g x).segments.zipIdx = (List.range g.nSeg).map fun t => ((g.segStart t, g.segEnd t), t) := by
    apply List.ext_getElem
    · simp [wireOf]
    · intro i h1 h2
      simp [wireOf]
  unfold Wire.B
  rw [e1, foldl_sum, zero_add, List.map_map]
  have : ∀ q : ℕ, ((List.range q).map fun (t : ℕ) => x t • ∑ m ∈ Finset.range s.nfp, pair s.nfp (nodes0 s junk g (g.segStart t)) (nodes0 s junk g (g.segEnd t)) m p).sum =
      ∑ t ∈ Finset.range q, x t • ∑ m ∈ Finset.range s.nfp, pair s.nfp (nodes0 s junk g (g.segStart t)) (nodes0 s junk g (g.segEnd t)) m p := by
    intro q
    induction q with
    | zero => simp
    | succ q ih => rw [List.range_succ, List.map_append, List.sum_append, ih, Finset.sum_range_succ]; simp
  rw [← this]
  congr 1
  refine List.map_congr_left fun t _ => ?_
  simp only [Function.comp, Wire.Bi, foldl_sum, zero_add]
  congr 1
  exact halves_vec s.nfp hnfp (nodes0 s junk g) _ _ p

theorem pair_per (nfp : ℕ) (hn : nfp ≠ 0) (n0 n1 : P3) (m : ℤ) (p : P3) : pair nfp n0 n1 (m + nfp) p = pair nfp n0 n1 m p := by
  have hp : (nfp : ℝ) ≠ 0 := by exact_mod_cast hn
  have e : ∀ q, rot (2 * ((m + nfp : ℤ) : ℝ) * Real.pi / nfp) q = rot (2 * m * Real.pi / nfp) q := by
    intro q
    have : 2 * ((m + nfp : ℤ) : ℝ) * Real.pi / nfp = 2 * m * Real.pi / nfp + 2 * Real.pi := by
      push_cast; field_simp
    rw [this]
    simp [rot]
  simp only [pair, e]

theorem pair_rot (nfp : ℕ) (n0 n1 : P3) (m : ℤ) (p : P3) : pair nfp n0 n1 (m + 1) (rot (2 * Real.pi / nfp) p) = rot (2 * Real.pi / nfp) (pair nfp n0 n1 m p) := by
  have e : ∀ q, rot (2 * ((m + 1 : ℤ) : ℝ) * Real.pi / nfp) q = rot (2 * Real.pi / nfp) (rot (2 * m * Real.pi / nfp) q) := by
    intro q
    rw [rot_rot]
    congr 1
    push_cast; ring
  simp only [pair, e, segB_rot, rot_sub]

theorem pair_refl (nfp : ℕ) (n0 n1 : P3) (m : ℤ) (p : P3) : pair nfp n0 n1 (-m) (refl p) = -refl (pair nfp n0 n1 m p) := by
  have e : ∀ q, rot (2 * ((-m : ℤ) : ℝ) * Real.pi / nfp) q = refl (rot (2 * m * Real.pi / nfp) (refl q)) := by
    intro q
    rw [refl_rot, refl_refl]
    congr 1
    push_cast; ring
  simp only [pair, e, segB_refl, refl_sub, refl_refl]
  funext i; fin_cases i <;> simp [refl]

theorem rot_lin (a : ℝ) : ∃ L : P3 →ₗ[ℝ] P3, ∀ v, L v = rot a v :=
  ⟨{ toFun := rot a
     map_add' := fun u v => by funext i; fin_cases i <;> simp [rot] <;> ring
     map_smul' := fun c u => by funext i; fin_cases i <;> simp [rot] <;> ring }, fun _ => rfl⟩

theorem refl_lin : ∃ L : P3 →ₗ[ℝ] P3, ∀ v, L v = refl v :=
  ⟨{ toFun := refl
     map_add' := fun u v => by funext i; fin_cases i <;> simp [refl] <;> ring
     map_smul' := fun c u => by funext i; fin_cases i <;> simp [refl] }, fun _ => rfl⟩

/-- **C130.** The field has `nfp` field periods: at a point rotated by a field period it is the rotated field.  Whatever the currents. -/
theorem C130_field_period (s : RZSurf.Surf) (hnfp : s.nfp ≠ 0) (junk : ℕ → ℝ × ℝ) (g : Grid) (x : ℤ → ℝ) (p : P3) :
    (wireOf s junk g x).B (rot (2 * Real.pi / s.nfp) p) = rot (2 * Real.pi / s.nfp) ((wireOf s junk g x).B p) := by
  obtain ⟨L, hL⟩ := rot_lin (2 * Real.pi / s.nfp)
  rw [wire_sum s hnfp, wire_sum s hnfp, ← hL (∑ t ∈ _, _), map_sum]
  refine Finset.sum_congr rfl fun t _ => ?_
  rw [map_smul, map_sum]
  congr 1
  funext i
  rw [Finset.sum_apply, Finset.sum_apply]
  have := sum_shift (fun m => pair s.nfp (nodes0 s junk g (g.segStart t)) (nodes0 s junk g (g.segEnd t)) (m + 1) (rot (2 * Real.pi / s.nfp) p) i) s.nfp
    (fun I => by rw [show I + (s.nfp : ℤ) + 1 = (I + 1) + s.nfp by ring, pair_per _ hnfp])
  simp only [sub_add_cancel] at this
  rw [this]
  refine Finset.sum_congr rfl fun m _ => ?_
  rw [pair_rot, hL]

/-- **C130.** The field is stellarator symmetric: at `(x, -y, -z)` the field is `(-B_x, B_y, B_z)`.  Whatever the currents. -/
theorem C130_stellsym (s : RZSurf.Surf) (hnfp : s.nfp ≠ 0) (junk : ℕ → ℝ × ℝ) (g : Grid) (x : ℤ → ℝ) (p : P3) :
    (wireOf s junk g x).B ![p 0, -p 1, -p 2] = ![-(wireOf s junk g x).B p 0, (wireOf s junk g x).B p 1, (wireOf s junk g x).B p 2] := by
  have key : (wireOf s junk g x).B (refl p) = -refl ((wireOf s junk g x).B p) := by
    obtain ⟨L, hL⟩ := refl_lin
    rw [wire_sum s hnfp, wire_sum s hnfp, ← hL (∑ t ∈ _, _), map_sum, ← Finset.sum_neg_distrib]
    refine Finset.sum_congr rfl fun t _ => ?_
    rw [map_smul, map_sum, ← smul_neg, ← Finset.sum_neg_distrib]
    congr 1
    funext i
    rw [Finset.sum_apply, Finset.sum_apply]
    have := sum_neg (fun m => pair s.nfp (nodes0 s junk g (g.segStart t)) (nodes0 s junk g (g.segEnd t)) m (refl p) i) s.nfp (fun I => by rw [pair_per _ hnfp])
    rw [← this]
    refine Finset.sum_congr rfl fun m _ => ?_
    rw [pair_refl, hL]
  show (wireOf s junk g x).B (refl p) = _
  rw [key]
  funext i; fin_cases i <;> simp [refl]

/-! ### Violations and witnesses -/

/-- A wire from `(-1, 0, 0)` to `(1, 0, 0)`, one ampere. -/
def openWire : Wire := ⟨[(fun v => if v = 0 then ![-1, 0, 0] else ![1, 0, 0], 1)], [(0, 1)], fun _ => 1⟩

theorem openWire_pieces : openWire.pieces = [(1, ![-1, 0, 0], ![1, 0, 0])] := by
  simp [Wire.pieces, openWire]

theorem openWire_off : openWire.Off ![1, 1, 0] := by
  intro q hq
  rw [openWire_pieces, List.mem_singleton] at hq
  subst hq
  intro t _ h
  have := congrFun h 1
  simp [onSeg] at this

/-- **C129, violated.** "`dB_by_dX[p, j, l]` is the derivative of `B_l` in direction `j`": for currents that are not closed, which a wireframe may carry, the array is the transpose. -/
theorem C129_open_violated : ∃ (w : Wire) (p : P3), w.Off p ∧ ¬ IsJacobian w.B p (w.dB p) := by
  refine ⟨openWire, ![1, 1, 0], openWire_off, fun h => ?_⟩
  have h' := C129_dB openWire _ openWire_off
  have e : ∀ j l, openWire.dB ![1, 1, 0] j l = openWire.dB ![1, 1, 0] l j := fun j l => (h j l).unique (h' j l)
  have hc : ∀ l, curl (transp2 (segDB ![-1, 0, 0] ![1, 0, 0] ![1, 1, 0])) l = 0 := by
    have hd : openWire.dB ![1, 1, 0] = segDB ![-1, 0, 0] ![1, 0, 0] ![1, 1, 0] := by
      rw [dB_sum, openWire_pieces]
      simp
    rw [hd] at e
    intro l
    fin_cases l <;> simp [curl, transp2]
    · rw [e 2 1]; ring
    · rw [e 2 0]; ring
    · rw [e 1 0]; ring
  have hs := seg_curl ![-1, 0, 0] ![1, 0, 0] ![1, 1, 0] (by
    have := openWire_off (1, ![-1, 0, 0], ![1, 0, 0]) (by rw [openWire_pieces]; simp)
    exact this) 0
  rw [hc] at hs
  simp [nrm, dot] at hs
  have : (0 : ℝ) < √((1 + 1) * (1 + 1) + 1) := by positivity
  rcases hs with hs | hs
  · norm_num at hs
  · exact this.ne' hs

/-- **C129, violated.** "If one, will provide derivatives of the first spatial derivatives of the magnetic field with respect to segment currents": `dB_by_dsegmentcurrents(1)` returns what `dB_by_dsegmentcurrents(0)` returns, the
derivatives of the field itself, for every wireframe; they have 3 entries for each point and segment, not 9. -/
theorem C129_derivs_violated (w : Wire) (p : P3) : w.dBdCurrents 1 p = w.segments.map fun s => w.Bi s p := rfl

/-- The boundary of a triangle. -/
def triangle : Wire := ⟨[(fun v => if v = 0 then ![0, 0, 0] else if v = 1 then ![1, 0, 0] else ![0, 1, 0], 1)], [(0, 1), (1, 2), (2, 0)], fun _ => 5⟩

/-- The hypotheses of the theorems of C129 are met by the triangle and the point above it. -/
example : triangle.Closed ∧ triangle.Off ![0, 0, 1] := by
  have e : triangle.pieces = [(5, ![0, 0, 0], ![1, 0, 0]), (5, ![1, 0, 0], ![0, 1, 0]), (5, ![0, 1, 0], ![0, 0, 0])] := by
    simp [Wire.pieces, triangle]
  constructor
  · intro f
    rw [e]
    simp
    ring
  · intro q hq
    rw [e] at hq
    simp only [List.mem_cons, List.not_mem_nil, or_false] at hq
    rcases hq with rfl | rfl | rfl <;> intro t _ h <;> have := congrFun h 2 <;> simp [onSeg] at this

/-- The hypotheses of C130 are met by a loop around one cell of a wireframe with `n_phi = 4`, `n_theta = 6` on any stellarator symmetric surface. -/
example (s : RZSurf.Surf) (hs : s.stellsym = true) (hn : s.nfp ≠ 0) (junk : ℕ → ℝ × ℝ) : (wireOf s junk demo demoCurrents).Closed ∧ (wireOf s junk demo demoCurrents).currents 8 = 1 := by
  refine ⟨C130_closed s hs hn junk demo (by decide) (by decide) _ demo_continuous, ?_⟩
  show demoCurrents 8 = 1
  simp [demoCurrents, addLoop, Grid.cell, Grid.torKey, Grid.polKey, demo, Grid.n, Grid.nTor]

end Simsopt.WField
