import Verif.QSRatio.Model
/-!
# C168: QuasisymmetryRatioResidual
-/
namespace Simsopt.QSRatio
open Simsopt

/-! ### Specification -/

/-- The documented bracket at a point: `(1/B^3) ((N - iota M) B x grad B . grad psi - (M G + N I) B . grad B)` with `N = nfp helicity_n`. -/
noncomputable def bracket (w : Wout) (q : Metric) (s th ph : ℝ) : ℝ :=
  ((w.nfp * q.n - interp w.sHalf w.iotas s * q.m) * crossGrad w s th ph - (q.m * interp w.sHalf w.bvco s + w.nfp * q.n * interp w.sHalf w.buco s) * dotGrad w s th ph) / series w w.bmnc s th ph ^ 3

/-- The flux-surface average on the grid of one field period, `theta = 2 pi i / ntheta`, `phi = (2 pi / nfp) k / nphi`, with weights `|sqrt g|`. -/
noncomputable def average (w : Wout) (q : Metric) (s : ℝ) (f : ℝ → ℝ → ℝ) : ℝ :=
  let th := fun (i : ℕ) => 2 * Real.pi * ((i : ℝ) / q.ntheta)
  let ph := fun (k : ℕ) => 2 * Real.pi * ((k : ℝ) / (q.nphi * w.nfp))
  (((List.range q.ntheta).map fun i => ((List.range q.nphi).map fun k => |series w w.gmnc s (th i) (ph k)| * f (th i) (ph k)).sum).sum) /
    (((List.range q.ntheta).map fun i => ((List.range q.nphi).map fun k => |series w w.gmnc s (th i) (ph k)|).sum).sum)

theorem average_eq (w : Wout) (q : Metric) (s : ℝ) (f : ℝ → ℝ → ℝ) : average w q s f =
  gridSum q (fun i k => |series w w.gmnc s (theta q i) (phi w q k)| * f (theta q i) (phi w q k)) / gridSum q (fun i k => |series w w.gmnc s (theta q i) (phi w q k)|) := by
  have e1 : ∀ i : ℕ, 2 * Real.pi * ((i : ℝ) / q.ntheta) = theta q i := fun i => by unfold theta; rw [mul_div_assoc]
  have e2 : ∀ k : ℕ, 2 * Real.pi * ((k : ℝ) / (q.nphi * w.nfp)) = phi w q k := fun k => by unfold phi; rw [div_mul_eq_div_div, div_mul_eq_mul_div, div_right_comm, ← mul_div_assoc, mul_div_assoc, mul_div_assoc]; ring
  unfold average gridSum
  simp only [e1, e2]

/-- The Jacobian has one sign on the surface and does not vanish. -/
def OneSign (w : Wout) (q : Metric) (s : ℝ) : Prop :=
  (∀ i < q.ntheta, ∀ k < q.nphi, 0 < series w w.gmnc s (theta q i) (phi w q k)) ∨ (∀ i < q.ntheta, ∀ k < q.nphi, series w w.gmnc s (theta q i) (phi w q k) < 0)

/-- At a point of the surface, the field has Boozer angles `vt`, `vp` (with the given partial derivatives) in which it has the standard form, and its strength is a function (with slope `f'`) of `M vt - N vp`:
`B = grad psi x grad vt - iota grad psi x grad vp`, `B = G grad vp + I grad vt + K grad psi`. -/
structure Symmetric (w : Wout) (q : Metric) (s th ph : ℝ) where
  vtth : ℝ
  vtph : ℝ
  vpth : ℝ
  vpph : ℝ
  slope : ℝ
  supu : series w w.bsupumnc s th ph = -dPsi w * (vtph - interp w.sHalf w.iotas s * vpph) / series w w.gmnc s th ph
  supv : series w w.bsupvmnc s th ph = dPsi w * (vtth - interp w.sHalf w.iotas s * vpth) / series w w.gmnc s th ph
  subu : series w w.bsubumnc s th ph = interp w.sHalf w.buco s * vtth + interp w.sHalf w.bvco s * vpth
  subv : series w w.bsubvmnc s th ph = interp w.sHalf w.buco s * vtph + interp w.sHalf w.bvco s * vpph
  dth : dTheta w s th ph = slope * (q.m * vtth - w.nfp * q.n * vpth)
  dph : dPhi w s th ph = slope * (q.m * vtph - w.nfp * q.n * vpph)

/-! ### Lemmas -/

theorem sum_map_congr {l : List ℕ} {f g : ℕ → ℝ} (h : ∀ i ∈ l, f i = g i) : (l.map f).sum = (l.map g).sum := by rw [List.map_congr_left h]

theorem gridSum_congr (q : Metric) {f g : ℕ → ℕ → ℝ} (h : ∀ i < q.ntheta, ∀ k < q.nphi, f i k = g i k) : gridSum q f = gridSum q g := by
  unfold gridSum
  refine sum_map_congr fun i hi => sum_map_congr fun k hk => h i (List.mem_range.1 hi) k (List.mem_range.1 hk)

theorem gridSum_mul (q : Metric) (c : ℝ) (f : ℕ → ℕ → ℝ) : gridSum q (fun i k => c * f i k) = c * gridSum q f := by
  unfold gridSum
  simp only [List.sum_map_mul_left]

theorem sum_nonneg {l : List ℕ} {f : ℕ → ℝ} (h : ∀ i ∈ l, 0 ≤ f i) : 0 ≤ (l.map f).sum := by
  induction l with
  | nil => simp
  | cons a l ih => rw [List.map_cons, List.sum_cons]; have := h a (by simp); have := ih fun i hi => h i (by simp [hi]); linarith

theorem sum_eq_zero {l : List ℕ} {f : ℕ → ℝ} (h : ∀ i ∈ l, 0 ≤ f i) (h0 : (l.map f).sum = 0) : ∀ i ∈ l, f i = 0 := by
  induction l with
  | nil => intro i hi; simp at hi
  | cons a l ih =>
    rw [List.map_cons, List.sum_cons] at h0
    have h1 := h a (by simp)
    have h2 := sum_nonneg fun i hi => h i (List.mem_cons_of_mem a hi)
    intro i hi
    rcases List.mem_cons.1 hi with rfl | hi
    · linarith
    · exact ih (fun i hi => h i (by simp [hi])) (by linarith) i hi

theorem gridSum_nonneg (q : Metric) {f : ℕ → ℕ → ℝ} (h : ∀ i < q.ntheta, ∀ k < q.nphi, 0 ≤ f i k) : 0 ≤ gridSum q f :=
  sum_nonneg fun i hi => sum_nonneg fun k hk => h i (List.mem_range.1 hi) k (List.mem_range.1 hk)

theorem gridSum_eq_zero (q : Metric) {f : ℕ → ℕ → ℝ} (h : ∀ i < q.ntheta, ∀ k < q.nphi, 0 ≤ f i k) (h0 : gridSum q f = 0) : ∀ i < q.ntheta, ∀ k < q.nphi, f i k = 0 := by
  intro i hi k hk
  have h1 := sum_eq_zero (fun i hi => sum_nonneg fun k hk => h i (List.mem_range.1 hi) k (List.mem_range.1 hk)) h0 i (List.mem_range.2 hi)
  exact sum_eq_zero (fun k hk => h i hi k (List.mem_range.1 hk)) h1 k (List.mem_range.2 hk)

theorem gridSum_pos (q : Metric) (ht : 2 ≤ q.ntheta) (hp : 2 ≤ q.nphi) {f : ℕ → ℕ → ℝ} (h : ∀ i < q.ntheta, ∀ k < q.nphi, 0 < f i k) : 0 < gridSum q f := by
  refine lt_of_le_of_ne (gridSum_nonneg q fun i hi k hk => (h i hi k hk).le) fun h0 => ?_
  have := gridSum_eq_zero q (fun i hi k hk => (h i hi k hk).le) h0.symm 0 (by omega) 0 (by omega)
  exact absurd this (h 0 (by omega) 0 (by omega)).ne'

theorem dtheta_pos (q : Metric) (ht : 2 ≤ q.ntheta) : 0 < dtheta q := by
  unfold dtheta theta
  have : (0 : ℝ) < q.ntheta := by exact_mod_cast (by omega : 0 < q.ntheta)
  have := Real.pi_pos
  simp only [Nat.cast_one, Nat.cast_zero, mul_one, mul_zero, zero_div, sub_zero]
  positivity

theorem dphi_pos (w : Wout) (q : Metric) (hn : 0 < w.nfp) (ht : 2 ≤ q.nphi) : 0 < dphi w q := by
  unfold dphi phi
  have : (0 : ℝ) < q.nphi := by exact_mod_cast (by omega : 0 < q.nphi)
  have : (0 : ℝ) < w.nfp := by exact_mod_cast hn
  have := Real.pi_pos
  simp only [Nat.cast_one, Nat.cast_zero, mul_one, mul_zero, zero_div, sub_zero]
  positivity

/-- The radicand of a residual is the weight times the normalised `|sqrt g|`. -/
theorem radicand (w : Wout) (q : Metric) (hn : 0 < w.nfp) (ht : 2 ≤ q.ntheta) (hp : 2 ≤ q.nphi) (s wt : ℝ) (hs : OneSign w q s) :
    vPrime w q s ≠ 0 ∧ ∀ i < q.ntheta, ∀ k < q.nphi, wt * w.nfp * dtheta q * dphi w q / vPrime w q s * series w w.gmnc s (theta q i) (phi w q k) =
      wt * |series w w.gmnc s (theta q i) (phi w q k)| / gridSum q fun i k => |series w w.gmnc s (theta q i) (phi w q k)| := by
  have hc : 0 < (w.nfp : ℝ) * dtheta q * dphi w q := by
    have : (0 : ℝ) < w.nfp := by exact_mod_cast hn
    exact mul_pos (mul_pos this (dtheta_pos q ht)) (dphi_pos w q hn hp)
  rcases hs with hs | hs
  · have e : gridSum q (fun i k => |series w w.gmnc s (theta q i) (phi w q k)|) = gridSum q fun i k => series w w.gmnc s (theta q i) (phi w q k) :=
      gridSum_congr q fun i hi k hk => abs_of_pos (hs i hi k hk)
    have hS := gridSum_pos q ht hp hs
    refine ⟨(mul_pos hc hS).ne', fun i hi k hk => ?_⟩
    rw [e, abs_of_pos (hs i hi k hk)]
    unfold vPrime
    generalize gridSum q (fun i k => series w w.gmnc s (theta q i) (phi w q k)) = S at *
    have := hc.ne'
    have := hS.ne'
    generalize (w.nfp : ℝ) = a at *
    generalize dtheta q = b at *
    generalize dphi w q = c at *
    have ha : a ≠ 0 := by rintro rfl; simp at hc
    have hb : b ≠ 0 := by rintro rfl; simp at hc
    have hcc : c ≠ 0 := by rintro rfl; simp at hc
    field_simp
  · have e : gridSum q (fun i k => |series w w.gmnc s (theta q i) (phi w q k)|) = (-1) * gridSum q fun i k => series w w.gmnc s (theta q i) (phi w q k) := by
      rw [← gridSum_mul]
      exact gridSum_congr q fun i hi k hk => by rw [abs_of_neg (hs i hi k hk)]; ring
    have hS : 0 < gridSum q (fun i k => |series w w.gmnc s (theta q i) (phi w q k)|) := gridSum_pos q ht hp fun i hi k hk => abs_pos.2 (hs i hi k hk).ne
    rw [e] at hS
    have hS' : gridSum q (fun i k => series w w.gmnc s (theta q i) (phi w q k)) ≠ 0 := by intro h; rw [h] at hS; simp at hS
    refine ⟨mul_ne_zero hc.ne' hS', fun i hi k hk => ?_⟩
    rw [e, abs_of_neg (hs i hi k hk)]
    unfold vPrime
    generalize gridSum q (fun i k => series w w.gmnc s (theta q i) (phi w q k)) = S at *
    generalize (w.nfp : ℝ) = a at *
    generalize dtheta q = b at *
    generalize dphi w q = c at *
    have ha : a ≠ 0 := by rintro rfl; simp at hc
    have hb : b ≠ 0 := by rintro rfl; simp at hc
    have hcc : c ≠ 0 := by rintro rfl; simp at hc
    field_simp

theorem residual_sq (w : Wout) (q : Metric) (hn : 0 < w.nfp) (ht : 2 ≤ q.ntheta) (hp : 2 ≤ q.nphi) (s wt : ℝ) (hs : OneSign w q s) (hw : 0 ≤ wt) (i k : ℕ) (hi : i < q.ntheta) (hk : k < q.nphi) :
    residual w q s wt i k * residual w q s wt i k =
      wt * (|series w w.gmnc s (theta q i) (phi w q k)| * bracket w q s (theta q i) (phi w q k) ^ 2) / gridSum q fun i k => |series w w.gmnc s (theta q i) (phi w q k)| := by
  have hr := (radicand w q hn ht hp s wt hs).2 i hi k hk
  have hS : 0 ≤ gridSum q fun i k => |series w w.gmnc s (theta q i) (phi w q k)| := gridSum_nonneg q fun i _ k _ => abs_nonneg _
  have hnn : 0 ≤ wt * |series w w.gmnc s (theta q i) (phi w q k)| / gridSum q fun i k => |series w w.gmnc s (theta q i) (phi w q k)| := div_nonneg (mul_nonneg hw (abs_nonneg _)) hS
  unfold residual bracket
  rw [hr]
  have hsq := Real.mul_self_sqrt hnn
  generalize Real.sqrt _ = r at *
  generalize crossGrad w s (theta q i) (phi w q k) = c at *
  generalize dotGrad w s (theta q i) (phi w q k) = d at *
  generalize series w w.bmnc s (theta q i) (phi w q k) = b at *
  rw [div_mul_div_comm, show ∀ x, r * x * (r * x) = (r * r) * (x * x) from fun x => by ring, hsq]
  rw [div_pow]
  generalize gridSum q _ = S at *
  generalize |series w w.gmnc s (theta q i) (phi w q k)| = g at *
  ring

/-! ### Theorems -/

theorem grid_list (q : Metric) (f : ℕ → ℕ → ℝ) : ((((List.range q.ntheta).map fun i => (List.range q.nphi).map fun k => f i k)).map fun l => (l.map fun x => x * x).sum).sum = gridSum q fun i k => f i k * f i k := by
  unfold gridSum
  rw [List.map_map]
  simp only [Function.comp_def, List.map_map]

theorem sum_flatten_sq (l : List (List ℝ)) : (l.flatten.map fun x => x * x).sum = (l.map fun t => (t.map fun x => x * x).sum).sum := by
  induction l with
  | nil => rfl
  | cons a l ih => rw [List.flatten_cons, List.map_append, List.sum_append, ih, List.map_cons, List.sum_cons]

/-- **C168**: a metric on a grid with at least two points in each angle can be evaluated for every stellarator-symmetric result with Jacobians of one sign; the number of residuals is that of the grid points, the total is the
sum of the squares of the residuals and the sum of the profile; the profile entry of surface `j` is the weight times the documented flux-surface average, the total the documented sum. -/
theorem C168_value (w : Wout) (q : Metric) (hl : w.lasym = false) (hn : 0 < w.nfp) (ht : 2 ≤ q.ntheta) (hp : 2 ≤ q.nphi) (hlen : q.weights.length = q.surfaces.length) (hs : ∀ s ∈ q.surfaces, OneSign w q s)
    (hw : ∀ x ∈ q.weights, 0 ≤ x) : ∃ r, compute w q = .ok r ∧ r.residuals.length = q.surfaces.length * q.ntheta * q.nphi ∧ r.total = (r.residuals.map fun x => x ^ 2).sum ∧ r.total = r.profile.sum ∧
      r.profile = (q.surfaces.zip q.weights).map (fun z => z.2 * average w q z.1 fun th ph => bracket w q z.1 th ph ^ 2) ∧
      r.total = ((q.surfaces.zip q.weights).map fun z => z.2 * average w q z.1 fun th ph => bracket w q z.1 th ph ^ 2).sum := by
  have hV : ¬ ∃ s ∈ q.surfaces, vPrime w q s = 0 := by
    rintro ⟨s, h1, h2⟩
    exact (radicand w q hn ht hp s 1 (hs s h1)).1 h2
  have hprof : ((q.surfaces.zip q.weights).map fun z => (List.range q.ntheta).map fun i => (List.range q.nphi).map fun k => residual w q z.1 z.2 i k).map (fun t => (t.map fun l => (l.map fun x => x * x).sum).sum) =
      (q.surfaces.zip q.weights).map (fun z => z.2 * average w q z.1 fun th ph => bracket w q z.1 th ph ^ 2) := by
    rw [List.map_map]
    refine List.map_congr_left fun z hz => ?_
    obtain ⟨h1, h2⟩ := List.of_mem_zip (a := z.1) (b := z.2) hz
    simp only [Function.comp_apply]
    rw [grid_list, gridSum_congr q fun i hi k hk => residual_sq w q hn ht hp z.1 z.2 (hs _ h1) (hw _ h2) i k hi hk]
    rw [average_eq]
    rw [show (fun i k => z.2 * (|series w w.gmnc z.1 (theta q i) (phi w q k)| * bracket w q z.1 (theta q i) (phi w q k) ^ 2) / gridSum q fun i k => |series w w.gmnc z.1 (theta q i) (phi w q k)|) =
      fun i k => z.2 / (gridSum q fun i k => |series w w.gmnc z.1 (theta q i) (phi w q k)|) * (|series w w.gmnc z.1 (theta q i) (phi w q k)| * bracket w q z.1 (theta q i) (phi w q k) ^ 2) from by funext i k; ring, gridSum_mul]
    ring
  have htot : ((((q.surfaces.zip q.weights).map fun z => (List.range q.ntheta).map fun i => (List.range q.nphi).map fun k => residual w q z.1 z.2 i k).map List.flatten).flatten.map fun x => x * x).sum =
      (((q.surfaces.zip q.weights).map fun z => (List.range q.ntheta).map fun i => (List.range q.nphi).map fun k => residual w q z.1 z.2 i k).map (fun t => (t.map fun l => (l.map fun x => x * x).sum).sum)).sum := by
    rw [sum_flatten_sq, List.map_map]
    congr 1
    exact List.map_congr_left fun t _ => sum_flatten_sq t
  refine ⟨_, by unfold compute; rw [if_neg (by simp [hl]), if_neg (by omega), if_neg hV], ?_, ?_, htot, hprof, htot.trans (congrArg List.sum hprof)⟩
  · simp only [List.length_flatten, List.map_map]
    rw [List.map_congr_left (g := fun _ => q.ntheta * q.nphi)]
    · rw [List.map_const', List.sum_replicate, List.length_zip, hlen, min_self, smul_eq_mul, mul_assoc]
    · intro z _
      simp only [Function.comp_apply, List.length_flatten, List.map_map]
      rw [List.map_congr_left (g := fun _ => q.nphi)]
      · rw [List.map_const', List.sum_replicate, List.length_range, smul_eq_mul]
      · intro i _; simp
  · show (List.map (fun x => x * x) _).sum = (List.map (fun x => x ^ 2) _).sum
    simp only [pow_two]

/-- **C168**: with positive weights and a field strength that does not vanish, the total is zero exactly if the documented ratio condition holds at every grid point of every surface. -/
theorem C168_zero_iff (w : Wout) (q : Metric) (hl : w.lasym = false) (hn : 0 < w.nfp) (ht : 2 ≤ q.ntheta) (hp : 2 ≤ q.nphi) (hlen : q.weights.length = q.surfaces.length) (hs : ∀ s ∈ q.surfaces, OneSign w q s)
    (hw : ∀ x ∈ q.weights, 0 < x) (hB : ∀ s ∈ q.surfaces, ∀ i < q.ntheta, ∀ k < q.nphi, series w w.bmnc s (theta q i) (phi w q k) ≠ 0) : ∃ r, compute w q = .ok r ∧ (r.total = 0 ↔
      ∀ s ∈ q.surfaces, ∀ i < q.ntheta, ∀ k < q.nphi, (w.nfp * q.n - interp w.sHalf w.iotas s * q.m) * crossGrad w s (theta q i) (phi w q k) =
        (q.m * interp w.sHalf w.bvco s + w.nfp * q.n * interp w.sHalf w.buco s) * dotGrad w s (theta q i) (phi w q k)) := by
  obtain ⟨r, h1, -, -, -, -, h2⟩ := C168_value w q hl hn ht hp hlen hs fun x hx => (hw x hx).le
  refine ⟨r, h1, ?_⟩
  rw [h2]
  have hav : ∀ s ∈ q.surfaces, 0 ≤ average w q s fun th ph => bracket w q s th ph ^ 2 := fun s _ =>
    div_nonneg (gridSum_nonneg q fun i _ k _ => mul_nonneg (abs_nonneg _) (sq_nonneg _)) (gridSum_nonneg q fun i _ k _ => abs_nonneg _)
  have hpos : ∀ s ∈ q.surfaces, ∀ i < q.ntheta, ∀ k < q.nphi, 0 < |series w w.gmnc s (theta q i) (phi w q k)| := by
    intro s h i hi k hk
    rcases hs s h with h' | h'
    · exact abs_pos.2 (h' i hi k hk).ne'
    · exact abs_pos.2 (h' i hi k hk).ne
  have hbr : ∀ s ∈ q.surfaces, ((average w q s fun th ph => bracket w q s th ph ^ 2) = 0 ↔ ∀ i < q.ntheta, ∀ k < q.nphi, (w.nfp * q.n - interp w.sHalf w.iotas s * q.m) * crossGrad w s (theta q i) (phi w q k) =
        (q.m * interp w.sHalf w.bvco s + w.nfp * q.n * interp w.sHalf w.buco s) * dotGrad w s (theta q i) (phi w q k)) := by
    intro s h
    have hS := gridSum_pos q ht hp (hpos s h)
    rw [average_eq]
    rw [div_eq_zero_iff, or_iff_left hS.ne']
    constructor
    · intro h0 i hi k hk
      have := gridSum_eq_zero q (fun i _ k _ => mul_nonneg (abs_nonneg _) (sq_nonneg _)) h0 i hi k hk
      rcases mul_eq_zero.1 this with h3 | h3
      · exact absurd h3 (hpos s h i hi k hk).ne'
      · have h4 := pow_eq_zero_iff two_ne_zero |>.1 h3
        unfold bracket at h4
        rcases div_eq_zero_iff.1 h4 with h5 | h5
        · linarith
        · exact absurd h5 (pow_ne_zero _ (hB s h i hi k hk))
    · intro h0
      rw [gridSum_congr q (g := fun _ _ => 0 * 0) fun i hi k hk => by
        have e : bracket w q s (theta q i) (phi w q k) = 0 := by unfold bracket; rw [h0 i hi k hk]; simp
        simp only [e]; simp]
      rw [gridSum_mul]; simp
  constructor
  · intro h0 s h
    obtain ⟨j, hj, rfl⟩ := List.mem_iff_getElem.1 h
    have hj2 : j < q.weights.length := by omega
    have hz : (q.surfaces[j], q.weights[j]) ∈ q.surfaces.zip q.weights := by
      rw [List.mem_iff_getElem]; exact ⟨j, by rw [List.length_zip]; omega, by simp⟩
    have gen : ∀ l : List (ℝ × ℝ), (∀ z ∈ l, 0 ≤ z.2 * average w q z.1 fun th ph => bracket w q z.1 th ph ^ 2) → (l.map fun z => z.2 * average w q z.1 fun th ph => bracket w q z.1 th ph ^ 2).sum = 0 →
        ∀ z ∈ l, (z.2 * average w q z.1 fun th ph => bracket w q z.1 th ph ^ 2) = 0 := by
      intro l
      induction l with
      | nil => intro _ _ z hz; simp at hz
      | cons a l ih =>
        intro hnn h0 z hz
        rw [List.map_cons, List.sum_cons] at h0
        have h3 := hnn a (by simp)
        have h4 : 0 ≤ (l.map fun z => z.2 * average w q z.1 fun th ph => bracket w q z.1 th ph ^ 2).sum := by
          apply List.sum_nonneg
          intro x hx
          obtain ⟨y, hy, rfl⟩ := List.mem_map.1 hx
          exact hnn y (by simp [hy])
        rcases List.mem_cons.1 hz with rfl | hz
        · linarith
        · exact ih (fun y hy => hnn y (by simp [hy])) (by linarith) z hz
    have := gen _ (fun z hz => by
      obtain ⟨a, b⟩ := List.of_mem_zip (a := z.1) (b := z.2) hz
      exact mul_nonneg (hw _ b).le (hav _ a)) h0 _ hz
    rcases mul_eq_zero.1 this with h5 | h5
    · exact absurd h5 (hw _ (List.getElem_mem hj2)).ne'
    · exact (hbr _ h).1 h5
  · intro h0
    apply List.sum_eq_zero
    intro x hx
    obtain ⟨z, hz, rfl⟩ := List.mem_map.1 hx
    obtain ⟨a, -⟩ := List.of_mem_zip (a := z.1) (b := z.2) hz
    rw [(hbr _ a).2 (h0 _ a), mul_zero]

/-- **C168**: for a quasisymmetric field of the requested helicity the residuals vanish. -/
theorem C168_quasisymmetric (w : Wout) (q : Metric) (s wt : ℝ) (i k : ℕ) (h : Symmetric w q s (theta q i) (phi w q k)) : residual w q s wt i k = 0 := by
  have e : crossGrad w s (theta q i) (phi w q k) * (q.n * w.nfp - interp w.sHalf w.iotas s * q.m) -
      dotGrad w s (theta q i) (phi w q k) * (q.m * interp w.sHalf w.bvco s + q.n * w.nfp * interp w.sHalf w.buco s) = 0 := by
    unfold crossGrad dotGrad
    rw [h.supu, h.supv, h.subu, h.subv, h.dth, h.dph]
    generalize series w w.gmnc s (theta q i) (phi w q k) = g
    ring
  unfold residual
  rw [e, mul_zero, zero_div]

theorem sum_deriv {α : Type} (l : List α) (f : α → ℝ → ℝ) (f' : α → ℝ) (t : ℝ) (h : ∀ a, HasDerivAt (f a) (f' a) t) : HasDerivAt (fun t => (l.map fun a => f a t).sum) (l.map f').sum t := by
  induction l with
  | nil => exact hasDerivAt_const t 0
  | cons a l ih => exact (h a).fun_add ih

/-- **C168**: the derivatives of the field strength are its derivatives. -/
theorem C168_derivatives (w : Wout) (s th ph : ℝ) : HasDerivAt (fun t => series w w.bmnc s t ph) (dTheta w s th ph) th ∧ HasDerivAt (fun t => series w w.bmnc s th t) (dPhi w s th ph) ph := by
  constructor
  · refine sum_deriv _ _ _ _ fun a => ?_
    have := ((((hasDerivAt_id th).const_mul a.1.1).sub_const (a.1.2 * ph)).cos).const_mul (interp w.sHalf a.2 s)
    simp only [id] at this
    exact this.congr_deriv (by ring)
  · refine sum_deriv _ _ _ _ fun a => ?_
    have := ((((hasDerivAt_id ph).const_mul a.1.2).const_sub (a.1.1 * th)).cos).const_mul (interp w.sHalf a.2 s)
    simp only [id] at this
    exact this.congr_deriv (by ring)

theorem searchsorted_le (xs : List ℝ) (x : ℝ) : searchsorted xs x ≤ xs.length := by
  unfold searchsorted
  exact (List.takeWhile_sublist _).length_le

/-- **C168**: the radial interpolation reproduces profiles that are linear in `s` everywhere (also outside the half grid, up to the axis and the edge) and the values on the half grid. -/
theorem C168_interpolation (xs ys : List ℝ) (h2 : 2 ≤ xs.length) (hinc : ∀ i j : ℕ, i < j → j < xs.length → xs.getD i 0 < xs.getD j 0) (hl : ys.length = xs.length) :
    (∀ a b, (∀ i < xs.length, ys.getD i 0 = a + b * xs.getD i 0) → ∀ x, interp xs ys x = a + b * x) ∧ (∀ i < xs.length, interp xs ys (xs.getD i 0) = ys.getD i 0) := by
  have key : ∀ x, ∃ hi, 1 ≤ hi ∧ hi < xs.length ∧ hi = min (max (searchsorted xs x) 1) (xs.length - 1) := fun x => ⟨_, by omega, by omega, rfl⟩
  constructor
  · intro a b h x
    obtain ⟨hi, h1, h3, e⟩ := key x
    unfold interp
    simp only
    rw [← e, h hi h3, h (hi - 1) (by omega)]
    have := sub_ne_zero.2 (hinc (hi - 1) hi (by omega) h3).ne'
    field_simp
    ring
  · intro i hi
    have hss : searchsorted xs (xs.getD i 0) = i := by
      have gen : ∀ (l : List ℝ) (i : ℕ), (∀ a b : ℕ, a < b → b < l.length → l.getD a 0 < l.getD b 0) → i < l.length → searchsorted l (l.getD i 0) = i := by
        intro l
        induction l with
        | nil => intro i _ h; simp at h
        | cons y l ih =>
          intro i hinc h
          cases i with
          | zero => unfold searchsorted; rw [List.takeWhile_cons_of_neg (by simp)]; rfl
          | succ i =>
            have h0 : y < l.getD i 0 := by simpa using hinc 0 (i + 1) (by omega) h
            have ih' := ih i (fun a b hab hb => by simpa using hinc (a + 1) (b + 1) (by omega) (by simpa using hb)) (by simpa using h)
            unfold searchsorted at ih' ⊢
            rw [List.getD_cons_succ, List.takeWhile_cons_of_pos (by simpa using h0), List.length_cons, ih']
      exact gen xs i hinc hi
    unfold interp
    rw [hss]
    simp only
    rcases Nat.eq_zero_or_pos i with rfl | h0
    · have e : min (max 0 1) (xs.length - 1) = 1 := by omega
      rw [e]
      simp
    · have e : min (max i 1) (xs.length - 1) = i := by omega
      rw [e]
      have := sub_ne_zero.2 (hinc (i - 1) i (by omega) hi).ne'
      field_simp
      ring

/-- **C168**: the constructor: without weights all weights are 1; a list of weights of another length is refused. -/
theorem C168_make (surfaces : List ℝ) (m n : ℝ) (ntheta nphi : ℕ) (ws : List ℝ) :
    Metric.make surfaces m n none ntheta nphi = .ok ⟨surfaces, List.replicate surfaces.length 1, m, n, ntheta, nphi⟩ ∧
    (ws.length = surfaces.length → Metric.make surfaces m n (some ws) ntheta nphi = .ok ⟨surfaces, ws, m, n, ntheta, nphi⟩) ∧
    (ws.length ≠ surfaces.length → Metric.make surfaces m n (some ws) ntheta nphi = .error .assertionError) := by
  unfold Metric.make
  refine ⟨by simp, fun h => by simp [h], fun h => by simp [h]⟩

/-- **C168** (violated): one grid point in an angle (enough for an axisymmetric field in `phi`) raises IndexError. -/
theorem C168_one_point_violated (w : Wout) (q : Metric) (hl : w.lasym = false) (h : q.ntheta = 1 ∨ q.nphi = 1) : compute w q = .error .indexError := by
  unfold compute
  rw [if_neg (by simp [hl]), if_pos (by omega)]

/-- A concrete case: one surface, `B = 2 + cos th`, `sqrt g = -1`, `iota = 1`, `G = 3`, Boozer angles equal to the angles: the hypotheses hold, and the field is quasi-axisymmetric. -/
noncomputable def exW : Wout :=
  { nfp := 2, lasym := false, phiEdge := 2 * Real.pi, sHalf := [0.25, 0.75], iotas := [1, 1], bvco := [3, 3], buco := [0, 0], modes := [(0, 0), (1, 0)], gmnc := [[-1, -1], [0, 0]], bmnc := [[2, 2], [1, 1]],
    bsubumnc := [[0, 0], [0, 0]], bsubvmnc := [[3, 3], [0, 0]], bsupumnc := [[1, 1], [0, 0]], bsupvmnc := [[1, 1], [0, 0]] }
noncomputable def exQ : Metric := { surfaces := [0.5], weights := [1], m := 1, n := 0, ntheta := 3, nphi := 2 }

theorem ex_interp (s a : ℝ) : interp [0.25, 0.75] [a, a] s = a := by
  have hm : min (max (searchsorted [0.25, 0.75] s) 1) 1 = 1 := by omega
  simp [interp, hm]

theorem ex_values (s th ph : ℝ) : series exW exW.gmnc s th ph = -1 ∧ series exW exW.bmnc s th ph = 2 + Real.cos th ∧ series exW exW.bsupumnc s th ph = 1 ∧ series exW exW.bsupvmnc s th ph = 1 ∧
    series exW exW.bsubumnc s th ph = 0 ∧ series exW exW.bsubvmnc s th ph = 3 ∧ dTheta exW s th ph = -Real.sin th ∧ dPhi exW s th ph = 0 ∧ dPsi exW = -1 := by
  have hp : dPsi exW = -1 := by
    unfold dPsi exW
    have := Real.pi_pos.ne'
    field_simp
  refine ⟨?_, ?_, ?_, ?_, ?_, ?_, ?_, ?_, hp⟩ <;> simp [series, dTheta, dPhi, exW, ex_interp]

example : exW.lasym = false ∧ 0 < exW.nfp ∧ 2 ≤ exQ.ntheta ∧ 2 ≤ exQ.nphi ∧ exQ.weights.length = exQ.surfaces.length ∧ (∀ s ∈ exQ.surfaces, OneSign exW exQ s) ∧ (∀ x ∈ exQ.weights, 0 < x) ∧
    (∀ s ∈ exQ.surfaces, ∀ i < exQ.ntheta, ∀ k < exQ.nphi, series exW exW.bmnc s (theta exQ i) (phi exW exQ k) ≠ 0) ∧ 2 ≤ exW.sHalf.length ∧ ∀ s th ph, Nonempty (Symmetric exW exQ s th ph) := by
  refine ⟨rfl, by simp [exW], by simp [exQ], by simp [exQ], rfl, fun s _ => Or.inr fun i _ k _ => ?_, by simp [exQ], fun s _ i _ k _ => ?_, by simp [exW], fun s th ph => ⟨?_⟩⟩
  · rw [(ex_values _ _ _).1]; norm_num
  · rw [(ex_values _ _ _).2.1]
    have := Real.neg_one_le_cos (theta exQ i)
    intro h; linarith
  · obtain ⟨h1, h2, h3, h4, h5, h6, h7, h8, h9⟩ := ex_values s th ph
    have i1 : interp exW.sHalf exW.iotas s = 1 := ex_interp s 1
    have i2 : interp exW.sHalf exW.buco s = 0 := ex_interp s 0
    have i3 : interp exW.sHalf exW.bvco s = 3 := ex_interp s 3
    exact { vtth := 1, vtph := 0, vpth := 0, vpph := 1, slope := -Real.sin th
            supu := by rw [h3, h9, i1, h1]; norm_num
            supv := by rw [h4, h9, i1, h1]; norm_num
            subu := by rw [h5, i2, i3]; norm_num
            subv := by rw [h6, i2, i3]; norm_num
            dth := by rw [h7]; simp [exQ]
            dph := by rw [h8]; simp [exQ] }

end Simsopt.QSRatio
