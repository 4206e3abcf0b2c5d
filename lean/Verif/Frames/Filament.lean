import Verif.Frames.Torsion
import Mathlib.Analysis.Calculus.ContDiff.Operations
import Mathlib.Topology.Algebra.Module.FiniteDimension
import Mathlib.Analysis.SpecialFunctions.Trigonometric.Deriv
/-!
# C136: filaments of a finite-build coil
-/
namespace Simsopt.Frames
open Simsopt Simsopt.Coils
open Simsopt.Geometry (norm_pos norm_sq norm_eq inner_self_pos Successive)

/-! ### position -/

/-- **C136** In an orthonormal frame, the filament is displaced from the curve orthogonally to the tangent by the distance `√(dn² + db²)`. -/
theorem C136_offset {f : Frame} (h : Orthonormal f) (dn db : ℝ) (gamma : V3) :
    Geometry.inner (filament dn db gamma f - gamma) f.1 = 0 ∧ Geometry.norm (filament dn db gamma f - gamma) = Real.sqrt (dn ^ 2 + db ^ 2) ∧
    Geometry.inner (filament dn db gamma f - gamma) f.2.1 = dn ∧ Geometry.inner (filament dn db gamma f - gamma) f.2.2 = db := by
  have e : filament dn db gamma f - gamma = dn • f.2.1 + db • f.2.2 := by unfold filament; module
  have hnt := inner_comm f.1 f.2.1
  have hbt := inner_comm f.1 f.2.2
  have hbn := inner_comm f.2.1 f.2.2
  rw [e]
  refine ⟨?_, ?_, ?_, ?_⟩
  · rw [inner_add_left, inner_smul_left, inner_smul_left, ← hnt, ← hbt, h.tn, h.tb]; ring
  · rw [norm_eq]; congr 1
    simp only [inner_add_left, inner_add_right, inner_smul_left, inner_smul_right, h.nn, h.bb, h.nb, ← hbn]; ring
  · rw [inner_add_left, inner_smul_left, inner_smul_left, h.nn, ← hbn, h.nb]; ring
  · rw [inner_add_left, inner_smul_left, inner_smul_left, h.bb, h.nb]; ring

/-- **C136** Two filaments of the same curve are at every point at the distance of their shifts. -/
theorem C136_distance {f : Frame} (h : Orthonormal f) (dn db dn' db' : ℝ) (gamma : V3) :
    Geometry.norm (filament dn db gamma f - filament dn' db' gamma f) = Real.sqrt ((dn - dn') ^ 2 + (db - db') ^ 2) := by
  have e : filament dn db gamma f - filament dn' db' gamma f = filament (dn - dn') (db - db') gamma f - gamma := by unfold filament; module
  rw [e]
  exact (C136_offset h _ _ _).2.1

/-! ### the grid -/

theorem shift_eq (num : ℕ) (gap : ℝ) (i : ℕ) : shift num gap i = ((i : ℝ) - ((num : ℝ) - 1) / 2) * gap := by
  unfold shift
  split
  · rename_i h
    have : (num : ℝ) = 2 * ((num / 2 : ℕ) : ℝ) + 1 := by exact_mod_cast (by omega : num = 2 * (num / 2) + 1)
    rw [this]
    have h2 : (2 * ((num / 2 : ℕ) : ℝ) + 1 - 1) / 2 = ((num / 2 : ℕ) : ℝ) := by ring
    rw [h2]
  · ring

/-- **C136** The shifts of a row of filaments are equidistant with the given gap and symmetric about zero. -/
theorem C136_shifts (num : ℕ) (gap : ℝ) (i : ℕ) : shift num gap (i + 1) - shift num gap i = gap ∧
    (i < num → shift num gap (num - 1 - i) = - shift num gap i) := by
  refine ⟨by rw [shift_eq, shift_eq]; push_cast; ring, fun h => ?_⟩
  rw [shift_eq, shift_eq]
  have : ((num - 1 - i : ℕ) : ℝ) = (num : ℝ) - 1 - i := by
    rw [Nat.cast_sub (by omega), Nat.cast_sub (by omega)]; simp
  rw [this]; ring

theorem flatMap_get {α β : Type} (l : List α) (m : ℕ) (F : α → List β) (hF : ∀ x ∈ l, (F x).length = m) (i j : ℕ) (hj : j < m) :
    (l.flatMap F)[i * m + j]? = (l[i]?).bind fun x => (F x)[j]? := by
  induction l generalizing i with
  | nil => simp
  | cons x l ih =>
    have hx := hF x (by simp)
    rw [List.flatMap_cons]
    cases i with
    | zero => rw [Nat.zero_mul, Nat.zero_add, List.getElem?_append_left (by omega)]; simp
    | succ i =>
      rw [List.getElem?_append_right (by rw [hx]; nlinarith), hx, show (i + 1) * m + j - m = i * m + j by rw [Nat.add_mul]; omega,
        ih (fun y hy => hF y (by simp [hy]))]
      simp

/-- **C136** There are `numfilaments_n * numfilaments_b` filaments; the one with number `i * numfilaments_b + j` is displaced by the `i`-th shift in normal and the `j`-th
    in binormal direction. -/
theorem C136_grid (nn nb : ℕ) (gapn gapb : ℝ) : (gridShifts nn nb gapn gapb).length = nn * nb ∧
    ∀ i < nn, ∀ j < nb, (gridShifts nn nb gapn gapb)[i * nb + j]? = some (shift nn gapn i, shift nb gapb j) := by
  constructor
  · simp [gridShifts, List.length_flatMap, Function.comp_def]
  · intro i hi j hj
    unfold gridShifts
    rw [flatMap_get _ nb _ (fun x _ => by simp) i j hj]
    simp [hi, hj]

theorem sum_shift (num : ℕ) (gap : ℝ) : ((List.range num).map fun i => shift num gap i).sum = 0 := by
  have h : ∀ m : ℕ, ∀ n : ℝ, ((List.range m).map fun i : ℕ => ((i : ℝ) - n) * gap).sum = (m * ((m : ℝ) - 1) / 2 - m * n) * gap := by
    intro m n
    induction m with
    | zero => simp
    | succ m ih => rw [List.range_succ, List.map_append, List.sum_append, ih]; simp; ring
  have e : (fun i => shift num gap i) = fun i : ℕ => ((i : ℝ) - ((num : ℝ) - 1) / 2) * gap := funext fun i => shift_eq _ _ _
  rw [e, h]; ring

/-- **C136** The filaments are balanced: at every point, whatever the frame, their mean position is the point on the underlying curve. -/
theorem C136_mean (nn nb : ℕ) (gapn gapb : ℝ) (gamma : V3) (f : Frame) :
    ((gridShifts nn nb gapn gapb).map fun s => filament s.1 s.2 gamma f).sum = ((nn : ℝ) * nb) • gamma := by
  unfold gridShifts
  have inner : ∀ a : ℝ, (((List.range nb).map fun j => (a, shift nb gapb j)).map fun s => filament s.1 s.2 gamma f).sum =
      (nb : ℝ) • gamma + ((nb : ℝ) * a) • f.2.1 := by
    intro a
    have h0 := sum_shift nb gapb
    have h : ∀ l : List ℕ, ((l.map fun j => (a, shift nb gapb j)).map fun s => filament s.1 s.2 gamma f).sum =
        (l.length : ℝ) • gamma + ((l.length : ℝ) * a) • f.2.1 + ((l.map fun i => shift nb gapb i).sum) • f.2.2 := by
      intro l
      induction l with
      | nil => simp
      | cons x l ih =>
        rw [List.map_cons, List.map_cons, List.sum_cons, ih, List.map_cons, List.sum_cons, List.length_cons]
        unfold filament
        push_cast
        module
    rw [h, h0]; simp
  have outer : ∀ l : List ℕ, ((l.flatMap fun i => (List.range nb).map fun j => (shift nn gapn i, shift nb gapb j)).map fun s => filament s.1 s.2 gamma f).sum =
      ((l.length : ℝ) * nb) • gamma + ((nb : ℝ) * (l.map fun i => shift nn gapn i).sum) • f.2.1 := by
    intro l
    induction l with
    | nil => simp
    | cons x l ih =>
      rw [List.flatMap_cons, List.map_append, List.sum_append, ih, inner, List.map_cons, List.sum_cons, List.length_cons]
      push_cast
      module
  rw [outer, sum_shift]; simp

/-! ### derivative along the filament -/

variable {N : ℕ} {i : Fin N}

theorem filament_deriv {x : ℝ → V3} {F : ℝ → Frame} {x' : V3} {F' : Frame} {s : ℝ} (dn db : ℝ) (hx : HasDerivAt x x' s) (hF : HasDerivAt F F' s) :
    HasDerivAt (fun s => filament dn db (x s) (F s)) (filament dn db x' F') s := by
  unfold filament
  have h1 : HasDerivAt (fun s => (F s).2.1) F'.2.1 s := hF.snd.fst
  have h2 : HasDerivAt (fun s => (F s).2.2) F'.2.2 s := hF.snd.snd
  exact (hx.fun_add (h1.const_smul dn)).fun_add (h2.const_smul db)

/-- **C136** `gammadash` of a filament is the derivative of its `gamma` along the curve: for a Frenet frame ... -/
theorem C136_frenet_gammadash (dn db : ℝ) (q : Fin N → ℝ) {x x1 x2 x3 : ℝ → V3} {a a1 : ℝ → ℝ} (h0 : HasDerivAt x (x1 (q i)) (q i))
    (h1 : HasDerivAt x1 (x2 (q i)) (q i)) (h2 : HasDerivAt x2 (x3 (q i)) (q i))
    (ha : HasDerivAt a (a1 (q i)) (q i)) (hne : cross (x1 (q i)) (x2 (q i)) ≠ 0) :
    HasDerivAt (fun s => filament dn db (x s) (frenetFrame (N := 1) 0 (fun _ => x s, fun _ => x1 s, fun _ => x2 s, fun _ => a s)))
      (filament dn db ((x1 ∘ q) i) (frenetFrameDash i (x ∘ q) (x1 ∘ q) (x2 ∘ q) (x3 ∘ q) (a ∘ q) (a1 ∘ q))) (q i) :=
  filament_deriv dn db h0 (C135_frenet_dash q h1 h2 ha hne)

/-- **C136** ... and for a centroid frame, provided the samples of the tangent vector have mean zero. -/
theorem C136_centroid_gammadash (dn db : ℝ) (q : Fin N → ℝ) {x x1 x2 : ℝ → V3} {a a1 : ℝ → ℝ} (h0 : HasDerivAt x (x1 (q i)) (q i))
    (h1 : HasDerivAt x1 (x2 (q i)) (q i))
    (ha : HasDerivAt a (a1 (q i)) (q i)) (hmean : ∑ j, x1 (q j) = 0) (hne : cross (x (q i) - mean (x ∘ q)) (x1 (q i)) ≠ 0) :
    HasDerivAt (fun s => filament dn db (x s) (rotate (a s) (Geometry.tangent (x1 s)) (centroidNormal (x s - mean (x ∘ q)) (Geometry.tangent (x1 s)))))
      (filament dn db ((x1 ∘ q) i) (centroidFrameDash i (x ∘ q) (x1 ∘ q) (x2 ∘ q) (a ∘ q) (a1 ∘ q))) (q i) :=
  filament_deriv dn db h0 (C135_centroid_dash q h0 h1 ha hmean hne)

/-! ### gradients -/

theorem gradV_pair (φ : (Fin N → V3) → ℝ) (p δ : Fin N → V3) : pair (gradV φ p) δ = fderiv ℝ φ p δ := by
  have h : δ = ∑ j, ((δ j).1 • (Pi.single j ((1, 0, 0) : V3) : Fin N → V3) + (δ j).2.1 • (Pi.single j ((0, 1, 0) : V3) : Fin N → V3) +
      (δ j).2.2 • (Pi.single j ((0, 0, 1) : V3) : Fin N → V3)) := by
    funext k
    rw [Finset.sum_apply, Finset.sum_eq_single k]
    · simp
    · intro j _ hj
      simp [hj.symm]
    · intro h; exact absurd (Finset.mem_univ k) h
  conv_rhs => rw [h]
  rw [map_sum]
  unfold pair gradV Geometry.inner
  refine Finset.sum_congr rfl fun j _ => ?_
  rw [map_add, map_add, map_smul, map_smul, map_smul]
  simp only [smul_eq_mul]; ring

theorem gradR_pair (φ : (Fin N → ℝ) → ℝ) (p δ : Fin N → ℝ) : pairR (gradR φ p) δ = fderiv ℝ φ p δ := by
  have h : δ = ∑ j, (δ j) • Pi.single j (1 : ℝ) := by
    funext k
    rw [Finset.sum_apply, Finset.sum_eq_single k]
    · simp
    · intro j _ hj
      simp [hj.symm]
    · intro h; exact absurd (Finset.mem_univ k) h
  conv_rhs => rw [h]
  rw [map_sum]
  unfold pairR gradR
  refine Finset.sum_congr rfl fun j _ => ?_
  rw [map_smul]
  simp only [smul_eq_mul]; ring

theorem pair_add (u v w : Fin N → V3) : pair (u + v) w = pair u w + pair v w := by
  unfold pair
  rw [← Finset.sum_add_distrib]
  exact Finset.sum_congr rfl fun i _ => inner_add_left _ _ _

/-- pairing the filament with `v`: the curve part and the frame part -/
theorem pair_filament (dn db : ℝ) (v g : Fin N → V3) (F : Fin N → Frame) :
    pair v (fun i => filament dn db (g i) (F i)) = pair v g + cotangent dn db v F := by
  unfold pair cotangent
  rw [← Finset.sum_add_distrib]
  refine Finset.sum_congr rfl fun i _ => ?_
  unfold filament
  rw [inner_add_right, inner_add_right, inner_smul_right, inner_smul_right, inner_smul_left, inner_smul_left]
  have : Geometry.inner 0 (F i).1 = 0 := by simp [Geometry.inner]
  rw [this]; ring

section
variable {E : Type*} [NormedAddCommGroup E] [NormedSpace ℝ E] {p : E}

theorem cotangent_diff (dn db : ℝ) (v : Fin N → V3) {F : E → Fin N → Frame} (hF : ∀ i, DifferentiableAt ℝ (fun e => F e i) p) :
    DifferentiableAt ℝ (fun e => cotangent dn db v (F e)) p := by
  unfold cotangent
  refine DifferentiableAt.fun_sum fun i _ => ?_
  have h := hF i
  have h1 : DifferentiableAt ℝ (fun e => (F e i).1) p := h.fst
  have h2 : DifferentiableAt ℝ (fun e => (F e i).2.1) p := h.snd.fst
  have h3 : DifferentiableAt ℝ (fun e => (F e i).2.2) p := h.snd.snd
  exact ((diff_inner (differentiableAt_const _) h1).fun_add (diff_inner (differentiableAt_const _) h2)).fun_add (diff_inner (differentiableAt_const _) h3)

theorem pair_hasFDeriv (v : Fin N → V3) {G : E → Fin N → V3} {G' : E →L[ℝ] Fin N → V3} (hG : HasFDerivAt G G' p) :
    ∃ L : E →L[ℝ] ℝ, HasFDerivAt (fun e => pair v (G e)) L p ∧ ∀ e, L e = pair v (G' e) := by
  let M : (Fin N → V3) →L[ℝ] ℝ := LinearMap.toContinuousLinearMap
    { toFun := fun w => pair v w
      map_add' := fun a b => by unfold pair; rw [← Finset.sum_add_distrib]; exact Finset.sum_congr rfl fun i _ => inner_add_right _ _ _
      map_smul' := fun r a => by
        unfold pair; rw [RingHom.id_apply, smul_eq_mul, Finset.mul_sum]; exact Finset.sum_congr rfl fun i _ => inner_smul_right _ _ _ }
  exact ⟨M.comp G', HasFDerivAt.comp p M.hasFDerivAt hG, fun e => rfl⟩
end

theorem frenetFrame_diff {p : (Fin N → V3) × (Fin N → V3) × (Fin N → V3) × (Fin N → ℝ)} (h : cross (p.2.1 i) (p.2.2.1 i) ≠ 0) : DifferentiableAt ℝ (frenetFrame i) p := by
  have h1 : DifferentiableAt ℝ (fun q : (Fin N → V3) × (Fin N → V3) × (Fin N → V3) × (Fin N → ℝ) => (q.2.1 i, q.2.2.1 i, q.2.2.2 i)) p := by fun_prop
  exact DifferentiableAt.comp (g := frenetAt) p (frenetAt_diff h) h1

theorem centroidFrame_diff {p : (Fin N → V3) × (Fin N → V3) × (Fin N → ℝ)} (h : cross (p.1 i - mean p.1) (p.2.1 i) ≠ 0) : DifferentiableAt ℝ (centroidFrame i) p := by
  have h0 : DifferentiableAt ℝ (fun q : (Fin N → V3) × (Fin N → V3) × (Fin N → ℝ) => mean q.1) p := by unfold mean; fun_prop
  have h1 : DifferentiableAt ℝ (fun q : (Fin N → V3) × (Fin N → V3) × (Fin N → ℝ) => (q.1 i - mean q.1, q.2.1 i, q.2.2 i)) p := by fun_prop
  exact DifferentiableAt.comp (g := centroidAt) p (centroidAt_diff h) h1

/-- The pull-backs `P` are those of arrays with the derivatives `D0`, ..., `DA1` with respect to the dofs. -/
structure PullsOf {E : Type} [NormedAddCommGroup E] [NormedSpace ℝ E] (P : Pulls N E) (D0 D1 D2 D3 : E →L[ℝ] Fin N → V3) (DA DA1 : E →L[ℝ] Fin N → ℝ) : Prop where
  d0 : ∀ u e, P.d0 u e = pair u (D0 e)
  d1 : ∀ u e, P.d1 u e = pair u (D1 e)
  d2 : ∀ u e, P.d2 u e = pair u (D2 e)
  d3 : ∀ u e, P.d3 u e = pair u (D3 e)
  al : ∀ u e, P.al u e = pairR u (DA e)
  ald : ∀ u e, P.ald u e = pairR u (DA1 e)

variable {E : Type} [NormedAddCommGroup E] [NormedSpace ℝ E] {P : Pulls N E} {D0 D1 D2 D3 : E →L[ℝ] Fin N → V3} {DA DA1 : E →L[ℝ] Fin N → ℝ}
  {G0 G1 G2 G3 : E → Fin N → V3} {A A1 : E → Fin N → ℝ} {c : E}

/-- **C136** `dgamma_by_dcoeff_vjp(v)` of a filament in a Frenet frame is the gradient of `Σ v·gamma` with respect to all dofs of the curve and of the rotation. -/
theorem C136_frenet_vjp (dn db : ℝ) (v : Fin N → V3) (hP : PullsOf P D0 D1 D2 D3 DA DA1) (h0 : HasFDerivAt G0 D0 c) (h1 : HasFDerivAt G1 D1 c)
    (h2 : HasFDerivAt G2 D2 c) (hA : HasFDerivAt A DA c) (hne : ∀ i, cross (G1 c i) (G2 c i) ≠ 0) :
    ∃ L : E →L[ℝ] ℝ, HasFDerivAt (fun c => pair v fun i => filament dn db (G0 c i) (frenetFrame i (G0 c, G1 c, G2 c, A c))) L c ∧
      ∀ e, L e = filamentVjp P v (frenetVjp dn db v (G0 c) (G1 c) (G2 c) (A c) 0) (frenetVjp dn db v (G0 c) (G1 c) (G2 c) (A c) 1)
        (some (frenetVjp dn db v (G0 c) (G1 c) (G2 c) (A c) 2)) (frenetVjpAlpha dn db v (G0 c) (G1 c) (G2 c) (A c)) e := by
  obtain ⟨L0, hL0, hL0e⟩ := pair_hasFDeriv v h0
  let Φ : (Fin N → V3) × (Fin N → V3) × (Fin N → V3) × (Fin N → ℝ) → ℝ := fun q => cotangent dn db v fun i => frenetFrame i q
  have hΦ : HasFDerivAt Φ (fderiv ℝ Φ (G0 c, G1 c, G2 c, A c)) (G0 c, G1 c, G2 c, A c) :=
    (cotangent_diff dn db v fun i => frenetFrame_diff (p := (G0 c, G1 c, G2 c, A c)) (hne i)).hasFDerivAt
  generalize hM : fderiv ℝ Φ (G0 c, G1 c, G2 c, A c) = M at hΦ
  have hc := HasFDerivAt.comp (g := Φ) (f := fun c => (G0 c, G1 c, G2 c, A c)) c hΦ (h0.prodMk (h1.prodMk (h2.prodMk hA)))
  refine ⟨L0 + M.comp (D0.prod (D1.prod (D2.prod DA))), ?_, fun e => ?_⟩
  · simp only [pair_filament]
    exact hL0.add hc
  · have k0 : fderiv ℝ (fun y => Φ (y, G1 c, G2 c, A c)) (G0 c) (D0 e) = M (D0 e, 0, 0, 0) := by
      have hp := HasFDerivAt.comp (g := Φ) (f := fun y => (y, G1 c, G2 c, A c)) (G0 c) hΦ ((hasFDerivAt_id (G0 c)).prodMk (hasFDerivAt_const _ _))
      have := hp.fderiv
      rw [show (fun y => Φ (y, G1 c, G2 c, A c)) = Φ ∘ fun y => (y, G1 c, G2 c, A c) from rfl, this]; rfl
    have k1 : fderiv ℝ (fun y => Φ (G0 c, y, G2 c, A c)) (G1 c) (D1 e) = M (0, D1 e, 0, 0) := by
      have hp := HasFDerivAt.comp (g := Φ) (f := fun y => (G0 c, y, G2 c, A c)) (G1 c) hΦ
        ((hasFDerivAt_const _ _).prodMk ((hasFDerivAt_id (G1 c)).prodMk (hasFDerivAt_const _ _)))
      have := hp.fderiv
      rw [show (fun y => Φ (G0 c, y, G2 c, A c)) = Φ ∘ fun y => (G0 c, y, G2 c, A c) from rfl, this]; rfl
    have k2 : fderiv ℝ (fun y => Φ (G0 c, G1 c, y, A c)) (G2 c) (D2 e) = M (0, 0, D2 e, 0) := by
      have hp := HasFDerivAt.comp (g := Φ) (f := fun y => (G0 c, G1 c, y, A c)) (G2 c) hΦ
        ((hasFDerivAt_const _ _).prodMk ((hasFDerivAt_const _ _).prodMk ((hasFDerivAt_id (G2 c)).prodMk (hasFDerivAt_const _ _))))
      have := hp.fderiv
      rw [show (fun y => Φ (G0 c, G1 c, y, A c)) = Φ ∘ fun y => (G0 c, G1 c, y, A c) from rfl, this]; rfl
    have k3 : fderiv ℝ (fun y => Φ (G0 c, G1 c, G2 c, y)) (A c) (DA e) = M (0, 0, 0, DA e) := by
      have hp := HasFDerivAt.comp (g := Φ) (f := fun y => (G0 c, G1 c, G2 c, y)) (A c) hΦ
        ((hasFDerivAt_const _ _).prodMk ((hasFDerivAt_const _ _).prodMk ((hasFDerivAt_const _ _).prodMk (hasFDerivAt_id (A c)))))
      have := hp.fderiv
      rw [show (fun y => Φ (G0 c, G1 c, G2 c, y)) = Φ ∘ fun y => (G0 c, G1 c, G2 c, y) from rfl, this]; rfl
    have hsum : M (D0 e, D1 e, D2 e, DA e) = M (D0 e, 0, 0, 0) + M (0, D1 e, 0, 0) + M (0, 0, D2 e, 0) + M (0, 0, 0, DA e) := by
      rw [← map_add, ← map_add, ← map_add]; simp
    unfold filamentVjp frenetVjp frenetVjpAlpha
    simp only [hP.d0, hP.d1, hP.d2, hP.al, pair_add, gradV_pair, gradR_pair]
    have ee : (L0 + M.comp (D0.prod (D1.prod (D2.prod DA)))) e = pair v (D0 e) + M (D0 e, D1 e, D2 e, DA e) := by rw [← hL0e]; rfl
    rw [ee, hsum, ← k0, ← k1, ← k2, ← k3]
    ring

/-- **C136** ... and of a filament in a centroid frame. -/
theorem C136_centroid_vjp (dn db : ℝ) (v : Fin N → V3) (hP : PullsOf P D0 D1 D2 D3 DA DA1) (h0 : HasFDerivAt G0 D0 c) (h1 : HasFDerivAt G1 D1 c)
    (hA : HasFDerivAt A DA c) (hne : ∀ i, cross (G0 c i - mean (G0 c)) (G1 c i) ≠ 0) :
    ∃ L : E →L[ℝ] ℝ, HasFDerivAt (fun c => pair v fun i => filament dn db (G0 c i) (centroidFrame i (G0 c, G1 c, A c))) L c ∧
      ∀ e, L e = filamentVjp P v (centroidVjp dn db v (G0 c) (G1 c) (A c) 0) (centroidVjp dn db v (G0 c) (G1 c) (A c) 1)
        none (centroidVjpAlpha dn db v (G0 c) (G1 c) (A c)) e := by
  obtain ⟨L0, hL0, hL0e⟩ := pair_hasFDeriv v h0
  let Φ : (Fin N → V3) × (Fin N → V3) × (Fin N → ℝ) → ℝ := fun q => cotangent dn db v fun i => centroidFrame i q
  have hΦ : HasFDerivAt Φ (fderiv ℝ Φ (G0 c, G1 c, A c)) (G0 c, G1 c, A c) :=
    (cotangent_diff dn db v fun i => centroidFrame_diff (p := (G0 c, G1 c, A c)) (hne i)).hasFDerivAt
  generalize hM : fderiv ℝ Φ (G0 c, G1 c, A c) = M at hΦ
  have hc := HasFDerivAt.comp (g := Φ) (f := fun c => (G0 c, G1 c, A c)) c hΦ (h0.prodMk (h1.prodMk hA))
  refine ⟨L0 + M.comp (D0.prod (D1.prod DA)), ?_, fun e => ?_⟩
  · simp only [pair_filament]
    exact hL0.add hc
  · have k0 : fderiv ℝ (fun y => Φ (y, G1 c, A c)) (G0 c) (D0 e) = M (D0 e, 0, 0) := by
      have hp := HasFDerivAt.comp (g := Φ) (f := fun y => (y, G1 c, A c)) (G0 c) hΦ ((hasFDerivAt_id (G0 c)).prodMk (hasFDerivAt_const _ _))
      have := hp.fderiv
      rw [show (fun y => Φ (y, G1 c, A c)) = Φ ∘ fun y => (y, G1 c, A c) from rfl, this]; rfl
    have k1 : fderiv ℝ (fun y => Φ (G0 c, y, A c)) (G1 c) (D1 e) = M (0, D1 e, 0) := by
      have hp := HasFDerivAt.comp (g := Φ) (f := fun y => (G0 c, y, A c)) (G1 c) hΦ
        ((hasFDerivAt_const _ _).prodMk ((hasFDerivAt_id (G1 c)).prodMk (hasFDerivAt_const _ _)))
      have := hp.fderiv
      rw [show (fun y => Φ (G0 c, y, A c)) = Φ ∘ fun y => (G0 c, y, A c) from rfl, this]; rfl
    have k3 : fderiv ℝ (fun y => Φ (G0 c, G1 c, y)) (A c) (DA e) = M (0, 0, DA e) := by
      have hp := HasFDerivAt.comp (g := Φ) (f := fun y => (G0 c, G1 c, y)) (A c) hΦ
        ((hasFDerivAt_const _ _).prodMk ((hasFDerivAt_const _ _).prodMk (hasFDerivAt_id (A c))))
      have := hp.fderiv
      rw [show (fun y => Φ (G0 c, G1 c, y)) = Φ ∘ fun y => (G0 c, G1 c, y) from rfl, this]; rfl
    have hsum : M (D0 e, D1 e, DA e) = M (D0 e, 0, 0) + M (0, D1 e, 0) + M (0, 0, DA e) := by
      rw [← map_add, ← map_add]; simp
    unfold filamentVjp centroidVjp centroidVjpAlpha
    simp only [hP.d0, hP.d1, hP.al, pair_add, gradV_pair, gradR_pair]
    have ee : (L0 + M.comp (D0.prod (D1.prod DA))) e = pair v (D0 e) + M (D0 e, D1 e, DA e) := by rw [← hL0e]; rfl
    rw [ee, hsum, ← k0, ← k1, ← k3]
    ring

end Simsopt.Frames
