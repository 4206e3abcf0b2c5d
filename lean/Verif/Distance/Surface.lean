import Verif.Distance.Objective
import Verif.Coils.FieldDeriv
/-!
# C59 continued: CurveSurfaceDistance, gradients, penalties that vanish, failures
-/
namespace Simsopt.Distance
open Simsopt.Coils

/-- `cs_distance_pure` (curveobjectives.py L247-256): `jnp.mean` over an array of shape (points of the curve, points of the surface). -/
noncomputable def csPure (A S : Rows) (t : ℝ) : ℝ := (A.map fun a => (S.map fun b => term t a b).sum).sum / (A.length * S.length)

/-- A CurveSurfaceDistance object (L279-289).  It depends on the curves and not on the surface. -/
structure CS where
  curves : List Rows
  surf : Rows
  dmin : ℝ
  cand : Option (List (Nat × Nat))

/-- `__init__` (L279-289). -/
def CS.init (cs : List Rows) (surf : Rows) (dmin : ℝ) : CS := { curves := cs, surf := surf, dmin := dmin, cand := none }

/-- `recompute_bell` (L291-292), rung when the curves change. -/
def CS.change (s : CS) (cs : List Rows) : CS := { s with curves := cs, cand := none }

/-- The dofs of the surface change: no bell, since the surface is not among `depends_on` (L289). -/
def CS.moveSurface (s : CS) (surf : Rows) : CS := { s with surf := surf }

/-- `compute_candidates` (L294-298). -/
inductive CS.Compute : CS → CS → List (Nat × Nat) → Prop
  | cached (s : CS) (r) : s.cand = some r → CS.Compute s s r
  | fresh (s : CS) (r) : s.cand = none → CDist (clouds s.curves) [s.surf.map Prod.fst] s.dmin r → CS.Compute s { s with cand := some r } r

/-- `J` (L314-326). -/
noncomputable def CS.sum (s : CS) (r : List (Nat × Nat)) : ℝ := r.foldl (fun res p => res + csPure (row s.curves p.1) s.surf s.dmin) 0

def CS.JReturns (s : CS) (v : ℝ) : Prop := ∃ s' r, CS.Compute s s' r ∧ v = s'.sum r

/-- What can happen to the object; `moved` says whether the surface may move after candidates have been computed. -/
inductive CS.Step (moved : Bool) : CS → CS → Prop
  | change (s : CS) (cs : List Rows) : cs.length = s.curves.length → CS.Step moved s (s.change cs)
  | moveSurface (s : CS) (surf : Rows) : (moved = true ∨ s.cand = none) → CS.Step moved s (s.moveSurface surf)
  | eval (s s' : CS) (r) : CS.Compute s s' r → CS.Step moved s s'

inductive CS.Reachable (moved : Bool) (cs : List Rows) (surf : Rows) (dmin : ℝ) : CS → Prop
  | init : CS.Reachable moved cs surf dmin (CS.init cs surf dmin)
  | step (s s') : CS.Reachable moved cs surf dmin s → CS.Step moved s s' → CS.Reachable moved cs surf dmin s'

theorem CS.Reachable.fresh {cs surf dmin} {s : CS} (h : CS.Reachable false cs surf dmin s) :
    s.dmin = dmin ∧ s.curves.length = cs.length ∧ ∀ r, s.cand = some r → CDist (clouds s.curves) [s.surf.map Prod.fst] s.dmin r := by
  induction h with
  | init => exact ⟨rfl, rfl, by intro r hr; cases hr⟩
  | step s s' _ hs ih =>
    obtain ⟨h1, h3, h4⟩ := ih
    cases hs with
    | change cs' hl => exact ⟨h1, hl.trans h3, by intro r hr; cases hr⟩
    | moveSurface surf' hm =>
      rcases hm with hm | hm
      · cases hm
      · refine ⟨h1, h3, ?_⟩
        intro r hr
        replace hr : s.cand = some r := hr
        rw [hm] at hr; cases hr
    | eval _ r hc =>
      cases hc with
      | cached _ h => exact ⟨h1, h3, h4⟩
      | fresh _ hn hp => exact ⟨h1, h3, by intro r' hr; cases hr; exact hp⟩

theorem csPure_eq_zero (A S : Rows) (t : ℝ) (ht : 0 < t) (h : ¬Near (A.map Prod.fst) (S.map Prod.fst) t) : csPure A S t = 0 :=
  ccPure_eq_zero A S t ht h

/-- **C59.** `CurveSurfaceDistance.J()` is the documented sum over all curves, for every history in which the surface does not move after
the candidates have been computed (evaluations and changes of curves are arbitrary). -/
theorem C59_surface_J (cs : List Rows) (surf : Rows) (dmin : ℝ) (hd : 0 < dmin) (s : CS) (h : CS.Reachable false cs surf dmin s) (v : ℝ)
    (hv : s.JReturns v) : v = ∑ i ∈ Finset.range cs.length, csPure (row s.curves i) s.surf dmin := by
  classical
  obtain ⟨h1, h3, h4⟩ := h.fresh
  obtain ⟨s', r, hc, rfl⟩ := hv
  have hp : s'.curves = s.curves ∧ s'.surf = s.surf ∧ s'.dmin = s.dmin ∧ CDist (clouds s.curves) [s.surf.map Prod.fst] s.dmin r := by
    cases hc with
    | cached _ hc => exact ⟨rfl, rfl, rfl, h4 r hc⟩
    | fresh _ hn hp => exact ⟨rfl, rfl, rfl, hp⟩
  obtain ⟨e1, e2, e3, hp⟩ := hp
  rw [CS.sum, foldl_add, zero_add, e1, e2, e3, h1]
  rw [h1] at hp
  obtain ⟨hn, hm⟩ := C58_two_collections _ _ dmin hd r hp
  have hlen : (clouds s.curves).length = cs.length := by simp [clouds, h3]
  have hperm : r.Perm ((allPairs cs.length 1).filter fun p => decide (Near (cloud (clouds s.curves) p.1) (cloud [s.surf.map Prod.fst] p.2) dmin)) := by
    rw [List.perm_ext_iff_of_nodup hn ((nodup_allPairs _ _).filter _)]
    rintro ⟨i, j⟩
    rw [hm, List.mem_filter, mem_allPairs, hlen]
    simp only [decide_eq_true_eq, List.length_singleton]
    tauto
  rw [(hperm.map _).sum_eq, sum_filter _ (fun p : Nat × Nat => Near (cloud (clouds s.curves) p.1) (cloud [s.surf.map Prod.fst] p.2) dmin)]
  · have : allPairs cs.length 1 = (List.range cs.length).map fun i => (i, 0) := by
      unfold allPairs
      rw [List.map_eq_flatMap]
      rfl
    rw [this, List.map_map, ← list_range_sum]
    rfl
  · rintro ⟨i, j⟩ hij hnear
    obtain ⟨_, hj⟩ := (mem_allPairs _ _ _ _).mp hij
    have hj : j = 0 := by omega
    subst hj
    rw [cloud_clouds] at hnear
    exact csPure_eq_zero _ _ _ hd hnear

/-! ### When the penalty vanishes -/

theorem sum_sum_eq_zero_iff (A B : Rows) (t : ℝ) :
    (A.map fun a => (B.map fun b => term t a b).sum).sum = 0 ↔ ∀ a ∈ A, ∀ b ∈ B, term t a b = 0 := by
  have hnn : ∀ a b, 0 ≤ term t a b := by
    intro a b
    unfold term
    exact mul_nonneg (mul_nonneg (Real.sqrt_nonneg _) (Real.sqrt_nonneg _)) (sq_nonneg _)
  constructor
  · intro h a ha b hb
    have h1 : ∀ x ∈ A.map (fun a => (B.map fun b => term t a b).sum), 0 ≤ x := by
      intro x hx
      obtain ⟨a, _, rfl⟩ := List.mem_map.mp hx
      apply List.sum_nonneg
      intro y hy
      obtain ⟨b, _, rfl⟩ := List.mem_map.mp hy
      exact hnn a b
    have h2 := List.all_zero_of_le_zero_le_of_sum_eq_zero h1 h (List.mem_map_of_mem ha)
    have h3 : ∀ x ∈ B.map (fun b => term t a b), 0 ≤ x := by
      intro y hy
      obtain ⟨b, _, rfl⟩ := List.mem_map.mp hy
      exact hnn a b
    exact List.all_zero_of_le_zero_le_of_sum_eq_zero h3 h2 (List.mem_map_of_mem hb)
  · intro h
    apply List.sum_eq_zero
    intro x hx
    obtain ⟨a, ha, rfl⟩ := List.mem_map.mp hx
    apply List.sum_eq_zero
    intro y hy
    obtain ⟨b, hb, rfl⟩ := List.mem_map.mp hy
    exact h a ha b hb

theorem ccPure_nonneg (A B : Rows) (t : ℝ) : 0 ≤ ccPure A B t := by
  unfold ccPure
  apply div_nonneg _ (by positivity)
  apply List.sum_nonneg
  intro x hx
  obtain ⟨a, _, rfl⟩ := List.mem_map.mp hx
  apply List.sum_nonneg
  intro y hy
  obtain ⟨b, _, rfl⟩ := List.mem_map.mp hy
  unfold term
  exact mul_nonneg (mul_nonneg (Real.sqrt_nonneg _) (Real.sqrt_nonneg _)) (sq_nonneg _)

theorem ccPure_zero_iff (A B : Rows) (t : ℝ) (ht : 0 < t) (hA : ∀ a ∈ A, a.2 ≠ 0) (hB : ∀ b ∈ B, b.2 ≠ 0) :
    ccPure A B t = 0 ↔ ¬Near (A.map Prod.fst) (B.map Prod.fst) t := by
  constructor
  · rintro h ⟨x, hx, y, hy, hd⟩
    obtain ⟨a, ha, rfl⟩ := List.mem_map.mp hx
    obtain ⟨b, hb, rfl⟩ := List.mem_map.mp hy
    have hl : ((A.length : ℝ) * B.length) ≠ 0 := by
      have h1 := List.length_pos_of_mem ha
      have h2 := List.length_pos_of_mem hb
      positivity
    have h0 := (sum_sum_eq_zero_iff A B t).mp ((div_eq_zero_iff.mp h).resolve_right hl) a ha b hb
    have hlt := (dist_lt_iff _ _ _ ht).mpr hd
    have p1 := Geometry.norm_pos _ (hA a ha)
    have p2 := Geometry.norm_pos _ (hB b hb)
    have p3 : 0 < max (t - dist a.1 b.1) 0 := lt_max_of_lt_left (by linarith)
    have : 0 < term t a b := by unfold term; positivity
    exact absurd h0 this.ne'
  · exact ccPure_eq_zero A B t ht

/-- **C59.** With non-degenerate tangents, `CurveCurveDistance.J()` is never negative, and it is zero exactly when no two points of two
different curves are closer than `minimum_distance`. -/
theorem C59_J_zero_iff (cs : List Rows) (dmin : ℝ) (hd : 0 < dmin) (s : CC) (h : CC.Reachable cs dmin none s) (v : ℝ)
    (hv : s.JReturns v) (hreg : ∀ i, ∀ a ∈ row s.curves i, a.2 ≠ 0) :
    0 ≤ v ∧ (v = 0 ↔ ∀ d ∈ pairDists s.curves s.curves.length, dmin ≤ d) := by
  obtain ⟨h1, h2, h3, h4⟩ := h.fresh
  have hJ := C59_J_all_pairs cs dmin hd none s h v hv
  have hnn : ∀ i j, 0 ≤ (if j < orElse none cs.length then ccPure (row s.curves i) (row s.curves j) dmin else 0) := by
    intro i j; split
    · exact ccPure_nonneg _ _ _
    · exact le_rfl
  have hin : ∀ i, 0 ≤ ∑ j ∈ Finset.range i, (if j < orElse none cs.length then ccPure (row s.curves i) (row s.curves j) dmin else 0) :=
    fun i => Finset.sum_nonneg fun j _ => hnn i j
  refine ⟨by rw [hJ]; exact Finset.sum_nonneg fun i _ => hin i, ?_⟩
  rw [hJ, Finset.sum_eq_zero_iff_of_nonneg fun i _ => hin i]
  constructor
  · rintro hz d ⟨i, j, hji, hi, _, hdm⟩
    rw [h3] at hi
    have hz := (Finset.sum_eq_zero_iff_of_nonneg fun j _ => hnn i j).mp (hz i (Finset.mem_range.mpr hi)) j (Finset.mem_range.mpr hji)
    rw [if_pos (show j < orElse none cs.length by simp [orElse]; omega),
      ccPure_zero_iff _ _ _ hd (hreg i) (hreg j), near_iff _ _ _ hd] at hz
    by_contra hlt
    exact hz ⟨d, hdm, not_le.mp hlt⟩
  · intro hall i hi
    apply Finset.sum_eq_zero
    intro j hj
    rw [Finset.mem_range] at hi hj
    split
    · rw [ccPure_zero_iff _ _ _ hd (hreg i) (hreg j), near_iff _ _ _ hd]
      rintro ⟨d, hd1, hd2⟩
      exact absurd (hall d ⟨i, j, hj, by omega, by omega, hd1⟩) (not_le.mpr hd2)
    · rfl

/-! ### The gradient: dropped pairs have derivative zero -/

theorem hasDerivAt_sum (l : List (Nat × Nat)) (f : Nat × Nat → ℝ → ℝ) (f' : Nat × Nat → ℝ) (x : ℝ) (h : ∀ a ∈ l, HasDerivAt (f a) (f' a) x) :
    HasDerivAt (fun t => (l.map fun a => f a t).sum) (l.map f').sum x := by
  induction l with
  | nil => simpa using hasDerivAt_const x (0 : ℝ)
  | cons a l ih =>
    simp only [List.map_cons, List.sum_cons]
    exact HasDerivAt.add (h a List.mem_cons_self) (ih fun b hb => h b (List.mem_cons_of_mem _ hb))

theorem hasDerivAt_sum' {α : Type} (l : List α) (f : α → ℝ → ℝ) (f' : α → ℝ) (x : ℝ) (h : ∀ a ∈ l, HasDerivAt (f a) (f' a) x) :
    HasDerivAt (fun t => (l.map fun a => f a t).sum) (l.map f').sum x := by
  induction l with
  | nil => simpa using hasDerivAt_const x (0 : ℝ)
  | cons a l ih =>
    simp only [List.map_cons, List.sum_cons]
    exact HasDerivAt.add (h a List.mem_cons_self) (ih fun b hb => h b (List.mem_cons_of_mem _ hb))

/-- A family of curves depending differentiably on one parameter `u` (a dof): curve `i` has `len i` rows. -/
structure Family where
  n : Nat
  len : Nat → Nat
  gamma : Nat → Nat → ℝ → V3
  dash : Nat → Nat → ℝ → V3

def Family.rows (F : Family) (u : ℝ) (i : Nat) : Rows := (List.range (F.len i)).map fun k => (F.gamma i k u, F.dash i k u)

def Family.at (F : Family) (u : ℝ) : List Rows := (List.range F.n).map (F.rows u)

theorem d_term (t u : ℝ) (ht : 0 < t) (a b p q : ℝ → V3) (a' b' p' q' : V3) (ha : HasDerivAt a a' u) (hb : HasDerivAt b b' u)
    (hp : HasDerivAt p p' u) (hq : HasDerivAt q q' u) (hp0 : p u ≠ 0) (hq0 : q u ≠ 0) (hfar : t ≤ dist (a u) (b u)) :
    HasDerivAt (fun x => term t (a x, p x) (b x, q x)) 0 u := by
  have hsub : HasDerivAt (fun x => a x - b x) (a' - b') u := ha.sub hb
  have e : ∀ x, dist (a x) (b x) = Geometry.norm (a x - b x) := by
    intro x; simp only [dist, distSq, Geometry.norm, Prod.fst_sub, Prod.snd_sub, pow_two]
  have hne : a u - b u ≠ 0 := by
    intro h
    rw [e, h] at hfar
    simp [Geometry.norm] at hfar
    linarith
  have hd := Geometry.d_norm hsub hne
  have hm := (Objectives.hasDerivAt_sqMax (t - dist (a u) (b u))).comp u (h := fun x => t - dist (a x) (b x)) (by
    simp only [e]; exact hd.const_sub t)
  have hz : max (t - dist (a u) (b u)) 0 = 0 := max_eq_right (by linarith)
  have hprod := ((Geometry.d_norm hp hp0).mul (Geometry.d_norm hq hq0)).mul (hm.const_mul 2)
  have hprod := hprod.congr_deriv (g' := 0) (by simp [hz])
  refine hprod.congr_of_eventuallyEq (Filter.Eventually.of_forall ?_)
  intro x
  simp only [term, Pi.mul_apply, Function.comp]
  ring

/-- **C59.** The gradient of `J` may be assembled from the candidate pairs alone, although the set of candidates changes with the dofs: if for
every candidate pair `D` is the derivative of its term with respect to a dof `u` (this is what `thisgrad0..3` and the vjp of the
curves provide), then the sum of `D` over the candidates is the derivative of the sum over *all* pairs. -/
theorem C59_gradient (F : Family) (t u : ℝ) (ht : 0 < t) (nb : Nat) (r : List (Nat × Nat)) (hr : PDist (clouds (F.at u)) t nb r)
    (gamma' dash' : Nat → Nat → V3)
    (hg : ∀ i < F.n, ∀ k < F.len i, HasDerivAt (F.gamma i k) (gamma' i k) u) (hdash : ∀ i < F.n, ∀ k < F.len i, HasDerivAt (F.dash i k) (dash' i k) u)
    (hreg : ∀ i < F.n, ∀ k < F.len i, F.dash i k u ≠ 0)
    (D : Nat × Nat → ℝ) (hD : ∀ p ∈ r, HasDerivAt (fun x => ccPure (F.rows x p.1) (F.rows x p.2) t) (D p) u) :
    HasDerivAt (fun x => ∑ i ∈ Finset.range F.n, ∑ j ∈ Finset.range i, if j < nb then ccPure (F.rows x i) (F.rows x j) t else 0)
      (r.map D).sum u := by
  classical
  have hrow : ∀ x, ∀ i < F.n, row (F.at x) i = F.rows x i := by
    intro x i hi; simp [row, Family.at, hi]
  have hlen : (clouds (F.at u)).length = F.n := by simp [clouds, Family.at]
  have hperm := cand_perm (clouds (F.at u)) t ht nb r hr
  rw [hlen] at hperm
  let D' : Nat × Nat → ℝ := fun p => if Near (cloud (clouds (F.at u)) p.1) (cloud (clouds (F.at u)) p.2) t then D p else 0
  have hsum : (r.map D).sum = ((pairs F.n nb).map D').sum := by
    rw [← sum_filter (pairs F.n nb) (fun p : Nat × Nat => Near (cloud (clouds (F.at u)) p.1) (cloud (clouds (F.at u)) p.2) t) D' (by
      intro p _ hp; simp only [D', if_neg hp])]
    rw [(hperm.map D).sum_eq]
    congr 1
    apply List.map_congr_left
    intro p hp
    have := (List.mem_filter.mp hp).2
    simp only [decide_eq_true_eq] at this
    simp only [D', if_pos this]
  rw [hsum]
  have hfun : (fun x => ∑ i ∈ Finset.range F.n, ∑ j ∈ Finset.range i, if j < nb then ccPure (F.rows x i) (F.rows x j) t else 0) =
      fun x => ((pairs F.n nb).map fun p => ccPure (F.rows x p.1) (F.rows x p.2) t).sum := by
    funext x; rw [pairs_sum]
  rw [hfun]
  apply hasDerivAt_sum
  rintro ⟨i, j⟩ hp
  obtain ⟨hji, hi, hjn⟩ := (mem_pairs _ _ _ _).mp hp
  by_cases hnear : Near (cloud (clouds (F.at u)) i) (cloud (clouds (F.at u)) j) t
  · have hm : (i, j) ∈ r := by
      rw [hperm.mem_iff, List.mem_filter]; exact ⟨hp, by simpa using hnear⟩
    simp only [D', if_pos hnear]
    exact hD _ hm
  · simp only [D', if_neg hnear]
    rw [cloud_clouds, cloud_clouds, hrow u i hi, hrow u j (by omega)] at hnear
    have hj : j < F.n := by omega
    have h1 : HasDerivAt (fun x => ((List.range (F.len i)).map fun k => ((List.range (F.len j)).map fun l =>
        term t (F.gamma i k x, F.dash i k x) (F.gamma j l x, F.dash j l x)).sum).sum)
        ((List.range (F.len i)).map fun _ => ((List.range (F.len j)).map fun _ => (0 : ℝ)).sum).sum u := by
      apply hasDerivAt_sum'
      intro k hk
      apply hasDerivAt_sum'
      intro l hl
      rw [List.mem_range] at hk hl
      refine d_term t u ht _ _ _ _ _ _ _ _ (hg i hi k hk) (hg j hj l hl) (hdash i hi k hk) (hdash j hj l hl) (hreg i hi k hk) (hreg j hj l hl) ?_
      by_contra hlt
      apply hnear
      refine ⟨F.gamma i k u, ?_, F.gamma j l u, ?_, (dist_lt_iff _ _ _ ht).mp (not_le.mp hlt)⟩
      · simp only [Family.rows, List.map_map, List.mem_map, List.mem_range]; exact ⟨k, hk, rfl⟩
      · simp only [Family.rows, List.map_map, List.mem_map, List.mem_range]; exact ⟨l, hl, rfl⟩
    have h2 := h1.div_const (((List.range (F.len i)).length : ℝ) * (List.range (F.len j)).length)
    have h2 := h2.congr_deriv (g' := 0) (by simp)
    refine h2.congr_of_eventuallyEq (Filter.Eventually.of_forall ?_)
    intro x
    simp only [ccPure, Family.rows, List.map_map, List.length_map]
    rfl

/-! ### Failures -/

/-- A curve with a single point on the x axis and unit tangent. -/
def dot (x : ℝ) : Rows := [((x, 0, 0), (0, 1, 0))]

theorem dist_axis (x y : ℝ) : dist (x, 0, 0) (y, 0, 0) = |x - y| := by
  unfold dist distSq
  simp [Real.sqrt_sq_eq_abs]

/-- **C59 (violated).** With `num_basecurves`, `shortest_distance()` is not the shortest distance: curves 1 and 2 are at distance 1/20,
and the method returns 9/10, because as soon as there is one candidate the pairs of curves outside the base curves are ignored. -/
theorem C59_num_basecurves_violated : ∃ (cs : List Rows) (v : ℝ), (CC.init cs 1 (some 1)).ShortestReturns (some v) ∧
    ¬IsLeast (pairDists cs cs.length) v := by
  refine ⟨[dot 0, dot (9/10), dot (19/20)], ?_⟩
  obtain ⟨r, hr⟩ := pdist_exists (clouds [dot 0, dot (9/10), dot (19/20)]) 1 1
  have hreach : CC.Reachable [dot 0, dot (9/10), dot (19/20)] 1 (some 1) (CC.init [dot 0, dot (9/10), dot (19/20)] 1 (some 1)) := .init
  have hc : CC.Compute (CC.init [dot 0, dot (9/10), dot (19/20)] 1 (some 1)) _ r := .fresh _ r rfl hr
  obtain ⟨v, hv⟩ := C59_shortest_returns _ 1 one_pos _ _ hreach (by simp [CC.init]) (by
    intro i hi
    simp only [CC.init, List.length_cons, List.length_nil] at hi
    match i with
    | 0 | 1 | 2 => simp [CC.init, row, dot]) _ ⟨_, r, hc, rfl⟩
  refine ⟨v, ⟨_, r, hc, hv.symm⟩, ?_⟩
  have hg := (C59_shortest_general _ 1 one_pos _ _ hreach v ⟨_, r, hc, hv.symm⟩).1
  have hmem : (9 / 10 : ℝ) ∈ pairDists [dot 0, dot (9/10), dot (19/20)] 1 :=
    ⟨1, 0, by omega, by simp, by omega, (9/10, 0, 0), by simp [row, dot], (0, 0, 0), by simp [row, dot], by rw [dist_axis, sub_zero, abs_of_pos (by norm_num)]⟩
  have hl : IsLeast (pairDists [dot 0, dot (9/10), dot (19/20)] 1) v := hg ⟨9/10, hmem, by norm_num⟩
  intro hbad
  have h1 : v ≤ 1 / 20 := hbad.2 ⟨2, 1, by omega, by simp, by simp, (19/20, 0, 0), by simp [row, dot], (9/10, 0, 0), by simp [row, dot], by
    rw [dist_axis]; norm_num⟩
  obtain ⟨i, j, h2, h3, h4, a, ha, b, hb, hd⟩ := hl.1
  have hj : j = 0 := by omega
  subst hj
  have hi : i = 1 ∨ i = 2 := by simp at h3; omega
  simp only [row, dot, List.getElem?_cons_zero, Option.getD_some, List.map_cons, List.map_nil, List.mem_singleton] at hb
  subst hb
  rcases hi with rfl | rfl
  · simp only [row, dot, List.getElem?_cons_zero, List.getElem?_cons_succ, Option.getD_some, List.map_cons, List.map_nil, List.mem_singleton] at ha
    subst ha
    rw [dist_axis, sub_zero, abs_of_pos (by norm_num)] at hd
    linarith
  · simp only [row, dot, List.getElem?_cons_zero, List.getElem?_cons_succ, Option.getD_some, List.map_cons, List.map_nil, List.mem_singleton] at ha
    subst ha
    rw [dist_axis, sub_zero, abs_of_pos (by norm_num)] at hd
    linarith

/-- **C59 (violated).** `CurveSurfaceDistance` does not depend on its surface: evaluate, move the surface next to the coil, evaluate
again – the value is still that of the remembered (empty) candidates. -/
theorem C59_surface_moved_violated : ∃ (s : CS) (v : ℝ), CS.Reachable true [dot 0] (dot 5) 1 s ∧ s.JReturns v ∧
    v ≠ ∑ i ∈ Finset.range 1, csPure (row s.curves i) s.surf 1 := by
  obtain ⟨r, hr⟩ := cdist_exists (clouds [dot 0]) [(dot 5).map Prod.fst] 1
  have hempty : r = [] := by
    rw [List.eq_nil_iff_forall_not_mem]
    rintro ⟨i, j⟩ hij
    obtain ⟨hi, hj, a, ha, b, hb, hd⟩ := ((C58_two_collections _ _ 1 one_pos r hr).2 i j).mp hij
    simp only [clouds, List.map_cons, List.map_nil, List.length_cons, List.length_nil] at hi hj
    have hi : i = 0 := by omega
    have hj : j = 0 := by omega
    subst hi; subst hj
    simp only [cloud, clouds, dot, List.map_cons, List.map_nil, List.getElem?_cons_zero, Option.getD_some, List.mem_singleton] at ha hb
    subst ha; subst hb
    revert hd; unfold distSq; norm_num
  subst hempty
  have h0 : CS.Compute (CS.init [dot 0] (dot 5) 1) _ [] := .fresh _ [] rfl hr
  refine ⟨CS.moveSurface { CS.init [dot 0] (dot 5) 1 with cand := some [] } (dot 0), 0, ?_, ?_, ?_⟩
  · exact .step _ _ (.step _ _ .init (.eval _ _ _ h0)) (.moveSurface _ _ (Or.inl rfl))
  · exact ⟨_, [], .cached _ _ rfl, by simp [CS.sum]⟩
  · intro h
    have hz : csPure (dot 0) (dot 0) 1 = 0 := by simpa [CS.moveSurface, CS.init, row] using h.symm
    have := (ccPure_zero_iff (dot 0) (dot 0) 1 one_pos (by simp [dot]) (by simp [dot])).mp hz
    apply this
    refine ⟨(0, 0, 0), by simp [dot], (0, 0, 0), by simp [dot], ?_⟩
    unfold distSq; norm_num

/-- Non-vacuity of `C59_J_all_pairs`, `C59_shortest` and `C59_J_zero_iff`: two curves at distance 1/2, threshold 1. -/
example : ∃ (s : CC) (v w : ℝ), CC.Reachable [dot 0, dot 7] 1 none s ∧ s.JReturns v ∧ 0 < v ∧ s.ShortestReturns (some w) := by
  obtain ⟨r, hr⟩ := pdist_exists (clouds [dot 0, dot (1/2)]) 1 2
  have hreach : CC.Reachable [dot 0, dot 7] 1 none ((CC.init [dot 0, dot 7] 1 none).change [dot 0, dot (1/2)]) :=
    .step _ _ .init (.change _ _ rfl)
  have hc : CC.Compute ((CC.init [dot 0, dot 7] 1 none).change [dot 0, dot (1/2)]) _ r := .fresh _ r rfl hr
  obtain ⟨w, hw⟩ := C59_shortest_returns _ 1 one_pos _ _ hreach (by simp [CC.init, CC.change]) (by
    intro i hi
    simp only [CC.init, CC.change, List.length_cons, List.length_nil] at hi
    match i with
    | 0 | 1 => simp [CC.init, CC.change, row, dot]) _ ⟨_, r, hc, rfl⟩
  refine ⟨_, _, w, hreach, ⟨_, r, hc, rfl⟩, ?_, ⟨_, r, hc, hw.symm⟩⟩
  have hreg : ∀ i, ∀ a ∈ row ((CC.init [dot 0, dot 7] 1 none).change [dot 0, dot (1/2)]).curves i, a.2 ≠ 0 := by
    intro i a ha
    match i with
    | 0 => simp [CC.init, CC.change, row, dot] at ha; subst ha; simp
    | 1 => simp [CC.init, CC.change, row, dot] at ha; subst ha; simp
    | i + 2 => simp [CC.init, CC.change, row] at ha
  have hz := C59_J_zero_iff _ 1 one_pos _ hreach _ ⟨_, r, hc, rfl⟩ hreg
  refine lt_of_le_of_ne hz.1 (fun h => ?_)
  have := hz.2.mp h.symm (1/2) ⟨1, 0, by omega, by simp [CC.init, CC.change], by simp [CC.init, CC.change], (1/2, 0, 0), by simp [CC.init, CC.change, row, dot], (0, 0, 0), by simp [CC.init, CC.change, row, dot], by
    rw [dist_axis]; norm_num⟩
  norm_num at this

end Simsopt.Distance
