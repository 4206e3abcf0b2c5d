import Verif.Curves.Rotated
import Verif.Distance.Objective
import Mathlib.Analysis.SpecialFunctions.Trigonometric.Basic
import Mathlib.Algebra.BigOperators.Group.List.Basic
import Mathlib.Topology.Algebra.Order.Floor
import Mathlib.Tactic.IntervalCases
/-!
# C62: LinkingNumber

Model of `LinkingNumber` (src/simsopt/geo/curveobjectives.py L480-530) and `compute_linking_number` (src/simsoptpp/python_distance.cpp L176-218).
Simplifications: real numbers instead of doubles, unbounded integers instead of `int`; `downsample` is a positive integer, as documented.
The loop over `p` is an OpenMP reduction over integers: any order of the additions gives the same sum.
-/
namespace Simsopt.Linking
open Simsopt.Coils
open Simsopt.Geometry hiding norm

/-- A curve: number of quadrature points, rows of `gamma()` and `gammadash()`, and the entry of `dphis`. -/
structure LCurve where
  npts : Nat
  gamma : Nat → V3
  dash : Nat → V3
  dphi : ℝ

/-- The indices of the loop `for (int i=0; i < n; i += downsample)` (L196-197). -/
def visited (n ds i : Nat) : List Nat :=
  if h : i < n ∧ 0 < ds then i :: visited n ds (i + ds) else []
termination_by n - i

/-- The body of the inner loop (L198-208). -/
noncomputable def term (a da b db : V3) : ℝ :=
  let d0 := a.1 - b.1
  let d1 := a.2.1 - b.2.1
  let d2 := a.2.2 - b.2.2
  let dr := Real.sqrt (d0 * d0 + d1 * d1 + d2 * d2)
  let det := da.1 * (db.2.1 * d2 - db.2.2 * d1) - da.2.1 * (db.1 * d2 - db.2.2 * d0) + da.2.2 * (db.1 * d1 - db.2.1 * d0)
  det / (dr * dr * dr)

/-- `total` (L194-210). -/
noncomputable def total (ds : Nat) (c1 c2 : LCurve) : ℝ :=
  ((visited c1.npts ds 0).map fun i => ((visited c2.npts ds 0).map fun j => term (c1.gamma i) (c1.dash i) (c2.gamma j) (c2.dash j)).sum).sum

/-- `std::round` of a number that is not negative. -/
noncomputable def round (x : ℝ) : Int := ⌊x + 1 / 2⌋

/-- The contribution of a pair (L211). -/
noncomputable def pairLink (ds : Nat) (c1 c2 : LCurve) : Int := round (|total ds c1 c2 * c1.dphi * c2.dphi| / (4 * Real.pi))

/-- The curve with index `i`. -/
def at' (cs : List LCurve) (i : Nat) : LCurve := cs[i]?.getD ⟨0, fun _ => 0, fun _ => 0, 0⟩

/-- `J` (curveobjectives.py L517-523): the loops over `p` and `q` (python_distance.cpp L181-215). -/
noncomputable def J (ds : Nat) (cs : List LCurve) : Int :=
  ((List.range' 1 (cs.length - 1)).map fun p => ((List.range p).map fun q => pairLink ds (at' cs p) (at' cs q)).sum).sum

/-- A curve object: quadrature points, rows of `gamma()` and `gammadash()`. -/
structure Obj where
  quadpoints : List ℝ
  gamma : Nat → V3
  dash : Nat → V3

/-- `(c.quadpoints[1] - c.quadpoints[0]) * downsample` (L490); the constructor raises for fewer than two quadrature points. -/
noncomputable def dphi (ds : Nat) (c : Obj) : Option ℝ :=
  match c.quadpoints with
  | q0 :: q1 :: _ => some ((q1 - q0) * ds)
  | _ => none

/-- `__init__` (L482-490): `none` if it raises. -/
noncomputable def init (ds : Nat) (cs : List Obj) : Option (List LCurve) :=
  if cs.all (fun c => decide (0 < ds ∧ c.quadpoints.length % ds = 0)) then
    Distance.mapOpt (fun c => (dphi ds c).map fun d => ⟨c.quadpoints.length, c.gamma, c.dash, d⟩) cs
  else none

/-! ### The documented integrand -/

theorem term_eq (a da b db : V3) : term a da b db = inner (a - b) (cross da db) / Geometry.norm (a - b) ^ 3 := by
  simp only [term, inner, cross, Geometry.norm, Prod.fst_sub, Prod.snd_sub]
  congr 1 <;> ring

theorem term_symm (a da b db : V3) : term a da b db = term b db a da := by
  rw [term_eq, term_eq]
  have h1 : inner (b - a) (cross db da) = inner (a - b) (cross da db) := by simp only [inner, cross, Prod.fst_sub, Prod.snd_sub]; ring
  have h2 : Geometry.norm (b - a) = Geometry.norm (a - b) := by
    simp only [Geometry.norm, Prod.fst_sub, Prod.snd_sub]; congr 1; ring
  rw [h1, h2]

theorem sum_comm_list {α β : Type} (l : List α) (l' : List β) (f : α → β → ℝ) :
    (l.map fun a => (l'.map fun b => f a b).sum).sum = (l'.map fun b => (l.map fun a => f a b).sum).sum := by
  induction l with
  | nil => simp
  | cons a l ih => simp only [List.map_cons, List.sum_cons, ih, List.sum_map_add]

theorem pairLink_symm (ds : Nat) (c1 c2 : LCurve) : pairLink ds c1 c2 = pairLink ds c2 c1 := by
  have : total ds c1 c2 = total ds c2 c1 := by
    rw [total, sum_comm_list, total]
    simp only [term_symm]
  rw [pairLink, pairLink, this, mul_right_comm]

theorem visited_eq (n ds : Nat) (h : 0 < ds) (i : Nat) : visited n ds i = (List.range ((n - i + ds - 1) / ds)).map fun j => i + j * ds := by
  induction hk : n - i using Nat.strong_induction_on generalizing i with
  | _ k ih =>
    subst hk
    rw [visited]
    by_cases hi : i < n
    · rw [dif_pos ⟨hi, h⟩, ih (n - (i + ds)) (by omega) (i + ds) rfl]
      have e : (n - i + ds - 1) / ds = (n - (i + ds) + ds - 1) / ds + 1 := by
        by_cases hd : i + ds ≤ n
        · rw [← Nat.add_div_right _ h]; congr 1; omega
        · have h0 : n - (i + ds) = 0 := by omega
          rw [h0, Nat.zero_add, Nat.div_eq_of_lt (by omega : ds - 1 < ds)]
          rw [Nat.div_eq_iff (by omega)]
          constructor <;> omega
      rw [e, List.range_succ_eq_map, List.map_cons, List.map_map]
      congr 1
      · simp
      · refine List.map_congr_left fun j _ => ?_
        simp only [Function.comp, Nat.succ_eq_add_one]; ring
    · rw [dif_neg (by omega)]
      have : (n - i + ds - 1) / ds = 0 := Nat.div_eq_of_lt (by omega)
      rw [this]; rfl

/-- **C62.** The value is the documented one: a sum over the pairs of curves of the rounded absolute value of the discretised Gauss integral
over every `downsample`-th quadrature point, divided by 4π. -/
theorem C62_gauss (ds : Nat) (hds : 0 < ds) (cs : List LCurve) (hdiv : ∀ c ∈ cs, ds ∣ c.npts) :
    J ds cs = ∑ p ∈ Finset.range cs.length, ∑ q ∈ Finset.range p,
      ⌊|(∑ i ∈ Finset.range ((at' cs p).npts / ds), ∑ j ∈ Finset.range ((at' cs q).npts / ds),
          inner ((at' cs p).gamma (i * ds) - (at' cs q).gamma (j * ds)) (cross ((at' cs p).dash (i * ds)) ((at' cs q).dash (j * ds))) /
            Geometry.norm ((at' cs p).gamma (i * ds) - (at' cs q).gamma (j * ds)) ^ 3) * (at' cs p).dphi * (at' cs q).dphi| / (4 * Real.pi) + 1 / 2⌋ := by
  have hsum : ∀ (n : Nat) (f : Nat → Int), ((List.range n).map f).sum = ∑ i ∈ Finset.range n, f i := by
    intro n f
    induction n with
    | zero => simp
    | succ n ih => rw [List.range_succ, List.map_append, List.sum_append, ih, Finset.sum_range_succ]; simp
  have hloop : ∀ (f : Nat → Int), f 0 = 0 → ((List.range' 1 (cs.length - 1)).map f).sum = ∑ i ∈ Finset.range cs.length, f i := by
    intro f h0
    rw [← hsum]
    cases cs with
    | nil => simp
    | cons c cs =>
      rw [List.length_cons, Nat.add_sub_cancel, List.range_succ_eq_map, List.map_cons, List.sum_cons, h0, zero_add, List.map_map,
        List.range'_eq_map_range, List.map_map]
      congr 1
      refine List.map_congr_left fun j _ => ?_
      simp [Nat.add_comm]
  rw [J, hloop _ (by simp)]
  refine Finset.sum_congr rfl fun p hp => ?_
  rw [hsum]
  refine Finset.sum_congr rfl fun q hq => ?_
  have hmem : ∀ i < cs.length, at' cs i ∈ cs := by
    intro i hi
    rw [at', List.getElem?_eq_getElem hi]; exact List.getElem_mem hi
  have hp' := Finset.mem_range.mp hp
  have hq' := Finset.mem_range.mp hq
  have hv : ∀ c ∈ cs, visited c.npts ds 0 = (List.range (c.npts / ds)).map fun j => j * ds := by
    intro c hc
    obtain ⟨k, hk⟩ := hdiv c hc
    rw [visited_eq _ _ hds]
    have : (c.npts - 0 + ds - 1) / ds = c.npts / ds := by
      rw [hk, Nat.sub_zero, Nat.mul_div_cancel_left _ hds, Nat.add_sub_assoc hds, Nat.mul_add_div hds, Nat.div_eq_of_lt (by omega), Nat.add_zero]
    rw [this]; simp
  rw [pairLink, round, total, hv _ (hmem p hp'), hv _ (hmem q (by omega))]
  simp only [List.map_map, Function.comp_def, Distance.list_range_sum, term_eq]

/-! ### Symmetry of the sum -/

theorem double_sum (f : LCurve → LCurve → Int) (hs : ∀ a b, f a b = f b a) (cs : List LCurve) :
    2 * ((List.range' 1 (cs.length - 1)).map fun p => ((List.range p).map fun q => f (at' cs p) (at' cs q)).sum).sum =
      (cs.map fun a => (cs.map fun b => f a b).sum).sum - (cs.map fun a => f a a).sum := by
  induction cs using List.reverseRecOn with
  | nil => simp
  | append_singleton cs c ih =>
    have hat : ∀ i < cs.length, at' (cs ++ [c]) i = at' cs i := by
      intro i hi; simp only [at', List.getElem?_append_left hi]
    have hlast : at' (cs ++ [c]) cs.length = c := by simp [at']
    have hrow : ((List.range cs.length).map fun q => f c (at' cs q)).sum = (cs.map fun b => f c b).sum := by
      congr 1
      apply List.ext_getElem (by simp)
      intro i h1 h2
      simp only [List.getElem_map, List.getElem_range]
      have : i < cs.length := by simpa using h1
      simp [at', List.getElem?_eq_getElem this]
    have hstep : ((List.range' 1 ((cs ++ [c]).length - 1)).map fun p => ((List.range p).map fun q => f (at' (cs ++ [c]) p) (at' (cs ++ [c]) q)).sum).sum =
        ((List.range' 1 (cs.length - 1)).map fun p => ((List.range p).map fun q => f (at' cs p) (at' cs q)).sum).sum + (cs.map fun b => f c b).sum := by
      have hold : ∀ p, p < cs.length → ((List.range p).map fun q => f (at' (cs ++ [c]) p) (at' (cs ++ [c]) q)).sum =
          ((List.range p).map fun q => f (at' cs p) (at' cs q)).sum := by
        intro p hp
        congr 1
        refine List.map_congr_left fun q hq => ?_
        have := List.mem_range.mp hq
        rw [hat p hp, hat q (by omega)]
      rcases Nat.eq_zero_or_pos cs.length with h0 | h0
      · have : cs = [] := List.length_eq_zero_iff.mp h0
        subst this; simp
      · have e : (cs ++ [c]).length - 1 = (cs.length - 1) + 1 := by simp; omega
        rw [e, List.range'_1_concat, List.map_append, List.sum_append]
        have e2 : 1 + (cs.length - 1) = cs.length := by omega
        congr 1
        · congr 1
          refine List.map_congr_left fun p hp => ?_
          rw [List.mem_range'_1] at hp
          exact hold p (by omega)
        · rw [e2]
          simp only [List.map_cons, List.map_nil, List.sum_cons, List.sum_nil, add_zero, hlast]
          rw [← hrow]
          congr 1
          refine List.map_congr_left fun q hq => ?_
          rw [hat q (List.mem_range.mp hq)]
    rw [hstep, mul_add, ih]
    simp only [List.map_append, List.map_cons, List.map_nil, List.sum_append, List.sum_cons, List.sum_nil, List.sum_map_add]
    have : (cs.map fun a => f a c).sum = (cs.map fun b => f c b).sum := by simp only [hs]
    have h0 : (cs.map fun _ => (0 : Int)).sum = 0 := List.sum_eq_zero (by simp)
    simp only [add_zero, this, h0]
    ring

/-- **C62.** The linking number does not depend on the order of the curves. -/
theorem C62_order (ds : Nat) (cs cs' : List LCurve) (h : cs.Perm cs') : J ds cs = J ds cs' := by
  have h1 := double_sum (pairLink ds) (pairLink_symm ds) cs
  have h2 := double_sum (pairLink ds) (pairLink_symm ds) cs'
  have e1 : (cs.map fun a => pairLink ds a a).sum = (cs'.map fun a => pairLink ds a a).sum := (h.map _).sum_eq
  have e2 : (cs.map fun a => (cs.map fun b => pairLink ds a b).sum).sum = (cs'.map fun a => (cs'.map fun b => pairLink ds a b).sum).sum := by
    rw [(h.map _).sum_eq]
    congr 1
    refine List.map_congr_left fun a _ => ?_
    exact (h.map _).sum_eq
  simp only [J]
  omega

theorem round_nonneg (x : ℝ) (h : 0 ≤ x) : 0 ≤ round x := Int.floor_nonneg.mpr (by linarith)

/-- **C62.** The linking number is never negative. -/
theorem C62_nonneg (ds : Nat) (cs : List LCurve) : 0 ≤ J ds cs := by
  refine List.sum_nonneg fun x hx => ?_
  obtain ⟨p, _, rfl⟩ := List.mem_map.mp hx
  refine List.sum_nonneg fun y hy => ?_
  obtain ⟨q, _, rfl⟩ := List.mem_map.mp hy
  exact round_nonneg _ (by positivity)

/-! ### Invariance -/

/-- Apply a map to the positions and another to the tangents. -/
def LCurve.map (F G : V3 → V3) (c : LCurve) : LCurve := { c with gamma := fun i => F (c.gamma i), dash := fun i => G (c.dash i) }

theorem J_map (ds : Nat) (cs : List LCurve) (φ : LCurve → LCurve) (h0 : ∀ a ∈ cs, ∀ b ∈ cs, pairLink ds (φ a) (φ b) = pairLink ds a b) :
    J ds (cs.map φ) = J ds cs := by
  simp only [J, List.length_map]
  have hat : ∀ i < cs.length, at' (cs.map φ) i = φ (at' cs i) ∧ at' cs i ∈ cs := by
    intro i hi
    simp only [at', List.getElem?_map, List.getElem?_eq_getElem hi]
    exact ⟨rfl, List.getElem_mem hi⟩
  congr 1
  refine List.map_congr_left fun p hp => ?_
  rw [List.mem_range'_1] at hp
  congr 1
  refine List.map_congr_left fun q hq => ?_
  have := List.mem_range.mp hq
  rw [(hat p (by omega)).1, (hat q (by omega)).1, h0 _ (hat p (by omega)).2 _ (hat q (by omega)).2]

theorem total_map (ds : Nat) (F G : V3 → V3) (h : ∀ a da b db, term (F a) (G da) (F b) (G db) = term a da b db) (c1 c2 : LCurve) :
    total ds (c1.map F G) (c2.map F G) = total ds c1 c2 := by
  simp only [total, LCurve.map, h]

/-- **C62.** The linking number is unchanged by moving, rotating, flipping or scaling all the curves together. -/
theorem C62_rigid (ds : Nat) (cs : List LCurve) (s : V3) (phi : ℝ) (flip : Bool) (r : ℝ) (hr : 0 < r) :
    J ds (cs.map (LCurve.map (fun x => x + s) id)) = J ds cs ∧
    J ds (cs.map (LCurve.map (fun x => rowMul x (rotmat phi flip)) fun x => rowMul x (rotmat phi flip))) = J ds cs ∧
    J ds (cs.map (LCurve.map (fun x => r • x) fun x => r • x)) = J ds cs := by
  have key : ∀ F G : V3 → V3, (∀ a da b db, term (F a) (G da) (F b) (G db) = term a da b db) → J ds (cs.map (LCurve.map F G)) = J ds cs := by
    intro F G h
    refine J_map ds cs _ fun a _ b _ => ?_
    simp only [pairLink, total_map ds F G h]
    rfl
  refine ⟨key _ _ ?_, key _ _ ?_, key _ _ ?_⟩
  · intro a da b db
    simp only [term_eq, id]
    rw [add_sub_add_right_eq_sub]
  · intro a da b db
    have hsub : rowMul a (rotmat phi flip) - rowMul b (rotmat phi flip) = rowMul (a - b) (rotmat phi flip) := by
      have := Rotated.rowMul_add (a - b) b (rotmat phi flip)
      rw [sub_add_cancel] at this
      rw [this, add_sub_cancel_right]
    simp only [term_eq]
    rw [hsub, Rotated.cross_rot, Rotated.inner_rot, Geometry.norm_eq, Rotated.inner_rot, ← Geometry.norm_eq]
  · intro a da b db
    simp only [term_eq]
    rw [← smul_sub, Geometry.norm_smul_v r hr.le]
    have : inner (r • (a - b)) (cross (r • da) (r • db)) = r ^ 3 * inner (a - b) (cross da db) := by
      simp only [inner, cross, Prod.smul_fst, Prod.smul_snd, smul_eq_mul]; ring
    rw [this, mul_pow, mul_div_mul_left _ _ (by positivity)]

/-- Traverse the curve in the opposite direction: the tangents change sign. -/
def LCurve.reverse (c : LCurve) : LCurve := { c with dash := fun i => -c.dash i }

/-- **C62.** The linking number does not depend on the directions in which the curves are traversed. -/
theorem C62_orientation (ds : Nat) (cs : List LCurve) (rev : LCurve → Bool) :
    J ds (cs.map fun c => if rev c then c.reverse else c) = J ds cs := by
  refine J_map ds cs _ fun a _ b _ => ?_
  have hneg : ∀ (l : List Nat) (f : Nat → ℝ), (l.map fun i => -f i).sum = -(l.map f).sum := by
    intro l f
    induction l with
    | nil => simp
    | cons x l ih => simp only [List.map_cons, List.sum_cons, ih]; ring
  have h1 : ∀ c1 c2, total ds (LCurve.reverse c1) c2 = -total ds c1 c2 := by
    intro c1 c2
    have : ∀ x dx y dy, term x (-dx) y dy = -term x dx y dy := by
      intro x dx y dy
      simp only [term_eq]
      rw [← neg_div]; congr 1
      simp only [inner, cross, Prod.fst_neg, Prod.snd_neg]; ring
    simp only [total, LCurve.reverse, this, hneg]
  have hp1 : ∀ c1 c2, pairLink ds (LCurve.reverse c1) c2 = pairLink ds c1 c2 := by
    intro c1 c2
    simp only [pairLink, h1]
    have : (LCurve.reverse c1).dphi = c1.dphi := rfl
    rw [this, neg_mul, neg_mul, abs_neg]
  have hp2 : ∀ c1 c2, pairLink ds c1 (LCurve.reverse c2) = pairLink ds c1 c2 := by
    intro c1 c2; rw [pairLink_symm, hp1, pairLink_symm]
  cases rev a <;> cases rev b <;> simp [hp1, hp2]

/-! ### The gradient -/

/-- **C62.** `dJ()` is zero, and that is the derivative of `J()` wherever the discretised integrals depend continuously on the dofs and none of them
is a half-integer: `J()` is locally constant there. -/
theorem C62_gradient (ds : Nat) (cs : ℝ → List LCurve) (u : ℝ) (N : Nat) (hN : ∀ x, (cs x).length = N)
    (hc : ∀ p < N, ∀ q < p, ContinuousAt (fun x => |total ds (at' (cs x) p) (at' (cs x) q) * (at' (cs x) p).dphi * (at' (cs x) q).dphi| / (4 * Real.pi)) u)
    (hh : ∀ p < N, ∀ q < p, ∀ z : Int,
      |total ds (at' (cs u) p) (at' (cs u) q) * (at' (cs u) p).dphi * (at' (cs u) q).dphi| / (4 * Real.pi) ≠ z + 1 / 2) :
    HasDerivAt (fun x => (J ds (cs x) : ℝ)) 0 u := by
  have hpair : ∀ p < N, ∀ q < p, ∀ᶠ x in nhds u, pairLink ds (at' (cs x) p) (at' (cs x) q) = pairLink ds (at' (cs u) p) (at' (cs u) q) := by
    intro p hp q hq
    have hcont := (hc p hp q hq).add (continuousAt_const (y := (1 / 2 : ℝ)))
    set w := |total ds (at' (cs u) p) (at' (cs u) q) * (at' (cs u) p).dphi * (at' (cs u) q).dphi| / (4 * Real.pi) with hw
    have hlo : (⌊w + 1 / 2⌋ : ℝ) < w + 1 / 2 := by
      refine lt_of_le_of_ne (Int.floor_le _) fun h => ?_
      apply hh p hp q hq (⌊w + 1 / 2⌋ - 1)
      push_cast; linarith
    have hhi : w + 1 / 2 < (⌊w + 1 / 2⌋ : ℝ) + 1 := Int.lt_floor_add_one _
    have hm := hcont.eventually (Ioo_mem_nhds hlo hhi)
    filter_upwards [hm] with x hx
    rw [pairLink, round, pairLink, round, Int.floor_eq_iff]
    exact ⟨hx.1.le, hx.2⟩
  have hall : ∀ᶠ x in nhds u, ∀ p ∈ Finset.range N, ∀ q ∈ Finset.range p,
      pairLink ds (at' (cs x) p) (at' (cs x) q) = pairLink ds (at' (cs u) p) (at' (cs u) q) := by
    rw [Filter.eventually_all_finset]
    intro p hp
    rw [Filter.eventually_all_finset]
    intro q hq
    exact hpair p (Finset.mem_range.mp hp) q (Finset.mem_range.mp hq)
  have he : (fun x => (J ds (cs x) : ℝ)) =ᶠ[nhds u] fun _ => (J ds (cs u) : ℝ) := by
    filter_upwards [hall] with x hx
    congr 1
    simp only [J, hN]
    congr 1
    refine List.map_congr_left fun p hp => ?_
    rw [List.mem_range'_1] at hp
    congr 1
    refine List.map_congr_left fun q hq => ?_
    have := List.mem_range.mp hq
    exact hx p (Finset.mem_range.mpr (by omega)) q (Finset.mem_range.mpr this)
  exact (hasDerivAt_const u _).congr_of_eventuallyEq he

/-! ### Downsampling -/

/-- The curve with every `ds`-th quadrature point: `quadpoints[::ds]`. -/
noncomputable def Obj.every (c : Obj) (ds : Nat) : Obj :=
  { quadpoints := (List.range (c.quadpoints.length / ds)).map fun i => c.quadpoints[i * ds]?.getD 0
    gamma := fun i => c.gamma (i * ds)
    dash := fun i => c.dash (i * ds) }

/-- **C62.** With equally spaced quadrature points (at least two of them kept), `downsample = ds` gives exactly the linking number of the
curves that have only every `ds`-th quadrature point. -/
theorem C62_downsample (ds : Nat) (cs : List Obj) (r : List LCurve) (h : init ds cs = some r)
    (hu : ∀ c ∈ cs, ∃ a b : ℝ, ∀ i < c.quadpoints.length, c.quadpoints[i]? = some (a + i * b)) (h2 : ∀ c ∈ cs, 2 * ds ≤ c.quadpoints.length) :
    ∃ r', init 1 (cs.map fun c => c.every ds) = some r' ∧ J 1 r' = J ds r := by
  unfold init at h
  split at h
  case isFalse => cases h
  case isTrue hall =>
    rw [List.all_eq_true] at hall
    have hchk : ∀ c ∈ cs, 0 < ds ∧ c.quadpoints.length % ds = 0 := fun c hc => by simpa using hall c hc
    -- the constructor on one curve
    have hone : ∀ c ∈ cs, ∃ d, dphi ds c = some d ∧ dphi 1 (c.every ds) = some d := by
      intro c hc
      obtain ⟨a, b, hq⟩ := hu c hc
      obtain ⟨hds, hmod⟩ := hchk c hc
      have hlen := h2 c hc
      have hk : 2 ≤ c.quadpoints.length / ds := by rw [Nat.le_div_iff_mul_le hds]; exact hlen
      have e0 := hq 0 (by omega)
      have e1 := hq 1 (by omega)
      have ed := hq ds (by omega)
      refine ⟨b * ds, ?_, ?_⟩
      · unfold dphi
        cases hl : c.quadpoints with
        | nil => rw [hl] at e0; cases e0
        | cons q0 l =>
          cases l with
          | nil => rw [hl] at e1; cases e1
          | cons q1 l =>
            rw [hl] at e0 e1
            simp only [List.getElem?_cons_zero, List.getElem?_cons_succ, Option.some.injEq] at e0 e1
            subst e0 e1
            simp only [Option.some.injEq]
            push_cast; ring
      · have : (c.every ds).quadpoints = (c.quadpoints[0]?.getD 0) :: (c.quadpoints[ds]?.getD 0) ::
            (List.range (c.quadpoints.length / ds - 2)).map fun i => c.quadpoints[(i + 2) * ds]?.getD 0 := by
          obtain ⟨k, hk'⟩ := Nat.exists_eq_add_of_le hk
          simp only [Obj.every, hk']
          rw [Nat.add_comm 2 k, List.range_succ_eq_map, List.range_succ_eq_map]
          simp
        simp only [dphi, this, e0, ed, Option.getD_some, Option.some.injEq]
        push_cast
        ring
    -- both constructors succeed and correspond
    have hmap : ∀ (l : List Obj) (r : List LCurve), (∀ c ∈ l, c ∈ cs) →
        Distance.mapOpt (fun c => (dphi ds c).map fun d => (⟨c.quadpoints.length, c.gamma, c.dash, d⟩ : LCurve)) l = some r →
        Distance.mapOpt (fun c => (dphi 1 c).map fun d => (⟨c.quadpoints.length, c.gamma, c.dash, d⟩ : LCurve)) (l.map fun c => c.every ds) =
          some (r.map fun c => ⟨c.npts / ds, fun i => c.gamma (i * ds), fun i => c.dash (i * ds), c.dphi⟩) ∧ ∀ c ∈ r, 0 < ds ∧ c.npts % ds = 0 := by
      intro l
      induction l with
      | nil => intro r _ hr; cases hr; exact ⟨rfl, by simp⟩
      | cons c l ih =>
        intro r hl hr
        have hc := hl c List.mem_cons_self
        obtain ⟨d, hd, hd'⟩ := hone c hc
        simp only [Distance.mapOpt, hd, Option.map_some, Option.bind_some] at hr
        cases hrec : Distance.mapOpt (fun c => (dphi ds c).map fun d => (⟨c.quadpoints.length, c.gamma, c.dash, d⟩ : LCurve)) l with
        | none => rw [hrec] at hr; cases hr
        | some r0 =>
          rw [hrec] at hr
          cases hr
          obtain ⟨i1, i2⟩ := ih r0 (fun c' h' => hl c' (List.mem_cons_of_mem _ h')) hrec
          refine ⟨?_, ?_⟩
          · simp only [List.map_cons, Distance.mapOpt, hd', Option.map_some, Option.bind_some, i1]
            simp [Obj.every]
          · intro c' hc'
            rcases List.mem_cons.mp hc' with rfl | hc'
            · exact hchk c hc
            · exact i2 c' hc'
    obtain ⟨e1, e2⟩ := hmap cs r (fun c hc => hc) h
    refine ⟨r.map fun c => ⟨c.npts / ds, fun i => c.gamma (i * ds), fun i => c.dash (i * ds), c.dphi⟩, ?_, ?_⟩
    · unfold init
      rw [if_pos (by simp [Nat.mod_one])]
      exact e1
    · set sub : LCurve → LCurve := fun c => ⟨c.npts / ds, fun i => c.gamma (i * ds), fun i => c.dash (i * ds), c.dphi⟩ with hsub
      have hlink : ∀ a ∈ r, ∀ b ∈ r, pairLink 1 (sub a) (sub b) = pairLink ds a b := by
        intro a ha b hb
        have hv : ∀ c ∈ r, visited c.npts ds 0 = (visited (sub c).npts 1 0).map fun i => i * ds := by
          intro c hc
          obtain ⟨hds, hm⟩ := e2 c hc
          obtain ⟨k, hk⟩ := Nat.dvd_of_mod_eq_zero hm
          rw [visited_eq _ _ hds, visited_eq _ _ Nat.one_pos]
          have : (c.npts - 0 + ds - 1) / ds = c.npts / ds := by
            rw [hk, Nat.sub_zero, Nat.mul_div_cancel_left _ hds, Nat.add_sub_assoc hds, Nat.mul_add_div hds, Nat.div_eq_of_lt (by omega), Nat.add_zero]
          rw [this]
          simp [hsub]
        have ht : total 1 (sub a) (sub b) = total ds a b := by
          rw [total, total, hv a ha, hv b hb]
          simp only [List.map_map, Function.comp_def, hsub]
        simp only [pairLink, ht]
        rfl
      simp only [J, List.length_map]
      have hat : ∀ i < r.length, at' (r.map sub) i = sub (at' r i) ∧ at' r i ∈ r := by
        intro i hi
        simp only [at', List.getElem?_map, List.getElem?_eq_getElem hi]
        exact ⟨rfl, List.getElem_mem hi⟩
      congr 1
      refine List.map_congr_left fun p hp => ?_
      rw [List.mem_range'_1] at hp
      congr 1
      refine List.map_congr_left fun q hq => ?_
      have := List.mem_range.mp hq
      rw [(hat p (by omega)).1, (hat q (by omega)).1, hlink _ (hat p (by omega)).2 _ (hat q (by omega)).2]

/-- A case of `C62_downsample`: 4 equally spaced points, `downsample = 2`. -/
example : ∃ (c : Obj) (r : List LCurve), init 2 [c, c] = some r ∧ (∃ a b : ℝ, ∀ i < c.quadpoints.length, c.quadpoints[i]? = some (a + i * b)) ∧
    2 * 2 ≤ c.quadpoints.length := by
  refine ⟨⟨[0, 1 / 4, 2 / 4, 3 / 4], fun _ => (1, 0, 0), fun _ => (0, 1, 0)⟩, _, rfl, ⟨0, 1 / 4, ?_⟩, by simp⟩
  intro i hi
  simp only [List.length_cons, List.length_nil] at hi
  interval_cases i <;> norm_num

end Simsopt.Linking
