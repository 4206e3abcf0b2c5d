import Verif.Objectives.Model
import Verif.Deriv.Align
import Mathlib.Analysis.Calculus.Deriv.Add
import Mathlib.Analysis.Calculus.Deriv.Comp
import Mathlib.Analysis.Calculus.Deriv.Mul
import Mathlib.Analysis.Calculus.Deriv.Pow
/-!
# Specification vocabulary and lemmas for composite objectives
-/
set_option linter.unusedSectionVars false
namespace Simsopt.Objectives
open Simsopt Deriv Filter Topology
variable {K : Type} [DecidableEq K]

/-! ### Specification -/

/-- Scalar product of two vectors. -/
def dot (a b : List ℝ) : ℝ := (List.zipWith (· * ·) a b).sum

/-- All dofs moved along the direction `v` by the step `t`. -/
def move (X v : K → List ℝ) (t : ℝ) : K → List ℝ := fun k => List.zipWith (fun a b => a + t * b) (X k) (v k)

/-- One vector entry per dof of every object. -/
def Shaped (size : K → Nat) (X : K → List ℝ) : Prop := ∀ k, (X k).length = size k

/-- Basic objective `n` is differentiable and its `dJ` is right: in any direction `v` the derivative of `J` is the scalar product of
    the stored partial derivatives with `v`. `U` lists the Optimizables that can occur as keys. -/
structure LeafOK (size : K → Nat) (U : List K) (L : Leaves K) (n : Nat) : Prop where
  keys : ∀ X, ((L.dJ n X).map (·.1)).Nodup
  shape : ∀ X, ∀ e ∈ L.dJ n X, e.1 ∈ U ∧ e.2.length = size e.1
  deriv : ∀ X v, Shaped size X → Shaped size v →
    HasDerivAt (fun t => L.J n (move X v t)) ((L.dJ n X).map (fun e => dot e.2 (v e.1))).sum 0

mutual
/-- Every sum and mean has at least one term and every penalty a known wrapping option. -/
def Expr.OK : Expr → Prop
  | .leaf _ => True
  | .scaled _ e => e.OK
  | .osum l => l ≠ [] ∧ Expr.OKs l
  | .penalty e _ f => e.OK ∧ (f = "max" ∨ f = "min" ∨ f = "identity")
  | .mean l => l ≠ [] ∧ Expr.OKs l
def Expr.OKs : List Expr → Prop
  | [] => True
  | e :: l => e.OK ∧ Expr.OKs l
end

mutual
/-- the basic objectives occurring in an expression -/
def Expr.leaves : Expr → List Nat
  | .leaf n => [n]
  | .scaled _ e => e.leaves
  | .osum l => Expr.leavess l
  | .penalty e _ _ => e.leaves
  | .mean l => Expr.leavess l
def Expr.leavess : List Expr → List Nat
  | [] => []
  | e :: l => e.leaves ++ Expr.leavess l
end

/-! ### Calculus -/

theorem hasDerivAt_sqMax (y : ℝ) : HasDerivAt (fun y : ℝ => 1 / 2 * max y 0 ^ 2) (max y 0) y := by
  rcases lt_trichotomy y 0 with h | h | h
  · rw [max_eq_right h.le]
    refine (hasDerivAt_const y (0:ℝ)).congr_of_eventuallyEq ?_
    filter_upwards [Iio_mem_nhds h] with z hz
    rw [max_eq_right (le_of_lt hz)]; simp
  · subst h
    rw [max_self, hasDerivAt_iff_isLittleO_nhds_zero]
    have h2 : (fun h : ℝ => h ^ 2) =o[𝓝 0] (fun h : ℝ => h) := by
      simpa using Asymptotics.isLittleO_pow_id (n := 2) (𝕜 := ℝ) (by norm_num)
    refine Asymptotics.IsBigO.trans_isLittleO ?_ h2
    refine Asymptotics.isBigO_of_le _ (fun z => ?_)
    simp only [zero_add, max_self, smul_eq_mul, mul_zero, sub_zero, ne_eq, OfNat.ofNat_ne_zero, not_false_eq_true, zero_pow]
    rw [Real.norm_eq_abs, Real.norm_eq_abs, abs_of_nonneg (by positivity), abs_of_nonneg (by positivity)]
    rcases le_total z 0 with hz | hz
    · rw [max_eq_right hz]; nlinarith [sq_nonneg z]
    · rw [max_eq_left hz]; nlinarith [sq_nonneg z]
  · rw [max_eq_left h.le]
    have : HasDerivAt (fun y : ℝ => 1 / 2 * y ^ 2) y y := by
      refine ((hasDerivAt_pow 2 y).const_mul (1/2 : ℝ)).congr_deriv ?_
      simp
    refine this.congr_of_eventuallyEq ?_
    filter_upwards [Ioi_mem_nhds h] with z hz
    rw [max_eq_left (le_of_lt hz)]

theorem hasDerivAt_sqMin (y : ℝ) : HasDerivAt (fun y : ℝ => 1 / 2 * min y 0 ^ 2) (min y 0) y := by
  have h := (hasDerivAt_sqMax (-y)).comp y (hasDerivAt_neg y)
  have e : (fun y : ℝ => 1 / 2 * min y 0 ^ 2) = (fun y : ℝ => 1 / 2 * max y 0 ^ 2) ∘ Neg.neg := by
    funext z
    simp only [Function.comp]
    have : max (-z) 0 = - min z 0 := by rw [← max_neg_neg]; simp
    rw [this]; ring
  rw [e]
  refine h.congr_deriv ?_
  have : max (-y) 0 = - min y 0 := by rw [← max_neg_neg]; simp
  rw [this]; ring

/-! ### Pairing -/

theorem dot_nil_left (b : List ℝ) : dot [] b = 0 := by simp [dot]

theorem dot_add : ∀ (a b v : List ℝ), a.length = b.length → dot (List.zipWith (· + ·) a b) v = dot a v + dot b v
  | [], [], v, _ => by simp [dot]
  | a :: as, b :: bs, [], _ => by simp [dot]
  | a :: as, b :: bs, v :: vs, h => by
    have ih := dot_add as bs vs (by simpa using h)
    simp only [dot, List.zipWith_cons_cons, List.sum_cons] at ih ⊢
    rw [ih]; ring

theorem dot_smul (c : ℝ) : ∀ (a v : List ℝ), dot (a.map (fun x => x * c)) v = c * dot a v
  | [], v => by simp [dot]
  | a :: as, [] => by simp [dot]
  | a :: as, v :: vs => by
    have ih := dot_smul c as vs
    simp only [dot, List.map_cons, List.zipWith_cons_cons, List.sum_cons] at ih ⊢
    rw [ih]; ring

theorem dot_zeros (n : Nat) : ∀ v : List ℝ, dot (List.replicate n 0) v = 0 := by
  induction n with
  | zero => intro v; simp [dot]
  | succ n ih =>
    intro v
    cases v with
    | nil => simp [dot]
    | cons x v => have := ih v; simp only [dot] at this ⊢; simp [List.replicate_succ, this]

/-- total derivative in direction `v` of a family of partial derivatives -/
def pair (U : List K) (P v : K → List ℝ) : ℝ := (U.map (fun k => dot (P k) (v k))).sum

theorem pair_congr {U : List K} {P Q v : K → List ℝ} (h : ∀ k, P k = Q k) : pair U P v = pair U Q v := by
  unfold pair; simp only [h]

theorem pair_add (U : List K) (P Q v : K → List ℝ) (h : ∀ k, (P k).length = (Q k).length) :
    pair U (fun k => List.zipWith (· + ·) (P k) (Q k)) v = pair U P v + pair U Q v := by
  unfold pair
  rw [← List.sum_map_add]
  congr 1
  apply List.map_congr_left
  intro k _
  exact dot_add _ _ _ (h k)

theorem pair_smul (U : List K) (c : ℝ) (P v : K → List ℝ) : pair U (fun k => (P k).map (fun x => x * c)) v = c * pair U P v := by
  unfold pair
  rw [← List.sum_map_mul_left]
  congr 1
  apply List.map_congr_left
  intro k _
  exact dot_smul _ _ _

theorem sum_single (U : List K) (hU : U.Nodup) (a : K) (ha : a ∈ U) (F : K → ℝ) :
    (U.map (fun k => if a = k then F k else 0)).sum = F a := by
  induction U with
  | nil => cases ha
  | cons b U ih =>
    rw [List.nodup_cons] at hU
    rw [List.map_cons, List.sum_cons]
    by_cases h : a = b
    · subst h
      have : U.map (fun k => if a = k then F k else 0) = U.map (fun _ => 0) :=
        List.map_congr_left (fun k hk => by rw [if_neg]; rintro rfl; exact hU.1 hk)
      rw [this]; simp
    · rw [if_neg h, ih hU.2 (by rcases List.mem_cons.mp ha with h' | h'; exact absurd h' h; exact h')]; simp

/-- Pairing the partial derivatives stored in a dict, over all objects or over its entries. -/
theorem pair_dict (size : K → Nat) (U : List K) (hU : U.Nodup) (v : K → List ℝ) : ∀ (l : List (K × List ℝ)),
    (l.map (·.1)).Nodup → (∀ e ∈ l, e.1 ∈ U) →
    pair U (fun k => ((l.find? (fun e => e.1 = k)).map (·.2)).getD (List.replicate (size k) 0)) v =
      (l.map (fun e => dot e.2 (v e.1))).sum := by
  intro l
  induction l with
  | nil => intro _ _; unfold pair; simp [dot_zeros]
  | cons e l ih =>
    intro hn hm
    rw [List.map_cons, List.nodup_cons] at hn
    rw [List.map_cons, List.sum_cons, ← ih hn.2 (fun f hf => hm f (List.mem_cons_of_mem _ hf)),
      ← sum_single U hU e.1 (hm e List.mem_cons_self) (fun k => dot e.2 (v k))]
    unfold pair
    rw [← List.sum_map_add]
    congr 1
    apply List.map_congr_left
    intro k _
    by_cases h : e.1 = k
    · have hnone : l.find? (fun f => f.1 = k) = none := by
        rw [List.find?_eq_none]
        intro f hf hc
        simp only [decide_eq_true_eq] at hc
        exact hn.1 (List.mem_map.mpr ⟨f, hf, by rw [hc, h]⟩)
      simp [List.find?_cons, h, hnone, dot_zeros]
    · simp [List.find?_cons, h]

end Simsopt.Objectives
