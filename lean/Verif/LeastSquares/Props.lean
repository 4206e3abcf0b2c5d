import Verif.LeastSquares.Eval
import Mathlib.Algebra.BigOperators.Ring.List
import Mathlib.Algebra.Order.BigOperators.Group.List
/-!
# Properties C26-C29: values, caching, failures and weights of `LeastSquaresProblem`

All are about a problem `w0` built by the constructor and a world `w` reached from it by any history.
`hn` (distinct generated names) and `hsh` (a shuffle is a permutation) are the standing assumptions of the graph model.
-/
namespace Simsopt.LSq
open Simsopt
open Simsopt.Graph (State Cfg Op Reachable SameInputs Step Inv NameInj ShuffleOK DependsOn Notified)
variable {V R : Type} {cfg : Cfg V}

section
variable [Field R] [LinearOrder R]

/-- Objects built with `funcs_in` evaluate exactly the given functions, against the given goals and weights. -/
theorem C27_funcs_in_are_evaluated (hn : NameInj cfg) (hsh : ShuffleOK cfg) {g : State V} (hr : Reachable cfg g) {cls : Nat} {fm : FnMap V R}
    {reg reg' : Registry V R} {goals weights : NumArg R} {l : List (Bound V R)} {fail : Option R} (hs : ∀ f ∈ l, g.alive f.owner = true)
    {w0 : World V R} (he : create cfg cls fm reg g goals weights (.funcs l) fail = .ok (w0, reg')) :
    w0.p.funcs = l ∧ w0.p.goals = goals.toList ∧ w0.p.inpWeights = weights.toList ∧ w0.p.fail = fail := by
  obtain ⟨_, _, _, _, h1, h2, h3, _, _, _, _, _, _, _, _, _, h4⟩ := create_ok hn hsh hr (src := .funcs l) hs he
  exact ⟨h4.1, h1, h2, h3⟩

/-- C27: whatever happened before, `unweighted_residuals(x)` returns the residuals of the functions evaluated now - in the store it leaves
    behind, where the problem's free dofs equal `x` if `x` was given and no dof changed otherwise - or, if some function fails now,
    the failure vector. -/
theorem C27_unweighted_residuals_fresh (hn : NameInj cfg) (hsh : ShuffleOK cfg) {sqrt : R → R} {w0 w w' : World V R} {b : Bool}
    (hc : Created cfg w0) (hh : Hist cfg sqrt True w0 w b) {x : Option (List V)} {r : List R} (he : unweighted cfg x w = .ok r w') :
    ((∃ outs, Returns w0.p.funcs w'.g outs ∧ r = residualVector w0.p.goals outs) ∨
      (Fails w0.p.funcs w'.g ∧ ∃ v, w0.p.fail = some v ∧ r = List.replicate w.p.nvals v)) ∧
    (∀ v, x = some v → Graph.getX w'.g w0.p.self = v) ∧ (x = none → w'.g.dof = w.g.dof) := by
  have hi := hh.inv hn hsh hc
  have ho := unweighted_out hn hsh hi.inv x
  rw [he] at ho
  obtain ⟨s1, s2, s3, s4, s5⟩ := hi.same
  obtain ⟨_, _, _, _, o5, o6, o7⟩ := ho
  rw [← s3, ← s1, ← s4, ← s5]
  refine ⟨?_, o6, fun h => (o7 h).2⟩
  rcases o5 with ⟨outs, d1, _, _, _, d5, _⟩ | ⟨d1, _, _, _, v, d5, d6⟩
  · exact Or.inl ⟨outs, d1, d5⟩
  · exact Or.inr ⟨d1, v, d5, d6⟩

/-- Conversely the evaluation does return those residuals whenever the functions return. -/
theorem C27_unweighted_residuals_returns (hn : NameInj cfg) (hsh : ShuffleOK cfg) {sqrt : R → R} {w0 w : World V R} {b : Bool}
    (hc : Created cfg w0) (hh : Hist cfg sqrt True w0 w b) {outs : List (List R)} (hret : Returns w0.p.funcs w.g outs)
    (hne : w0.p.funcs ≠ []) (hg : w0.p.funcs.length ≤ w0.p.goals.length) (hw : w0.p.funcs.length ≤ w0.p.inpWeights.length) :
    ∃ w', unweighted cfg none w = .ok (residualVector w0.p.goals outs) w' := by
  have hi := hh.inv hn hsh hc
  obtain ⟨s1, s2, s3, s4, s5⟩ := hi.same
  rw [← s3] at hret hne hg hw
  rw [← s1] at hg ⊢
  rw [← s2] at hw
  have hcomp := compute_inv hn hsh hi.inv
  rw [unweighted_eq]
  show ∃ w', compute w = _
  cases hq : compute w with
  | ok r w' =>
    rw [hq] at hcomp
    obtain ⟨_, c2, c3, c4, c5, c6, c7, c8, c9, c10, c11, c12, c13⟩ := hcomp
    refine ⟨w', ?_⟩
    rcases c13 with ⟨ws, d1, _⟩ | ⟨d1, _⟩
    · obtain ⟨outs', e1, _, _, e4, _⟩ := loop_done d1
      rw [c4] at e1
      rw [e4, c2, e1.unique (hret.congr c8)]
    · have := loop_failed d1
      rw [c4] at this
      exact absurd this (hret.congr c8).not_fails
  | error e w' =>
    rw [hq] at hcomp
    obtain ⟨_, _, _, _, _, _, _, _, c8⟩ := hcomp
    rcases c8 with d1 | ⟨d1, _⟩ | ⟨d1, _⟩
    · exact absurd hret ((loop_raised d1 hg hw).1 outs)
    · exact absurd (loop_failed d1) hret.not_fails
    · exact absurd d1 hne

/-- `unweighted_residuals(x)` is `self.x = x` followed by `unweighted_residuals()`. -/
theorem C27_argument_is_assignment (x : List V) (w : World V R) {g' : State V} (he : Graph.exec cfg (.setX w.p.self x) w.g = .ok () g') :
    unweighted cfg (some x) w = unweighted cfg none { w with g := g' } := by
  rw [unweighted_eq, unweighted_eq]
  have e : assignX cfg (some x) w = liftG (Graph.setX cfg w.p.self x) w := rfl
  have hex : Graph.exec cfg (.setX w.p.self x) w.g = Graph.setX cfg w.p.self x w.g := rfl
  rw [hex] at he
  rw [e]; unfold liftG; rw [he]; rfl

/-- C26: whenever the functions return, `objective(x) = sum_i w_i |f_i - g_i|^2` with the values of a fresh evaluation. -/
theorem C26_objective_is_weighted_squares (hn : NameInj cfg) (hsh : ShuffleOK cfg) {sqrt : R → R} {w0 w w' : World V R} {b : Bool}
    (hc : Created cfg w0) (hh : Hist cfg sqrt True w0 w b) {x : Option (List V)} {v : R} (he : objective cfg x w = .ok v w')
    {outs : List (List R)} (hret : Returns w0.p.funcs w'.g outs) :
    v = weightedSquares w0.p.goals w0.p.inpWeights outs := by
  have hi := hh.inv hn hsh hc
  have ho := unweighted_out hn hsh hi.inv x
  obtain ⟨s1, s2, s3, s4, s5⟩ := hi.same
  rw [← s3] at hret
  rw [← s1, ← s2]
  rw [objective_eq] at he
  cases hu : unweighted cfg x w with
  | error e w1 => rw [hu] at he; cases he
  | ok r w1 =>
    rw [hu] at he ho
    obtain ⟨_, o2, _, _, o5, _⟩ := ho
    simp only at he
    rcases o5 with ⟨outs', d1, d2, d3, d4, d5, d6⟩ | ⟨d1, _⟩
    · rw [d6] at he
      simp only at he
      have hl : r.length ≤ ((expand w.p.inpWeights outs').drop 0).length := by
        rw [List.drop_zero, d5, residualVector_length _ _ (by rw [d1.length]; exact d3), expand_length _ _ (by rw [d1.length]; exact d4)]
      rw [accum_eq _ _ _ _ hl] at he
      injection he with he1 he2
      subst he2
      have := d1.unique hret
      subst this
      rw [← he1, zero_add, List.drop_zero, d5, squares_eq _ _ _ (by rw [d1.length]; exact d3) (by rw [d1.length]; exact d4)]
    · exfalso
      have : w1 = w' := by
        split at he
        · split at he <;> cases he; rfl
        · split at he <;> cases he; rfl
      subst this
      exact hret.not_fails d1

/-- and it does return. -/
theorem C26_objective_returns (hn : NameInj cfg) (hsh : ShuffleOK cfg) {sqrt : R → R} {w0 w : World V R} {b : Bool}
    (hc : Created cfg w0) (hh : Hist cfg sqrt True w0 w b) {outs : List (List R)} (hret : Returns w0.p.funcs w.g outs)
    (hne : w0.p.funcs ≠ []) (hg : w0.p.funcs.length ≤ w0.p.goals.length) (hw : w0.p.funcs.length ≤ w0.p.inpWeights.length) :
    ∃ w', objective cfg none w = .ok (weightedSquares w0.p.goals w0.p.inpWeights outs) w' ∧ Returns w0.p.funcs w'.g outs := by
  obtain ⟨w', hu⟩ := C27_unweighted_residuals_returns hn hsh hc hh hret hne hg hw
  have hi := hh.inv hn hsh hc
  have ho := unweighted_out hn hsh hi.inv none
  rw [hu] at ho
  obtain ⟨s1, s2, s3, s4, s5⟩ := hi.same
  obtain ⟨_, o2, _, _, o5, _, o7⟩ := ho
  rw [← s3] at hret hne hg hw
  have hret' := hret.congr (o7 rfl).1
  rw [← s1] at hg
  rw [← s2] at hw
  rcases o5 with ⟨outs', d1, d2, d3, d4, d5, d6⟩ | ⟨d1, _⟩
  · have := d1.unique hret'
    subst this
    refine ⟨w', ?_, by rw [← s3]; exact hret'⟩
    rw [objective_eq, hu]
    simp only
    rw [d6]
    simp only
    have hl : (residualVector w0.p.goals outs').length ≤ ((expand w.p.inpWeights outs').drop 0).length := by
      rw [List.drop_zero, ← s1, residualVector_length _ _ (by rw [d1.length]; exact d3), expand_length _ _ (by rw [d1.length]; exact d4)]
    rw [accum_eq _ _ _ _ hl, zero_add, List.drop_zero, ← s1, ← s2, squares_eq _ _ _ (by rw [d1.length]; exact d3) (by rw [d1.length]; exact d4)]
  · exact absurd d1 hret'.not_fails

/-- C26: the objective is the sum of the squares of `residuals(x)`. -/
theorem C26_objective_is_residuals_squared (hn : NameInj cfg) (hsh : ShuffleOK cfg) {sqrt : R → R} (hsq : ∀ a : R, 0 ≤ a → sqrt a * sqrt a = a)
    {w0 w w1 w2 : World V R} {b : Bool} (hc : Created cfg w0) (hh : Hist cfg sqrt True w0 w b) {x : Option (List V)} {v : R} {r : List R}
    (hr : residuals sqrt cfg x w = .ok r w1) (he : objective cfg x w = .ok v w2) {outs : List (List R)}
    (hret : Returns w0.p.funcs w2.g outs) : v = (r.map fun a => a ^ 2).sum := by
  have hi := hh.inv hn hsh hc
  have ho := unweighted_out hn hsh hi.inv x
  obtain ⟨s1, s2, s3, s4, s5⟩ := hi.same
  rw [← s3] at hret
  rw [objective_eq] at he
  rw [residuals_eq] at hr
  cases hu : unweighted cfg x w with
  | error e w1 => rw [hu] at he; cases he
  | ok u w' =>
    rw [hu] at he ho hr
    obtain ⟨o1, o2, _, _, o5, _⟩ := ho
    simp only at he hr
    rcases o5 with ⟨outs', d1, d2, d3, d4, d5, d6⟩ | ⟨d1, _⟩
    · rw [d6] at he hr
      simp only at he hr
      have hlen : u.length = (expand w.p.inpWeights outs').length := by
        rw [d5, residualVector_length _ _ (by rw [d1.length]; exact d3), expand_length _ _ (by rw [d1.length]; exact d4)]
      rw [accum_eq _ _ _ _ (by rw [List.drop_zero, hlen])] at he
      rw [npMul_same (by simpa using hlen)] at hr
      injection he with he1 he2
      injection hr with hr1 hr2
      rw [← he1, ← hr1, zero_add, List.drop_zero]
      refine (residual_squares sqrt u _ (fun a ha => hsq a (expand_nonneg hi.inv.inpNonneg outs' a ha)) hlen).symm
    · exfalso
      have : w' = w2 := by
        split at he
        · split at he <;> cases he; rfl
        · split at he <;> cases he; rfl
      subst this
      exact hret.not_fails d1

variable [IsStrictOrderedRing R] in
/-- C26: the objective is never negative, also when it reports a failure. -/
theorem C26_objective_nonneg (hn : NameInj cfg) (hsh : ShuffleOK cfg) {sqrt : R → R} {w0 w w' : World V R} {b : Bool}
    (hc : Created cfg w0) (hh : Hist cfg sqrt True w0 w b) {x : Option (List V)} {v : R} (he : objective cfg x w = .ok v w') : 0 ≤ v := by
  have hi := hh.inv hn hsh hc
  have ho := unweighted_inv hn hsh hi.inv x
  have hf := unweighted_out hn hsh hi.inv x
  rw [objective_eq] at he
  cases hu : unweighted cfg x w with
  | error e w1 => rw [hu] at he; cases he
  | ok u w1 =>
    rw [hu] at he ho hf
    simp only at he
    obtain ⟨ws, hws, hnn⟩ := ho.wts hf.2.2.1
    rw [hws] at he
    simp only at he
    cases ha : accum ws 0 0 u with
    | error e => rw [ha] at he; cases he
    | ok v' =>
      rw [ha] at he
      injection he with he _
      subst he
      have hl := accum_short ws u 0 0 ha
      rw [accum_eq ws u 0 0 hl] at ha
      injection ha with ha
      rw [← ha, zero_add, List.drop_zero]
      apply List.sum_nonneg
      intro a ha
      obtain ⟨i, hi, rfl⟩ := List.getElem_of_mem ha
      rw [List.getElem_zipWith]
      simp only [List.length_zipWith] at hi
      exact mul_nonneg (mul_self_nonneg _) (hnn _ (List.getElem_mem (by omega)))

/-- C26: a negative weight is rejected. -/
theorem C26_negative_weight_rejected (cls : Nat) (fm : FnMap V R) (reg : Registry V R) (g : State V) (goals weights : NumArg R)
    (src : Source V R) (fail : Option R) (hneg : ∃ a ∈ weights.toList, a < 0) :
    create cfg cls fm reg g goals weights src fail = .error .valueError := by
  obtain ⟨a, ha, hlt⟩ := hneg
  unfold create
  rw [if_pos (List.any_eq_true.mpr ⟨a, ha, by simpa using hlt⟩)]

/-! ### C28: failures -/

/-- C28: once an evaluation has returned and `fail` is a number, a failing evaluation returns a constant vector of that number. -/
theorem C28_failure_vector (hn : NameInj cfg) (hsh : ShuffleOK cfg) {sqrt : R → R} {w0 w : World V R}
    (hc : Created cfg w0) (hh : Hist cfg sqrt True w0 w true) (hf : Fails w0.p.funcs w.g) {v : R} (hv : w0.p.fail = some v) :
    ∃ n w', unweighted cfg none w = .ok (List.replicate n v) w' := by
  have hi := hh.inv hn hsh hc
  obtain ⟨s1, s2, s3, s4, s5⟩ := hi.same
  obtain ⟨f1, f2, f3, f4⟩ := hi.succ rfl
  rw [← s3] at hf
  rw [← s4] at hv
  have hcomp := compute_inv hn hsh hi.inv
  rw [unweighted_eq]
  show ∃ n w', compute w = _
  cases hq : compute w with
  | ok r w' =>
    rw [hq] at hcomp
    obtain ⟨_, c2, c3, c4, c5, c6, c7, c8, c9, c10, c11, c12, c13⟩ := hcomp
    rcases c13 with ⟨ws, d1, _⟩ | ⟨d1, _, _, _, v', d5, d6⟩
    · obtain ⟨outs', e1, _⟩ := loop_done d1
      rw [c4] at e1
      exact absurd (hf.congr c8) e1.not_fails
    · rw [hv] at d5; injection d5 with d5; subst d5
      exact ⟨w.p.nvals, w', by rw [d6]⟩
  | error e w' =>
    rw [hq] at hcomp
    obtain ⟨_, _, _, _, _, _, _, _, c8⟩ := hcomp
    rcases c8 with d1 | ⟨d1, _, d3⟩ | ⟨d1, _⟩
    · exact absurd hf (loop_raised d1 f3 f4).2
    · rcases d3 with d3 | d3
      · rw [hv] at d3; cases d3
      · rw [f1] at d3; cases d3
    · exact absurd d1 f2

/-- C28, length part, for problems whose functions return arrays of fixed lengths and whose first evaluation did not fail: the failure vector is
    exactly as long as every successful residual vector.  The full statement has no condition on the first evaluation; it is false, see
    `C28_length_violated`. -/
theorem C28_failure_length (hn : NameInj cfg) (hsh : ShuffleOK cfg) {sqrt : R → R} {w0 w w' : World V R} {b : Bool}
    (hc : Created cfg w0) (hh : Hist cfg sqrt False w0 w b) {lens : List Nat} (hl : FixedLengths w0.p.funcs lens)
    {x : Option (List V)} {r : List R} (he : unweighted cfg x w = .ok r w') : r.length = lens.sum := by
  have hi := hh.inv hn hsh hc
  have ho := unweighted_out hn hsh hi.inv x
  rw [he] at ho
  obtain ⟨s1, s2, s3, s4, s5⟩ := hi.same
  rw [← s3] at hl
  obtain ⟨_, _, _, _, o5, _⟩ := ho
  rcases o5 with ⟨outs, d1, _, d3, _, d5, _⟩ | ⟨d1, d2, _, _, v, d5, d6⟩
  · rw [d5, residualVector_length _ _ (by rw [d1.length]; exact d3), hl _ _ d1]
  · obtain ⟨l1, l2⟩ := hi.len lens hl id
    have hne : w.p.funcs ≠ [] := by
      rintro h0
      obtain ⟨pre, k, post, _, he, _⟩ := d1
      rw [h0] at he; cases pre <;> cases he
    cases b with
    | false => have := hi.none rfl hne; rw [d2] at this; cases this
    | true => rw [d6, List.length_replicate, (l2 rfl).1]

/-- For such problems `objective` is the sum of squares of `residuals` also when the evaluation fails. -/
theorem C26_residuals_squared_on_failure (hn : NameInj cfg) (hsh : ShuffleOK cfg) {sqrt : R → R} (hsq : ∀ a : R, 0 ≤ a → sqrt a * sqrt a = a)
    {w0 w w1 w2 : World V R} {b : Bool} (hc : Created cfg w0) (hh : Hist cfg sqrt False w0 w b) {lens : List Nat}
    (hl : FixedLengths w0.p.funcs lens) {x : Option (List V)} {v : R} {r : List R}
    (hr : residuals sqrt cfg x w = .ok r w1) (he : objective cfg x w = .ok v w2) : v = (r.map fun a => a ^ 2).sum := by
  have hi := hh.inv hn hsh hc
  obtain ⟨s1, s2, s3, s4, s5⟩ := hi.same
  have ho := unweighted_out hn hsh hi.inv x
  have hoi := unweighted_inv hn hsh hi.inv x
  rw [objective_eq] at he
  rw [residuals_eq] at hr
  cases hu : unweighted cfg x w with
  | error e w1 => rw [hu] at he; cases he
  | ok u w' =>
    rw [hu] at he ho hr hoi
    obtain ⟨o1, o2, o3, _, o5, _⟩ := ho
    obtain ⟨ws, hws, hnn⟩ := o1.wts o3
    have hul := C28_failure_length hn hsh hc hh hl hu
    have hwl : ws.length = lens.sum := by
      rcases o5 with ⟨outs, d1, _, d3, d4, d5, d6⟩ | ⟨d1, d2, d3, _⟩
      · rw [d6] at hws; injection hws with hws
        rw [← s3] at hl
        rw [← hws, expand_length _ _ (by rw [d1.length]; exact d4), hl _ _ d1]
      · rw [← s3] at hl
        obtain ⟨l1, l2⟩ := hi.len lens hl id
        have hne : w.p.funcs ≠ [] := by
          rintro h0
          obtain ⟨pre, k, post, _, he, _⟩ := d1
          rw [h0] at he; cases pre <;> cases he
        cases b with
        | false => have := hi.none rfl hne; rw [d2] at this; cases this
        | true =>
          obtain ⟨_, ws', e1, e2⟩ := l2 rfl
          rw [d3, e1] at hws; injection hws with hws
          rw [← hws]; exact e2
    have hlen : u.length = ws.length := by rw [hul, hwl]
    simp only [hws] at he hr
    rw [accum_eq _ _ _ _ (by rw [List.drop_zero, hlen])] at he
    rw [npMul_same (by simpa using hlen)] at hr
    injection he with he1 he2
    injection hr with hr1 hr2
    rw [← he1, ← hr1, zero_add, List.drop_zero]
    exact (residual_squares sqrt u _ (fun a ha => hsq a (hnn a ha)) hlen).symm

/-- C28: with `fail=None`, or while no evaluation has returned, the exception of the failing function propagates. -/
theorem C28_failure_propagates (hn : NameInj cfg) (hsh : ShuffleOK cfg) {sqrt : R → R} {w0 w : World V R} {b : Bool}
    (hc : Created cfg w0) (hh : Hist cfg sqrt True w0 w b) (hf : Fails w0.p.funcs w.g) (hv : w0.p.fail = none ∨ b = false)
    (hg : w0.p.funcs.length ≤ w0.p.goals.length) (hw : w0.p.funcs.length ≤ w0.p.inpWeights.length) :
    ∃ w', unweighted cfg none w = .error .objectiveFailure w' := by
  have hi := hh.inv hn hsh hc
  obtain ⟨s1, s2, s3, s4, s5⟩ := hi.same
  rw [← s3] at hf hg hw
  rw [← s1] at hg
  rw [← s2] at hw
  rw [← s4] at hv
  have hne : w.p.funcs ≠ [] := by
    rintro h0
    obtain ⟨pre, k, post, _, he, _⟩ := hf
    rw [h0] at he; cases pre <;> cases he
  have hcomp := compute_inv hn hsh hi.inv
  rw [unweighted_eq]
  show ∃ w', compute w = _
  cases hq : compute w with
  | ok r w' =>
    rw [hq] at hcomp
    obtain ⟨_, c2, c3, c4, c5, c6, c7, c8, c9, c10, c11, c12, c13⟩ := hcomp
    rcases c13 with ⟨ws, d1, _⟩ | ⟨d1, d2, _, _, v', d5, d6⟩
    · obtain ⟨outs', e1, _⟩ := loop_done d1
      rw [c4] at e1
      exact absurd (hf.congr c8) e1.not_fails
    · rcases hv with hv | hv
      · rw [hv] at d5; cases d5
      · have := hi.none hv hne; rw [d2] at this; cases this
  | error e w' =>
    rw [hq] at hcomp
    obtain ⟨_, _, _, _, _, _, _, _, c8⟩ := hcomp
    rcases c8 with d1 | ⟨d1, d2, d3⟩ | ⟨d1, _⟩
    · exact absurd hf (loop_raised d1 hg hw).2
    · exact ⟨w', by rw [d2]⟩
    · exact absurd d1 hne

/-! ### C29: `from_sigma` -/

/-- `sum_i |f_i - g_i|^2 / sigma_i^2`, written as squares of quotients. -/
def sigmaSquares (goals sigma : List R) (outs : List (List R)) : R :=
  ((outs.zip (goals.zip sigma)).map fun e => (e.1.map fun f => ((f - e.2.1) / e.2.2) ^ 2).sum).sum

theorem sigmaSquares_eq (goals sigma : List R) (outs : List (List R)) :
    weightedSquares goals (sigma.map fun r => 1 / (r * r)) outs = sigmaSquares goals sigma outs := by
  unfold weightedSquares sigmaSquares
  rw [List.zip_map_right, List.zip_map_right, List.map_map]
  congr 1
  apply List.map_congr_left
  intro e _
  simp only [Function.comp, Prod.map, id]
  rw [← List.sum_map_mul_left]
  congr 1
  apply List.map_congr_left
  intro f _
  rw [div_pow, one_div, div_eq_mul_inv, pow_two e.2.2]
  ring

theorem fromSigma_create {cls : Nat} {fm : FnMap V R} {reg reg' : Registry V R} {g : State V} {goals sigma : NumArg R} {src : Source V R}
    {fail : Option R} {w0 : World V R} (he : fromSigma cfg cls fm reg g goals sigma src fail = .ok (w0, reg')) :
    ∃ weights : NumArg R, create cfg cls fm reg g goals weights src fail = .ok (w0, reg') ∧
      weights.toList = sigma.toList.map (fun r => 1 / (r * r)) := by
  unfold fromSigma at he
  split at he
  · cases he
  · cases sigma with
    | num r => exact ⟨_, he, rfl⟩
    | seq l => exact ⟨_, he, rfl⟩

/-- C29: a problem built by `from_sigma` from functions `l` has objective `sum ((f - g) / sigma)^2`, after any history. -/
theorem C29_from_sigma (hn : NameInj cfg) (hsh : ShuffleOK cfg) {g : State V} (hr : Reachable cfg g) {cls : Nat} {fm : FnMap V R}
    {reg reg' : Registry V R} {goals sigma : NumArg R} {l : List (Bound V R)} {fail : Option R} (hs : ∀ f ∈ l, g.alive f.owner = true)
    (hl : ∀ f ∈ l, ReadsInputs cfg f) {w0 : World V R} (hcr : fromSigma cfg cls fm reg g goals sigma (.funcs l) fail = .ok (w0, reg'))
    {sqrt : R → R} {w w' : World V R} {b : Bool} (hh : Hist cfg sqrt True w0 w b) {x : Option (List V)} {v : R}
    (he : objective cfg x w = .ok v w') {outs : List (List R)} (hret : Returns l w'.g outs) :
    v = sigmaSquares goals.toList sigma.toList outs := by
  obtain ⟨weights, h1, h2⟩ := fromSigma_create hcr
  obtain ⟨e1, e2, e3, _⟩ := C27_funcs_in_are_evaluated hn hsh hr hs h1
  have hc : Created cfg w0 := ⟨g, cls, fm, reg, goals, weights, .funcs l, fail, reg', hr, hs, h1, by rw [e1]; exact hl⟩
  rw [C26_objective_is_weighted_squares hn hsh hc hh he (by rw [e1]; exact hret), e2, e3, h2, sigmaSquares_eq]

/-- C29: any zero sigma is rejected. -/
theorem C29_zero_sigma_rejected (cls : Nat) (fm : FnMap V R) (reg : Registry V R) (g : State V) (goals sigma : NumArg R)
    (src : Source V R) (fail : Option R) (hz : (0 : R) ∈ sigma.toList) :
    fromSigma cfg cls fm reg g goals sigma src fail = .error .valueError := by
  unfold fromSigma
  rw [if_pos (List.any_eq_true.mpr ⟨0, hz, by simp⟩)]

end
end Simsopt.LSq
