import Verif.FD.Lemmas
import Mathlib.Analysis.Calculus.Deriv.Mul
import Mathlib.Analysis.Calculus.Deriv.Add
import Mathlib.Analysis.Calculus.Deriv.Pow
import Mathlib.Tactic.FieldSimp
import Mathlib.Tactic.NormNum
import Mathlib.Tactic.IntervalCases
/-!
# C23: the serial finite-difference Jacobian
-/
namespace Simsopt.FD
open Simsopt Simsopt.Util

/-- The point at which `jac(x)` differentiates, according to the docstring: the argument if given, else the `x0` of the constructor (or of an
    earlier call), else the object's current vector. -/
def pointOf (x : Option Arr) (s : St) : Arr := match x with
  | some a => a
  | none => match s.x0 with
    | some a => a
    | none => ⟨false, s.optX⟩

/-- The points at which a forward scheme evaluates: the base point, then one shifted point per coordinate. -/
noncomputable def forwardPoints (x0 h : List ℝ) : List (List ℝ) :=
  x0 :: (List.range x0.length).map (fun j => shift x0 j (h.getD j 0))

/-- The points at which a centered scheme evaluates: two shifted points per coordinate. -/
noncomputable def centeredPoints (x0 h : List ℝ) : List (List ℝ) :=
  (List.range x0.length).flatMap (fun j => [shift x0 j (h.getD j 0), shift x0 j (-h.getD j 0)])

/-- one evaluation at the current point when the output size is not known yet -/
def sizePoints (s : St) : List (List ℝ) := match s.jacSize with | none => [s.optX] | some _ => []

theorem pickX0_after (x : Option Arr) (s : St) : ∃ a, storeX0 x s = (.ok (), { s with x0 := a }) ∧
    pickX0 { s with x0 := a } = (.ok (pointOf x s), { s with x0 := a }) := by
  cases x with
  | some a => exact ⟨some a, rfl, rfl⟩
  | none => exact ⟨s.x0, rfl, rfl⟩

theorem ensureSize_ok {fn : List ℝ → Except Err (List ℝ)} {m n : Nat} {s : St} (hn : s.optX.length = n)
    (hs : s.jacSize = some (m, n) ∨ (s.jacSize = none ∧ ∃ v, fn s.optX = .ok v ∧ v.length = m)) :
    ensureSize fn s = (.ok (m, n), { s with jacSize := some (m, n), evals := s.evals ++ sizePoints s }) := by
  rcases hs with h | ⟨h, v, hv, hl⟩
  · unfold ensureSize sizePoints; rw [h]; cases s; simp_all
  · unfold ensureSize sizePoints; rw [h]; simp [callFn, hv, hl, hn]

/-- **C23, forward scheme.**  If the function can be evaluated at the points of the scheme (and at the current point, when its output size is not known
    yet), `jac` returns the matrix whose column `j` is the forward difference quotient with step `h_j`, it calls the function at exactly these points in
    this order, and afterwards the object's `x` is what it was before the call. -/
theorem C23_forward (fn : List ℝ → Except Err (List ℝ)) (F : List ℝ → List ℝ) (m n : Nat) (absStep relStep : ℝ) (x : Option Arr) (s : St) (x0 h : List ℝ)
    (hpt : pointOf x s = ⟨false, x0⟩) (hn : x0.length = n) (hn' : s.optX.length = n)
    (hsteps : finiteDifferenceSteps id x0 absStep relStep = .ok h)
    (hsz : s.jacSize = some (m, n) ∨ (s.jacSize = none ∧ ∃ v, fn s.optX = .ok v ∧ v.length = m))
    (hF : ∀ p ∈ forwardPoints x0 h, fn p = .ok (F p) ∧ (F p).length = m) :
    ∃ J s', jac fn absStep relStep false x s = (.ok J, s') ∧ J.length = n ∧
      (∀ j, j < n → ∃ col, J[j]? = some col ∧ col.length = m ∧
        ∀ i, i < m → col.getD i 0 = ((F (shift x0 j (h.getD j 0))).getD i 0 - (F x0).getD i 0) / h.getD j 0) ∧
      s'.optX = s.optX ∧ s'.evals = s.evals ++ sizePoints s ++ forwardPoints x0 h := by
  have h0 : fn x0 = .ok (F x0) ∧ (F x0).length = m := hF x0 (by simp [forwardPoints])
  have hj : ∀ j, j < n → fn (shift x0 j (h.getD j 0)) = .ok (F (shift x0 j (h.getD j 0))) ∧ (F (shift x0 j (h.getD j 0))).length = m := by
    intro j hj
    apply hF
    simp only [forwardPoints, List.mem_cons, List.mem_map, List.mem_range]
    exact Or.inr ⟨j, by omega, rfl⟩
  obtain ⟨a, e1, e2⟩ := pickX0_after x s
  let s2 : St := { s with x0 := a, jacSize := some (m, n), evals := s.evals ++ sizePoints s }
  have e3 : ensureSize fn { s with x0 := a } = (.ok (m, n), s2) := ensureSize_ok (s := { s with x0 := a }) hn' hsz
  let s3 : St := { s2 with optX := x0, evals := s2.evals ++ [x0] }
  obtain ⟨y, hy, hl⟩ := forLoop_ok (n := n) (body := forwardStep fn m ⟨false, x0⟩ h (F x0)) (c := fwdCol F x0 h)
    (p := fun j => shift x0 j (h.getD j 0)) (e := fun j => [shift x0 j (h.getD j 0)]) (List.range n)
    (List.replicate n (List.replicate m 0)) s3 hn (by simp) (by simp) (by simp [hn])
    (fun j hj' J s h1 h2 => forwardStep_ok (by omega) (by simpa [h2] using hj') (hj j (by simpa using hj')) h0.2)
  refine ⟨(List.range n).map (fwdCol F x0 h), { s3 with optX := s.optX, evals := s3.evals ++ (List.range n).flatMap (fun j => [shift x0 j (h.getD j 0)]) },
    ?_, by simp, ?_, rfl, ?_⟩
  · unfold jac
    simp only [bind_def, e1, e2, getOptX, e3, hpt, lift_def, hsteps, Bool.false_eq_true, if_false]
    rw [setOptX_ok (s := s2) (x := x0) (by simp only [s2]; omega)]
    simp only [callFn, h0.1]
    rw [hn]
    have hl' := hl
    simp only [s3, s2] at hl' ⊢
    rw [hl']
    simp only
    rw [setOptX_ok (by simp only; omega)]
    rw [foldl_set_range _ _ _ (by simp)]
    rfl
  · intro j hjn
    refine ⟨fwdCol F x0 h j, by simp [hjn], by simp only [fwdCol, List.length_map, List.length_zipWith, (hj j hjn).2, h0.2, min_self], ?_⟩
    intro i hi
    exact quot_getD (hj j hjn).2 h0.2 hi _
  · simp only [s3, s2, forwardPoints, List.append_assoc, List.singleton_append, hn]
    congr 3
    rw [← List.map_eq_flatMap]

/-- **C23, centered scheme.** -/
theorem C23_centered (fn : List ℝ → Except Err (List ℝ)) (F : List ℝ → List ℝ) (m n : Nat) (absStep relStep : ℝ) (x : Option Arr) (s : St) (x0 h : List ℝ)
    (hpt : pointOf x s = ⟨false, x0⟩) (hn : x0.length = n) (hn' : s.optX.length = n)
    (hsteps : finiteDifferenceSteps id x0 absStep relStep = .ok h)
    (hsz : s.jacSize = some (m, n) ∨ (s.jacSize = none ∧ ∃ v, fn s.optX = .ok v ∧ v.length = m))
    (hF : ∀ p ∈ centeredPoints x0 h, fn p = .ok (F p) ∧ (F p).length = m) :
    ∃ J s', jac fn absStep relStep true x s = (.ok J, s') ∧ J.length = n ∧
      (∀ j, j < n → ∃ col, J[j]? = some col ∧ col.length = m ∧
        ∀ i, i < m → col.getD i 0 = ((F (shift x0 j (h.getD j 0))).getD i 0 - (F (shift x0 j (-h.getD j 0))).getD i 0) / (2 * h.getD j 0)) ∧
      s'.optX = s.optX ∧ s'.evals = s.evals ++ sizePoints s ++ centeredPoints x0 h := by
  have hj : ∀ j, j < n → fn (shift x0 j (h.getD j 0)) = .ok (F (shift x0 j (h.getD j 0))) ∧ (F (shift x0 j (h.getD j 0))).length = m := by
    intro j hj
    apply hF
    simp only [centeredPoints, List.mem_flatMap, List.mem_range]
    exact ⟨j, by omega, by simp⟩
  have hj2 : ∀ j, j < n → fn (shift x0 j (-h.getD j 0)) = .ok (F (shift x0 j (-h.getD j 0))) ∧ (F (shift x0 j (-h.getD j 0))).length = m := by
    intro j hj
    apply hF
    simp only [centeredPoints, List.mem_flatMap, List.mem_range]
    exact ⟨j, by omega, by simp⟩
  obtain ⟨a, e1, e2⟩ := pickX0_after x s
  let s2 : St := { s with x0 := a, jacSize := some (m, n), evals := s.evals ++ sizePoints s }
  have e3 : ensureSize fn { s with x0 := a } = (.ok (m, n), s2) := ensureSize_ok (s := { s with x0 := a }) hn' hsz
  obtain ⟨y, hy, hl⟩ := forLoop_ok (n := n) (body := centeredStep fn m ⟨false, x0⟩ h) (c := centCol F x0 h)
    (p := fun j => shift x0 j (-h.getD j 0)) (e := fun j => [shift x0 j (h.getD j 0), shift x0 j (-h.getD j 0)]) (List.range n)
    (List.replicate n (List.replicate m 0)) s2 hn' (by simp) (by simp) (by simp [hn])
    (fun j hj' J s h1 h2 => centeredStep_ok (by omega) (by simpa [h2] using hj') (hj j (by simpa using hj')) (hj2 j (by simpa using hj')))
  refine ⟨(List.range n).map (centCol F x0 h), { s2 with optX := s.optX, evals := s2.evals ++ centeredPoints x0 h },
    ?_, by simp, ?_, rfl, rfl⟩
  · unfold jac
    simp only [bind_def, e1, e2, getOptX, e3, hpt, lift_def, hsteps, if_true, hn]
    rw [hl]
    simp only
    rw [setOptX_ok (by simp only; omega)]
    rw [foldl_set_range _ _ _ (by simp)]
    simp [centeredPoints, hn]
  · intro j hjn
    refine ⟨centCol F x0 h j, by simp [hjn], by simp only [centCol, List.length_map, List.length_zipWith, (hj j hjn).2, (hj2 j hjn).2, min_self], ?_⟩
    intro i hi
    exact quot_getD (hj j hjn).2 (hj2 j hjn).2 hi _

/-- **C23, exactness of the forward scheme.**  If along every coordinate line through the point each output is affine, the returned entries are the
    partial derivatives. -/
theorem C23_forward_exact (fn : List ℝ → Except Err (List ℝ)) (F : List ℝ → List ℝ) (m n : Nat) (absStep relStep : ℝ) (x : Option Arr) (s : St) (x0 h : List ℝ)
    (hpt : pointOf x s = ⟨false, x0⟩) (hn : x0.length = n) (hn' : s.optX.length = n)
    (hsteps : finiteDifferenceSteps id x0 absStep relStep = .ok h)
    (hsz : s.jacSize = some (m, n) ∨ (s.jacSize = none ∧ ∃ v, fn s.optX = .ok v ∧ v.length = m))
    (hF : ∀ p ∈ forwardPoints x0 h, fn p = .ok (F p) ∧ (F p).length = m)
    (haff : ∀ i, i < m → ∀ j, j < n → ∃ a b, ∀ t, (F (shift x0 j t)).getD i 0 = a + b * t) :
    ∃ J s', jac fn absStep relStep false x s = (.ok J, s') ∧
      ∀ j, j < n → ∃ col, J[j]? = some col ∧ ∀ i, i < m → col.getD i 0 = deriv (fun t => (F (shift x0 j t)).getD i 0) 0 := by
  obtain ⟨J, s', e, _, hc, _⟩ := C23_forward fn F m n absStep relStep x s x0 h hpt hn hn' hsteps hsz hF
  refine ⟨J, s', e, fun j hj => ?_⟩
  obtain ⟨col, h1, _, h3⟩ := hc j hj
  refine ⟨col, h1, fun i hi => ?_⟩
  obtain ⟨a, b, hab⟩ := haff i hi j hj
  have hlen := steps_length hsteps
  have hpos : 0 < h.getD j 0 := by
    rw [getD_lt (by omega)]; exact steps_pos hsteps _ (List.getElem_mem _)
  have hx : (F x0).getD i 0 = a := by
    have := hab 0
    simpa [shift_zero] using this
  rw [h3 i hi, hab, hx]
  have : (fun t => (F (shift x0 j t)).getD i 0) = fun t => a + b * t := funext hab
  rw [this]
  have hd : HasDerivAt (fun t : ℝ => a + b * t) (b * 1) 0 := ((hasDerivAt_id (0:ℝ)).const_mul b).const_add a
  rw [hd.deriv]
  field_simp
  ring

/-- **C23, exactness of the centered scheme.**  If along every coordinate line through the point each output is a polynomial of degree at most two, the
    returned entries are the partial derivatives. -/
theorem C23_centered_exact (fn : List ℝ → Except Err (List ℝ)) (F : List ℝ → List ℝ) (m n : Nat) (absStep relStep : ℝ) (x : Option Arr) (s : St) (x0 h : List ℝ)
    (hpt : pointOf x s = ⟨false, x0⟩) (hn : x0.length = n) (hn' : s.optX.length = n)
    (hsteps : finiteDifferenceSteps id x0 absStep relStep = .ok h)
    (hsz : s.jacSize = some (m, n) ∨ (s.jacSize = none ∧ ∃ v, fn s.optX = .ok v ∧ v.length = m))
    (hF : ∀ p ∈ centeredPoints x0 h, fn p = .ok (F p) ∧ (F p).length = m)
    (hquad : ∀ i, i < m → ∀ j, j < n → ∃ a b c, ∀ t, (F (shift x0 j t)).getD i 0 = a + b * t + c * t ^ 2) :
    ∃ J s', jac fn absStep relStep true x s = (.ok J, s') ∧
      ∀ j, j < n → ∃ col, J[j]? = some col ∧ ∀ i, i < m → col.getD i 0 = deriv (fun t => (F (shift x0 j t)).getD i 0) 0 := by
  obtain ⟨J, s', e, _, hc, _⟩ := C23_centered fn F m n absStep relStep x s x0 h hpt hn hn' hsteps hsz hF
  refine ⟨J, s', e, fun j hj => ?_⟩
  obtain ⟨col, h1, _, h3⟩ := hc j hj
  refine ⟨col, h1, fun i hi => ?_⟩
  obtain ⟨a, b, c, hab⟩ := hquad i hi j hj
  have hlen := steps_length hsteps
  have hpos : 0 < h.getD j 0 := by
    rw [getD_lt (by omega)]; exact steps_pos hsteps _ (List.getElem_mem _)
  rw [h3 i hi, hab, hab]
  have : (fun t => (F (shift x0 j t)).getD i 0) = fun t => a + b * t + c * t ^ 2 := funext hab
  rw [this]
  have hd : HasDerivAt (fun t : ℝ => a + b * t + c * t ^ 2) (b * 1 + c * (((2:ℕ):ℝ) * (0:ℝ) ^ (2 - 1) * 1)) 0 :=
    (((hasDerivAt_id (0:ℝ)).const_mul b).const_add a).add (((hasDerivAt_id (0:ℝ)).pow 2).const_mul c)
  rw [hd.deriv]
  field_simp
  ring

/-! Non-vacuity: a two-variable function that is affine in each variable, at a concrete point; all the hypotheses are met. -/

/-- `f(x, y) = [x y, 3 x]` -/
noncomputable def demo (p : List ℝ) : List ℝ := [p.getD 0 0 * p.getD 1 0, 3 * p.getD 0 0]

theorem demo_steps : finiteDifferenceSteps id [2, 5] (1/2) 0 = .ok [1/2, 1/2] := by
  unfold finiteDifferenceSteps; norm_num

example : ∃ J s', jac (fun p => .ok (demo p)) (1/2) 0 false none ⟨[2, 5], none, none, []⟩ = (.ok J, s') ∧
    ∀ j, j < 2 → ∃ col, J[j]? = some col ∧ ∀ i, i < 2 → col.getD i 0 = deriv (fun t => (demo (shift [2, 5] j t)).getD i 0) 0 := by
  refine C23_forward_exact _ demo 2 2 (1/2) 0 none _ [2, 5] [1/2, 1/2] rfl rfl rfl demo_steps (Or.inr ⟨rfl, _, rfl, rfl⟩) (fun p _ => ⟨rfl, rfl⟩) ?_
  intro i hi j hj
  interval_cases i <;> interval_cases j
  · exact ⟨10, 5, fun t => by simp [demo, shift]; ring⟩
  · exact ⟨10, 2, fun t => by simp [demo, shift]; ring⟩
  · exact ⟨6, 3, fun t => by simp [demo, shift]; ring⟩
  · exact ⟨6, 0, fun t => by simp [demo, shift]; ring⟩

/-! ### Where the code does not do what the property says -/

theorem steps_one (x : ℝ) : finiteDifferenceSteps id [x] 1 0 = .ok [1] := by
  unfold finiteDifferenceSteps; norm_num

/-- If the function raises during the scheme, the exception propagates and the object is left at a shifted point: there is no `try/finally`. -/
theorem C23_exception_violated : ∃ (fn : List ℝ → Except Err (List ℝ)) (s : St) (e : Err), fn s.optX = .ok [0] ∧
    (jac fn 1 0 false none s).1 = .error e ∧ (jac fn 1 0 false none s).2.optX ≠ s.optX := by
  classical
  refine ⟨fun p => if p = [0] then .ok [0] else .error .runtimeError, ⟨[0], none, none, []⟩, .runtimeError, by simp, ?_, ?_⟩
  · simp [jac, storeX0, pickX0, getOptX, ensureSize, callFn, steps_one, setOptX, List.range_succ, forLoop, forwardStep, storeAt]
  · simp [jac, storeX0, pickX0, getOptX, ensureSize, callFn, steps_one, setOptX, List.range_succ, forLoop, forwardStep, storeAt]

/-- A later `jac()` without argument differentiates at the point of the last call that had one, not at the object's current `x`. -/
theorem C23_sticky_point_violated (fn : List ℝ → Except Err (List ℝ)) (F : List ℝ → List ℝ) (hF : ∀ p, fn p = .ok (F p) ∧ (F p).length = 1) (a : ℝ) :
    ∃ J s1, jac fn 1 0 false (some ⟨false, [a]⟩) ⟨[a], none, none, []⟩ = (.ok J, s1) ∧ s1.optX = [a] ∧
      ∀ b : ℝ, ∃ J' s2, jac fn 1 0 false none { s1 with optX := [b] } = (.ok J', s2) ∧
        J'.map (·.getD 0 0) = [(F [a + 1]).getD 0 0 - (F [a]).getD 0 0] := by
  obtain ⟨J, s1, e1, _, _, h1, _⟩ := C23_forward fn F 1 1 1 0 (some ⟨false, [a]⟩) ⟨[a], none, none, []⟩ [a] [1] rfl rfl rfl (steps_one a)
    (Or.inr ⟨rfl, _, (hF _).1, (hF _).2⟩) (fun p _ => hF p)
  have hx : s1.x0 = some ⟨false, [a]⟩ ∧ s1.jacSize = some (1, 1) := by
    have hl := fun p => (hF p).2
    have hf := fun p => (hF p).1
    simp [jac, storeX0, pickX0, getOptX, ensureSize, callFn, steps_one, setOptX, List.range_succ, forLoop, forwardStep, storeAt, hl, hf, npSub, setCol] at e1
    rw [← e1.2]; exact ⟨rfl, rfl⟩
  refine ⟨J, s1, e1, h1, fun b => ?_⟩
  obtain ⟨J', s2, e2, hl, hc, _⟩ := C23_forward fn F 1 1 1 0 none { s1 with optX := [b] } [a] [1] (by simp [pointOf, hx.1]) rfl rfl (steps_one a)
    (Or.inl hx.2) (fun p _ => hF p)
  refine ⟨J', s2, e2, ?_⟩
  obtain ⟨col, hcol, _, hv⟩ := hc 0 (by omega)
  have hJ : J' = [col] := by
    match J', hl, hcol with
    | [c], _, h => simp at h; simp [h]
  rw [hJ]
  simp only [List.map_cons, List.map_nil, hv 0 (by omega)]
  simp [shift]

/-- If the point is given as integers (`jac([1, 2])`), `np.asarray` makes an integer array and the step is truncated away: the Jacobian of the identity
    comes out as 0. -/
theorem C23_integer_point_violated :
    (jac (fun p => .ok p) (1/2) 0 false (some ⟨true, [1]⟩) ⟨[1], none, none, []⟩).1 = .ok [[0]] := by
  have hst : finiteDifferenceSteps id [1] 2⁻¹ 0 = .ok [2⁻¹] := by unfold finiteDifferenceSteps; norm_num
  have ht : trunc (1 + 1/2) = 1 := by
    unfold trunc; rw [if_pos (by norm_num)]
    have : ⌊(1 + 1/2 : ℝ)⌋ = 1 := by rw [Int.floor_eq_iff]; norm_num
    rw [this]; norm_num
  have ht' : trunc (1 + 2⁻¹) = 1 := by rw [← one_div]; exact ht
  simp [jac, storeX0, pickX0, getOptX, ensureSize, callFn, hst, setOptX, List.range_succ, forLoop, forwardStep, storeAt, ht', npSub, setCol]

/-- The size of the Jacobian is remembered from the first call: after a dof has been fixed (the vector got shorter) the result still has the old number of
    columns, the last ones zero. -/
theorem C23_stale_size_violated :
    (jac (fun p => .ok [p.getD 0 0]) 1 0 false none ⟨[7], none, some (1, 2), []⟩).1 = .ok [[1], [0]] := by
  simp [jac, storeX0, pickX0, getOptX, ensureSize, callFn, steps_one, setOptX, List.range_succ, forLoop, forwardStep, storeAt, npSub, setCol]

end Simsopt.FD
