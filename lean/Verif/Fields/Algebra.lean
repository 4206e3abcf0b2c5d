import Verif.Fields.Lemmas
import Mathlib.Algebra.BigOperators.Ring.List
import Mathlib.Tactic.LinearCombination
/-!
# Sums and multiples of magnetic fields

Model of `MagneticField.__add__`, `__mul__`, `__rmul__`, `MagneticFieldMultiply` and `MagneticFieldSum` (src/simsopt/field/magneticfield.py L65-75, L159-260).  The callbacks hand the Cartesian points of the sum or multiple to its parts (L172-173, L218-220), so
all of them are evaluated at the same points; the caches are the subject of Caches/ (C39, C40).  A field is what its six evaluation functions return at a point.
-/
namespace Simsopt.Fields.Algebra
open Simsopt.Fields

/-- What the evaluation functions of a field return at a point. -/
structure Full where
  B : P3 → P3
  dB : P3 → T2
  ddB : P3 → T3
  A : P3 → P3
  dA : P3 → T2
  ddA : P3 → T3

/-- `MagneticFieldMultiply` (L175-191). -/
def mulField (c : ℝ) (f : Full) : Full where
  B := fun q l => c * f.B q l
  dB := fun q j l => c * f.dB q j l
  ddB := fun q j k l => c * f.ddB q j k l
  A := fun q l => c * f.A q l
  dA := fun q j l => c * f.dA q j l
  ddA := fun q j k l => c * f.ddA q j k l

/-- `MagneticFieldSum` (L222-239): `np.sum([...], axis=0)`, which is 0 for an empty list. -/
def sumField (fs : List Full) : Full where
  B := fun q l => (fs.map fun f => f.B q l).sum
  dB := fun q j l => (fs.map fun f => f.dB q j l).sum
  ddB := fun q j k l => (fs.map fun f => f.ddB q j k l).sum
  A := fun q l => (fs.map fun f => f.A q l).sum
  dA := fun q j l => (fs.map fun f => f.dA q j l).sum
  ddA := fun q j k l => (fs.map fun f => f.ddA q j k l).sum

/-- The fields a user can build from others: any nesting of sums and multiples. -/
inductive Expr where
  | leaf (f : Full)
  | mul (c : ℝ) (e : Expr)
  | sum (es : List Expr)

/-- `a + b` (L65-67). -/
def Expr.add (a b : Expr) : Expr := .sum [a, b]
/-- `a * c` and `c * a` (L69-75). -/
def Expr.smul (a : Expr) (c : ℝ) : Expr := .mul c a

mutual
/-- The field an expression stands for. -/
def eval : Expr → Full
  | .leaf f => f
  | .mul c e => mulField c (eval e)
  | .sum es => sumField (evalList es)
def evalList : List Expr → List Full
  | [] => []
  | e :: es => eval e :: evalList es
end

/-! ## Specification -/

mutual
/-- The fields at the leaves, each with the product of the factors above it. -/
def terms : Expr → List (ℝ × Full)
  | .leaf f => [(1, f)]
  | .mul c e => (terms e).map fun t => (c * t.1, t.2)
  | .sum es => termsList es
def termsList : List Expr → List (ℝ × Full)
  | [] => []
  | e :: es => terms e ++ termsList es
end

/-- What one expects of the arrays a field returns, in the documented order. -/
inductive Claim where
  | jacobianB | hessianB | jacobianA | hessianA | potential | divergenceFree | curlFree

def Holds (f : Full) (q : P3) : Claim → Prop
  | .jacobianB => IsJacobian f.B q (f.dB q)
  | .hessianB => ∀ j k l, HasDerivAt (fun t => f.dB (Function.update q k t) j l) (f.ddB q j k l) (q k)
  | .jacobianA => IsJacobian f.A q (f.dA q)
  | .hessianA => ∀ j k l, HasDerivAt (fun t => f.dA (Function.update q k t) j l) (f.ddA q j k l) (q k)
  | .potential => curl (f.dA q) = f.B q
  | .divergenceFree => dive (f.dB q) = 0
  | .curlFree => curl (f.dB q) = 0

/-! ## Proofs -/

theorem deriv_sum {ι : Type} (fs : List ι) (g : ι → ℝ → ℝ) (g' : ι → ℝ) (t : ℝ) (h : ∀ f ∈ fs, HasDerivAt (g f) (g' f) t) :
    HasDerivAt (fun u => (fs.map fun f => g f u).sum) ((fs.map g').sum) t := by
  induction fs with
  | nil => simpa using hasDerivAt_const t (0 : ℝ)
  | cons f fs ih =>
    simp only [List.map_cons, List.sum_cons]
    exact (h f List.mem_cons_self).fun_add (ih fun x hx => h x (List.mem_cons_of_mem _ hx))

theorem mul_holds (c : ℝ) (f : Full) (q : P3) (k : Claim) (h : Holds f q k) : Holds (mulField c f) q k := by
  cases k with
  | jacobianB => exact fun j l => (h j l).const_mul c
  | hessianB => exact fun j k l => (h j k l).const_mul c
  | jacobianA => exact fun j l => (h j l).const_mul c
  | hessianA => exact fun j k l => (h j k l).const_mul c
  | potential =>
    funext i
    have := congrFun h i
    show curl (fun j l => c * f.dA q j l) i = c * f.B q i
    rw [← this]
    fin_cases i <;> simp only [curl, Matrix.cons_val, Fin.zero_eta, Fin.mk_one, Fin.reduceFinMk] <;> ring
  | divergenceFree =>
    replace h : f.dB q 0 0 + f.dB q 1 1 + f.dB q 2 2 = 0 := h
    show c * f.dB q 0 0 + c * f.dB q 1 1 + c * f.dB q 2 2 = 0
    linear_combination c * h
  | curlFree =>
    funext i
    have := congrFun h i
    show curl (fun j l => c * f.dB q j l) i = 0
    have e : curl (fun j l => c * f.dB q j l) i = c * curl (f.dB q) i := by
      fin_cases i <;> simp only [curl, Matrix.cons_val, Fin.zero_eta, Fin.mk_one, Fin.reduceFinMk] <;> ring
    rw [e, this]; simp

theorem list_sub {ι : Type} (fs : List ι) (a b : ι → ℝ) : (fs.map a).sum - (fs.map b).sum = (fs.map fun f => a f - b f).sum := by
  induction fs with
  | nil => simp
  | cons f fs ih => simp only [List.map_cons, List.sum_cons, ← ih]; ring

theorem list_add {ι : Type} (fs : List ι) (a b : ι → ℝ) : (fs.map a).sum + (fs.map b).sum = (fs.map fun f => a f + b f).sum := by
  induction fs with
  | nil => simp
  | cons f fs ih => simp only [List.map_cons, List.sum_cons, ← ih]; ring

theorem curl_sum (fs : List Full) (D : Full → T2) (i : Fin 3) : curl (fun j l => (fs.map fun f => D f j l).sum) i = (fs.map fun f => curl (D f) i).sum := by
  fin_cases i
  · simp only [curl, Matrix.cons_val, Fin.zero_eta]; exact list_sub _ _ _
  · simp only [curl, Matrix.cons_val, Fin.mk_one]; exact list_sub _ _ _
  · simp only [curl, Matrix.cons_val, Fin.reduceFinMk]; exact list_sub _ _ _

theorem sum_holds (fs : List Full) (q : P3) (k : Claim) (h : ∀ f ∈ fs, Holds f q k) : Holds (sumField fs) q k := by
  cases k with
  | jacobianB => exact fun j l => deriv_sum fs _ _ _ fun f hf => h f hf j l
  | hessianB => exact fun j k l => deriv_sum fs _ _ _ fun f hf => h f hf j k l
  | jacobianA => exact fun j l => deriv_sum fs _ _ _ fun f hf => h f hf j l
  | hessianA => exact fun j k l => deriv_sum fs _ _ _ fun f hf => h f hf j k l
  | potential =>
    funext i
    show curl (fun j l => (fs.map fun f => f.dA q j l).sum) i = (fs.map fun f => f.B q i).sum
    rw [curl_sum fs (fun f => f.dA q)]
    exact congrArg List.sum (List.map_congr_left fun f hf => congrFun (h f hf) i)
  | divergenceFree =>
    show (fs.map fun f => f.dB q 0 0).sum + (fs.map fun f => f.dB q 1 1).sum + (fs.map fun f => f.dB q 2 2).sum = 0
    rw [list_add, list_add]
    have : (fs.map fun f => f.dB q 0 0 + f.dB q 1 1 + f.dB q 2 2) = fs.map fun _ => (0 : ℝ) := List.map_congr_left fun f hf => h f hf
    rw [this]; simp
  | curlFree =>
    funext i
    show curl (fun j l => (fs.map fun f => f.dB q j l).sum) i = 0
    rw [curl_sum fs (fun f => f.dB q)]
    have : (fs.map fun f => curl (f.dB q) i) = fs.map fun _ => (0 : ℝ) := List.map_congr_left fun f hf => congrFun (h f hf) i
    rw [this]; simp

mutual
theorem eval_holds (q : P3) (k : Claim) : ∀ e : Expr, (∀ t ∈ terms e, Holds t.2 q k) → Holds (eval e) q k
  | .leaf f, h => h (1, f) (by simp [terms])
  | .mul c e, h => by
    refine mul_holds c _ q k (eval_holds q k e fun t ht => ?_)
    exact h (c * t.1, t.2) (by rw [terms]; exact List.mem_map_of_mem (f := fun t => (c * t.1, t.2)) ht)
  | .sum es, h => by
    refine sum_holds _ q k (evalList_holds q k es ?_)
    rw [terms] at h
    exact h
theorem evalList_holds (q : P3) (k : Claim) : ∀ es : List Expr, (∀ t ∈ termsList es, Holds t.2 q k) → ∀ f ∈ evalList es, Holds f q k
  | [], _, f, hf => by simp [evalList] at hf
  | e :: es, h, f, hf => by
    rw [evalList, List.mem_cons] at hf
    rw [termsList] at h
    rcases hf with rfl | hf
    · exact eval_holds q k e fun t ht => h t (List.mem_append_left _ ht)
    · exact evalList_holds q k es (fun t ht => h t (List.mem_append_right _ ht)) f hf
end

/-- **C107.** Whatever is built from fields by adding and multiplying, in any nesting, keeps the consistency of its parts: wherever the arrays of first and second derivatives of `B` and of `A` of all the parts are right, so are those of the whole; wherever the curl of `A` is `B`, or `B` is divergence-free or curl-free, for all the parts, it is for the whole. -/
theorem C107_consistency (e : Expr) (q : P3) (k : Claim) (h : ∀ t ∈ terms e, Holds t.2 q k) : Holds (eval e) q k := eval_holds q k e h

/-- A quantity that multiplying and adding treat linearly. -/
structure Linear (Q : Full → ℝ) : Prop where
  mul : ∀ c f, Q (mulField c f) = c * Q f
  sum : ∀ fs, Q (sumField fs) = (fs.map Q).sum

mutual
theorem eval_linear {Q : Full → ℝ} (hQ : Linear Q) : ∀ e : Expr, Q (eval e) = ((terms e).map fun t => t.1 * Q t.2).sum
  | .leaf f => by simp [eval, terms]
  | .mul c e => by
    rw [eval, hQ.mul, eval_linear hQ e, terms, List.map_map, ← List.sum_map_mul_left]
    exact congrArg List.sum (List.map_congr_left fun t _ => (mul_assoc c t.1 (Q t.2)).symm)
  | .sum es => by
    rw [eval, hQ.sum, evalList_linear hQ es, terms]
theorem evalList_linear {Q : Full → ℝ} (hQ : Linear Q) : ∀ es : List Expr, ((evalList es).map Q).sum = ((termsList es).map fun t => t.1 * Q t.2).sum
  | [] => by simp [evalList, termsList]
  | e :: es => by
    rw [evalList, List.map_cons, List.sum_cons, eval_linear hQ e, evalList_linear hQ es, termsList, List.map_append, List.sum_append]
end

/-- **C107.** Every component of `B`, `dB_by_dX`, `d2B_by_dXdX`, `A`, `dA_by_dX` and `d2A_by_dXdX` of a field built by adding and multiplying is, at every point, the combination of those of its parts, each with the product of the factors it is under. -/
theorem C107_linear (e : Expr) (q : P3) :
    (∀ l, (eval e).B q l = ((terms e).map fun t => t.1 * t.2.B q l).sum) ∧
    (∀ j l, (eval e).dB q j l = ((terms e).map fun t => t.1 * t.2.dB q j l).sum) ∧
    (∀ j k l, (eval e).ddB q j k l = ((terms e).map fun t => t.1 * t.2.ddB q j k l).sum) ∧
    (∀ l, (eval e).A q l = ((terms e).map fun t => t.1 * t.2.A q l).sum) ∧
    (∀ j l, (eval e).dA q j l = ((terms e).map fun t => t.1 * t.2.dA q j l).sum) ∧
    (∀ j k l, (eval e).ddA q j k l = ((terms e).map fun t => t.1 * t.2.ddA q j k l).sum) :=
  ⟨fun l => eval_linear (Q := fun f => f.B q l) ⟨fun _ _ => rfl, fun _ => rfl⟩ e,
   fun j l => eval_linear (Q := fun f => f.dB q j l) ⟨fun _ _ => rfl, fun _ => rfl⟩ e,
   fun j k l => eval_linear (Q := fun f => f.ddB q j k l) ⟨fun _ _ => rfl, fun _ => rfl⟩ e,
   fun l => eval_linear (Q := fun f => f.A q l) ⟨fun _ _ => rfl, fun _ => rfl⟩ e,
   fun j l => eval_linear (Q := fun f => f.dA q j l) ⟨fun _ _ => rfl, fun _ => rfl⟩ e,
   fun j k l => eval_linear (Q := fun f => f.ddA q j k l) ⟨fun _ _ => rfl, fun _ => rfl⟩ e⟩

/-- The operators: `2 * (a + b) + c` is `2a + 2b + c`. -/
example (a b c : Full) (q : P3) (l : Fin 3) : (eval (Expr.add (Expr.smul (Expr.add (.leaf a) (.leaf b)) 2) (.leaf c))).B q l = 2 * a.B q l + 2 * b.B q l + c.B q l := by
  rw [(C107_linear _ q).1 l]
  simp [Expr.add, Expr.smul, terms, termsList]
  ring

/-! ## Derivatives with respect to the degrees of freedom -/

/-- What `B_vjp` needs to know of one part of a sum: which degrees of freedom it depends on, the number `Σ v·B` as a function of all of them (`v` is fixed), and what its `B_vjp(v)` returns, if its class has that method. -/
structure Part (D : Type) where
  dep : D → Prop
  val : (D → ℝ) → ℝ
  vjp : Option (D → ℝ)

open Classical in
/-- `np.any(bf.dofs_free_status)`. -/
noncomputable def anyFree {D : Type} (free : D → Prop) (f : Part D) : Bool := decide (∃ d, f.dep d ∧ free d)

/-- `MagneticFieldSum.B_vjp` (L241-242); `none` when a part that is asked has no such method. -/
noncomputable def sumVjp {D : Type} (free : D → Prop) (fs : List (Part D)) : Option (D → ℝ) :=
  ((fs.filter (anyFree free)).mapM Part.vjp).map fun vs d => (vs.map fun v => v d).sum

open Classical in
/-- The `B_vjp` of a part is right at `x`: its entry for each degree of freedom is the derivative of `Σ v·B`. -/
def Right {D : Type} (f : Part D) (x : D → ℝ) : Prop :=
  ∃ g, f.vjp = some g ∧ ∀ d, HasDerivAt (fun t => f.val (Function.update x d t)) (g d) (x d)

/-- A part's value does not change with what it does not depend on. -/
def Local {D : Type} (f : Part D) : Prop := ∀ x y : D → ℝ, (∀ d, f.dep d → x d = y d) → f.val x = f.val y

open Classical in
/-- **C107.** For every free degree of freedom, the entry of `B_vjp(v)` of a sum is the derivative of `Σ v·B` of the whole sum, although parts without free degrees of freedom are left out, and need no `B_vjp` at all. -/
theorem C107_vjp {D : Type} (free : D → Prop) (fs : List (Part D)) (x : D → ℝ) (hl : ∀ f ∈ fs, Local f)
    (hr : ∀ f ∈ fs, (∃ d, f.dep d ∧ free d) → Right f x) :
    ∃ g, sumVjp free fs = some g ∧ ∀ d, free d → HasDerivAt (fun t => (fs.map fun f => f.val (Function.update x d t)).sum) (g d) (x d) := by
  induction fs with
  | nil =>
    refine ⟨fun _ => 0, by simp [sumVjp], fun d _ => ?_⟩
    simpa using hasDerivAt_const (x d) (0 : ℝ)
  | cons f fs ih =>
    obtain ⟨g, hg, hd⟩ := ih (fun f hf => hl f (List.mem_cons_of_mem _ hf)) (fun f hf => hr f (List.mem_cons_of_mem _ hf))
    by_cases hf : ∃ d, f.dep d ∧ free d
    · obtain ⟨w, hw, hw'⟩ := hr f List.mem_cons_self hf
      have hany : anyFree free f = true := by unfold anyFree; exact decide_eq_true hf
      unfold sumVjp at hg ⊢
      rw [List.filter_cons_of_pos hany, List.mapM_cons]
      rw [Option.map_eq_some_iff] at hg
      obtain ⟨vs, hvs, hgv⟩ := hg
      refine ⟨fun d => w d + g d, ?_, fun d hfree => ?_⟩
      · rw [hw, hvs, ← hgv]
        simp
      · simp only [List.map_cons, List.sum_cons]
        exact (hw' d).fun_add (hd d hfree)
    · have hany : ¬ anyFree free f = true := by unfold anyFree; simpa using hf
      refine ⟨g, ?_, fun d hfree => ?_⟩
      · unfold sumVjp at hg ⊢
        rw [List.filter_cons_of_neg hany]
        exact hg
      · simp only [List.map_cons, List.sum_cons]
        have hc : (fun t => f.val (Function.update x d t)) = fun _ => f.val x := by
          funext t
          refine hl f List.mem_cons_self _ _ fun d' hd' => ?_
          have : d' ≠ d := fun e => hf ⟨d, e ▸ hd', hfree⟩
          rw [Function.update_of_ne this]
        have h0 : HasDerivAt (fun t => f.val (Function.update x d t)) 0 (x d) := by
          rw [hc]; exact hasDerivAt_const _ _
        exact (h0.fun_add (hd d hfree)).congr_deriv (zero_add _)

/-- A case with one free part and one fixed part that has no `B_vjp`. -/
example : let free : Bool → Prop := fun d => d = true
    let f : Part Bool := ⟨fun d => d = true, fun x => 3 * x true, some fun d => if d = true then 3 else 0⟩
    let g : Part Bool := ⟨fun d => d = false, fun x => x false ^ 2, none⟩
    (∀ h ∈ [f, g], Local h) ∧ (∃ d, f.dep d ∧ free d) ∧ Right f (fun _ => 1) ∧ ¬ ∃ d, g.dep d ∧ free d := by
  intro free f g
  refine ⟨?_, ⟨true, rfl, rfl⟩, ⟨_, rfl, ?_⟩, ?_⟩
  · intro h hh
    rcases List.mem_cons.mp hh with rfl | hh
    · intro x y hxy; show 3 * x true = 3 * y true; rw [hxy true rfl]
    · rcases List.mem_cons.mp hh with rfl | hh
      · intro x y hxy; show x false ^ 2 = y false ^ 2; rw [hxy false rfl]
      · exact absurd hh (by simp)
  · intro d
    cases d
    · simpa [f, Function.update] using hasDerivAt_const (1 : ℝ) (3 * (1 : ℝ))
    · simpa [f, Function.update] using (hasDerivAt_id' (1 : ℝ)).const_mul 3
  · rintro ⟨d, hd, hd'⟩
    replace hd : d = false := hd
    replace hd' : d = true := hd'
    rw [hd] at hd'
    cases hd'

end Simsopt.Fields.Algebra
