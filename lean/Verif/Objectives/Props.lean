import Verif.Objectives.Grad
import Verif.Objectives.Mpi
import Verif.Util.Props
/-!
# C17, C18, C19: composite objectives
-/
set_option linter.unusedSectionVars false
set_option linter.unusedSimpArgs false
namespace Simsopt.Objectives
open Deriv
open Simsopt.Graph hiding upd run_bind run_pure run_throw

section
variable {K : Type} {L : Leaves K} {w : Nat → ℝ} {X : K → List ℝ}

/-! ### C17: sums and scalings -/

/-- `(f+g).J() = f.J() + g.J()`. -/
theorem C17_add_value (f g : Expr) (a b : ℝ) (hf : f.J L w X = .ok a) (hg : g.J L w X = .ok b) :
    (f.add g).J L w X = .ok (a + b) := by
  simp only [Expr.add, Expr.J, Expr.Js, hf, hg, bind, Except.bind, pure, Except.pure, List.sum_cons, List.sum_nil, add_zero]

/-- `(c*f).J() = c*f.J()`; for a Weight its value at the time of the call. -/
theorem C17_mul_value (c : Factor) (f : Expr) (a : ℝ) (hf : f.J L w X = .ok a) :
    (Expr.mul c f).J L w X = .ok (float w c * a) := by
  simp only [Expr.mul, Expr.J, hf, bind, Except.bind, pure, Except.pure]

/-- After `weight += alpha` (`weight *= alpha`) an objective scaled by this Weight uses the new value, and factors that are numbers
    or other Weights are unaffected. -/
theorem C17_weight_update (a : Nat) (alpha : ℝ) (f : Expr) (v : ℝ) (hf : ∀ w : Nat → ℝ, f.J L w X = .ok v) :
    (Expr.mul (.weight a) f).J L (iaddWeight w a alpha) X = .ok ((w a + alpha) * v) ∧
    (Expr.mul (.weight a) f).J L (imulWeight w a alpha) X = .ok ((w a * alpha) * v) ∧
    (∀ b, b ≠ a → (Expr.mul (.weight b) f).J L (iaddWeight w a alpha) X = .ok (w b * v) ∧
      (Expr.mul (.weight b) f).J L (imulWeight w a alpha) X = .ok (w b * v)) ∧
    ∀ c, (Expr.mul (.num c) f).J L (iaddWeight w a alpha) X = .ok (c * v) := by
  refine ⟨?_, ?_, fun b hb => ⟨?_, ?_⟩, fun c => ?_⟩
  all_goals rw [C17_mul_value _ f v (hf _)]; simp [float, iaddWeight, imulWeight, upd]
  all_goals exact fun h => absurd h hb

theorem foldl_add_value : ∀ (l : List Expr) (vs : List ℝ) (f : Expr) (a : ℝ), l.map (fun e => e.J L w X) = vs.map Except.ok → f.J L w X = .ok a →
    (l.foldl Expr.add f).J L w X = .ok (a + vs.sum) := by
  intro l
  induction l with
  | nil => intro vs f a h hf; cases vs with
    | nil => simpa using hf
    | cons => cases h
  | cons e l ih =>
    intro vs f a h hf
    cases vs with
    | nil => cases h
    | cons v vs =>
      simp only [List.map_cons, List.cons.injEq] at h
      rw [List.foldl_cons, ih vs _ (a + v) h.2 (C17_add_value f e a v hf h.1), List.sum_cons, add_assoc]

/-- `sum(list).J()` is the sum of the values, and `sum` of a non-empty list is an objective. -/
theorem C17_sum_value (l : List Expr) (vs : List ℝ) (hl : l ≠ []) (h : l.map (fun e => e.J L w X) = vs.map Except.ok) :
    ∃ s, Expr.pySum l = some s ∧ s.J L w X = .ok vs.sum := by
  obtain ⟨f, l', rfl⟩ := List.exists_cons_of_ne_nil hl
  cases vs with
  | nil => cases h
  | cons v vs =>
    simp only [List.map_cons, List.cons.injEq] at h
    exact ⟨_, rfl, by rw [foldl_add_value l' vs f v h.2 h.1, List.sum_cons]⟩

variable [DecidableEq K]

/-- The gradient of `f+g` with respect to any object is the sum of the gradients of `f` and `g`. -/
theorem C17_add_gradient {size : K → Nat} {U : List K} (hU : U.Nodup) (hX : Shaped size X) {h : Heap K ℝ} (hr : Deriv.Reachable size h)
    (f g : Expr) (hf : f.OK) (hg : g.OK) (hlf : ∀ n ∈ f.leaves, LeafOK size U L n) (hlg : ∀ n ∈ g.leaves, LeafOK size U L n) :
    ∃ i j r h1 h2 h3, f.dJ L w X h = .ok (.der i) h1 ∧ g.dJ L w X h1 = .ok (.der j) h2 ∧ (f.add g).dJ L w X h = .ok (.der r) h3 ∧
      ∀ bs, BlocksOK size bs → ∀ a b, Gradient size h1 i bs a → Gradient size h2 j bs b → Gradient size h3 r bs (List.zipWith (· + ·) a b) := by
  obtain ⟨_, _, hdf⟩ := Expr.spec (w := w) hU f hf hlf
  obtain ⟨_, _, hdg⟩ := Expr.spec (w := w) hU g hg hlg
  obtain ⟨i, h1, r1, x1, l1, _, _⟩ := hdf X hX h hr.ok
  obtain ⟨j, h2, r2, x2, l2, _, _⟩ := hdg X hX h1 x1.ok
  have hi2 := Nat.lt_of_lt_of_le l1 x2.nder
  obtain ⟨r, h3, r3, x3, l3, p3, _⟩ := pyAdd_der x2.ok hi2 l2
  refine ⟨i, j, r, h1, h2, h3, r1, r2, ?_, ?_⟩
  · simp only [Expr.add, Expr.dJ, Expr.foldDJ, run_bind, r1]
    simp only [pyAdd, if_true, run_pure, run_bind, r2] at r3 ⊢
    rw [r3]
  · intro bs hbs a b ha hb
    rw [grad_iff x1.ok l1 hbs] at ha
    rw [grad_iff x2.ok l2 hbs] at hb
    rw [grad_iff x3.ok l3 hbs]
    refine ⟨ha.1, ?_⟩
    rw [ha.2, hb.2]
    refine (grad_hom (· + ·) (fun a b p q => by ring) (by simp) x1.ok x2.ok l1 l2 (fun k => ?_) bs hbs).symm
    rw [p3 k, x2.partialD l1 k]

/-- The gradient of `c*f` with respect to any object is `c` times the gradient of `f`. -/
theorem C17_mul_gradient {size : K → Nat} {U : List K} (hU : U.Nodup) (hX : Shaped size X) {h : Heap K ℝ} (hr : Deriv.Reachable size h)
    (c : Factor) (f : Expr) (hf : f.OK) (hlf : ∀ n ∈ f.leaves, LeafOK size U L n) :
    ∃ i r h1 h2, f.dJ L w X h = .ok (.der i) h1 ∧ (Expr.mul c f).dJ L w X h = .ok (.der r) h2 ∧
      ∀ bs, BlocksOK size bs → ∀ a, Gradient size h1 i bs a → Gradient size h2 r bs (a.map (fun x => float w c * x)) := by
  obtain ⟨_, _, hdf⟩ := Expr.spec (w := w) hU f hf hlf
  obtain ⟨i, h1, r1, x1, l1, _, _⟩ := hdf X hX h hr.ok
  obtain ⟨r, h2, r2, x2, l2, p2, _⟩ := pyMul_der x1.ok l1 (float w c)
  refine ⟨i, r, h1, h2, r1, ?_, ?_⟩
  · simp only [Expr.mul, Expr.dJ, run_bind, r1, r2]
  · intro bs hbs a ha
    rw [grad_iff x1.ok l1 hbs] at ha
    rw [grad_iff x2.ok l2 hbs]
    refine ⟨ha.1, ?_⟩
    rw [ha.2]
    have := grad_hom (fun a _ : ℝ => float w c * a) (fun a b p q => by ring) (by simp) x1.ok x1.ok l1 l1 (h3 := h2) (r := r) (fun k => by
      rw [p2 k]
      apply List.ext_getElem
      · simp
      · intro n hn1 hn2; simp [mul_comm]) bs hbs
    rw [this]
    apply List.ext_getElem
    · simp
    · intro n hn1 hn2; simp

end

section
variable {cfg : Cfg ℝ} {s : State ℝ} (hn : NameInj cfg) (hsh : ShuffleOK cfg) (hr : Graph.Reachable cfg s)
include hn hsh hr

/-- For every expression tree built with `+`, `*`, `sum`, QuadraticPenalty and the serial MPIObjective over right basic objectives, and
    every object `obj` of the graph with a free dof (in particular the object of the expression itself): `J()` is a function of the dofs,
    and `dJ()` returns its exact gradient with respect to `obj.x`. -/
theorem C17_gradient (L : Leaves Nat) (w : Nat → ℝ) (e : Expr) (hok : e.OK)
    (hl : ∀ n ∈ e.leaves, LeafOK (localFullSize s) (liveObjs s) L n) {h : Heap Nat ℝ} (hd : Deriv.Reachable (localFullSize s) h)
    (i : Nat) (hi : s.alive i = true) (hfree : 0 < (s.obj i).freeSize) :
    ∃ φ : (Nat → List ℝ) → ℝ, (∀ X, e.J L w X = .ok (φ X)) ∧
      ∃ g h', e.gradient L w (stateX s) (localFullSize s) (blocksOf s i) h = .ok g h' ∧ IsGradient cfg s i φ g := by
  obtain ⟨φ, hJ, hdJ⟩ := Expr.spec (w := w) (List.nodup_range.filter _ : (liveObjs s).Nodup) e hok hl
  refine ⟨φ, hJ, ?_⟩
  obtain ⟨j, h1, r1, x1, l1, d1, _⟩ := hdJ (stateX s) (stateX_shaped hn hsh hr) h hd.ok
  obtain ⟨g, ⟨h2, hg⟩, hgr⟩ := gradient_entries hn hsh hr x1.ok j l1 i hi hfree φ d1
  refine ⟨g, h2, ?_, hgr⟩
  simp only [Expr.gradient, run_bind, r1, hg]

/-- For a graph within the recursion limit the assignments in the definition of `IsGradient` succeed. -/
theorem C17_gradient_assignments (hdeep : NoDeepChain cfg s) (i : Nat) (hi : s.alive i = true) (m : Nat) (y : ℝ) :
    ∃ s', Graph.exec cfg (.setX i ((getX s i).set m y)) s = .ok () s' :=
  (C04_x_length hn hsh hr i hi _ hdeep).1 (by rw [List.length_set]; exact (C06_lengths hn hsh hr i hi).1)

end

/-! ### C18: QuadraticPenalty -/

section
variable {K : Type} {L : Leaves K} {w : Nat → ℝ} {X : K → List ℝ}

/-- For each of the three options `J()` is never negative, and it is zero exactly when the constraint
    (`obj = cons`, `obj ≤ cons`, `obj ≥ cons`) holds. -/
theorem C18_zero_iff_feasible (e : Expr) (cons v : ℝ) (hv : e.J L w X = .ok v) :
    (∃ a, (Expr.penalty e cons "identity").J L w X = .ok a ∧ 0 ≤ a ∧ (a = 0 ↔ v = cons)) ∧
    (∃ a, (Expr.penalty e cons "max").J L w X = .ok a ∧ 0 ≤ a ∧ (a = 0 ↔ v ≤ cons)) ∧
    (∃ a, (Expr.penalty e cons "min").J L w X = .ok a ∧ 0 ≤ a ∧ (a = 0 ↔ cons ≤ v)) := by
  refine ⟨⟨1 / 2 * (v - cons) ^ 2, ?_, by positivity, ?_⟩, ⟨1 / 2 * max (v - cons) 0 ^ 2, ?_, by positivity, ?_⟩,
    ⟨1 / 2 * min (v - cons) 0 ^ 2, ?_, by positivity, ?_⟩⟩
  · simp [Expr.J, hv, bind, Except.bind, penaltyJ]
  · simp [sub_eq_zero]
  · simp [Expr.J, hv, bind, Except.bind, penaltyJ]
  · simp
  · simp [Expr.J, hv, bind, Except.bind, penaltyJ]
  · simp

/-- Any other option raises, in `J()` and in `dJ()`. -/
theorem C18_bad_option [DecidableEq K] (e : Expr) (cons v : ℝ) (f : String) (hf : f ≠ "identity" ∧ f ≠ "max" ∧ f ≠ "min")
    (hv : e.J L w X = .ok v) (h : Heap K ℝ) :
    (Expr.penalty e cons f).J L w X = .error .exception ∧
    ∀ d h', e.dJ L w X h = .ok d h' → (Expr.penalty e cons f).dJ L w X h = .error .exception h' := by
  constructor
  · simp [Expr.J, hv, bind, Except.bind, penaltyJ, hf]
  · intro d h' hd
    simp [Expr.dJ, run_bind, hv, Deriv.lift, hd, penaltyFactor, hf]

/-- The factor `dJ` puts in front of the inner derivative is the derivative of the penalty as a function of the inner value, also
    at the kink of `max`/`min`. -/
theorem C18_factor_is_derivative (f : String) (hf : f = "identity" ∨ f = "max" ∨ f = "min") :
    ∃ ψ ψ' : ℝ → ℝ, (∀ d, penaltyJ f d = .ok (ψ d)) ∧ (∀ d, penaltyFactor f d = .ok (ψ' d)) ∧ ∀ d, HasDerivAt ψ (ψ' d) d :=
  penalty_value (by tauto)

end

/-- `QuadraticPenalty(obj, cons, f).dJ()` is the exact gradient of its `J()` for every inner objective (basic or composite). -/
theorem C18_gradient {cfg : Cfg ℝ} {s : State ℝ} (hn : NameInj cfg) (hsh : ShuffleOK cfg) (hr : Graph.Reachable cfg s)
    (L : Leaves Nat) (w : Nat → ℝ) (e : Expr) (cons : ℝ) (f : String) (hf : f = "identity" ∨ f = "max" ∨ f = "min") (hok : e.OK)
    (hl : ∀ n ∈ e.leaves, LeafOK (localFullSize s) (liveObjs s) L n) {h : Heap Nat ℝ} (hd : Deriv.Reachable (localFullSize s) h)
    (i : Nat) (hi : s.alive i = true) (hfree : 0 < (s.obj i).freeSize) :
    ∃ φ : (Nat → List ℝ) → ℝ, (∀ X, (Expr.penalty e cons f).J L w X = .ok (φ X)) ∧
      ∃ g h', (Expr.penalty e cons f).gradient L w (stateX s) (localFullSize s) (blocksOf s i) h = .ok g h' ∧ IsGradient cfg s i φ g :=
  C17_gradient hn hsh hr L w (.penalty e cons f) (by simp only [Expr.OK]; exact ⟨hok, by tauto⟩) (by simpa [Expr.leaves] using hl) hd i hi hfree

/-! ### concrete objects -/

/-- A runtime with real dofs. -/
noncomputable def cfgR : Cfg ℝ :=
  { limit := 1000, shuffle := fun _ l => l, cname := fun c => String.ofList (List.replicate (c + 1) 'A'), ninf := -1000, pinf := 1000 }

theorem cfgR_names : NameInj cfgR := by
  apply C11_names_injective
  · intro c c' h
    have := congrArg (fun s => s.toList.length) h
    simp [cfgR] at this
    exact this
  · intro c ch h
    simp [cfgR, List.getLast?_replicate] at h
    subst h; decide

theorem cfgR_shuffle : ShuffleOK cfgR := fun _ l => List.Perm.refl l

/-- `a = A(x0=[3, 5]); f = AA(depends_on=[a])` -/
noncomputable def r1 : State ℝ := next cfgR (.new 0 (.fresh { x := some [3, 5] }) false [] false) State.empty
noncomputable def r2 : State ℝ := next cfgR (.new 1 (.fresh {}) false [0] true) r1

theorem r1_reach : Graph.Reachable cfgR r1 := reach_next .init ⟨by simp, trivial⟩ rfl
theorem r2_reach : Graph.Reachable cfgR r2 := reach_next r1_reach ⟨by intro p hp; simp at hp; subst hp; rfl, trivial⟩ rfl

/-- `J = a.x[0]^2` with `dJ = Derivative({a: [2*a.x[0], 0]})` -/
noncomputable def leavesR : Leaves Nat :=
  { J := fun _ X => ((X 0).getD 0 0) ^ 2, dJ := fun _ X => [(0, [2 * (X 0).getD 0 0, 0])] }

theorem leavesR_ok (n : Nat) : LeafOK (localFullSize r2) (liveObjs r2) leavesR n := by
  have hsz : localFullSize r2 0 = 2 := rfl
  have hlive : liveObjs r2 = [0, 1] := rfl
  refine ⟨fun X => by simp [leavesR], ?_, ?_⟩
  · intro X e he
    simp [leavesR] at he
    subst he
    rw [hlive]
    exact ⟨by simp, by rw [hsz]; rfl⟩
  · intro X v hX hv
    have h1 := hX 0; have h2 := hv 0
    rw [hsz] at h1 h2
    obtain ⟨a, b, hab⟩ : ∃ a b, X 0 = [a, b] := List.length_eq_two.mp h1
    obtain ⟨c, d, hcd⟩ : ∃ c d, v 0 = [c, d] := List.length_eq_two.mp h2
    have he : (fun t => leavesR.J n (move X v t)) = fun t => (a + t * c) ^ 2 := by
      funext t; simp [leavesR, move, hab, hcd]
    rw [he]
    have hlin : HasDerivAt (fun t : ℝ => a + t * c) c 0 := by
      simpa using ((hasDerivAt_id (0:ℝ)).mul_const c).const_add a
    refine (hlin.pow 2).congr_deriv ?_
    simp [leavesR, hab, hcd, dot]

/-- The gradient of `2*f + 0.5*max(f-1,0)^2` is computed. -/
example : ∃ φ : (Nat → List ℝ) → ℝ, (∀ X, (Expr.add (Expr.mul (.num 2) (.leaf 0)) (.penalty (.leaf 0) 1 "max")).J leavesR (fun _ => 0) X = .ok (φ X)) ∧
    ∃ g h', (Expr.add (Expr.mul (.num 2) (.leaf 0)) (.penalty (.leaf 0) 1 "max")).gradient leavesR (fun _ => 0) (stateX r2) (localFullSize r2)
      (blocksOf r2 1) Heap.empty = .ok g h' ∧ IsGradient cfgR r2 1 φ g :=
  C17_gradient cfgR_names cfgR_shuffle r2_reach leavesR (fun _ => 0) _ (by simp [Expr.add, Expr.mul, Expr.OK, Expr.OKs])
    (fun n _ => leavesR_ok n) .init 1 rfl (by show 0 < 2; norm_num)

example : NoDeepChain cfgR r2 := noDeep_of_card cfgR_names cfgR_shuffle r2_reach (by show 2 ≤ 1000; norm_num)

/-- C17 fails for the empty sum: `OptimizableSum([]).J()` is 0 but its `dJ()` raises `TypeError` (an int is called), and adding it on
    the right of an objective `f` makes `dJ` raise `AttributeError` although `J()` is right. -/
theorem C17_empty_sum_violated : ∃ (s : State ℝ) (L : Leaves Nat) (w : Nat → ℝ), Graph.Reachable cfgR s ∧
    (∀ n, LeafOK (localFullSize s) (liveObjs s) L n) ∧ ∃ i, s.alive i = true ∧ 0 < (s.obj i).freeSize ∧
    (Expr.osum []).J L w (stateX s) = .ok 0 ∧
    (Expr.osum []).gradient L w (stateX s) (localFullSize s) (blocksOf s i) Heap.empty = .error .typeError Heap.empty ∧
    (∃ v, (Expr.add (.leaf 0) (.osum [])).J L w (stateX s) = .ok v) ∧
    ∃ h', (Expr.add (.leaf 0) (.osum [])).gradient L w (stateX s) (localFullSize s) (blocksOf s i) Heap.empty = .error .attributeError h' := by
  refine ⟨r2, leavesR, fun _ => 0, r2_reach, leavesR_ok, 1, rfl, by show 0 < 2; norm_num, ?_, ?_, ?_, ?_⟩
  · simp [Expr.J, Expr.Js, bind, Except.bind, pure, Except.pure]
  · simp only [Expr.gradient, Expr.dJ, Expr.foldDJ, run_bind, run_pure, run_throw]
  · exact ⟨_, C17_add_value _ _ _ 0 (by simp only [Expr.J]; rfl) (by simp [Expr.J, Expr.Js, bind, Except.bind, pure, Except.pure])⟩
  · obtain ⟨h1, e1, _⟩ := mk_spec (HeapOK.empty (localFullSize r2)) (leavesR.dJ 0 (stateX r2)) ((leavesR_ok 0).keys _)
      (fun e he => ((leavesR_ok 0).shape _ e he).2)
    refine ⟨h1, ?_⟩
    simp only [Expr.gradient, Expr.add, Expr.dJ, Expr.foldDJ, run_bind, run_pure, e1, pyAdd, if_true, run_throw]

end Simsopt.Objectives
