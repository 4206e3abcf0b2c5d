import Verif.PyList
import Mathlib.Analysis.SpecialFunctions.Trigonometric.Deriv
import Mathlib.Analysis.SpecialFunctions.Sqrt
import Mathlib.Tactic.LinearCombination
import Mathlib.Tactic.FieldSimp
/-!
# C167: the ready-made objective functions (src/simsopt/objectives/functions.py)

Real numbers instead of doubles.  The dofs of one object are a list; the state vector `x` of an object is the dofs of its ancestors (sorted by name) followed by its own (`_core/optimizable.py` L907-919, L974).  All dofs are
free unless said otherwise.
-/
namespace Simsopt.Functions
open Simsopt

/-- The direction `i` in the space of lists of length `n`. -/
def unit (n i : ℕ) : List ℝ := (List.range n).map fun j => if j = i then 1 else 0

/-- `g` is the gradient of `f` at `x`: one entry per dof, each the partial derivative. -/
def IsGrad (f : List ℝ → ℝ) (x g : List ℝ) : Prop :=
  g.length = x.length ∧ ∀ i < x.length, HasDerivAt (fun t => f (x.set i t)) (g.getD i 0) (x.getD i 0)

/-- `Identity.f`, `Identity.dJ` (L44-56). -/
def identity (x : List ℝ) : ℝ := x.getD 0 0
def identityD (_ : List ℝ) : List ℝ := [1]

/-- `Adder.sum` / `Adder.J` (L93-100), `Adder.dJ` (L102-103): `np.ones(self.n)` with the constructor's argument `n`. -/
def adder (x : List ℝ) : ℝ := x.sum
def adderD (n : ℕ) : List ℝ := List.replicate n 1

/-- The dofs of `Adder(n, **kwargs)` (L89-91): `n` is not passed on; without `x0` there are no dofs. -/
def adderDofs (_ : ℕ) (x0 : Option (List ℝ)) : List ℝ := x0.getD []

/-- `Rosenbrock` (L115-195); `s` is `_sqrtb = np.sqrt(b)`. -/
structure Rosen where
  s : ℝ

noncomputable def Rosen.make (b : ℝ) : Rosen := ⟨Real.sqrt b⟩
/-- `term1` (L137-142). -/
def Rosen.term1 (_ : Rosen) (x : List ℝ) : ℝ := x.getD 0 0 - 1
/-- `term2` (L144-151). -/
noncomputable def Rosen.term2 (r : Rosen) (x : List ℝ) : ℝ := (x.getD 0 0 * x.getD 0 0 - x.getD 1 0) / r.s
/-- `dterm1` (L153-158). -/
def Rosen.dterm1 (_ : Rosen) (_ : List ℝ) : List ℝ := [1, 0]
/-- `dterm2` (L160-165). -/
noncomputable def Rosen.dterm2 (r : Rosen) (x : List ℝ) : List ℝ := [2 * x.getD 0 0 / r.s, -1 / r.s]
/-- `f` (L167-175). -/
noncomputable def Rosen.f (r : Rosen) (x : List ℝ) : ℝ := r.term1 x * r.term1 x + r.term2 x * r.term2 x
/-- `terms` (L179-184). -/
noncomputable def Rosen.terms (r : Rosen) (x : List ℝ) : List ℝ := [r.term1 x, r.term2 x]
/-- An index of a numpy array: a number (here not negative) or a string. -/
inductive Key where
  | num (i : ℕ)
  | str (name : String)

/-- `a[key]` for a one-dimensional numpy array of numbers: strings raise IndexError. -/
def npGet (x : List ℝ) : Key → Except Err ℝ
  | .num i => if i < x.length then .ok (x.getD i 0) else .error .indexError
  | .str _ => .error .indexError

/-- `dterms` (L186-191): `self.local_full_x['x']`, where `local_full_x` is a numpy array (`_core/optimizable.py` L1089-1094, L327-334). -/
noncomputable def Rosen.dterms (r : Rosen) (x : List ℝ) : Except Err (List (List ℝ)) := do
  let v ← npGet x (.str "x")
  return [[1, 0], [2 * v / r.s, -1 / r.s]]
/-- `b` (L193-195). -/
def Rosen.b (r : Rosen) : ℝ := r.s * r.s

/-- `TestObject1.f` (L222-227): own dof `v`, the values of the two parents (adders). -/
noncomputable def obj1 (v : ℝ) (p q : List ℝ) : ℝ := (v + 2 * adder p) / (10 + adder q)
/-- `TestObject1.dJ` (L231-241). -/
noncomputable def obj1D (v : ℝ) (p q : List ℝ) : List ℝ :=
  [1 / (10 + adder q)] ++ List.replicate p.length (2 / (10 + adder q)) ++ List.replicate q.length (-(v + 2 * adder p) / (10 + adder q) ^ 2)

/-- What can be passed in `funcs_in`: a bound method (with `__self__`) or an object that is callable but not a method. -/
inductive Fn where
  | method (owner : ℕ)
  | object (id : ℕ)

/-- `Optimizable.__init__` with `funcs_in` (`_core/optimizable.py` L672-679): the parents, from `fn.__self__`. -/
def parentsOf : List Fn → Except Err (List ℕ)
  | [] => .ok []
  | .method o :: l => (parentsOf l).map (o :: ·)
  | .object _ :: _ => .error .attributeError

/-- `TestObject2.__init__` (L260-264): `funcs_in=[TestObject1(0.0), Adder(2)]`; the result stands for the two parents. -/
def testObject2 : Except Err (List ℕ) := parentsOf [.object 0, .object 1]

/-- `Affine.f`, `Affine.dJ` (L307-313): row `i` of `A`, entry `i` of `B`. -/
def affine (A : List (List ℝ)) (B x : List ℝ) : List ℝ := List.zipWith (fun r b => (List.zipWith (· * ·) r x).sum + b) A B
def affineD (A : List (List ℝ)) : List (List ℝ) := A

/-- `Failer.J` (L340-350): the counter, then the result. -/
def failer (nvals failIndex nevals : ℕ) : ℕ × Except Err (List ℝ) :=
  (nevals + 1, if nevals + 1 = failIndex then .error .runtimeError else if nvals = 0 then .ok [1] else .ok (List.replicate nvals 1))

/-- `Beale.J` (L370-375). -/
noncomputable def beale (x : List ℝ) : List ℝ :=
  [1.5 - x.getD 0 0 + x.getD 0 0 * x.getD 1 0, 2.25 - x.getD 0 0 + x.getD 0 0 * x.getD 1 0 * x.getD 1 0, 2.625 - x.getD 0 0 + x.getD 0 0 * x.getD 1 0 * x.getD 1 0 * x.getD 1 0]

/-! ### Theorems -/

theorem getD_set (x : List ℝ) (i j : ℕ) (t : ℝ) (h : i < x.length) : (x.set i t).getD j 0 = if j = i then t else x.getD j 0 := by
  rw [List.getD_eq_getElem?_getD, List.getElem?_set, List.getD_eq_getElem?_getD]
  by_cases hj : j = i
  · subst hj; simp [h]
  · rw [if_neg fun e => hj e.symm, if_neg hj]

theorem sum_set (x : List ℝ) (i : ℕ) (t : ℝ) (h : i < x.length) : (x.set i t).sum = x.sum + (t - x.getD i 0) := by
  induction x generalizing i with
  | nil => simp at h
  | cons a x ih =>
    cases i with
    | zero => simp; ring
    | succ i =>
      simp only [List.set_cons_succ, List.sum_cons, List.getD_cons_succ]
      rw [ih i (by simpa using h)]; ring

/-- **C167**: `Identity` returns its dof, its gradient is right; `Adder` returns the sum, and `dJ` is its gradient if `x0` has `n` entries. -/
theorem C167_linear (x : List ℝ) (v : ℝ) (n : ℕ) (hn : x.length = n) :
    identity [v] = v ∧ IsGrad identity [v] (identityD [v]) ∧ adder x = x.sum ∧ adderDofs n (some x) = x ∧ IsGrad adder x (adderD n) := by
  refine ⟨rfl, ⟨rfl, fun i hi => ?_⟩, rfl, rfl, by simp [adderD, hn], fun i hi => ?_⟩
  · obtain rfl : i = 0 := by simpa using hi
    exact hasDerivAt_id v
  · have e : (fun t => adder (x.set i t)) = fun t => x.sum + (t - x.getD i 0) := funext fun t => sum_set x i t hi
    rw [e]
    have e2 : (adderD n).getD i 0 = 1 := by unfold adderD; rw [List.getD_eq_getElem?_getD, List.getElem?_replicate, if_pos (by omega)]; rfl
    rw [e2]
    exact ((hasDerivAt_id _).sub_const _).const_add _

/-- **C167** (violated): `Adder(n)` without initial values has no dofs (not `n` zeroes), while `dJ` has `n` entries. -/
theorem C167_adder_violated (n : ℕ) (hn : 0 < n) : adderDofs n none = [] ∧ adderDofs n none ≠ List.replicate n 0 ∧ ¬ IsGrad adder (adderDofs n none) (adderD n) := by
  refine ⟨rfl, ?_, ?_⟩
  · intro h
    have := congrArg List.length h
    simp [adderDofs] at this
    omega
  · rintro ⟨h, -⟩
    simp [adderD, adderDofs] at h
    omega

/-- **C167**: `terms`, `dterm1`, `dterm2`: the Jacobian is right, `f` is the sum of the squares, `b` is the argument, and `f` is zero exactly at `(1, 1)`. -/
theorem C167_rosenbrock (b : ℝ) (hb : 0 < b) (x y : ℝ) :
    let r := Rosen.make b
    r.b = b ∧ r.terms [x, y] = [r.term1 [x, y], r.term2 [x, y]] ∧
    IsGrad r.term1 [x, y] (r.dterm1 [x, y]) ∧ IsGrad r.term2 [x, y] (r.dterm2 [x, y]) ∧ r.f [x, y] = (1 - x) ^ 2 + (y - x ^ 2) ^ 2 / b ∧ (r.f [x, y] = 0 ↔ x = 1 ∧ y = 1) := by
  have hs : 0 < Real.sqrt b := Real.sqrt_pos.2 hb
  have hsq : Real.sqrt b * Real.sqrt b = b := Real.mul_self_sqrt hb.le
  have hf : (Rosen.make b).f [x, y] = (1 - x) ^ 2 + (y - x ^ 2) ^ 2 / b := by
    simp only [Rosen.f, Rosen.term1, Rosen.term2, Rosen.make, List.getD_cons_zero, List.getD_cons_succ]
    conv_rhs => rw [← hsq]
    field_simp
    ring
  refine ⟨hsq, rfl, ⟨rfl, fun i hi => ?_⟩, ⟨rfl, fun i hi => ?_⟩, hf, ?_⟩
  · have hi : i < 2 := hi
    rcases (by omega : i = 0 ∨ i = 1) with rfl | rfl
    · exact (hasDerivAt_id x).sub_const 1
    · exact hasDerivAt_const y (x - 1)
  · have hi : i < 2 := hi
    rcases (by omega : i = 0 ∨ i = 1) with rfl | rfl
    · have := (((hasDerivAt_id x).fun_mul (hasDerivAt_id x)).sub_const y).div_const (Real.sqrt b)
      simp only [id] at this
      exact this.congr_deriv (by show (1 * x + x * 1) / Real.sqrt b = 2 * x / Real.sqrt b; ring)
    · have := ((hasDerivAt_id y).const_sub (x * x)).div_const (Real.sqrt b)
      exact this
  · rw [hf]
    constructor
    · intro h
      have h1 : 0 ≤ (1 - x) ^ 2 := sq_nonneg _
      have h2 : 0 ≤ (y - x ^ 2) ^ 2 / b := by positivity
      have h3 : (1 - x) ^ 2 = 0 := by linarith
      have h4 : (y - x ^ 2) ^ 2 / b = 0 := by linarith
      have h5 : x = 1 := by have := pow_eq_zero_iff (two_ne_zero) |>.1 h3; linarith
      have h6 : (y - x ^ 2) ^ 2 = 0 := by
        rcases div_eq_zero_iff.1 h4 with h | h
        · exact h
        · exact absurd h hb.ne'
      have h7 := pow_eq_zero_iff (two_ne_zero) |>.1 h6
      refine ⟨h5, ?_⟩
      rw [h5] at h7; linarith
    · rintro ⟨rfl, rfl⟩; simp

/-- **C167** (violated): the documented Rosenbrock function is `(1 - x)^2 + b (y - x^2)^2`; the code divides by `b`: the values agree only for `b = 1` or on the parabola. -/
theorem C167_rosenbrock_violated (b : ℝ) (hb : 0 < b) (hb1 : b ≠ 1) (x y : ℝ) (h : y ≠ x ^ 2) : (Rosen.make b).f [x, y] ≠ (1 - x) ^ 2 + b * (y - x ^ 2) ^ 2 := by
  obtain ⟨-, -, -, -, e, -⟩ := C167_rosenbrock b hb x y
  rw [e]
  intro h1
  have h2 : (y - x ^ 2) ^ 2 ≠ 0 := pow_ne_zero _ (sub_ne_zero.2 h)
  have h3 : (y - x ^ 2) ^ 2 / b = b * (y - x ^ 2) ^ 2 := by linarith
  rw [div_eq_iff hb.ne'] at h3
  have h4 : (y - x ^ 2) ^ 2 * (1 - b * b) = 0 := by linear_combination h3
  rcases mul_eq_zero.1 h4 with h5 | h5
  · exact h2 h5
  · have : (1 - b) * (1 + b) = 0 := by linear_combination h5
    rcases mul_eq_zero.1 this with h6 | h6
    · exact hb1 (by linarith)
    · linarith

/-- **C167** (violated): `Rosenbrock.dterms` raises IndexError at every point, and `TestObject2` cannot be constructed, since parents are passed where methods are expected. -/
theorem C167_raises_violated (r : Rosen) (x : List ℝ) : r.dterms x = .error .indexError ∧ testObject2 = .error .attributeError := ⟨rfl, rfl⟩

theorem set_append_left' (p q : List ℝ) (i : ℕ) (t : ℝ) (h : i < p.length) : (p ++ q).set i t = p.set i t ++ q := by rw [List.set_append, if_pos h]

/-- The value of `TestObject1` as a function of the list (own dof, first parent, second parent), in which its `dJ` is written. -/
noncomputable def obj1L (m : ℕ) (x : List ℝ) : ℝ := obj1 (x.getD 0 0) ((x.drop 1).take m) (x.drop (1 + m))

/-- **C167**: `TestObject1.dJ` is the gradient, in the order own dof, first parent, second parent. -/
theorem C167_object1 (v : ℝ) (p q : List ℝ) (hq : 10 + q.sum ≠ 0) : IsGrad (obj1L p.length) ([v] ++ p ++ q) (obj1D v p q) := by
  refine ⟨by simp [obj1D], fun i hi => ?_⟩
  have hval : ∀ (v : ℝ) (p q : List ℝ), obj1L p.length ([v] ++ p ++ q) = (v + 2 * p.sum) / (10 + q.sum) := by
    intro v p q
    have e : List.drop (1 + p.length) (v :: (p ++ q)) = q := by rw [Nat.add_comm, List.drop_succ_cons, List.drop_left]
    simp [obj1L, obj1, adder, e]
  simp only [List.length_append, List.length_singleton] at hi
  by_cases h0 : i = 0
  · subst h0
    have e : (fun t => obj1L p.length (([v] ++ p ++ q).set 0 t)) = fun t => (t + 2 * p.sum) / (10 + q.sum) := funext fun t => hval t p q
    rw [e]
    exact ((hasDerivAt_id v).add_const (2 * p.sum)).div_const (10 + q.sum)
  · obtain ⟨j, rfl⟩ : ∃ j, i = j + 1 := ⟨i - 1, by omega⟩
    by_cases hj : j < p.length
    · have e : (fun t => obj1L p.length (([v] ++ p ++ q).set (j + 1) t)) = fun t => (v + 2 * (p.sum + (t - p.getD j 0))) / (10 + q.sum) := by
        funext t
        have e1 : ([v] ++ p ++ q).set (j + 1) t = [v] ++ p.set j t ++ q := by
          show v :: ((p ++ q).set j t) = _
          rw [set_append_left' _ _ _ _ hj]; rfl
        rw [e1]
        have := hval v (p.set j t) q
        rw [List.length_set, sum_set _ _ _ hj] at this
        exact this
      rw [e]
      have e2 : ([v] ++ p ++ q).getD (j + 1) 0 = p.getD j 0 := by
        show (p ++ q).getD j 0 = _
        rw [List.getD_eq_getElem?_getD, List.getD_eq_getElem?_getD, List.getElem?_append_left hj]
      have e3 : (obj1D v p q).getD (j + 1) 0 = 2 / (10 + q.sum) := by
        show (List.replicate p.length _ ++ _).getD j 0 = _
        rw [List.getD_eq_getElem?_getD, List.getElem?_append_left (by simpa using hj), List.getElem?_replicate, if_pos hj]; rfl
      rw [e2, e3]
      have := ((((((hasDerivAt_id (p.getD j 0)).sub_const (p.getD j 0)).const_add p.sum).const_mul 2).const_add v)).div_const (10 + q.sum)
      simp only [id] at this
      exact this.congr_deriv (by ring)
    · obtain ⟨k, rfl⟩ : ∃ k, j = p.length + k := ⟨j - p.length, by omega⟩
      have hk : k < q.length := by omega
      have e : (fun t => obj1L p.length (([v] ++ p ++ q).set (p.length + k + 1) t)) = fun t => (v + 2 * p.sum) / (10 + (q.sum + (t - q.getD k 0))) := by
        funext t
        have e1 : ([v] ++ p ++ q).set (p.length + k + 1) t = [v] ++ p ++ q.set k t := by
          show v :: ((p ++ q).set (p.length + k) t) = v :: (p ++ q.set k t)
          rw [List.set_append, if_neg (by omega), Nat.add_sub_cancel_left]
        rw [e1, hval v p (q.set k t), sum_set _ _ _ hk]
      rw [e]
      have e2 : ([v] ++ p ++ q).getD (p.length + k + 1) 0 = q.getD k 0 := by
        show (p ++ q).getD (p.length + k) 0 = _
        rw [List.getD_eq_getElem?_getD, List.getD_eq_getElem?_getD, List.getElem?_append_right (by omega), Nat.add_sub_cancel_left]
      have e3 : (obj1D v p q).getD (p.length + k + 1) 0 = -(v + 2 * p.sum) / (10 + q.sum) ^ 2 := by
        show (List.replicate p.length _ ++ _).getD (p.length + k) 0 = _
        rw [List.getD_eq_getElem?_getD, List.getElem?_append_right (by simp), List.length_replicate, Nat.add_sub_cancel_left, List.getElem?_replicate, if_pos hk]; rfl
      rw [e2, e3]
      have hd : HasDerivAt (fun t => 10 + (q.sum + (t - q.getD k 0))) 1 (q.getD k 0) := (((hasDerivAt_id _).sub_const _).const_add _).const_add _
      have := (hasDerivAt_const (q.getD k 0) (v + 2 * p.sum)).fun_div hd (by simpa using hq)
      simp only [sub_self, add_zero] at this
      exact this.congr_deriv (by ring)

/-- **C167** (violated): in the order of `x` (parents first, own dof last), `TestObject1.dJ` is not the gradient: e.g. with one dof in each parent, all zero. -/
theorem C167_object1_violated : ¬ IsGrad (fun x => obj1 (x.getD 2 0) [x.getD 0 0] [x.getD 1 0]) [0, 0, 0] (obj1D 0 [0] [0]) := by
  rintro ⟨-, h⟩
  have h0 := h 0 (by simp)
  have h1 : HasDerivAt (fun t : ℝ => obj1 (([0, 0, 0] : List ℝ).set 0 t |>.getD 2 0) [(([0, 0, 0] : List ℝ).set 0 t).getD 0 0] [(([0, 0, 0] : List ℝ).set 0 t).getD 1 0]) (2 / 10) 0 := by
    have := ((hasDerivAt_id (0 : ℝ)).const_mul 2).div_const 10
    simp only [id] at this
    simpa [obj1, adder] using this
  have e := h0.unique h1
  simp [obj1D, adder] at e
  norm_num at e

/-- **C167**: `Affine` computes `A x + B` and its `dJ` is the Jacobian. -/
theorem C167_affine (A : List (List ℝ)) (B x : List ℝ) (hA : A.length = B.length) (hx : ∀ r ∈ A, r.length = x.length) (k : ℕ) (hk : k < A.length) :
    (affine A B x).length = B.length ∧ (affine A B x).getD k 0 = (List.zipWith (· * ·) (A.getD k []) x).sum + B.getD k 0 ∧ IsGrad (fun y => (affine A B y).getD k 0) x ((affineD A).getD k []) := by
  have hrow : ∀ y, (affine A B y).getD k 0 = (List.zipWith (· * ·) (A.getD k []) y).sum + B.getD k 0 := by
    intro y
    unfold affine
    have hkB : k < B.length := by omega
    simp [List.getD_eq_getElem?_getD, hk, hkB]
  have hl : (A.getD k []).length = x.length := by
    have : A.getD k [] = A[k] := by simp [List.getD_eq_getElem?_getD, hk]
    rw [this]; exact hx _ (List.getElem_mem hk)
  refine ⟨by simp [affine, hA], hrow x, hl, fun i hi => ?_⟩
  have hz : ∀ (r y : List ℝ), r.length = y.length → ∀ i < y.length, ∀ t, (List.zipWith (· * ·) r (y.set i t)).sum = (List.zipWith (· * ·) r y).sum + r.getD i 0 * (t - y.getD i 0) := by
    intro r
    induction r with
    | nil => intro y h i hi; simp at h; omega
    | cons a r ih =>
      intro y h i hi t
      cases y with
      | nil => simp at hi
      | cons b y =>
        cases i with
        | zero => simp; ring
        | succ i =>
          simp only [List.set_cons_succ, List.zipWith_cons_cons, List.sum_cons, List.getD_cons_succ]
          rw [ih y (by simpa using h) i (by simpa using hi)]; ring
  have e : (fun t => (affine A B (x.set i t)).getD k 0) = fun t => (List.zipWith (· * ·) (A.getD k []) x).sum + (A.getD k []).getD i 0 * (t - x.getD i 0) + B.getD k 0 := by
    funext t
    rw [hrow, hz _ _ hl i hi]
  show HasDerivAt (fun t => (affine A B (x.set i t)).getD k 0) _ _
  rw [e]
  have := ((((hasDerivAt_id (x.getD i 0)).sub_const (x.getD i 0)).const_mul ((A.getD k []).getD i 0)).const_add (List.zipWith (· * ·) (A.getD k []) x).sum).add_const (B.getD k 0)
  exact this.congr_deriv (by rw [mul_one]; rfl)

/-- The results of `m` successive calls of `Failer.J`. -/
def failerRun (nvals failIndex : ℕ) : ℕ → ℕ → List (Except Err (List ℝ))
  | 0, _ => []
  | m + 1, c => (failer nvals failIndex c).2 :: failerRun nvals failIndex m (failer nvals failIndex c).1

/-- **C167**: `Failer` raises on exactly the evaluation number `fail_index` (counted from 1) and returns ones otherwise. -/
theorem C167_failer (nvals failIndex m k : ℕ) (hk : k < m) (hn : 0 < nvals) :
    (failerRun nvals failIndex m 0)[k]? = some (if k + 1 = failIndex then .error .runtimeError else .ok (List.replicate nvals 1)) := by
  have gen : ∀ m k c, k < m → (failerRun nvals failIndex m c)[k]? = some (if c + k + 1 = failIndex then .error .runtimeError else .ok (List.replicate nvals 1)) := by
    intro m
    induction m with
    | zero => intro k c h; omega
    | succ m ih =>
      intro k c h
      cases k with
      | zero =>
        show some (failer nvals failIndex c).2 = _
        unfold failer
        simp only [add_zero]
        rw [if_neg (by omega : ¬ nvals = 0)]
      | succ k =>
        show (failerRun nvals failIndex m (c + 1))[k]? = _
        rw [ih k (c + 1) (by omega), show c + 1 + k + 1 = c + (k + 1) + 1 by omega]
  simpa using gen m k 0 hk

/-- **C167**: the residuals of `Beale` vanish together exactly at `(3, 1/2)`. -/
theorem C167_beale (x y : ℝ) : (∀ r ∈ beale [x, y], r = 0) ↔ x = 3 ∧ y = 1 / 2 := by
  simp only [beale, List.getD_cons_zero, List.getD_cons_succ, List.mem_cons, List.not_mem_nil, or_false, forall_eq_or_imp, forall_eq]
  constructor
  · rintro ⟨h1, h2, h3⟩
    -- x (1 - y) = 3/2, x (1 - y^2) = 9/4, so (1 + y) = 3/2
    have e1 : x * (1 - y) = 3 / 2 := by norm_num at h1; linarith
    have e2 : x * (1 - y) * (1 + y) = 9 / 4 := by norm_num at h2; linarith
    rw [e1] at e2
    have hy : y = 1 / 2 := by linarith
    subst hy
    refine ⟨?_, rfl⟩
    linarith
  · rintro ⟨rfl, rfl⟩
    norm_num

end Simsopt.Functions
