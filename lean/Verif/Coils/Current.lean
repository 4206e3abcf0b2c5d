import Verif.Coils.Model
import Verif.Objectives.Tree
/-!
# C37: arithmetic of currents
-/
set_option linter.unusedSectionVars false
namespace Simsopt.Coils
open Simsopt Simsopt.Deriv
open Simsopt.Objectives (Ext)

/-! ### model of the operators (coil.py L43-76); `other` of `*`, `/` is a float or int -/
section
variable {K : Type}

/-- `a * c`, `c * a` (L48-54) -/
def Cur.mul (c : ℝ) (a : Cur K ℝ) : Cur K ℝ := .scaled c a
/-- `a / c` (L56-58); Python raises `ZeroDivisionError` for `c = 0` -/
noncomputable def Cur.div (a : Cur K ℝ) (c : ℝ) : Except Err (Cur K ℝ) := open Classical in
  if c = 0 then .error .exception else .ok (.scaled (1 / c) a)
/-- `-a` (L60-61) -/
def Cur.neg (a : Cur K ℝ) : Cur K ℝ := .scaled (-1) a
/-- `a + b` (L63-64) -/
def Cur.add (a b : Cur K ℝ) : Cur K ℝ := .sum a b
/-- `a - b` (L66-67) -/
def Cur.sub (a b : Cur K ℝ) : Cur K ℝ := .sum a b.neg
/-- `sum(list)`: `__radd__` (L70-74) returns `self` for the start value 0; `none` is the int 0, the sum of the empty list -/
def Cur.pySum : List (Cur K ℝ) → Option (Cur K ℝ)
  | [] => none
  | a :: l => some (l.foldl Cur.add a)

/-- `vjp(v)` (L94-95, L115-116, L134-135).  Simplification: `Current.vjp` wraps a copy of `v`, not `v` itself. -/
noncomputable def Cur.vjp [DecidableEq K] (v : List ℝ) : Cur K ℝ → M K ℝ Nat
  | .base k => Deriv.mk [(k, v)]
  | .scaled c e => do
    let d ← e.vjp v
    Deriv.mul d c
  | .sum a b => do
    let d ← a.vjp v
    let d' ← b.vjp v
    Deriv.add d d'

/-! ### specification -/

/-- the `Current` objects a current is made of -/
def Cur.leaves : Cur K ℝ → List K
  | .base k => [k]
  | .scaled _ e => e.leaves
  | .sum a b => a.leaves ++ b.leaves

/-! ### values -/

theorem C37_values (val : K → ℝ) (a b : Cur K ℝ) (c : ℝ) :
    (Cur.mul c a).value val = c * a.value val ∧ (Cur.neg a).value val = -a.value val ∧ (Cur.add a b).value val = a.value val + b.value val ∧
    (Cur.sub a b).value val = a.value val - b.value val ∧ (c ≠ 0 → ∃ q, Cur.div a c = .ok q ∧ q.value val = a.value val / c) := by
  refine ⟨rfl, by simp [Cur.neg, Cur.value], rfl, by simp [Cur.sub, Cur.neg, Cur.value, sub_eq_add_neg], fun hc => ?_⟩
  unfold Cur.div
  rw [if_neg hc]
  exact ⟨_, rfl, by simp [Cur.value]; ring⟩

theorem C37_sum_value (val : K → ℝ) (l : List (Cur K ℝ)) (h : l ≠ []) : ∃ s, Cur.pySum l = some s ∧ s.value val = (l.map fun c => c.value val).sum := by
  cases l with
  | nil => exact absurd rfl h
  | cons a l =>
    refine ⟨_, rfl, ?_⟩
    have : ∀ (l : List (Cur K ℝ)) (a : Cur K ℝ), (l.foldl Cur.add a).value val = a.value val + (l.map fun c => c.value val).sum := by
      intro l
      induction l with
      | nil => intro a; simp
      | cons b l ih => intro a; rw [List.foldl_cons, ih]; simp [Cur.add, Cur.value, add_assoc]
    rw [this]; simp

/-! ### derivatives -/

variable [DecidableEq K]

/-- the derivative of the value with respect to the `Current` `k` -/
def Cur.coeff (k : K) : Cur K ℝ → ℝ
  | .base k' => if k' = k then 1 else 0
  | .scaled c e => e.coeff k * c
  | .sum a b => a.coeff k + b.coeff k

theorem Cur.vjp_spec {size : K → Nat} (v : List ℝ) : ∀ (e : Cur K ℝ) (h : Heap K ℝ), HeapOK size h → (∀ k ∈ e.leaves, size k = v.length) →
    ∃ r h', e.vjp v h = .ok r h' ∧ Ext size h h' ∧ r < h'.nder ∧ ∀ k, size k = v.length → partialD size h' r k = v.map (fun x => x * e.coeff k)
  | .base k, h, hk, hs => by
    obtain ⟨h', r, g, hv⟩ := mk_spec hk [(k, v)] (by simp) (by
      intro e he
      rw [List.mem_singleton] at he
      subst he
      exact (hs k (by simp [Cur.leaves])).symm)
    refine ⟨h.nder, h', r, Ext.of_grown hk g, by rw [g.nder]; omega, fun k' hk' => ?_⟩
    unfold partialD
    rw [hv k']
    simp only [Cur.coeff]
    by_cases hkk : k = k'
    · simp [hkk]
    · simp [hkk, hk']
  | .scaled c e, h, hk, hs => by
    obtain ⟨d, h1, e1, x1, l1, p1⟩ := Cur.vjp_spec v e h hk hs
    obtain ⟨h', r, g, hv⟩ := mul_spec c x1.ok l1
    refine ⟨h1.nder, h', ?_, x1.trans (Ext.of_grown x1.ok g), by rw [g.nder]; omega, fun k hkv => ?_⟩
    · unfold Cur.vjp; rw [run_bind, e1]; exact r
    · have hp := p1 k hkv
      unfold partialD at hp ⊢
      rw [hv k]
      cases hvd : Deriv.value h1 d k with
      | none =>
        rw [hvd] at hp
        simp only [Option.getD_none, Option.map_none] at hp ⊢
        simp only [Cur.coeff]
        have : v.map (fun x => x * (e.coeff k * c)) = (v.map fun x => x * e.coeff k).map (fun x => x * c) := by
          rw [List.map_map]; congr 1; funext x; simp [mul_assoc]
        rw [this, ← hp]; simp
      | some w =>
        rw [hvd] at hp
        simp only [Option.getD_some, Option.map_some] at hp ⊢
        rw [hp, List.map_map]
        simp only [Cur.coeff]
        congr 1; funext x; simp [mul_assoc]
  | .sum a b, h, hk, hs => by
    obtain ⟨d, h1, e1, x1, l1, p1⟩ := Cur.vjp_spec v a h hk (fun k hk => hs k (by simp [Cur.leaves, hk]))
    obtain ⟨d', h2, e2, x2, l2, p2⟩ := Cur.vjp_spec v b h1 x1.ok (fun k hk => hs k (by simp [Cur.leaves, hk]))
    have l1' : d < h2.nder := Nat.lt_of_lt_of_le l1 x2.nder
    obtain ⟨h', r, g, hv⟩ := newMerge_spec (· + ·) id x2.ok l1' l2
    refine ⟨h2.nder, h', ?_, (x1.trans x2).trans (Ext.of_grown x2.ok g), by rw [g.nder]; omega, fun k hkv => ?_⟩
    · unfold Cur.vjp; rw [run_bind, e1]; simp only; rw [run_bind, e2]; exact r
    · have hc := partial_combine (· + ·) id (fun a => add_zero a) (fun a => zero_add a) x2.ok x2.ok l1' l2 hv k
      rw [hc, x2.partialD l1, p1 k hkv, p2 k hkv]
      simp only [Cur.coeff]
      apply List.ext_getElem
      · simp
      · intro i h1 h2; simp [mul_add]

/-- the coefficients are the exact derivative: values differ by the pairing with the difference of the currents -/
theorem Cur.value_diff (U : List K) (hU : U.Nodup) (val val' : K → ℝ) : ∀ e : Cur K ℝ, (∀ k ∈ e.leaves, k ∈ U) →
    e.value val' - e.value val = (U.map fun k => e.coeff k * (val' k - val k)).sum
  | .base k, h => by
    have := Objectives.sum_single U hU k (h k (by simp [Cur.leaves])) (fun k => val' k - val k)
    simp only [Cur.value, Cur.coeff, ite_mul, one_mul, zero_mul]
    simp only [eq_comm (a := k)] at *
    rw [this]
  | .scaled c e, h => by
    have ih := Cur.value_diff U hU val val' e h
    have hm : (U.map fun k => (Cur.scaled c e).coeff k * (val' k - val k)).sum = c * (U.map fun k => e.coeff k * (val' k - val k)).sum := by
      clear ih h hU
      induction U with
      | nil => simp
      | cons k U ih => rw [List.map_cons, List.sum_cons, ih]; simp only [Cur.coeff, List.map_cons, List.sum_cons]; ring
    rw [hm, ← ih]
    simp only [Cur.value]; ring
  | .sum a b, h => by
    have iha := Cur.value_diff U hU val val' a (fun k hk => h k (by simp [Cur.leaves, hk]))
    have ihb := Cur.value_diff U hU val val' b (fun k hk => h k (by simp [Cur.leaves, hk]))
    have hm : (U.map fun k => (Cur.sum a b).coeff k * (val' k - val k)).sum =
        (U.map fun k => a.coeff k * (val' k - val k)).sum + (U.map fun k => b.coeff k * (val' k - val k)).sum := by
      clear iha ihb h hU
      induction U with
      | nil => simp
      | cons k U ih => rw [List.map_cons, List.sum_cons, ih]; simp only [Cur.coeff, List.map_cons, List.sum_cons]; ring
    rw [hm, ← iha, ← ihb]
    simp only [Cur.value]; ring

/-- C37: `vjp([c])` returns a Derivative, without changing any other, whose entries for the `Current`s (which have one dof each) are `c`
    times the exact partial derivatives of the value: the value at any other currents is the value plus the pairing with the difference. -/
theorem C37_vjp {size : K → Nat} {h : Heap K ℝ} (hr : Deriv.Reachable size h) (e : Cur K ℝ) (c : ℝ) (U : List K) (hU : U.Nodup)
    (hs : ∀ k ∈ U, size k = 1) (hl : ∀ k ∈ e.leaves, k ∈ U) :
    ∃ (r : Nat) (h' : Heap K ℝ) (d : K → ℝ), e.vjp [c] h = .ok r h' ∧ r < h'.nder ∧ (∀ i, i < h.nder → ∀ k, Deriv.value h' i k = Deriv.value h i k) ∧
      (∀ k ∈ U, partialD size h' r k = [d k]) ∧
      ∀ val val' : K → ℝ, c * (e.value val' - e.value val) = (U.map fun k => d k * (val' k - val k)).sum := by
  obtain ⟨r, h', h1, h2, h3, h4⟩ := Cur.vjp_spec [c] e h hr.ok (fun k hk => hs k (hl k hk))
  refine ⟨r, h', fun k => c * e.coeff k, h1, h3, h2.value, fun k hk => ?_, fun val val' => ?_⟩
  · rw [h4 k (hs k hk)]; rfl
  · rw [Cur.value_diff U hU val val' e hl]
    clear h4 hl hs hU
    induction U with
    | nil => simp
    | cons k U ih => simp only [List.map_cons, List.sum_cons, ← ih]; ring

/-- Division by zero raises. -/
theorem C37_div_zero (a : Cur K ℝ) : Cur.div a 0 = .error .exception := by unfold Cur.div; rw [if_pos rfl]

end

/-! `I0 - 2*(I0 + I1)` -/
example (val : String → ℝ) : (Cur.sub (.base "a") (Cur.mul 2 (Cur.add (.base "a") (.base "b")))).value val = val "a" - 2 * (val "a" + val "b") ∧
    ∃ r h', (Cur.sub (.base "a") (Cur.mul 2 (Cur.add (.base "a") (.base "b")))).vjp [1] (Heap.empty : Heap String ℝ) = .ok r h' ∧
      partialD (fun _ => 1) h' r "a" = [-1] ∧ partialD (fun _ => 1) h' r "b" = [-2] := by
  refine ⟨by rw [(C37_values val _ _ 0).2.2.2.1, (C37_values val _ (.base "a") 2).1, (C37_values val _ _ 0).2.2.1]; rfl, ?_⟩
  obtain ⟨r, h', h1, _, _, h4⟩ := Cur.vjp_spec (size := fun _ => 1) [1] (Cur.sub (.base "a") (Cur.mul 2 (Cur.add (.base "a") (.base "b"))))
    Heap.empty (HeapOK.empty _) (by simp)
  refine ⟨r, h', h1, ?_, ?_⟩ <;> rw [h4 _ rfl] <;> simp [Cur.sub, Cur.neg, Cur.mul, Cur.add, Cur.coeff] <;> norm_num

end Simsopt.Coils
