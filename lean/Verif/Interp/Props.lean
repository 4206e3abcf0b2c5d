import Verif.Interp.Lemmas
import Mathlib.Topology.LocallyFinite
import Mathlib.Topology.Algebra.Polynomial
import Mathlib.Analysis.Normed.Group.Basic
import Mathlib.Tactic.LinearCombination
/-!
# The interpolant: what it computes
-/
namespace Simsopt.Interp
open Finset

/-! ## Specification -/

/-- Lagrange interpolation of a function of one variable on the nodes of cell `i`, evaluated at `x`. -/
noncomputable def lag (r : Rule) (a : Axis) (i : ℕ) (G : ℝ → ℝ) (x : ℝ) : ℝ :=
  ∑ s ∈ range (r.degree + 1), G (a.mesh i + r.nodes s * a.h) * r.basis s ((x - a.mesh i) / a.h)

/-- Interpolation in each of the three variables in turn, on the cell `(i, j, k)`. -/
noncomputable def lag3 (c : Cfg) (i j k : ℕ) (G : ℝ → ℝ → ℝ → ℝ) (x y z : ℝ) : ℝ :=
  lag c.rule c.x i (fun X => lag c.rule c.y j (fun Y => lag c.rule c.z k (fun Z => G X Y Z) z) y) x

/-- `skip` returned false at a corner of the cell. -/
def Corner (c : Cfg) (i j k : ℕ) : Prop := ∃ a ≤ 1, ∃ b ≤ 1, ∃ d ≤ 1, c.skipMesh (i + a) (j + b) (k + d) = false

/-- The point is in the cell `(i, j, k)` of the grid, inside the domain. -/
structure InCell (c : Cfg) (i j k : ℕ) (x y z : ℝ) : Prop where
  hi : i < c.x.n
  hj : j < c.y.n
  hk : k < c.z.n
  x1 : c.x.mesh i ≤ x
  x2 : x < c.x.mesh (i + 1)
  y1 : c.y.mesh j ≤ y
  y2 : y < c.y.mesh (j + 1)
  z1 : c.z.mesh k ≤ z
  z2 : z < c.z.mesh (k + 1)

/-- The point is strictly inside the domain. -/
structure Inside (c : Cfg) (x y z : ℝ) : Prop where
  x : c.x.lo < x ∧ x < c.x.hi
  y : c.y.lo < y ∧ y < c.y.hi
  z : c.z.lo < z ∧ z < c.z.hi

/-- What `evaluate` returns (impl L76-81): a vector that was zero before. -/
def Out.value : Out → ℕ → ℝ
  | .written v, l => v l
  | _, _ => 0

/-! ## Proofs -/

theorem corner_iff (c : Cfg) (i j k : ℕ) : Corner c i j k ↔ c.skipCell i j k = false := by
  constructor
  · rintro ⟨a, ha, b, hb, d, hd, h⟩
    unfold Cfg.skipCell
    have ha' : a = 0 ∨ a = 1 := by omega
    have hb' : b = 0 ∨ b = 1 := by omega
    have hd' : d = 0 ∨ d = 1 := by omega
    rcases ha' with rfl | rfl <;> rcases hb' with rfl | rfl <;> rcases hd' with rfl | rfl <;> simp_all
  · intro h
    by_contra hn
    have hall : ∀ a ≤ 1, ∀ b ≤ 1, ∀ d ≤ 1, c.skipMesh (i + a) (j + b) (k + d) = true := by
      intro a ha b hb d hd
      by_contra hc
      exact hn ⟨a, ha, b, hb, d, hd, by simpa using hc⟩
    unfold Cfg.skipCell at h
    have e := fun a ha b hb d hd => hall a ha b hb d hd
    rw [show c.skipMesh i j k = true from e 0 (by omega) 0 (by omega) 0 (by omega), show c.skipMesh i j (k + 1) = true from e 0 (by omega) 0 (by omega) 1 (by omega),
      show c.skipMesh i (j + 1) k = true from e 0 (by omega) 1 (by omega) 0 (by omega), show c.skipMesh i (j + 1) (k + 1) = true from e 0 (by omega) 1 (by omega) 1 (by omega),
      show c.skipMesh (i + 1) j k = true from e 1 (by omega) 0 (by omega) 0 (by omega), show c.skipMesh (i + 1) j (k + 1) = true from e 1 (by omega) 0 (by omega) 1 (by omega),
      show c.skipMesh (i + 1) (j + 1) k = true from e 1 (by omega) 1 (by omega) 0 (by omega), show c.skipMesh (i + 1) (j + 1) (k + 1) = true from e 1 (by omega) 1 (by omega) 1 (by omega)] at h
    simp at h

theorem sum_eq {c : Cfg} {f : Fun} {F : ℝ → ℝ → ℝ → ℕ → ℝ} (hc : c.OK) (hf : Pointwise c.vs f F) {i j k l : ℕ} (hi : i < c.x.n) (hj : j < c.y.n) (hk : k < c.z.n) (hs : c.skipCell i j k = false) (hl : l < c.vs) (x y z : ℝ) :
    c.sum f i j k ((x - c.x.mesh i) / c.x.h) ((y - c.y.mesh j) / c.y.h) ((z - c.z.mesh k) / c.z.h) l = lag3 c i j k (fun X Y Z => F X Y Z l) x y z := by
  unfold Cfg.sum lag3 lag
  refine Finset.sum_congr rfl fun a ha => ?_
  congr 1
  refine Finset.sum_congr rfl fun b hb => ?_
  congr 1
  refine Finset.sum_congr rfl fun d hd => ?_
  rw [Finset.mem_range] at ha hb hd
  rw [localVals_eq hc hf hi hj hk hs (by omega) (by omega) (by omega) hl]

/-- The evaluation at a point whose shifted coordinates are in a cell. -/
theorem eval_cell {c : Cfg} {f : Fun} (hc : c.OK) {i j k : ℕ} {x y z x' y' z' : ℝ} (ex : c.x.shift x = x') (ey : c.y.shift y = y') (ez : c.z.shift z = z') (h : InCell c i j k x' y' z') :
    c.eval f x y z = if c.skipCell i j k then (if c.oob then .untouched else .error)
      else .written (c.sum f i j k ((x' - c.x.mesh i) / c.x.h) ((y' - c.y.mesh j) / c.y.h) ((z' - c.z.mesh k) / c.z.h)) := by
  have e1 := Axis.idx_of_mem hc.x h.hi h.x1 h.x2
  have e2 := Axis.idx_of_mem hc.y h.hj h.y1 h.y2
  have e3 := Axis.idx_of_mem hc.z h.hk h.z1 h.z2
  unfold Cfg.eval
  simp only [ex, ey, ez, e1, e2, e3]
  have h1 : ¬ ((i : ℤ) < 0 ∨ (i : ℤ) ≥ c.x.n) := by have := h.hi; omega
  have h2 : ¬ ((j : ℤ) < 0 ∨ (j : ℤ) ≥ c.y.n) := by have := h.hj; omega
  have h3 : ¬ ((k : ℤ) < 0 ∨ (k : ℤ) ≥ c.z.n) := by have := h.hk; omega
  rw [decide_eq_false h1, decide_eq_false h2, decide_eq_false h3]
  simp only [Bool.or_false, Bool.and_false, Bool.false_eq_true, if_false]
  rw [Axis.meshAt_nat _ h.hi.le, Axis.meshAt_nat _ h.hj.le, Axis.meshAt_nat _ h.hk.le]
  simp only
  unfold Cfg.evalLocal
  rw [find_eq h.hi h.hj h.hk]
  by_cases hs : c.skipCell i j k = true
  · rw [if_pos hs, if_pos hs]
  · rw [if_neg hs, if_neg hs]

theorem Axis.shift_interior {a : Axis} {x : ℝ} (h : a.lo < x ∧ x < a.hi) : a.shift x = x := by
  unfold Axis.shift
  rw [if_neg (by linarith [h.2]), if_neg (by linarith [h.1])]

theorem inCell_exists {c : Cfg} (hc : c.OK) {x y z : ℝ} (h : Inside c x y z) : ∃ i j k, InCell c i j k x y z := by
  obtain ⟨_, i, hi, _, x1, x2⟩ := Axis.idx_interior hc.x h.x.1 h.x.2
  obtain ⟨_, j, hj, _, y1, y2⟩ := Axis.idx_interior hc.y h.y.1 h.y.2
  obtain ⟨_, k, hk, _, z1, z2⟩ := Axis.idx_interior hc.z h.z.1 h.z.2
  exact ⟨i, j, k, ⟨hi, hj, hk, x1, x2, y1, y2, z1, z2⟩⟩

/-- **C109.** Every point strictly inside the domain is in exactly one cell `[mesh i, mesh (i+1)) × …`; if `skip` returned false at one of that cell's corners, `evaluate` returns there, for each component, the tensor-product Lagrange interpolation of the function on the interpolation points of that cell, whichever other cells are skipped and however the function was called in batches. -/
theorem C109_interpolation (c : Cfg) (hc : c.OK) (f : Fun) (F : ℝ → ℝ → ℝ → ℕ → ℝ) (hf : Pointwise c.vs f F) (x y z : ℝ) (h : Inside c x y z) :
    (∃ i j k, InCell c i j k x y z) ∧ ∀ i j k, InCell c i j k x y z → Corner c i j k →
      ∃ v, c.eval f x y z = .written v ∧ ∀ l < c.vs, v l = lag3 c i j k (fun X Y Z => F X Y Z l) x y z := by
  refine ⟨inCell_exists hc h, fun i j k hcell hcor => ?_⟩
  have hs := (corner_iff c i j k).mp hcor
  rw [eval_cell hc (Axis.shift_interior h.x) (Axis.shift_interior h.y) (Axis.shift_interior h.z) hcell, if_neg (by rw [hs]; exact Bool.false_ne_true)]
  exact ⟨_, rfl, fun l hl => sum_eq hc hf hcell.hi hcell.hj hcell.hk hs hl x y z⟩

theorem lag_poly {r : Rule} (hr : r.OK) {a : Axis} (ha : 0 < a.h) (i : ℕ) (P : Polynomial ℝ) (hP : P.natDegree ≤ r.degree) (x : ℝ) : lag r a i (fun X => P.eval X) x = P.eval x := by
  have h := reproduce hr (P.comp (Polynomial.C (a.mesh i) + Polynomial.C a.h * Polynomial.X)) (by
    refine Polynomial.natDegree_comp_le.trans ?_
    have : (Polynomial.C (a.mesh i) + Polynomial.C a.h * Polynomial.X).natDegree ≤ 1 := by
      refine (Polynomial.natDegree_add_le _ _).trans ?_
      rw [Polynomial.natDegree_C]
      exact max_le (by omega) ((Polynomial.natDegree_C_mul_le _ _).trans Polynomial.natDegree_X_le)
    calc _ ≤ P.natDegree * 1 := Nat.mul_le_mul_left _ this
      _ ≤ r.degree := by omega) ((x - a.mesh i) / a.h)
  simp only [Polynomial.eval_comp, Polynomial.eval_add, Polynomial.eval_mul, Polynomial.eval_C, Polynomial.eval_X] at h
  unfold lag
  rw [show a.mesh i + a.h * ((x - a.mesh i) / a.h) = x by field_simp; ring] at h
  rw [← h]
  exact Finset.sum_congr rfl fun s _ => by rw [mul_comm a.h]

theorem lag_sum {ι : Type} (S : Finset ι) (r : Rule) (a : Axis) (i : ℕ) (G : ι → ℝ → ℝ) (x : ℝ) : lag r a i (fun X => ∑ s ∈ S, G s X) x = ∑ s ∈ S, lag r a i (G s) x := by
  unfold lag
  rw [Finset.sum_comm]
  exact Finset.sum_congr rfl fun t _ => Finset.sum_mul _ _ _

theorem lag_mul (r : Rule) (a : Axis) (i : ℕ) (u : ℝ) (G : ℝ → ℝ) (x : ℝ) : lag r a i (fun X => u * G X) x = u * lag r a i G x := by
  unfold lag
  rw [Finset.mul_sum]
  exact Finset.sum_congr rfl fun t _ => mul_assoc _ _ _

theorem lag3_poly {c : Cfg} (hc : c.OK) {ι : Type} (S : Finset ι) (P Q R : ι → Polynomial ℝ)
    (hP : ∀ s ∈ S, (P s).natDegree ≤ c.rule.degree) (hQ : ∀ s ∈ S, (Q s).natDegree ≤ c.rule.degree) (hR : ∀ s ∈ S, (R s).natDegree ≤ c.rule.degree) (i j k : ℕ) (x y z : ℝ) :
    lag3 c i j k (fun X Y Z => ∑ s ∈ S, (P s).eval X * (Q s).eval Y * (R s).eval Z) x y z = ∑ s ∈ S, (P s).eval x * (Q s).eval y * (R s).eval z := by
  unfold lag3
  have e1 : ∀ X Y, lag c.rule c.z k (fun Z => ∑ s ∈ S, (P s).eval X * (Q s).eval Y * (R s).eval Z) z = ∑ s ∈ S, (P s).eval X * (R s).eval z * (Q s).eval Y := by
    intro X Y
    rw [lag_sum]
    refine Finset.sum_congr rfl fun s hs => ?_
    rw [lag_mul, lag_poly hc.rule (Axis.h_pos hc.z) k _ (hR s hs)]
    ring
  simp only [e1]
  have e2 : ∀ X, lag c.rule c.y j (fun Y => ∑ s ∈ S, (P s).eval X * (R s).eval z * (Q s).eval Y) y = ∑ s ∈ S, (R s).eval z * (Q s).eval y * (P s).eval X := by
    intro X
    rw [lag_sum]
    refine Finset.sum_congr rfl fun s hs => ?_
    rw [lag_mul, lag_poly hc.rule (Axis.h_pos hc.y) j _ (hQ s hs)]
    ring
  simp only [e2]
  rw [lag_sum]
  refine Finset.sum_congr rfl fun s hs => ?_
  rw [lag_mul, lag_poly hc.rule (Axis.h_pos hc.x) i _ (hP s hs)]
  ring

/-- **C109.** Every function that is, in each component, a polynomial of at most the rule's degree in each of the three variables (a sum of products `P(x) Q(y) R(z)`) is reproduced exactly at every point inside the domain whose cell has a corner `skip` accepts. -/
theorem C109_polynomials (c : Cfg) (hc : c.OK) (f : Fun) {ι : Type} (S : ℕ → Finset ι) (P Q R : ℕ → ι → Polynomial ℝ)
    (hdeg : ∀ l, ∀ s ∈ S l, (P l s).natDegree ≤ c.rule.degree ∧ (Q l s).natDegree ≤ c.rule.degree ∧ (R l s).natDegree ≤ c.rule.degree)
    (hf : Pointwise c.vs f fun X Y Z l => ∑ s ∈ S l, (P l s).eval X * (Q l s).eval Y * (R l s).eval Z)
    (x y z : ℝ) (h : Inside c x y z) (hcor : ∀ i j k, InCell c i j k x y z → Corner c i j k) :
    ∃ v, c.eval f x y z = .written v ∧ ∀ l < c.vs, v l = ∑ s ∈ S l, (P l s).eval x * (Q l s).eval y * (R l s).eval z := by
  obtain ⟨⟨i, j, k, hcell⟩, hall⟩ := C109_interpolation c hc f _ hf x y z h
  obtain ⟨v, hv, hl⟩ := hall i j k hcell (hcor i j k hcell)
  refine ⟨v, hv, fun l hlt => ?_⟩
  rw [hl l hlt, lag3_poly hc (S l) (P l) (Q l) (R l) (fun s hs => (hdeg l s hs).1) (fun s hs => (hdeg l s hs).2.1) (fun s hs => (hdeg l s hs).2.2)]

theorem lag_node {r : Rule} (hr : r.OK) {a : Axis} (ha : 0 < a.h) (i : ℕ) (G : ℝ → ℝ) {s : ℕ} (hs : s ≤ r.degree) : lag r a i G (a.mesh i + r.nodes s * a.h) = G (a.mesh i + r.nodes s * a.h) := by
  unfold lag
  have e : (a.mesh i + r.nodes s * a.h - a.mesh i) / a.h = r.nodes s := by
    rw [add_sub_cancel_left]; exact mul_div_cancel_right₀ _ ha.ne'
  rw [e, Finset.sum_eq_single s]
  · rw [basis_node hr hs hs, if_pos rfl, mul_one]
  · intro t ht hts
    rw [basis_node hr (by have := Finset.mem_range.mp ht; omega) hs, if_neg hts, mul_zero]
  · intro h; exact absurd (Finset.mem_range.mpr (by omega)) h

/-- **C109.** At the interpolation points themselves the interpolant equals the function, whatever the function. -/
theorem C109_nodes (c : Cfg) (hc : c.OK) (f : Fun) (F : ℝ → ℝ → ℝ → ℕ → ℝ) (hf : Pointwise c.vs f F) (i j k a b d : ℕ) (ha : a ≤ c.rule.degree) (hb : b ≤ c.rule.degree) (hd : d ≤ c.rule.degree) :
    let x := c.x.mesh i + c.rule.nodes a * c.x.h
    let y := c.y.mesh j + c.rule.nodes b * c.y.h
    let z := c.z.mesh k + c.rule.nodes d * c.z.h
    Inside c x y z → InCell c i j k x y z → Corner c i j k → ∃ v, c.eval f x y z = .written v ∧ ∀ l < c.vs, v l = F x y z l := by
  intro x y z h hcell hcor
  obtain ⟨v, hv, hl⟩ := (C109_interpolation c hc f F hf x y z h).2 i j k hcell hcor
  refine ⟨v, hv, fun l hlt => ?_⟩
  rw [hl l hlt]
  unfold lag3
  rw [lag_node hc.rule (Axis.h_pos hc.x) i _ ha, lag_node hc.rule (Axis.h_pos hc.y) j _ hb, lag_node hc.rule (Axis.h_pos hc.z) k _ hd]

/-- **C109.** The two rules have distinct nodes running from 0 to 1, for every degree from 1 on, so the theorems apply to both. -/
theorem C109_rules (d : ℕ) (hd : 0 < d) : (uniform d).OK ∧ (chebyshev d).OK ∧ (uniform d).degree = d ∧ (chebyshev d).degree = d := ⟨uniform_ok hd, chebyshev_ok hd, rfl, rfl⟩

/-! ## Continuity -/

theorem basis_continuous (r : Rule) (s : ℕ) : Continuous (r.basis s) := by
  have : r.basis s = fun x => (Lagrange.basis (range (r.degree + 1)) r.nodes s).eval x := by funext x; exact basis_eq r s x
  rw [this]
  exact Polynomial.continuous _

theorem lag_face {r : Rule} (hr : r.OK) {a : Axis} (ha : 0 < a.h) (i : ℕ) (G : ℝ → ℝ) : lag r a i G (a.mesh (i + 1)) = lag r a (i + 1) G (a.mesh (i + 1)) := by
  have e : a.mesh (i + 1) = a.mesh i + r.nodes r.degree * a.h := by
    rw [a.mesh_eq, a.mesh_eq, hr.last]; push_cast; ring
  have e' : a.mesh (i + 1) = a.mesh (i + 1) + r.nodes 0 * a.h := by
    rw [hr.first]; ring
  have h1 := lag_node hr ha i G (le_refl r.degree)
  have h2 := lag_node hr ha (i + 1) G (Nat.zero_le r.degree)
  rw [← e] at h1
  rw [← e'] at h2
  rw [h1, h2]

/-- A number of a closed cell is in the half-open cell or at the next cell's start. -/
theorem lag_closed {r : Rule} (hr : r.OK) {a : Axis} (h : a.lo < a.hi ∧ 0 < a.n) {i i' : ℕ} {x : ℝ} (h1 : a.mesh i ≤ x) (h2 : x ≤ a.mesh (i + 1)) (h1' : a.mesh i' ≤ x) (h2' : x < a.mesh (i' + 1)) (G : ℝ → ℝ) :
    lag r a i G x = lag r a i' G x := by
  have hh := Axis.h_pos h
  rw [a.mesh_eq] at h1 h2 h1' h2'
  have c1 : (i' : ℝ) < i + 1 + 1 := by
    push_cast at h2 h2'
    nlinarith
  have c2 : (i : ℝ) < i' + 1 := by
    push_cast at h2 h2'
    nlinarith
  have c1' : i' < i + 1 + 1 := by exact_mod_cast c1
  have c2' : i < i' + 1 := by exact_mod_cast c2
  rcases (by omega : i' = i ∨ i' = i + 1) with rfl | rfl
  · rfl
  · have : x = a.mesh (i + 1) := by rw [a.mesh_eq]; exact le_antisymm h2 h1'
    rw [this]
    exact lag_face hr hh i G

/-- **C109.** Without skipped cells the interpolant of any function is continuous inside the domain, across the faces, edges and corners of the cells. -/
theorem C109_continuous (c : Cfg) (hc : c.OK) (f : Fun) (F : ℝ → ℝ → ℝ → ℕ → ℝ) (hf : Pointwise c.vs f F) (hskip : ∀ i j k, c.skipMesh i j k = false) (l : ℕ) (hl : l < c.vs) :
    ContinuousOn (fun p : ℝ × ℝ × ℝ => (c.eval f p.1 p.2.1 p.2.2).value l) {p | Inside c p.1 p.2.1 p.2.2} := by
  classical
  let I := Fin c.x.n × Fin c.y.n × Fin c.z.n
  let K : I → Set (ℝ × ℝ × ℝ) := fun t => {p | c.x.mesh t.1 ≤ p.1 ∧ p.1 ≤ c.x.mesh (t.1 + 1) ∧ c.y.mesh t.2.1 ≤ p.2.1 ∧ p.2.1 ≤ c.y.mesh (t.2.1 + 1) ∧ c.z.mesh t.2.2 ≤ p.2.2 ∧ p.2.2 ≤ c.z.mesh (t.2.2 + 1)}
  let g : I → ℝ × ℝ × ℝ → ℝ := fun t p => lag3 c t.1 t.2.1 t.2.2 (fun X Y Z => F X Y Z l) p.1 p.2.1 p.2.2
  have hgc : ∀ t, Continuous (g t) := by
    intro t
    have hb : ∀ s (a : Axis) (i : ℕ), Continuous fun u : ℝ => c.rule.basis s ((u - a.mesh i) / a.h) := fun s a i =>
      (basis_continuous c.rule s).comp ((continuous_id.sub continuous_const).div_const _)
    simp only [g, lag3, lag]
    refine continuous_finsetSum _ fun a _ => Continuous.mul (continuous_finsetSum _ fun b _ => Continuous.mul (continuous_finsetSum _ fun d _ => Continuous.mul continuous_const ?_) ?_) ?_
    · exact (hb d c.z t.2.2).comp (continuous_snd.comp continuous_snd)
    · exact (hb b c.y t.2.1).comp (continuous_fst.comp continuous_snd)
    · exact (hb a c.x t.1).comp continuous_fst
  have hval : ∀ t, ∀ p ∈ K t, Inside c p.1 p.2.1 p.2.2 → (c.eval f p.1 p.2.1 p.2.2).value l = g t p := by
    intro t p hp hin
    obtain ⟨⟨i, j, k, hcell⟩, hall⟩ := C109_interpolation c hc f F hf _ _ _ hin
    obtain ⟨v, hv, hvl⟩ := hall i j k hcell ⟨0, by omega, 0, by omega, 0, by omega, hskip _ _ _⟩
    rw [hv]
    show v l = _
    rw [hvl l hl]
    show lag3 c i j k _ _ _ _ = lag3 c _ _ _ _ _ _ _
    unfold lag3
    rw [← lag_closed hc.rule hc.x hp.1 hp.2.1 hcell.x1 hcell.x2]
    congr 1
    funext X
    rw [← lag_closed hc.rule hc.y hp.2.2.1 hp.2.2.2.1 hcell.y1 hcell.y2]
    congr 1
    funext Y
    rw [← lag_closed hc.rule hc.z hp.2.2.2.2.1 hp.2.2.2.2.2 hcell.z1 hcell.z2]
  have hcover : ∀ p : ℝ × ℝ × ℝ, Inside c p.1 p.2.1 p.2.2 → ∃ t, p ∈ K t := by
    intro p hin
    obtain ⟨i, j, k, h⟩ := inCell_exists hc hin
    exact ⟨(⟨i, h.hi⟩, ⟨j, h.hj⟩, ⟨k, h.hk⟩), h.x1, h.x2.le, h.y1, h.y2.le, h.z1, h.z2.le⟩
  have hclosed : ∀ t, IsClosed (K t) := by
    intro t
    refine IsClosed.inter (isClosed_le continuous_const continuous_fst) (IsClosed.inter (isClosed_le continuous_fst continuous_const) (IsClosed.inter (isClosed_le continuous_const (continuous_fst.comp continuous_snd)) (IsClosed.inter (isClosed_le (continuous_fst.comp continuous_snd) continuous_const) (IsClosed.inter (isClosed_le continuous_const (continuous_snd.comp continuous_snd)) (isClosed_le (continuous_snd.comp continuous_snd) continuous_const)))))
  -- near a point only the finitely many cells that contain it matter
  intro p hp
  rw [ContinuousWithinAt, Metric.tendsto_nhds]
  intro ε hε
  have h1 : ∀ t, ∀ᶠ q in nhds p, q ∈ K t → dist (g t q) ((c.eval f p.1 p.2.1 p.2.2).value l) < ε := by
    intro t
    by_cases ht : p ∈ K t
    · have := Metric.tendsto_nhds.mp ((hgc t).continuousAt (x := p)) ε hε
      rw [hval t p ht hp]
      exact this.mono fun q hq _ => hq
    · have hn : ∀ᶠ q in nhds p, q ∉ K t := (hclosed t).isOpen_compl.mem_nhds ht
      exact hn.mono fun q hq hq' => absurd hq' hq
  have h2 : ∀ᶠ q in nhds p, ∀ t, q ∈ K t → dist (g t q) ((c.eval f p.1 p.2.1 p.2.2).value l) < ε := Filter.eventually_all.mpr h1
  have h3 : ∀ᶠ q in nhdsWithin p {p | Inside c p.1 p.2.1 p.2.2}, ∀ t, q ∈ K t → dist (g t q) ((c.eval f p.1 p.2.1 p.2.2).value l) < ε := Filter.Eventually.filter_mono nhdsWithin_le_nhds h2
  filter_upwards [h3, self_mem_nhdsWithin] with q hq hin
  obtain ⟨t, ht⟩ := hcover q hin
  rw [hval t q ht hin]
  exact hq t ht

end Simsopt.Interp
