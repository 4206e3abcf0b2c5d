import Verif.Rcls.Exists
import Verif.Wireframe.ConsOps
/-!
# C92: regularized constrained least squares on a wireframe

Model of `rcls_wireframe` (src/simsopt/solve/wireframe_optimization.py L453-543) with `assume_no_crossings=False`.  Printing is left out.
-/
namespace Simsopt.Rcls
open Matrix Simsopt.Wireframe

variable {μ : Type} [Fintype μ]

/-- The argument `reg_W`: a scalar, a 1d array or a 2d array over the segments. -/
inductive SegReg where
  | scalar (w : ℝ)
  | vec (w : Nat → ℝ)
  | mat (W : Nat → Nat → ℝ)

/-- `Wfree` (L499-509).  In the last case `W[free_segs,free_segs]` pairs the two index arrays, so numpy returns the diagonal elements alone. -/
def SegReg.free (W : SegReg) (free : List Nat) : Reg (Fin free.length) :=
  match W with
  | .scalar w => .scalar w
  | .vec w => .vec fun k => w free[k]
  | .mat W => .vec fun k => W free[k] free[k]

/-- `C` (L487-488) as a matrix. -/
def consMat (M : List (Row × ℝ) × List Nat) : Matrix (Fin M.1.length) (Fin M.2.length) ℝ := fun i k => M.1[i].1 ((M.2[k] : Nat) : Int)

/-- `d` (L487-488). -/
def consVec (M : List (Row × ℝ) × List Nat) : Fin M.1.length → ℝ := fun i => M.1[i].2

/-- `Afree = Amat[:,free_segs]` (L498). -/
def freeCols (A : μ → Nat → ℝ) (free : List Nat) : Matrix μ (Fin free.length) ℝ := fun i k => A i free[k]

/-- `x = np.zeros(...); x[free_segs] = xfree` (L522-523), also the currents of the wireframe (L526-527). -/
noncomputable def scatter (free : List Nat) (xf : Fin free.length → ℝ) : Int → ℝ := fun s => ∑ k, if ((free[k] : Nat) : Int) = s then xf k else 0

/-- `f_B` (L530). -/
noncomputable def fieldObj (g : Grid) (A : μ → Nat → ℝ) (b : μ → ℝ) (x : Int → ℝ) : ℝ := 1 / 2 * ∑ i, (∑ s ∈ Finset.range g.nSeg, A i s * x s - b i) ^ 2

/-- `f_R` (L531-536). -/
noncomputable def regObj (g : Grid) (W : SegReg) (x : Int → ℝ) : ℝ :=
  match W with
  | .scalar w => 1 / 2 * w ^ 2 * ∑ s ∈ Finset.range g.nSeg, x s ^ 2
  | .vec w => 1 / 2 * ∑ s ∈ Finset.range g.nSeg, (w s * x s) ^ 2
  | .mat W => 1 / 2 * ∑ s ∈ Finset.range g.nSeg, (∑ t ∈ Finset.range g.nSeg, W s t * x t) ^ 2

/-- What the call returns. -/
structure Out where
  x : Int → ℝ
  fB : ℝ
  fR : ℝ
  f : ℝ

/-- `rcls_wireframe(wframe, Amat, bvec, reg_W)` returns `o` (L485-539); with at least as many constraints as free segments it raises (L491-495). -/
def Returns (g : Grid) (A : μ → Nat → ℝ) (b : μ → ℝ) (W : SegReg) (w : Wf) (o : Out) : Prop :=
  let M := g.matrices true true w
  M.1.length < M.2.length ∧ ∃ (q : Qr (consMat M)) (u : Fin M.1.length → ℝ) (v : q.σ → ℝ), Solved (freeCols A M.2) b (W.free M.2) (consVec M) q u v ∧
    o.x = scatter M.2 (answer q u v) ∧ o.fB = fieldObj g A b o.x ∧ o.fR = regObj g W o.x ∧ o.f = o.fB + o.fR

/-! ### Specification -/

/-- The objective the documentation gives, over all the segments. -/
noncomputable def total (g : Grid) (A : μ → Nat → ℝ) (b : μ → ℝ) (W : Nat → Nat → ℝ) (x : Int → ℝ) : ℝ :=
  1 / 2 * (∑ i, (∑ s ∈ Finset.range g.nSeg, A i s * x s - b i) ^ 2 + ∑ s ∈ Finset.range g.nSeg, (∑ t ∈ Finset.range g.nSeg, W s t * x t) ^ 2)

/-- The matrix a regularization stands for. -/
def SegReg.full : SegReg → Nat → Nat → ℝ
  | .scalar w => fun s t => if s = t then w else 0
  | .vec w => fun s t => if s = t then w s else 0
  | .mat W => W

/-! ### Sums over the free segments -/

theorem sum_getElem (l : List Nat) (f : Nat → ℝ) : ∑ k : Fin l.length, f l[k] = (l.map f).sum := by
  induction l with
  | nil => simp
  | cons a l ih =>
    rw [List.map_cons, List.sum_cons, ← ih]
    exact Fin.sum_univ_succ (n := l.length) (fun k => f ((a :: l)[k]))

/-- A sum over the segments of something that vanishes away from the free ones. -/
theorem sum_free (g : Grid) (w : Wf) (f : Nat → ℝ) (h : ∀ s < g.nSeg, s ∉ g.freeSegs w → f s = 0) : ∑ s ∈ Finset.range g.nSeg, f s = ∑ k : Fin (g.freeSegs w).length, f (g.freeSegs w)[k] := by
  rw [sum_getElem, Grid.freeSegs, sum_filter_list]
  refine Finset.sum_congr rfl fun s hs => ?_
  split_ifs with hc
  · rfl
  · exact h s (Finset.mem_range.mp hs) fun hm => hc (List.mem_filter.mp hm).2

theorem free_nodup (g : Grid) (w : Wf) : (g.freeSegs w).Nodup := List.nodup_range.filter _

theorem free_lt (g : Grid) (w : Wf) {s : Nat} (h : s ∈ g.freeSegs w) : s < g.nSeg := List.mem_range.mp (List.mem_filter.mp h).1

theorem scatter_at {l : List Nat} (hn : l.Nodup) (xf : Fin l.length → ℝ) (k : Fin l.length) : scatter l xf ((l[k] : Nat) : Int) = xf k := by
  rw [scatter, Finset.sum_eq_single k]
  · rw [if_pos rfl]
  · intro j _ hj
    rw [if_neg]
    intro h
    have h' : l[j.1] = l[k.1] := by exact_mod_cast h
    exact hj (Fin.ext ((List.Nodup.getElem_inj_iff hn).mp h'))
  · intro h; exact absurd (Finset.mem_univ k) h

theorem scatter_off {l : List Nat} (xf : Fin l.length → ℝ) {s : Nat} (h : s ∉ l) : scatter l xf s = 0 := by
  refine Finset.sum_eq_zero fun k _ => if_neg fun e => h ?_
  have e' : l[k.1] = s := by exact_mod_cast e
  rw [← e']; exact List.getElem_mem _

/-- Currents that vanish away from the free segments: the objective of the reduced problem. -/
theorem total_free (g : Grid) (w : Wf) (A : μ → Nat → ℝ) (b : μ → ℝ) (R : SegReg) (ω : Nat → ℝ) (hω : R.free (g.freeSegs w) = .vec (fun k => ω (g.freeSegs w)[k]) ∨ ∃ c, R = .scalar c ∧ ω = fun _ => c) (x : Int → ℝ)
    (hx : ∀ s < g.nSeg, s ∉ g.freeSegs w → x s = 0) :
    objective (freeCols A (g.freeSegs w)) b (R.free (g.freeSegs w)) (fun k => x ((g.freeSegs w)[k] : Nat)) = total g A b (fun s t => if s = t then ω s else 0) x := by
  have hW : ∀ k, ((R.free (g.freeSegs w)).toMat *ᵥ fun k => x ((g.freeSegs w)[k] : Nat)) k = ω (g.freeSegs w)[k] * x ((g.freeSegs w)[k] : Nat) := by
    intro k
    rcases hω with h | ⟨c, h, h'⟩
    · rw [h]; simp only [Reg.toMat, mulVec_diagonal]
    · rw [h, h']; simp only [SegReg.free, Reg.toMat, smul_mulVec, one_mulVec, Pi.smul_apply, smul_eq_mul]
  rw [objective, total]
  congr 2
  · refine Finset.sum_congr rfl fun i _ => ?_
    rw [sum_free g w (fun s => A i s * x s) fun s hs hf => by rw [hx s hs hf, mul_zero]]
    rfl
  · have hd : ∀ s ∈ Finset.range g.nSeg, ∑ t ∈ Finset.range g.nSeg, (if s = t then ω s else 0) * x t = ω s * x s := by
      intro s hs
      rw [Finset.sum_eq_single s (fun t _ ht => by rw [if_neg (Ne.symm ht), zero_mul]) (fun h => absurd hs h), if_pos rfl]
    have hd' : ∑ s ∈ Finset.range g.nSeg, (∑ t ∈ Finset.range g.nSeg, (if s = t then ω s else 0) * x t) ^ 2 = ∑ s ∈ Finset.range g.nSeg, (ω s * x s) ^ 2 :=
      Finset.sum_congr rfl fun s hs => by rw [hd s hs]
    rw [hd', sum_free g w (fun s => (ω s * x s) ^ 2) fun s hs hf => by rw [hx s hs hf]; ring]
    exact Finset.sum_congr rfl fun k _ => by rw [hW k]

/-- The constraints of the reduced problem. -/
theorem meets_free {g : Grid} (h2 : 2 ≤ g.N) (h1 : 1 ≤ g.h) {w : Wf} (hr : g.Reach w) (y : Int → ℝ) (hy : ∀ s < g.nSeg, s ∉ g.freeSegs (g.fresh w) → y s = 0) :
    w.Meets g y ↔ consMat (g.matrices true true w) *ᵥ (fun k => y ((g.matrices true true w).2[k] : Nat)) = consVec (g.matrices true true w) := by
  obtain ⟨-, hs, he⟩ := C84_matrices h2 h1 hr true y
  have e1 : w.Meets g y ↔ w.Meets g fun s => if s.toNat ∈ g.freeSegs (g.fresh w) then y s else 0 := by
    refine forall_congr' fun c => forall_congr' fun _ => forall_congr' fun _ => ?_
    have : g.apply c.row y = g.apply c.row fun s => if s.toNat ∈ g.freeSegs (g.fresh w) then y s else 0 := by
      refine Finset.sum_congr rfl fun s hs' => ?_
      simp only [Int.toNat_natCast]
      split_ifs with h
      · rfl
      · rw [hy s (Finset.mem_range.mp hs') h]
    rw [this]
  rw [e1, ← hs]
  constructor
  · intro h
    funext i
    have := h (g.matrices true true w).1[i] (List.getElem_mem _)
    rw [← sum_getElem] at this
    exact this
  · intro h r hrm
    obtain ⟨i, hi, rfl⟩ := List.mem_iff_getElem.mp hrm
    have := congrFun h ⟨i, hi⟩
    rw [← sum_getElem]
    exact this

theorem fullReg_eq (g : Grid) (A : μ → Nat → ℝ) (b : μ → ℝ) (W : SegReg) (x : Int → ℝ) : fieldObj g A b x + regObj g W x = total g A b W.full x := by
  rw [fieldObj, total, mul_add]
  congr 1
  have hd : ∀ ω : Nat → ℝ, ∑ s ∈ Finset.range g.nSeg, (∑ t ∈ Finset.range g.nSeg, (if s = t then ω s else 0) * x t) ^ 2 = ∑ s ∈ Finset.range g.nSeg, (ω s * x s) ^ 2 := by
    intro ω
    refine Finset.sum_congr rfl fun s hs => ?_
    rw [Finset.sum_eq_single s (fun t _ ht => by rw [if_neg (Ne.symm ht), zero_mul]) (fun h => absurd hs h), if_pos rfl]
  cases W with
  | scalar w =>
    simp only [regObj, SegReg.full]
    rw [hd fun _ => w]
    simp only [mul_pow, ← Finset.mul_sum]; ring
  | vec w => simp only [regObj, SegReg.full]; rw [hd w]
  | mat W => rfl

/-- The regularization the reduced problem really has: the diagonal. -/
def SegReg.diag (W : SegReg) : Nat → ℝ := fun s => W.full s s

/-- **C92** What `rcls_wireframe` returns, after any history of the wireframe: currents that meet every constraint, and the value of the objective there; and among all the currents that meet the constraints they have the least value of the
objective with the diagonal of the regularization. -/
theorem C92_diagonal {g : Grid} (h2 : 2 ≤ g.N) (h1 : 1 ≤ g.h) {w : Wf} (hr : g.Reach w) (A : μ → Nat → ℝ) (b : μ → ℝ) (W : SegReg) (o : Out) (ho : Returns g A b W w o) :
    w.Meets g o.x ∧ o.f = total g A b W.full o.x ∧ (∀ s < g.nSeg, s ∉ g.freeSegs (g.fresh w) → o.x s = 0) ∧
    ∀ y, w.Meets g y → total g A b (fun s t => if s = t then W.diag s else 0) o.x ≤ total g A b (fun s t => if s = t then W.diag s else 0) y ∧
      ((∀ s, W.diag s ≠ 0) → total g A b (fun s t => if s = t then W.diag s else 0) y ≤ total g A b (fun s t => if s = t then W.diag s else 0) o.x → ∀ s < g.nSeg, y s = o.x s) := by
  obtain ⟨-, q, u, v, hsol, hx, hB, hR, hf⟩ := ho
  have he := (C84_matrices h2 h1 hr true o.x).2.2
  have hzero : ∀ s < g.nSeg, s ∉ g.freeSegs (g.fresh w) → o.x s = 0 := by
    intro s _ hs'
    rw [hx]
    exact scatter_off _ (by rw [he]; exact hs')
  have hnd : (g.matrices true true w).2.Nodup := by rw [he]; exact free_nodup g _
  have hxf : (fun k : Fin (g.matrices true true w).2.length => o.x ((g.matrices true true w).2[k] : Nat)) = answer q u v := by
    funext k; rw [hx]; exact scatter_at hnd _ k
  have hω : W.free (g.freeSegs (g.fresh w)) = .vec (fun k => W.diag (g.freeSegs (g.fresh w))[k]) ∨ ∃ c, W = .scalar c ∧ W.diag = fun _ => c := by
    cases W with
    | scalar c => exact Or.inr ⟨c, rfl, by funext s; simp [SegReg.diag, SegReg.full]⟩
    | vec c => left; simp [SegReg.free, SegReg.diag, SegReg.full]
    | mat c => left; simp [SegReg.free, SegReg.diag, SegReg.full]
  obtain ⟨hC, hmin⟩ := C91_rcls _ _ _ _ _ q u v hsol
  refine ⟨(meets_free h2 h1 hr o.x hzero).mpr (by rw [hxf]; exact hC), by rw [hf, hB, hR]; exact fullReg_eq g A b W o.x, hzero, fun y hy => ?_⟩
  have hyz := fun s hs hs' => C84_sound h2 h1 hr y hy s hs hs'
  have hyC := (meets_free h2 h1 hr y hyz).mp hy
  have ex := total_free g (g.fresh w) A b W W.diag hω o.x hzero
  have ey := total_free g (g.fresh w) A b W W.diag hω y hyz
  have ex' : objective (freeCols A (g.matrices true true w).2) b (W.free (g.matrices true true w).2) (answer q u v) = total g A b (fun s t => if s = t then W.diag s else 0) o.x := by
    rw [← hxf]; exact ex
  have ey' : objective (freeCols A (g.matrices true true w).2) b (W.free (g.matrices true true w).2) (fun k => y ((g.matrices true true w).2[k] : Nat)) = total g A b (fun s t => if s = t then W.diag s else 0) y := ey
  rw [← ex', ← ey']
  refine ⟨(hmin _ hyC).1, fun hd hle s hs => ?_⟩
  by_cases hf' : s ∈ g.freeSegs (g.fresh w)
  · have hu := C91_unique _ _ _ (fun z hz => ?_) _ _ q u v hsol _ hyC hle
    · rw [← hxf] at hu
      obtain ⟨k, hk, rfl⟩ := List.mem_iff_getElem.mp hf'
      exact congrFun hu ⟨k, hk⟩
    · rcases hω with h | ⟨c, h, h'⟩
      · have h3 : W.free (g.matrices true true w).2 = .vec (fun k => W.diag (g.matrices true true w).2[k]) := h
        rw [h3] at hz
        exact vec_inj _ (fun k => hd _) z hz
      · subst h
        exact scalar_inj c (by have := hd 0; rw [h'] at this; exact this) z hz
  · rw [hyz s hs hf', hzero s hs hf']

/-- **C92** With a scalar or a 1d array as regularization, the currents minimize the documented objective among all those that meet the constraints. -/
theorem C92_minimum {g : Grid} (h2 : 2 ≤ g.N) (h1 : 1 ≤ g.h) {w : Wf} (hr : g.Reach w) (A : μ → Nat → ℝ) (b : μ → ℝ) (W : SegReg) (hW : ∀ V, W ≠ .mat V) (o : Out) (ho : Returns g A b W w o) :
    w.Meets g o.x ∧ o.f = total g A b W.full o.x ∧ ∀ y, w.Meets g y → o.f ≤ total g A b W.full y := by
  obtain ⟨hm, hf, -, h⟩ := C92_diagonal h2 h1 hr A b W o ho
  refine ⟨hm, hf, fun y hy => ?_⟩
  have e : (fun s t => if s = t then W.diag s else 0) = W.full := by
    cases W with
    | scalar c => funext s t; by_cases h : s = t <;> simp [SegReg.diag, SegReg.full, h]
    | vec c => funext s t; by_cases h : s = t <;> simp [SegReg.diag, SegReg.full, h]
    | mat V => exact absurd rfl (hW V)
  have := (h y hy).1
  rw [e] at this
  rw [hf]; exact this

end Simsopt.Rcls
