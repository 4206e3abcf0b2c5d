import Verif.PyList
import Mathlib.Data.Real.Basic
import Mathlib.Algebra.BigOperators.Ring.Finset
import Mathlib.Algebra.Order.BigOperators.Ring.Finset
import Mathlib.Tactic.Ring
import Mathlib.Tactic.Linarith
/-!
# C163: ReducedCoilSet

Model of `ReducedCoilSet` (src/simsopt/field/coilset.py L355-567).  Real numbers instead of doubles.  `np.linalg.svd` is an oracle with its documented properties (`IsSvd`).  All the sv dofs are taken to be free.
Matrices are functions of two indices; the sizes are kept beside them where numpy checks them.
-/
namespace Simsopt.Reduced
open Finset

/-- The attributes that matter for the dofs: `_s_diag`, `_vh_matrix` (square, of size `dim`), `_u_matrix`, `_coil_x0`, `_nsv`, the dofs `x` and the free dofs of the CoilSet. -/
structure State where
  s : List ℝ
  u : ℕ → ℕ → ℝ
  vh : ℕ → ℕ → ℝ
  dim : ℕ
  x0 : List ℝ
  nsv : ℕ
  x : List ℝ
  coil : List ℝ

/-- The matrices of an svd: `u`, `s`, `vh` and the size of the square matrix `vh`. -/
structure Svd where
  u : ℕ → ℕ → ℝ
  s : List ℝ
  vh : ℕ → ℕ → ℝ
  dim : ℕ

/-- `np.eye`. -/
noncomputable def eye (i j : ℕ) : ℝ := if i = j then 1 else 0

/-- `__init__` (L377-415): `coil` are the free dofs of the CoilSet; `svd` is `None` or all three matrices. -/
noncomputable def make (coil : List ℝ) (nsv : Option ℕ) (svd : Option Svd) : Except Err State := do
  let n := nsv.getD coil.length
  let m ← match svd with
    | some m => pure m
    | none => if n > coil.length then throw .valueError else pure { u := eye, s := List.replicate n 1, vh := eye, dim := n : Svd }
  if n > m.s.length then throw .valueError
  return { s := m.s, u := m.u, vh := m.vh, dim := m.dim, x0 := coil, nsv := n, x := List.replicate (m.s.take n).length 0, coil := coil }

/-- `nsv` as the argument of `from_function` and of the setter: an integer or `'nonzero'` (L434-435, L521-522): all the singular values. -/
def count (nsv : Option ℕ) (s : List ℝ) : ℕ := nsv.getD s.length

/-- `from_function` (L417-436), given the svd of the Jacobian. -/
noncomputable def fromFunction (coil : List ℝ) (svd : Svd) (nsv : Option ℕ) : Except Err State := make coil (some (count nsv svd.s)) (some svd)

/-- `set_dofs` (L561-566): called when `x` is set.  `np.pad` refuses a negative width; the product of a vector of length `len(_coil_x0)` with a matrix of another size is refused. -/
noncomputable def setDofs (st : State) (x : List ℝ) : Except Err State :=
  if x.length ≠ st.nsv then .error .valueError
  else if st.x0.length < st.nsv then .error .valueError
  else if st.x0.length ≠ st.dim then .error .valueError
  else .ok { st with x := x, coil := List.ofFn fun j : Fin st.x0.length => st.x0[j] + ∑ i ∈ range st.x0.length, x[i]?.getD 0 * st.vh i j }

/-- The setter of `nsv` (L515-528). -/
noncomputable def setNsv (st : State) (nsv : Option ℕ) : Except Err State :=
  let n := count nsv st.s
  if n > st.s.length then .error .valueError
  else .ok { st with nsv := n, x := (List.range n).map fun i => (st.x[i]?).getD 0 }

/-- `recalculate_reduced_basis` (L438-456), given the svd of the new Jacobian.  `self.nsv = min(self.nsv, len(s_diag))` runs the setter before `_s_diag` is replaced, so it checks against the old singular
values; the new dofs have as many names as there are kept singular values. -/
noncomputable def recalculate (st : State) (svd : Svd) : Except Err State := do
  let st' ← setNsv st (some (min st.nsv svd.s.length))
  return { st' with u := svd.u, s := svd.s, vh := svd.vh, dim := svd.dim, x0 := st'.coil, x := List.replicate st'.nsv 0 }

/-! ### Specification -/

/-- What `np.linalg.svd(J)` returns for an `m × n` matrix. -/
structure IsSvd (m n : ℕ) (J : ℕ → ℕ → ℝ) (d : Svd) : Prop where
  size : d.dim = n
  number : d.s.length = min m n
  rows : ∀ i < n, ∀ j < n, ∑ k ∈ range n, d.vh i k * d.vh j k = if i = j then 1 else 0
  product : ∀ a < m, ∀ b < n, J a b = ∑ i ∈ range (min m n), d.u a i * (d.s[i]?.getD 0) * d.vh i b

/-- The coils are where the dofs say: the reference dofs plus the combination of the first `nsv` right singular vectors. -/
def Consistent (st : State) : Prop := st.x.length = st.nsv ∧ st.coil.length = st.x0.length ∧ ∀ j < st.x0.length, st.coil[j]?.getD 0 = st.x0[j]?.getD 0 + ∑ i ∈ range st.nsv, st.x[i]?.getD 0 * st.vh i j

/-! ### Proofs -/

theorem sum_pad (n N : ℕ) (h : n ≤ N) (x : List ℝ) (hx : x.length = n) (f : ℕ → ℝ) : ∑ i ∈ range N, x[i]?.getD 0 * f i = ∑ i ∈ range n, x[i]?.getD 0 * f i := by
  symm
  refine sum_subset (range_subset_range.2 h) fun i _ hi => ?_
  rw [List.getElem?_eq_none (by rw [hx]; simpa using hi)]
  simp

theorem getD_ofFn {N : ℕ} (f : Fin N → ℝ) (j : ℕ) (hj : j < N) : (List.ofFn f)[j]?.getD 0 = f ⟨j, hj⟩ := by
  rw [List.getElem?_ofFn, dif_pos hj]; rfl

/-- **C163**: a set made from a function starts at the coils it was given. -/
theorem C163_start (m : ℕ) (coil : List ℝ) (J : ℕ → ℕ → ℝ) (d : Svd) (hd : IsSvd m coil.length J d) (nsv : Option ℕ) (hn : count nsv d.s ≤ d.s.length) :
    ∃ st, fromFunction coil d nsv = .ok st ∧ st.coil = coil ∧ st.nsv = count nsv d.s ∧ st.x = List.replicate (count nsv d.s) 0 ∧ Consistent st ∧ st.dim = st.x0.length ∧ st.nsv ≤ st.x0.length := by
  have hl : (d.s.take (count nsv d.s)).length = count nsv d.s := by rw [List.length_take]; omega
  refine ⟨{ s := d.s, u := d.u, vh := d.vh, dim := d.dim, x0 := coil, nsv := count nsv d.s, x := List.replicate (count nsv d.s) 0, coil := coil }, ?_, rfl, rfl, rfl, ⟨by simp, rfl, ?_⟩, hd.size, ?_⟩
  · unfold fromFunction make
    simp only [Option.getD_some, pure, Except.pure, bind, Except.bind]
    rw [if_neg (by omega), hl]
  · intro j _
    simp only
    rw [sum_eq_zero, add_zero]
    intro i _
    rw [List.getElem?_replicate]
    by_cases h : i < count nsv d.s
    · rw [if_pos h]; simp
    · rw [if_neg h]; simp
  · show count nsv d.s ≤ coil.length
    have := hd.number
    omega

/-- **C163**: setting `x` puts the coils at the reference dofs plus `Σ x_i v_i` over the kept right singular vectors; the basis and the reference do not change, so the result depends on the last `x` only. -/
theorem C163_move (st : State) (hdim : st.dim = st.x0.length) (hn : st.nsv ≤ st.x0.length) (x : List ℝ) (hx : x.length = st.nsv) :
    ∃ st', setDofs st x = .ok st' ∧ st'.x = x ∧ Consistent st' ∧ st'.x0 = st.x0 ∧ st'.vh = st.vh ∧ st'.s = st.s ∧ st'.u = st.u ∧ st'.nsv = st.nsv ∧ st'.dim = st.dim := by
  unfold setDofs
  rw [if_neg (by omega), if_neg (by omega), if_neg (by omega)]
  refine ⟨_, rfl, rfl, ⟨hx, by simp, fun j hj => ?_⟩, rfl, rfl, rfl, rfl, rfl, rfl⟩
  simp only
  rw [getD_ofFn _ j hj, List.getElem?_eq_getElem hj, Option.getD_some, sum_pad st.nsv st.x0.length hn x hx (fun i => st.vh i j)]
  rfl

/-- **C163**: any sequence of settings of `x` ends at the coils of the last one. -/
theorem C163_history (st : State) (hdim : st.dim = st.x0.length) (hn : st.nsv ≤ st.x0.length) (xs : List (List ℝ)) (hxs : ∀ x ∈ xs, x.length = st.nsv) (x : List ℝ) (hx : x.length = st.nsv) :
    (xs ++ [x]).foldlM setDofs st = setDofs st x := by
  induction xs generalizing st with
  | nil =>
    simp only [List.nil_append, List.foldlM_cons, List.foldlM_nil]
    cases setDofs st x <;> rfl
  | cons a xs ih =>
    have e : ∃ c, setDofs st a = .ok { st with x := a, coil := c } := by
      unfold setDofs
      rw [if_neg (by have := hxs a (by simp); omega), if_neg (by omega), if_neg (by omega)]
      exact ⟨_, rfl⟩
    obtain ⟨c, e⟩ := e
    rw [List.cons_append, List.foldlM_cons, e]
    show List.foldlM setDofs { st with x := a, coil := c } (xs ++ [x]) = _
    rw [ih { st with x := a, coil := c } hdim hn (fun y hy => hxs y (by simp [hy])) hx]
    unfold setDofs
    rfl

/-- **C163**: with the orthonormal vectors of an svd the dofs are lengths: the coil dofs move by exactly the Euclidean norm of `x`. -/
theorem C163_isometry (m : ℕ) (J : ℕ → ℕ → ℝ) (d : Svd) (st : State) (hd : IsSvd m st.x0.length J d) (hv : st.vh = d.vh) (hn : st.nsv ≤ st.x0.length) (hc : Consistent st) :
    ∑ j ∈ range st.x0.length, (st.coil[j]?.getD 0 - st.x0[j]?.getD 0) ^ 2 = ∑ i ∈ range st.nsv, (st.x[i]?.getD 0) ^ 2 := by
  have e : ∀ j ∈ range st.x0.length, (st.coil[j]?.getD 0 - st.x0[j]?.getD 0) ^ 2 = ∑ a ∈ range st.nsv, ∑ b ∈ range st.nsv, st.x[a]?.getD 0 * st.x[b]?.getD 0 * (st.vh a j * st.vh b j) := by
    intro j hj
    rw [hc.2.2 j (mem_range.1 hj), add_sub_cancel_left, sq, sum_mul_sum]
    refine sum_congr rfl fun a _ => sum_congr rfl fun b _ => ?_
    ring
  rw [sum_congr rfl e, sum_comm]
  refine sum_congr rfl fun a ha => ?_
  rw [sum_comm]
  have h2 : ∀ b ∈ range st.nsv, ∑ j ∈ range st.x0.length, st.x[a]?.getD 0 * st.x[b]?.getD 0 * (st.vh a j * st.vh b j) = if a = b then (st.x[a]?.getD 0) ^ 2 else 0 := by
    intro b hb
    rw [← mul_sum, hv, hd.rows a (lt_of_lt_of_le (mem_range.1 ha) hn) b (lt_of_lt_of_le (mem_range.1 hb) hn)]
    by_cases h : a = b
    · subst h; simp; ring
    · simp [h]
  rw [sum_congr rfl h2, sum_ite_eq, if_pos ha]

/-- **C163**: the first-order change of the target function along `x` is `Σ s_i x_i u_i`: each dof moves the target along its left singular vector, by the singular value. -/
theorem C163_response (m : ℕ) (J : ℕ → ℕ → ℝ) (d : Svd) (st : State) (hd : IsSvd m st.x0.length J d) (hv : st.vh = d.vh) (hs : st.nsv ≤ d.s.length) (hc : Consistent st) (a : ℕ) (ha : a < m) :
    ∑ j ∈ range st.x0.length, J a j * (st.coil[j]?.getD 0 - st.x0[j]?.getD 0) = ∑ i ∈ range st.nsv, d.u a i * (d.s[i]?.getD 0) * st.x[i]?.getD 0 := by
  have hn := hd.number
  have e : ∀ j ∈ range st.x0.length, J a j * (st.coil[j]?.getD 0 - st.x0[j]?.getD 0) =
      ∑ b ∈ range st.nsv, ∑ i ∈ range (min m st.x0.length), d.u a i * (d.s[i]?.getD 0) * st.x[b]?.getD 0 * (d.vh i j * d.vh b j) := by
    intro j hj
    rw [hc.2.2 j (mem_range.1 hj), add_sub_cancel_left, hd.product a ha j (mem_range.1 hj), sum_mul_sum, sum_comm, hv]
    refine sum_congr rfl fun b _ => sum_congr rfl fun i _ => ?_
    ring
  rw [sum_congr rfl e, sum_comm]
  refine sum_congr rfl fun b hb => ?_
  rw [sum_comm]
  have hb' := mem_range.1 hb
  have h2 : ∀ i ∈ range (min m st.x0.length), ∑ j ∈ range st.x0.length, d.u a i * (d.s[i]?.getD 0) * st.x[b]?.getD 0 * (d.vh i j * d.vh b j) =
      if i = b then d.u a b * (d.s[b]?.getD 0) * st.x[b]?.getD 0 else 0 := by
    intro i hi
    have hi' := mem_range.1 hi
    rw [← mul_sum, hd.rows i (by omega) b (by omega)]
    by_cases h : i = b
    · subst h; simp
    · simp [h]
  rw [sum_congr rfl h2, sum_ite_eq', if_pos (mem_range.2 (by omega))]

/-- **C163**: recalculating the basis keeps the coils where they are and makes them the new reference, with all dofs zero. -/
theorem C163_recalculate (m : ℕ) (st st' : State) (J : ℕ → ℕ → ℝ) (d : Svd) (hd : IsSvd m st.coil.length J d) (h : recalculate st d = .ok st') :
    st'.coil = st.coil ∧ st'.x0 = st.coil ∧ Consistent st' ∧ st'.nsv = min st.nsv d.s.length ∧ st'.dim = st'.x0.length ∧ st'.nsv ≤ st'.x0.length ∧ st'.vh = d.vh := by
  unfold recalculate setNsv count at h
  simp only [Option.getD_some] at h
  by_cases hc : min st.nsv d.s.length > st.s.length
  · rw [if_pos hc] at h; cases h
  · rw [if_neg hc] at h
    simp only [bind, Except.bind, pure, Except.pure, Except.ok.injEq] at h
    subst h
    refine ⟨rfl, rfl, ⟨by simp, rfl, fun j _ => ?_⟩, rfl, hd.size, ?_, rfl⟩
    · simp only
      rw [sum_eq_zero, add_zero]
      intro i hi
      rw [List.getElem?_replicate, if_pos (mem_range.1 hi)]
      simp
    · have := hd.number
      show min st.nsv d.s.length ≤ st.coil.length
      omega

/-- **C163** (violated): a ReducedCoilSet made without matrices and with fewer dofs than the CoilSet can be constructed, but no value of its dofs can be set. -/
theorem C163_identity_violated (coil : List ℝ) (n : ℕ) (hn : n < coil.length) : ∃ st, make coil (some n) none = .ok st ∧ st.nsv = n ∧ ∀ x, setDofs st x = .error .valueError := by
  refine ⟨{ s := List.replicate n 1, u := eye, vh := eye, dim := n, x0 := coil, nsv := n, x := List.replicate n 0, coil := coil }, ?_, rfl, fun x => ?_⟩
  · unfold make
    simp only [Option.getD_some, pure, Except.pure, bind, Except.bind]
    rw [if_neg (by omega)]
    simp only [List.length_replicate]
    rw [if_neg (by omega)]
    simp
  · unfold setDofs
    by_cases h1 : x.length ≠ n
    · exact if_pos h1
    · simp only
      rw [if_neg h1, if_neg (by omega), if_pos (by omega)]

/-- **C163**: raising `nsv` keeps the coils and the dofs consistent: the new dofs are zero. -/
theorem C163_grow (st : State) (hc : Consistent st) (n : ℕ) (h1 : st.nsv ≤ n) (h2 : n ≤ st.s.length) :
    ∃ st', setNsv st (some n) = .ok st' ∧ st'.nsv = n ∧ st'.coil = st.coil ∧ Consistent st' ∧ (∀ i < st.nsv, st'.x[i]?.getD 0 = st.x[i]?.getD 0) ∧ ∀ i : ℕ, st.nsv ≤ i → st'.x[i]?.getD 0 = 0 := by
  have hx : ∀ i : ℕ, ((List.range n).map fun i => (st.x[i]?).getD 0)[i]?.getD 0 = st.x[i]?.getD 0 := by
    intro i
    rw [List.getElem?_map]
    by_cases h : i < n
    · rw [List.getElem?_range h]; rfl
    · rw [List.getElem?_eq_none (by simpa using h), List.getElem?_eq_none (by rw [hc.1]; omega)]; rfl
  have hz : ∀ i : ℕ, st.nsv ≤ i → st.x[i]?.getD 0 = 0 := fun i hi => by rw [List.getElem?_eq_none (by rw [hc.1]; omega)]; rfl
  refine ⟨{ st with nsv := n, x := (List.range n).map fun i => (st.x[i]?).getD 0 }, ?_, rfl, rfl, ⟨by simp, hc.2.1, fun j hj => ?_⟩, fun i _ => hx i, fun i hi => (hx i).trans (hz i hi)⟩
  · unfold setNsv count
    simp only [Option.getD_some]
    rw [if_neg (by omega)]
  · simp only [hx]
    rw [hc.2.2 j hj]
    congr 1
    refine sum_subset (range_subset_range.2 h1) fun i _ hi => ?_
    rw [hz i (by simpa using hi), zero_mul]

/-- **C163** (violated): reducing `nsv` cuts dofs off but leaves the coils where they were: if a dof that is cut off is not zero, the coils are no longer where the dofs say. -/
theorem C163_nsv_violated (m : ℕ) (J : ℕ → ℕ → ℝ) (d : Svd) (st : State) (hd : IsSvd m st.x0.length J d) (hv : st.vh = d.vh) (hn : st.nsv ≤ st.x0.length) (hs : st.s.length ≥ st.nsv) (hc : Consistent st)
    (n i : ℕ) (hni : n ≤ i) (hi : i < st.nsv) (hx : st.x[i]?.getD 0 ≠ 0) : ∃ st', setNsv st (some n) = .ok st' ∧ st'.nsv = n ∧ st'.coil = st.coil ∧ ¬ Consistent st' := by
  refine ⟨{ st with nsv := n, x := (List.range n).map fun i => (st.x[i]?).getD 0 }, ?_, rfl, rfl, fun hc' => ?_⟩
  · unfold setNsv count
    simp only [Option.getD_some]
    rw [if_neg (by omega)]
  · have h1 := C163_isometry m J d st hd hv hn hc
    have h2 := C163_isometry m J d { st with nsv := n, x := (List.range n).map fun i => (st.x[i]?).getD 0 } hd hv (by show n ≤ st.x0.length; omega) hc'
    simp only at h2
    rw [h1] at h2
    have h3 : ∑ k ∈ range n, (((List.range n).map fun i => (st.x[i]?).getD 0)[k]?.getD 0) ^ 2 = ∑ k ∈ range n, (st.x[k]?.getD 0) ^ 2 := by
      refine sum_congr rfl fun k hk => ?_
      rw [List.getElem?_map, List.getElem?_range (mem_range.1 hk)]
      rfl
    rw [h3] at h2
    have h4 : ∑ k ∈ range n, (st.x[k]?.getD 0) ^ 2 < ∑ k ∈ range st.nsv, (st.x[k]?.getD 0) ^ 2 := by
      refine sum_lt_sum_of_subset (range_subset_range.2 (by omega)) (mem_range.2 hi) (by simpa using hni) (by positivity) fun j _ _ => sq_nonneg _
    linarith

/-- **C163** (violated): `nsv='nonzero'` keeps every singular value, zero or not. -/
theorem C163_nonzero_violated (coil : List ℝ) (d : Svd) : ∃ st, fromFunction coil d none = .ok st ∧ st.nsv = d.s.length := by
  unfold fromFunction make count
  simp only [Option.getD_none, Option.getD_some, pure, Except.pure, bind, Except.bind]
  rw [if_neg (by omega)]
  exact ⟨_, rfl, rfl⟩

/-- A concrete case: the coordinate functions of two coil dofs, the second with singular value 0 kept by `'nonzero'`. -/
example : IsSvd 2 2 (fun a b => if a = 0 ∧ b = 0 then 3 else 0) { u := eye, s := [3, 0], vh := eye, dim := 2 } := by
  refine ⟨rfl, rfl, fun i hi j hj => ?_, fun a ha b hb => ?_⟩
  · simp only [sum_range_succ, sum_range_zero, eye]
    have h1 : i = 0 ∨ i = 1 := by omega
    have h2 : j = 0 ∨ j = 1 := by omega
    rcases h1 with rfl | rfl <;> rcases h2 with rfl | rfl <;> norm_num
  · simp only [show min 2 2 = 2 from rfl, sum_range_succ, sum_range_zero, eye]
    have h1 : a = 0 ∨ a = 1 := by omega
    have h2 : b = 0 ∨ b = 1 := by omega
    rcases h1 with rfl | rfl <;> rcases h2 with rfl | rfl <;> norm_num

end Simsopt.Reduced
