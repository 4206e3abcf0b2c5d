import Verif.NField.Model
import Mathlib.Algebra.BigOperators.Group.Finset.Basic
import Mathlib.Algebra.BigOperators.Ring.Finset
/-!
# C149: ReducedCoilSet

Model of src/simsopt/field/coilset.py L373-584 (without plotting).  Simplifications: real numbers instead of doubles; `none` is an exception; no dof is fixed (so that `x` is the local full x); of the
coilset only its dof vector is kept; the factors of the singular value decomposition are parameters (`np.linalg.svd` is trusted).
-/
namespace Simsopt.NField.Reduced
open Simsopt Simsopt.NField

/-- The object: number of coil dofs, `coilset.x`, `_coil_x0`, `_u_matrix`, `_s_diag`, `_vh_matrix`, `_nsv` and its own dofs `x`. -/
structure Red where
  N : Nat
  coilX : Nat → ℝ
  coilX0 : Nat → ℝ
  u : Mat
  s : List ℝ
  vh : Mat
  nsv : Nat
  x : List ℝ

/-- `np.eye(n)`. -/
noncomputable def eye (n : Nat) : Mat := ⟨n, n, fun i j => if i = j then 1 else 0⟩

/-- The constructor (L394-436); `svd` are the three matrices, if given, `nsv = None` stands for all coil dofs. -/
noncomputable def construct (N : Nat) (coilX : Nat → ℝ) (nsv : Option Nat) (svd : Option (Mat × List ℝ × Mat)) : Option Red := do
  let nsv := nsv.getD N
  let m ← match svd with
    | none => if nsv > N then none else some (eye nsv, List.replicate nsv (1 : ℝ), eye nsv)
    | some m => some m
  if nsv > m.2.1.length then none
  else some ⟨N, coilX, coilX, m.1, m.2.1, m.2.2, nsv, List.replicate (m.2.1.take nsv).length 0⟩

/-- `from_function` (L438-459), with the decomposition of the Jacobian; `none` for `nsv = 'nonzero'`. -/
noncomputable def fromFunction (N : Nat) (coilX : Nat → ℝ) (nsv : Option Nat) (u : Mat) (s : List ℝ) (vh : Mat) : Option Red :=
  construct N coilX (some (nsv.getD s.length)) (some (u, s, vh))

/-- `set_dofs` (L579-584): `np.pad` to the number of coil dofs (a negative width raises), product with `_vh_matrix` (the shapes must match), assignment to `coilset.x`. -/
noncomputable def setDofs (r : Red) (x : List ℝ) : Option Red :=
  if x.length ≠ r.nsv then none
  else if r.N < r.nsv then none
  else if r.vh.rows ≠ r.N ∨ r.vh.cols ≠ r.N then none
  else
    let padx : Nat → ℝ := fun i => x.getD i 0
    some { r with coilX := fun j => r.coilX0 j + ∑ i ∈ Finset.range r.N, padx i * r.vh.a i j }

/-- `reduced.x = x`: the dofs are stored and passed to `set_dofs` (optimizable.py L154-165). -/
noncomputable def setX (r : Red) (x : List ℝ) : Option Red := setDofs { r with x := x } x

/-- The setter of `nsv` (L523-538): `replace_dofs` does not call `set_dofs` (optimizable.py L697-709). -/
noncomputable def setNsv (r : Red) (nsv : Option Nat) : Option Red :=
  let nsv := nsv.getD r.s.length
  if nsv > r.s.length then none
  else some { r with nsv := nsv, x := (List.range nsv).map fun i => r.x.getD i 0 }

/-- `recalculate_reduced_basis` (L461-480), with the decomposition of the new Jacobian. -/
noncomputable def recalculate (r : Red) (u : Mat) (s : List ℝ) (vh : Mat) : Option Red := do
  let r ← setNsv r (some (min r.nsv s.length))
  return { r with u := u, s := s, vh := vh, coilX0 := r.coilX, x := List.replicate r.nsv 0 }

/-- `rsv[i]`, component `j` (L541-546). -/
def rsv (r : Red) (i j : Nat) : ℝ := r.vh.a i j

/-- `lsv[i]`, component `t` (L548-553). -/
def lsv (r : Red) (i t : Nat) : ℝ := r.u.a t i

/-! ### Specification -/

/-- The documented meaning of the dofs: the coils are displaced from their reference by a linear combination of the right-singular vectors. -/
def Consistent (r : Red) : Prop := ∀ j, j < r.N → r.coilX j = r.coilX0 j + ∑ i ∈ Finset.range r.nsv, r.x.getD i 0 * rsv r i j

/-- Sizes as they come out of `np.linalg.svd` of a Jacobian with `T` rows and `N` columns. -/
def Sized (r : Red) (T : Nat) : Prop := r.vh.rows = r.N ∧ r.vh.cols = r.N ∧ r.s.length = min T r.N ∧ r.nsv ≤ r.s.length ∧ r.x.length = r.nsv

/-- The right-singular vectors are orthonormal. -/
def Orthonormal (N : Nat) (vh : Mat) : Prop := ∀ i k, i < N → k < N → ∑ j ∈ Finset.range N, vh.a i j * vh.a k j = if i = k then 1 else 0

theorem getD_replicate (n i : Nat) : (List.replicate n (0 : ℝ)).getD i 0 = 0 := by
  rw [List.getD, List.getElem?_replicate]; split <;> rfl

theorem pad_sum (N nsv : Nat) (h : nsv ≤ N) (x : List ℝ) (hx : x.length = nsv) (f : Nat → ℝ) :
    ∑ i ∈ Finset.range N, x.getD i 0 * f i = ∑ i ∈ Finset.range nsv, x.getD i 0 * f i := by
  symm
  apply Finset.sum_subset (fun i hi => Finset.mem_range.mpr (by have := Finset.mem_range.mp hi; omega))
  intro i _ hi
  have : nsv ≤ i := by rw [Finset.mem_range] at hi; omega
  rw [List.getD, List.getElem?_eq_none (by omega), Option.getD_none, zero_mul]

/-- **C149.** Setting the dofs (one per kept singular value) succeeds and moves the coils to the reference plus the combination of the right-singular vectors with these amplitudes. -/
theorem C149_set_x {r : Red} {T : Nat} (h : Sized r T) (x : List ℝ) (hx : x.length = r.nsv) :
    ∃ r', setX r x = some r' ∧ r'.x = x ∧ r'.coilX0 = r.coilX0 ∧ r'.nsv = r.nsv ∧ r'.vh = r.vh ∧ r'.u = r.u ∧ r'.s = r.s ∧ Sized r' T ∧ Consistent r' := by
  obtain ⟨h1, h2, h3, h4, h5⟩ := h
  have hN : r.nsv ≤ r.N := by omega
  refine ⟨{ r with x := x, coilX := fun j => r.coilX0 j + ∑ i ∈ Finset.range r.N, x.getD i 0 * r.vh.a i j }, ?_, rfl, rfl, rfl, rfl, rfl, rfl, ⟨h1, h2, h3, h4, hx⟩, ?_⟩
  · simp only [setX, setDofs]
    rw [if_neg (by simp [hx]), if_neg (by show ¬ r.N < r.nsv; omega), if_neg (by simp [h1, h2])]
  · intro j _
    show r.coilX0 j + _ = r.coilX0 j + _
    rw [pad_sum r.N r.nsv hN x hx fun i => r.vh.a i j]
    rfl

/-- **C149.** A wrong number of dofs is rejected. -/
theorem C149_wrong_length (r : Red) (x : List ℝ) (hx : x.length ≠ r.nsv) : setX r x = none := by
  simp only [setX, setDofs]
  rw [if_pos (by simpa using hx)]

/-- The operations of a user. -/
inductive Op where
  | setX (x : List ℝ)
  | recalculate (u : Mat) (s : List ℝ) (vh : Mat)

/-- One operation. -/
noncomputable def step (r : Red) : Op → Option Red
  | .setX x => setX r x
  | .recalculate u s vh => recalculate r u s vh

/-- The decompositions passed to `recalculate` have the sizes of an SVD. -/
def Op.ok (N T : Nat) : Op → Prop
  | .setX _ => True
  | .recalculate _ s vh => vh.rows = N ∧ vh.cols = N ∧ s.length = min T N

theorem recalculate_spec {r : Red} {T : Nat} (h : Sized r T) (u : Mat) (s : List ℝ) (vh : Mat) (T' : Nat) (h1 : vh.rows = r.N) (h2 : vh.cols = r.N) (h3 : s.length = min T' r.N) :
    ∃ r', recalculate r u s vh = some r' ∧ r'.N = r.N ∧ r'.coilX = r.coilX ∧ r'.coilX0 = r.coilX ∧ r'.nsv = min r.nsv s.length ∧ r'.x = List.replicate r'.nsv 0 ∧
      r'.u = u ∧ r'.s = s ∧ r'.vh = vh ∧ Sized r' T' ∧ Consistent r' := by
  have hle : ¬ min r.nsv s.length > r.s.length := by have := h.2.2.2.1; omega
  refine ⟨{ N := r.N, coilX := r.coilX, coilX0 := r.coilX, u := u, s := s, vh := vh, nsv := min r.nsv s.length, x := List.replicate (min r.nsv s.length) 0 }, ?_, rfl, rfl, rfl, rfl, rfl, rfl, rfl, rfl,
    ⟨h1, h2, h3, min_le_right _ _, by simp⟩, ?_⟩
  · simp only [recalculate, setNsv, Option.getD_some, if_neg hle]
    rfl
  · intro j _
    show r.coilX j = r.coilX j + _
    have : ∀ i ∈ Finset.range (min r.nsv s.length), (List.replicate (min r.nsv s.length) (0 : ℝ)).getD i 0 * vh.a i j = 0 := by
      intro i _; rw [getD_replicate, zero_mul]
    have hs := Finset.sum_eq_zero this
    simp only [rsv]
    rw [hs, add_zero]

/-- **C149.** Starting from the construction (with matrices of an SVD), after every history of changes of the dofs and recalculations of the basis the coils are where the dofs say. -/
theorem C149_consistent (N : Nat) (coilX : Nat → ℝ) (nsv : Option Nat) (u : Mat) (s : List ℝ) (vh : Mat) (T : Nat) (h1 : vh.rows = N) (h2 : vh.cols = N) (h3 : s.length = min T N)
    (hn : ∀ k, nsv = some k → k ≤ s.length) :
    ∃ r0, fromFunction N coilX nsv u s vh = some r0 ∧ r0.coilX = coilX ∧ r0.nsv = nsv.getD s.length ∧ r0.x = List.replicate r0.nsv 0 ∧
      ∀ (l : List Op), (∀ o ∈ l, o.ok N T) → ∀ r, l.foldlM step r0 = some r → Consistent r ∧ r.x.length = r.nsv := by
  have hle : nsv.getD s.length ≤ s.length := by
    cases nsv with
    | none => simp
    | some k => simpa using hn k rfl
  let r0 : Red := ⟨N, coilX, coilX, u, s, vh, nsv.getD s.length, List.replicate (s.take (nsv.getD s.length)).length 0⟩
  have hx0 : r0.x = List.replicate r0.nsv 0 := by simp [r0]; omega
  have hs0 : Sized r0 T := ⟨h1, h2, h3, hle, by rw [hx0]; simp⟩
  have hc0 : Consistent r0 := by
    intro j _
    rw [hx0]
    have : ∀ i ∈ Finset.range r0.nsv, (List.replicate r0.nsv (0 : ℝ)).getD i 0 * rsv r0 i j = 0 := by
      intro i _; rw [getD_replicate, zero_mul]
    rw [Finset.sum_eq_zero this]
    simp [r0]
  refine ⟨r0, ?_, rfl, rfl, hx0, ?_⟩
  · simp only [fromFunction, construct, Option.getD_some, Option.bind_eq_bind, Option.bind_some]
    rw [if_neg (by omega)]
  · intro l
    have gen : ∀ (l : List Op) (r0 : Red), r0.N = N → Sized r0 T → Consistent r0 → (∀ o ∈ l, o.ok N T) → ∀ r, l.foldlM step r0 = some r → Consistent r ∧ r.x.length = r.nsv := by
      intro l
      induction l with
      | nil => intro r0 _ hs hc _ r hr; simp at hr; subst hr; exact ⟨hc, hs.2.2.2.2⟩
      | cons o l ih =>
        intro r0 hN hs hc hok r hr
        rw [List.foldlM_cons] at hr
        cases o with
        | setX x =>
          by_cases hx : x.length = r0.nsv
          · obtain ⟨r', e1, e2, e3, e4, e5, e6, e7, e8, e9⟩ := C149_set_x hs x hx
            have hN' : r'.N = N := by
              rw [← hN]
              simp only [setX, setDofs] at e1
              split at e1
              · simp at e1
              · split at e1
                · simp at e1
                · split at e1
                  · simp at e1
                  · simp at e1; rw [← e1]
            simp only [step, e1] at hr
            exact ih r' hN' e8 e9 (fun o ho => hok o (by simp [ho])) r hr
          · simp only [step, C149_wrong_length r0 x hx] at hr
            simp at hr
        | recalculate u s vh =>
          obtain ⟨k1, k2, k3⟩ : vh.rows = N ∧ vh.cols = N ∧ s.length = min T N := hok (.recalculate u s vh) (by simp)
          obtain ⟨r', e1, e2, e3, e4, e5, e6, e7, e8, e9, e10, e11⟩ := recalculate_spec hs u s vh T (by rw [hN]; exact k1) (by rw [hN]; exact k2) (by rw [hN]; exact k3)
          simp only [step, e1] at hr
          exact ih r' (by rw [e2, hN]) e10 e11 (fun o ho => hok o (by simp [ho])) r hr
    exact gen l r0 rfl hs0 hc0

/-- **C149.** `recalculate_reduced_basis` does not move the coils: the present coils become the new reference, all amplitudes are zero, and at most the old number of singular vectors is kept. -/
theorem C149_recalculate {r : Red} {T : Nat} (h : Sized r T) (u : Mat) (s : List ℝ) (vh : Mat) (T' : Nat) (h1 : vh.rows = r.N) (h2 : vh.cols = r.N) (h3 : s.length = min T' r.N) :
    ∃ r', recalculate r u s vh = some r' ∧ r'.coilX = r.coilX ∧ r'.coilX0 = r.coilX ∧ r'.nsv = min r.nsv s.length ∧ r'.x = List.replicate r'.nsv 0 := by
  obtain ⟨r', e1, e2, e3, e4, e5, e6, _⟩ := recalculate_spec h u s vh T' h1 h2 h3
  exact ⟨r', e1, e3, e4, e5, e6⟩

/-- **C149.** The amplitudes can be read off the coils: `x_i` is the component of the displacement along `rsv[i]`; different dofs give different coils. -/
theorem C149_amplitudes {r : Red} {T : Nat} (h : Sized r T) (hc : Consistent r) (ho : Orthonormal r.N r.vh) (i : Nat) (hi : i < r.nsv) :
    ∑ j ∈ Finset.range r.N, (r.coilX j - r.coilX0 j) * rsv r i j = r.x.getD i 0 := by
  have hN : r.nsv ≤ r.N := by have := h.2.2.1; have := h.2.2.2.1; omega
  have e : ∀ j ∈ Finset.range r.N, (r.coilX j - r.coilX0 j) * rsv r i j = ∑ k ∈ Finset.range r.nsv, r.x.getD k 0 * (rsv r k j * rsv r i j) := by
    intro j hj
    rw [hc j (Finset.mem_range.mp hj), add_sub_cancel_left, Finset.sum_mul]
    exact Finset.sum_congr rfl fun k _ => by ring
  rw [Finset.sum_congr rfl e, Finset.sum_comm]
  have e2 : ∀ k ∈ Finset.range r.nsv, ∑ j ∈ Finset.range r.N, r.x.getD k 0 * (rsv r k j * rsv r i j) = if k = i then r.x.getD k 0 else 0 := by
    intro k hk
    have hk := Finset.mem_range.mp hk
    rw [← Finset.mul_sum]
    have := ho k i (by omega) (by omega)
    simp only [rsv]
    rw [this]
    split <;> simp
  rw [Finset.sum_congr rfl e2, Finset.sum_ite_eq' (Finset.range r.nsv) i, if_pos (Finset.mem_range.mpr hi)]

/-- **C149.** To first order the target moves by `Σ x_i σ_i lsv[i]`: the Jacobian `J = U diag(σ) V^T` applied to the displacement of the coils. -/
theorem C149_target {r : Red} {T : Nat} (h : Sized r T) (hc : Consistent r) (ho : Orthonormal r.N r.vh) (J : Nat → Nat → ℝ)
    (hJ : ∀ t j, t < T → j < r.N → J t j = ∑ i ∈ Finset.range r.s.length, r.u.a t i * r.s.getD i 0 * r.vh.a i j) (t : Nat) (ht : t < T) :
    ∑ j ∈ Finset.range r.N, J t j * (r.coilX j - r.coilX0 j) = ∑ i ∈ Finset.range r.nsv, r.x.getD i 0 * r.s.getD i 0 * lsv r i t := by
  have hN : r.s.length ≤ r.N := by have := h.2.2.1; omega
  have e : ∀ j ∈ Finset.range r.N, J t j * (r.coilX j - r.coilX0 j) =
      ∑ i ∈ Finset.range r.s.length, ∑ k ∈ Finset.range r.nsv, (r.u.a t i * r.s.getD i 0 * r.x.getD k 0) * (r.vh.a i j * r.vh.a k j) := by
    intro j hj
    rw [hJ t j ht (Finset.mem_range.mp hj), hc j (Finset.mem_range.mp hj), add_sub_cancel_left, Finset.sum_mul]
    refine Finset.sum_congr rfl fun i _ => ?_
    rw [Finset.mul_sum]
    exact Finset.sum_congr rfl fun k _ => by simp only [rsv]; ring
  rw [Finset.sum_congr rfl e, Finset.sum_comm]
  have e2 : ∀ i ∈ Finset.range r.s.length, ∑ j ∈ Finset.range r.N, ∑ k ∈ Finset.range r.nsv, (r.u.a t i * r.s.getD i 0 * r.x.getD k 0) * (r.vh.a i j * r.vh.a k j) =
      if i < r.nsv then r.x.getD i 0 * r.s.getD i 0 * lsv r i t else 0 := by
    intro i hi
    have hi := Finset.mem_range.mp hi
    rw [Finset.sum_comm]
    have : ∀ k ∈ Finset.range r.nsv, ∑ j ∈ Finset.range r.N, (r.u.a t i * r.s.getD i 0 * r.x.getD k 0) * (r.vh.a i j * r.vh.a k j) =
        if i = k then r.u.a t i * r.s.getD i 0 * r.x.getD k 0 else 0 := by
      intro k hk
      have hk := Finset.mem_range.mp hk
      have := h.2.2.2.1
      rw [← Finset.mul_sum, ho i k (by omega) (by omega)]
      split <;> simp
    rw [Finset.sum_congr rfl this, Finset.sum_ite_eq (Finset.range r.nsv) i]
    simp only [Finset.mem_range, lsv]
    split <;> ring
  rw [Finset.sum_congr rfl e2, ← Finset.sum_filter]
  have : (Finset.range r.s.length).filter (fun i => i < r.nsv) = Finset.range r.nsv := by
    ext i; simp only [Finset.mem_filter, Finset.mem_range]; have := h.2.2.2.1; omega
  rw [this]

/-- **C149.** Raising `nsv` keeps the coils where the dofs say (the new amplitudes are zero); asking for more than there are singular values raises. -/
theorem C149_nsv_raise {r : Red} {T : Nat} (h : Sized r T) (hc : Consistent r) (k : Nat) :
    (k > r.s.length → setNsv r (some k) = none) ∧
    (r.nsv ≤ k → k ≤ r.s.length → ∃ r', setNsv r (some k) = some r' ∧ r'.nsv = k ∧ r'.coilX = r.coilX ∧ Consistent r' ∧ Sized r' T) := by
  constructor
  · intro hk; simp only [setNsv, Option.getD_some, if_pos hk]
  · intro h1 h2
    refine ⟨{ r with nsv := k, x := (List.range k).map fun i => r.x.getD i 0 }, by simp only [setNsv, Option.getD_some]; rw [if_neg (by omega)], rfl, rfl, ?_,
      ⟨h.1, h.2.1, h.2.2.1, h2, by simp⟩⟩
    intro j hj
    show r.coilX j = r.coilX0 j + ∑ i ∈ Finset.range k, ((List.range k).map fun i => r.x.getD i 0).getD i 0 * r.vh.a i j
    rw [hc j hj]
    congr 1
    have : ∀ i ∈ Finset.range k, ((List.range k).map fun i => r.x.getD i 0).getD i 0 * r.vh.a i j = r.x.getD i 0 * r.vh.a i j := by
      intro i hi
      have hi := Finset.mem_range.mp hi
      simp [List.getD, hi]
    rw [Finset.sum_congr rfl this, pad_sum k r.nsv h1 r.x h.2.2.2.2 fun i => r.vh.a i j]
    rfl

/-! ### where the documentation is not met -/

/-- **C149 (violated).** Lowering `nsv` drops amplitudes from the dofs, but the coils are not moved: if a dropped amplitude was not zero, the coils are not where the dofs say. -/
theorem C149_nsv_lower_violated {r : Red} {T : Nat} (h : Sized r T) (hc : Consistent r) (ho : Orthonormal r.N r.vh) (k i : Nat) (hk : k ≤ i) (hi : i < r.nsv) (hx : r.x.getD i 0 ≠ 0) :
    ∃ r', setNsv r (some k) = some r' ∧ r'.nsv = k ∧ r'.coilX = r.coilX ∧ ¬ Consistent r' := by
  have hs := h.2.2.2.1
  refine ⟨{ r with nsv := k, x := (List.range k).map fun i => r.x.getD i 0 }, by simp only [setNsv, Option.getD_some]; rw [if_neg (by omega)], rfl, rfl, ?_⟩
  intro hcon
  have hN : r.nsv ≤ r.N := by have := h.2.2.1; omega
  have h1 := C149_amplitudes h hc ho i hi
  apply hx
  rw [← h1]
  have e : ∀ j ∈ Finset.range r.N, (r.coilX j - r.coilX0 j) * rsv r i j = ∑ l ∈ Finset.range k, r.x.getD l 0 * (r.vh.a l j * r.vh.a i j) := by
    intro j hj
    have : r.coilX j = r.coilX0 j + ∑ l ∈ Finset.range k, ((List.range k).map fun i => r.x.getD i 0).getD l 0 * r.vh.a l j := hcon j (Finset.mem_range.mp hj)
    rw [this, add_sub_cancel_left, Finset.sum_mul]
    refine Finset.sum_congr rfl fun l hl => ?_
    have hl := Finset.mem_range.mp hl
    simp [List.getD, hl, rsv]
    ring
  rw [Finset.sum_congr rfl e, Finset.sum_comm]
  refine Finset.sum_eq_zero fun l hl => ?_
  have hl := Finset.mem_range.mp hl
  rw [← Finset.mul_sum, ho l i (by omega) (by omega), if_neg (by omega), mul_zero]

/-- **C149 (violated).** A ReducedCoilSet made with fewer dofs than the coilset and without matrices (which the constructor accepts) can never be moved: its identity matrix is too small, so every
assignment of the dofs raises. -/
theorem C149_default_matrices_violated (N k : Nat) (coilX : Nat → ℝ) (hk : k < N) :
    ∃ r, construct N coilX (some k) none = some r ∧ ∀ x, setX r x = none := by
  refine ⟨⟨N, coilX, coilX, eye k, List.replicate k 1, eye k, k, List.replicate k 0⟩, ?_, ?_⟩
  · simp [construct]; omega
  · intro x
    simp only [setX, setDofs, eye]
    by_cases hx : x.length = k
    · have c1 : ¬ x.length ≠ k := by simp [hx]
      have c2 : ¬ N < k := by omega
      have c3 : k ≠ N ∨ k ≠ N := by omega
      simp only [if_neg c1, if_neg c2]
      exact if_pos c3
    · exact if_pos hx

/-- **C149 (violated).** `nsv='nonzero'` keeps all singular values, also those that are zero. -/
theorem C149_nonzero_violated (N : Nat) (coilX : Nat → ℝ) (u : Mat) (s : List ℝ) (vh : Mat) (h0 : (0 : ℝ) ∈ s) :
    ∃ r, fromFunction N coilX none u s vh = some r ∧ r.nsv = s.length ∧ ∃ i, i < r.nsv ∧ r.s[i]? = some 0 := by
  refine ⟨⟨N, coilX, coilX, u, s, vh, s.length, List.replicate (s.take s.length).length 0⟩, ?_, rfl, ?_⟩
  · simp [fromFunction, construct]
  · obtain ⟨i, hi, he⟩ := List.getElem_of_mem h0
    exact ⟨i, hi, by rw [List.getElem?_eq_getElem hi, he]⟩

/-- Non-vacuity: two coil dofs, identity vectors, singular values 2 and 1, with a dropped amplitude. -/
example : ∃ (r : Red), Sized r 3 ∧ Consistent r ∧ Orthonormal r.N r.vh ∧ r.nsv = 2 ∧ r.x.getD 1 0 ≠ 0 := by
  refine ⟨⟨2, fun j => if j = 0 then 5 else 7, fun _ => 0, ⟨3, 3, fun i j => if i = j then 1 else 0⟩, [2, 1], eye 2, 2, [5, 7]⟩, ⟨rfl, rfl, rfl, by simp, rfl⟩, ?_, ?_, rfl, by simp⟩
  · intro j hj
    have : j = 0 ∨ j = 1 := by change j < 2 at hj; omega
    rcases this with rfl | rfl <;> simp [Finset.sum_range_succ, rsv, eye]
  · intro i k hi hk
    have h1 : i = 0 ∨ i = 1 := by change i < 2 at hi; omega
    have h2 : k = 0 ∨ k = 1 := by change k < 2 at hk; omega
    rcases h1 with rfl | rfl <;> rcases h2 with rfl | rfl <;> simp [Finset.sum_range_succ, eye]

end Simsopt.NField.Reduced
