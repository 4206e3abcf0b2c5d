import Verif.Surfaces.RZSym
/-!
# Surfaces in a rotating Cartesian frame: tools shared by SurfaceXYZFourier and SurfaceXYZTensorFourier

Both classes describe a surface by three functions `x̂`, `ŷ`, `z` of `(φ, θ)` with `x = x̂ cos φ - ŷ sin φ`, `y = x̂ sin φ + ŷ cos φ`.
This file has no model of code: it holds the calculus of that frame and the bookkeeping of dof vectors written in sequence.
-/
namespace Simsopt.XYZ
open Simsopt Simsopt.Coils Simsopt.RZSurf

/-! ### The rotating frame -/

/-- A function of `(φ, θ)` with its partial derivatives up to order two, at one point. -/
structure Jet where
  h : ℝ
  h1 : ℝ
  h2 : ℝ
  h11 : ℝ
  h12 : ℝ
  h22 : ℝ

/-- The unit vectors of the frame at the angle `φ`. -/
noncomputable def E (d : Fin 3) (phi : ℝ) : V3 :=
  match d with
  | 0 => (Real.cos phi, Real.sin phi, 0)
  | 1 => (-Real.sin phi, Real.cos phi, 0)
  | 2 => (0, 0, 1)

/-- Their derivatives. -/
noncomputable def E1 (d : Fin 3) (phi : ℝ) : V3 :=
  match d with
  | 0 => (-Real.sin phi, Real.cos phi, 0)
  | 1 => (-Real.cos phi, -Real.sin phi, 0)
  | 2 => (0, 0, 0)

/-- Their second derivatives. -/
noncomputable def E11 (d : Fin 3) (phi : ℝ) : V3 :=
  match d with
  | 0 => (-Real.cos phi, -Real.sin phi, 0)
  | 1 => (Real.sin phi, -Real.cos phi, 0)
  | 2 => (0, 0, 0)

/-- The contribution of a coordinate function `h` in direction `d` to the position and its derivatives in `p`, `q` (`φ = 2πp`, `θ = 2πq`). -/
noncomputable def row (f : Fam) (d : Fin 3) (j : Jet) (phi : ℝ) : V3 :=
  match f with
  | .g => j.h • E d phi
  | .g1 => (2 * Real.pi) • (j.h1 • E d phi + j.h • E1 d phi)
  | .g2 => (2 * Real.pi) • (j.h2 • E d phi)
  | .g11 => (4 * Real.pi * Real.pi) • (j.h11 • E d phi + (2 * j.h1) • E1 d phi + j.h • E11 d phi)
  | .g12 => (4 * Real.pi * Real.pi) • (j.h12 • E d phi + j.h2 • E1 d phi)
  | .g22 => (4 * Real.pi * Real.pi) • (j.h22 • E d phi)

theorem E_deriv (d : Fin 3) (phi : ℝ) : HasDerivAt (E d) (E1 d phi) phi := by
  fin_cases d
  · exact (Real.hasDerivAt_cos phi).prodMk ((Real.hasDerivAt_sin phi).prodMk (hasDerivAt_const _ _))
  · exact (Real.hasDerivAt_sin phi).neg.prodMk ((Real.hasDerivAt_cos phi).prodMk (hasDerivAt_const _ _))
  · exact (hasDerivAt_const _ _).prodMk ((hasDerivAt_const _ _).prodMk (hasDerivAt_const _ _))

theorem E1_deriv (d : Fin 3) (phi : ℝ) : HasDerivAt (E1 d) (E11 d phi) phi := by
  fin_cases d
  · exact (Real.hasDerivAt_sin phi).neg.prodMk ((Real.hasDerivAt_cos phi).prodMk (hasDerivAt_const _ _))
  · refine ((Real.hasDerivAt_cos phi).neg.congr_deriv (neg_neg _)).prodMk ((Real.hasDerivAt_sin phi).neg.prodMk (hasDerivAt_const _ _))
  · exact (hasDerivAt_const _ _).prodMk ((hasDerivAt_const _ _).prodMk (hasDerivAt_const _ _))

theorem two_pi_mul (p : ℝ) : HasDerivAt (fun p : ℝ => 2 * Real.pi * p) (2 * Real.pi) p := by
  simpa using (hasDerivAt_id p).const_mul (2 * Real.pi)

/-- Derivative along `φ` of a quantity that is known in radians. -/
theorem comp_two_pi {F : Type} [NormedAddCommGroup F] [NormedSpace ℝ F] {u : ℝ → F} {u' : F} (p : ℝ) (h : HasDerivAt u u' (2 * Real.pi * p)) :
    HasDerivAt (fun p => u (2 * Real.pi * p)) ((2 * Real.pi) • u') p :=
  HasDerivAt.scomp (h := fun p : ℝ => 2 * Real.pi * p) p h (two_pi_mul p)

/-- `row` in `p`: the array that the table `d1` names is the derivative, when the jet consists of derivatives. -/
theorem row_d1 (f f' : Fam) (hf : d1 f = some f') (d : Fin 3) (J : ℝ → Jet) (p : ℝ)
    (h0 : HasDerivAt (fun x => (J x).h) (J (2 * Real.pi * p)).h1 (2 * Real.pi * p))
    (h1 : f = .g1 → HasDerivAt (fun x => (J x).h1) (J (2 * Real.pi * p)).h11 (2 * Real.pi * p))
    (h2 : f = .g2 → HasDerivAt (fun x => (J x).h2) (J (2 * Real.pi * p)).h12 (2 * Real.pi * p)) :
    HasDerivAt (fun p => row f d (J (2 * Real.pi * p)) (2 * Real.pi * p)) (row f' d (J (2 * Real.pi * p)) (2 * Real.pi * p)) p := by
  have e0 := E_deriv d (2 * Real.pi * p)
  have e1 := E1_deriv d (2 * Real.pi * p)
  refine (comp_two_pi (u := fun x => row f d (J x) x) (u' := (2 * Real.pi)⁻¹ • row f' d (J (2 * Real.pi * p)) (2 * Real.pi * p)) p ?_).congr_deriv ?_
  · cases f <;> simp only [d1, Option.some.injEq, reduceCtorEq] at hf <;> subst hf
    · refine (h0.smul e0).congr_deriv ?_
      have hp : (2 * Real.pi)⁻¹ * (2 * Real.pi) = 1 := inv_mul_cancel₀ (by positivity)
      simp only [row, smul_smul, hp, one_smul]
      rw [add_comm]
    · refine ((((h1 rfl).smul e0).add (h0.smul e1)).const_smul (2 * Real.pi)).congr_deriv ?_
      have hp : (2 * Real.pi)⁻¹ * (4 * Real.pi * Real.pi) = 2 * Real.pi := by field_simp; ring
      simp only [row, smul_smul, hp]
      module
    · refine (((h2 rfl).smul e0).const_smul (2 * Real.pi)).congr_deriv ?_
      have hp : (2 * Real.pi)⁻¹ * (4 * Real.pi * Real.pi) = 2 * Real.pi := by field_simp; ring
      simp only [row, smul_smul, hp]
      module
  · rw [smul_smul, mul_inv_cancel₀ (by positivity), one_smul]

/-- The same for `q`. -/
theorem row_d2 (f f' : Fam) (hf : d2 f = some f') (d : Fin 3) (J : ℝ → Jet) (phi q : ℝ)
    (h0 : HasDerivAt (fun x => (J x).h) (J (2 * Real.pi * q)).h2 (2 * Real.pi * q))
    (h1 : f = .g1 → HasDerivAt (fun x => (J x).h1) (J (2 * Real.pi * q)).h12 (2 * Real.pi * q))
    (h2 : f = .g2 → HasDerivAt (fun x => (J x).h2) (J (2 * Real.pi * q)).h22 (2 * Real.pi * q)) :
    HasDerivAt (fun q => row f d (J (2 * Real.pi * q)) phi) (row f' d (J (2 * Real.pi * q)) phi) q := by
  refine (comp_two_pi (u := fun x => row f d (J x) phi) (u' := (2 * Real.pi)⁻¹ • row f' d (J (2 * Real.pi * q)) phi) q ?_).congr_deriv ?_
  · cases f <;> simp only [d2, Option.some.injEq, reduceCtorEq] at hf <;> subst hf
    · refine (h0.smul_const (E d phi)).congr_deriv ?_
      have hp : (2 * Real.pi)⁻¹ * (2 * Real.pi) = 1 := inv_mul_cancel₀ (by positivity)
      simp only [row, smul_smul, hp, one_smul]
      rw [← mul_assoc, hp, one_mul]
    · refine ((((h1 rfl).smul_const (E d phi)).add (h0.smul_const (E1 d phi))).const_smul (2 * Real.pi)).congr_deriv ?_
      have hp : (2 * Real.pi)⁻¹ * (4 * Real.pi * Real.pi) = 2 * Real.pi := by field_simp; ring
      simp only [row, smul_smul, hp]
    · refine (((h2 rfl).smul_const (E d phi)).const_smul (2 * Real.pi)).congr_deriv ?_
      have hp : (2 * Real.pi)⁻¹ * (4 * Real.pi * Real.pi) = 2 * Real.pi := by field_simp; ring
      simp only [row, smul_smul]
      rw [← mul_assoc, hp]
  · rw [smul_smul, mul_inv_cancel₀ (by positivity), one_smul]

/-- Rotation by `a`. -/
theorem row_rotate (f : Fam) (d : Fin 3) (j : Jet) (phi a : ℝ) : row f d j (phi + a) = rotZ a (row f d j phi) := by
  fin_cases d <;> cases f <;> refine Prod.ext ?_ (Prod.ext ?_ ?_) <;>
    simp [row, E, E1, E11, rotZ, Real.cos_add, Real.sin_add] <;> ring

/-- The jet of a function with parity `ε` at the opposite point. -/
def Jet.flip (ε : ℝ) (j : Jet) : Jet := ⟨ε * j.h, -ε * j.h1, -ε * j.h2, ε * j.h11, ε * j.h12, ε * j.h22⟩

/-- The parity that stellarator symmetry wants of the coordinate functions: `x̂` even, `ŷ` and `z` odd. -/
def parity (d : Fin 3) : ℝ := match d with | 0 => 1 | 1 => -1 | 2 => -1

theorem row_mirror (f : Fam) (d : Fin 3) (j : Jet) (phi : ℝ) :
    row f d (j.flip (parity d)) (-phi) = ((-1 : ℝ) ^ f.order) • mirror (row f d j phi) := by
  fin_cases d <;> cases f <;> refine Prod.ext ?_ (Prod.ext ?_ ?_) <;>
    simp [row, E, E1, E11, mirror, Jet.flip, parity, Fam.order] <;> ring

/-! ### Dof vectors written in sequence -/

section Assign
variable {K : Type} [DecidableEq K]

/-- One step `array(k)[...] = dofs[counter++]`. -/
def write (dofs : List ℝ) (st : (K → ℝ) × Nat) (k : K) : (K → ℝ) × Nat := (Function.update st.1 k (dofs[st.2]?.getD 0), st.2 + 1)

theorem foldl_write_counter (l : List K) (d : List ℝ) (st : (K → ℝ) × Nat) : (l.foldl (write d) st).2 = st.2 + l.length := by
  induction l generalizing st with
  | nil => simp
  | cons k l ih => rw [List.foldl_cons, ih]; simp [write]; omega

theorem foldl_write_other (l : List K) (d : List ℝ) (st : (K → ℝ) × Nat) (k : K) (h : k ∉ l) : (l.foldl (write d) st).1 k = st.1 k := by
  induction l generalizing st with
  | nil => rfl
  | cons a l ih =>
    rw [List.foldl_cons, ih _ (fun hh => h (List.mem_cons_of_mem _ hh))]
    simp only [write]
    exact Function.update_of_ne (fun e : k = a => h (by rw [e]; exact List.mem_cons_self)) _ _

theorem foldl_write_get (l : List K) (hn : l.Nodup) (d : List ℝ) (st : (K → ℝ) × Nat) (p : Nat) (k : K) (h : l[p]? = some k) :
    (l.foldl (write d) st).1 k = d[st.2 + p]?.getD 0 := by
  induction l generalizing st p with
  | nil => simp at h
  | cons a l ih =>
    obtain ⟨hna, hn⟩ := List.nodup_cons.mp hn
    rw [List.foldl_cons]
    cases p with
    | zero =>
      simp only [List.getElem?_cons_zero, Option.some.injEq] at h
      subst h
      rw [foldl_write_other l d _ a hna]
      simp [write]
    | succ p =>
      rw [List.getElem?_cons_succ] at h
      rw [ih hn _ p h]
      simp only [write]
      rw [show st.2 + 1 + p = st.2 + (p + 1) from by omega]

/-- Writing a whole dof vector along a list of places. -/
def assign (l : List K) (a : K → ℝ) (d : List ℝ) : K → ℝ := (l.foldl (write d) (a, 0)).1

theorem assign_get (l : List K) (hn : l.Nodup) (a : K → ℝ) (d : List ℝ) (p : Nat) (k : K) (h : l[p]? = some k) : assign l a d k = d[p]?.getD 0 := by
  have := foldl_write_get l hn d (a, 0) p k h
  rwa [Nat.zero_add] at this

theorem assign_other (l : List K) (a : K → ℝ) (d : List ℝ) (k : K) (h : k ∉ l) : assign l a d k = a k := foldl_write_other l d (a, 0) k h

/-- Reading back what was written. -/
theorem assign_read (l : List K) (hn : l.Nodup) (a : K → ℝ) (d : List ℝ) (hd : d.length = l.length) : l.map (assign l a d) = d := by
  apply List.ext_getElem?
  intro p
  rw [List.getElem?_map]
  cases h : l[p]? with
  | none =>
    have : l.length ≤ p := by simpa using h
    rw [List.getElem?_eq_none (by omega)]; rfl
  | some k =>
    rw [Option.map_some, assign_get l hn a d p k h]
    have : p < l.length := (List.getElem?_eq_some_iff.mp h).1
    rw [List.getElem?_eq_getElem (by omega)]; rfl

/-- Writing what is there changes nothing. -/
theorem assign_self (l : List K) (hn : l.Nodup) (a : K → ℝ) : assign l a (l.map a) = a := by
  funext k
  by_cases h : k ∈ l
  · obtain ⟨p, hp, rfl⟩ := List.getElem_of_mem h
    rw [assign_get l hn a _ p l[p] (List.getElem?_eq_getElem hp)]
    simp [hp]
  · exact assign_other l a _ k h

/-- Changing one dof changes the array in its place only. -/
theorem assign_set (l : List K) (hn : l.Nodup) (a : K → ℝ) (d : List ℝ) (p : Nat) (hp : p < d.length) (x : ℝ) (k0 : K) (hl : l[p]? = some k0) :
    assign l a (d.set p x) = fun k => assign l a d k + if k = k0 then x - d[p] else 0 := by
  funext k
  by_cases hk : k ∈ l
  · obtain ⟨p', hp', rfl⟩ := List.getElem_of_mem hk
    have h' := List.getElem?_eq_getElem hp'
    rw [assign_get l hn a _ p' _ h', assign_get l hn a _ p' _ h']
    by_cases hpp : p' = p
    · subst hpp
      rw [h', Option.some.injEq] at hl
      rw [if_pos hl, List.getElem?_set_self hp, List.getElem?_eq_getElem hp]; simp
    · rw [List.getElem?_set_ne (Ne.symm hpp), if_neg, add_zero]
      intro e
      exact hpp ((List.getElem?_inj hp' hn).mp (by rw [h', hl, e]))
  · rw [assign_other l a _ k hk, assign_other l a _ k hk, if_neg, add_zero]
    rintro rfl
    exact hk (List.mem_of_getElem? hl)

/-- Derivative in a dof of a quantity that is linear in the arrays. -/
theorem linear_dof (l : List K) (hn : l.Nodup) (S : Finset K) (B : K → V3) (V : (K → ℝ) → V3) (hV : ∀ a, V a = ∑ k ∈ S, a k • B k)
    (a : K → ℝ) (d : List ℝ) (p : Nat) (hp : p < d.length) (k0 : K) (hl : l[p]? = some k0) (hS : k0 ∈ S) :
    HasDerivAt (fun x => V (assign l a (d.set p x))) (B k0) d[p] := by
  have e : (fun x => V (assign l a (d.set p x))) = fun x => V (assign l a d) + (x - d[p]) • B k0 := by
    funext x
    rw [hV, hV, assign_set l hn a d p hp x k0 hl]
    simp only [add_smul, Finset.sum_add_distrib]
    congr 1
    rw [Finset.sum_eq_single k0 (fun k _ hne => by rw [if_neg hne, zero_smul]) (fun h => absurd hS h), if_pos rfl]
  rw [e]
  have h := HasDerivAt.const_add (V (assign l a d)) (((hasDerivAt_id d[p]).sub_const d[p]).smul_const (B k0))
  rw [one_smul] at h
  exact h

end Assign

end Simsopt.XYZ
