import Verif.Surfaces.RZOps
import Verif.Coils.Sym
/-!
# C65, C68, C69: hidden modes, symmetries, change of resolution
-/
namespace Simsopt.RZSurf
open Simsopt Simsopt.Coils

/-! ### C68: symmetries of the shape -/

/-- The order of the derivative. -/
def Fam.order : Fam → Nat | .g => 0 | .g1 => 1 | .g2 => 1 | .g11 => 2 | .g12 => 2 | .g22 => 2

theorem rotZ_linear (a : ℝ) : ∃ L : V3 →ₗ[ℝ] V3, ∀ v, L v = rotZ a v :=
  ⟨{ toFun := rotZ a
     map_add' := fun x y => by refine Prod.ext ?_ (Prod.ext ?_ ?_) <;> simp [rotZ] <;> ring
     map_smul' := fun c x => by refine Prod.ext ?_ (Prod.ext ?_ ?_) <;> simp [rotZ] <;> ring }, fun _ => rfl⟩

theorem mirror_linear (c : ℝ) : ∃ L : V3 →ₗ[ℝ] V3, ∀ v, L v = c • mirror v :=
  ⟨{ toFun := fun v => c • mirror v
     map_add' := fun x y => by refine Prod.ext ?_ (Prod.ext ?_ ?_) <;> simp [mirror] <;> ring
     map_smul' := fun d x => by refine Prod.ext ?_ (Prod.ext ?_ ?_) <;> simp [mirror] <;> ring }, fun _ => rfl⟩

/-- A linear map that takes every basis row to another basis row does so for the linear combinations. -/
theorem lin_map (s : Surf) (B B' : Kind → Nat × Nat → V3) (L : V3 →ₗ[ℝ] V3) (h : ∀ k mi, available s k = true → L (B k mi) = B' k mi) : L (lin s B) = lin s B' := by
  simp only [lin, map_sum]
  apply Finset.sum_congr rfl; intro m _
  apply Finset.sum_congr rfl; intro i _
  cases hs : s.stellsym with
  | true => simp only [modeTerm, hs, if_true, map_add, map_smul, map_zero, h .rc _ rfl, h .zs _ rfl]
  | false =>
    simp only [modeTerm, hs, Bool.false_eq_true, if_false, map_add, map_smul, h .rc _ rfl, h .zs _ rfl, h .rs _ (by simp [available, hs]), h .zc _ (by simp [available, hs])]

theorem angle_period (s : Surf) (phi theta : ℝ) (a b : Int) (m i : Nat) (hn : s.nfp ≠ 0) :
    angle s (phi + 2 * Real.pi / s.nfp * a) (theta + 2 * Real.pi * b) m i = angle s phi theta m i + ((m * b - ((i : Int) - s.ntor) * a : Int) : ℝ) * (2 * Real.pi) := by
  have : (s.nfp : ℝ) ≠ 0 := by exact_mod_cast hn
  simp only [angle]
  push_cast
  field_simp
  ring

theorem dRow_rotate (s : Surf) (f : Fam) (k : Kind) (phi theta : ℝ) (a b : Int) (mi : Nat × Nat) (hn : s.nfp ≠ 0) :
    rotZ (2 * Real.pi / s.nfp * a) (dRow s f k phi theta mi) = dRow s f k (phi + 2 * Real.pi / s.nfp * a) (theta + 2 * Real.pi * b) mi := by
  have h1 : Real.sin (angle s (phi + 2 * Real.pi / s.nfp * a) (theta + 2 * Real.pi * b) mi.1 mi.2) = Real.sin (angle s phi theta mi.1 mi.2) := by
    rw [angle_period s phi theta a b _ _ hn, Real.sin_add_int_mul_two_pi]
  have h2 : Real.cos (angle s (phi + 2 * Real.pi / s.nfp * a) (theta + 2 * Real.pi * b) mi.1 mi.2) = Real.cos (angle s phi theta mi.1 mi.2) := by
    rw [angle_period s phi theta a b _ _ hn, Real.cos_add_int_mul_two_pi]
  simp only [dRow, h1, h2, Real.cos_add, Real.sin_add, rotZ]
  cases f <;> cases k <;> refine Prod.ext ?_ (Prod.ext ?_ ?_) <;> simp only [] <;> ring

/-- **C68.** Field periods and closure: going `a` field periods further in `φ` and `b` times around in `θ` rotates the position, the tangents and all the second
derivatives by `2π a/nfp` about the z axis; for every surface, stellarator-symmetric or not, also for hidden modes. -/
theorem C68_field_period (s : Surf) (hn : s.nfp ≠ 0) (junk junk' : Nat → ℝ × ℝ) (f : Fam) (p q : ℝ) (a b : Int) :
    value s junk f (p + a / s.nfp) (q + b) = rotZ (2 * Real.pi * a / s.nfp) (value s junk' f p q) := by
  obtain ⟨L, hL⟩ := rotZ_linear (2 * Real.pi / s.nfp * a)
  rw [value_lin, value_lin]
  have e1 : 2 * Real.pi * (p + a / s.nfp) = 2 * Real.pi * p + 2 * Real.pi / s.nfp * a := by ring
  have e2 : 2 * Real.pi * (q + b) = 2 * Real.pi * q + 2 * Real.pi * b := by ring
  have e3 : 2 * Real.pi * a / s.nfp = 2 * Real.pi / s.nfp * a := by ring
  rw [e1, e2, e3, ← hL, lin_map s _ _ L]
  intro k mi _
  rw [hL, dRow_rotate s f k _ _ a b mi hn]

/-- **C68.** Stellarator symmetry: for `stellsym=True` the point at `(-φ, -θ)` is the point at `(φ, θ)` with y and z reversed; tangents get the opposite sign in
addition, second derivatives do not. -/
theorem C68_stellsym (s : Surf) (hs : s.stellsym = true) (junk junk' : Nat → ℝ × ℝ) (f : Fam) (p q : ℝ) :
    value s junk f (-p) (-q) = ((-1 : ℝ) ^ f.order) • mirror (value s junk' f p q) := by
  obtain ⟨L, hL⟩ := mirror_linear ((-1 : ℝ) ^ f.order)
  rw [value_lin, value_lin, ← hL, lin_map s _ _ L]
  intro k mi hk
  rw [hL]
  have e1 : ∀ x : ℝ, 2 * Real.pi * -x = -(2 * Real.pi * x) := fun x => by ring
  have ea : angle s (-(2 * Real.pi * p)) (-(2 * Real.pi * q)) mi.1 mi.2 = -angle s (2 * Real.pi * p) (2 * Real.pi * q) mi.1 mi.2 := by simp only [angle]; ring
  cases k <;> simp [available, hs] at hk <;> cases f <;> refine Prod.ext ?_ (Prod.ext ?_ ?_) <;>
    simp only [dRow, e1, ea, Real.sin_neg, Real.cos_neg, mirror, Fam.order, Prod.smul_fst, Prod.smul_snd, smul_eq_mul] <;> ring

/-- Without stellarator symmetry the second statement fails: a surface with `zc(0,0) = 1` is not symmetric. -/
example : ∃ s, Reach s ∧ s.stellsym = false ∧ ∀ junk, value s junk .g (-0) (-0) ≠ mirror (value s junk .g 0 0) := by
  have key : ∀ t : Surf, t.mpol = 1 → t.ntor = 0 → t.nfp = 1 → t.stellsym = false → t.zc 0 = 1 → t.zc 1 = 0 → ∀ junk, value t junk .g (-0) (-0) ≠ mirror (value t junk .g 0 0) := by
    rintro ⟨mpol, ntor, nfp, st, rc, rs, zc, zs⟩ h1 h2 h3 h4 h5 h6 junk h
    simp only at h1 h2 h3 h4 h5 h6
    subst h1; subst h2; subst h3; subst h4
    have h := congrArg (fun v => v.2.2) h
    simp [value_lin, lin, modeTerm, mirror, Finset.sum_range_succ, Surf.width, dRow, angle, Surf.at, Surf.buf, h5, h6] at h
    norm_num at h
  refine ⟨setDofs (create 1 0 1 false) [1, 0.1, 0, 1, 0, 0], .setDofs _ (.construct (mpol := 1) (ntor := 0) (nfp := 1) (stellsym := false) (by simp [construct])), rfl,
    key _ rfl rfl rfl rfl ?_ ?_⟩
  · exact (setDofs_entry (create 1 0 1 false) [1, 0.1, 0, 1, 0, 0] 3 .zc 0 (by decide)).trans rfl
  · exact (setDofs_entry (create 1 0 1 false) [1, 0.1, 0, 1, 0, 0] 4 .zc 1 (by decide)).trans rfl

/-! ### C65: hidden modes -/

/-- **C65, violated.** `set_rc(0, -1, v)` is accepted, leaves the dof vector as it was, but changes the shape: the shape is not a function of the dofs once a setter has been
used with `m = 0` and `n < 0`. -/
theorem C65_hidden_mode_violated : ∃ s t, construct 1 1 1 true = some s ∧ setCoef s .rc 0 (-1) 1 = some t ∧ getDofs s = getDofs t ∧
    ∀ junk junk', gamma s junk 0 0 ≠ gamma t junk' 0 0 := by
  refine ⟨create 1 1 1 true, poke (create 1 1 1 true) .rc 0 (-1) 1, by simp [construct], ?_, ?_, ?_⟩
  · rw [setCoef_eq]; simp [available, validMn, create, poke]
  · rw [getDofs_layout, getDofs_layout]
    have hl : layout (poke (create 1 1 1 true) .rc 0 (-1) 1) = layout (create 1 1 1 true) := rfl
    rw [hl]
    apply List.map_congr_left
    rintro ⟨k, j⟩ hm
    rw [poke_buf, if_neg]
    rintro ⟨rfl, rfl⟩
    revert hm; decide
  · intro junk junk' h
    have h1 := value_lin (create 1 1 1 true) junk .g 0 0
    have h2 := value_lin (poke (create 1 1 1 true) .rc 0 (-1) 1) junk' .g 0 0
    rw [show value (create 1 1 1 true) junk .g 0 0 = gamma (create 1 1 1 true) junk 0 0 from rfl] at h1
    rw [show value (poke (create 1 1 1 true) .rc 0 (-1) 1) junk' .g 0 0 = gamma (poke (create 1 1 1 true) .rc 0 (-1) 1) junk' 0 0 from rfl] at h2
    rw [h1, h2] at h
    have h := congrArg Prod.fst h
    simp [lin, modeTerm, Finset.sum_range_succ, Surf.width, create, poke, dRow, angle, Surf.at, Surf.buf, Function.update] at h

end Simsopt.RZSurf
