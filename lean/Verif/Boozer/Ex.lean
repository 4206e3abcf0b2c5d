import Verif.Boozer.Adjoint
import Mathlib.Analysis.Calculus.FDeriv.Mul
import Mathlib.Analysis.Calculus.FDeriv.Add

/-!
# A field and a surface that meet the hypotheses of C113, C115, C116, C119 and C120
-/
namespace Simsopt.BSurf.Ex

/-- A field that is quadratic in the position, one quadrature point and a surface with two dofs, and a label that is quadratic in the dofs. -/
noncomputable def toy : BS 1 2 where
  F p := ![p 1, p 0, 1 + p 0 * p 1]
  dF p k l := (![![0, 1, p 1], ![1, 0, p 0], ![0, 0, 0]] : Fin 3 → Fin 3 → ℝ) k l
  d2F _ k j l := if k = 0 ∧ j = 1 ∧ l = 2 ∨ k = 1 ∧ j = 0 ∧ l = 2 then 1 else 0
  gx _ := ![![1, 0], ![0, 1], ![1, 1]]
  gphi _ := ![![0, 1], ![1, 0], ![0, 2]]
  gtheta _ := ![![1, 1], ![0, 3], ![1, 0]]
  q0 := 0
  L c := c 0 ^ 2 + c 0 * c 1
  dL c := ![2 * c 0 + c 1, c 0]
  d2L _ := ![![2, 1], ![1, 0]]
  target := 1

theorem diff1 (p : V) : toy.Diff1 p := by
  intro l
  have h0 : HasFDerivAt (fun q : V => q 0) (ContinuousLinearMap.proj (R := ℝ) (φ := fun _ : Fin 3 => ℝ) 0) p := hasFDerivAt_apply 0 p
  have h1 : HasFDerivAt (fun q : V => q 1) (ContinuousLinearMap.proj (R := ℝ) (φ := fun _ : Fin 3 => ℝ) 1) p := hasFDerivAt_apply 1 p
  fin_cases l
  · simpa [toy, Fin.sum_univ_three] using h1
  · simpa [toy, Fin.sum_univ_three] using h0
  · simpa [toy, Fin.sum_univ_three, add_comm] using (h0.mul h1).const_add 1

theorem diff2 (p : V) : toy.Diff2 p := by
  intro k l
  have h0 : HasFDerivAt (fun q : V => q 0) (ContinuousLinearMap.proj (R := ℝ) (φ := fun _ : Fin 3 => ℝ) 0) p := hasFDerivAt_apply 0 p
  have h1 : HasFDerivAt (fun q : V => q 1) (ContinuousLinearMap.proj (R := ℝ) (φ := fun _ : Fin 3 => ℝ) 1) p := hasFDerivAt_apply 1 p
  fin_cases k <;> fin_cases l
  all_goals first
    | (simpa [toy, Fin.sum_univ_three] using h0)
    | (simpa [toy, Fin.sum_univ_three] using h1)
    | (simpa [toy, Fin.sum_univ_three] using hasFDerivAt_const _ p)

theorem field_ne (p : V) : toy.F p ≠ 0 := by
  intro h
  have e0 := congrFun h 0
  have e1 := congrFun h 1
  have e2 := congrFun h 2
  simp [toy] at e0 e1 e2
  rw [e0, e1] at e2
  norm_num at e2

/-- The hypotheses of C113, C115 and C116 hold, with and without weights, at every surface. -/
example (wt : Bool) (u : Col 2 → ℝ) : toy.Regular1 wt u ∧ toy.Regular2 u := ⟨fun _ => ⟨diff1 _, fun _ => field_ne _⟩, fun _ => diff2 _⟩

theorem label1 (c : Fin 2 → ℝ) : toy.LabelD1 c := by
  intro m
  fin_cases m
  · have := ((hasDerivAt_id' (c 0)).fun_pow 2).fun_add ((hasDerivAt_id' (c 0)).mul_const (c 1))
    simpa [toy, mul_comm] using this
  · have := ((hasDerivAt_id' (c 1)).const_mul (c 0)).const_add (c 0 ^ 2)
    simpa [toy] using this

theorem label2 (c : Fin 2 → ℝ) : toy.LabelD2 c := by
  intro m m'
  fin_cases m <;> fin_cases m'
  · simpa [toy] using ((hasDerivAt_id' (c 0)).const_mul 2).add_const (c 1)
  · simpa [toy] using (hasDerivAt_id' (c 1)).const_add (2 * c 0)
  · simpa [toy] using hasDerivAt_id' (c 0)
  · simpa [toy] using hasDerivAt_const (c 1) (c 0)

/-- The second derivatives of this field are symmetric, the hypothesis of `C115_vectorized`. -/
example (p : V) (k j l : Fin 3) : toy.d2F p k j l = toy.d2F p j k l := by
  fin_cases k <;> fin_cases j <;> fin_cases l <;> simp [toy]

/-- The Jacobian of the residual is not zero: at the dofs `(1, 0)`, with `iota = 0` and `G = 1`, the entry of the second row for `G` is the second component of the field, 1. -/
example : (toy.data (fun a => match a with | .c 0 => 1 | .c 1 => 0 | .iota => 0 | .G => 1) 0).J false 1 .G = 1 := by
  simp [Data.J, Setting.data, toy, Setting.x, Fin.sum_univ_two]

/-- A field that moves with a coil current: the hypothesis of C120. -/
noncomputable def moving (t : ℝ) (_ : Fin 1) : Data 1 where
  G := 1
  iota := 2
  xphi := ![1, 0, 0]
  xtheta := ![0, 1, 0]
  B := ![t, 1, 0]
  dB := fun k p => if k = p then t else 0
  d2B := 0
  dx := fun k _ => k
  dxphi := fun _ _ => 1
  dxtheta := fun _ _ => 0

noncomputable def dir : CoilDir 1 := ⟨fun _ => ![1, 0, 0], fun _ k p => if k = p then 1 else 0⟩

example (t : ℝ) (q : Fin 1) : FieldMoves (fun τ => moving τ q) (dir.Bd q) (dir.Gd q) t := by
  constructor
  case B => intro l; fin_cases l <;> simp [moving, dir, hasDerivAt_id', hasDerivAt_const]
  case dB => 
    intro k p
    by_cases h : k = p <;> simp [moving, dir, h, hasDerivAt_id', hasDerivAt_const]
  all_goals intros; rfl

end Simsopt.BSurf.Ex
