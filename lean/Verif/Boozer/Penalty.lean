import Verif.Boozer.Props
import Mathlib.Algebra.BigOperators.Field

/-!
# The scalarised Boozer objective (C115) and the optimality conditions with exact constraints (C116)

Model of `BoozerSurface.boozer_penalty_constraints`, `boozer_penalty_constraints_vectorized` and `boozer_exact_constraints` (src/simsopt/geo/boozersurface.py L171-431) and of `boozer_residual_impl` (src/simsoptpp/boozerresidual_impl.h L345-556), which the vectorized
function calls.  With `optimize_G=False` the value of `G` is computed from the currents (L184, L280), the column `G` of the Jacobian and the row and column `G` of the Hessian are absent (L360-361, L372-373), and nothing else changes; the functions below are about both cases,
`u .G` being the value that is used.
-/
namespace Simsopt.BSurf

/-- A `BoozerSurface`: the field and the surface, the quadrature point `[0, 0]`, the label as a function of the dofs of the surface (`label.J()`, `label.dJ(partials=True)(s)` and `label.d2J_by_dsurfacecoefficientsdsurfacecoefficients()`) and the target label. -/
structure BS (N n : ℕ) extends Setting N n where
  q0 : Fin N
  L : (Fin n → ℝ) → ℝ
  dL : (Fin n → ℝ) → Fin n → ℝ
  d2L : (Fin n → ℝ) → Fin n → Fin n → ℝ
  target : ℝ

/-- The rows of the residual: those of the quadrature points, then the label, then the constraint on `z`. -/
inductive Row (N : ℕ) where
  | bz (q : Fin N) (l : Fin 3)
  | label
  | z

/-- `np.sum(..., axis=0)` over the rows. -/
def rowSum {N : ℕ} (f : Row N → ℝ) : ℝ := (∑ q, ∑ l, f (.bz q l)) + (f .label + f .z)

/-- The dofs of the surface, `x[:-2]`. -/
def dofs {n : ℕ} (u : Col n → ℝ) : Fin n → ℝ := fun m => u (.c m)

/-- `np.zeros(x.shape)` with the first entries replaced. -/
def pad {n : ℕ} (v : Fin n → ℝ) : Col n → ℝ
  | .c m => v m
  | .iota => 0
  | .G => 0

/-- `np.zeros((x.shape[0], x.shape[0]))` with the first block replaced. -/
def pad2 {n : ℕ} (v : Fin n → Fin n → ℝ) : Col n → Col n → ℝ
  | .c m, .c m' => v m m'
  | _, _ => 0

namespace BS
variable {N n : ℕ} (s : BS N n)

/-- boozersurface.py L206-224: the residual with `scalarize=False`. -/
noncomputable def r (wt : Bool) (cw : ℝ) (u : Col n → ℝ) : Row N → ℝ
  | .bz q l => (s.data u q).rtil wt l / √((3 * N : ℕ) : ℝ)
  | .label => √cw * (s.L (dofs u) - s.target)
  | .z => √cw * (s.x u s.q0 2 - 0)

/-- boozersurface.py L233-244: its Jacobian. -/
noncomputable def Jm (wt : Bool) (cw : ℝ) (u : Col n → ℝ) : Row N → Col n → ℝ
  | .bz q l, a => (s.data u q).J wt l a / √((3 * N : ℕ) : ℝ)
  | .label, a => √cw * pad (s.dL (dofs u)) a
  | .z, a => √cw * pad (s.gx s.q0 2) a

/-- boozersurface.py L254-262. -/
noncomputable def Hm (wt : Bool) (cw : ℝ) (u : Col n → ℝ) : Row N → Col n → Col n → ℝ
  | .bz q l, a, b => (s.data u q).H wt l a b / √((3 * N : ℕ) : ℝ)
  | .label, a, b => √cw * pad2 (s.d2L (dofs u)) a b
  | .z, _, _ => 0

/-- boozersurface.py L226. -/
noncomputable def val (wt : Bool) (cw : ℝ) (u : Col n → ℝ) : ℝ := 0.5 * rowSum fun i => s.r wt cw u i ^ 2
/-- boozersurface.py L245. -/
noncomputable def dval (wt : Bool) (cw : ℝ) (u : Col n → ℝ) (a : Col n) : ℝ := rowSum fun i => s.r wt cw u i * s.Jm wt cw u i a
/-- boozersurface.py L263. -/
noncomputable def d2val (wt : Bool) (cw : ℝ) (u : Col n → ℝ) (a b : Col n) : ℝ :=
  (rowSum fun i => s.Jm wt cw u i a * s.Jm wt cw u i b) + rowSum fun i => s.r wt cw u i * s.Hm wt cw u i a b

end BS

/-! ## The C++ function -/
namespace Cpp
variable {n : ℕ} (wt : Bool) (d : Data n)

/-- boozerresidual_impl.h L351. -/
def B2 : ℝ := d.B 0 * d.B 0 + d.B 1 * d.B 1 + d.B 2 * d.B 2
/-- boozerresidual_impl.h L353. -/
noncomputable def w : ℝ := if wt then √(1 / B2 d) else 1
/-- boozerresidual_impl.h L361-363. -/
def res (l : Fin 3) : ℝ := d.G * d.B l - B2 d * (d.xphi l + d.iota * d.xtheta l)
/-- boozerresidual_impl.h L367-369. -/
noncomputable def rtil (l : Fin 3) : ℝ := res d l * w wt d
/-- boozerresidual_impl.h L371: the contribution of one point. -/
noncomputable def val : ℝ := 0.5 * (rtil wt d 0 * rtil wt d 0 + rtil wt d 1 * rtil wt d 1 + rtil wt d 2 * rtil wt d 2)
/-- boozerresidual_impl.h L395-397. -/
def dB (l : Fin 3) (m : Fin n) : ℝ := d.dB 0 l * d.dx 0 m + d.dB 1 l * d.dx 1 m + d.dB 2 l * d.dx 2 m
/-- boozerresidual_impl.h L399. -/
def dB2 (m : Fin n) : ℝ := 2 * (d.B 0 * dB d 0 m + d.B 1 * dB d 1 m + d.B 2 * dB d 2 m)
/-- boozerresidual_impl.h L400-402. -/
def dtang (l : Fin 3) (m : Fin n) : ℝ := d.iota * d.dxtheta l m + d.dxphi l m
/-- boozerresidual_impl.h L404-406. -/
def dres (l : Fin 3) (m : Fin n) : ℝ := d.G * dB d l m - (dB2 d m * (d.xphi l + d.iota * d.xtheta l) + B2 d * dtang d l m)
/-- boozerresidual_impl.h L408. -/
noncomputable def dmodB (m : Fin n) : ℝ := 0.5 * dB2 d m * w wt d
/-- boozerresidual_impl.h L409. -/
noncomputable def dw (m : Fin n) : ℝ := if wt then -dmodB wt d m * (1 / B2 d) else 0
/-- boozerresidual_impl.h L410-412, L441-467: the derivatives of the weighted residual. -/
noncomputable def drtil (l : Fin 3) : Col n → ℝ
  | .c m => dres d l m * w wt d + dw wt d m * res d l
  | .iota => (-B2 d * d.xtheta l) * w wt d
  | .G => w wt d * d.B l
/-- boozerresidual_impl.h L415, L448, L463: the contribution of one point to the gradient. -/
noncomputable def dval (a : Col n) : ℝ := rtil wt d 0 * drtil wt d 0 a + rtil wt d 1 * drtil wt d 1 a + rtil wt d 2 * drtil wt d 2 a
/-- boozerresidual_impl.h L479-493. -/
def d2B (c : Fin 3) (m m' : Fin n) : ℝ :=
  ∑ l : Fin 3, (d.d2B 0 l c * d.dx 0 m * d.dx l m' + d.d2B 1 l c * d.dx 1 m * d.dx l m' + d.d2B 2 l c * d.dx 2 m * d.dx l m')
/-- boozerresidual_impl.h L495. -/
def d2B2 (m m' : Fin n) : ℝ :=
  2 * (dB d 0 m * dB d 0 m' + dB d 1 m * dB d 1 m' + dB d 2 m * dB d 2 m' + d.B 0 * d2B d 0 m m' + d.B 1 * d2B d 1 m m' + d.B 2 * d2B d 2 m m')
/-- boozerresidual_impl.h L496-510. -/
def d2res (l : Fin 3) (m m' : Fin n) : ℝ :=
  d.G * d2B d l m m' + -dtang d l m' * dB2 d m + -dtang d l m * dB2 d m' + -(d.xphi l + d.iota * d.xtheta l) * d2B2 d m m'
/-- boozerresidual_impl.h L512. -/
noncomputable def d2modB (m m' : Fin n) : ℝ := (2 * B2 d * d2B2 d m m' - dB2 d m * dB2 d m') * (w wt d * w wt d * w wt d) / 4
/-- boozerresidual_impl.h L513. -/
noncomputable def d2w (m m' : Fin n) : ℝ := if wt then (2 * dmodB wt d m * dmodB wt d m' - √(B2 d) * d2modB wt d m m') * (w wt d * w wt d * w wt d) else 0
/-- boozerresidual_impl.h L515-517, L523-530, L535-541. -/
noncomputable def d2rtil (l : Fin 3) : Col n → Col n → ℝ
  | .c m, .c m' => dres d l m * dw wt d m' + dres d l m' * dw wt d m + d2res d l m m' * w wt d + res d l * d2w wt d m m'
  | .c m, .iota => -(dB2 d m * d.xtheta l + B2 d * d.dxtheta l m) * w wt d + (-B2 d * d.xtheta l) * dw wt d m
  | .c m, .G => dB d l m * w wt d + d.B l * dw wt d m
  | _, _ => 0
/-- boozerresidual_impl.h L470-475, L519-521, L531-533, L542-544: the contribution of one point to the entry `(a, b)` of the Hessian, which is only used with `a` not after `b`. -/
noncomputable def upper (a b : Col n) : ℝ :=
  (drtil wt d 0 a * drtil wt d 0 b + drtil wt d 1 a * drtil wt d 1 b + drtil wt d 2 a * drtil wt d 2 b)
    + (rtil wt d 0 * d2rtil wt d 0 a b + rtil wt d 1 * d2rtil wt d 1 a b + rtil wt d 2 * d2rtil wt d 2 a b)

end Cpp

/-- The position of a column: `m`, `ndofs`, `ndofs + 1`. -/
def Col.pos {n : ℕ} : Col n → ℕ
  | .c m => m
  | .iota => n
  | .G => n + 1

namespace BS
variable {N n : ℕ} (s : BS N n)

/-- boozerresidual_impl.h L348-350, L371 and boozersurface.py L337: the value, divided by `num_res`. -/
noncomputable def rnl (wt : Bool) (u : Col n → ℝ) : ℝ := (∑ q, Cpp.val wt (s.data u q)) / ((3 * N : ℕ) : ℝ)
/-- boozersurface.py L337, L359-361. -/
noncomputable def Jnl (wt : Bool) (u : Col n → ℝ) (a : Col n) : ℝ := (∑ q, Cpp.dval wt (s.data u q) a) / ((3 * N : ℕ) : ℝ)
/-- boozerresidual_impl.h L547-554: the entries below the diagonal are copied from those above it; boozersurface.py L337, L371-373. -/
noncomputable def Hnl (wt : Bool) (u : Col n → ℝ) (a b : Col n) : ℝ :=
  (if a.pos ≤ b.pos then ∑ q, Cpp.upper wt (s.data u q) a b else ∑ q, Cpp.upper wt (s.data u q) b a) / ((3 * N : ℕ) : ℝ)

/-- boozersurface.py L342-344: the label row. -/
noncomputable def rl (cw : ℝ) (u : Col n → ℝ) : ℝ := √cw * (s.L (dofs u) - s.target)
/-- boozersurface.py L345. -/
noncomputable def rz (cw : ℝ) (u : Col n → ℝ) : ℝ := √cw * (s.x u s.q0 2 - 0)
/-- boozersurface.py L363. -/
noncomputable def drl (cw : ℝ) (u : Col n → ℝ) (a : Col n) : ℝ := √cw * pad (s.dL (dofs u)) a
/-- boozersurface.py L364. -/
noncomputable def drz (cw : ℝ) (a : Col n) : ℝ := √cw * pad (s.gx s.q0 2) a
/-- boozersurface.py L346: the value of the vectorized function. -/
noncomputable def vval (wt : Bool) (cw : ℝ) (u : Col n → ℝ) : ℝ := s.rnl wt u + 0.5 * s.rl cw u ^ 2 + 0.5 * s.rz cw u ^ 2
/-- boozersurface.py L365: its gradient. -/
noncomputable def vdval (wt : Bool) (cw : ℝ) (u : Col n → ℝ) (a : Col n) : ℝ := s.Jnl wt u a + s.rl cw u * s.drl cw u a + s.rz cw u * s.drz cw a
/-- boozersurface.py L375-377: its Hessian. -/
noncomputable def vd2val (wt : Bool) (cw : ℝ) (u : Col n → ℝ) (a b : Col n) : ℝ :=
  s.Hnl wt u a b + s.drl cw u a * s.drl cw u b + s.drz cw a * s.drz cw b + s.rl cw u * pad2 (fun m m' => √cw * s.d2L (dofs u) m m') a b

/-! ## Specification -/

/-- The documented objective: half the mean square of the residuals, plus half the weight times the squares of the errors in the label and in `z(0, 0)`. -/
noncomputable def objective (wt : Bool) (cw : ℝ) (u : Col n → ℝ) : ℝ :=
  1 / 2 * ((∑ q, ∑ l, s.boozer wt u q l ^ 2) / (3 * N)) + 1 / 2 * cw * (s.L (dofs u) - s.target) ^ 2 + 1 / 2 * cw * s.x u s.q0 2 ^ 2

/-- The hypotheses on the field at the points of the surface: differentiable, and not zero if the residuals are weighted. -/
def Regular1 (wt : Bool) (u : Col n → ℝ) : Prop := ∀ q, s.Diff1 (s.x u q) ∧ (wt = true → s.F (s.x u q) ≠ 0)
/-- The same for second derivatives. -/
def Regular2 (u : Col n → ℝ) : Prop := ∀ q, s.Diff2 (s.x u q)
/-- `dL` holds the derivatives of the label. -/
def LabelD1 (c : Fin n → ℝ) : Prop := ∀ m, HasDerivAt (fun t => s.L (Function.update c m t)) (s.dL c m) (c m)
/-- `d2L` holds the derivatives of `dL`. -/
def LabelD2 (c : Fin n → ℝ) : Prop := ∀ m m', HasDerivAt (fun t => s.dL (Function.update c m' t) m) (s.d2L c m m') (c m')

end BS

/-! ## Proofs -/
section
variable {N n : ℕ} (s : BS N n)

theorem N_pos (s : BS N n) : 0 < N := Fin.pos s.q0

theorem sqrt_num : √((3 * N : ℕ) : ℝ) ^ 2 = 3 * N := by
  rw [Real.sq_sqrt (Nat.cast_nonneg _)]; push_cast; ring

theorem sqrt_num_ne (h : 0 < N) : √((3 * N : ℕ) : ℝ) ≠ 0 := by
  have : (0 : ℝ) < ((3 * N : ℕ) : ℝ) := by exact_mod_cast (by omega : 0 < 3 * N)
  exact (Real.sqrt_pos.mpr this).ne'

theorem dofs_update_c (u : Col n → ℝ) (m : Fin n) (t : ℝ) : dofs (Function.update u (.c m) t) = Function.update (dofs u) m t := by
  funext m'
  unfold dofs
  by_cases h : m' = m
  · subst h; simp
  · rw [Function.update_of_ne (by intro hh; exact h (Col.c.inj hh)), Function.update_of_ne h]

theorem dofs_update_iota (u : Col n → ℝ) (t : ℝ) : dofs (Function.update u .iota t) = dofs u := by
  funext m'; unfold dofs; rw [Function.update_of_ne (by simp)]

theorem dofs_update_G (u : Col n → ℝ) (t : ℝ) : dofs (Function.update u .G t) = dofs u := by
  funext m'; unfold dofs; rw [Function.update_of_ne (by simp)]

theorem d_label (u : Col n → ℝ) (a : Col n) (h : s.LabelD1 (dofs u)) : HasDerivAt (fun t => s.L (dofs (Function.update u a t))) (pad (s.dL (dofs u)) a) (u a) := by
  cases a with
  | c m => simp only [dofs_update_c]; exact h m
  | iota => simp only [dofs_update_iota]; exact hasDerivAt_const _ _
  | G => simp only [dofs_update_G]; exact hasDerivAt_const _ _

theorem d_dlabel (u : Col n → ℝ) (a b : Col n) (h : s.LabelD2 (dofs u)) : HasDerivAt (fun t => pad (s.dL (dofs (Function.update u b t))) a) (pad2 (s.d2L (dofs u)) a b) (u b) := by
  cases a with
  | c m =>
    cases b with
    | c m' => simp only [dofs_update_c, pad]; exact h m m'
    | iota => simp only [dofs_update_iota, pad]; exact hasDerivAt_const _ _
    | G => simp only [dofs_update_G, pad]; exact hasDerivAt_const _ _
  | iota => cases b <;> exact hasDerivAt_const _ _
  | G => cases b <;> exact hasDerivAt_const _ _

theorem d_z (u : Col n → ℝ) (a : Col n) : HasDerivAt (fun t => s.x (Function.update u a t) s.q0 2) (pad (s.gx s.q0 2) a) (u a) := by
  refine (d_lin (s.gx s.q0 2) u a).congr_deriv ?_
  cases a <;> rfl

/-- **C115.** With `scalarize=False`: the Jacobian holds the partial derivatives of the rows. -/
theorem C115_rows (wt : Bool) (cw : ℝ) (u : Col n → ℝ) (a : Col n) (h1 : s.Regular1 wt u) (hL : s.LabelD1 (dofs u)) (i : Row N) :
    HasDerivAt (fun t => s.r wt cw (Function.update u a t) i) (s.Jm wt cw u i a) (u a) := by
  cases i with
  | bz q l =>
    have h := (C113_jacobian s.toSetting wt u q l a (h1 q).1 (h1 q).2).div_const (√((3 * N : ℕ) : ℝ))
    simp only [← rtil_eq_boozer] at h
    exact h
  | label => exact ((d_label s u a hL).sub_const _).const_mul _
  | z => exact ((d_z s u a).sub_const _).const_mul _

theorem d_rows (wt : Bool) (cw : ℝ) (u : Col n → ℝ) (a b : Col n) (h1 : s.Regular1 wt u) (h2 : s.Regular2 u) (hL : s.LabelD2 (dofs u)) (i : Row N) :
    HasDerivAt (fun t => s.Jm wt cw (Function.update u b t) i a) (s.Hm wt cw u i a b) (u b) := by
  cases i with
  | bz q l => exact (C113_second_derivatives s.toSetting wt u q l a b (h1 q).1 (h2 q) (h1 q).2).div_const _
  | label => exact (d_dlabel s u a b hL).const_mul _
  | z => exact hasDerivAt_const _ _

theorem d_rowSum {f : ℝ → Row N → ℝ} {f' : Row N → ℝ} {t : ℝ} (h : ∀ i, HasDerivAt (fun τ => f τ i) (f' i) t) : HasDerivAt (fun τ => rowSum (f τ)) (rowSum f') t :=
  (HasDerivAt.fun_sum fun q _ => HasDerivAt.fun_sum fun l _ => h (.bz q l)).fun_add ((h .label).fun_add (h .z))

/-- **C115.** The value of `boozer_penalty_constraints` is the documented objective. -/
theorem C115_value (wt : Bool) (cw : ℝ) (hc : 0 ≤ cw) (u : Col n → ℝ) : s.val wt cw u = s.objective wt cw u := by
  have hN := N_pos s
  have e : ∀ q l, s.r wt cw u (.bz q l) ^ 2 = s.boozer wt u q l ^ 2 / (3 * N) := by
    intro q l
    show ((s.data u q).rtil wt l / _) ^ 2 = _
    rw [rtil_eq_boozer, div_pow, sqrt_num]
  unfold BS.val BS.objective rowSum
  simp only [e, ← Finset.sum_div]
  show 0.5 * (_ + ((√cw * _) ^ 2 + (√cw * _) ^ 2)) = _
  rw [mul_pow, mul_pow, Real.sq_sqrt hc, sub_zero]
  ring

/-- **C115.** The gradient that `boozer_penalty_constraints` returns holds the partial derivatives of the documented objective. -/
theorem C115_gradient (wt : Bool) (cw : ℝ) (hc : 0 ≤ cw) (u : Col n → ℝ) (a : Col n) (h1 : s.Regular1 wt u) (hL : s.LabelD1 (dofs u)) :
    HasDerivAt (fun t => s.objective wt cw (Function.update u a t)) (s.dval wt cw u a) (u a) := by
  simp only [← C115_value s wt cw hc]
  have hu : ∀ i, s.r wt cw (Function.update u a (u a)) i = s.r wt cw u i := by intro i; rw [Function.update_eq_self]
  have h := (d_rowSum fun i => (C115_rows s wt cw u a h1 hL i).fun_pow 2).const_mul 0.5
  refine h.congr_deriv ?_
  simp only [hu]
  unfold BS.dval rowSum
  simp only [Nat.cast_ofNat, Nat.add_one_sub_one, pow_one, mul_add, Finset.mul_sum]
  congr 1
  · exact Finset.sum_congr rfl fun q _ => Finset.sum_congr rfl fun l _ => by ring
  · ring

/-- **C115.** The Hessian that `boozer_penalty_constraints` returns holds the partial derivatives of the gradient. -/
theorem C115_hessian (wt : Bool) (cw : ℝ) (u : Col n → ℝ) (a b : Col n) (h1 : s.Regular1 wt u) (h2 : s.Regular2 u) (hL : s.LabelD1 (dofs u)) (hL2 : s.LabelD2 (dofs u)) :
    HasDerivAt (fun t => s.dval wt cw (Function.update u b t) a) (s.d2val wt cw u a b) (u b) := by
  have hu : ∀ i, s.r wt cw (Function.update u b (u b)) i = s.r wt cw u i := by intro i; rw [Function.update_eq_self]
  have huJ : ∀ i, s.Jm wt cw (Function.update u b (u b)) i a = s.Jm wt cw u i a := by intro i; rw [Function.update_eq_self]
  have h := d_rowSum fun i => (C115_rows s wt cw u b h1 hL i).fun_mul (d_rows s wt cw u a b h1 h2 hL2 i)
  refine h.congr_deriv ?_
  simp only [hu, huJ]
  unfold BS.d2val rowSum
  simp only [Finset.sum_add_distrib, mul_comm (s.Jm wt cw u _ b)]
  ring

/-! ### The vectorized function -/

theorem cpp_B2 (d : Data n) : Cpp.B2 d = d.B2 := by
  unfold Cpp.B2 Data.B2; rw [Fin.sum_univ_three]; ring

theorem cpp_w_true (d : Data n) : Cpp.w true d = d.w := by
  unfold Cpp.w Data.w Data.modB
  simp only [if_true, cpp_B2]
  rw [one_div, one_div, Real.sqrt_inv]

theorem cpp_res (d : Data n) (l : Fin 3) : Cpp.res d l = d.residual l := by
  unfold Cpp.res; rw [cpp_B2]; rfl

theorem cpp_rtil (wt : Bool) (d : Data n) (l : Fin 3) : Cpp.rtil wt d l = d.rtil wt l := by
  unfold Cpp.rtil Data.rtil
  cases wt
  · simp [Cpp.w, cpp_res]
  · rw [cpp_w_true, cpp_res, mul_comm]; rfl

theorem cpp_dB (d : Data n) (l : Fin 3) (m : Fin n) : Cpp.dB d l m = d.dB_dc l m := by
  unfold Cpp.dB Data.dB_dc; rw [Fin.sum_univ_three]

theorem cpp_dB2 (d : Data n) (m : Fin n) : Cpp.dB2 d m = d.dB2_dc m := by
  unfold Cpp.dB2 Data.dB2_dc; rw [Fin.sum_univ_three]; simp only [cpp_dB]

theorem cpp_dres (d : Data n) (l : Fin 3) (m : Fin n) : Cpp.dres d l m = d.dresidual_dc l m := by
  unfold Cpp.dres Cpp.dtang Data.dresidual_dc Data.tang
  rw [cpp_dB2, cpp_dB, cpp_B2]
  unfold Data.dB2_dc
  rw [Fin.sum_univ_three]
  ring

theorem cpp_dmodB (d : Data n) (m : Fin n) : Cpp.dmodB true d m = d.dmodB_dc m := by
  unfold Cpp.dmodB Data.dmodB_dc
  rw [cpp_w_true, cpp_dB2]
  unfold Data.w Data.modB
  ring

theorem cpp_dw (d : Data n) (m : Fin n) : Cpp.dw true d m = d.dw_dc m := by
  unfold Cpp.dw Data.dw_dc
  simp only [if_true, cpp_dmodB, cpp_B2, modB_sq]
  ring

theorem cpp_drtil (wt : Bool) (d : Data n) (l : Fin 3) (a : Col n) : Cpp.drtil wt d l a = d.J wt l a := by
  cases a with
  | c m =>
    cases wt
    · simp [Cpp.drtil, Data.J, Cpp.w, Cpp.dw, cpp_dres]
    · simp only [Cpp.drtil, Data.J, cpp_w_true, cpp_dw, cpp_dres, cpp_res, if_true]; ring
  | iota =>
    cases wt
    · simp [Cpp.drtil, Data.J, Cpp.w, cpp_B2, Data.dresidual_diota]
    · simp only [Cpp.drtil, Data.J, cpp_w_true, cpp_B2, Data.dresidual_diota, if_true]; ring
  | G =>
    cases wt
    · simp [Cpp.drtil, Data.J, Cpp.w]
    · simp only [Cpp.drtil, Data.J, cpp_w_true, if_true]

theorem cpp_d2B (d : Data n) (c : Fin 3) (m m' : Fin n) : Cpp.d2B d c m m' = d.d2B_dcdc c m m' := by
  unfold Cpp.d2B Data.d2B_dcdc
  simp only [Fin.sum_univ_three]
  ring

theorem cpp_d2B2 (d : Data n) (m m' : Fin n) : Cpp.d2B2 d m m' = d.d2B2_dcdc m m' := by
  unfold Cpp.d2B2 Data.d2B2_dcdc
  simp only [Fin.sum_univ_three, cpp_dB, cpp_d2B]
  ring

theorem cpp_d2res (d : Data n) (l : Fin 3) (m m' : Fin n) : Cpp.d2res d l m m' = d.d2residual_by_dcdc l m m' := by
  unfold Cpp.d2res Data.d2residual_by_dcdc Cpp.dtang
  simp only [cpp_d2B, cpp_d2B2, cpp_dB2]
  ring

theorem cpp_d2w (d : Data n) (h : d.B2 ≠ 0) (m m' : Fin n) : Cpp.d2w true d m m' = d.d2w_dc2 m m' := by
  have hm := (modB_pos h).ne'
  unfold Cpp.d2w Data.d2w_dc2 Cpp.d2modB Data.d2modB_dc2
  simp only [if_true, cpp_dmodB, cpp_B2, cpp_w_true, cpp_d2B2, cpp_dB2, B2_rpow h]
  show (_ - d.modB * _) * _ = _
  unfold Data.w
  generalize d.dmodB_dc m = p
  generalize d.dmodB_dc m' = p'
  generalize d.B2 = b
  field_simp

theorem cpp_d2rtil (wt : Bool) (d : Data n) (h : wt = true → d.B2 ≠ 0) (l : Fin 3) (a b : Col n) (hab : a.pos ≤ b.pos) : Cpp.d2rtil wt d l a b = d.H wt l a b := by
  cases a with
  | c m =>
    cases b with
    | c m' =>
      cases wt
      · simp [Cpp.d2rtil, Data.H, Cpp.w, Cpp.dw, Cpp.d2w, Data.d2rtil_dcdc, cpp_d2res]
      · simp only [Cpp.d2rtil, Data.H, Data.d2rtil_dcdc, cpp_w_true, cpp_dw, cpp_d2w d (h rfl), cpp_d2res, cpp_dres, cpp_res, if_true]; ring
    | iota =>
      cases wt
      · simp [Cpp.d2rtil, Data.H, Cpp.w, Cpp.dw, Data.d2rtil_dcdiota, Data.d2residual_by_dcdiota, cpp_dB2, cpp_B2]
      · simp only [Cpp.d2rtil, Data.H, Data.d2rtil_dcdiota, cpp_w_true, cpp_dw, cpp_dB2, cpp_B2, Data.d2residual_by_dcdiota, Data.dresidual_diota, if_true]; ring
    | G =>
      cases wt
      · simp [Cpp.d2rtil, Data.H, Cpp.w, Cpp.dw, Data.d2rtil_dcdG, cpp_dB]
      · simp only [Cpp.d2rtil, Data.H, Data.d2rtil_dcdG, cpp_w_true, cpp_dw, cpp_dB, if_true]; ring
  | iota =>
    cases b with
    | c m' => exact absurd hab (by have := m'.2; simp only [Col.pos]; omega)
    | iota => rfl
    | G => rfl
  | G =>
    cases b with
    | c m' => exact absurd hab (by have := m'.2; simp only [Col.pos]; omega)
    | iota => exact absurd hab (by simp only [Col.pos]; omega)
    | G => rfl

/-- The second derivatives of the residual are symmetric, if those of the field are. -/
theorem H_symm (wt : Bool) (d : Data n) (hs : ∀ k j l, d.d2B k j l = d.d2B j k l) (l : Fin 3) (a b : Col n) : d.H wt l a b = d.H wt l b a := by
  cases a with
  | c m =>
    cases b with
    | c m' =>
      have e1 : ∀ c, d.d2B_dcdc c m m' = d.d2B_dcdc c m' m := by
        intro c
        unfold Data.d2B_dcdc
        rw [Finset.sum_comm]
        refine Finset.sum_congr rfl fun k _ => Finset.sum_congr rfl fun j _ => ?_
        rw [hs]; ring
      have e2 : d.d2B2_dcdc m m' = d.d2B2_dcdc m' m := by
        simp only [Data.d2B2_dcdc, e1, mul_comm (d.dB_dc _ m)]
      have e3 : d.d2w_dc2 m m' = d.d2w_dc2 m' m := by
        simp only [Data.d2w_dc2, Data.d2modB_dc2, e2]
        ring
      have e4 : d.d2residual_by_dcdc l m m' = d.d2residual_by_dcdc l m' m := by
        simp only [Data.d2residual_by_dcdc, e1, e2]
        ring
      simp only [Data.H, Data.d2rtil_dcdc, e3, e4]
      split
      · ring
      · rfl
    | iota => rfl
    | G => rfl
  | iota => cases b <;> rfl
  | G => cases b <;> rfl

theorem cpp_upper (wt : Bool) (d : Data n) (h : wt = true → d.B2 ≠ 0) (a b : Col n) (hab : a.pos ≤ b.pos) :
    Cpp.upper wt d a b = ∑ l, (d.J wt l a * d.J wt l b + d.rtil wt l * d.H wt l a b) := by
  unfold Cpp.upper
  rw [Fin.sum_univ_three]
  simp only [cpp_drtil, cpp_rtil, cpp_d2rtil wt d h _ a b hab]
  ring

/-- **C115.** The vectorized function returns the same value, gradient and Hessian as `boozer_penalty_constraints` with `scalarize=True`, for every configuration with second derivatives of the field that are symmetric and, for the weighted residual, a field that does not vanish. -/
theorem C115_vectorized (wt : Bool) (cw : ℝ) (u : Col n → ℝ) (hB : wt = true → ∀ q, s.F (s.x u q) ≠ 0) (hs : ∀ q k j l, s.d2F (s.x u q) k j l = s.d2F (s.x u q) j k l) :
    s.vval wt cw u = s.val wt cw u ∧ (∀ a, s.vdval wt cw u a = s.dval wt cw u a) ∧ ∀ a b, s.vd2val wt cw u a b = s.d2val wt cw u a b := by
  have hN := N_pos s
  have hne := sqrt_num_ne hN
  have hsq : ((3 * N : ℕ) : ℝ) = √((3 * N : ℕ) : ℝ) * √((3 * N : ℕ) : ℝ) := by rw [Real.mul_self_sqrt (Nat.cast_nonneg _)]
  have hB2 : ∀ q, wt = true → (s.data u q).B2 ≠ 0 := fun q h => B2_ne s.toSetting u q (hB h q)
  have dd : ∀ x y : ℝ, x / √((3 * N : ℕ) : ℝ) * (y / √((3 * N : ℕ) : ℝ)) = x * y / ((3 * N : ℕ) : ℝ) := by
    intro x y
    conv_rhs => rw [hsq]
    rw [div_mul_div_comm]
  refine ⟨?_, ?_, ?_⟩
  · unfold BS.vval BS.val rowSum BS.rnl
    have e : ∀ q, Cpp.val wt (s.data u q) = 0.5 * ∑ l, (s.data u q).rtil wt l ^ 2 := by
      intro q
      unfold Cpp.val
      rw [Fin.sum_univ_three]
      simp only [cpp_rtil]
      ring
    have e2 : ∀ q l, s.r wt cw u (.bz q l) ^ 2 = (s.data u q).rtil wt l ^ 2 / ((3 * N : ℕ) : ℝ) := by
      intro q l
      rw [sq, sq]
      exact dd _ _
    simp only [e, e2, ← Finset.sum_div, ← Finset.mul_sum]
    show _ + 0.5 * s.r wt cw u .label ^ 2 + 0.5 * s.r wt cw u .z ^ 2 = _
    ring
  · intro a
    unfold BS.vdval BS.dval rowSum BS.Jnl
    have e : ∀ q, Cpp.dval wt (s.data u q) a = ∑ l, (s.data u q).rtil wt l * (s.data u q).J wt l a := by
      intro q
      unfold Cpp.dval
      rw [Fin.sum_univ_three]
      simp only [cpp_rtil, cpp_drtil]
    have e2 : ∀ q l, s.r wt cw u (.bz q l) * s.Jm wt cw u (.bz q l) a = (s.data u q).rtil wt l * (s.data u q).J wt l a / ((3 * N : ℕ) : ℝ) := fun q l => dd _ _
    simp only [e, e2, ← Finset.sum_div]
    show _ + s.r wt cw u .label * s.Jm wt cw u .label a + s.r wt cw u .z * s.Jm wt cw u .z a = _
    ring
  · intro a b
    unfold BS.vd2val BS.d2val rowSum
    have e : s.Hnl wt u a b = (∑ q, ∑ l, ((s.data u q).J wt l a * (s.data u q).J wt l b + (s.data u q).rtil wt l * (s.data u q).H wt l a b)) / ((3 * N : ℕ) : ℝ) := by
      unfold BS.Hnl
      congr 1
      by_cases hab : a.pos ≤ b.pos
      · rw [if_pos hab]
        exact Finset.sum_congr rfl fun q _ => cpp_upper wt _ (hB2 q) a b hab
      · rw [if_neg hab]
        refine Finset.sum_congr rfl fun q _ => ?_
        rw [cpp_upper wt _ (hB2 q) b a (by omega)]
        refine Finset.sum_congr rfl fun l _ => ?_
        rw [H_symm wt (s.data u q) (hs q) l a b]
        ring
    have e2 : ∀ q l, s.Jm wt cw u (.bz q l) a * s.Jm wt cw u (.bz q l) b = (s.data u q).J wt l a * (s.data u q).J wt l b / ((3 * N : ℕ) : ℝ) := fun q l => dd _ _
    have e3 : ∀ q l, s.r wt cw u (.bz q l) * s.Hm wt cw u (.bz q l) a b = (s.data u q).rtil wt l * (s.data u q).H wt l a b / ((3 * N : ℕ) : ℝ) := fun q l => dd _ _
    have e4 : pad2 (fun m m' => √cw * s.d2L (dofs u) m m') a b = s.Hm wt cw u .label a b := by
      show _ = √cw * pad2 _ a b
      cases a <;> cases b <;> simp [pad2]
    rw [e, e4]
    simp only [e2, e3, ← Finset.sum_div, Finset.sum_add_distrib, add_div]
    show _ + s.Jm wt cw u .label a * s.Jm wt cw u .label b + s.Jm wt cw u .z a * s.Jm wt cw u .z b + s.r wt cw u .label * s.Hm wt cw u .label a b = _
    have hz : s.Hm wt cw u .z a b = 0 := rfl
    rw [hz]
    ring

end

/-! ## The optimality conditions (C116) -/

/-- The unknowns of `boozer_exact_constraints`: those of the surface and the two multipliers (boozersurface.py L398-407). -/
inductive XCol (n : ℕ) where
  | u (a : Col n)
  | lm1
  | lm2
deriving DecidableEq

/-- The unknowns of the surface in `xl`. -/
def unk {n : ℕ} (xl : XCol n → ℝ) : Col n → ℝ := fun a => xl (.u a)

namespace BS
variable {N n : ℕ} (s : BS N n)

/-- boozersurface.py L413-427: the residual of the optimality conditions (the Boozer residual is neither weighted nor normalised there). -/
noncomputable def kkt (xl : XCol n → ℝ) : XCol n → ℝ
  | .u a => (∑ q, ∑ l, (s.data (unk xl) q).rtil false l * (s.data (unk xl) q).J false l a) - xl .lm1 * pad (s.dL (dofs (unk xl))) a - xl .lm2 * pad (s.gx s.q0 2) a
  | .lm1 => s.L (dofs (unk xl)) - s.target
  | .lm2 => s.x (unk xl) s.q0 2 - 0

/-- boozersurface.py L431-443: its Jacobian. -/
noncomputable def dkkt (xl : XCol n → ℝ) : XCol n → XCol n → ℝ
  | .u a, .u b => (∑ q, ∑ l, (s.data (unk xl) q).J false l a * (s.data (unk xl) q).J false l b) + (∑ q, ∑ l, (s.data (unk xl) q).rtil false l * (s.data (unk xl) q).H false l a b) - xl .lm1 * pad2 (s.d2L (dofs (unk xl))) a b
  | .u a, .lm1 => -pad (s.dL (dofs (unk xl))) a
  | .u a, .lm2 => -pad (s.gx s.q0 2) a
  | .lm1, .u b => pad (s.dL (dofs (unk xl))) b
  | .lm2, .u b => pad (s.gx s.q0 2) b
  | _, _ => 0

/-- The Lagrangian of the minimisation of half the sum of squares of the residuals, with the two constraints. -/
noncomputable def lagrangian (xl : XCol n → ℝ) : ℝ :=
  1 / 2 * (∑ q, ∑ l, s.boozer false (unk xl) q l ^ 2) - xl .lm1 * (s.L (dofs (unk xl)) - s.target) - xl .lm2 * s.x (unk xl) s.q0 2

end BS

section
variable {N n : ℕ} (s : BS N n)

theorem unk_update_u (xl : XCol n → ℝ) (a : Col n) (t : ℝ) : unk (Function.update xl (.u a) t) = Function.update (unk xl) a t := by
  funext b
  unfold unk
  by_cases h : b = a
  · subst h; simp
  · rw [Function.update_of_ne (by intro hh; exact h (XCol.u.inj hh)), Function.update_of_ne h]

theorem unk_update_lm1 (xl : XCol n → ℝ) (t : ℝ) : unk (Function.update xl .lm1 t) = unk xl := by
  funext b; unfold unk; rw [Function.update_of_ne (by simp)]

theorem unk_update_lm2 (xl : XCol n → ℝ) (t : ℝ) : unk (Function.update xl .lm2 t) = unk xl := by
  funext b; unfold unk; rw [Function.update_of_ne (by simp)]

/-- **C116.** The vector that `boozer_exact_constraints` returns holds the partial derivatives of the Lagrangian with respect to the unknowns of the surface, and the two constraints. -/
theorem C116_conditions (xl : XCol n → ℝ) (h1 : s.Regular1 false (unk xl)) (hL : s.LabelD1 (dofs (unk xl))) :
    (∀ a, HasDerivAt (fun t => s.lagrangian (Function.update xl (.u a) t)) (s.kkt xl (.u a)) (xl (.u a))) ∧
      s.kkt xl .lm1 = s.L (dofs (unk xl)) - s.target ∧ s.kkt xl .lm2 = s.x (unk xl) s.q0 2 := by
  refine ⟨fun a => ?_, rfl, sub_zero _⟩
  have e1 : ∀ t, Function.update xl (.u a) t .lm1 = xl .lm1 := fun t => Function.update_of_ne (by simp) _ _
  have e2 : ∀ t, Function.update xl (.u a) t .lm2 = xl .lm2 := fun t => Function.update_of_ne (by simp) _ _
  unfold BS.lagrangian
  simp only [e1, e2, unk_update_u]
  have hr : ∀ q l, HasDerivAt (fun t => s.boozer false (Function.update (unk xl) a t) q l) ((s.data (unk xl) q).J false l a) (unk xl a) :=
    fun q l => C113_jacobian s.toSetting false (unk xl) q l a (h1 q).1 (h1 q).2
  have hu : Function.update (unk xl) a (unk xl a) = unk xl := Function.update_eq_self _ _
  have h := (((HasDerivAt.fun_sum (u := Finset.univ) fun q _ => HasDerivAt.fun_sum (u := Finset.univ) fun l _ => (hr q l).fun_pow 2).const_mul (1 / 2)).fun_sub (((d_label s (unk xl) a hL).sub_const s.target).const_mul (xl .lm1))).fun_sub ((d_z s (unk xl) a).const_mul (xl .lm2))
  refine h.congr_deriv ?_
  simp only [hu, BS.kkt, ← rtil_eq_boozer]
  congr 2
  rw [Finset.mul_sum]
  refine Finset.sum_congr rfl fun q _ => ?_
  rw [Finset.mul_sum]
  refine Finset.sum_congr rfl fun l _ => ?_
  push_cast
  ring

/-- **C116.** The matrix that `boozer_exact_constraints` returns holds the partial derivatives of that vector. -/
theorem C116_jacobian (xl : XCol n → ℝ) (h1 : s.Regular1 false (unk xl)) (h2 : s.Regular2 (unk xl)) (hL : s.LabelD1 (dofs (unk xl))) (hL2 : s.LabelD2 (dofs (unk xl))) (i j : XCol n) :
    HasDerivAt (fun t => s.kkt (Function.update xl j t) i) (s.dkkt xl i j) (xl j) := by
  cases j with
  | u b =>
    have e1 : ∀ t, Function.update xl (.u b) t .lm1 = xl .lm1 := fun t => Function.update_of_ne (by simp) _ _
    have e2 : ∀ t, Function.update xl (.u b) t .lm2 = xl .lm2 := fun t => Function.update_of_ne (by simp) _ _
    have hu : Function.update (unk xl) b (unk xl b) = unk xl := Function.update_eq_self _ _
    cases i with
    | u a =>
      simp only [BS.kkt, e1, e2, unk_update_u]
      have hr : ∀ q l, HasDerivAt (fun t => (s.data (Function.update (unk xl) b t) q).rtil false l) ((s.data (unk xl) q).J false l b) (unk xl b) := by
        intro q l
        simp only [rtil_eq_boozer]
        exact C113_jacobian s.toSetting false (unk xl) q l b (h1 q).1 (h1 q).2
      have hJ : ∀ q l, HasDerivAt (fun t => (s.data (Function.update (unk xl) b t) q).J false l a) ((s.data (unk xl) q).H false l a b) (unk xl b) :=
        fun q l => C113_second_derivatives s.toSetting false (unk xl) q l a b (h1 q).1 (h2 q) (h1 q).2
      have h := ((HasDerivAt.fun_sum (u := Finset.univ) fun q _ => HasDerivAt.fun_sum (u := Finset.univ) fun l _ => (hr q l).fun_mul (hJ q l)).fun_sub ((d_dlabel s (unk xl) a b hL2).const_mul (xl .lm1))).sub_const (xl .lm2 * pad (s.gx s.q0 2) a)
      refine h.congr_deriv ?_
      simp only [hu, BS.dkkt, Finset.sum_add_distrib, mul_comm ((s.data (unk xl) _).J false _ b)]
    | lm1 =>
      simp only [BS.kkt, unk_update_u]
      exact (d_label s (unk xl) b hL).sub_const _
    | lm2 =>
      simp only [BS.kkt, unk_update_u]
      exact (d_z s (unk xl) b).sub_const _
  | lm1 =>
    have e2 : ∀ t, Function.update xl .lm1 t .lm2 = xl .lm2 := fun t => Function.update_of_ne (by simp) _ _
    cases i with
    | u a =>
      simp only [BS.kkt, e2, unk_update_lm1, Function.update_self]
      refine ((((hasDerivAt_id' (xl .lm1)).mul_const (pad (s.dL (dofs (unk xl))) a)).const_sub (∑ q, ∑ l, (s.data (unk xl) q).rtil false l * (s.data (unk xl) q).J false l a)).sub_const (xl .lm2 * pad (s.gx s.q0 2) a)).congr_deriv ?_
      simp [BS.dkkt]
    | lm1 => simp only [BS.kkt, unk_update_lm1]; exact hasDerivAt_const _ _
    | lm2 => simp only [BS.kkt, unk_update_lm1]; exact hasDerivAt_const _ _
  | lm2 =>
    have e1 : ∀ t, Function.update xl .lm2 t .lm1 = xl .lm1 := fun t => Function.update_of_ne (by simp) _ _
    cases i with
    | u a =>
      simp only [BS.kkt, e1, unk_update_lm2, Function.update_self]
      refine (((hasDerivAt_id' (xl .lm2)).mul_const (pad (s.gx s.q0 2) a)).const_sub ((∑ q, ∑ l, (s.data (unk xl) q).rtil false l * (s.data (unk xl) q).J false l a) - xl .lm1 * pad (s.dL (dofs (unk xl))) a)).congr_deriv ?_
      simp [BS.dkkt]
    | lm1 => simp only [BS.kkt, unk_update_lm2]; exact hasDerivAt_const _ _
    | lm2 => simp only [BS.kkt, unk_update_lm2]; exact hasDerivAt_const _ _

end
end Simsopt.BSurf
