import Verif.Surfaces.GenericProps
import Verif.QSRatio.Model
import Mathlib.Tactic.Module
/-!
# B_cartesian and parameter_derivatives (C170)

Model of src/simsopt/mhd/vmec_diagnostics.py L289-368 and src/simsopt/geo/surfaceobjectives.py L517-550.  Real numbers instead of doubles.  The arrays of the surface (built from the boundary coefficients of `wout`, C67) are a
`Shape`; quadrature points are pairs `(phi, theta)` in units of a full turn.
-/
namespace Simsopt.BCart
open Simsopt Simsopt.Coils Simsopt.Surface Simsopt.QSRatio
open Simsopt.Geometry hiding norm normal

/-- The last two half-grid columns of a contravariant component, with the modes (`xm_nyq`, `xn_nyq`). -/
structure Comp where
  modes : List (ℝ × ℝ)
  last : List ℝ
  prev : List ℝ

/-- `1.5 * c[:, -1] - 0.5 * c[:, -2]` (L357-358). -/
noncomputable def Comp.edge (c : Comp) : List ℝ := List.zipWith (fun a b => 1.5 * a - 0.5 * b) c.last c.prev

/-- The sum over the modes (L359-362) at the quadrature point `(phi, theta)`. -/
noncomputable def Comp.val (c : Comp) (p : ℝ × ℝ) : ℝ :=
  ((c.modes.zip c.edge).map fun q => q.2 * Real.cos (q.1.1 * (p.2 * (2 * Real.pi)) - q.1.2 * (p.1 * (2 * Real.pi)))).sum

/-- `(Bsupv dgamma1 + Bsupu dgamma2) / (2 pi)` (L364-366). -/
noncomputable def field (S : Shape (ℝ × ℝ)) (u v : Comp) (p : ℝ × ℝ) : V3 :=
  ((v.val p * (S.g1 p).1 + u.val p * (S.g2 p).1) / (2 * Real.pi), (v.val p * (S.g1 p).2.1 + u.val p * (S.g2 p).2.1) / (2 * Real.pi), (v.val p * (S.g1 p).2.2 + u.val p * (S.g2 p).2.2) / (2 * Real.pi))

/-- `B_cartesian` (L324-368) on a grid: asymmetric equilibria are refused. -/
noncomputable def bCartesian (lasym : Bool) (S : Shape (ℝ × ℝ)) (u v : Comp) (phis thetas : List ℝ) : Except Err (List (List V3)) :=
  if lasym then .error .runtimeError else .ok (phis.map fun ph => thetas.map fun th => field S u v (ph, th))

/-- The grid of one angle (L329-341): explicit points first, then a number of points, then the points of the boundary. -/
def pickGrid (quad : Option (List ℝ)) (n : Option ℕ) (points : ℕ → List ℝ) (boundary : List ℝ) : List ℝ :=
  match n, quad with
  | none, none => boundary
  | some n, none => points n
  | _, some q => q

/-- `parameter_derivatives` (surfaceobjectives.py L517-550): the entry of the dof with Jacobian columns `D`. -/
noncomputable def paramDeriv {P : Type} (S D : Shape P) (G : P → ℝ) (pts : List P) : ℝ := (pts.map fun p => inner (normal S p) (D.x p) * G p).sum / pts.length

/-! ### Theorems -/

/-- **C170**: the field is tangent to the boundary, and its components along the coordinate lines `d x / d theta`, `d x / d phi` (angles from 0 to `2 pi`) are the contravariant components. -/
theorem C170_tangent (S : Shape (ℝ × ℝ)) (u v : Comp) (p : ℝ × ℝ) :
    inner (field S u v p) (normal S p) = 0 ∧ field S u v p = u.val p • ((1 / (2 * Real.pi)) • S.g2 p) + v.val p • ((1 / (2 * Real.pi)) • S.g1 p) := by
  constructor
  · simp only [field, normal, inner]; ring
  · refine Prod.ext ?_ (Prod.ext ?_ ?_) <;> simp only [field, Prod.fst_add, Prod.snd_add, Prod.smul_fst, Prod.smul_snd, smul_eq_mul] <;> ring

/-- **C170**: a component that is linear in the flux near the edge is extrapolated exactly from the two last half-grid surfaces (`s = 1 - ds/2` and `s = 1 - 3 ds/2`) to `s = 1`. -/
theorem C170_edge (modes : List (ℝ × ℝ)) (a b : List ℝ) (ds : ℝ) (hl : a.length = b.length) :
    (Comp.mk modes (List.zipWith (fun x y => x + y * (1 - ds / 2)) a b) (List.zipWith (fun x y => x + y * (1 - 3 * ds / 2)) a b)).edge = List.zipWith (fun x y => x + y * 1) a b := by
  unfold Comp.edge
  simp only
  induction a generalizing b with
  | nil => simp
  | cons x a ih =>
    cases b with
    | nil => simp at hl
    | cons y b =>
      simp only [List.zipWith_cons_cons]
      rw [ih b (by simpa using hl)]
      congr 1
      ring

theorem val_neg (c : Comp) (p : ℝ × ℝ) : c.val (-p.1, -p.2) = c.val p := by
  unfold Comp.val
  congr 1
  refine List.map_congr_left fun q _ => ?_
  congr 1
  rw [← Real.cos_neg]
  congr 1
  ring

/-- **C170**: on a stellarator-symmetric boundary the field has the symmetry of a stellarator: at the image `(x, -y, -z)` of a point it is `(-B_x, B_y, B_z)`. -/
theorem C170_symmetry (S : Shape (ℝ × ℝ)) (u v : Comp) (p : ℝ × ℝ) (hx : ∀ q : ℝ × ℝ, S.x (-q.1, -q.2) = ((S.x q).1, -(S.x q).2.1, -(S.x q).2.2))
    (h1 : ∀ q : ℝ × ℝ, HasDerivAt (fun t => S.x (t, q.2)) (S.g1 q) q.1) (h2 : ∀ q : ℝ × ℝ, HasDerivAt (fun t => S.x (q.1, t)) (S.g2 q) q.2) :
    field S u v (-p.1, -p.2) = (-(field S u v p).1, (field S u v p).2.1, (field S u v p).2.2) := by
  have flip : ∀ (f : ℝ → V3) (f' : V3) (t : ℝ), HasDerivAt f f' t → HasDerivAt (fun s => ((f s).1, -(f s).2.1, -(f s).2.2)) (f'.1, -f'.2.1, -f'.2.2) t := fun f f' t h =>
    (Simsopt.Geometry.d_fst h).prodMk ((Simsopt.Geometry.d_snd h).fun_neg.prodMk (Simsopt.Geometry.d_trd h).fun_neg)
  have e1 : S.g1 (-p.1, -p.2) = -((S.g1 p).1, -(S.g1 p).2.1, -(S.g1 p).2.2) := by
    have a := h1 (-p.1, -p.2)
    have b : HasDerivAt (fun t => S.x (t, -p.2)) (-((S.g1 p).1, -(S.g1 p).2.1, -(S.g1 p).2.2)) (-p.1) := by
      have c := flip _ _ _ (h1 p)
      have d : HasDerivAt (fun t : ℝ => -t) (-1) (-p.1) := hasDerivAt_neg (-p.1)
      have e := HasDerivAt.scomp (h := fun t : ℝ => -t) (-p.1) (by rw [neg_neg]; exact c) d
      have fe : (fun t => S.x (t, -p.2)) = (fun s => ((S.x (s, p.2)).1, -(S.x (s, p.2)).2.1, -(S.x (s, p.2)).2.2)) ∘ fun t : ℝ => -t := by
        funext t
        have := hx (-t, p.2)
        simp only [neg_neg] at this
        exact this
      rw [fe]
      exact e.congr_deriv (by simp)
    exact a.unique b
  have e2 : S.g2 (-p.1, -p.2) = -((S.g2 p).1, -(S.g2 p).2.1, -(S.g2 p).2.2) := by
    have a := h2 (-p.1, -p.2)
    have b : HasDerivAt (fun t => S.x (-p.1, t)) (-((S.g2 p).1, -(S.g2 p).2.1, -(S.g2 p).2.2)) (-p.2) := by
      have c := flip _ _ _ (h2 p)
      have d : HasDerivAt (fun t : ℝ => -t) (-1) (-p.2) := hasDerivAt_neg (-p.2)
      have e := HasDerivAt.scomp (h := fun t : ℝ => -t) (-p.2) (by rw [neg_neg]; exact c) d
      have fe : (fun t => S.x (-p.1, t)) = (fun s => ((S.x (p.1, s)).1, -(S.x (p.1, s)).2.1, -(S.x (p.1, s)).2.2)) ∘ fun t : ℝ => -t := by
        funext t
        have := hx (p.1, -t)
        simp only [neg_neg] at this
        exact this
      rw [fe]
      exact e.congr_deriv (by simp)
    exact a.unique b
  unfold field
  rw [val_neg, val_neg, e1, e2]
  refine Prod.ext ?_ (Prod.ext ?_ ?_) <;> simp only [Prod.fst_neg, Prod.snd_neg] <;> ring

/-- **C170**: with mode numbers `xn` that are multiples of `nfp`, the components repeat after a field period. -/
theorem C170_period (c : Comp) (nfp : ℕ) (hn : 0 < nfp) (hm : ∀ q ∈ c.modes, ∃ k : ℤ, q.2 = k * nfp) (p : ℝ × ℝ) : c.val (p.1 + 1 / nfp, p.2) = c.val p := by
  unfold Comp.val
  congr 1
  refine List.map_congr_left fun q hq => ?_
  obtain ⟨k, hk⟩ := hm q.1 (List.of_mem_zip (a := q.1) (b := q.2) hq).1
  congr 1
  rw [← Real.cos_sub_int_mul_two_pi (q.1.1 * (p.2 * (2 * Real.pi)) - q.1.2 * (p.1 * (2 * Real.pi))) k, hk]
  congr 1
  have : (nfp : ℝ) ≠ 0 := by positivity
  field_simp
  ring

/-- **C170**: the result is an array over the grid (toroidal index first); asymmetric equilibria are refused; the grid of each angle is the given points, or as many points as asked for, or that of the boundary. -/
theorem C170_grid (S : Shape (ℝ × ℝ)) (u v : Comp) (phis thetas : List ℝ) (q : List ℝ) (n : ℕ) (nn : Option ℕ) (points : ℕ → List ℝ) (boundary : List ℝ) :
    bCartesian true S u v phis thetas = .error .runtimeError ∧
    (∃ B, bCartesian false S u v phis thetas = .ok B ∧ B.length = phis.length ∧ ∀ (i j : ℕ) (ph th : ℝ), phis[i]? = some ph → thetas[j]? = some th → (B[i]?.bind (·[j]?)) = some (field S u v (ph, th))) ∧
    pickGrid none none points boundary = boundary ∧ pickGrid none (some n) points boundary = points n ∧ pickGrid (some q) nn points boundary = q := by
  refine ⟨rfl, ⟨_, rfl, by simp, fun i j ph th h1 h2 => by simp [h1, h2]⟩, rfl, rfl, by cases nn <;> rfl⟩

/-- **C170**: `parameter_derivatives` is the documented surface integral of `G` times the normal component of the displacement, by the quadrature of `Surface.area`. -/
theorem C170_integral {P : Type} (S D : Shape P) (G : P → ℝ) (pts : List P) (h0 : ∀ p ∈ pts, normal S p ≠ 0) :
    paramDeriv S D G pts = (pts.map fun p => len (normal S p) * (G p * inner (D.x p) (unitnormal S p))).sum / pts.length := by
  unfold paramDeriv
  congr 2
  refine List.map_congr_left fun p hp => ?_
  have hl : len (normal S p) ≠ 0 := by rw [len_norm]; exact (Geometry.norm_pos _ (h0 p hp)).ne'
  simp only [unitnormal, inner]
  field_simp

/-- **C170**: it is linear in the shape gradient and in the displacement, zero for displacements within the surface, and for `G = 1` and the unit normal as displacement it is the area. -/
theorem C170_linear {P : Type} (S D D' : Shape P) (G G' : P → ℝ) (c : ℝ) (pts : List P) :
    paramDeriv S D (fun p => G p + c * G' p) pts = paramDeriv S D G pts + c * paramDeriv S D G' pts ∧
    ((∀ p, D'.x p = D.x p + c • D.x p) → paramDeriv S D' G pts = (1 + c) * paramDeriv S D G pts) ∧
    ((∀ p ∈ pts, ∃ a b : ℝ, D.x p = a • S.g1 p + b • S.g2 p) → paramDeriv S D G pts = 0) ∧
    ((∀ p ∈ pts, normal S p ≠ 0) → (∀ p, D.x p = unitnormal S p) → paramDeriv S D (fun _ => 1) pts = area S pts) := by
  refine ⟨?_, fun h => ?_, fun h => ?_, fun h0 h => ?_⟩
  · unfold paramDeriv
    have : (pts.map fun p => inner (normal S p) (D.x p) * (G p + c * G' p)).sum = (pts.map fun p => inner (normal S p) (D.x p) * G p).sum + c * (pts.map fun p => inner (normal S p) (D.x p) * G' p).sum := by
      induction pts with
      | nil => simp
      | cons p pts ih => simp only [List.map_cons, List.sum_cons, ih]; ring
    rw [this]; ring
  · unfold paramDeriv
    have : (pts.map fun p => inner (normal S p) (D'.x p) * G p).sum = (1 + c) * (pts.map fun p => inner (normal S p) (D.x p) * G p).sum := by
      rw [← List.sum_map_mul_left]
      congr 1
      refine List.map_congr_left fun p _ => ?_
      rw [h p]
      simp only [inner, Prod.fst_add, Prod.snd_add, Prod.smul_fst, Prod.smul_snd, smul_eq_mul]
      ring
    rw [this]; ring
  · unfold paramDeriv
    have : (pts.map fun p => inner (normal S p) (D.x p) * G p) = pts.map fun _ => 0 := by
      refine List.map_congr_left fun p hp => ?_
      obtain ⟨a, b, e⟩ := h p hp
      rw [e]
      simp only [inner, normal, Prod.fst_add, Prod.snd_add, Prod.smul_fst, Prod.smul_snd, smul_eq_mul]
      ring
    rw [this]; simp
  · unfold paramDeriv area
    congr 2
    refine List.map_congr_left fun p hp => ?_
    have hl : len (normal S p) ≠ 0 := by rw [len_norm]; exact (Geometry.norm_pos _ (h0 p hp)).ne'
    have hsq : len (normal S p) * len (normal S p) = (normal S p).1 * (normal S p).1 + (normal S p).2.1 * (normal S p).2.1 + (normal S p).2.2 * (normal S p).2.2 :=
      Real.mul_self_sqrt (by nlinarith [mul_self_nonneg (normal S p).1, mul_self_nonneg (normal S p).2.1, mul_self_nonneg (normal S p).2.2])
    rw [h p, mul_one]
    simp only [unitnormal, inner]
    field_simp
    rw [sq (len _), hsq]
    ring

/-- **C170**: for an objective that is a sum over the points of functions of the position with gradient `G n` (the weights of the quadrature), `parameter_derivatives` is its derivative in the dof. -/
theorem C170_chain {P : Type} (S : ℝ → Shape P) (D : Shape P) (t : ℝ) (h : Along S D t) (phi : P → V3 → ℝ) (G : P → ℝ) (pts : List P)
    (hphi : ∀ p ∈ pts, ∀ x : ℝ → V3, ∀ x' : V3, HasDerivAt x x' t → x t = (S t).x p → HasDerivAt (fun s => phi p (x s)) (G p * inner (normal (S t) p) x') t) :
    HasDerivAt (fun s => mean (fun p => phi p ((S s).x p)) pts) (paramDeriv (S t) D G pts) t := by
  unfold mean paramDeriv
  refine HasDerivAt.div_const ?_ _
  induction pts with
  | nil => simpa using hasDerivAt_const t (0 : ℝ)
  | cons p pts ih =>
    simp only [List.map_cons, List.sum_cons]
    refine HasDerivAt.fun_add ?_ (ih fun q hq => hphi q (by simp [hq]))
    rw [mul_comm]
    exact hphi p (by simp) _ _ (h p).1 rfl

/-- The hypotheses of `C170_symmetry` are met by a cylinder around the x axis. -/
example : ∃ S : Shape (ℝ × ℝ), (∀ q : ℝ × ℝ, S.x (-q.1, -q.2) = ((S.x q).1, -(S.x q).2.1, -(S.x q).2.2)) ∧ (∀ q : ℝ × ℝ, HasDerivAt (fun t => S.x (t, q.2)) (S.g1 q) q.1) ∧ (∀ q : ℝ × ℝ, HasDerivAt (fun t => S.x (q.1, t)) (S.g2 q) q.2) ∧
    ∀ q, normal S q ≠ 0 := by
  refine ⟨⟨fun q => (Real.cos q.1, Real.sin q.1, q.2), fun q => (-Real.sin q.1, Real.cos q.1, 0), fun _ => (0, 0, 1), fun _ => 0, fun _ => 0, fun _ => 0⟩, fun q => ?_, fun q => ?_, fun q => ?_, fun q h => ?_⟩
  · simp
  · exact (Real.hasDerivAt_cos q.1).prodMk ((Real.hasDerivAt_sin q.1).prodMk (hasDerivAt_const q.1 q.2))
  · exact (hasDerivAt_const q.2 (Real.cos q.1)).prodMk ((hasDerivAt_const q.2 (Real.sin q.1)).prodMk (hasDerivAt_id q.2))
  · have h1 : Real.cos q.1 * 1 - 0 * 0 = 0 := congrArg Prod.fst h
    have h2 : 0 * 0 - -Real.sin q.1 * 1 = 0 := congrArg (fun v : V3 => v.2.1) h
    have := Real.sin_sq_add_cos_sq q.1
    have h3 : Real.cos q.1 = 0 := by linarith
    have h4 : Real.sin q.1 = 0 := by linarith
    rw [h3, h4] at this
    norm_num at this

/-- The hypotheses of `C170_chain` are met by functions that are linear in the position. -/
example {P : Type} (S : ℝ → Shape P) (t : ℝ) (G : P → ℝ) (p : P) (x : ℝ → V3) (x' : V3) (h : HasDerivAt x x' t) :
    HasDerivAt (fun s => G p * inner (normal (S t) p) (x s)) (G p * inner (normal (S t) p) x') t := by
  have := (Simsopt.Geometry.d_inner (hasDerivAt_const t (normal (S t) p)) h).const_mul (G p)
  refine this.congr_deriv ?_
  simp [inner]

end Simsopt.BCart
