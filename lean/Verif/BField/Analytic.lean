import Verif.Tracing.Rhs
import Mathlib.Analysis.SpecialFunctions.Trigonometric.Deriv
import Mathlib.Analysis.Calculus.Deriv.Abs
/-!
# `BoozerAnalytic` (C138): src/simsopt/field/boozermagneticfield.py L110-299

Points are `(s, θ, ζ)` (`P3 = Fin 3 → ℝ`, from Verif.Tracing).
-/
namespace Simsopt.BField
open Tracing Fields

/-- The attributes of a `BoozerAnalytic` (boozermagneticfield.py L150-164). -/
structure Params where
  etabar : ℝ
  B0 : ℝ
  N : ℝ
  G0 : ℝ
  psi0 : ℝ
  iota0 : ℝ
  Bbar : ℝ
  I0 : ℝ
  G1 : ℝ
  I1 : ℝ
  K1 : ℝ

namespace Params
variable (a : Params)

/-- `psi = s*self.psi0` and `r = np.sqrt(np.abs(2*psi/self.Bbar))` (L241-242 and in every method below). -/
noncomputable def r (p : P3) : ℝ := √|2 * (p 0 * a.psi0) / a.Bbar|

/-- `thetas-self.N*zetas` -/
def chi (p : P3) : ℝ := p 1 - a.N * p 2

/-- `_psip_impl` (L209-212). -/
def psip (s : ℝ) : ℝ := a.psi0 * s * a.iota0
/-- `_iota_impl` (L214-215). -/
def iota (_ : ℝ) : ℝ := a.iota0
/-- `_diotads_impl` (L217-218). -/
def diotads (_ : Params) (_ : ℝ) : ℝ := 0
/-- `_G_impl` (L220-223). -/
def G (s : ℝ) : ℝ := a.G0 + s * a.G1
/-- `_dGds_impl` (L225-226). -/
def dGds (_ : ℝ) : ℝ := a.G1
/-- `_I_impl` (L228-231). -/
def I (s : ℝ) : ℝ := a.I0 + s * a.I1
/-- `_dIds_impl` (L233-234). -/
def dIds (_ : ℝ) : ℝ := a.I1
/-- `_modB_impl` (L236-243). -/
noncomputable def modB (p : P3) : ℝ := a.B0 * (1 + a.etabar * a.r p * Real.cos (a.chi p))
/-- `_dmodBds_impl` (L245-254): `drdpsi = 0.5*r/psi`, `drds = drdpsi*self.psi0`. -/
noncomputable def dmodBds (p : P3) : ℝ :=
  let drdpsi := 0.5 * a.r p / (p 0 * a.psi0)
  let drds := drdpsi * a.psi0
  a.B0 * a.etabar * drds * Real.cos (a.chi p)
/-- `_dmodBdtheta_impl` (L256-263). -/
noncomputable def dmodBdtheta (p : P3) : ℝ := -a.B0 * a.etabar * a.r p * Real.sin (a.chi p)
/-- `_dmodBdzeta_impl` (L265-272). -/
noncomputable def dmodBdzeta (p : P3) : ℝ := a.N * a.B0 * a.etabar * a.r p * Real.sin (a.chi p)
/-- `_K_impl` (L274-281). -/
noncomputable def K (p : P3) : ℝ := a.K1 * a.r p * Real.sin (a.chi p)
/-- `_dKdtheta_impl` (L283-290). -/
noncomputable def dKdtheta (p : P3) : ℝ := a.K1 * a.r p * Real.cos (a.chi p)
/-- `_dKdzeta_impl` (L292-299). -/
noncomputable def dKdzeta (p : P3) : ℝ := -a.N * a.K1 * a.r p * Real.cos (a.chi p)

end Params

/-- The arrays a user can ask for. -/
inductive Quantity
  | psip | iota | diotads | G | dGds | I | dIds | modB | dmodBds | dmodBdtheta | dmodBdzeta | modBderivs | K | dKdtheta | dKdzeta | Kderivs
  deriving DecidableEq

/-- The row of an array that belongs to the point `p`. `_modB_derivs_impl` and `_K_derivs_impl` (L85-92) fill their columns with the other arrays. -/
noncomputable def Params.row (a : Params) (p : P3) : Quantity → List ℝ
  | .psip => [a.psip (p 0)]
  | .iota => [a.iota (p 0)]
  | .diotads => [a.diotads (p 0)]
  | .G => [a.G (p 0)]
  | .dGds => [a.dGds (p 0)]
  | .I => [a.I (p 0)]
  | .dIds => [a.dIds (p 0)]
  | .modB => [a.modB p]
  | .dmodBds => [a.dmodBds p]
  | .dmodBdtheta => [a.dmodBdtheta p]
  | .dmodBdzeta => [a.dmodBdzeta p]
  | .modBderivs => [a.dmodBds p, a.dmodBdtheta p, a.dmodBdzeta p]
  | .K => [a.K p]
  | .dKdtheta => [a.dKdtheta p]
  | .dKdzeta => [a.dKdzeta p]
  | .Kderivs => [a.dKdtheta p, a.dKdzeta p]

/-- The object: the Python attributes, the member `psi0` of the C++ base class (boozermagneticfield.h L26), the points and the cached arrays (L64-71). -/
structure Obj where
  py : Params
  cppPsi0 : ℝ
  points : List P3
  cache : Quantity → Option (List (List ℝ))

/-- `__init__` (boozermagneticfield.py L150-163, L73-75) and the C++ constructor (boozermagneticfield.h L76-79), which sets the single point `(0,0,0)`. -/
noncomputable def Obj.init (a : Params) : Obj := ⟨a, a.psi0, [0], fun _ => none⟩

/-- `invalidate_cache` (boozermagneticfield.h L81-116). -/
def Obj.invalidate (o : Obj) : Obj := { o with cache := fun _ => none }

/-- What a user can do with the object. -/
inductive Op
  | etabar (x : ℝ) | B0 (x : ℝ) | Bbar (x : ℝ) | N (x : ℝ) | G0 (x : ℝ) | I0 (x : ℝ) | G1 (x : ℝ) | I1 (x : ℝ) | K1 (x : ℝ) | iota0 (x : ℝ) | psi0 (x : ℝ)
  /-- `set_points` (boozermagneticfield.h L118-126) -/
  | points (p : List P3)
  /-- asking for an array -/
  | get (q : Quantity)

/-- `modB()` and the like: the cached array, or else a new one, which is kept (`CachedTensor::get_or_create_and_fill`). -/
noncomputable def Obj.get (o : Obj) (q : Quantity) : List (List ℝ) × Obj :=
  match o.cache q with
  | some v => (v, o)
  | none =>
    let v := o.points.map fun p => o.py.row p q
    (v, { o with cache := Function.update o.cache q (some v) })

/-- One operation; the setters are L165-207. -/
noncomputable def Obj.step (o : Obj) : Op → Obj
  | .etabar x => let o := o.invalidate; { o with py := { o.py with etabar := x } }
  | .B0 x => let o := o.invalidate; { o with py := { o.py with B0 := x } }
  | .Bbar x => let o := o.invalidate; { o with py := { o.py with Bbar := x } }
  | .N x => let o := o.invalidate; { o with py := { o.py with N := x } }
  | .G0 x => let o := o.invalidate; { o with py := { o.py with G0 := x } }
  | .I0 x => let o := o.invalidate; { o with py := { o.py with I0 := x } }
  | .G1 x => let o := o.invalidate; { o with py := { o.py with G1 := x } }
  | .I1 x => let o := o.invalidate; { o with py := { o.py with I1 := x } }
  | .K1 x => let o := o.invalidate; { o with py := { o.py with K1 := x } }
  | .iota0 x => let o := o.invalidate; { o with py := { o.py with iota0 := x } }
  | .psi0 x => let o := o.invalidate; { o with py := { o.py with psi0 := x } }
  | .points p => { o.invalidate with points := p }
  | .get q => (o.get q).2

/-- A history. -/
noncomputable def Obj.run (o : Obj) (ops : List Op) : Obj := ops.foldl Obj.step o

/-- What the right-hand sides of tracing.cpp read from the object: `field->psi0` is the C++ member (tracing.cpp L115, L169, L229). -/
noncomputable def Obj.field (o : Obj) : BoozerField where
  psi0 := o.cppPsi0
  modB := o.py.modB
  dmodB p := ![o.py.dmodBds p, o.py.dmodBdtheta p, o.py.dmodBdzeta p]
  G := o.py.G
  I := o.py.I
  dGds := o.py.dGds
  dIds := o.py.dIds
  iota := o.py.iota
  K := o.py.K
  dKdtheta := o.py.dKdtheta
  dKdzeta := o.py.dKdzeta

/-! ## Specification -/

/-- What the parameters are after a history: the last value set, the given one if none was set. -/
def Params.after (a : Params) : List Op → Params
  | [] => a
  | .etabar x :: l => Params.after { a with etabar := x } l
  | .B0 x :: l => Params.after { a with B0 := x } l
  | .Bbar x :: l => Params.after { a with Bbar := x } l
  | .N x :: l => Params.after { a with N := x } l
  | .G0 x :: l => Params.after { a with G0 := x } l
  | .I0 x :: l => Params.after { a with I0 := x } l
  | .G1 x :: l => Params.after { a with G1 := x } l
  | .I1 x :: l => Params.after { a with I1 := x } l
  | .K1 x :: l => Params.after { a with K1 := x } l
  | .iota0 x :: l => Params.after { a with iota0 := x } l
  | .psi0 x :: l => Params.after { a with psi0 := x } l
  | .points _ :: l => Params.after a l
  | .get _ :: l => Params.after a l

/-- The points after a history: those last set. -/
def pointsAfter (P : List P3) : List Op → List P3
  | [] => P
  | .points p :: l => pointsAfter p l
  | _ :: l => pointsAfter P l

/-! ## The theorems -/

theorem d_r (a : Params) (s : ℝ) (hs : s ≠ 0) (hψ : a.psi0 ≠ 0) (hB : a.Bbar ≠ 0) :
    HasDerivAt (fun s => √|2 * (s * a.psi0) / a.Bbar|) (0.5 * √|2 * (s * a.psi0) / a.Bbar| / (s * a.psi0) * a.psi0) s := by
  have hx : 2 * (s * a.psi0) / a.Bbar ≠ 0 := by
    have : s * a.psi0 ≠ 0 := mul_ne_zero hs hψ
    exact div_ne_zero (mul_ne_zero two_ne_zero this) hB
  have h1 : HasDerivAt (fun s => 2 * (s * a.psi0) / a.Bbar) (2 * (1 * a.psi0) / a.Bbar) s :=
    (((hasDerivAt_id s).mul_const a.psi0).const_mul 2).div_const a.Bbar
  have h2 : HasDerivAt (fun s => |2 * (s * a.psi0) / a.Bbar|) _ s := HasDerivAt.comp (h₂ := fun y : ℝ => |y|) (h := fun s => 2 * (s * a.psi0) / a.Bbar) s (hasDerivAt_abs hx) h1
  have h3 := h2.sqrt (abs_ne_zero.2 hx)
  refine h3.congr_deriv ?_
  have hp : 0 < √|2 * (s * a.psi0) / a.Bbar| := Real.sqrt_pos.2 (abs_pos.2 hx)
  have e1 : √|2 * (s * a.psi0) / a.Bbar| ^ 2 = (SignType.sign (2 * (s * a.psi0) / a.Bbar) : ℝ) * (2 * (s * a.psi0) / a.Bbar) := by
    rw [Real.sq_sqrt (abs_nonneg _), sign_mul_self]
  generalize √|2 * (s * a.psi0) / a.Bbar| = w at *
  generalize (SignType.sign (2 * (s * a.psi0) / a.Bbar) : ℝ) = σ at *
  field_simp at e1 ⊢
  linear_combination -(1/2) * e1

/-- The gradient of `c0 + c1 r(s) f(θ - N ζ)`. -/
theorem grad_form (a : Params) (p : P3) (hs : p 0 ≠ 0) (hψ : a.psi0 ≠ 0) (hB : a.Bbar ≠ 0) (c0 c1 f' : ℝ) (f : ℝ → ℝ) (hf : HasDerivAt f f' (a.chi p)) :
    IsGrad (fun p => c0 + c1 * (a.r p * f (a.chi p))) p
      ![c1 * (0.5 * a.r p / (p 0 * a.psi0) * a.psi0 * f (a.chi p)), c1 * (a.r p * f'), c1 * (a.r p * (-a.N * f'))] := by
  let P := fun i : Fin 3 => (ContinuousLinearMap.proj i : P3 →L[ℝ] ℝ)
  have hP : ∀ (i : Fin 3), HasFDerivAt (fun x : P3 => x i) (P i) p := fun i => hasFDerivAt_apply (𝕜 := ℝ) i p
  have h1 : HasFDerivAt (fun x : P3 => a.r x) _ p := HasDerivAt.comp_hasFDerivAt (h₂ := fun s => √|2 * (s * a.psi0) / a.Bbar|) (f := fun x : P3 => x 0) p (d_r a (p 0) hs hψ hB) (hP 0)
  have h2 : HasFDerivAt (fun x : P3 => a.chi x) _ p := (hP 1).sub ((hP 2).const_mul a.N)
  have h3 : HasFDerivAt (fun x : P3 => f (a.chi x)) _ p := hf.comp_hasFDerivAt p h2
  refine ⟨_, ((h1.mul h3).const_mul c1).const_add c0, fun i => ?_⟩
  fin_cases i
  · simp [P, Params.r]; ring_nf; simp
  · simp [P]
  · simp [P]; ring_nf; simp

/-- **C138.** `modB_derivs` is the gradient of `modB`, everywhere but on the axis. -/
theorem C138_modB_gradient (a : Params) (p : P3) (hs : p 0 ≠ 0) (hψ : a.psi0 ≠ 0) (hB : a.Bbar ≠ 0) :
    IsGrad a.modB p ![a.dmodBds p, a.dmodBdtheta p, a.dmodBdzeta p] := by
  obtain ⟨D, hD, hd⟩ := grad_form a p hs hψ hB a.B0 (a.B0 * a.etabar) (-Real.sin (a.chi p)) Real.cos (Real.hasDerivAt_cos _)
  refine ⟨D, hD.congr_of_eventuallyEq (Filter.Eventually.of_forall fun x => ?_), fun i => ?_⟩
  · simp only [Params.modB]; ring
  · rw [hd]
    fin_cases i <;> simp [Params.dmodBds, Params.dmodBdtheta, Params.dmodBdzeta] <;> ring

/-- **C138.** `K_derivs` are the derivatives of `K` in the angles, everywhere but on the axis. -/
theorem C138_K_derivatives (a : Params) (p : P3) (hs : p 0 ≠ 0) (hψ : a.psi0 ≠ 0) (hB : a.Bbar ≠ 0) :
    ∃ ds, IsGrad a.K p ![ds, a.dKdtheta p, a.dKdzeta p] := by
  obtain ⟨D, hD, hd⟩ := grad_form a p hs hψ hB 0 a.K1 (Real.cos (a.chi p)) Real.sin (Real.hasDerivAt_sin _)
  refine ⟨D (Pi.single 0 1), D, hD.congr_of_eventuallyEq (Filter.Eventually.of_forall fun x => ?_), fun i => ?_⟩
  · simp only [Params.K]; ring
  · fin_cases i
    · simp
    · simp [hd, Params.dKdtheta]; ring
    · simp [hd, Params.dKdzeta]; ring

/-- **C138.** The columns of the arrays: `modB_derivs` holds the derivatives in `s`, `θ`, `ζ` in this order, `K_derivs` those in `θ`, `ζ`. -/
theorem C138_columns (a : Params) (p : P3) (hs : p 0 ≠ 0) (hψ : a.psi0 ≠ 0) (hB : a.Bbar ≠ 0) :
    (∃ g, IsGrad a.modB p g ∧ a.row p .modBderivs = [g 0, g 1, g 2]) ∧ ∃ g, IsGrad a.K p g ∧ a.row p .Kderivs = [g 1, g 2] := by
  obtain ⟨d, hd⟩ := C138_K_derivatives a p hs hψ hB
  exact ⟨⟨_, C138_modB_gradient a p hs hψ hB, by simp [Params.row]⟩, _, hd, by simp [Params.row]⟩

/-- **C138.** The derivatives of the flux functions, and `iota = dψ_pol/dψ` with `ψ = ψ₀ s`. -/
theorem C138_profiles (a : Params) (s : ℝ) :
    HasDerivAt a.G (a.dGds s) s ∧ HasDerivAt a.I (a.dIds s) s ∧ HasDerivAt a.iota (a.diotads s) s ∧ HasDerivAt a.psip (a.iota s * a.psi0) s := by
  refine ⟨?_, ?_, hasDerivAt_const s _, ?_⟩
  · exact (((hasDerivAt_id s).mul_const a.G1).const_add a.G0).congr_deriv (by simp [Params.dGds])
  · exact (((hasDerivAt_id s).mul_const a.I1).const_add a.I0).congr_deriv (by simp [Params.dIds])
  · exact (((hasDerivAt_id s).const_mul a.psi0).mul_const a.iota0).congr_deriv (by simp [Params.iota]; ring)

/-- **C138.** The strength of the field and `K` are the documented ones wherever `s ψ₀/B̄ ≥ 0`. -/
theorem C138_documented (a : Params) (p : P3) (h : 0 ≤ p 0 * a.psi0 / a.Bbar) :
    a.modB p = a.B0 * (1 + a.etabar * √(2 * p 0 * a.psi0 / a.Bbar) * Real.cos (p 1 - a.N * p 2)) ∧
      a.K p = √(2 * p 0 * a.psi0 / a.Bbar) * a.K1 * Real.sin (p 1 - a.N * p 2) ∧ a.iota (p 0) = a.iota0 := by
  have e : a.r p = √(2 * p 0 * a.psi0 / a.Bbar) := by
    have e1 : 2 * (p 0 * a.psi0) / a.Bbar = 2 * p 0 * a.psi0 / a.Bbar := by ring
    rw [Params.r, e1, abs_of_nonneg]
    have : 2 * p 0 * a.psi0 / a.Bbar = 2 * (p 0 * a.psi0 / a.Bbar) := by ring
    rw [this]; positivity
  refine ⟨?_, ?_, rfl⟩
  · simp only [Params.modB, Params.chi, e]
  · simp only [Params.K, Params.chi, e]; ring

/-- **C138.** The field is quasisymmetric: the strength and `K` depend on the angles only through `θ - N ζ`. -/
theorem C138_quasisymmetric (a : Params) (p p' : P3) (hs : p 0 = p' 0) (hc : p 1 - a.N * p 2 = p' 1 - a.N * p' 2) : a.modB p = a.modB p' ∧ a.K p = a.K p' := by
  simp only [Params.modB, Params.K, Params.chi, Params.r, hs, hc, and_self]

theorem step_py (o : Obj) (op : Op) : (o.step op).py = o.py.after [op] ∧ (o.step op).points = pointsAfter o.points [op] := by
  cases op with
  | get q => simp only [Obj.step, Obj.get]; cases o.cache q <;> exact ⟨rfl, rfl⟩
  | _ => exact ⟨rfl, rfl⟩

theorem after_cons (a : Params) (op : Op) (l : List Op) : a.after (op :: l) = (a.after [op]).after l := by
  cases op <;> rfl

theorem pointsAfter_cons (P : List P3) (op : Op) (l : List Op) : pointsAfter P (op :: l) = pointsAfter (pointsAfter P [op]) l := by
  cases op <;> rfl

/-- What is kept in the cache is right. -/
def Obj.Valid (o : Obj) : Prop := ∀ q v, o.cache q = some v → v = o.points.map fun p => o.py.row p q

theorem step_valid (o : Obj) (op : Op) (h : o.Valid) : (o.step op).Valid := by
  cases op with
  | get q =>
    simp only [Obj.step, Obj.get]
    cases hc : o.cache q with
    | some v => exact h
    | none =>
      intro q' v hv
      simp only at hv ⊢
      by_cases e : q' = q
      · subst e; simpa [eq_comm] using hv
      · rw [Function.update_of_ne e] at hv; exact h q' v hv
  | _ => intro q v hv; exact absurd hv (by simp [Obj.step, Obj.invalidate])

theorem run_spec (ops : List Op) : ∀ (o : Obj), o.Valid → (o.run ops).Valid ∧ (o.run ops).py = o.py.after ops ∧ (o.run ops).points = pointsAfter o.points ops := by
  induction ops with
  | nil => exact fun o h => ⟨h, rfl, rfl⟩
  | cons op l ih =>
    intro o h
    obtain ⟨h1, h2, h3⟩ := ih (o.step op) (step_valid o op h)
    refine ⟨h1, ?_, ?_⟩
    · rw [after_cons, ← (step_py o op).1]; exact h2
    · rw [pointsAfter_cons, ← (step_py o op).2]; exact h3

/-- **C138.** After every history of setters, `set_points` and evaluations, every array holds, for each of the points last set, the value for the parameters last set. -/
theorem C138_history (a : Params) (ops : List Op) (q : Quantity) :
    (((Obj.init a).run ops).get q).1 = (pointsAfter [0] ops).map fun p => (a.after ops).row p q := by
  obtain ⟨h1, h2, h3⟩ := run_spec ops (Obj.init a) (fun q v h => by simp [Obj.init] at h)
  have h3' : ((Obj.init a).run ops).points = pointsAfter [0] ops := h3
  have h2' : ((Obj.init a).run ops).py = a.after ops := h2
  unfold Obj.get
  cases hc : ((Obj.init a).run ops).cache q with
  | some v => simp only; rw [h1 q v hc, h3', h2']
  | none => simp only; rw [h3', h2']

/-- **C138.** What tracing reads is consistent off the axis, whatever has been set. -/
theorem C138_consistent (a : Params) (ops : List Op) (p : P3) (hs : p 0 ≠ 0) (hψ : (a.after ops).psi0 ≠ 0) (hB : (a.after ops).Bbar ≠ 0) :
    ((Obj.init a).run ops).field.ConsistentAt p := by
  obtain ⟨_, h2, _⟩ := run_spec ops (Obj.init a) (fun q v h => by simp [Obj.init] at h)
  have h2' : ((Obj.init a).run ops).py = a.after ops := h2
  refine ⟨?_, ?_, ?_⟩
  · simp only [Obj.field, h2']; exact C138_modB_gradient _ p hs hψ hB
  · simp only [Obj.field, h2']; exact (C138_profiles _ _).1
  · simp only [Obj.field, h2']; exact (C138_profiles _ _).2.1

/-- **C138.** The conserved quantities of orbits traced in a new `BoozerAnalytic` that stay off the axis: the energy, and the momentum that belongs to the helicity `N`. -/
theorem C138_orbits (a : Params) (m q mu : ℝ) (hψ : a.psi0 ≠ 0) (hBbar : a.Bbar ≠ 0) (hι : a.iota0 ≠ 0) (x : ℝ → P3) (v : ℝ → ℝ) (hs : ∀ t, x t 0 ≠ 0) (hB : ∀ t, a.modB (x t) ≠ 0) (hv0 : ∀ t, v t ≠ 0)
    (hD : ∀ t, (-m * v t * (a.dKdtheta (x t) - a.I1 / a.psi0) / a.modB (x t) + q) * a.G (x t 0) -
      (-m * v t * (a.dKdzeta (x t) - a.G1 / a.psi0) / a.modB (x t) - q * a.iota0) * a.I (x t 0) ≠ 0)
    (hx : ∀ t, MovesWith x t (gcBoozer (Obj.init a).field m q mu (x t) (v t)).1) (hv : ∀ t, HasDerivAt v (gcBoozer (Obj.init a).field m q mu (x t) (v t)).2 t) (t : ℝ) :
    v t ^ 2 / 2 + mu * a.modB (x t) = v 0 ^ 2 / 2 + mu * a.modB (x 0) ∧
    (m * v t * a.G (x t 0) / a.modB (x t) - q * a.psip (x t 0)) + a.N * (m * v t * a.I (x t 0) / a.modB (x t) + q * (a.psi0 * x t 0)) =
      (m * v 0 * a.G (x 0 0) / a.modB (x 0) - q * a.psip (x 0 0)) + a.N * (m * v 0 * a.I (x 0 0) / a.modB (x 0) + q * (a.psi0 * x 0 0)) := by
  have hc : ∀ t, (Obj.init a).field.ConsistentAt (x t) := fun t => C138_consistent a [] (x t) (hs t) hψ hBbar
  refine ⟨C122_gc_modes_energy (Obj.init a).field m q mu hψ gcBoozer (Or.inl rfl) x v hc hv0 hx hv t, ?_⟩
  have h := C122_boozer_momentum (Obj.init a).field m q mu hψ 1 a.N (by simp) x v hc (fun t => ?_) (fun t => ?_) a.psip (fun t => (C138_profiles a (x t 0)).2.2.2) hB (fun _ => hι) hD
    (fun t => ?_) (fun t => ?_) t
  · simpa [Obj.field, Obj.init] using h
  · simp [Obj.field, Obj.init, Params.dmodBdtheta, Params.dmodBdzeta]; ring
  · simp [Obj.field, Obj.init, Params.dKdtheta, Params.dKdzeta]; ring
  · rw [← C122_boozer_documented _ m q mu _ _ (hv0 t) hψ]; exact hx t
  · rw [← C122_boozer_documented _ m q mu _ _ (hv0 t) hψ]; exact hv t

/-! ## Where the code departs from the documentation -/

/-- A field with all its terms. -/
def sample : Params := ⟨1, 1, 2, 1, 1, 1, 1, 0, 1, 1, 1⟩

/-- **C138, violated.** The documentation gives `G(s) = G₀ + √(2sψ₀/B̄) G₁` and the same for `I`; the code has `G₀ + s G₁`. -/
theorem C138_G_I_documentation_violated : ∃ (a : Params) (s : ℝ), 0 < s ∧ a.G s ≠ a.G0 + √(2 * s * a.psi0 / a.Bbar) * a.G1 ∧ a.I s ≠ a.I0 + √(2 * s * a.psi0 / a.Bbar) * a.I1 := by
  refine ⟨sample, 1 / 2, by norm_num, ?_, ?_⟩
  · simp [Params.G, sample]
  · simp [Params.I, sample]

/-- **C138, violated.** `set_psi0` changes the strength of the field but not the `psi0` with which orbits are traced: the drift differs from the one in a new field with the same parameters. -/
theorem C138_set_psi0_violated : ∃ (a : Params) (x : ℝ) (p : P3) (v : ℝ), ((Obj.init a).step (.psi0 x)).py = (Obj.init { a with psi0 := x }).py ∧
    gcVacuumBoozer ((Obj.init a).step (.psi0 x)).field 1 1 1 p v ≠ gcVacuumBoozer (Obj.init { a with psi0 := x }).field 1 1 1 p v := by
  refine ⟨sample, 2, ![1, Real.pi / 2, 0], 1, rfl, fun h => ?_⟩
  have h0 := congrFun (congrArg Prod.fst h) 0
  simp [gcVacuumBoozer, Obj.field, Obj.step, Obj.init, Obj.invalidate, Params.dmodBdtheta, Params.modB, Params.chi, Params.r, sample] at h0

/-- Not vacuous: the points of `C138_modB_gradient`, with a strength that varies. -/
example : ∃ p : P3, p 0 ≠ 0 ∧ sample.psi0 ≠ 0 ∧ sample.Bbar ≠ 0 ∧ sample.dmodBds p ≠ 0 := by
  refine ⟨![1, 0, 0], by simp, by simp [sample], by simp [sample], ?_⟩
  simp [Params.dmodBds, Params.r, Params.chi, sample]; norm_num

/-- Not vacuous: a history that sets a parameter after an array has been cached. -/
example : (((Obj.init sample).run [.points [![1, 0, 0]], .get .G, .G0 5]).get .G).1 = [[6]] := by
  rw [C138_history]; simp [pointsAfter, Params.after, Params.row, Params.G, sample]; norm_num

end Simsopt.BField
