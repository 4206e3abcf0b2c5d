import Verif.Interp.Lemmas
import Mathlib.Analysis.Calculus.Deriv.Add
import Mathlib.Analysis.Calculus.Deriv.Mul
import Mathlib.Analysis.Calculus.Deriv.Comp
import Mathlib.Analysis.SpecialFunctions.Trigonometric.Deriv
import Mathlib.Analysis.SpecialFunctions.Trigonometric.Basic
/-!
# The interpolated Boozer field and the symmetries it exploits (C193)

Model of `InterpolatedBoozerField` (src/simsoptpp/boozermagneticfield_interpolated.h), one evaluation point.  The interpolants (Interp/Model.lean) are arbitrary functions here, and real numbers take the place of doubles.
-/
namespace Simsopt.InterpBoozer
open Simsopt.Interp (trunc trunc_of_nonneg)

/-- The quantities a `BoozerMagneticField` returns. -/
inductive Qty where
  | psip
  | G
  | I
  | iota
  | dGds
  | dIds
  | diotads
  | modB
  | dmodBdtheta
  | dmodBdzeta
  | dmodBds
  | d2modBdtheta2
  | d2modBdthetadzeta
  | d2modBdzeta2
  | K
  | dKdtheta
  | dKdzeta
  | nu
  | dnudtheta
  | dnudzeta
  | dnuds
  | R
  | dRdtheta
  | dRdzeta
  | dRds
  | Z
  | dZdtheta
  | dZdzeta
  | dZds
  | modB_derivs
  | K_derivs
  | nu_derivs
  | R_derivs
  | Z_derivs
  deriving DecidableEq

/-- Those evaluated through `exploit_fluxfunction_points` (L35-165). -/
def Qty.isFlux : Qty → Bool
  | .psip => true
  | .G => true
  | .I => true
  | .iota => true
  | .dGds => true
  | .dIds => true
  | .diotads => true
  | _ => false

/-- The number of components of the interpolant (the fifth argument of its constructor). -/
def Qty.width : Qty → ℕ
  | .modB_derivs => 3
  | .K_derivs => 2
  | .nu_derivs => 3
  | .R_derivs => 3
  | .Z_derivs => 3
  | _ => 1

/-- Those that call `apply_odd_symmetry` (L190, L269, L329, L351, L392, L414, L477, L537, L559, L600, L622). -/
def Qty.callsOdd : Qty → Bool
  | .K => true
  | .nu => true
  | .dnuds => true
  | .nu_derivs => true
  | .dRdtheta => true
  | .dRdzeta => true
  | .Z => true
  | .dZds => true
  | .Z_derivs => true
  | .dmodBdtheta => true
  | .dmodBdzeta => true
  | _ => false

/-- Those that call `apply_even_symmetry` (L455, L663). -/
def Qty.callsEven : Qty → Bool
  | .R_derivs => true
  | .modB_derivs => true
  | _ => false

/-- The restriction of an angle to one period (L747-764). -/
noncomputable def fold (P x : ℝ) : ℝ :=
  let x := x - (trunc (x / P) : ℝ) * P
  let x := if x < 0 then x + P else x
  if x > P then x - P else x

/-- `exploit_symmetries_points` (L736-784), one point: the angles and `symmetries[i]`. -/
noncomputable def image (nfp : ℕ) (stellsym : Bool) (t z : ℝ) : (ℝ × ℝ) × Bool :=
  let period := 2 * Real.pi / nfp
  let theta := fold (2 * Real.pi) t
  let zeta := fold period z
  if theta > Real.pi ∧ stellsym = true then ((2 * Real.pi - theta, period - zeta), true) else ((theta, zeta), false)

/-- `apply_odd_symmetry` (L786-797), one row. -/
def applyOdd (sym : Bool) (w : ℕ) (v : ℕ → ℝ) : ℕ → ℝ :=
  if sym = true ∧ (w = 1 ∨ w = 3) then fun c => if c = 0 then -v 0 else v c else v

/-- `apply_even_symmetry` (L799-807), one row. -/
def applyEven (sym : Bool) (w : ℕ) (v : ℕ → ℝ) : ℕ → ℝ :=
  if sym = true ∧ w = 3 then fun c => if c = 1 ∨ c = 2 then -v c else v c else v

/-- Quantities as functions of the coordinates and the component. -/
abbrev Values := Qty → ℝ → ℝ → ℝ → ℕ → ℝ

/-- `_modB_impl` and its like (L35-720), once the interpolants `I` exist. -/
noncomputable def eval (nfp : ℕ) (stellsym : Bool) (I : Values) : Values := fun q s t z =>
  if q.isFlux then I q s 0 0 else
  let m := image nfp stellsym t z
  let v := I q s m.1.1 m.1.2
  if stellsym ∧ q.callsOdd then applyOdd m.2 q.width v
  else if stellsym ∧ q.callsEven then applyEven m.2 q.width v
  else v

/-! ### Specification -/

/-- `ft` and `fz` are the derivatives of `f` with respect to the angles. -/
def Angular (f ft fz : ℝ → ℝ → ℝ → ℝ) : Prop := (∀ s t z, HasDerivAt (fun t => f s t z) (ft s t z) t) ∧ ∀ s t z, HasDerivAt (fun z => f s t z) (fz s t z) z

/-- `fs` is the derivative of `f` with respect to the flux. -/
def Radial (f fs : ℝ → ℝ → ℝ → ℝ) : Prop := ∀ s t z, HasDerivAt (fun s => f s t z) (fs s t z) s

/-- Component `c` of a quantity. -/
def Values.at (u : Values) (q : Qty) (c : ℕ) : ℝ → ℝ → ℝ → ℝ := fun s t z => u q s t z c

/-- The quantities are what their names say. -/
structure Consistent (u : Values) : Prop where
  modB : Angular (u.at .modB 0) (u.at .dmodBdtheta 0) (u.at .dmodBdzeta 0)
  modBs : Radial (u.at .modB 0) (u.at .dmodBds 0)
  second : Angular (u.at .dmodBdtheta 0) (u.at .d2modBdtheta2 0) (u.at .d2modBdthetadzeta 0)
  secondz : ∀ s t z, HasDerivAt (fun z => u .dmodBdzeta s t z 0) (u .d2modBdzeta2 s t z 0) z
  K : Angular (u.at .K 0) (u.at .dKdtheta 0) (u.at .dKdzeta 0)
  nu : Angular (u.at .nu 0) (u.at .dnudtheta 0) (u.at .dnudzeta 0)
  nus : Radial (u.at .nu 0) (u.at .dnuds 0)
  R : Angular (u.at .R 0) (u.at .dRdtheta 0) (u.at .dRdzeta 0)
  Rs : Radial (u.at .R 0) (u.at .dRds 0)
  Z : Angular (u.at .Z 0) (u.at .dZdtheta 0) (u.at .dZdzeta 0)
  Zs : Radial (u.at .Z 0) (u.at .dZds 0)
  modB_derivs : u.at .modB_derivs 0 = u.at .dmodBds 0 ∧ u.at .modB_derivs 1 = u.at .dmodBdtheta 0 ∧ u.at .modB_derivs 2 = u.at .dmodBdzeta 0
  K_derivs : u.at .K_derivs 0 = u.at .dKdtheta 0 ∧ u.at .K_derivs 1 = u.at .dKdzeta 0
  nu_derivs : u.at .nu_derivs 0 = u.at .dnuds 0 ∧ u.at .nu_derivs 1 = u.at .dnudtheta 0 ∧ u.at .nu_derivs 2 = u.at .dnudzeta 0
  R_derivs : u.at .R_derivs 0 = u.at .dRds 0 ∧ u.at .R_derivs 1 = u.at .dRdtheta 0 ∧ u.at .R_derivs 2 = u.at .dRdzeta 0
  Z_derivs : u.at .Z_derivs 0 = u.at .dZds 0 ∧ u.at .Z_derivs 1 = u.at .dZdtheta 0 ∧ u.at .Z_derivs 2 = u.at .dZdzeta 0
  flux : ∀ q : Qty, q.isFlux = true → ∀ s t z, u q s t z = u q s 0 0

/-- `f` has the periods `2 pi` and `T`, and with stellarator symmetry the parity `e`. -/
def Sym (T : ℝ) (stell : Bool) (e : ℝ) (f : ℝ → ℝ → ℝ → ℝ) : Prop :=
  (∀ s t z, f s (t + 2 * Real.pi) z = f s t z) ∧ (∀ s t z, f s t (z + T) = f s t z) ∧ (stell = true → ∀ s t z, f s (-t) (-z) = e * f s t z)

/-- The field has the symmetries the constructor was told: |B| and R are even, Z, nu and K odd. -/
structure Symmetric (nfp : ℕ) (stell : Bool) (u : Values) : Prop where
  modB : Sym (2 * Real.pi / nfp) stell 1 (u.at .modB 0)
  R : Sym (2 * Real.pi / nfp) stell 1 (u.at .R 0)
  Z : Sym (2 * Real.pi / nfp) stell (-1) (u.at .Z 0)
  nu : Sym (2 * Real.pi / nfp) stell (-1) (u.at .nu 0)
  K : Sym (2 * Real.pi / nfp) stell (-1) (u.at .K 0)

/-! ### The fundamental domain -/

theorem fold_eq {P : ℝ} (hP : 0 < P) (x : ℝ) : fold P x = x - ⌊x / P⌋ * P := by
  have h1 : (⌊x / P⌋ : ℝ) * P ≤ x := by
    have := Int.floor_le (x / P)
    rwa [le_div_iff₀ hP] at this
  have h2 : x < (⌊x / P⌋ + 1) * P := by
    have := Int.lt_floor_add_one (x / P)
    rwa [div_lt_iff₀ hP] at this
  unfold fold
  by_cases h0 : 0 ≤ x / P
  · rw [trunc_of_nonneg h0]
    simp only
    have e : ¬ (x - (⌊x / P⌋ : ℝ) * P < 0) := by linarith
    have e' : ¬ (x - (⌊x / P⌋ : ℝ) * P > P) := by nlinarith
    rw [if_neg e, if_neg e']
  · have ht : trunc (x / P) = ⌈x / P⌉ := if_neg h0
    rw [ht]
    simp only
    by_cases hi : (⌊x / P⌋ : ℝ) = x / P
    · have hc : ⌈x / P⌉ = ⌊x / P⌋ := by
        rw [← hi, Int.ceil_intCast, Int.floor_intCast]
      have e : ¬ (x - (⌊x / P⌋ : ℝ) * P < 0) := by linarith
      have e' : ¬ (x - (⌊x / P⌋ : ℝ) * P > P) := by nlinarith
      rw [hc, if_neg e, if_neg e']
    · have hlt : (⌊x / P⌋ : ℝ) < x / P := lt_of_le_of_ne (Int.floor_le _) hi
      have hc : ⌈x / P⌉ = ⌊x / P⌋ + 1 := by
        rw [Int.ceil_eq_iff]
        push_cast
        exact ⟨by linarith, (Int.lt_floor_add_one (x / P)).le⟩
      have h3 : (⌊x / P⌋ : ℝ) * P < x := by rwa [lt_div_iff₀ hP] at hlt
      rw [hc]
      push_cast
      have e : x - ((⌊x / P⌋ : ℝ) + 1) * P < 0 := by nlinarith
      have e' : ¬ (x - ((⌊x / P⌋ : ℝ) + 1) * P + P > P) := by nlinarith
      rw [if_pos e, if_neg e']
      ring

theorem fold_range {P : ℝ} (hP : 0 < P) (x : ℝ) : 0 ≤ fold P x ∧ fold P x < P := by
  rw [fold_eq hP]
  have h1 : (⌊x / P⌋ : ℝ) * P ≤ x := by
    have := Int.floor_le (x / P)
    rwa [le_div_iff₀ hP] at this
  have h2 : x < (⌊x / P⌋ + 1) * P := by
    have := Int.lt_floor_add_one (x / P)
    rwa [div_lt_iff₀ hP] at this
  constructor <;> nlinarith

theorem fold_shift {P : ℝ} (hP : 0 < P) (x : ℝ) : fold P (x + P) = fold P x := by
  rw [fold_eq hP, fold_eq hP, add_div, div_self hP.ne', Int.floor_add_one]
  push_cast
  ring

/-- **C193**: all angles, negative ones too, are mapped into the fundamental domain. -/
theorem C193_domain (nfp : ℕ) (hn : 0 < nfp) (stell : Bool) (t z : ℝ) :
    let m := image nfp stell t z
    0 ≤ m.1.1 ∧ 0 ≤ m.1.2 ∧ m.1.2 ≤ 2 * Real.pi / nfp ∧ if stell then m.1.1 ≤ Real.pi else m.1.1 < 2 * Real.pi := by
  have hp := Real.two_pi_pos
  have hT : (0 : ℝ) < 2 * Real.pi / nfp := div_pos hp (by exact_mod_cast hn)
  obtain ⟨a1, a2⟩ := fold_range hp t
  obtain ⟨b1, b2⟩ := fold_range hT z
  intro m
  simp only [m, image]
  cases stell with
  | true =>
    simp only [and_true, if_true]
    split
    · exact ⟨by linarith, by linarith, by linarith, by linarith⟩
    · exact ⟨a1, b1, b2.le, by linarith⟩
  | false =>
    simp only [Bool.false_eq_true, and_false, if_false]
    exact ⟨a1, b1, b2.le, a2⟩

/-- **C193**: the interpolated quantities themselves are exactly periodic in both angles. -/
theorem C193_periodic (nfp : ℕ) (hn : 0 < nfp) (stell : Bool) (I : Values) (q : Qty) (s t z : ℝ) :
    eval nfp stell I q s (t + 2 * Real.pi) z = eval nfp stell I q s t z ∧ eval nfp stell I q s t (z + 2 * Real.pi / nfp) = eval nfp stell I q s t z := by
  have hp := Real.two_pi_pos
  have hT : (0 : ℝ) < 2 * Real.pi / nfp := div_pos hp (by exact_mod_cast hn)
  have e1 : image nfp stell (t + 2 * Real.pi) z = image nfp stell t z := by
    simp only [image, fold_shift hp]
  have e2 : image nfp stell t (z + 2 * Real.pi / nfp) = image nfp stell t z := by
    simp only [image, fold_shift hT]
  simp only [eval, e1, e2, and_self]

/-! ### Parities -/

theorem shift_int {f : ℝ → ℝ} {P : ℝ} (h : ∀ x, f (x + P) = f x) (n : ℤ) (x : ℝ) : f (x + n * P) = f x := by
  induction n using Int.induction_on with
  | zero => simp
  | succ n ih => rw [show x + ((n : ℤ) + 1 : ℤ) * P = (x + (n : ℤ) * P) + P by push_cast; ring, h, ih]
  | pred n ih => rw [← h, show x + ((-(n : ℤ) - 1 : ℤ) : ℝ) * P + P = x + ((-(n : ℤ) : ℤ) : ℝ) * P by push_cast; ring, ih]

theorem Sym.fold {nfp : ℕ} (hn : 0 < nfp) {stell : Bool} {e : ℝ} (he : e * e = 1) {f : ℝ → ℝ → ℝ → ℝ} (h : Sym (2 * Real.pi / nfp) stell e f) (s t z : ℝ) :
    f s t z = (if (image nfp stell t z).2 then e else 1) * f s (image nfp stell t z).1.1 (image nfp stell t z).1.2 := by
  have hp := Real.two_pi_pos
  have hT : (0 : ℝ) < 2 * Real.pi / nfp := div_pos hp (by exact_mod_cast hn)
  obtain ⟨h1, h2, h3⟩ := h
  have key : f s t z = f s (InterpBoozer.fold (2 * Real.pi) t) (InterpBoozer.fold (2 * Real.pi / nfp) z) := by
    rw [fold_eq hp, fold_eq hT]
    rw [show t - ⌊t / (2 * Real.pi)⌋ * (2 * Real.pi) = t + ((-⌊t / (2 * Real.pi)⌋ : ℤ) : ℝ) * (2 * Real.pi) by push_cast; ring,
      show z - ⌊z / (2 * Real.pi / nfp)⌋ * (2 * Real.pi / nfp) = z + ((-⌊z / (2 * Real.pi / nfp)⌋ : ℤ) : ℝ) * (2 * Real.pi / nfp) by push_cast; ring]
    rw [shift_int (f := fun t => f s t _) (fun t => h1 s t _), shift_int (f := fun z => f s t z) (fun z => h2 s t z)]
  rw [key]
  by_cases hc : InterpBoozer.fold (2 * Real.pi) t > Real.pi ∧ stell = true
  · have hi : image nfp stell t z = ((2 * Real.pi - InterpBoozer.fold (2 * Real.pi) t, 2 * Real.pi / nfp - InterpBoozer.fold (2 * Real.pi / nfp) z), true) := if_pos hc
    rw [hi]
    simp only [if_true]
    generalize InterpBoozer.fold (2 * Real.pi) t = a
    generalize InterpBoozer.fold (2 * Real.pi / nfp) z = b
    have hs := h3 hc.2 s a b
    rw [show 2 * Real.pi - a = -a + 2 * Real.pi by ring, show 2 * Real.pi / nfp - b = -b + 2 * Real.pi / nfp by ring, h1, h2, hs, ← mul_assoc, he, one_mul]
  · have hi : image nfp stell t z = ((InterpBoozer.fold (2 * Real.pi) t, InterpBoozer.fold (2 * Real.pi / nfp) z), false) := if_neg hc
    rw [hi]
    simp

theorem der_neg {a b : ℝ → ℝ} {a' b' e x : ℝ} (h : ∀ y, b (-y) = e * a y) (ha : HasDerivAt a a' x) (hb : HasDerivAt b b' (-x)) : b' = -e * a' := by
  have h1 := HasDerivAt.comp x hb (hasDerivAt_neg x)
  have e1 : (b ∘ fun y => -y) = fun y => e * a y := by funext y; exact h y
  have h2 : HasDerivAt (b ∘ fun y => -y) (b' * -1) x := h1
  rw [e1] at h2
  have := h2.unique (ha.const_mul e)
  linarith

theorem der_shift {a b : ℝ → ℝ} {a' b' e p x : ℝ} (h : ∀ y, b (y + p) = e * a y) (ha : HasDerivAt a a' x) (hb : HasDerivAt b b' (x + p)) : b' = e * a' := by
  have h1 := HasDerivAt.comp_add_const x p hb
  have e1 : (fun y => b (y + p)) = fun y => e * a y := by funext y; exact h y
  rw [e1] at h1
  exact h1.unique (ha.const_mul e)

theorem Sym.theta {T : ℝ} {stell : Bool} {e : ℝ} {f ft : ℝ → ℝ → ℝ → ℝ} (h : Sym T stell e f) (hf : ∀ s t z, HasDerivAt (fun t => f s t z) (ft s t z) t) : Sym T stell (-e) ft := by
  obtain ⟨h1, h2, h3⟩ := h
  refine ⟨fun s t z => ?_, fun s t z => ?_, fun hs s t z => ?_⟩
  · have := der_shift (e := 1) (fun y => by rw [one_mul]; exact h1 s y z) (hf s t z) (hf s (t + 2 * Real.pi) z)
    rwa [one_mul] at this
  · have e1 : (fun t => f s t (z + T)) = fun t => f s t z := by funext t; exact h2 s t z
    have := hf s t (z + T)
    rw [e1] at this
    exact this.unique (hf s t z)
  · exact der_neg (fun y => h3 hs s y z) (hf s t z) (hf s (-t) (-z))

theorem Sym.zeta {T : ℝ} {stell : Bool} {e : ℝ} {f fz : ℝ → ℝ → ℝ → ℝ} (h : Sym T stell e f) (hf : ∀ s t z, HasDerivAt (fun z => f s t z) (fz s t z) z) : Sym T stell (-e) fz := by
  obtain ⟨h1, h2, h3⟩ := h
  refine ⟨fun s t z => ?_, fun s t z => ?_, fun hs s t z => ?_⟩
  · have e1 : (fun z => f s (t + 2 * Real.pi) z) = fun z => f s t z := by funext z; exact h1 s t z
    have := hf s (t + 2 * Real.pi) z
    rw [e1] at this
    exact this.unique (hf s t z)
  · have := der_shift (e := 1) (fun y => by rw [one_mul]; exact h2 s t y) (hf s t z) (hf s t (z + T))
    rwa [one_mul] at this
  · exact der_neg (fun y => h3 hs s t y) (hf s t z) (hf s (-t) (-z))

theorem Sym.radial {T : ℝ} {stell : Bool} {e : ℝ} {f fs : ℝ → ℝ → ℝ → ℝ} (h : Sym T stell e f) (hf : Radial f fs) : Sym T stell e fs := by
  obtain ⟨h1, h2, h3⟩ := h
  refine ⟨fun s t z => ?_, fun s t z => ?_, fun hs s t z => ?_⟩
  · have e1 : (fun s => f s (t + 2 * Real.pi) z) = fun s => f s t z := by funext s; exact h1 s t z
    have := hf s (t + 2 * Real.pi) z
    rw [e1] at this
    exact this.unique (hf s t z)
  · have e1 : (fun s => f s t (z + T)) = fun s => f s t z := by funext s; exact h2 s t z
    have := hf s t (z + T)
    rw [e1] at this
    exact this.unique (hf s t z)
  · have e1 : (fun s => f s (-t) (-z)) = fun s => e * f s t z := by funext s; exact h3 hs s t z
    have := hf s (-t) (-z)
    rw [e1] at this
    exact this.unique ((hf s t z).const_mul e)

/-- The sign a component gets at a mirrored point. -/
def sign (q : Qty) (c : ℕ) : ℝ :=
  if q.callsOdd ∧ (q.width = 1 ∨ q.width = 3) ∧ c = 0 then -1 else if q.callsEven ∧ q.width = 3 ∧ (c = 1 ∨ c = 2) then -1 else 1

theorem sign_sq (q : Qty) (c : ℕ) : sign q c * sign q c = 1 := by
  unfold sign; split_ifs <;> norm_num

theorem eval_sign (nfp : ℕ) (stell : Bool) (I : Values) (q : Qty) (hq : q.isFlux = false) (s t z : ℝ) (c : ℕ) :
    eval nfp stell I q s t z c = (if (image nfp stell t z).2 then sign q c else 1) * I q s (image nfp stell t z).1.1 (image nfp stell t z).1.2 c := by
  have hst : (image nfp stell t z).2 = true → stell = true := by
    unfold image
    simp only
    split
    · rename_i h; exact fun _ => h.2
    · simp
  simp only [eval, hq, Bool.false_eq_true, if_false]
  generalize image nfp stell t z = m at *
  obtain ⟨m, b⟩ := m
  cases b with
  | false => cases q <;> simp [applyOdd, applyEven]
  | true =>
    have := hst rfl
    subst this
    by_cases h0 : c = 0
    · subst h0
      cases q <;> simp [applyOdd, applyEven, sign, Qty.callsOdd, Qty.callsEven, Qty.width]
    · by_cases h12 : c = 1 ∨ c = 2
      · cases q <;> simp [applyOdd, applyEven, sign, Qty.callsOdd, Qty.callsEven, Qty.width, h0, h12]
      · cases q <;> simp [applyOdd, applyEven, sign, Qty.callsOdd, Qty.callsEven, Qty.width, h0, h12]

/-- Every component of every quantity of a symmetric field has the parity with which the code continues it. -/
theorem parity {nfp : ℕ} {stell : Bool} {u : Values} (hc : Consistent u) (hs : Symmetric nfp stell u) (q : Qty) (hq : q.isFlux = false) (c : ℕ) (hw : c < q.width) : Sym (2 * Real.pi / nfp) stell (sign q c) (u.at q c) := by
  have one : ∀ {e e' : ℝ} {f}, Sym (2 * Real.pi / nfp) stell e f → e = e' → Sym (2 * Real.pi / nfp) stell e' f := by rintro e e' f h rfl; exact h

  cases q
  case psip => simp [Qty.isFlux] at hq
  case G => simp [Qty.isFlux] at hq
  case I => simp [Qty.isFlux] at hq
  case iota => simp [Qty.isFlux] at hq
  case dGds => simp [Qty.isFlux] at hq
  case dIds => simp [Qty.isFlux] at hq
  case diotads => simp [Qty.isFlux] at hq
  case modB =>
    obtain rfl : c = 0 := by simp only [Qty.width] at hw; omega
    exact one (hs.modB) (by norm_num [sign, Qty.callsOdd, Qty.callsEven, Qty.width])
  case dmodBdtheta =>
    obtain rfl : c = 0 := by simp only [Qty.width] at hw; omega
    exact one (hs.modB.theta hc.modB.1) (by norm_num [sign, Qty.callsOdd, Qty.callsEven, Qty.width])
  case dmodBdzeta =>
    obtain rfl : c = 0 := by simp only [Qty.width] at hw; omega
    exact one (hs.modB.zeta hc.modB.2) (by norm_num [sign, Qty.callsOdd, Qty.callsEven, Qty.width])
  case dmodBds =>
    obtain rfl : c = 0 := by simp only [Qty.width] at hw; omega
    exact one (hs.modB.radial hc.modBs) (by norm_num [sign, Qty.callsOdd, Qty.callsEven, Qty.width])
  case d2modBdtheta2 =>
    obtain rfl : c = 0 := by simp only [Qty.width] at hw; omega
    exact one ((hs.modB.theta hc.modB.1).theta hc.second.1) (by norm_num [sign, Qty.callsOdd, Qty.callsEven, Qty.width])
  case d2modBdthetadzeta =>
    obtain rfl : c = 0 := by simp only [Qty.width] at hw; omega
    exact one ((hs.modB.theta hc.modB.1).zeta hc.second.2) (by norm_num [sign, Qty.callsOdd, Qty.callsEven, Qty.width])
  case d2modBdzeta2 =>
    obtain rfl : c = 0 := by simp only [Qty.width] at hw; omega
    exact one ((hs.modB.zeta hc.modB.2).zeta hc.secondz) (by norm_num [sign, Qty.callsOdd, Qty.callsEven, Qty.width])
  case K =>
    obtain rfl : c = 0 := by simp only [Qty.width] at hw; omega
    exact one (hs.K) (by norm_num [sign, Qty.callsOdd, Qty.callsEven, Qty.width])
  case dKdtheta =>
    obtain rfl : c = 0 := by simp only [Qty.width] at hw; omega
    exact one (hs.K.theta hc.K.1) (by norm_num [sign, Qty.callsOdd, Qty.callsEven, Qty.width])
  case dKdzeta =>
    obtain rfl : c = 0 := by simp only [Qty.width] at hw; omega
    exact one (hs.K.zeta hc.K.2) (by norm_num [sign, Qty.callsOdd, Qty.callsEven, Qty.width])
  case nu =>
    obtain rfl : c = 0 := by simp only [Qty.width] at hw; omega
    exact one (hs.nu) (by norm_num [sign, Qty.callsOdd, Qty.callsEven, Qty.width])
  case dnudtheta =>
    obtain rfl : c = 0 := by simp only [Qty.width] at hw; omega
    exact one (hs.nu.theta hc.nu.1) (by norm_num [sign, Qty.callsOdd, Qty.callsEven, Qty.width])
  case dnudzeta =>
    obtain rfl : c = 0 := by simp only [Qty.width] at hw; omega
    exact one (hs.nu.zeta hc.nu.2) (by norm_num [sign, Qty.callsOdd, Qty.callsEven, Qty.width])
  case dnuds =>
    obtain rfl : c = 0 := by simp only [Qty.width] at hw; omega
    exact one (hs.nu.radial hc.nus) (by norm_num [sign, Qty.callsOdd, Qty.callsEven, Qty.width])
  case R =>
    obtain rfl : c = 0 := by simp only [Qty.width] at hw; omega
    exact one (hs.R) (by norm_num [sign, Qty.callsOdd, Qty.callsEven, Qty.width])
  case dRdtheta =>
    obtain rfl : c = 0 := by simp only [Qty.width] at hw; omega
    exact one (hs.R.theta hc.R.1) (by norm_num [sign, Qty.callsOdd, Qty.callsEven, Qty.width])
  case dRdzeta =>
    obtain rfl : c = 0 := by simp only [Qty.width] at hw; omega
    exact one (hs.R.zeta hc.R.2) (by norm_num [sign, Qty.callsOdd, Qty.callsEven, Qty.width])
  case dRds =>
    obtain rfl : c = 0 := by simp only [Qty.width] at hw; omega
    exact one (hs.R.radial hc.Rs) (by norm_num [sign, Qty.callsOdd, Qty.callsEven, Qty.width])
  case Z =>
    obtain rfl : c = 0 := by simp only [Qty.width] at hw; omega
    exact one (hs.Z) (by norm_num [sign, Qty.callsOdd, Qty.callsEven, Qty.width])
  case dZdtheta =>
    obtain rfl : c = 0 := by simp only [Qty.width] at hw; omega
    exact one (hs.Z.theta hc.Z.1) (by norm_num [sign, Qty.callsOdd, Qty.callsEven, Qty.width])
  case dZdzeta =>
    obtain rfl : c = 0 := by simp only [Qty.width] at hw; omega
    exact one (hs.Z.zeta hc.Z.2) (by norm_num [sign, Qty.callsOdd, Qty.callsEven, Qty.width])
  case dZds =>
    obtain rfl : c = 0 := by simp only [Qty.width] at hw; omega
    exact one (hs.Z.radial hc.Zs) (by norm_num [sign, Qty.callsOdd, Qty.callsEven, Qty.width])
  case modB_derivs =>
    obtain rfl | rfl | rfl : c = 0 ∨ c = 1 ∨ c = 2 := by simp only [Qty.width] at hw; omega
    · rw [hc.modB_derivs.1]; exact one (hs.modB.radial hc.modBs) (by norm_num [sign, Qty.callsOdd, Qty.callsEven, Qty.width])
    · rw [hc.modB_derivs.2.1]; exact one (hs.modB.theta hc.modB.1) (by norm_num [sign, Qty.callsOdd, Qty.callsEven, Qty.width])
    · rw [hc.modB_derivs.2.2]; exact one (hs.modB.zeta hc.modB.2) (by norm_num [sign, Qty.callsOdd, Qty.callsEven, Qty.width])
  case K_derivs =>
    obtain rfl | rfl : c = 0 ∨ c = 1 := by simp only [Qty.width] at hw; omega
    · rw [hc.K_derivs.1]; exact one (hs.K.theta hc.K.1) (by norm_num [sign, Qty.callsOdd, Qty.callsEven, Qty.width])
    · rw [hc.K_derivs.2]; exact one (hs.K.zeta hc.K.2) (by norm_num [sign, Qty.callsOdd, Qty.callsEven, Qty.width])
  case nu_derivs =>
    obtain rfl | rfl | rfl : c = 0 ∨ c = 1 ∨ c = 2 := by simp only [Qty.width] at hw; omega
    · rw [hc.nu_derivs.1]; exact one (hs.nu.radial hc.nus) (by norm_num [sign, Qty.callsOdd, Qty.callsEven, Qty.width])
    · rw [hc.nu_derivs.2.1]; exact one (hs.nu.theta hc.nu.1) (by norm_num [sign, Qty.callsOdd, Qty.callsEven, Qty.width])
    · rw [hc.nu_derivs.2.2]; exact one (hs.nu.zeta hc.nu.2) (by norm_num [sign, Qty.callsOdd, Qty.callsEven, Qty.width])
  case R_derivs =>
    obtain rfl | rfl | rfl : c = 0 ∨ c = 1 ∨ c = 2 := by simp only [Qty.width] at hw; omega
    · rw [hc.R_derivs.1]; exact one (hs.R.radial hc.Rs) (by norm_num [sign, Qty.callsOdd, Qty.callsEven, Qty.width])
    · rw [hc.R_derivs.2.1]; exact one (hs.R.theta hc.R.1) (by norm_num [sign, Qty.callsOdd, Qty.callsEven, Qty.width])
    · rw [hc.R_derivs.2.2]; exact one (hs.R.zeta hc.R.2) (by norm_num [sign, Qty.callsOdd, Qty.callsEven, Qty.width])
  case Z_derivs =>
    obtain rfl | rfl | rfl : c = 0 ∨ c = 1 ∨ c = 2 := by simp only [Qty.width] at hw; omega
    · rw [hc.Z_derivs.1]; exact one (hs.Z.radial hc.Zs) (by norm_num [sign, Qty.callsOdd, Qty.callsEven, Qty.width])
    · rw [hc.Z_derivs.2.1]; exact one (hs.Z.theta hc.Z.1) (by norm_num [sign, Qty.callsOdd, Qty.callsEven, Qty.width])
    · rw [hc.Z_derivs.2.2]; exact one (hs.Z.zeta hc.Z.2) (by norm_num [sign, Qty.callsOdd, Qty.callsEven, Qty.width])

/-- **C193**: for a field with the symmetries the constructor was told, the error of every component of every quantity at any point is the interpolation error at the image of the point in the fundamental domain; in particular the quantity
is exact where the interpolant is.  No assumption about the interpolants. -/
theorem C193_error (nfp : ℕ) (hn : 0 < nfp) (stell : Bool) (u I : Values) (hc : Consistent u) (hs : Symmetric nfp stell u) (q : Qty) (c : ℕ) (hw : c < q.width) (s t z : ℝ) :
    let m := image nfp stell t z
    |eval nfp stell I q s t z c - u q s t z c| = if q.isFlux then |I q s 0 0 c - u q s 0 0 c| else |I q s m.1.1 m.1.2 c - u q s m.1.1 m.1.2 c| := by
  intro m
  cases hq : q.isFlux with
  | true =>
    simp only [if_true]
    rw [hc.flux q hq s t z]
    simp only [eval, hq, if_true]
  | false =>
    simp only [Bool.false_eq_true, if_false]
    have h := (parity hc hs q hq c hw).fold hn (sign_sq q c) s t z
    simp only [Values.at] at h
    rw [eval_sign nfp stell I q hq, h, ← mul_sub, abs_mul]
    have : |if (image nfp stell t z).2 = true then sign q c else 1| = 1 := by
      split
      · rcases mul_self_eq_one_iff.mp (sign_sq q c) with h | h <;> rw [h] <;> norm_num
      · norm_num
    rw [this, one_mul]

/-- A field with |B| = 2 + cos(theta), Z = sin(theta) and G = s: it meets the hypotheses. -/
noncomputable def demo : Values := fun q s t z c => match q with
  | .modB => 2 + Real.cos t
  | .dmodBdtheta => -Real.sin t
  | .d2modBdtheta2 => -Real.cos t
  | .modB_derivs => if c = 1 then -Real.sin t else 0
  | .Z => Real.sin t
  | .dZdtheta => Real.cos t
  | .Z_derivs => if c = 1 then Real.cos t else 0
  | .G => s
  | _ => 0

theorem demo_ok : Consistent demo ∧ Symmetric 3 true demo := by
  have h0 : ∀ x : ℝ, HasDerivAt (fun _ : ℝ => (0 : ℝ)) 0 x := fun x => hasDerivAt_const x 0
  have hcst : ∀ a x : ℝ, HasDerivAt (fun _ : ℝ => a) 0 x := fun a x => hasDerivAt_const x a
  refine ⟨⟨⟨fun s t z => ?_, fun s t z => hcst _ _⟩, fun s t z => hcst _ _, ⟨fun s t z => (Real.hasDerivAt_sin t).neg, fun s t z => hcst _ _⟩, fun s t z => h0 _, ⟨fun s t z => h0 _, fun s t z => h0 _⟩, ⟨fun s t z => h0 _, fun s t z => h0 _⟩,
    fun s t z => h0 _, ⟨fun s t z => h0 _, fun s t z => h0 _⟩, fun s t z => h0 _, ⟨fun s t z => Real.hasDerivAt_sin t, fun s t z => hcst _ _⟩, fun s t z => hcst _ _, ⟨rfl, rfl, rfl⟩, ⟨rfl, rfl⟩, ⟨rfl, rfl, rfl⟩, ⟨rfl, rfl, rfl⟩, ⟨rfl, rfl, rfl⟩, ?_⟩, ?_⟩
  · have := (Real.hasDerivAt_cos t).const_add 2
    exact this
  · intro q hq s t z
    cases q <;> simp [Qty.isFlux] at hq <;> rfl
  · refine ⟨⟨fun s t z => ?_, fun s t z => rfl, fun _ s t z => ?_⟩, ⟨fun s t z => rfl, fun s t z => rfl, fun _ s t z => by simp [Values.at, demo]⟩, ⟨fun s t z => ?_, fun s t z => rfl, fun _ s t z => ?_⟩, ⟨fun s t z => rfl, fun s t z => rfl, fun _ s t z => by simp [Values.at, demo]⟩,
      ⟨fun s t z => rfl, fun s t z => rfl, fun _ s t z => by simp [Values.at, demo]⟩⟩
    · simp [Values.at, demo]
    · simp [Values.at, demo]
    · simp [Values.at, demo]
    · simp [Values.at, demo]

end Simsopt.InterpBoozer
