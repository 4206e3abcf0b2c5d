import Verif.Interp.Bounds
import Verif.Fields.Derived
import Verif.Fields.Reiman
/-!
# The interpolated field and the symmetries it exploits

Model of `InterpolatedField` (src/simsoptpp/magneticfield_interpolated.h), on top of the interpolant (Interp/Model.lean) and of the points and cylindrical components of a magnetic field (Fields/Derived.lean).
-/
namespace Simsopt.Interp
open Finset
open Simsopt.Fields (P3 T2)
open Simsopt.Fields.Derived

/-- An entry of a row of three. -/
def at3 (v : P3) (l : ℕ) : ℝ := if h : l < 3 then v ⟨l, h⟩ else 0

/-- The points `fbatch_B` builds from its three arguments (L150-156). -/
def rows3 (r phi z : List ℝ) : List P3 := List.zipWith (fun r pz => ![r, pz.1, pz.2]) r (phi.zip z)

/-- `fbatch_B` (L150-162): sets the underlying field's points and copies its `B_cyl()`. -/
noncomputable def batchB (u : Field) : Fun := fun r phi z m => at3 ((u.getBcyl (setCyl (rows3 r phi z))).getD (m / 3) 0) (m % 3)

/-- `fbatch_GradAbsB` (L164-176). -/
noncomputable def batchG (u : Field) : Fun := fun r phi z m => at3 ((u.getGradAbsBcyl (setCyl (rows3 r phi z))).getD (m / 3) 0) (m % 3)

/-- `exploit_symmetries_points` (L90-119), one point: the point where the interpolant is evaluated, and `symmetries[i]`. -/
noncomputable def mapPoint (nfp : ℕ) (stellsym : Bool) (q : P3) : P3 × Bool :=
  let period := (2 * Real.pi) / nfp
  let r := q 0
  let phi := q 1
  let z := q 2
  if z < 0 ∧ stellsym = true then
    let z := -z
    let phi := 2 * Real.pi - phi
    let phi_mult := trunc (phi / period)
    let phi := phi - phi_mult * period
    (![r, phi, z], true)
  else
    let phi_mult := trunc (phi / period)
    let phi := phi - phi_mult * period
    (![r, phi, z], false)

/-- `apply_symmetries_to_B_cyl` (L121-127), one row. -/
def flipB (s : Bool) (v : P3) : P3 := if s then ![-v 0, v 1, v 2] else v

/-- `apply_symmetries_to_GradAbsB_cyl` (L129-137), one row. -/
def flipG (s : Bool) (v : P3) : P3 := if s then ![v 0, -v 1, -v 2] else v

/-- The constructor's arguments: those of the interpolant, `nfp` and `stellsym`. -/
structure IField where
  c : Cfg
  nfp : ℕ
  stellsym : Bool

/-- What the evaluation of one row does. -/
inductive Row where
  | ok (v : P3)
  | error
  | undefined

/-- One row of `_B_cyl_impl` or `_GradAbsB_cyl_impl` (L26-64), once the interpolant of `fn` exists: `q` is the point, `old` what the row held. -/
noncomputable def IField.row (I : IField) (flip : Bool → P3 → P3) (fn : Fun) (q old : P3) : Row :=
  if I.nfp > 1 ∨ I.stellsym = true then
    let m := mapPoint I.nfp I.stellsym q
    match I.c.eval fn (m.1 0) (m.1 1) (m.1 2) with
    | .written v => .ok (flip m.2 ![v 0, v 1, v 2])
    | .untouched => .ok (flip m.2 old)
    | .error => .error
    | .undefined => .undefined
  else
    match I.c.eval fn (q 0) (q 1) (q 2) with
    | .written v => .ok ![v 0, v 1, v 2]
    | .untouched => .ok old
    | .error => .error
    | .undefined => .undefined

/-! ## Specification -/

/-- The cylindrical components of the true field at the point with cylindrical coordinates `X, Y, Z`. -/
noncomputable def cylB (u : Field) (X Y Z : ℝ) (l : ℕ) : ℝ := at3 (comps ![X, Y, Z] (u.B (toCart ![X, Y, Z]))) l

/-- The cylindrical components of the gradient of `|B|`. -/
noncomputable def cylG (u : Field) (X Y Z : ℝ) (l : ℕ) : ℝ := at3 (comps ![X, Y, Z] (gradAbsB (u.B (toCart ![X, Y, Z])) (u.dB (toCart ![X, Y, Z])))) l

/-- The field is unchanged by a turn by one field period. -/
def Periodic (nfp : ℕ) (u : Field) : Prop := ∀ p, u.B (Simsopt.Fields.rot (2 * Real.pi / nfp) p) = Simsopt.Fields.rot (2 * Real.pi / nfp) (u.B p)

/-- Stellarator symmetry: turning space about the x axis by half a turn reverses the x component. -/
def Stellarator (u : Field) : Prop := ∀ p : P3, u.B ![p 0, -p 1, -p 2] = ![-u.B p 0, u.B p 1, u.B p 2]

/-- The field has the symmetries the constructor was told. -/
def IField.Symmetric (I : IField) (u : Field) : Prop := (I.nfp > 1 → Periodic I.nfp u) ∧ (I.stellsym = true → Stellarator u)

/-! ## Proofs -/

theorem flipB_at (s : Bool) (v : P3) (l : ℕ) : at3 (flipB s v) l = (if s = true ∧ l = 0 then -1 else 1) * at3 v l := by
  unfold at3 flipB
  by_cases h : l < 3
  · rw [dif_pos h, dif_pos h]
    have : l = 0 ∨ l = 1 ∨ l = 2 := by omega
    rcases this with rfl | rfl | rfl <;> cases s <;> simp
  · rw [dif_neg h, dif_neg h, mul_zero]

theorem flipG_at (s : Bool) (v : P3) (l : ℕ) : at3 (flipG s v) l = (if s = true ∧ l ≠ 0 then -1 else 1) * at3 v l := by
  unfold at3 flipG
  by_cases h : l < 3
  · rw [dif_pos h, dif_pos h]
    have : l = 0 ∨ l = 1 ∨ l = 2 := by omega
    rcases this with rfl | rfl | rfl <;> cases s <;> simp
  · rw [dif_neg h, dif_neg h, mul_zero]

theorem at3_vec (v : ℕ → ℝ) {l : ℕ} (h : l < 3) : at3 ![v 0, v 1, v 2] l = v l := by
  unfold at3
  rw [dif_pos h]
  have : l = 0 ∨ l = 1 ∨ l = 2 := by omega
  rcases this with rfl | rfl | rfl <;> simp

theorem comps_congr {X Y Y' Z : ℝ} (hc : Real.cos Y = Real.cos Y') (hs : Real.sin Y = Real.sin Y') (v : P3) : comps ![X, Y, Z] v = comps ![X, Y', Z] v := by
  unfold comps
  simp only [Matrix.cons_val]
  rw [hc, hs]

theorem toCart_congr {X Y Y' Z : ℝ} (hc : Real.cos Y = Real.cos Y') (hs : Real.sin Y = Real.sin Y') : toCart ![X, Y, Z] = toCart ![X, Y', Z] := by
  unfold toCart
  simp only [Matrix.cons_val]
  rw [hc, hs]

theorem fmod_cs (x : ℝ) : Real.cos (fmod x (2 * Real.pi)) = Real.cos x ∧ Real.sin (fmod x (2 * Real.pi)) = Real.sin x := by
  obtain ⟨k, hk⟩ := fmod_period x
  rw [hk]
  exact ⟨Real.cos_sub_int_mul_two_pi _ _, Real.sin_sub_int_mul_two_pi _ _⟩

theorem rows3_map (ps : List (ℝ × ℝ × ℝ)) : rows3 (ps.map fun p => p.1) (ps.map fun p => p.2.1) (ps.map fun p => p.2.2) = ps.map fun p => ![p.1, p.2.1, p.2.2] := by
  induction ps with
  | nil => rfl
  | cons p ps ih =>
    simp only [rows3, List.map_cons, List.zip_cons_cons, List.zipWith_cons_cons, List.cons.injEq]
    exact ⟨trivial, ih⟩

theorem div3 {j l : ℕ} (hl : l < 3) : (j * 3 + l) / 3 = j ∧ (j * 3 + l) % 3 = l := by omega

theorem batchB_pointwise (u : Field) : Pointwise 3 (batchB u) (cylB u) := by
  intro ps j l hj hl
  unfold batchB
  rw [(div3 hl).1, (div3 hl).2, rows3_map]
  obtain ⟨hc, hs⟩ := fmod_cs (ps[j]).2.1
  have : (u.getBcyl (setCyl (ps.map fun p => ![p.1, p.2.1, p.2.2]))).getD j 0 = comps ![(ps[j]).1, (ps[j]).2.1, (ps[j]).2.2] (u.B (toCart ![(ps[j]).1, (ps[j]).2.1, (ps[j]).2.2])) := by
    simp only [Field.getBcyl, Field.getB, setCyl, getCyl, getCart, List.map_map, List.getD_eq_getElem?_getD, List.getElem?_zipWith, List.getElem?_map, List.getElem?_eq_getElem hj, Option.map_some, Option.getD_some, Function.comp, Matrix.cons_val]
    rw [comps_congr hc hs, toCart_congr hc hs]
  rw [this]
  rfl

theorem batchG_pointwise (u : Field) : Pointwise 3 (batchG u) (cylG u) := by
  intro ps j l hj hl
  unfold batchG
  rw [(div3 hl).1, (div3 hl).2, rows3_map]
  obtain ⟨hc, hs⟩ := fmod_cs (ps[j]).2.1
  have : (u.getGradAbsBcyl (setCyl (ps.map fun p => ![p.1, p.2.1, p.2.2]))).getD j 0 = comps ![(ps[j]).1, (ps[j]).2.1, (ps[j]).2.2] (gradAbsB (u.B (toCart ![(ps[j]).1, (ps[j]).2.1, (ps[j]).2.2])) (u.dB (toCart ![(ps[j]).1, (ps[j]).2.1, (ps[j]).2.2]))) := by
    simp only [Field.getGradAbsBcyl, Field.getGradAbsB, Field.getB, setCyl, getCyl, getCart, List.map_map, List.getD_eq_getElem?_getD, List.getElem?_zipWith, List.getElem?_map, List.getElem?_eq_getElem hj, Option.map_some, Option.getD_some, Function.comp, Matrix.cons_val]
    rw [comps_congr hc hs, toCart_congr hc hs]
  rw [this]
  rfl

/-! ### Symmetries in cylindrical components -/

theorem cylB_turn {u : Field} {α : ℝ} (h : ∀ p, u.B (Simsopt.Fields.rot α p) = Simsopt.Fields.rot α (u.B p)) (X Y Z : ℝ) (l : ℕ) : cylB u X (Y + α) Z l = cylB u X Y Z l := by
  have e : toCart ![X, Y + α, Z] = Simsopt.Fields.rot α (toCart ![X, Y, Z]) := by
    funext i
    fin_cases i <;> simp [toCart, Simsopt.Fields.rot, Real.cos_add, Real.sin_add] <;> ring
  unfold cylB
  rw [e, h]
  congr 1
  generalize u.B (toCart ![X, Y, Z]) = b
  have h1 := Real.sin_sq_add_cos_sq α
  funext i
  fin_cases i <;> simp [comps, Simsopt.Fields.rot, Real.cos_add, Real.sin_add]
  · linear_combination (Real.cos Y * b 0 + Real.sin Y * b 1) * h1
  · linear_combination (Real.cos Y * b 1 - Real.sin Y * b 0) * h1

theorem cylB_mirror {u : Field} (h : Stellarator u) (X Y Z : ℝ) (l : ℕ) : cylB u X (-Y) (-Z) l = (if l = 0 then -1 else 1) * cylB u X Y Z l := by
  have e : toCart ![X, -Y, -Z] = ![toCart ![X, Y, Z] 0, -toCart ![X, Y, Z] 1, -toCart ![X, Y, Z] 2] := by
    funext i
    fin_cases i <;> simp [toCart]
  unfold cylB
  rw [e, h]
  generalize u.B (toCart ![X, Y, Z]) = b
  unfold at3
  by_cases hl : l < 3
  · rw [dif_pos hl, dif_pos hl]
    have : l = 0 ∨ l = 1 ∨ l = 2 := by omega
    rcases this with rfl | rfl | rfl
    · simp [comps]; ring
    · simp [comps]
    · simp [comps]
  · rw [dif_neg hl, dif_neg hl, mul_zero]

/-- A function of the angle with a period has all its multiples. -/
theorem periods {G : ℝ → ℝ} {T : ℝ} (h : ∀ x, G (x + T) = G x) (k : ℤ) (x : ℝ) : G (x - k * T) = G x := by
  have hp : Function.Periodic G T := h
  exact hp.sub_int_mul_eq k

/-- What the mapping does to a quantity with the field period `T`, the reflection parity `sgn`. -/
theorem mapPoint_parity {nfp : ℕ} (hn : 0 < nfp) {ss : Bool} {G : ℝ → ℝ → ℝ → ℝ} {sgn : ℝ} (hper : ∀ X Y Z, G X (Y + 2 * Real.pi / nfp) Z = G X Y Z) (hst : ss = true → ∀ X Y Z, G X (-Y) (-Z) = sgn * G X Y Z)
    (q : P3) : G (q 0) (q 1) (q 2) * (if (mapPoint nfp ss q).2 = true then sgn else 1) = G ((mapPoint nfp ss q).1 0) ((mapPoint nfp ss q).1 1) ((mapPoint nfp ss q).1 2) := by
  have hp := fun X Z => periods (G := fun Y => G X Y Z) (fun Y => hper X Y Z)
  unfold mapPoint
  simp only
  by_cases hz : q 2 < 0 ∧ ss = true
  · rw [if_pos hz]
    simp only [Matrix.cons_val, if_true]
    rw [hp]
    have h1 := hp (q 0) (-q 2) nfp (2 * Real.pi - q 1)
    have hn' : (nfp : ℝ) ≠ 0 := by exact_mod_cast hn.ne'
    rw [show 2 * Real.pi - q 1 - ((nfp : ℤ) : ℝ) * (2 * Real.pi / nfp) = -q 1 by push_cast; field_simp; ring] at h1
    rw [← h1, hst hz.2]
    ring
  · rw [if_neg hz]
    simp only [Matrix.cons_val, Bool.false_eq_true, if_false, mul_one]
    rw [hp]

theorem cylB_symmetric {I : IField} (hn : 0 < I.nfp) {u : Field} (hs : I.Symmetric u) (q : P3) (l : ℕ) :
    cylB u (q 0) (q 1) (q 2) l * (if (mapPoint I.nfp I.stellsym q).2 = true ∧ l = 0 then -1 else 1) =
      cylB u ((mapPoint I.nfp I.stellsym q).1 0) ((mapPoint I.nfp I.stellsym q).1 1) ((mapPoint I.nfp I.stellsym q).1 2) l := by
  have := mapPoint_parity hn (ss := I.stellsym) (G := fun X Y Z => cylB u X Y Z l) (sgn := if l = 0 then -1 else 1) (fun X Y Z => by
    rcases (by omega : I.nfp > 1 ∨ I.nfp = 1) with h | h
    · exact cylB_turn (hs.1 h) X Y Z l
    · rw [h]
      refine cylB_turn (α := 2 * Real.pi / (1 : ℕ)) (fun p => ?_) X Y Z l
      have : ∀ v : P3, Simsopt.Fields.rot (2 * Real.pi / (1 : ℕ)) v = v := by
        intro v
        funext i
        fin_cases i <;> simp [Simsopt.Fields.rot]
      rw [this, this]) (fun h X Y Z => cylB_mirror (hs.2 h) X Y Z l) q
  rw [← this]
  by_cases h1 : (mapPoint I.nfp I.stellsym q).2 = true <;> by_cases h2 : l = 0 <;> simp [h1, h2]

/-! ### The gradient of the modulus -/

/-- The underlying field is differentiable off the axis and does not vanish there, and `dB_by_dX()` holds its derivatives. -/
def Regular (u : Field) : Prop := ∀ p : P3, p 0 ^ 2 + p 1 ^ 2 ≠ 0 → u.B p ≠ 0 ∧ ∃ L : P3 →L[ℝ] P3, HasFDerivAt u.B L p ∧ ∀ j l, L (Pi.single j 1) l = u.dB p j l

/-- `|B|` in cylindrical coordinates. -/
noncomputable def cylM (u : Field) (X Y Z : ℝ) : ℝ := √(u.B (toCart ![X, Y, Z]) 0 ^ 2 + u.B (toCart ![X, Y, Z]) 1 ^ 2 + u.B (toCart ![X, Y, Z]) 2 ^ 2)

theorem cylG_deriv {u : Field} (hr : Regular u) {X : ℝ} (hX : X ≠ 0) (Y Z : ℝ) :
    HasDerivAt (fun t => cylM u t Y Z) (cylG u X Y Z 0) X ∧ HasDerivAt (fun t => cylM u X t Z) (X * cylG u X Y Z 1) Y ∧ HasDerivAt (fun t => cylM u X Y t) (cylG u X Y Z 2) Z := by
  have hne : (toCart ![X, Y, Z]) 0 ^ 2 + (toCart ![X, Y, Z]) 1 ^ 2 ≠ 0 := by
    simp only [toCart, Matrix.cons_val]
    have : (X * Real.cos Y) ^ 2 + (X * Real.sin Y) ^ 2 = X ^ 2 := by linear_combination X ^ 2 * Real.sin_sq_add_cos_sq Y
    rw [this]
    exact pow_ne_zero 2 hX
  obtain ⟨hB, L, hL, hD⟩ := hr _ hne
  have := C106_gradient_cylindrical u (.cyl [![X, Y, Z]]) 0 (by simp [getCart]) (by simp [getCyl]) (by simp [Field.getGradAbsBcyl, Field.getGradAbsB, Field.getB, getCart, getCyl]) hB L hL hD
  exact this

theorem cylG_symmetric {I : IField} (hn : 0 < I.nfp) {u : Field} (hs : I.Symmetric u) (hr : Regular u) (q : P3) (hq : q 0 ≠ 0) {l : ℕ} (hl : l < 3) :
    cylG u (q 0) (q 1) (q 2) l * (if (mapPoint I.nfp I.stellsym q).2 = true ∧ l ≠ 0 then -1 else 1) =
      cylG u ((mapPoint I.nfp I.stellsym q).1 0) ((mapPoint I.nfp I.stellsym q).1 1) ((mapPoint I.nfp I.stellsym q).1 2) l := by
  have hM : ∀ X Y Z, cylM u X Y Z = √(cylB u X Y Z 0 ^ 2 + cylB u X Y Z 1 ^ 2 + cylB u X Y Z 2 ^ 2) := by
    intro X Y Z
    have := comps_norm ![X, Y, Z] (u.B (toCart ![X, Y, Z]))
    unfold cylM
    rw [← this]
    rfl
  have hper : ∀ X Y Z, cylM u X (Y + 2 * Real.pi / I.nfp) Z = cylM u X Y Z := by
    intro X Y Z
    rcases (by omega : I.nfp > 1 ∨ I.nfp = 1) with h | h
    · rw [hM, hM, cylB_turn (hs.1 h), cylB_turn (hs.1 h), cylB_turn (hs.1 h)]
    · unfold cylM
      rw [toCart_congr (Y := Y + 2 * Real.pi / I.nfp) (Y' := Y) (by rw [h]; simp) (by rw [h]; simp)]
  have hmir : I.stellsym = true → ∀ X Y Z, cylM u X (-Y) (-Z) = cylM u X Y Z := by
    intro h X Y Z
    rw [hM, hM, cylB_mirror (hs.2 h), cylB_mirror (hs.2 h), cylB_mirror (hs.2 h)]
    simp
  -- the derivatives inherit the symmetries
  have gper : ∀ X Y Z, X ≠ 0 → cylG u X (Y + 2 * Real.pi / I.nfp) Z l = cylG u X Y Z l := by
    intro X Y Z hX
    have a := cylG_deriv hr hX (Y + 2 * Real.pi / I.nfp) Z
    have b := cylG_deriv hr hX Y Z
    have : l = 0 ∨ l = 1 ∨ l = 2 := by omega
    rcases this with rfl | rfl | rfl
    · have a1 := a.1; simp only [hper] at a1; exact a1.unique b.1
    · have a1 := (a.2.1).comp_add_const Y (2 * Real.pi / I.nfp)
      simp only [hper] at a1
      exact mul_left_cancel₀ hX (a1.unique b.2.1)
    · have a1 := a.2.2; simp only [hper] at a1; exact a1.unique b.2.2
  have gmir : I.stellsym = true → ∀ X Y Z, X ≠ 0 → cylG u X (-Y) (-Z) l = (if l = 0 then 1 else -1) * cylG u X Y Z l := by
    intro h X Y Z hX
    have a := cylG_deriv hr hX (-Y) (-Z)
    have b := cylG_deriv hr hX Y Z
    have : l = 0 ∨ l = 1 ∨ l = 2 := by omega
    rcases this with rfl | rfl | rfl
    · have a1 := a.1; simp only [hmir h] at a1; rw [a1.unique b.1]; simp
    · have a1 : HasDerivAt (fun t => cylM u X (-t) (-Z)) _ Y := HasDerivAt.comp (h₂ := fun t => cylM u X t (-Z)) Y a.2.1 (hasDerivAt_neg' Y)
      simp only [hmir h] at a1
      have := a1.unique b.2.1
      simp only [one_ne_zero, if_false]
      have h3 : X * cylG u X (-Y) (-Z) 1 = X * (-1 * cylG u X Y Z 1) := by linarith
      exact mul_left_cancel₀ hX h3
    · have a1 : HasDerivAt (fun t => cylM u X (-Y) (-t)) _ Z := HasDerivAt.comp (h₂ := fun t => cylM u X (-Y) t) Z a.2.2 (hasDerivAt_neg' Z)
      simp only [hmir h] at a1
      have := a1.unique b.2.2
      simp only [OfNat.ofNat_ne_zero, if_false]
      linarith
  have := mapPoint_parity hn (ss := I.stellsym) (G := fun X Y Z => if X = 0 then 0 else cylG u X Y Z l) (sgn := if l = 0 then 1 else -1) (fun X Y Z => by
    by_cases hX : X = 0
    · simp [hX]
    · simp only [hX, if_false]; exact gper X Y Z hX) (fun h X Y Z => by
    by_cases hX : X = 0
    · simp [hX]
    · simp only [hX, if_false]; exact gmir h X Y Z hX) q
  have h0 : (mapPoint I.nfp I.stellsym q).1 0 = q 0 := by
    unfold mapPoint; simp only; split <;> rfl
  simp only [h0, hq, if_false] at this
  rw [h0, ← this]
  by_cases h1 : (mapPoint I.nfp I.stellsym q).2 = true <;> by_cases h2 : l = 0 <;> simp [h1, h2]

/-! ## Theorems -/

/-- Where the interpolant is evaluated for the point `q`. -/
noncomputable def IField.image (I : IField) (q : P3) : P3 := if I.nfp > 1 ∨ I.stellsym = true then (mapPoint I.nfp I.stellsym q).1 else q

/-- **C111.** For an angle in `[0, 2π)`, as `get_points_cyl()` returns it for points set in Cartesian coordinates, the point is mapped into the fundamental domain: the angle into `[0, 2π/nfp)`, the height to its modulus if stellarator symmetry is exploited; the radius stays. -/
theorem C111_fundamental_domain (nfp : ℕ) (hn : 0 < nfp) (ss : Bool) (q : P3) (h0 : 0 ≤ q 1) (h1 : q 1 < 2 * Real.pi) :
    let m := (mapPoint nfp ss q).1
    m 0 = q 0 ∧ 0 ≤ m 1 ∧ m 1 < 2 * Real.pi / nfp ∧ m 2 = if ss then |q 2| else q 2 := by
  have hT : (0 : ℝ) < 2 * Real.pi / nfp := by have : (0 : ℝ) < nfp := by exact_mod_cast hn
                                              positivity
  have key : ∀ x : ℝ, 0 ≤ x → 0 ≤ x - trunc (x / (2 * Real.pi / nfp)) * (2 * Real.pi / nfp) ∧ x - trunc (x / (2 * Real.pi / nfp)) * (2 * Real.pi / nfp) < 2 * Real.pi / nfp := by
    intro x hx
    rw [trunc_of_nonneg (div_nonneg hx hT.le)]
    have a := Int.floor_le (x / (2 * Real.pi / nfp))
    have b := Int.lt_floor_add_one (x / (2 * Real.pi / nfp))
    rw [le_div_iff₀ hT] at a
    rw [div_lt_iff₀ hT] at b
    constructor <;> linarith
  intro m
  unfold m mapPoint
  simp only
  by_cases hz : q 2 < 0 ∧ ss = true
  · rw [if_pos hz]
    simp only [Matrix.cons_val, hz.2, if_true]
    exact ⟨trivial, (key _ (by linarith)).1, (key _ (by linarith)).2, (abs_of_neg hz.1).symm⟩
  · rw [if_neg hz]
    simp only [Matrix.cons_val]
    refine ⟨trivial, (key _ h0).1, (key _ h0).2, ?_⟩
    by_cases hs : ss = true
    · rw [if_pos hs, abs_of_nonneg (by by_contra hc; exact hz ⟨not_le.mp hc, hs⟩)]
    · rw [if_neg hs]

/-- **C111.** Documented: `any angle is always mapped into the interval [0, 2π/nfp)`.  Violated for a negative angle (set with `set_points_cyl`, which keeps its sign): it is mapped into `(-2π/nfp, 0]`. -/
theorem C111_negative_angle_violated : ¬ ∀ (nfp : ℕ) (ss : Bool) (q : P3), 0 < nfp → -(2 * Real.pi) < q 1 → q 1 < 2 * Real.pi → 0 ≤ (mapPoint nfp ss q).1 1 := by
  intro h
  have hp := Real.pi_pos
  have := h 2 true ![1, -(Real.pi / 2), 0] (by norm_num) (by simp only [Matrix.cons_val]; linarith) (by simp only [Matrix.cons_val]; linarith)
  unfold mapPoint at this
  simp only [Matrix.cons_val, lt_irrefl, false_and, if_false] at this
  have e : -(Real.pi / 2) / (2 * Real.pi / (2 : ℕ)) = -(1 / 2) := by
    push_cast; field_simp
  rw [e] at this
  have t : trunc (-(1 / 2)) = 0 := by
    unfold trunc
    rw [if_neg (by norm_num), Int.ceil_eq_iff]
    norm_num
  rw [t] at this
  push_cast at this
  linarith

theorem mapPoint_up {nfp : ℕ} {ss : Bool} {q : P3} (h : ¬ (q 2 < 0 ∧ ss = true)) : mapPoint nfp ss q = (![q 0, q 1 - trunc (q 1 / ((2 * Real.pi) / nfp)) * ((2 * Real.pi) / nfp), q 2], false) := by
  unfold mapPoint
  simp only
  rw [if_neg h]

theorem mapPoint_down {nfp : ℕ} {ss : Bool} {q : P3} (h : q 2 < 0 ∧ ss = true) : mapPoint nfp ss q = (![q 0, (2 * Real.pi - q 1) - trunc ((2 * Real.pi - q 1) / ((2 * Real.pi) / nfp)) * ((2 * Real.pi) / nfp), -q 2], true) := by
  unfold mapPoint
  simp only
  rw [if_pos h]

theorem row_written {I : IField} {flip : Bool → P3 → P3} {fn : Fun} {q old : P3} {v : ℕ → ℝ} (hv : I.c.eval fn (I.image q 0) (I.image q 1) (I.image q 2) = .written v) :
    I.row flip fn q old = .ok (if I.nfp > 1 ∨ I.stellsym = true then flip (mapPoint I.nfp I.stellsym q).2 ![v 0, v 1, v 2] else ![v 0, v 1, v 2]) := by
  unfold IField.image at hv
  unfold IField.row
  by_cases h : I.nfp > 1 ∨ I.stellsym = true
  · rw [if_pos h] at hv
    rw [if_pos h, if_pos h]
    simp only
    rw [hv]
  · rw [if_neg h] at hv
    rw [if_neg h, if_neg h, hv]

/-- **C111.** For an underlying field with the symmetries the constructor was told, the error of the interpolated field at a point is exactly the interpolation error at its image in the fundamental domain, for `B` in every component, whatever the row held before: what is accurate there is as accurate everywhere. -/
theorem C111_field (I : IField) (hc : I.c.OK) (hvs : I.c.vs = 3) (hn : 0 < I.nfp) (u : Field) (hs : I.Symmetric u) (q old : P3) (i j k : ℕ)
    (hin : Inside I.c (I.image q 0) (I.image q 1) (I.image q 2)) (hcell : InCell I.c i j k (I.image q 0) (I.image q 1) (I.image q 2)) (hcor : Corner I.c i j k) :
    ∃ b, I.row flipB (batchB u) q old = .ok b ∧ ∀ l < 3,
      |at3 b l - cylB u (q 0) (q 1) (q 2) l| = |lag3 I.c i j k (fun X Y Z => cylB u X Y Z l) (I.image q 0) (I.image q 1) (I.image q 2) - cylB u (I.image q 0) (I.image q 1) (I.image q 2) l| := by
  obtain ⟨v, hv, hl⟩ := (C109_interpolation I.c hc (batchB u) (cylB u) (by rw [hvs]; exact batchB_pointwise u) _ _ _ hin).2 i j k hcell hcor
  refine ⟨_, row_written hv, fun l hlt => ?_⟩
  have hl' := hl l (by omega)
  by_cases h : I.nfp > 1 ∨ I.stellsym = true
  · rw [if_pos h, flipB_at, at3_vec _ hlt, hl']
    have he : I.image q = (mapPoint I.nfp I.stellsym q).1 := if_pos h
    rw [he, ← cylB_symmetric hn hs q l]
    by_cases h1 : (mapPoint I.nfp I.stellsym q).2 = true ∧ l = 0
    · rw [if_pos h1, ← abs_neg]; congr 1; ring
    · rw [if_neg h1]; congr 1; ring
  · rw [if_neg h, at3_vec _ hlt, hl']
    have he : I.image q = q := if_neg h
    rw [he]

/-- **C111.** The same for the gradient of `|B|`: at a symmetric underlying field that is differentiable and does not vanish off the axis. -/
theorem C111_gradient (I : IField) (hc : I.c.OK) (hvs : I.c.vs = 3) (hn : 0 < I.nfp) (u : Field) (hs : I.Symmetric u) (hr : Regular u) (q old : P3) (hq : q 0 ≠ 0) (i j k : ℕ)
    (hin : Inside I.c (I.image q 0) (I.image q 1) (I.image q 2)) (hcell : InCell I.c i j k (I.image q 0) (I.image q 1) (I.image q 2)) (hcor : Corner I.c i j k) :
    ∃ b, I.row flipG (batchG u) q old = .ok b ∧ ∀ l < 3,
      |at3 b l - cylG u (q 0) (q 1) (q 2) l| = |lag3 I.c i j k (fun X Y Z => cylG u X Y Z l) (I.image q 0) (I.image q 1) (I.image q 2) - cylG u (I.image q 0) (I.image q 1) (I.image q 2) l| := by
  obtain ⟨v, hv, hl⟩ := (C109_interpolation I.c hc (batchG u) (cylG u) (by rw [hvs]; exact batchG_pointwise u) _ _ _ hin).2 i j k hcell hcor
  refine ⟨_, row_written hv, fun l hlt => ?_⟩
  have hl' := hl l (by omega)
  by_cases h : I.nfp > 1 ∨ I.stellsym = true
  · rw [if_pos h, flipG_at, at3_vec _ hlt, hl']
    have he : I.image q = (mapPoint I.nfp I.stellsym q).1 := if_pos h
    rw [he, ← cylG_symmetric hn hs hr q hq hlt]
    by_cases h1 : (mapPoint I.nfp I.stellsym q).2 = true ∧ l ≠ 0
    · rw [if_pos h1, ← abs_neg]; congr 1; ring
    · rw [if_neg h1]; congr 1; ring
  · rw [if_neg h, at3_vec _ hlt, hl']
    have he : I.image q = q := if_neg h
    rw [he]

/-- **C111.** Whatever the underlying field, the interpolated field is itself exactly periodic: one field period further on the row is the same. -/
theorem C111_periodic (I : IField) (hn : 1 < I.nfp) (fn : Fun) (flip : Bool → P3 → P3) (r phi z : ℝ) (old : P3) (h0 : 0 ≤ phi) (h1 : phi + 2 * Real.pi / I.nfp ≤ 2 * Real.pi) :
    I.row flip fn ![r, phi + 2 * Real.pi / I.nfp, z] old = I.row flip fn ![r, phi, z] old := by
  have hN : (0 : ℝ) < I.nfp := by exact_mod_cast (by omega : 0 < I.nfp)
  have hT : (0 : ℝ) < 2 * Real.pi / I.nfp := by positivity
  have step : ∀ x : ℝ, 0 ≤ x → x + 2 * Real.pi / I.nfp - trunc ((x + 2 * Real.pi / I.nfp) / (2 * Real.pi / I.nfp)) * (2 * Real.pi / I.nfp) = x - trunc (x / (2 * Real.pi / I.nfp)) * (2 * Real.pi / I.nfp) := by
    intro x hx
    rw [trunc_of_nonneg (div_nonneg hx hT.le), trunc_of_nonneg (div_nonneg (by linarith) hT.le), add_div, div_self hT.ne', Int.floor_add_one]
    push_cast
    ring
  have s1 := step phi h0
  have s2 := step (2 * Real.pi - (phi + 2 * Real.pi / I.nfp)) (by linarith)
  rw [show 2 * Real.pi - (phi + 2 * Real.pi / I.nfp) + 2 * Real.pi / I.nfp = 2 * Real.pi - phi by ring] at s2
  have : mapPoint I.nfp I.stellsym ![r, phi + 2 * Real.pi / I.nfp, z] = mapPoint I.nfp I.stellsym ![r, phi, z] := by
    by_cases hz : z < 0 ∧ I.stellsym = true
    · rw [mapPoint_down (q := ![r, phi + 2 * Real.pi / I.nfp, z]) hz, mapPoint_down (q := ![r, phi, z]) hz]
      simp only [Matrix.cons_val]
      rw [s2]
    · rw [mapPoint_up (q := ![r, phi + 2 * Real.pi / I.nfp, z]) hz, mapPoint_up (q := ![r, phi, z]) hz]
      simp only [Matrix.cons_val]
      rw [s1]
  unfold IField.row
  rw [if_pos (Or.inl hn), if_pos (Or.inl hn), this]

/-- **C111.** Whatever the underlying field, the interpolated field is itself exactly stellarator symmetric: `B` at `(R, 2π-φ, -Z)` is `B` at `(R, φ, Z)` with the radial component reversed. -/
theorem C111_stellarator (I : IField) (hs : I.stellsym = true) (fn : Fun) (r phi z : ℝ) (old : P3) (hz : 0 < z) (v : P3) (hv : I.row flipB fn ![r, phi, z] old = .ok v)
    (hw : ∃ w, I.c.eval fn (I.image ![r, phi, z] 0) (I.image ![r, phi, z] 1) (I.image ![r, phi, z] 2) = .written w) :
    I.row flipB fn ![r, 2 * Real.pi - phi, -z] old = .ok ![-v 0, v 1, v 2] := by
  obtain ⟨w, hw⟩ := hw
  have e0 := mapPoint_up (nfp := I.nfp) (ss := I.stellsym) (q := ![r, phi, z]) (fun h => absurd h.1 (not_lt.mpr hz.le))
  have e1 : mapPoint I.nfp I.stellsym ![r, phi, z] = ((mapPoint I.nfp I.stellsym ![r, phi, z]).1, false) := by rw [e0]
  have e2 : mapPoint I.nfp I.stellsym ![r, 2 * Real.pi - phi, -z] = ((mapPoint I.nfp I.stellsym ![r, phi, z]).1, true) := by
    rw [e0, mapPoint_down (q := ![r, 2 * Real.pi - phi, -z]) ⟨neg_lt_zero.mpr hz, hs⟩]
    simp only [Matrix.cons_val]
    rw [show 2 * Real.pi - (2 * Real.pi - phi) = phi by ring, neg_neg]
  have him : I.image ![r, 2 * Real.pi - phi, -z] = I.image ![r, phi, z] := by
    unfold IField.image
    rw [if_pos (Or.inr hs), if_pos (Or.inr hs), e2]
  have r1 := row_written (flip := flipB) (q := ![r, phi, z]) (old := old) hw
  have r2 := row_written (flip := flipB) (q := ![r, 2 * Real.pi - phi, -z]) (old := old) (by rw [him]; exact hw)
  rw [if_pos (Or.inr hs), e1] at r1
  rw [if_pos (Or.inr hs), e2] at r2
  rw [r1] at hv
  cases hv
  rw [r2]
  rfl

end Simsopt.Interp
