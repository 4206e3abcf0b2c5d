import Verif.Ports.Model
import Mathlib.Tactic.Linarith
import Mathlib.Tactic.Positivity
/-!
# C164: collisions with ports
-/
namespace Simsopt.Ports
open Simsopt Coils

/-! ### Specification -/

/-- The solid cylinder of a circular port, walls included, enlarged by `g` along the axis and in the radius. -/
def Circ.Solid (c : Circ) (g : ℝ) (p : V3) : Prop := ∃ (s : ℝ) (e : V3), p = c.o + s • c.a + e ∧ dot e c.a = 0 ∧ min c.l0 c.l1 - g ≤ s ∧ s ≤ max c.l0 c.l1 + g ∧ Geometry.norm e ≤ c.ir + c.thick + g

/-- The box of a rectangular port, walls included, enlarged by `g` in all directions, without its long sides. -/
def Rect.Solid (c : Rect) (g : ℝ) (p : V3) : Prop := ∃ s u v : ℝ, p = c.o + s • c.a + u • c.w + v • c.h ∧ min c.l0 c.l1 - g ≤ s ∧ s ≤ max c.l0 c.l1 + g ∧ |u| < c.iw / 2 + c.thick + g ∧ |v| < c.ih / 2 + c.thick + g

/-- The unit vectors that the constructors make. -/
def Circ.Unit (c : Circ) : Prop := dot c.a c.a = 1
structure Rect.Frame (c : Rect) : Prop where
  a : dot c.a c.a = 1
  w : dot c.w c.w = 1
  aw : dot c.a c.w = 0
  h : c.h = height c.a c.w

/-! ### Vectors -/

theorem dot_add_left (a b c : V3) : dot (a + b) c = dot a c + dot b c := by simp only [dot, Geometry.inner, Prod.fst_add, Prod.snd_add]; ring
theorem dot_sub_left (a b c : V3) : dot (a - b) c = dot a c - dot b c := by simp only [dot, Geometry.inner, Prod.fst_sub, Prod.snd_sub]; ring
theorem dot_smul_left (r : ℝ) (a c : V3) : dot (r • a) c = r * dot a c := by simp only [dot, Geometry.inner, Prod.smul_fst, Prod.smul_snd, smul_eq_mul]; ring
theorem dot_comm (a b : V3) : dot a b = dot b a := by simp only [dot, Geometry.inner]; ring
theorem dot_add_right (a b c : V3) : dot c (a + b) = dot c a + dot c b := by rw [dot_comm, dot_add_left, dot_comm a, dot_comm b]
theorem dot_sub_right (a b c : V3) : dot c (a - b) = dot c a - dot c b := by rw [dot_comm, dot_sub_left, dot_comm a, dot_comm b]
theorem dot_smul_right (r : ℝ) (a c : V3) : dot c (r • a) = r * dot c a := by rw [dot_comm, dot_smul_left, dot_comm a]
theorem dot_self_nonneg (a : V3) : 0 ≤ dot a a := by simp only [dot, Geometry.inner]; nlinarith [mul_self_nonneg a.1, mul_self_nonneg a.2.1, mul_self_nonneg a.2.2]

theorem cs (a b : V3) : dot a b ^ 2 ≤ dot a a * dot b b := by
  simp only [dot, Geometry.inner]
  nlinarith [sq_nonneg (a.1 * b.2.1 - a.2.1 * b.1), sq_nonneg (a.1 * b.2.2 - a.2.2 * b.1), sq_nonneg (a.2.1 * b.2.2 - a.2.2 * b.2.1)]

theorem norm_nonneg (a : V3) : 0 ≤ Geometry.norm a := Real.sqrt_nonneg _
theorem norm_mul_self (a : V3) : Geometry.norm a * Geometry.norm a = dot a a := by rw [← sq]; exact Geometry.norm_sq a

theorem abs_dot_le (a b : V3) (hb : dot b b ≤ 1) : |dot a b| ≤ Geometry.norm a := by
  refine abs_le_of_sq_le_sq ?_ (norm_nonneg a)
  have h1 := cs a b
  have h2 := dot_self_nonneg a
  rw [sq (Geometry.norm a), norm_mul_self]
  nlinarith

theorem norm_add (a b : V3) : Geometry.norm (a + b) ≤ Geometry.norm a + Geometry.norm b := by
  refine abs_le_of_sq_le_sq' ?_ (add_nonneg (norm_nonneg a) (norm_nonneg b)) |>.2
  have h : |dot a b| ≤ Geometry.norm a * Geometry.norm b := by
    refine abs_le_of_sq_le_sq ?_ (mul_nonneg (norm_nonneg a) (norm_nonneg b))
    have := cs a b
    rw [← norm_mul_self, ← norm_mul_self] at this
    nlinarith
  have h2 := le_abs_self (dot a b)
  have e : dot (a + b) (a + b) = dot a a + 2 * dot a b + dot b b := by rw [dot_add_left, dot_add_right, dot_add_right, dot_comm b a]; ring
  rw [sq, norm_mul_self, e, ← norm_mul_self a, ← norm_mul_self b]
  nlinarith

theorem norm_eq_one (a : V3) (h : dot a a = 1) : Geometry.norm a = 1 := by
  rw [Geometry.norm_eq]
  show Real.sqrt (dot a a) = 1
  rw [h, Real.sqrt_one]

theorem norm_le_iff (a : V3) (r : ℝ) (hr : 0 ≤ r) : dot a a ≤ r * r ↔ Geometry.norm a ≤ r := by
  rw [← norm_mul_self]
  exact (mul_self_le_mul_self_iff (norm_nonneg a) hr).symm

/-! ### Circular ports -/

/-- **C164**: `collides` of a circular port says exactly whether the point is in the solid cylinder (interior, walls) enlarged by the gap. -/
theorem C164_circular (c : Circ) (hu : c.Unit) (p : V3) (gap : ℝ) (hr : 0 ≤ c.ir + c.thick + gap) : c.collides p gap ↔ c.Solid gap p := by
  unfold Circ.Unit at hu
  constructor
  · rintro ⟨⟨h1, h2⟩, h3⟩
    refine ⟨dot (p - c.o) c.a, p - (dot (p - c.o) c.a • c.a + c.o), by module, ?_, h1, h2, (norm_le_iff _ _ hr).1 h3⟩
    rw [dot_sub_left, dot_add_left, dot_smul_left, hu, dot_sub_left]
    ring
  · rintro ⟨s, e, rfl, he, h1, h2, h3⟩
    have hl : dot (c.o + s • c.a + e - c.o) c.a = s := by
      rw [dot_sub_left, dot_add_left, dot_add_left, dot_smul_left, hu, he]; ring
    refine ⟨?_, ?_⟩
    · simp only [hl]; exact ⟨h1, h2⟩
    · simp only [hl]
      rw [show c.o + s • c.a + e - (s • c.a + c.o) = e by module]
      exact (norm_le_iff _ _ hr).2 h3

/-- **C164**: the gap is kept: a point within the distance `gap` of a point of the port (walls included) collides. -/
theorem C164_circular_gap (c : Circ) (hu : c.Unit) (hr : 0 ≤ c.ir + c.thick) (p q : V3) (gap : ℝ) (hq : c.collides q 0) (hd : Geometry.norm (p - q) ≤ gap) : c.collides p gap := by
  have hg : 0 ≤ gap := (norm_nonneg _).trans hd
  have hu' : dot c.a c.a = 1 := hu
  obtain ⟨s, e, rfl, he, h1, h2, h3⟩ := (C164_circular c hu q 0 (by linarith)).1 hq
  obtain ⟨d, rfl⟩ : ∃ d, p = c.o + s • c.a + e + d := ⟨p - (c.o + s • c.a + e), by module⟩
  rw [add_sub_cancel_left] at hd
  rw [C164_circular c hu _ _ (by linarith)]
  have hx := abs_le.1 ((abs_dot_le d c.a (by rw [hu'])).trans hd)
  refine ⟨s + dot d c.a, e + (d - dot d c.a • c.a), by module, ?_, by linarith, by linarith, ?_⟩
  · rw [dot_add_left, dot_sub_left, dot_smul_left, hu', he]; ring
  · have hperp : Geometry.norm (d - dot d c.a • c.a) ≤ Geometry.norm d := by
      rw [← norm_le_iff _ _ (norm_nonneg d), norm_mul_self, dot_sub_left, dot_sub_right, dot_sub_right, dot_smul_left, dot_smul_left, dot_smul_right, dot_smul_right, hu', dot_comm c.a d]
      nlinarith [sq_nonneg (dot d c.a)]
    have := norm_add e (d - dot d c.a • c.a)
    linarith

/-- The nearest number in an interval. -/
theorem clamp (a b g s : ℝ) (h : a ≤ b) (hg : 0 ≤ g) (h1 : a - g ≤ s) (h2 : s ≤ b + g) : ∃ s', a ≤ s' ∧ s' ≤ b ∧ |s - s'| ≤ g := by
  refine ⟨max a (min b s), le_max_left _ _, max_le h (min_le_left _ _), ?_⟩
  rw [abs_le]
  rcases le_total a (min b s) with h3 | h3
  · rw [max_eq_right h3]
    rcases le_total b s with h4 | h4
    · rw [min_eq_left h4]; constructor <;> linarith
    · rw [min_eq_right h4]; constructor <;> linarith
  · rw [max_eq_left h3]
    rcases le_total b s with h4 | h4
    · rw [min_eq_left h4] at h3; constructor <;> linarith
    · rw [min_eq_right h4] at h3; constructor <;> linarith

/-- **C164**: no false alarm beyond the edges: a colliding point is within `sqrt 2` gaps of the port. -/
theorem C164_circular_excess (c : Circ) (hu : c.Unit) (hr : 0 < c.ir + c.thick) (p : V3) (gap : ℝ) (hg : 0 ≤ gap) (hp : c.collides p gap) :
    ∃ q, c.collides q 0 ∧ Geometry.norm (p - q) ≤ Real.sqrt 2 * gap := by
  have hu' : dot c.a c.a = 1 := hu
  obtain ⟨s, e, rfl, he, h1, h2, h3⟩ := (C164_circular c hu p gap (by linarith)).1 hp
  obtain ⟨s', h4, h5, h6⟩ := clamp (min c.l0 c.l1) (max c.l0 c.l1) gap s min_le_max hg h1 h2
  set R := c.ir + c.thick with hR
  have hRg : 0 < R + gap := by linarith
  set f := R / (R + gap) with hf
  have hf0 : 0 ≤ f := by positivity
  have hf1 : 1 - f = gap / (R + gap) := by rw [hf]; field_simp; ring
  refine ⟨c.o + s' • c.a + f • e, (C164_circular c hu _ 0 (by linarith)).2 ⟨s', f • e, rfl, by rw [dot_smul_left, he, mul_zero], by linarith, by linarith, ?_⟩, ?_⟩
  · rw [Geometry.norm_smul_v f hf0]
    have : f * Geometry.norm e ≤ f * (R + gap) := mul_le_mul_of_nonneg_left (by linarith) hf0
    have e2 : f * (R + gap) = R := by rw [hf]; field_simp
    linarith
  · have e1 : c.o + s • c.a + e - (c.o + s' • c.a + f • e) = (s - s') • c.a + (1 - f) • e := by module
    rw [e1]
    rw [← norm_le_iff _ _ (by positivity)]
    have e2 : dot ((s - s') • c.a + (1 - f) • e) ((s - s') • c.a + (1 - f) • e) = (s - s') ^ 2 + (1 - f) ^ 2 * dot e e := by
      simp only [dot_add_left, dot_add_right, dot_smul_left, dot_smul_right, he, dot_comm c.a e, hu']
      ring
    have e3 : (s - s') ^ 2 ≤ gap ^ 2 := sq_le_sq' (abs_le.1 h6).1 (abs_le.1 h6).2
    have e4 : (1 - f) ^ 2 * dot e e ≤ gap ^ 2 := by
      rw [hf1, ← norm_mul_self, div_pow, div_mul_eq_mul_div, div_le_iff₀ (by positivity)]
      have : Geometry.norm e * Geometry.norm e ≤ (R + gap) ^ 2 := by
        rw [sq]; exact mul_self_le_mul_self (norm_nonneg e) (by linarith)
      exact mul_le_mul_of_nonneg_left this (sq_nonneg gap)
    have e5 : Real.sqrt 2 * gap * (Real.sqrt 2 * gap) = 2 * gap ^ 2 := by
      have := Real.mul_self_sqrt (show (0 : ℝ) ≤ 2 by norm_num)
      linear_combination gap ^ 2 * this
    rw [e2, e5]
    linarith

/-! ### Rectangular ports -/

theorem frame (c : Rect) (h : c.Frame) : dot c.h c.h = 1 ∧ dot c.h c.a = 0 ∧ dot c.h c.w = 0 ∧ ∀ v : V3, v = dot v c.a • c.a + dot v c.w • c.w + dot v c.h • c.h := by
  obtain ⟨ha, hw, haw, hh⟩ := h
  have hh1 : dot c.h c.h = 1 := by
    have e : dot (height c.a c.w) (height c.a c.w) = dot c.a c.a * dot c.w c.w - dot c.a c.w ^ 2 := by simp only [dot, Geometry.inner, height]; ring
    rw [hh, e, ha, hw, haw]; norm_num
  have h2 : dot c.h c.a = 0 := by rw [hh]; simp only [dot, Geometry.inner, height]; ring
  have h3 : dot c.h c.w = 0 := by rw [hh]; simp only [dot, Geometry.inner, height]; ring
  refine ⟨hh1, h2, h3, fun v => ?_⟩
  -- the difference is orthogonal to everything, so it vanishes
  have key : dot (v - (dot v c.a • c.a + dot v c.w • c.w + dot v c.h • c.h)) (v - (dot v c.a • c.a + dot v c.w • c.w + dot v c.h • c.h)) = 0 := by
    have e1 : dot (v - (dot v c.a • c.a + dot v c.w • c.w + dot v c.h • c.h)) (v - (dot v c.a • c.a + dot v c.w • c.w + dot v c.h • c.h)) = dot v v - dot v c.a ^ 2 - dot v c.w ^ 2 - dot v c.h ^ 2 := by
      simp only [dot_add_left, dot_sub_left, dot_sub_right, dot_add_right, dot_smul_left, dot_smul_right, ha, hw, hh1, dot_comm c.a v, dot_comm c.w v, dot_comm c.h v, haw, dot_comm c.w c.a, h2, dot_comm c.a c.h, h3, dot_comm c.w c.h]
      ring
    have gram : dot v c.h ^ 2 = dot v v * (dot c.a c.a * dot c.w c.w - dot c.a c.w ^ 2) - dot v c.a ^ 2 * dot c.w c.w - dot v c.w ^ 2 * dot c.a c.a + 2 * dot v c.a * dot v c.w * dot c.a c.w := by
      rw [hh]; simp only [dot, Geometry.inner, height]; ring
    rw [e1, gram, ha, hw, haw]; ring
  have zero : ∀ u : V3, dot u u = 0 → u = 0 := by
    intro u hu
    by_contra hc
    exact absurd hu (Geometry.inner_self_pos u hc).ne'
  exact sub_eq_zero.1 (zero _ key)

/-- **C164**: `collides` of a rectangular port says exactly whether the point is in the box (interior, walls) enlarged by the gap; the ends belong to it, the long sides do not. -/
theorem C164_rectangular (c : Rect) (hf : c.Frame) (p : V3) (gap : ℝ) : c.collides p gap ↔ c.Solid gap p := by
  obtain ⟨hh, hha, hhw, hx⟩ := frame c hf
  have ha := hf.a
  have hw := hf.w
  have haw := hf.aw
  have half : ∀ x : ℝ, 0.5 * x = x / 2 := fun x => by ring
  unfold Rect.collides Rect.Solid
  simp only [half]
  constructor
  · rintro ⟨⟨h1, h2⟩, h3, h4⟩
    refine ⟨dot (p - c.o) c.a, dot (p - c.o) c.w, dot (p - c.o) c.h, ?_, h1, h2, h3, h4⟩
    have := congrArg (c.o + ·) (hx (p - c.o))
    simp only [add_sub_cancel] at this
    rw [add_assoc, add_assoc, ← add_assoc (dot (p - c.o) c.a • c.a)]
    exact this
  · rintro ⟨s, u, v, rfl, h1, h2, h3, h4⟩
    have e : c.o + s • c.a + u • c.w + v • c.h - c.o = s • c.a + u • c.w + v • c.h := by module
    have e1 : dot (c.o + s • c.a + u • c.w + v • c.h - c.o) c.a = s := by
      rw [e, dot_add_left, dot_add_left, dot_smul_left, dot_smul_left, dot_smul_left, ha, dot_comm c.w, haw, hha]; ring
    have e2 : dot (c.o + s • c.a + u • c.w + v • c.h - c.o) c.w = u := by
      rw [e, dot_add_left, dot_add_left, dot_smul_left, dot_smul_left, dot_smul_left, hw, haw, hhw]; ring
    have e3 : dot (c.o + s • c.a + u • c.w + v • c.h - c.o) c.h = v := by
      rw [e, dot_add_left, dot_add_left, dot_smul_left, dot_smul_left, dot_smul_left, hh, dot_comm c.a, hha, dot_comm c.w, hhw]; ring
    rw [e1, e2, e3]
    exact ⟨⟨h1, h2⟩, h3, h4⟩

/-- **C164**: the gap is kept: a point within the distance `gap` of a point of the port collides (also if the two vectors are orthogonal only within the tolerance of the constructor). -/
theorem C164_rectangular_gap (c : Rect) (ha : dot c.a c.a ≤ 1) (hw : dot c.w c.w ≤ 1) (hh : dot c.h c.h ≤ 1) (p q : V3) (gap : ℝ) (hq : c.collides q 0) (hd : Geometry.norm (p - q) ≤ gap) : c.collides p gap := by
  obtain ⟨⟨h1, h2⟩, h3, h4⟩ := hq
  have hsplit : ∀ v, dot (p - c.o) v = dot (q - c.o) v + dot (p - q) v := fun v => by simp only [dot_sub_left]; ring
  have hb : ∀ v, dot v v ≤ 1 → |dot (p - q) v| ≤ gap := fun v hv => (abs_dot_le _ v hv).trans hd
  have a1 := abs_le.1 (hb _ ha)
  have w1 := hb _ hw
  have k1 := hb _ hh
  unfold Rect.collides
  simp only [hsplit]
  have t1 := abs_add_le (dot (q - c.o) c.w) (dot (p - q) c.w)
  have t2 := abs_add_le (dot (q - c.o) c.h) (dot (p - q) c.h)
  refine ⟨⟨by linarith, by linarith⟩, by linarith, by linarith⟩

/-- **C164**: no false alarm beyond the edges: a colliding point is within `sqrt 3` gaps of the port. -/
theorem C164_rectangular_excess (c : Rect) (hf : c.Frame) (hw : 0 < c.iw / 2 + c.thick) (hh : 0 < c.ih / 2 + c.thick) (p : V3) (gap : ℝ) (hg : 0 ≤ gap) (hp : c.collides p gap) :
    ∃ q, c.collides q 0 ∧ Geometry.norm (p - q) ≤ Real.sqrt 3 * gap := by
  obtain ⟨hh1, hha, hhw, -⟩ := frame c hf
  have ha := hf.a
  have hw1 := hf.w
  have haw := hf.aw
  obtain ⟨s, u, v, rfl, h1, h2, h3, h4⟩ := (C164_rectangular c hf p gap).1 hp
  obtain ⟨s', h5, h6, h7⟩ := clamp (min c.l0 c.l1) (max c.l0 c.l1) gap s min_le_max hg h1 h2
  have shrink : ∀ (R x : ℝ), 0 < R → |x| < R + gap → ∃ x', |x'| < R ∧ |x - x'| ≤ gap := by
    intro R x hR hx
    have hRg : 0 < R + gap := by linarith
    refine ⟨R / (R + gap) * x, ?_, ?_⟩
    · rw [abs_mul, abs_of_nonneg (by positivity), div_mul_eq_mul_div, div_lt_iff₀ hRg]
      exact mul_lt_mul_of_pos_left hx hR
    · rw [show x - R / (R + gap) * x = gap / (R + gap) * x by field_simp; ring, abs_mul, abs_of_nonneg (by positivity), div_mul_eq_mul_div, div_le_iff₀ hRg]
      exact mul_le_mul_of_nonneg_left hx.le hg
  obtain ⟨u', h8, h9⟩ := shrink _ u hw h3
  obtain ⟨v', h10, h11⟩ := shrink _ v hh h4
  refine ⟨c.o + s' • c.a + u' • c.w + v' • c.h, (C164_rectangular c hf _ 0).2 ⟨s', u', v', rfl, by linarith, by linarith, by linarith, by linarith⟩, ?_⟩
  have e1 : c.o + s • c.a + u • c.w + v • c.h - (c.o + s' • c.a + u' • c.w + v' • c.h) = (s - s') • c.a + (u - u') • c.w + (v - v') • c.h := by module
  rw [e1, ← norm_le_iff _ _ (by positivity)]
  have e2 : dot ((s - s') • c.a + (u - u') • c.w + (v - v') • c.h) ((s - s') • c.a + (u - u') • c.w + (v - v') • c.h) = (s - s') ^ 2 + (u - u') ^ 2 + (v - v') ^ 2 := by
    simp only [dot_add_left, dot_add_right, dot_smul_left, dot_smul_right, ha, hw1, hh1, haw, dot_comm c.w c.a, hha, dot_comm c.a c.h, hhw, dot_comm c.w c.h]
    ring
  have e5 : Real.sqrt 3 * gap * (Real.sqrt 3 * gap) = 3 * gap ^ 2 := by
    have := Real.mul_self_sqrt (show (0 : ℝ) ≤ 3 by norm_num)
    linear_combination gap ^ 2 * this
  have a1 : (s - s') ^ 2 ≤ gap ^ 2 := sq_le_sq' (abs_le.1 h7).1 (abs_le.1 h7).2
  have a2 : (u - u') ^ 2 ≤ gap ^ 2 := sq_le_sq' (abs_le.1 h9).1 (abs_le.1 h9).2
  have a3 : (v - v') ^ 2 ≤ gap ^ 2 := sq_le_sq' (abs_le.1 h11).1 (abs_le.1 h11).2
  rw [e2, e5]
  linarith

/-! ### Constructors -/

/-- **C164**: the constructors keep the geometry and make unit vectors; they refuse zero vectors, and the rectangular one vectors that are not perpendicular; perpendicular ones are accepted. -/
theorem C164_make (o a w : V3) (ir iw ih thick l0 l1 : ℝ) :
    (a = 0 → Circ.make o a ir thick l0 l1 = .error .valueError) ∧
    (a ≠ 0 → ∃ c, Circ.make o a ir thick l0 l1 = .ok c ∧ c.Unit ∧ c.o = o ∧ c.a = (Geometry.norm a)⁻¹ • a ∧ c.ir = ir ∧ c.thick = thick ∧ c.l0 = l0 ∧ c.l1 = l1) ∧
    (a ≠ 0 → w ≠ 0 → dot a w = 0 → ∃ c, Rect.make o a w iw ih thick l0 l1 = .ok c ∧ c.Frame ∧ c.o = o ∧ c.a = (Geometry.norm a)⁻¹ • a ∧ c.w = (Geometry.norm w)⁻¹ • w ∧ c.iw = iw ∧ c.ih = ih ∧ c.thick = thick ∧
      c.l0 = l0 ∧ c.l1 = l1) ∧
    (a ≠ 0 → w ≠ 0 → |dot a w| > 1e-12 * (Geometry.norm a * Geometry.norm w) → Rect.make o a w iw ih thick l0 l1 = .error .valueError) := by
  have hunit : ∀ v : V3, v ≠ 0 → dot ((Geometry.norm v)⁻¹ • v) ((Geometry.norm v)⁻¹ • v) = 1 := by
    intro v hv
    have hp := Geometry.norm_pos v hv
    rw [dot_smul_left, dot_smul_right, ← norm_mul_self]
    field_simp
  have hz : Geometry.norm (0 : V3) = 0 := by simp [Geometry.norm]
  refine ⟨?_, ?_, ?_, ?_⟩
  · rintro rfl
    unfold Circ.make
    exact if_pos hz
  · intro ha
    unfold Circ.make
    rw [if_neg (Geometry.norm_pos a ha).ne']
    exact ⟨_, rfl, hunit a ha, rfl, rfl, rfl, rfl, rfl, rfl⟩
  · intro ha hw haw
    have h0 : dot ((Geometry.norm a)⁻¹ • a) ((Geometry.norm w)⁻¹ • w) = 0 := by rw [dot_smul_left, dot_smul_right, haw]; ring
    have e : dot (height ((Geometry.norm a)⁻¹ • a) ((Geometry.norm w)⁻¹ • w)) (height ((Geometry.norm a)⁻¹ • a) ((Geometry.norm w)⁻¹ • w)) = 1 := by
      have e : ∀ x y : V3, dot (height x y) (height x y) = dot x x * dot y y - dot x y ^ 2 := fun x y => by simp only [dot, Geometry.inner, height]; ring
      rw [e, hunit a ha, hunit w hw, h0]; norm_num
    unfold Rect.make
    rw [if_neg (by rw [not_or]; exact ⟨(Geometry.norm_pos a ha).ne', (Geometry.norm_pos w hw).ne'⟩)]
    simp only
    rw [if_neg (by rw [h0]; norm_num), if_pos (by rw [norm_eq_one _ e]; norm_num)]
    exact ⟨_, rfl, ⟨hunit a ha, hunit w hw, h0, rfl⟩, rfl, rfl, rfl, rfl, rfl, rfl, rfl, rfl⟩
  · intro ha hw haw
    have pa := Geometry.norm_pos a ha
    have pw := Geometry.norm_pos w hw
    unfold Rect.make
    rw [if_neg (by rw [not_or]; exact ⟨pa.ne', pw.ne'⟩)]
    simp only
    rw [if_pos]
    rw [dot_smul_left, dot_smul_right, abs_mul, abs_mul, abs_of_pos (inv_pos.2 pa), abs_of_pos (inv_pos.2 pw), gt_iff_lt, ← mul_assoc, ← mul_inv, inv_mul_eq_div, lt_div_iff₀ (by positivity)]
    exact haw

/-! ### Sets -/

theorem foldl_or {α : Type} (l : List α) (f : α → Prop) (a : Prop) : l.foldl (fun acc q => acc ∨ f q) a ↔ a ∨ ∃ q ∈ l, f q := by
  induction l generalizing a with
  | nil => simp
  | cons x l ih => rw [List.foldl_cons, ih]; simp only [List.mem_cons, exists_eq_or_imp]; tauto

/-- **C164**: a set collides iff one of its ports does, with one gap for all or one gap per port (for at least two ports). -/
theorem C164_set (ports : List Port) (p : V3) (g : ℝ) (gs : List ℝ) (hl : gs.length = ports.length) (h2 : 2 ≤ ports.length) :
    (∃ r, setCollides ports p (.scalar g) = .ok r ∧ (r ↔ ∃ q ∈ ports, q.collides p g)) ∧
    (∃ r, setCollides ports p (.array gs) = .ok r ∧ (r ↔ ∃ (i : ℕ) (q : Port) (x : ℝ), ports[i]? = some q ∧ gs[i]? = some x ∧ q.collides p x)) := by
  constructor
  · refine ⟨_, rfl, ?_⟩
    rw [foldl_or]
    simp only [false_or]
    constructor
    · rintro ⟨q, hq, h⟩
      have h1 := List.of_mem_zip hq
      rw [List.eq_of_mem_replicate h1.2] at h
      exact ⟨q.1, h1.1, h⟩
    · rintro ⟨q, hq, h⟩
      obtain ⟨i, hi, rfl⟩ := List.getElem_of_mem hq
      refine ⟨(ports[i], g), ?_, h⟩
      rw [List.mem_iff_getElem]
      exact ⟨i, by simpa using hi, by simp⟩
  · have e : gapArr ports.length (.array gs) = .ok gs := by
      match gs, hl with
      | [], hl => simp at hl; omega
      | [_], hl => simp at hl; omega
      | a :: b :: r, hl => exact if_neg (by simpa using hl)
    unfold setCollides
    rw [e]
    refine ⟨_, rfl, ?_⟩
    rw [foldl_or]
    simp only [false_or]
    constructor
    · rintro ⟨q, hq, h⟩
      obtain ⟨i, hi, rfl⟩ := List.getElem_of_mem hq
      rw [List.length_zip] at hi
      refine ⟨i, ports[i]'(by omega), gs[i]'(by omega), List.getElem?_eq_getElem _, List.getElem?_eq_getElem _, ?_⟩
      simpa using h
    · rintro ⟨i, q, x, h1, h3, h⟩
      obtain ⟨hi, rfl⟩ := List.getElem?_eq_some_iff.1 h1
      obtain ⟨hj, rfl⟩ := List.getElem?_eq_some_iff.1 h3
      refine ⟨(ports[i], gs[i]), ?_, h⟩
      rw [List.mem_iff_getElem]
      exact ⟨i, by rw [List.length_zip]; omega, by simp⟩

/-- **C164** (violated): a list with one gap, for a set with one port, raises IndexError. -/
theorem C164_one_gap_violated (q : Port) (p : V3) (x : ℝ) : setCollides [q] p (.array [x]) = .error .indexError := rfl

/-- **C164** (violated): a gap below minus the outer radius of a circular port (to ask for points deep inside) makes the accepted radius grow again: the axis collides. -/
theorem C164_negative_gap_violated (c : Circ) (hu : c.Unit) (gap s : ℝ) (hs : min c.l0 c.l1 - gap ≤ s ∧ s ≤ max c.l0 c.l1 + gap) (hg : c.ir + c.thick + gap < 0) :
    c.collides (c.o + s • c.a) gap ∧ ¬ c.Solid gap (c.o + s • c.a) := by
  have hu' : dot c.a c.a = 1 := hu
  have hl : dot (c.o + s • c.a - c.o) c.a = s := by rw [dot_sub_left, dot_add_left, dot_smul_left, hu']; ring
  constructor
  · refine ⟨by simp only [hl]; exact hs, ?_⟩
    simp only [hl]
    rw [show c.o + s • c.a - (s • c.a + c.o) = 0 by module]
    have : dot (0 : V3) 0 = 0 := by simp [dot, Geometry.inner]
    rw [this]
    exact mul_self_nonneg _
  · rintro ⟨s', e, -, -, -, -, h⟩
    have := norm_nonneg e
    linarith

end Simsopt.Ports
