import Verif.Surfaces.GenericRZ
/-!
# C72 on the circular torus: the quadratures are exact on every grid

The constructor of SurfaceRZFourier makes a circular torus.  On every tensor grid with at least three equidistant poloidal points, whatever the toroidal points, `area`, `volume`,
the two radii and the aspect ratio are exactly those of the torus.  Also the non-vacuity witness for the hypotheses of C70-C72.
-/
namespace Simsopt.Surface
open Simsopt Simsopt.Coils Simsopt.RZSurf
open Simsopt.Geometry hiding norm normal

/-- The torus with the radii `R` and `a` as a SurfaceRZFourier with `mpol = 1`, `ntor = 0`. -/
noncomputable def torus (R a : ℝ) (nfp : Nat) : Surf := poke (poke (poke ⟨1, 0, nfp, true, fun _ => 0, fun _ => 0, fun _ => 0, fun _ => 0⟩ .rc 0 0 R) .rc 1 0 a) .zs 1 0 a

/-- The constructor's default surface is a torus with major radius 1 and minor radius 0.1. -/
theorem create_torus (nfp : Nat) : create 1 0 nfp true = torus 1 0.1 nfp := rfl

theorem torus_value (R a : ℝ) (nfp : Nat) (junk : Nat → ℝ × ℝ) (f : Fam) (p q : ℝ) :
    value (torus R a nfp) junk f p q = R • dRow (torus R a nfp) f .rc (2 * Real.pi * p) (2 * Real.pi * q) (0, 0) +
      a • dRow (torus R a nfp) f .rc (2 * Real.pi * p) (2 * Real.pi * q) (1, 0) + a • dRow (torus R a nfp) f .zs (2 * Real.pi * p) (2 * Real.pi * q) (1, 0) := by
  rw [value_lin]
  have h1 : (torus R a nfp).mpol = 1 := rfl
  have h2 : (torus R a nfp).width = 1 := rfl
  have h3 : (torus R a nfp).stellsym = true := rfl
  have a1 : (torus R a nfp).at .rc 0 0 = R := by simp [torus, poke, Surf.at, Surf.buf, Surf.width]
  have a2 : (torus R a nfp).at .rc 1 0 = a := by simp [torus, poke, Surf.at, Surf.buf, Surf.width]
  have a3 : (torus R a nfp).at .zs 0 0 = 0 := by simp [torus, poke, Surf.at, Surf.buf, Surf.width]
  have a4 : (torus R a nfp).at .zs 1 0 = a := by simp [torus, poke, Surf.at, Surf.buf, Surf.width]
  simp only [lin, h1, h2, modeTerm, h3, if_true, Finset.sum_range_succ, Finset.sum_range_zero, a1, a2, a3, a4]
  module

theorem torus_arrays (R a : ℝ) (nfp : Nat) (junk : Nat → ℝ × ℝ) (pq : ℝ × ℝ) :
    let φ := 2 * Real.pi * pq.1
    let θ := 2 * Real.pi * pq.2
    let r := R + a * Real.cos θ
    (arrays (torus R a nfp) junk).x pq = (r * Real.cos φ, r * Real.sin φ, a * Real.sin θ) ∧
    (arrays (torus R a nfp) junk).g1 pq = (2 * Real.pi * (-r * Real.sin φ), 2 * Real.pi * (r * Real.cos φ), 0) ∧
    (arrays (torus R a nfp) junk).g2 pq = (2 * Real.pi * (-a * Real.sin θ * Real.cos φ), 2 * Real.pi * (-a * Real.sin θ * Real.sin φ), 2 * Real.pi * (a * Real.cos θ)) := by
  intro φ θ r
  have h0 : ∀ m, angle (torus R a nfp) φ θ m 0 = m * θ := by intro m; simp [angle, torus, poke]
  have hn : nn (torus R a nfp) 0 = 0 := by simp [nn, torus, poke]
  refine ⟨?_, ?_, ?_⟩ <;> simp only [arrays, torus_value] <;> refine Prod.ext ?_ (Prod.ext ?_ ?_) <;> simp [dRow, h0, hn, φ, θ, r] <;> ring
/-! ### Sums over equidistant points -/

theorem telescope (h : ℝ) (n : Nat) : 2 * Real.sin (h / 2) * ((List.range n).map fun j : Nat => Real.cos (j * h)).sum = Real.sin ((n - 1 / 2) * h) + Real.sin (h / 2) := by
  induction n with
  | zero => simp; rw [show 2⁻¹ * h = h / 2 by ring]; ring
  | succ n ih =>
    rw [List.range_succ, List.map_append, List.sum_append, mul_add, ih]
    simp only [List.map_cons, List.map_nil, List.sum_cons, List.sum_nil, add_zero]
    have e1 : (((n + 1 : Nat) : ℝ) - 1 / 2) * h = n * h + h / 2 := by push_cast; ring
    have e2 : ((n : ℝ) - 1 / 2) * h = n * h - h / 2 := by ring
    rw [e1, e2, Real.sin_add, Real.sin_sub]
    ring

/-- `Σ_j cos(2π k j/n) = 0` for `0 < k < n`. -/
theorem sum_cos (n k : Nat) (hk : 0 < k) (hn : k < n) : ((List.range n).map fun j : Nat => Real.cos (j * (2 * Real.pi * k / n))).sum = 0 := by
  have h := telescope (2 * Real.pi * k / n) n
  have hn0 : (n : ℝ) ≠ 0 := by have : 0 < n := by omega
                               positivity
  have e : ((n : ℝ) - 1 / 2) * (2 * Real.pi * k / n) = (k : ℝ) * (2 * Real.pi) - 2 * Real.pi * k / n / 2 := by field_simp
  have hs : 0 < Real.sin (2 * Real.pi * k / n / 2) := by
    apply Real.sin_pos_of_pos_of_lt_pi
    · have : 0 < n := by omega
      positivity
    · have : (k : ℝ) < n := by exact_mod_cast hn
      have hnp : (0 : ℝ) < n := by have : 0 < n := by omega
                                   exact_mod_cast this
      rw [show 2 * Real.pi * k / n / 2 = Real.pi * (k / n) by ring]
      have : (k : ℝ) / n < 1 := (div_lt_one hnp).mpr this
      nlinarith [Real.pi_pos]
  have e2 : Real.sin ((k : ℝ) * (2 * Real.pi) - 2 * Real.pi * k / n / 2) = -Real.sin (2 * Real.pi * k / n / 2) := by
    rw [show (k : ℝ) * (2 * Real.pi) - 2 * Real.pi * k / n / 2 = -(2 * Real.pi * k / n / 2) + (k : ℝ) * (2 * Real.pi) by ring, Real.sin_add_nat_mul_two_pi, Real.sin_neg]
  rw [e, e2, neg_add_cancel] at h
  rcases mul_eq_zero.mp h with h | h
  · nlinarith
  · exact h

/-- The points `j/n`, `j = 0, ..., n-1` (`np.linspace(0, 1, n, endpoint=False)`, surface.py `get_theta_quadpoints` L108-124). -/
noncomputable def equi (n : Nat) : List ℝ := (List.range n).map fun (j : Nat) => (j : ℝ) / n

/-- The points of the tensor grid. -/
def tensor (ps qs : List ℝ) : List (ℝ × ℝ) := ps.flatMap fun p => qs.map fun q => (p, q)

theorem tensor_length (ps qs : List ℝ) : (tensor ps qs).length = ps.length * qs.length := by
  induction ps with
  | nil => simp [tensor]
  | cons p ps ih => simp only [tensor, List.flatMap_cons, List.length_append, List.length_map, List.length_cons] at ih ⊢; rw [ih, Nat.add_mul, Nat.one_mul, Nat.add_comm]

theorem tensor_sum (ps qs : List ℝ) (f : ℝ → ℝ) : ((tensor ps qs).map fun pq => f pq.2).sum = ps.length * (qs.map f).sum := by
  induction ps with
  | nil => simp [tensor]
  | cons p ps ih =>
    simp only [tensor, List.flatMap_cons, List.map_append, List.sum_append, List.length_cons, List.map_map] at ih ⊢
    rw [ih]; push_cast
    have : ((fun pq : ℝ × ℝ => f pq.2) ∘ fun q => (p, q)) = f := rfl
    rw [this]; ring

theorem mean_tensor (ps : List ℝ) (hp : ps ≠ []) (n : Nat) (f : ℝ × ℝ → ℝ) (g : ℝ → ℝ) (h : ∀ pq, f pq = g pq.2) :
    mean f (tensor ps (equi n)) = ((List.range n).map fun (j : Nat) => g (j / n)).sum / n := by
  have hl : (ps.length : ℝ) ≠ 0 := by exact_mod_cast (List.length_pos_iff.mpr hp).ne'
  have : f = fun pq => g pq.2 := funext h
  rw [mean, this, tensor_sum, tensor_length, equi]
  simp only [List.map_map, List.length_map, List.length_range]
  push_cast
  rw [mul_div_mul_left _ _ hl]
  rfl

theorem trig_mean (n : Nat) (hn : 3 ≤ n) (A B C : ℝ) :
    ((List.range n).map fun (j : Nat) => A + B * Real.cos (2 * Real.pi * (j / n)) + C * Real.cos (2 * Real.pi * (j / n)) ^ 2).sum / n = A + C / 2 := by
  have h1 := sum_cos n 1 (by omega) (by omega)
  have h2 := sum_cos n 2 (by omega) (by omega)
  have key : ∀ l : List Nat, (l.map fun (j : Nat) => A + B * Real.cos (2 * Real.pi * (j / n)) + C * Real.cos (2 * Real.pi * (j / n)) ^ 2).sum =
      l.length * (A + C / 2) + B * (l.map fun j : Nat => Real.cos (j * (2 * Real.pi * (1 : Nat) / n))).sum + C / 2 * (l.map fun j : Nat => Real.cos (j * (2 * Real.pi * (2 : Nat) / n))).sum := by
    intro l
    induction l with
    | nil => simp
    | cons j l ih =>
      simp only [List.map_cons, List.sum_cons, List.length_cons, ih]
      have e1 : (j : ℝ) * (2 * Real.pi * (1 : Nat) / n) = 2 * Real.pi * (j / n) := by push_cast; ring
      have e2 : (j : ℝ) * (2 * Real.pi * (2 : Nat) / n) = 2 * (2 * Real.pi * (j / n)) := by push_cast; ring
      rw [e1, e2, Real.cos_two_mul]
      push_cast
      ring
  rw [key, h1, h2]
  have : (n : ℝ) ≠ 0 := by have : 0 < n := by omega
                           positivity
  simp only [List.length_range]
  field_simp
  ring

/-! ### The torus -/

theorem torus_normal (R a : ℝ) (nfp : Nat) (junk : Nat → ℝ × ℝ) (pq : ℝ × ℝ) :
    normal (arrays (torus R a nfp) junk) pq = (4 * Real.pi ^ 2 * a * (R + a * Real.cos (2 * Real.pi * pq.2))) •
      ((Real.cos (2 * Real.pi * pq.2) * Real.cos (2 * Real.pi * pq.1), Real.cos (2 * Real.pi * pq.2) * Real.sin (2 * Real.pi * pq.1), Real.sin (2 * Real.pi * pq.2)) : V3) := by
  obtain ⟨_, h1, h2⟩ := torus_arrays R a nfp junk pq
  have t1 := Real.sin_sq_add_cos_sq (2 * Real.pi * pq.1)
  refine Prod.ext ?_ (Prod.ext ?_ ?_) <;> simp only [normal, h1, h2, Prod.smul_fst, Prod.smul_snd, smul_eq_mul]
  · ring
  · ring
  · linear_combination (4 * Real.pi ^ 2 * a * (R + a * Real.cos (2 * Real.pi * pq.2)) * Real.sin (2 * Real.pi * pq.2)) * t1

theorem torus_len (R a : ℝ) (ha : 0 < a) (hR : a < R) (nfp : Nat) (junk : Nat → ℝ × ℝ) (pq : ℝ × ℝ) :
    0 < R + a * Real.cos (2 * Real.pi * pq.2) ∧ len (normal (arrays (torus R a nfp) junk) pq) = 4 * Real.pi ^ 2 * a * (R + a * Real.cos (2 * Real.pi * pq.2)) := by
  have hpos : 0 < R + a * Real.cos (2 * Real.pi * pq.2) := by nlinarith [Real.neg_one_le_cos (2 * Real.pi * pq.2)]
  refine ⟨hpos, ?_⟩
  rw [torus_normal, len_smul, abs_of_pos (by positivity)]
  have t1 := Real.sin_sq_add_cos_sq (2 * Real.pi * pq.1)
  have t2 := Real.sin_sq_add_cos_sq (2 * Real.pi * pq.2)
  have : len ((Real.cos (2 * Real.pi * pq.2) * Real.cos (2 * Real.pi * pq.1), Real.cos (2 * Real.pi * pq.2) * Real.sin (2 * Real.pi * pq.1), Real.sin (2 * Real.pi * pq.2)) : V3) = 1 := by
    rw [len, Real.sqrt_eq_one]
    linear_combination (Real.cos (2 * Real.pi * pq.2)) ^ 2 * t1 + t2
  rw [this, mul_one]

/-- **C70, C72 (exact values; also the non-vacuity witness).** For a circular torus `0 < a < R`, every nonempty set of toroidal quadrature points and every number `n ≥ 3` of equidistant poloidal points: the normal vanishes
nowhere, the hypotheses of C72 hold, and `area() = 4π²Ra`, `volume() = 2π²Ra²`, `mean_cross_sectional_area() = πa²`, `minor_radius() = a`, `major_radius() = R`, `aspect_ratio() = R/a`. -/
theorem C72_torus (R a : ℝ) (ha : 0 < a) (hR : a < R) (nfp : Nat) (junk : Nat → ℝ × ℝ) (ps : List ℝ) (hp : ps ≠ []) (n : Nat) (hn : 3 ≤ n) :
    let S := arrays (torus R a nfp) junk
    let pts := tensor ps (equi n)
    (∀ pq ∈ pts, normal S pq ≠ 0) ∧ Good S pts ∧
    area S pts = 4 * Real.pi ^ 2 * R * a ∧ volume S pts = 2 * Real.pi ^ 2 * R * a ^ 2 ∧ meanArea S pts = Real.pi * a ^ 2 ∧
    minor S pts = a ∧ major S pts = R ∧ aspect S pts = R / a := by
  intro S pts
  have hl : ∀ pq, 0 < len (normal S pq) := fun pq => by
    obtain ⟨h1, h2⟩ := torus_len R a ha hR nfp junk pq
    rw [h2]; positivity
  have hx : ∀ pq, S.x pq = _ := fun pq => (torus_arrays R a nfp junk pq).1
  have h1 : ∀ pq, S.g1 pq = _ := fun pq => (torus_arrays R a nfp junk pq).2.1
  have h2 : ∀ pq, S.g2 pq = _ := fun pq => (torus_arrays R a nfp junk pq).2.2
  have hr : ∀ pq : ℝ × ℝ, 0 < R + a * Real.cos (2 * Real.pi * pq.2) := fun pq => (torus_len R a ha hR nfp junk pq).1
  have hrho : ∀ pq, (S.x pq).1 ^ 2 + (S.x pq).2.1 ^ 2 = (R + a * Real.cos (2 * Real.pi * pq.2)) ^ 2 := by
    intro pq; rw [hx]
    linear_combination (R + a * Real.cos (2 * Real.pi * pq.2)) ^ 2 * Real.sin_sq_add_cos_sq (2 * Real.pi * pq.1)
  have hoff : OffAxis S pts := fun pq _ => by rw [hrho]; have := hr pq; positivity
  have htor : Toroidal S pts := fun pq _ => by
    have : (S.x pq).1 * (S.g1 pq).2.1 - (S.x pq).2.1 * (S.g1 pq).1 = 2 * Real.pi * (R + a * Real.cos (2 * Real.pi * pq.2)) ^ 2 := by
      rw [hx, h1]
      linear_combination 2 * Real.pi * (R + a * Real.cos (2 * Real.pi * pq.2)) ^ 2 * Real.sin_sq_add_cos_sq (2 * Real.pi * pq.1)
    rw [this]; have := hr pq; positivity
  have hterm : ∀ pq, areaTerm S pq = 0 + 4 * Real.pi ^ 2 * a * R * Real.cos (2 * Real.pi * pq.2) + 4 * Real.pi ^ 2 * a ^ 2 * Real.cos (2 * Real.pi * pq.2) ^ 2 := by
    intro pq
    have hr0 := (hr pq).ne'
    simp only [areaTerm]
    rw [hrho, Real.sqrt_sq (hr pq).le]
    simp only [hx, h1, h2]
    rw [one_div, inv_mul_eq_iff_eq_mul₀ hr0]
    linear_combination (4 * a * Real.pi ^ 2 * (R + a * Real.cos (2 * Real.pi * pq.2)) ^ 2 * Real.cos (2 * Real.pi * pq.2)) * Real.sin_sq_add_cos_sq (2 * Real.pi * pq.1)
  have hmean : mean (areaTerm S) pts = 2 * Real.pi ^ 2 * a ^ 2 := by
    rw [mean_tensor ps hp n (areaTerm S) (fun q => 0 + 4 * Real.pi ^ 2 * a * R * Real.cos (2 * Real.pi * q) + 4 * Real.pi ^ 2 * a ^ 2 * Real.cos (2 * Real.pi * q) ^ 2) hterm,
      trig_mean n hn]
    ring
  have hgood : Good S pts := ⟨hoff, htor, by rw [hmean]; positivity⟩
  have hmA : meanArea S pts = Real.pi * a ^ 2 := by
    rw [meanArea_eq S pts hoff htor, hmean, abs_of_pos (by positivity)]
    have := Real.pi_ne_zero
    field_simp
  have hA : area S pts = 4 * Real.pi ^ 2 * R * a := by
    have : area S pts = mean (fun pq => len (normal S pq)) pts := rfl
    rw [this, mean_tensor ps hp n _ (fun q => 4 * Real.pi ^ 2 * a * R + 4 * Real.pi ^ 2 * a ^ 2 * Real.cos (2 * Real.pi * q) + 0 * Real.cos (2 * Real.pi * q) ^ 2)
      (fun pq => by rw [(torus_len R a ha hR nfp junk pq).2]; ring), trig_mean n hn]
    ring
  have hV : volume S pts = 2 * Real.pi ^ 2 * R * a ^ 2 := by
    have : volume S pts = mean (fun pq => (1 / 3) * ((S.x pq).1 * (normal S pq).1 + (S.x pq).2.1 * (normal S pq).2.1 + (S.x pq).2.2 * (normal S pq).2.2)) pts := rfl
    rw [this, mean_tensor ps hp n _ (fun q => 4 / 3 * Real.pi ^ 2 * a ^ 2 * R + 4 / 3 * Real.pi ^ 2 * a * (R ^ 2 + a ^ 2) * Real.cos (2 * Real.pi * q) + 4 / 3 * Real.pi ^ 2 * a ^ 2 * R * Real.cos (2 * Real.pi * q) ^ 2)
      (fun pq => by
        rw [hx, torus_normal]
        simp only [Prod.smul_fst, Prod.smul_snd, smul_eq_mul]
        have t1 := Real.sin_sq_add_cos_sq (2 * Real.pi * pq.1)
        have t2 := Real.sin_sq_add_cos_sq (2 * Real.pi * pq.2)
        set c := Real.cos (2 * Real.pi * pq.2)
        linear_combination (4 / 3 * Real.pi ^ 2 * a * (R + a * c) ^ 2 * c) * t1 + (4 / 3 * Real.pi ^ 2 * a ^ 2 * (R + a * c)) * t2), trig_mean n hn]
    ring
  have hm : minor S pts = a := by
    rw [minor, hmA, mul_div_cancel_left₀ _ Real.pi_ne_zero, Real.sqrt_sq ha.le]
  have hM : major S pts = R := by
    have hRp : 0 < R := by linarith
    rw [major, hV, hm, abs_of_pos (by positivity)]
    have := Real.pi_ne_zero
    field_simp
  refine ⟨fun pq _ h0 => ?_, hgood, hA, hV, hmA, hm, hM, by rw [aspect, hM, hm]⟩
  have := hl pq
  rw [h0] at this
  simp [len] at this

/-- The default surface: aspect ratio 10 on every such grid. -/
example (junk : Nat → ℝ × ℝ) : aspect (arrays (create 1 0 1 true) junk) (tensor [0, 1 / 4] (equi 5)) = 10 := by
  rw [create_torus, (C72_torus 1 0.1 (by norm_num) (by norm_num) 1 junk _ (by simp) 5 (by norm_num)).2.2.2.2.2.2.2]; norm_num

end Simsopt.Surface
