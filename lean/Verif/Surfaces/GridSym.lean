import Verif.Surfaces.Grid
import Mathlib.Algebra.BigOperators.Intervals
/-!
# C73: on symmetric surfaces a field period, or half of one, is enough
-/
namespace Simsopt.Surface
open Simsopt Simsopt.Coils Simsopt.RZSurf
open Simsopt.Geometry hiding norm normal

theorem list_sum_range (n : Nat) (f : Nat → ℝ) : ((List.range n).map f).sum = ∑ j ∈ Finset.range n, f j := by
  induction n with
  | zero => simp
  | succ n ih => rw [List.range_succ, List.map_append, List.sum_append, ih, Finset.sum_range_succ]; simp

/-- A sum over `a*n` consecutive integers, block by block. -/
theorem sum_blocks (n a : Nat) (f : Nat → ℝ) : ∑ j ∈ Finset.range (a * n), f j = ∑ i ∈ Finset.range a, ∑ b ∈ Finset.range n, f (i * n + b) := by
  induction a with
  | zero => simp
  | succ a ih =>
    rw [Finset.sum_range_succ, ← ih, Nat.add_mul, Nat.one_mul, Finset.sum_range_add]

/-- The sum over a poloidal slice. -/
noncomputable def slice (f : ℝ × ℝ → ℝ) (qs : List ℝ) (p : ℝ) : ℝ := (qs.map fun q => f (p, q)).sum

theorem mean_slices (f : ℝ × ℝ → ℝ) (ps qs : List ℝ) : mean f (tensor ps qs) = (ps.map (slice f qs)).sum / (ps.length * qs.length) := by
  rw [mean, tensor_length]
  push_cast
  congr 1
  induction ps with
  | nil => simp [tensor]
  | cons p ps ih =>
    simp only [tensor, List.flatMap_cons, List.map_append, List.sum_append, List.map_cons, List.sum_cons, List.map_map] at ih ⊢
    rw [ih]; rfl

/-- Midpoints of `N` cells of the full torus: `(j + 1/2)/N`. -/
noncomputable def midpoints (N : Nat) : List ℝ := (List.range N).map fun (j : Nat) => ((j : ℝ) + 1 / 2) / N

/-- **C73.** If `f` repeats after a field period, its mean over a "field period" grid with `n` toroidal points is its mean over the "full torus" grid with `n*nfp` toroidal points: for all `n ≥ 1`, `nfp ≥ 1` and
all poloidal points. -/
theorem C73_field_period_mean (f : ℝ × ℝ → ℝ) (n nfp : Nat) (hf : nfp ≠ 0) (qs : List ℝ) (hper : ∀ (p q : ℝ) (a : Int), f (p + a / nfp, q) = f (p, q))
    (l L : List ℝ) (h1 : phiQuad (some n) (some .field) nfp = some l) (h2 : phiQuad (some (nfp * n)) (some .full) nfp = some L) :
    mean f (tensor l qs) = mean f (tensor L qs) := by
  rw [phiQuad_field] at h1
  rw [phiQuad_full] at h2
  simp only [Option.some.injEq] at h1 h2
  subst h1; subst h2
  have hper' : ∀ (p : ℝ) (a : Int), slice f qs (p + a / nfp) = slice f qs p := by intro p a; simp only [slice, hper]
  rw [mean_slices, mean_slices]
  simp only [linspace, List.map_map, List.length_map, List.length_range]
  rw [list_sum_range, list_sum_range, sum_blocks n nfp]
  have hnfp : (nfp : ℝ) ≠ 0 := by exact_mod_cast hf
  have e : ∀ i ∈ Finset.range nfp, ∑ b ∈ Finset.range n, (slice f qs ∘ fun (j : Nat) => (j : ℝ) * (1 / ((nfp * n : Nat) : ℝ))) (i * n + b) =
      ∑ b ∈ Finset.range n, (slice f qs ∘ fun (j : Nat) => (j : ℝ) * (1 / (nfp : ℝ) / n)) b := by
    intro i _
    refine Finset.sum_congr rfl fun b hb => ?_
    have hn : (n : ℝ) ≠ 0 := by
      have : n ≠ 0 := by have := Finset.mem_range.mp hb; omega
      exact_mod_cast this
    simp only [Function.comp]
    rw [← hper' ((b : ℝ) * (1 / (nfp : ℝ) / n)) (i : Int)]
    congr 1
    push_cast
    field_simp
    ring
  rw [Finset.sum_congr rfl e, Finset.sum_const, Finset.card_range, nsmul_eq_mul]
  push_cast
  rw [mul_assoc (nfp : ℝ) n, mul_div_mul_left _ _ hnfp]

/-- The poloidal grid is symmetric: replacing `θ` by `-θ` permutes it modulo 1. -/
theorem slice_reflect (f : ℝ × ℝ → ℝ) (m : Nat) (hper : ∀ (p q : ℝ) (b : Int), f (p, q + b) = f (p, q)) (p : ℝ) :
    slice (fun pq => f (pq.1, -pq.2)) (equi m) p = slice f (equi m) p := by
  simp only [slice, equi, List.map_map]
  rw [list_sum_range, list_sum_range]
  simp only [Function.comp]
  rcases Nat.eq_zero_or_pos m with rfl | hm
  · simp
  obtain ⟨k, rfl⟩ : ∃ k, m = k + 1 := ⟨m - 1, by omega⟩
  rw [Finset.sum_range_succ', Finset.sum_range_succ' (fun j : Nat => f (p, (j : ℝ) / (k + 1 : Nat)))]
  congr 1
  · rw [← Finset.sum_range_reflect]
    refine Finset.sum_congr rfl fun j hj => ?_
    have hj' := Finset.mem_range.mp hj
    have hk : ((k + 1 : Nat) : ℝ) ≠ 0 := by positivity
    rw [← hper _ _ 1]
    congr 2
    have : ((k - 1 - j + 1 : Nat) : ℝ) = (k : ℝ) - j := by
      rw [show k - 1 - j + 1 = k - j by omega, Nat.cast_sub (by omega)]
    rw [this]
    push_cast
    field_simp
    ring
  · simp

theorem sum_reflect_half (g : ℝ → ℝ) (n N : Nat) (hN : (N : ℝ) ≠ 0) (hg : ∀ p, g (-p) = g p) (hper : ∀ p, g (p + 2 * n / N) = g p) :
    ∑ j ∈ Finset.range (2 * n), g (((j : ℝ) + 1 / 2) / N) = 2 * ∑ j ∈ Finset.range n, g (((j : ℝ) + 1 / 2) / N) := by
  rw [two_mul n, Finset.sum_range_add, two_mul]
  congr 1
  rw [← Finset.sum_range_reflect]
  refine Finset.sum_congr rfl fun j hj => ?_
  have hj' := Finset.mem_range.mp hj
  rw [← hg, ← hper]
  congr 1
  have : ((n + (n - 1 - j) : Nat) : ℝ) = 2 * n - 1 - j := by
    rw [show n + (n - 1 - j) = 2 * n - 1 - j by omega, Nat.cast_sub (by omega), Nat.cast_sub (by omega)]; push_cast; ring
  rw [this]
  field_simp
  ring

/-- **C73.** If `f` repeats after a field period and after a poloidal turn and does not change under `(φ, θ) → (-φ, -θ)`, its mean over a "half period" grid with `n ≥ 2` toroidal and `m` equidistant poloidal points is its
mean over the grid of the `2*n*nfp` midpoints of the full torus. -/
theorem C73_half_period_mean (f : ℝ × ℝ → ℝ) (n nfp m : Nat) (hf : nfp ≠ 0) (h2 : 2 ≤ n) (hper : ∀ (p q : ℝ) (a b : Int), f (p + a / nfp, q + b) = f (p, q)) (hsym : ∀ p q : ℝ, f (-p, -q) = f (p, q))
    (l : List ℝ) (h1 : phiQuad (some n) (some .half) nfp = some l) :
    mean f (tensor l (equi m)) = mean f (tensor (midpoints (nfp * (2 * n))) (equi m)) := by
  rw [phiQuad_half n nfp h2] at h1
  simp only [Option.some.injEq] at h1
  subst h1
  have hnfp : (nfp : ℝ) ≠ 0 := by exact_mod_cast hf
  have hn : (n : ℝ) ≠ 0 := by
    have : n ≠ 0 := by omega
    exact_mod_cast this
  set g := slice f (equi m) with hg
  have gper : ∀ (p : ℝ) (a : Int), g (p + a / nfp) = g p := by
    intro p a
    simp only [hg, slice]
    congr 1
    apply List.map_congr_left
    intro q _
    have := hper p q a 0
    simpa using this
  have geven : ∀ p, g (-p) = g p := by
    intro p
    rw [hg, ← slice_reflect f m (fun p q b => by simpa using hper p q 0 b) (-p)]
    simp only [slice, hsym]
  rw [mean_slices, mean_slices]
  simp only [midpoints, List.map_map, List.length_map, List.length_range]
  rw [list_sum_range, list_sum_range, sum_blocks (2 * n) nfp]
  have e : ∀ i ∈ Finset.range nfp, ∑ b ∈ Finset.range (2 * n), (g ∘ fun (j : Nat) => ((j : ℝ) + 1 / 2) / ((nfp * (2 * n) : Nat) : ℝ)) (i * (2 * n) + b) =
      ∑ b ∈ Finset.range (2 * n), g (((b : ℝ) + 1 / 2) / ((nfp * (2 * n) : Nat) : ℝ)) := by
    intro i _
    refine Finset.sum_congr rfl fun b hb => ?_
    simp only [Function.comp]
    rw [← gper (((b : ℝ) + 1 / 2) / ((nfp * (2 * n) : Nat) : ℝ)) (i : Int)]
    congr 1
    push_cast
    field_simp
    ring
  rw [Finset.sum_congr rfl e, Finset.sum_const, Finset.card_range, nsmul_eq_mul,
    sum_reflect_half g n (nfp * (2 * n)) (by push_cast; positivity) geven (fun p => by
      have := gper p 1
      rw [← this]; congr 1; push_cast; field_simp)]
  have e3 : ∀ j : Nat, ((j : ℝ) + 1 / 2) / ((nfp * (2 * n) : Nat) : ℝ) = ((j : ℝ) + 1 / 2) / (2 * n * nfp) := by
    intro j; push_cast; ring
  simp only [e3, Function.comp]
  clear_value g
  rw [← hg]
  generalize ∑ x ∈ Finset.range n, g (((x : ℝ) + 1 / 2) / (2 * n * nfp)) = X
  push_cast
  field_simp

/-! ### For SurfaceRZFourier -/

theorem normal_rot (a : ℝ) (u v : V3) : cross (rotZ a u) (rotZ a v) = rotZ a (cross u v) := by
  have t := Real.sin_sq_add_cos_sq a
  refine Prod.ext ?_ (Prod.ext ?_ ?_) <;> simp only [cross, rotZ]
  · ring
  · ring
  · linear_combination (u.1 * v.2.1 - u.2.1 * v.1) * t

theorem inner_rot (a : ℝ) (u v : V3) : inner (rotZ a u) (rotZ a v) = inner u v := by
  have t := Real.sin_sq_add_cos_sq a
  simp only [inner, rotZ]
  linear_combination (u.1 * v.1 + u.2.1 * v.2.1) * t

/-- A function of position and tangents which rotations about the axis and the reflection of stellarator symmetry do not change. -/
def Invariant (F : V3 → V3 → V3 → ℝ) : Prop :=
  (∀ (a : ℝ) (x u v : V3), F (rotZ a x) (rotZ a u) (rotZ a v) = F x u v) ∧
  (∀ x u v : V3, F (mirror x) (-mirror u) (-mirror v) = F x u v)

/-- The integrand of `area`, of `volume`, of `mean_cross_sectional_area`. -/
noncomputable def areaF (_x u v : V3) : ℝ := len (cross u v)
noncomputable def volumeF (x u v : V3) : ℝ := (1 / 3) * inner x (cross u v)
noncomputable def csF (x u v : V3) : ℝ := csTerm (⟨fun _ => x, fun _ => u, fun _ => v, fun _ => 0, fun _ => 0, fun _ => 0⟩ : Shape Unit) ()

theorem cross_mirror (u v : V3) : cross (-mirror u) (-mirror v) = mirror (cross u v) := by
  refine Prod.ext ?_ (Prod.ext ?_ ?_) <;> simp [cross, mirror] <;> ring

theorem invariant_area : Invariant areaF := by
  constructor
  · intro a x u v
    rw [areaF, areaF, normal_rot, len, len]
    congr 1
    exact inner_rot a (cross u v) (cross u v)
  · intro x u v
    rw [areaF, areaF, cross_mirror, len, len]
    simp [mirror]

theorem invariant_volume : Invariant volumeF := by
  constructor
  · intro a x u v
    rw [volumeF, volumeF, normal_rot, inner_rot]
  · intro x u v
    rw [volumeF, volumeF, cross_mirror]
    simp [mirror, inner]

theorem invariant_cs : Invariant csF := by
  constructor
  · intro a x u v
    have t := Real.sin_sq_add_cos_sq a
    have e1 : (rotZ a x).1 ^ 2 + (rotZ a x).2.1 ^ 2 = x.1 ^ 2 + x.2.1 ^ 2 := by simp only [rotZ]; linear_combination (x.1 ^ 2 + x.2.1 ^ 2) * t
    have e2 : ∀ w : V3, (rotZ a x).1 * (rotZ a w).2.1 - (rotZ a x).2.1 * (rotZ a w).1 = x.1 * w.2.1 - x.2.1 * w.1 := by
      intro w; simp only [rotZ]; linear_combination (x.1 * w.2.1 - x.2.1 * w.1) * t
    have e3 : ∀ w : V3, (rotZ a w).2.2 = w.2.2 := fun w => rfl
    simp only [csF, csTerm, e1, e2, e3]
  · intro x u v
    have e1 : (mirror x).1 ^ 2 + (mirror x).2.1 ^ 2 = x.1 ^ 2 + x.2.1 ^ 2 := by simp [mirror]
    have e2 : ∀ w : V3, (mirror x).1 * (-mirror w).2.1 - (mirror x).2.1 * (-mirror w).1 = x.1 * w.2.1 - x.2.1 * w.1 := by
      intro w; simp [mirror]
    have e3 : ∀ w : V3, (-mirror w).2.2 = w.2.2 := fun w => by simp [mirror]
    simp only [csF, csTerm, e1, e2, e3]

/-- An invariant integrand on a SurfaceRZFourier. -/
noncomputable def along (s : Surf) (junk : Nat → ℝ × ℝ) (F : V3 → V3 → V3 → ℝ) (pq : ℝ × ℝ) : ℝ :=
  F (value s junk .g pq.1 pq.2) (value s junk .g1 pq.1 pq.2) (value s junk .g2 pq.1 pq.2)

theorem along_period (s : Surf) (hn : s.nfp ≠ 0) (junk : Nat → ℝ × ℝ) (F : V3 → V3 → V3 → ℝ) (hF : Invariant F) (p q : ℝ) (a b : Int) :
    along s junk F (p + a / s.nfp, q + b) = along s junk F (p, q) := by
  simp only [along, C68_field_period s hn junk junk, hF.1]

theorem along_sym (s : Surf) (hs : s.stellsym = true) (junk : Nat → ℝ × ℝ) (F : V3 → V3 → V3 → ℝ) (hF : Invariant F) (p q : ℝ) :
    along s junk F (-p, -q) = along s junk F (p, q) := by
  simp only [along, C68_stellsym s hs junk junk, Fam.order, pow_zero, pow_one, one_smul, neg_one_smul, hF.2]

/-- **C73.** For every SurfaceRZFourier, `area()`, `volume()`, `mean_cross_sectional_area()`, `minor_radius()`, `major_radius()` and `aspect_ratio()` do not change when the "field period" grid with `n` toroidal points
is replaced by the "full torus" grid with `n*nfp` points; for stellarator-symmetric ones, nor when the "half period" grid with `n ≥ 2` points is replaced by the full torus midpoint grid with `2*n*nfp` points. -/
theorem C73_integrals (s : Surf) (hn : s.nfp ≠ 0) (junk : Nat → ℝ × ℝ) (n m : Nat) (l L : List ℝ)
    (h : (phiQuad (some n) (some .field) s.nfp = some l ∧ phiQuad (some (s.nfp * n)) (some .full) s.nfp = some L) ∨
      (s.stellsym = true ∧ 2 ≤ n ∧ phiQuad (some n) (some .half) s.nfp = some l ∧ L = midpoints (s.nfp * (2 * n)))) :
    let S := arrays s junk
    let P := tensor l (equi m)
    let Q := tensor L (equi m)
    area S P = area S Q ∧ volume S P = volume S Q ∧ meanArea S P = meanArea S Q ∧ minor S P = minor S Q ∧ major S P = major S Q ∧ aspect S P = aspect S Q := by
  intro S P Q
  have key : ∀ F, Invariant F → mean (along s junk F) P = mean (along s junk F) Q := by
    intro F hF
    rcases h with ⟨h1, h2⟩ | ⟨hs, h2, h1, rfl⟩
    · exact C73_field_period_mean _ n s.nfp hn (equi m) (fun p q a => by simpa using along_period s hn junk F hF p q a 0) l L h1 h2
    · exact C73_half_period_mean _ n s.nfp m hn h2 (along_period s hn junk F hF) (along_sym s hs junk F hF) l h1
  have hA : area S P = area S Q := key areaF invariant_area
  have hV : volume S P = volume S Q := key volumeF invariant_volume
  have hM : meanArea S P = meanArea S Q := by
    have := key csF invariant_cs
    rw [meanArea, meanArea]
    exact congrArg (fun x => |x| / (2 * Real.pi)) this
  have hm : minor S P = minor S Q := by rw [minor, minor, hM]
  have hR : major S P = major S Q := by rw [major, major, hV, hm]
  exact ⟨hA, hV, hM, hm, hR, by rw [aspect, aspect, hm, hR]⟩

end Simsopt.Surface
