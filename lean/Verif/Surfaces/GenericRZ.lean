import Verif.Surfaces.GenericRadii
import Verif.Surfaces.RZSym
import Verif.Surfaces.RZJac
/-!
# C70-C72 for SurfaceRZFourier, and the behaviour under scaling
-/
namespace Simsopt.Surface
open Simsopt Simsopt.Coils Simsopt.RZSurf
open Simsopt.Geometry hiding norm normal

/-- The six arrays of a SurfaceRZFourier, as functions of the quadrature point. -/
noncomputable def arrays (s : Surf) (junk : Nat → ℝ × ℝ) : Shape (ℝ × ℝ) where
  x := fun pq => value s junk .g pq.1 pq.2
  g1 := fun pq => value s junk .g1 pq.1 pq.2
  g2 := fun pq => value s junk .g2 pq.1 pq.2
  g11 := fun pq => value s junk .g11 pq.1 pq.2
  g12 := fun pq => value s junk .g12 pq.1 pq.2
  g22 := fun pq => value s junk .g22 pq.1 pq.2

/-- The columns of dof `k` in `dgamma_by_dcoeff`, `dgammadash1_by_dcoeff`, ... -/
noncomputable def column (s : Surf) (k : Nat) : Shape (ℝ × ℝ) where
  x := fun pq => (jacobian s .g pq.1 pq.2)[k]?.getD 0
  g1 := fun pq => (jacobian s .g1 pq.1 pq.2)[k]?.getD 0
  g2 := fun pq => (jacobian s .g2 pq.1 pq.2)[k]?.getD 0
  g11 := fun pq => (jacobian s .g11 pq.1 pq.2)[k]?.getD 0
  g12 := fun pq => (jacobian s .g12 pq.1 pq.2)[k]?.getD 0
  g22 := fun pq => (jacobian s .g22 pq.1 pq.2)[k]?.getD 0

/-- The surface with the dofs `d`, dof `k` replaced by `x`. -/
noncomputable def line (s : Surf) (junk : Nat → ℝ × ℝ) (d : List ℝ) (k : Nat) (x : ℝ) : Shape (ℝ × ℝ) := arrays (setDofs s (d.set k x)) junk

theorem line_at (s : Surf) (junk : Nat → ℝ × ℝ) (d : List ℝ) (k : Nat) (hk : k < d.length) : line s junk d k d[k] = arrays (setDofs s d) junk := by
  rw [line, List.set_getElem_self]

theorem along_line (s : Surf) (junk : Nat → ℝ × ℝ) (d : List ℝ) (hd : (d.length : Int) = s.numDofs) (k : Nat) (hk : k < d.length) :
    Along (line s junk d k) (column s k) d[k] := by
  have key : ∀ (f : Fam) (pq : ℝ × ℝ), HasDerivAt (fun x => value (setDofs s (d.set k x)) junk f pq.1 pq.2) ((jacobian s f pq.1 pq.2)[k]?.getD 0) d[k] := by
    intro f pq
    obtain ⟨row, h1, h2⟩ := C67_jacobian s junk f d hd pq.1 pq.2 k hk
    rw [h1]; exact h2
  exact fun pq => ⟨key .g pq, key .g1 pq, key .g2 pq, key .g11 pq, key .g12 pq, key .g22 pq⟩

/-- What `darea_by_dcoeff` computes for a SurfaceRZFourier: `dnormal_by_dcoeff_vjp` calls its overridden `dgammadash1_by_dcoeff_vjp` and `dgammadash2_by_dcoeff_vjp`, each with
its own distribution of the points over threads (surface.cpp L503-562). -/
noncomputable def rzNormalVjp (brace : Bool) (s : Surf) (junk : Nat → ℝ × ℝ) (v : ℝ × ℝ → V3) (th1 th2 : List (List (ℝ × ℝ))) (k : Nat) : ℝ :=
  vjp brace s .g1 junk (vjpRes1 (arrays s junk) v) th1 k + vjp brace s .g2 junk (vjpRes2 (arrays s junk) v) th2 k

theorem rzNormalVjp_eq (brace : Bool) (s : Surf) (junk : Nat → ℝ × ℝ) (v : ℝ × ℝ → V3) (pts : List (ℝ × ℝ)) (th1 th2 : List (List (ℝ × ℝ)))
    (h1 : th1.flatten.Perm pts) (h2 : th2.flatten.Perm pts) (k : Nat) (hk : (k : Int) < s.numDofs) :
    rzNormalVjp brace s junk v th1 th2 k = dnormalVjp (arrays s junk) (column s k) v pts := by
  rw [rzNormalVjp, (C67_vjp brace s .g1 (by simp) junk _ pts th1 h1).1 k hk, (C67_vjp brace s .g2 (by simp) junk _ pts th2 h2).1 k hk]
  rfl

/-- **C70, C71, C72 for SurfaceRZFourier.** At every dof vector, for every dof and every set of quadrature points: `darea_by_dcoeff` and `dvolume_by_dcoeff` as computed by the threaded
vector-Jacobian products are the partial derivatives of `area()` and `volume()`, whatever the distribution of the points over the threads. -/
theorem C70_rzfourier (brace : Bool) (s : Surf) (junk : Nat → ℝ × ℝ) (d : List ℝ) (hd : (d.length : Int) = s.numDofs) (k : Nat) (hk : k < d.length)
    (pts : List (ℝ × ℝ)) (th1 th2 th3 : List (List (ℝ × ℝ))) (h1 : th1.flatten.Perm pts) (h2 : th2.flatten.Perm pts) (h3 : th3.flatten.Perm pts) :
    ((∀ pq ∈ pts, normal (arrays (setDofs s d) junk) pq ≠ 0) → HasDerivAt (fun x => area (line s junk d k x) pts)
      (rzNormalVjp brace (setDofs s d) junk (fun p => (1 / (pts.length : ℝ)) • unitnormal (arrays (setDofs s d) junk) p) th1 th2 k) d[k]) ∧
    HasDerivAt (fun x => volume (line s junk d k x) pts)
      (rzNormalVjp brace (setDofs s d) junk (fun p => (1 / 3 * (1 / (pts.length : ℝ))) • (arrays (setDofs s d) junk).x p) th1 th2 k +
        vjp brace (setDofs s d) .g junk (fun p => (1 / 3 * (1 / (pts.length : ℝ))) • normal (arrays (setDofs s d) junk) p) th3 k) d[k] := by
  have hk' : (k : Int) < (setDofs s d).numDofs := by
    obtain ⟨e1, e2, e3, e4⟩ := setDofs_params s d
    have : (setDofs s d).numDofs = s.numDofs := by simp [Surf.numDofs, e1, e2, e4]
    rw [this, ← hd]; exact_mod_cast hk
  have hcol : column (setDofs s d) k = column s k := by simp only [column, jacobian_setDofs]
  have hal := along_line s junk d hd k hk
  constructor
  · intro h0
    rw [rzNormalVjp_eq brace _ junk _ pts th1 th2 h1 h2 k hk', hcol]
    have := C70_area (line s junk d k) (column s k) d[k] hal pts (by rw [line_at]; exact h0)
    refine this.congr_deriv ?_
    rw [line_at, darea, dnormalVjp_eq, dnormalVjp_eq]
    congr 1
    apply List.map_congr_left
    intro p _
    congr 1
    refine Prod.ext ?_ (Prod.ext ?_ ?_) <;> simp [unitnormal] <;> ring
  · rw [rzNormalVjp_eq brace _ junk _ pts th1 th2 h1 h2 k hk', hcol, (C67_vjp brace _ .g (by simp) junk _ pts th3 h3).1 k hk']
    have := C70_volume (line s junk d k) (column s k) d[k] hal pts
    refine this.congr_deriv ?_
    rw [line_at, dvolume]
    congr 1
    · rw [dnormalVjp_eq, dnormalVjp_eq]
      congr 1
      apply List.map_congr_left
      intro p _
      congr 1
      refine Prod.ext ?_ (Prod.ext ?_ ?_) <;> simp <;> ring
    · rw [contract]
      congr 1
      apply List.map_congr_left
      intro p _
      simp only [jacobian_setDofs]
      congr 1
      refine Prod.ext ?_ (Prod.ext ?_ ?_) <;> simp <;> ring

/-! ### Scaling -/

/-- All the arrays multiplied by `c`. -/
def scaled {P : Type} (c : ℝ) (S : Shape P) : Shape P where
  x := fun p => c • S.x p
  g1 := fun p => c • S.g1 p
  g2 := fun p => c • S.g2 p
  g11 := fun p => c • S.g11 p
  g12 := fun p => c • S.g12 p
  g22 := fun p => c • S.g22 p

variable {P : Type}

theorem normal_scaled (c : ℝ) (S : Shape P) (p : P) : normal (scaled c S) p = (c ^ 2) • normal S p := by
  refine Prod.ext ?_ (Prod.ext ?_ ?_) <;> simp [normal, scaled] <;> ring

theorem len_smul (c : ℝ) (n : V3) : len (c • n) = |c| * len n := by
  have : (c • n).1 * (c • n).1 + (c • n).2.1 * (c • n).2.1 + (c • n).2.2 * (c • n).2.2 = c ^ 2 * (n.1 * n.1 + n.2.1 * n.2.1 + n.2.2 * n.2.2) := by simp; ring
  rw [len, len, this, Real.sqrt_mul (sq_nonneg c), Real.sqrt_sq_eq_abs]

theorem mean_mul (c : ℝ) (f : P → ℝ) (pts : List P) : mean (fun p => c * f p) pts = c * mean f pts := by
  rw [mean, mean, ← mul_div_assoc, mul_comm c (List.sum _), sum_mul]
  simp only [mul_comm]

theorem csTerm_scaled (c : ℝ) (hc : c ≠ 0) (S : Shape P) (p : P) : csTerm (scaled c S) p = (c * |c|) * csTerm S p := by
  have h1 : ((scaled c S).x p).1 ^ 2 + ((scaled c S).x p).2.1 ^ 2 = c ^ 2 * ((S.x p).1 ^ 2 + (S.x p).2.1 ^ 2) := by simp [scaled]; ring
  have h2 : Real.sqrt (c ^ 2 * ((S.x p).1 ^ 2 + (S.x p).2.1 ^ 2)) = |c| * Real.sqrt ((S.x p).1 ^ 2 + (S.x p).2.1 ^ 2) := by rw [Real.sqrt_mul (sq_nonneg c), Real.sqrt_sq_eq_abs]
  have hJ : ∀ u v w z D : ℝ, (c * u * (c * v) - c * w * (c * z)) / (c ^ 2 * D) = (u * v - w * z) / D := by
    intro u v w z D
    have : c * u * (c * v) - c * w * (c * z) = c ^ 2 * (u * v - w * z) := by ring
    rw [this, mul_div_mul_left _ _ (pow_ne_zero 2 hc)]
  simp only [csTerm, h1, h2]
  simp only [scaled, Prod.smul_fst, Prod.smul_snd, smul_eq_mul, hJ]
  ring

/-- **C72.** Multiplying the position by `c ≠ 0` (and so all its derivatives) multiplies `area()` by `c²`, `volume()` by `c³`, `mean_cross_sectional_area()` by `c²`, the minor and the major
radius by `|c|`, and leaves the aspect ratio and the unit normal unchanged. -/
theorem C72_scale (c : ℝ) (hc : c ≠ 0) (S : Shape P) (pts : List P) :
    area (scaled c S) pts = c ^ 2 * area S pts ∧ volume (scaled c S) pts = c ^ 3 * volume S pts ∧
    meanArea (scaled c S) pts = c ^ 2 * meanArea S pts ∧ minor (scaled c S) pts = |c| * minor S pts ∧
    major (scaled c S) pts = |c| * major S pts ∧ aspect (scaled c S) pts = aspect S pts ∧
    (∀ p, unitnormal (scaled c S) p = unitnormal S p) := by
  have hV : volume (scaled c S) pts = c ^ 3 * volume S pts := by
    rw [volume, volume, ← mul_div_assoc, mul_comm (c ^ 3) (List.sum _), sum_mul]
    congr 2
    apply List.map_congr_left
    intro p _
    rw [normal_scaled]
    simp [scaled]; ring
  have hA : meanArea (scaled c S) pts = c ^ 2 * meanArea S pts := by
    rw [meanArea, meanArea]
    have : csTerm (scaled c S) = fun p => (c * |c|) * csTerm S p := funext fun p => csTerm_scaled c hc S p
    rw [this, mean_mul, abs_mul, abs_mul, abs_abs, abs_mul_abs_self]; ring
  have hr : minor (scaled c S) pts = |c| * minor S pts := by
    rw [minor, minor, hA, mul_div_assoc, Real.sqrt_mul (sq_nonneg c), Real.sqrt_sq_eq_abs]
  have hc' : |c| ≠ 0 := abs_ne_zero.mpr hc
  have hR : major (scaled c S) pts = |c| * major S pts := by
    rw [major, major, hV, hr, abs_mul, abs_pow]
    by_cases h0 : minor S pts = 0
    · simp [h0]
    · have := Real.pi_ne_zero
      field_simp
  refine ⟨?_, hV, hA, hr, hR, ?_, ?_⟩
  · rw [area, area, ← mul_div_assoc, mul_comm (c ^ 2) (List.sum _), sum_mul]
    congr 2
    apply List.map_congr_left
    intro p _
    rw [normal_scaled, len_smul, abs_of_nonneg (sq_nonneg c)]; ring
  · rw [aspect, aspect, hr, hR, mul_div_mul_left _ _ hc']
  · intro p
    rw [unitnormal_smul, unitnormal_smul, normal_scaled, len_smul, abs_of_nonneg (sq_nonneg c), smul_smul]
    congr 1
    have := pow_ne_zero 2 hc
    by_cases h0 : len (normal S p) = 0
    · simp [h0]
    · field_simp

/-- **C72 for SurfaceRZFourier.** Setting all the dofs to `c` times their values scales every array by `c` (and so C72_scale applies), if the entries that are not dofs are 0. -/
theorem C72_rzfourier_scale (s : Surf) (hc : Clean s) (junk : Nat → ℝ × ℝ) (d : List ℝ) (hd : (d.length : Int) = s.numDofs) (c : ℝ) :
    arrays (setDofs s (d.map (c * ·))) junk = scaled c (arrays (setDofs s d) junk) := by
  have key : ∀ (f : Fam) (p q : ℝ), value (setDofs s (d.map (c * ·))) junk f p q = c • value (setDofs s d) junk f p q := by
    intro f p q
    obtain ⟨g1, g2, g3, g4⟩ := setDofs_params s d
    obtain ⟨e1, e2, e3, e4⟩ := setDofs_params s (d.map (c * ·))
    rw [value_lin, value_lin, dRow_congr _ s e2 e3, dRow_congr _ s g2 g3]
    have hw : (setDofs s d).width = s.width := by simp [Surf.width, g2]
    have hw' : (setDofs s (d.map (c * ·))).width = s.width := by simp [Surf.width, e2]
    have hat : ∀ (k : Kind) (m i : Nat), available s k = true → m < s.mpol + 1 → i < s.width →
        (setDofs s (d.map (c * ·))).at k m i • dRow s f k (2 * Real.pi * p) (2 * Real.pi * q) (m, i) =
          c • ((setDofs s d).at k m i • dRow s f k (2 * Real.pi * p) (2 * Real.pi * q) (m, i)) := by
      intro k m i ha hm hi
      rw [smul_smul, Surf.at, Surf.at, hw, hw']
      have hj : m * s.width + i < s.size := by
        have : (m + 1) * s.width ≤ (s.mpol + 1) * s.width := Nat.mul_le_mul_right _ hm
        rw [Surf.size]; rw [Nat.add_mul, Nat.one_mul] at this; omega
      by_cases hmem : (k, m * s.width + i) ∈ layout s
      · obtain ⟨pidx, hp⟩ := List.mem_iff_getElem?.mp hmem
        have hpl : pidx < d.length := by
          have h1 := layout_length s
          have h2 := (List.getElem?_eq_some_iff.mp hp).1
          omega
        have s1 := setDofs_entry s d pidx k _ hp
        have s2 := setDofs_entry s (d.map (c * ·)) pidx k _ hp
        rw [s1, s2]; simp [List.getElem?_eq_getElem hpl]
      · rw [setDofs_other s _ k _ hmem, setDofs_other s _ k _ hmem]
        have hlt : m * s.width + i < s.ntor + 1 := by
          by_contra hcon
          apply hmem
          rw [mem_layout]
          refine ⟨ha, ?_, hj⟩
          simp only [Surf.lo]; split <;> omega
        by_cases hz : m * s.width + i < s.ntor
        · rw [hc k _ hz]; simp
        · have hne : m * s.width + i = s.ntor := by omega
          have hk : k = .rs ∨ k = .zs := by
            by_contra hcon
            apply hmem
            rw [mem_layout]
            refine ⟨ha, ?_, hj⟩
            have : k = .rc ∨ k = .zc := by cases k <;> simp_all
            simp only [Surf.lo, this, decide_true, if_true]; omega
          have hm0 : m = 0 := by
            rcases Nat.eq_zero_or_pos m with h | h
            · exact h
            · have : 1 * s.width ≤ m * s.width := Nat.mul_le_mul_right _ h
              simp only [Surf.width] at this hne; omega
          subst hm0
          have hi0 : i = s.ntor := by omega
          subst hi0
          have hrow : dRow s f k (2 * Real.pi * p) (2 * Real.pi * q) (0, s.ntor) = 0 := by
            rcases hk with rfl | rfl <;> cases f <;> refine Prod.ext ?_ (Prod.ext ?_ ?_) <;> simp [dRow, angle, nn]
          rw [hrow, smul_zero, smul_zero]
    simp only [lin, hw, hw', g1, e1, Finset.smul_sum]
    refine Finset.sum_congr rfl fun m hm => Finset.sum_congr rfl fun i hi => ?_
    have hm' := Finset.mem_range.mp hm
    have hi' := Finset.mem_range.mp hi
    simp only [modeTerm, e4, g4, smul_add]
    rw [hat .rc m i rfl hm' hi', hat .zs m i rfl hm' hi']
    congr 2
    split
    · simp
    · rename_i hs
      rw [smul_add, hat .rs m i (by simp [available, hs]) hm' hi', hat .zc m i (by simp [available, hs]) hm' hi']
  simp only [arrays, scaled, key]

end Simsopt.Surface
