import Verif.WField.Field
import Verif.Wireframe.Witness
import Verif.Wireframe.ConsProps
import Verif.Surfaces.RZSym
/-!
# The wireframe of a surface: continuity makes the field a vacuum field (C130)

Model of the nodes and half periods of `ToroidalWireframe.__init__` (src/simsopt/geo/wireframe_toroidal.py L67-118) and of what `WireframeField.__init__` passes on (src/simsopt/field/wireframefield.py L22-28).
-/
namespace Simsopt.WField
open Fields Wireframe Coils

/-- A row of an array of points. -/
def ofV3 (v : V3) : P3 := ![v.1, v.2.1, v.2.2]

/-- The rotation of L98-113. -/
noncomputable def rot (a : ℝ) (p : P3) : P3 := ![Real.cos a * p 0 - Real.sin a * p 1, Real.sin a * p 0 + Real.cos a * p 1, p 2]

/-- The reflection of L91-94. -/
def refl (p : P3) : P3 := ![p 0, -p 1, -p 2]

/-- `nodes[0]` (L67-81): node `v = i * n_theta + j` is the point of the surface at `phi = linspace(0, 0.5/nfp, n_phi+1)[i]`, `theta = linspace(0, 1, n_theta, endpoint=False)[j]`. -/
noncomputable def nodes0 (s : RZSurf.Surf) (junk : ℕ → ℝ × ℝ) (g : Grid) (v : ℕ) : P3 :=
  ofV3 (RZSurf.value s junk .g ((v / g.n : ℕ) * (0.5 / s.nfp) / g.N) ((v % g.n : ℕ) / g.n))

/-- `nodes` and `seg_signs` (L84-118). -/
noncomputable def halves (nfp : ℕ) (nodes : ℕ → P3) : List ((ℕ → P3) × ℝ) :=
  [(nodes, 1), (fun v => refl (nodes v), -1)] ++ (List.range (nfp - 1)).flatMap fun (i : ℕ) =>
    let phi := 2 * ((i + 1 : ℕ) : ℝ) * Real.pi / nfp
    [(fun v => rot phi (nodes v), 1), (fun v => rot phi (refl (nodes v)), -1)]

/-- `WireframeField(wframe)` for the wireframe of the surface `s`, whose segments carry the currents `x`. -/
noncomputable def wireOf (s : RZSurf.Surf) (junk : ℕ → ℝ × ℝ) (g : Grid) (x : ℤ → ℝ) : Wire where
  halves := halves s.nfp (nodes0 s junk g)
  segments := (List.range g.nSeg).map fun t => (g.segStart t, g.segEnd t)
  currents := fun t => x t

/-! ### Sums -/

theorem sum_neg (f : ℤ → ℝ) (m : ℕ) (hper : ∀ I, f (I + m) = f I) : ∑ k ∈ Finset.range m, f (-(k : ℤ)) = ∑ k ∈ Finset.range m, f k := by
  have h1 := Finset.sum_range_reflect (fun k => f ((k : ℤ) + 1)) m
  have h2 := sum_shift (fun k => f (k + 1)) m (fun I => by rw [show I + m + 1 = (I + 1) + m by ring, hper])
  simp only [sub_add_cancel] at h2
  rw [h2, ← h1]
  refine Finset.sum_congr rfl fun k hk => ?_
  have hk := Finset.mem_range.1 hk
  rw [← hper]
  congr 1
  omega

theorem sum_half (f : ℤ → ℝ) (h : ℕ) (hper : ∀ I, f (I + (2 * h : ℕ)) = f I) (hs : ∀ I, f (-I - 1) = f I) : ∑ k ∈ Finset.range (2 * h), f k = 2 * ∑ k ∈ Finset.range h, f k := by
  rw [two_mul, Finset.sum_range_add, two_mul]
  congr 1
  rw [← Finset.sum_range_reflect (fun k => f (k : ℤ)) h]
  refine Finset.sum_congr rfl fun k hk => ?_
  have hk := Finset.mem_range.1 hk
  rw [← hs, ← hper]
  congr 1
  push_cast
  omega

theorem sum_mul (a n : ℕ) (f : ℕ → ℝ) : ∑ s ∈ Finset.range (a * n), f s = ∑ i ∈ Finset.range a, ∑ j ∈ Finset.range n, f (i * n + j) := by
  induction a with
  | zero => simp
  | succ a ih => rw [Nat.succ_mul, Finset.sum_range_add, ih, Finset.sum_range_succ]

variable {g : Grid} {x : ℤ → ℝ} {T P : ℤ → ℤ → ℝ}

/-- Summation by parts along a poloidal line. -/
theorem row_sum (hd : DivFree T P) (hf : g.IsFlow x T P) (I : ℤ) (F : ℤ → ℝ) (hF : ∀ J, F (J + g.n) = F J) :
    ∑ j ∈ Finset.range g.n, P I j * (F (j + 1) - F j) = ∑ j ∈ Finset.range g.n, F j * (T I j - T (I - 1) j) := by
  have h := sum_shift (fun J => P I J * F (J + 1)) g.n (fun J => by rw [(hf.perP I J).2, show J + g.n + 1 = (J + 1) + g.n by ring, hF])
  simp only [sub_add_cancel] at h
  simp only [mul_sub, Finset.sum_sub_distrib]
  rw [← h, ← Finset.sum_sub_distrib, ← Finset.sum_sub_distrib]
  refine Finset.sum_congr rfl fun j _ => ?_
  have := hd I j
  linear_combination F j * this

/-- The half period: everything cancels if the weights of the nodes are antisymmetric on the symmetry planes. -/
theorem half_sum (h2 : 2 ≤ g.N) (h1 : 1 ≤ g.h) (hd : DivFree T P) (hf : g.IsFlow x T P) (H : ℕ → ℤ → ℝ) (hper : ∀ i J, H i (J + g.n) = H i J) (h0 : ∀ J, H 0 (-J) = -H 0 J) (hN : ∀ J, H g.N (-J) = -H g.N J) :
    ∑ i ∈ Finset.range g.N, ∑ j ∈ Finset.range g.n, T i j * (H (i + 1) j - H i j) +
      (∑ j ∈ Finset.range g.h, P 0 j * (H 0 (j + 1) - H 0 j) +
        ∑ i ∈ Finset.range (g.N - 1), ∑ j ∈ Finset.range g.n, P ((i + 1 : ℕ) : ℤ) j * (H (i + 1) (j + 1) - H (i + 1) j) +
        ∑ j ∈ Finset.range g.h, P g.N j * (H g.N (j + 1) - H g.N j)) = 0 := by
  -- a symmetry plane
  have plane : ∀ (i : ℕ) (I : ℤ), (∀ J, H i (-J) = -H i J) → (∀ J, P I (-J - 1) = P I J) → (∀ J, T I J = T (I - 1) (-J)) →
      ∑ j ∈ Finset.range g.h, P I j * (H i (j + 1) - H i j) = -∑ j ∈ Finset.range g.n, T (I - 1) j * H i j := by
    intro i I hanti hPs hTs
    have e := sum_half (fun J => P I J * (H i (J + 1) - H i J)) g.h
      (fun J => by
        have a := (hf.perP I J).2
        have b := hper i J
        have c := hper i (J + 1)
        rw [show J + 1 + g.n = J + g.n + 1 by ring] at c
        have hn : ((2 * g.h : ℕ) : ℤ) = g.n := rfl
        rw [hn, a, b, c])
      (fun J => by
        have b := hanti (J + 1)
        have c := hanti J
        rw [hPs, show -J - 1 + 1 = -J by ring, c, show -J - 1 = -(J + 1) by ring, b]
        ring)
    have r := row_sum hd hf I (H i) (hper i)
    have hn : 2 * g.h = g.n := rfl
    rw [hn, r] at e
    have u := sum_neg (fun J => T (I - 1) J * H i J) g.n (fun J => by rw [(hf.perT _ J).2, hper])
    have v : ∑ j ∈ Finset.range g.n, H i j * (T I j - T (I - 1) j) = -∑ k ∈ Finset.range g.n, T (I - 1) (-(k : ℤ)) * H i (-(k : ℤ)) - ∑ j ∈ Finset.range g.n, T (I - 1) j * H i j := by
      rw [← Finset.sum_neg_distrib, ← Finset.sum_sub_distrib]
      refine Finset.sum_congr rfl fun j _ => ?_
      rw [hTs j, hanti]
      ring
    rw [v, u] at e
    linarith
  have p0 := plane 0 0 h0 (fun J => by simpa using hf.symP h2 h1 0 J) (fun J => by
    have := hf.symT h2 h1 0 J
    simpa using this.symm)
  have pN := plane g.N g.N hN (fun J => by
      have a := hf.symP h2 h1 g.N J
      rw [← a, ← hf.shiftP (-(g.N : ℤ)) (-J - 1) 1 0]
      congr 1 <;> ring) (fun J => by
      have a := hf.symT h2 h1 g.N J
      rw [← a, ← hf.shiftT (-(g.N : ℤ) - 1) (-J) 1 0]
      congr 1 <;> ring)
  have inner : ∀ i ∈ Finset.range (g.N - 1), ∑ j ∈ Finset.range g.n, P ((i + 1 : ℕ) : ℤ) j * (H (i + 1) (j + 1) - H (i + 1) j) =
      ∑ j ∈ Finset.range g.n, T ((i + 1 : ℕ) : ℤ) j * H (i + 1) j - ∑ j ∈ Finset.range g.n, T i j * H (i + 1) j := by
    intro i _
    rw [row_sum hd hf _ (H (i + 1)) (hper _), ← Finset.sum_sub_distrib]
    refine Finset.sum_congr rfl fun j _ => ?_
    rw [show ((i + 1 : ℕ) : ℤ) - 1 = i by push_cast; ring]
    ring
  rw [Finset.sum_congr rfl inner, p0, pN]
  have tor : ∀ i ∈ Finset.range g.N, ∑ j ∈ Finset.range g.n, T i j * (H (i + 1) j - H i j) =
      ∑ j ∈ Finset.range g.n, T i j * H (i + 1) j - ∑ j ∈ Finset.range g.n, T i j * H i j := by
    intro i _
    rw [← Finset.sum_sub_distrib]
    refine Finset.sum_congr rfl fun j _ => ?_
    ring
  rw [Finset.sum_congr rfl tor]
  have s0 : ∑ j ∈ Finset.range g.n, T (0 - 1) j * H 0 j = -∑ j ∈ Finset.range g.n, T 0 j * H 0 j := by
    have u := sum_neg (fun J => T 0 J * H 0 J) g.n (fun J => by rw [(hf.perT _ J).2, hper])
    rw [← u, ← Finset.sum_neg_distrib]
    refine Finset.sum_congr rfl fun j _ => ?_
    have := hf.symT h2 h1 0 (-(j : ℤ))
    rw [show (-0 - 1 : ℤ) = 0 - 1 by ring, neg_neg] at this
    rw [this, h0]
    ring
  rw [s0]
  obtain ⟨M, hM⟩ : ∃ M, g.N = M + 1 := ⟨g.N - 1, by omega⟩
  rw [show ∑ j ∈ Finset.range g.n, T ((g.N : ℤ) - 1) j * H g.N j = ∑ j ∈ Finset.range g.n, T (M : ℤ) j * H (M + 1) j by
    rw [hM]; push_cast; simp]
  rw [hM, Nat.add_sub_cancel, Finset.sum_sub_distrib, Finset.sum_sub_distrib, Finset.sum_range_succ,
    Finset.sum_range_succ' (fun (i : ℕ) => ∑ j ∈ Finset.range g.n, T i j * H i j)]
  push_cast
  ring

/-! ### The nodes -/

theorem segEnd_tor {i j : ℕ} (hi : i < g.N) (hj : j < g.n) : g.segEnd (i * g.n + j) = g.node (i + 1) j := by
  rw [Grid.segEnd, if_pos (Grid.torKey_lt hi hj), Grid.node]
  ring

theorem segEnd_pol (h2 : 2 ≤ g.N) (h1 : 1 ≤ g.h) {i j : ℕ} (hv : g.HasPol i j) : g.segEnd (g.nTor + g.polNo i j) = g.node i ((j + 1) % g.n) := by
  have hl := Grid.last_pol h2 h1
  have hn : g.n = 2 * g.h := rfl
  rw [Grid.segEnd, if_neg (by omega)]
  simp only [Nat.add_sub_cancel_left]
  rcases hv with ⟨h0, hN, hj⟩ | ⟨h0 | h0, hj⟩
  · rw [show g.polNo i j = g.h + (i - 1) * g.n + j from if_neg (by omega)]
    have hlt : (i - 1) * g.n + j < (g.N - 1) * g.n := by
      have := lin_lt (i := i - 1) (N := g.N - 1) (by omega) hj
      rwa [Nat.mul_comm g.n] at this
    rw [if_neg (by omega), if_pos (by omega)]
    have e : g.h + (i - 1) * g.n + j - g.h = (i - 1) * g.n + j := by omega
    rw [e, (lin_div hj).1, (lin_div hj).2, show 1 + (i - 1) = i by omega]
    by_cases hj1 : j = g.n - 1
    · rw [if_pos hj1, show j + 1 = g.n by omega, Nat.mod_self]
    · rw [if_neg hj1, Nat.mod_eq_of_lt (by omega)]
  · subst h0
    rw [Grid.polNo, if_pos rfl, if_pos hj, Nat.mod_eq_of_lt (by omega)]
  · subst h0
    rw [show g.polNo g.N j = g.h + (g.N - 1) * g.n + j from if_neg (by omega), if_neg (by omega), if_neg (by omega), Nat.mod_eq_of_lt (by omega)]
    congr 1; omega

/-- Weights of the nodes, extended periodically. -/
def ext (g : Grid) (H : ℕ → ℝ) (i : ℕ) (J : ℤ) : ℝ := H (g.node i (J % g.n).toNat)

theorem ext_nat {H : ℕ → ℝ} {i j : ℕ} (hj : j < g.n) : ext g H i j = H (g.node i j) := by
  unfold ext
  congr 2
  rw [Int.emod_eq_of_lt (by omega) (by omega)]
  simp

theorem ext_succ {H : ℕ → ℝ} {i j : ℕ} : ext g H i (j + 1) = H (g.node i ((j + 1) % g.n)) := by
  unfold ext
  congr 2

/-- The sum over the segments is the sum of `half_sum`. -/
theorem seg_sum (h2 : 2 ≤ g.N) (h1 : 1 ≤ g.h) (hf : g.IsFlow x T P) (H : ℕ → ℝ) :
    ∑ s ∈ Finset.range g.nSeg, x s * (H (g.segEnd s) - H (g.segStart s)) =
    ∑ i ∈ Finset.range g.N, ∑ j ∈ Finset.range g.n, T i j * (ext g H (i + 1) j - ext g H i j) +
      (∑ j ∈ Finset.range g.h, P 0 j * (ext g H 0 (j + 1) - ext g H 0 j) +
        ∑ i ∈ Finset.range (g.N - 1), ∑ j ∈ Finset.range g.n, P ((i + 1 : ℕ) : ℤ) j * (ext g H (i + 1) (j + 1) - ext g H (i + 1) j) +
        ∑ j ∈ Finset.range g.h, P g.N j * (ext g H g.N (j + 1) - ext g H g.N j)) := by
  have hn : g.n = 2 * g.h := rfl
  have hl := Grid.last_pol h2 h1
  have hp : g.nPol = g.h + (g.N - 1) * g.n + g.h := by
    have : g.n * 1 ≤ g.n * g.N := Nat.mul_le_mul_left _ (by omega)
    have : g.h ≤ g.nPol := by simp only [Grid.nPol]; omega
    omega
  have pol : ∀ i j, g.HasPol i j → x ((g.nTor + g.polNo i j : ℕ) : ℤ) * (H (g.segEnd (g.nTor + g.polNo i j)) - H (g.segStart (g.nTor + g.polNo i j))) = P i j * (ext g H i (j + 1) - ext g H i j) := by
    intro i j hv
    rw [(hf.atPol h2 h1 hv).1, Grid.polKey_eq h2 h1 hv, segEnd_pol h2 h1 hv, Grid.segStart_pol h2 h1 hv, ext_succ, ext_nat hv.lt]
  rw [Grid.nSeg, Finset.sum_range_add]
  congr 1
  · rw [show g.nTor = g.N * g.n from Nat.mul_comm _ _, sum_mul]
    refine Finset.sum_congr rfl fun i hi => Finset.sum_congr rfl fun j hj => ?_
    have hi := Finset.mem_range.1 hi
    have hj := Finset.mem_range.1 hj
    rw [segEnd_tor hi hj, Grid.segStart_tor hi hj, ext_nat hj, ext_nat hj, (hf.atTor hi hj).1, Grid.torKey_eq hi]
  · rw [hp, Finset.sum_range_add, Finset.sum_range_add, sum_mul]
    congr 1
    · congr 1
      · refine Finset.sum_congr rfl fun j hj => ?_
        have hj := Finset.mem_range.1 hj
        exact pol 0 j (Or.inr ⟨Or.inl rfl, hj⟩)
      · refine Finset.sum_congr rfl fun i hi => Finset.sum_congr rfl fun j hj => ?_
        have hi := Finset.mem_range.1 hi
        have hj := Finset.mem_range.1 hj
        have := pol (i + 1) j (Or.inl ⟨by omega, by omega, hj⟩)
        rw [show g.polNo (i + 1) j = g.h + (i * g.n + j) by rw [Grid.polNo, if_neg (by omega), Nat.add_sub_cancel, Nat.add_assoc]] at this
        exact this
    · refine Finset.sum_congr rfl fun j hj => ?_
      have hj := Finset.mem_range.1 hj
      have := pol g.N j (Or.inr ⟨Or.inr rfl, hj⟩)
      rw [show g.polNo g.N j = g.h + (g.N - 1) * g.n + j from if_neg (by omega)] at this
      exact this

/-! ### The half periods -/

theorem rot_zero (p : P3) : rot 0 p = p := by
  funext i; fin_cases i <;> simp [rot]

theorem rot_rot (a b : ℝ) (p : P3) : rot a (rot b p) = rot (a + b) p := by
  funext i; fin_cases i <;> simp [rot, Real.cos_add, Real.sin_add] <;> ring

theorem rot_ofV3 (a : ℝ) (v : V3) : rot a (ofV3 v) = ofV3 (rotZ a v) := by
  funext i; fin_cases i <;> simp [rot, ofV3, rotZ] <;> ring

theorem refl_ofV3 (v : V3) : refl (ofV3 v) = ofV3 (mirror v) := by
  funext i; fin_cases i <;> simp [refl, ofV3, mirror]

/-- The weight of a node: the sum of the values of `f` at its images, with the signs of the half periods. -/
theorem halves_sum (nfp : ℕ) (hn : nfp ≠ 0) (nodes : ℕ → P3) (f : P3 → ℝ) (v : ℕ) :
    ((halves nfp nodes).map fun h => h.2 * f (h.1 v)).sum =
      ∑ m ∈ Finset.range nfp, (f (rot (2 * m * Real.pi / nfp) (nodes v)) - f (rot (2 * m * Real.pi / nfp) (refl (nodes v)))) := by
  obtain ⟨k, rfl⟩ : ∃ k, nfp = k + 1 := ⟨nfp - 1, by omega⟩
  unfold halves
  simp only []
  generalize ((k + 1 : ℕ) : ℝ) = c
  rw [Finset.sum_range_succ', List.map_append, List.sum_append]
  rw [add_comm]
  congr 1
  · simp only [Nat.add_sub_cancel]
    have : ∀ q : ℕ, ((List.flatMap (fun (i : ℕ) => [((fun v => rot (2 * ((i + 1 : ℕ) : ℝ) * Real.pi / c) (nodes v), (1 : ℝ)) : (ℕ → P3) × ℝ), (fun v => rot (2 * ((i + 1 : ℕ) : ℝ) * Real.pi / c) (refl (nodes v)), -1)])
        (List.range q)).map fun h => h.2 * f (h.1 v)).sum =
        ∑ m ∈ Finset.range q, (f (rot (2 * ((m + 1 : ℕ) : ℝ) * Real.pi / c) (nodes v)) - f (rot (2 * ((m + 1 : ℕ) : ℝ) * Real.pi / c) (refl (nodes v)))) := by
      intro q
      induction q with
      | zero => simp
      | succ q ih =>
        rw [List.range_succ, List.flatMap_append, List.map_append, List.sum_append, ih, Finset.sum_range_succ]
        congr 1
        simp
        ring
    exact this k
  · simp [rot_zero]
    ring

/-- **C130.** The currents of a wireframe that meets its continuity constraints are closed: in the whole of the `2 nfp` half periods, nothing is accumulated at any point of space, also where half periods meet. -/
theorem C130_closed (s : RZSurf.Surf) (hs : s.stellsym = true) (hnfp : s.nfp ≠ 0) (junk : ℕ → ℝ × ℝ) (g : Grid) (h2 : 2 ≤ g.N) (h1 : 1 ≤ g.h) (x : ℤ → ℝ) (hx : g.Continuous x) : (wireOf s junk g x).Closed := by
  intro f
  obtain ⟨T, P, hf⟩ := (C83_unfold h2 h1 x).1
  have hd := (C83_continuity h2 h1 hf).mp hx
  have hn : g.n = 2 * g.h := rfl
  have hn0 : (g.n : ℝ) ≠ 0 := by
    have : g.n ≠ 0 := by omega
    exact_mod_cast this
  have hN0 : (g.N : ℝ) ≠ 0 := by
    have : g.N ≠ 0 := by omega
    exact_mod_cast this
  have hp0 : (s.nfp : ℝ) ≠ 0 := by exact_mod_cast hnfp
  set H : ℕ → ℝ := fun v => ((halves s.nfp (nodes0 s junk g)).map fun h => h.2 * f (h.1 v)).sum with hH
  -- the sum over the pieces
  have e : ((wireOf s junk g x).pieces.map fun q => q.1 * (f q.2.2 - f q.2.1)).sum = ∑ t ∈ Finset.range g.nSeg, x t * (H (g.segEnd t) - H (g.segStart t)) := by
    have e1 : (wireOf s junk g x).segments.zipIdx = (List.range g.nSeg).map fun t => ((g.segStart t, g.segEnd t), t) := by
      apply List.ext_getElem
      · simp [wireOf]
      · intro i h1 h2
        simp [wireOf]
    rw [Wire.pieces, e1, List.flatMap_map, List.map_flatMap, List.flatMap_def, List.sum_flatten, List.map_map, ← sum_range_list]
    congr 1
    refine List.map_congr_left fun t _ => ?_
    simp only [Function.comp, wireOf, List.map_map, hH]
    generalize halves s.nfp (nodes0 s junk g) = L
    induction L with
    | nil => simp
    | cons h L ih =>
      simp only [List.map_cons, List.sum_cons, ih, Function.comp]
      ring
  rw [e, seg_sum h2 h1 hf H]
  -- the surface
  let γ : ℝ → ℝ → P3 := fun p q => ofV3 (RZSurf.value s junk .g p q)
  have per : ∀ p q (b : ℤ), γ p (q + b) = γ p q := by
    intro p q b
    have := RZSurf.C68_field_period s hnfp junk junk .g p q 0 b
    simp only [Int.cast_zero, zero_div, add_zero, mul_zero] at this
    show ofV3 _ = ofV3 _
    rw [this, ← rot_ofV3, rot_zero]
  have fp : ∀ p q, γ (p + 1 / s.nfp) q = rot (2 * Real.pi / s.nfp) (γ p q) := by
    intro p q
    have := RZSurf.C68_field_period s hnfp junk junk .g p q 1 0
    simp only [Int.cast_zero, add_zero, Int.cast_one, mul_one] at this
    show ofV3 _ = rot _ (ofV3 _)
    rw [this, rot_ofV3]
  have sym : ∀ p q, refl (γ p q) = γ (-p) (-q) := by
    intro p q
    have := RZSurf.C68_stellsym s hs junk junk .g p q
    simp only [RZSurf.Fam.order, pow_zero, one_smul] at this
    show refl (ofV3 _) = ofV3 _
    rw [this, refl_ofV3]
  have node : ∀ (i : ℕ) (J : ℤ), nodes0 s junk g (g.node i (J % g.n).toNat) = γ (i * (0.5 / s.nfp) / g.N) (J / g.n) := by
    intro i J
    have hpos : (0 : ℤ) < g.n := by omega
    have m0 := Int.emod_nonneg J hpos.ne'
    have m1 := Int.emod_lt_of_pos J hpos
    have hj : (J % g.n).toNat < g.n := by omega
    rw [nodes0, Grid.node, (lin_div hj).1, (lin_div hj).2]
    have : (J : ℝ) / g.n = ((J % g.n).toNat : ℝ) / g.n + ((J / g.n : ℤ) : ℝ) := by
      have a := Int.emod_add_mul_ediv J g.n
      have b : ((J % g.n).toNat : ℤ) = J % g.n := Int.toNat_of_nonneg m0
      have c : (J : ℝ) = ((J % g.n).toNat : ℝ) + g.n * ((J / g.n : ℤ) : ℝ) := by
        have : J = ((J % g.n).toNat : ℤ) + g.n * (J / g.n) := by rw [b]; exact a.symm
        exact_mod_cast this
      field_simp
      linarith
    rw [this, per]
  have Hval : ∀ (i : ℕ) (J : ℤ), ext g H i J = ∑ m ∈ Finset.range s.nfp, (f (rot (2 * m * Real.pi / s.nfp) (γ (i * (0.5 / s.nfp) / g.N) (J / g.n))) - f (rot (2 * m * Real.pi / s.nfp) (refl (γ (i * (0.5 / s.nfp) / g.N) (J / g.n))))) := by
    intro i J
    rw [ext, hH]
    simp only
    rw [halves_sum _ hnfp]
    simp only [node]
  refine half_sum h2 h1 hd hf (ext g H) ?_ ?_ ?_
  · intro i J
    simp [ext]
  · intro J
    rw [Hval, Hval, ← Finset.sum_neg_distrib]
    refine Finset.sum_congr rfl fun m _ => ?_
    simp only [sym, Int.cast_neg, Nat.cast_zero, zero_mul, zero_div, neg_zero, neg_div, neg_neg]
    ring
  · intro J
    rw [Hval, Hval]
    have ep : (g.N : ℝ) * (0.5 / s.nfp) / g.N = 0.5 / s.nfp := by field_simp
    have em : (0.5 : ℝ) / s.nfp = -(0.5 / s.nfp) + 1 / s.nfp := by ring
    have key : ∀ (m : ℕ) (q : ℝ), rot (2 * m * Real.pi / s.nfp) (γ (0.5 / s.nfp) q) = rot (2 * ((m + 1 : ℕ) : ℝ) * Real.pi / s.nfp) (refl (γ (0.5 / s.nfp) (-q))) := by
      intro m q
      rw [sym, neg_neg]
      conv_lhs => rw [em]
      rw [fp, rot_rot]
      congr 1
      push_cast
      ring
    have cyc : ∀ q : ℝ, ∑ m ∈ Finset.range s.nfp, f (rot (2 * m * Real.pi / s.nfp) (γ (0.5 / s.nfp) q)) = ∑ m ∈ Finset.range s.nfp, f (rot (2 * m * Real.pi / s.nfp) (refl (γ (0.5 / s.nfp) (-q)))) := by
      intro q
      simp only [key]
      have a := Finset.sum_range_succ (fun m : ℕ => f (rot (2 * (m : ℝ) * Real.pi / s.nfp) (refl (γ (0.5 / s.nfp) (-q))))) s.nfp
      have b := Finset.sum_range_succ' (fun m : ℕ => f (rot (2 * (m : ℝ) * Real.pi / s.nfp) (refl (γ (0.5 / s.nfp) (-q))))) s.nfp
      have c : rot (2 * (s.nfp : ℝ) * Real.pi / s.nfp) (refl (γ (0.5 / s.nfp) (-q))) = rot (2 * ((0 : ℕ) : ℝ) * Real.pi / s.nfp) (refl (γ (0.5 / s.nfp) (-q))) := by
        rw [show 2 * (s.nfp : ℝ) * Real.pi / s.nfp = 2 * Real.pi by field_simp, show 2 * ((0 : ℕ) : ℝ) * Real.pi / s.nfp = 0 by simp]
        simp [rot]
      rw [c] at a
      linarith
    rw [ep]
    simp only [Finset.sum_sub_distrib, Int.cast_neg, neg_div]
    rw [cyc, cyc ((J : ℝ) / g.n)]
    simp only [neg_neg]
    ring

/-- **C130.** Hence the field of such a wireframe is a vacuum field off its wires: no divergence, no curl, and the derivatives are those the interface documents. -/
theorem C130_vacuum (s : RZSurf.Surf) (hs : s.stellsym = true) (hnfp : s.nfp ≠ 0) (junk : ℕ → ℝ × ℝ) (g : Grid) (h2 : 2 ≤ g.N) (h1 : 1 ≤ g.h) (x : ℤ → ℝ) (hx : g.Continuous x) (p : P3) (hp : (wireOf s junk g x).Off p) :
    IsJacobian (wireOf s junk g x).B p ((wireOf s junk g x).dB p) ∧ dive ((wireOf s junk g x).dB p) = 0 ∧ curl ((wireOf s junk g x).dB p) = 0 := by
  have hc := C130_closed s hs hnfp junk g h2 h1 x hx
  refine ⟨C129_documented _ p hp hc, C129_divergence _ p, ?_⟩
  have h := C129_curl _ p hp hc
  generalize (wireOf s junk g x).dB p = D at h ⊢
  have e0 := congrFun h 0
  have e1 := congrFun h 1
  have e2 := congrFun h 2
  simp [curl, transp2] at e0 e1 e2
  funext i
  fin_cases i <;> simp [curl] <;> linarith

end Simsopt.WField
