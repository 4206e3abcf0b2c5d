import Verif.XYZ.Model
/-!
# C143: SurfaceXYZFourier
-/
namespace Simsopt.XYZ
open Simsopt Simsopt.Coils Simsopt.RZSurf

/-! ### The layout of the dof vector -/

/-- The place of every dof, in order. -/
def layout (s : XF) : List Key := s.blocks.flatMap fun dc => (List.range' (s.lo dc.2) (s.size - s.lo dc.2)).map fun i => (dc.1, dc.2, i)

theorem setDofs_layout (s : XF) (d : List ℝ) : setDofs s d = { s with a := assign (layout s) s.a d } := by
  simp only [setDofs, assign, layout, List.foldl_flatMap, List.foldl_map]

theorem getDofs_layout (s : XF) : getDofs s = (layout s).map s.a := by
  simp [getDofs, layout, List.map_flatMap, Function.comp_def]

theorem mem_layout (s : XF) (d : Fin 3) (c : Bool) (j : Nat) : (d, c, j) ∈ layout s ↔ (d, c) ∈ s.blocks ∧ s.lo c ≤ j ∧ j < s.size := by
  simp only [layout, List.mem_flatMap, List.mem_map, List.mem_range'_1, Prod.mk.injEq, Prod.exists]
  constructor
  · rintro ⟨d', c', h1, i, h2, rfl, rfl, rfl⟩
    exact ⟨h1, by omega, by omega⟩
  · rintro ⟨h1, h2, h3⟩
    exact ⟨d, c, h1, j, by omega, rfl, rfl, rfl⟩

theorem blocks_nodup (s : XF) : s.blocks.Nodup := by
  cases h : s.stellsym <;> simp only [XF.blocks, h] <;> decide

theorem layout_nodup (s : XF) : (layout s).Nodup := by
  simp only [layout]
  refine List.nodup_flatMap.mpr ⟨fun dc _ => (List.nodup_range').map (fun a b h => by simpa using h), ?_⟩
  refine (blocks_nodup s).imp ?_
  intro x y hxy
  simp only [Function.onFun, List.Disjoint]
  rintro ⟨d, c, j⟩ h1 h2
  simp only [List.mem_map, Prod.mk.injEq] at h1 h2
  obtain ⟨_, _, rfl, rfl, _⟩ := h1
  obtain ⟨_, _, e1, e2, _⟩ := h2
  exact hxy (Prod.ext e1.symm e2.symm)

theorem size_ge (s : XF) : s.ntor + 1 ≤ s.size := by
  have : s.width ≤ s.size := by simp only [XF.size]; exact Nat.le_mul_of_pos_left _ (Nat.succ_pos _)
  simp only [XF.width] at this; omega

theorem layout_length (s : XF) : ((layout s).length : Int) = s.numDofs := by
  have := size_ge s
  have e : ((s.mpol : Int) + 1) * (2 * s.ntor + 1) = s.size := by simp [XF.size, XF.width]
  have e3 : (3 : Int) * (s.mpol + 1) * (2 * s.ntor + 1) = 3 * s.size := by rw [mul_assoc, e]
  have e6 : (6 : Int) * (s.mpol + 1) * (2 * s.ntor + 1) = 6 * s.size := by rw [mul_assoc, e]
  cases h : s.stellsym <;> simp only [layout, XF.blocks, h, XF.numDofs, XF.lo, e3, e6, List.flatMap_cons, List.flatMap_nil, List.append_nil, List.length_append,
    List.length_map, List.length_range', if_true, if_false, Bool.false_eq_true] <;> omega

/-! ### States that a user can reach -/

/-- The surfaces that the constructor makes, and those that result from setting dof vectors (of any length the C++ accepts). -/
inductive Reach : XF → Prop
  | construct {mpol ntor nfp : Nat} {stellsym : Bool} {s : XF} (h : construct mpol ntor nfp stellsym = some s) : Reach s
  | setDofs {s : XF} (h : Reach s) (d : List ℝ) : Reach (setDofs s d)

/-- Entries which are not dofs are zero. -/
def Clean (s : XF) : Prop := ∀ k, k ∉ layout s → s.a k = 0

theorem lay_congr {s t : XF} (h1 : s.mpol = t.mpol) (h2 : s.ntor = t.ntor) (h4 : s.stellsym = t.stellsym) : layout s = layout t := by
  simp only [layout, XF.blocks, XF.lo, XF.size, XF.width, h1, h2, h4]

theorem Reach.clean {s : XF} (h : Reach s) : Clean s := by
  induction h with
  | @construct mpol ntor nfp stellsym s h =>
    by_cases hm : mpol = 0
    · simp [XYZ.construct, hm] at h
    · simp only [XYZ.construct, hm, if_false, Option.some.injEq] at h
      subst h
      rintro ⟨d, c, j⟩ hk
      rw [mem_layout] at hk
      have key : ∀ x : Nat, (x = 0 * (2 * ntor + 1) + ntor ∨ x = 1 * (2 * ntor + 1) + ntor) → (ntor ≤ x ∧ x < (mpol + 1) * (2 * ntor + 1)) := by
        intro x hx
        have : 2 * (2 * ntor + 1) ≤ (mpol + 1) * (2 * ntor + 1) := Nat.mul_le_mul_right _ (by omega)
        omega
      have n1 : (d, c, j) ≠ ((2 : Fin 3), false, 1 * (2 * ntor + 1) + ntor) := by
        intro e
        simp only [Prod.mk.injEq] at e
        obtain ⟨rfl, rfl, rfl⟩ := e
        apply hk
        have := key _ (Or.inr rfl)
        refine ⟨by cases stellsym <;> simp [XF.blocks], ?_, this.2⟩
        simp only [XF.lo, Bool.false_eq_true, if_false]; omega
      have n2 : (d, c, j) ≠ ((0 : Fin 3), true, 1 * (2 * ntor + 1) + ntor) := by
        intro e
        simp only [Prod.mk.injEq] at e
        obtain ⟨rfl, rfl, rfl⟩ := e
        apply hk
        exact ⟨by cases stellsym <;> simp [XF.blocks], by simp only [XF.lo, if_true]; exact (key _ (Or.inr rfl)).1, (key _ (Or.inr rfl)).2⟩
      have n3 : (d, c, j) ≠ ((0 : Fin 3), true, 0 * (2 * ntor + 1) + ntor) := by
        intro e
        simp only [Prod.mk.injEq] at e
        obtain ⟨rfl, rfl, rfl⟩ := e
        apply hk
        exact ⟨by cases stellsym <;> simp [XF.blocks], by simp only [XF.lo, if_true]; exact (key _ (Or.inl rfl)).1, (key _ (Or.inl rfl)).2⟩
      simp only [XF.width]
      rw [Function.update_of_ne n1, Function.update_of_ne n2, Function.update_of_ne n3]
  | @setDofs s h d ih =>
    rw [setDofs_layout]
    intro k hk
    have e : layout { s with a := assign (layout s) s.a d } = layout s := lay_congr rfl rfl rfl
    rw [e] at hk
    rw [show ({ s with a := assign (layout s) s.a d } : XF).a k = assign (layout s) s.a d k from rfl, assign_other _ _ _ _ hk]
    exact ih k hk

/-! ### Every array is a linear combination of the coefficients -/

/-- The jet of the basis functions `cos(mθ - n nfp φ)` and `sin(mθ - n nfp φ)`. -/
noncomputable def jet (s : XF) (c : Bool) (m i : Nat) (phi theta : ℝ) : Jet :=
  let sa := Real.sin (angle s phi theta m i)
  let ca := Real.cos (angle s phi theta m i)
  let w := nn s i
  if c then ⟨ca, w * sa, -m * sa, -w * w * ca, w * m * ca, -m * m * ca⟩ else ⟨sa, -w * ca, m * ca, -w * w * sa, w * m * sa, -m * m * sa⟩

theorem dRow_eq (s : XF) (f : Fam) (d : Fin 3) (c : Bool) (phi theta : ℝ) (mi : Nat × Nat) :
    dRow s f d c phi theta mi = row f d (jet s c mi.1 mi.2 phi theta) phi := by
  obtain ⟨m, i⟩ := mi
  cases c <;> fin_cases d <;> cases f <;> refine Prod.ext ?_ (Prod.ext ?_ ?_) <;>
    simp [dRow, row, jet, E, E1, E11] <;> first | ring1 | exact Or.inl (by ring1)

/-- Contribution of a mode. -/
noncomputable def term (s : XF) (f : Fam) (phi theta : ℝ) (m i : Nat) : V3 :=
  ∑ d : Fin 3, (s.at d true m i • row f d (jet s true m i phi theta) phi + s.at d false m i • row f d (jet s false m i phi theta) phi)

theorem loop_sum (s : XF) (phi theta : ℝ) (inc : Nat → Nat → ℝ → ℝ → V3) :
    loop s phi theta inc = ∑ m ∈ Finset.range (s.mpol + 1), ∑ i ∈ Finset.range s.width, inc m i (Real.sin (angle s phi theta m i)) (Real.cos (angle s phi theta m i)) := by
  have h0 : ((0, 0, 0) : V3) = 0 := rfl
  rw [loop, h0]
  rw [foldl_sum (s.mpol + 1) _ (fun m => ∑ i ∈ Finset.range s.width, inc m i (Real.sin (angle s phi theta m i)) (Real.cos (angle s phi theta m i)))
    (fun m st => foldl_sum s.width _ (fun i => inc m i (Real.sin (angle s phi theta m i)) (Real.cos (angle s phi theta m i))) (fun i st => rfl) st) 0, zero_add]

theorem scale_sum (c : ℝ) (M W : Nat) (g : Nat → Nat → V3) (h : Nat → Nat → V3) (e : ∀ m i, c • g m i = h m i) :
    (c * (∑ m ∈ Finset.range M, ∑ i ∈ Finset.range W, g m i).1, c * (∑ m ∈ Finset.range M, ∑ i ∈ Finset.range W, g m i).2.1,
      c * (∑ m ∈ Finset.range M, ∑ i ∈ Finset.range W, g m i).2.2) = ∑ m ∈ Finset.range M, ∑ i ∈ Finset.range W, h m i := by
  change c • (∑ m ∈ Finset.range M, ∑ i ∈ Finset.range W, g m i) = _
  rw [Finset.smul_sum]
  apply Finset.sum_congr rfl; intro m _
  rw [Finset.smul_sum]
  exact Finset.sum_congr rfl fun i _ => e m i

theorem value_sum (s : XF) (f : Fam) (p q : ℝ) :
    value s f p q = ∑ m ∈ Finset.range (s.mpol + 1), ∑ i ∈ Finset.range s.width, term s f (2 * Real.pi * p) (2 * Real.pi * q) m i := by
  cases f with
  | g =>
    simp only [value, gamma, loop_sum]
    refine Finset.sum_congr rfl fun m _ => Finset.sum_congr rfl fun i _ => ?_
    refine Prod.ext ?_ (Prod.ext ?_ ?_) <;> simp [term, Fin.sum_univ_three, row, jet, E] <;> ring
  | g1 =>
    simp only [value, gammadash1, loop_sum]
    refine scale_sum _ _ _ _ _ fun m i => ?_
    refine Prod.ext ?_ (Prod.ext ?_ ?_) <;> simp [term, Fin.sum_univ_three, row, jet, E, E1] <;> ring
  | g2 =>
    simp only [value, gammadash2, loop_sum]
    refine scale_sum _ _ _ _ _ fun m i => ?_
    refine Prod.ext ?_ (Prod.ext ?_ ?_) <;> simp [term, Fin.sum_univ_three, row, jet, E, E1] <;> ring
  | g11 =>
    simp only [value, gammadash11, loop_sum]
    refine scale_sum _ _ _ _ _ fun m i => ?_
    refine Prod.ext ?_ (Prod.ext ?_ ?_) <;> simp [term, Fin.sum_univ_three, row, jet, E, E1, E11] <;> ring
  | g12 =>
    simp only [value, gammadash12, loop_sum]
    refine scale_sum _ _ _ _ _ fun m i => ?_
    refine Prod.ext ?_ (Prod.ext ?_ ?_) <;> simp [term, Fin.sum_univ_three, row, jet, E, E1] <;> ring
  | g22 =>
    simp only [value, gammadash22, loop_sum]
    refine scale_sum _ _ _ _ _ fun m i => ?_
    refine Prod.ext ?_ (Prod.ext ?_ ?_) <;> simp [term, Fin.sum_univ_three, row, jet, E] <;> ring

/-! ### Derivatives in the angles -/

theorem angle_d1 (s : XF) (theta : ℝ) (m i : Nat) (phi : ℝ) : HasDerivAt (fun x => angle s x theta m i) (-(nn s i)) phi := by
  simp only [angle]
  exact (((hasDerivAt_id phi).const_mul (((i : ℝ) - s.ntor) * s.nfp)).const_sub ((m : ℝ) * theta)).congr_deriv (by simp [nn])

theorem angle_d2 (s : XF) (phi : ℝ) (m i : Nat) (theta : ℝ) : HasDerivAt (fun x => angle s phi x m i) m theta := by
  simp only [angle]
  exact (((hasDerivAt_id theta).const_mul (m : ℝ)).sub_const _).congr_deriv (by simp)

theorem jet_d1 (s : XF) (c : Bool) (m i : Nat) (phi theta : ℝ) :
    HasDerivAt (fun x => (jet s c m i x theta).h) (jet s c m i phi theta).h1 phi ∧
    HasDerivAt (fun x => (jet s c m i x theta).h1) (jet s c m i phi theta).h11 phi ∧
    HasDerivAt (fun x => (jet s c m i x theta).h2) (jet s c m i phi theta).h12 phi := by
  have hs := (angle_d1 s theta m i phi).sin
  have hc := (angle_d1 s theta m i phi).cos
  cases c <;> simp only [jet, if_true, if_false, Bool.false_eq_true]
  · exact ⟨hs.congr_deriv (by ring), (hc.const_mul _).congr_deriv (by ring), (hc.const_mul _).congr_deriv (by ring)⟩
  · exact ⟨hc.congr_deriv (by ring), (hs.const_mul _).congr_deriv (by ring), (hs.const_mul _).congr_deriv (by ring)⟩

theorem jet_d2 (s : XF) (c : Bool) (m i : Nat) (phi theta : ℝ) :
    HasDerivAt (fun x => (jet s c m i phi x).h) (jet s c m i phi theta).h2 theta ∧
    HasDerivAt (fun x => (jet s c m i phi x).h1) (jet s c m i phi theta).h12 theta ∧
    HasDerivAt (fun x => (jet s c m i phi x).h2) (jet s c m i phi theta).h22 theta := by
  have hs := (angle_d2 s phi m i theta).sin
  have hc := (angle_d2 s phi m i theta).cos
  cases c <;> simp only [jet, if_true, if_false, Bool.false_eq_true]
  · exact ⟨hs.congr_deriv (by ring), (hc.const_mul _).congr_deriv (by ring), (hc.const_mul _).congr_deriv (by ring)⟩
  · exact ⟨hc.congr_deriv (by ring), (hs.const_mul _).congr_deriv (by ring), (hs.const_mul _).congr_deriv (by ring)⟩

theorem value_d1 (s : XF) (f f' : Fam) (hf : d1 f = some f') (p q : ℝ) : HasDerivAt (fun p => value s f p q) (value s f' p q) p := by
  simp only [value_sum]
  refine HasDerivAt.fun_sum fun m _ => HasDerivAt.fun_sum fun i _ => ?_
  simp only [term]
  refine HasDerivAt.fun_sum fun d _ => ?_
  have key : ∀ c, HasDerivAt (fun p => row f d (jet s c m i (2 * Real.pi * p) (2 * Real.pi * q)) (2 * Real.pi * p))
      (row f' d (jet s c m i (2 * Real.pi * p) (2 * Real.pi * q)) (2 * Real.pi * p)) p := fun c => by
    obtain ⟨a, b, e⟩ := jet_d1 s c m i (2 * Real.pi * p) (2 * Real.pi * q)
    exact row_d1 f f' hf d (fun x => jet s c m i x (2 * Real.pi * q)) p a (fun _ => b) (fun _ => e)
  exact ((key true).const_smul (s.at d true m i)).add ((key false).const_smul (s.at d false m i))

theorem value_d2 (s : XF) (f f' : Fam) (hf : d2 f = some f') (p q : ℝ) : HasDerivAt (fun q => value s f p q) (value s f' p q) q := by
  simp only [value_sum]
  refine HasDerivAt.fun_sum fun m _ => HasDerivAt.fun_sum fun i _ => ?_
  simp only [term]
  refine HasDerivAt.fun_sum fun d _ => ?_
  have key : ∀ c, HasDerivAt (fun q => row f d (jet s c m i (2 * Real.pi * p) (2 * Real.pi * q)) (2 * Real.pi * p))
      (row f' d (jet s c m i (2 * Real.pi * p) (2 * Real.pi * q)) (2 * Real.pi * p)) q := fun c => by
    obtain ⟨a, b, e⟩ := jet_d2 s c m i (2 * Real.pi * p) (2 * Real.pi * q)
    exact row_d2 f f' hf d (fun x => jet s c m i (2 * Real.pi * p) x) (2 * Real.pi * p) q a (fun _ => b) (fun _ => e)
  exact ((key true).const_smul (s.at d true m i)).add ((key false).const_smul (s.at d false m i))

/-- **C143.** `gammadash1`, `gammadash2`, `gammadash1dash1`, `gammadash1dash2` (in both orders) and `gammadash2dash2` of a SurfaceXYZFourier are the first and second
partial derivatives of `gamma` in the two surface parameters. -/
theorem C143_derivatives (s : XF) (p q : ℝ) :
    HasDerivAt (fun p => gamma s p q) (gammadash1 s p q) p ∧ HasDerivAt (fun q => gamma s p q) (gammadash2 s p q) q ∧
    HasDerivAt (fun p => gammadash1 s p q) (gammadash11 s p q) p ∧ HasDerivAt (fun q => gammadash1 s p q) (gammadash12 s p q) q ∧
    HasDerivAt (fun p => gammadash2 s p q) (gammadash12 s p q) p ∧ HasDerivAt (fun q => gammadash2 s p q) (gammadash22 s p q) q :=
  ⟨value_d1 s .g .g1 rfl p q, value_d2 s .g .g2 rfl p q, value_d1 s .g1 .g11 rfl p q, value_d2 s .g1 .g12 rfl p q, value_d1 s .g2 .g12 rfl p q,
    value_d2 s .g2 .g22 rfl p q⟩

/-! ### The documented series -/

/-- The coefficient of the documented series: the array entry `[m, n + ntor]`; with stellarator symmetry `xs`, `yc`, `zc` count as zero. -/
noncomputable def coef (s : XF) (d : Fin 3) (c : Bool) (m : Nat) (n : Int) : ℝ :=
  if s.stellsym ∧ ((d = 0 ∧ c = false) ∨ (d ≠ 0 ∧ c = true)) then 0 else s.at d c m (n + s.ntor).toNat

/-- The documented series of the coordinate function `d` (surfacexyzfourier.py L15-41):
`Σ_{m=0}^{mpol} Σ_{n=-ntor}^{ntor} c_{m,n} cos(m θ - nfp n φ) + s_{m,n} sin(m θ - nfp n φ)`, without the cosine terms `m = 0, n < 0` and the sine terms `m = 0, n ≤ 0`. -/
noncomputable def series (s : XF) (d : Fin 3) (phi theta : ℝ) : ℝ :=
  ∑ m ∈ Finset.range (s.mpol + 1), ∑ n ∈ Finset.Icc (-(s.ntor : Int)) s.ntor,
    ((if m = 0 ∧ n < 0 then 0 else coef s d true m n * Real.cos (m * theta - s.nfp * n * phi)) +
     (if m = 0 ∧ n ≤ 0 then 0 else coef s d false m n * Real.sin (m * theta - s.nfp * n * phi)))

theorem icc_sum (s : XF) (g : Int → ℝ) : ∑ n ∈ Finset.Icc (-(s.ntor : Int)) s.ntor, g n = ∑ i ∈ Finset.range s.width, g ((i : Int) - s.ntor) := by
  symm
  refine Finset.sum_nbij' (fun i => (i : Int) - s.ntor) (fun n => (n + s.ntor).toNat) ?_ ?_ ?_ ?_ ?_
  · intro i hi; rw [Finset.mem_range, XF.width] at hi; rw [Finset.mem_Icc]; omega
  · intro n hn; rw [Finset.mem_Icc] at hn; rw [Finset.mem_range, XF.width]; omega
  · intro i hi; simp
  · intro n hn; rw [Finset.mem_Icc] at hn; show ((n + (s.ntor : Int)).toNat : Int) - s.ntor = n; omega
  · intro i _; rfl

theorem entry_coef (s : XF) (hc : Clean s) (d : Fin 3) (c : Bool) (m i : Nat) (hi : i < s.width) :
    s.at d c m i = if m = 0 ∧ (if c then (i : Int) - s.ntor < 0 else (i : Int) - s.ntor ≤ 0) then 0 else coef s d c m ((i : Int) - s.ntor) := by
  have e : ((i : Int) - s.ntor + s.ntor).toNat = i := by omega
  have zero : (¬ ((d, c) ∈ s.blocks ∧ s.lo c ≤ m * s.width + i)) → s.at d c m i = 0 := fun h => hc _ (fun hm => h ⟨((mem_layout s d c _).mp hm).1, ((mem_layout s d c _).mp hm).2.1⟩)
  by_cases h : m = 0 ∧ (if c then (i : Int) - s.ntor < 0 else (i : Int) - s.ntor ≤ 0)
  · rw [if_pos h]
    obtain ⟨rfl, h⟩ := h
    apply zero
    rintro ⟨_, h2⟩
    cases c <;> simp [XF.lo] at h h2 <;> omega
  · rw [if_neg h]
    simp only [coef, e]
    by_cases hh : s.stellsym = true ∧ ((d = 0 ∧ c = false) ∨ (d ≠ 0 ∧ c = true))
    · rw [if_pos hh]
      apply zero
      rintro ⟨hb, _⟩
      obtain ⟨hs, hh⟩ := hh
      simp only [XF.blocks, hs, if_true] at hb
      rcases hh with ⟨rfl, rfl⟩ | ⟨hd, rfl⟩
      · simp at hb
      · simp only [List.mem_cons, Prod.mk.injEq, List.not_mem_nil, or_false, Bool.true_eq_false, and_false, and_true] at hb
        exact hd hb
    · rw [if_neg hh]

theorem series_eq (s : XF) (hc : Clean s) (d : Fin 3) (phi theta : ℝ) :
    series s d phi theta = ∑ m ∈ Finset.range (s.mpol + 1), ∑ i ∈ Finset.range s.width,
      (s.at d true m i * Real.cos (angle s phi theta m i) + s.at d false m i * Real.sin (angle s phi theta m i)) := by
  simp only [series, icc_sum]
  refine Finset.sum_congr rfl fun m _ => Finset.sum_congr rfl fun i hi => ?_
  have ea : (m : ℝ) * theta - s.nfp * (((i : Int) - s.ntor : Int) : ℝ) * phi = angle s phi theta m i := by simp only [angle]; push_cast; ring
  rw [ea, entry_coef s hc d true m i (Finset.mem_range.mp hi), entry_coef s hc d false m i (Finset.mem_range.mp hi)]
  simp only [if_true, Bool.false_eq_true, if_false]
  split_ifs <;> ring

/-- **C143.** For every SurfaceXYZFourier a user can obtain, `gamma()` (and `gamma_lin`) at `(p, q)`, with `φ = 2πp` and `θ = 2πq`, is the documented point
`(x̂ cos φ - ŷ sin φ, x̂ sin φ + ŷ cos φ, z)`, where `x̂`, `ŷ`, `z` are the documented series. -/
theorem C143_gamma (s : XF) (hr : Reach s) (p q : ℝ) :
    let phi := 2 * Real.pi * p
    let theta := 2 * Real.pi * q
    gamma s p q = (series s 0 phi theta * Real.cos phi - series s 1 phi theta * Real.sin phi,
      series s 0 phi theta * Real.sin phi + series s 1 phi theta * Real.cos phi, series s 2 phi theta) := by
  intro phi theta
  simp only [gamma, loop_sum, series_eq s hr.clean]
  refine Prod.ext ?_ (Prod.ext ?_ ?_)
  · simp only [Prod.fst_sum, Finset.sum_mul, ← Finset.sum_sub_distrib]; rfl
  · simp only [Prod.fst_sum, Prod.snd_sum, Finset.sum_mul, ← Finset.sum_add_distrib]; rfl
  · simp only [Prod.snd_sum]; rfl

/-! ### Symmetries -/

theorem angle_period (s : XF) (phi theta : ℝ) (a b : Int) (m i : Nat) (hn : s.nfp ≠ 0) :
    angle s (phi + 2 * Real.pi * a / s.nfp) (theta + 2 * Real.pi * b) m i = angle s phi theta m i + ((m * b - ((i : Int) - s.ntor) * a : Int) : ℝ) * (2 * Real.pi) := by
  have : (s.nfp : ℝ) ≠ 0 := by exact_mod_cast hn
  simp only [angle]
  push_cast
  field_simp
  ring

theorem sum_linear (s : XF) (f : Fam) (L : V3 →ₗ[ℝ] V3) (phi theta phi' theta' : ℝ)
    (h : ∀ d c m i, i < s.width → s.at d c m i ≠ 0 → L (row f d (jet s c m i phi theta) phi) = row f d (jet s c m i phi' theta') phi') :
    L (∑ m ∈ Finset.range (s.mpol + 1), ∑ i ∈ Finset.range s.width, term s f phi theta m i) =
      ∑ m ∈ Finset.range (s.mpol + 1), ∑ i ∈ Finset.range s.width, term s f phi' theta' m i := by
  simp only [map_sum, term, map_add, map_smul]
  refine Finset.sum_congr rfl fun m _ => Finset.sum_congr rfl fun i hi => Finset.sum_congr rfl fun d _ => ?_
  have key : ∀ c, s.at d c m i • L (row f d (jet s c m i phi theta) phi) = s.at d c m i • row f d (jet s c m i phi' theta') phi' := fun c => by
    by_cases hz : s.at d c m i = 0
    · rw [hz, zero_smul, zero_smul]
    · rw [h d c m i (Finset.mem_range.mp hi) hz]
  rw [key, key]

/-- **C143.** Field periods and closure: going `a` field periods further in `φ` and `b` times around in `θ` rotates the position and all its derivatives by
`2πa/nfp` about the z axis, for every SurfaceXYZFourier. -/
theorem C143_field_period (s : XF) (hn : s.nfp ≠ 0) (f : Fam) (p q : ℝ) (a b : Int) :
    value s f (p + a / s.nfp) (q + b) = rotZ (2 * Real.pi * a / s.nfp) (value s f p q) := by
  obtain ⟨L, hL⟩ := rotZ_linear (2 * Real.pi * a / s.nfp)
  rw [value_sum, value_sum]
  have e1 : 2 * Real.pi * (p + a / s.nfp) = 2 * Real.pi * p + 2 * Real.pi * a / s.nfp := by ring
  have e2 : 2 * Real.pi * (q + b) = 2 * Real.pi * q + 2 * Real.pi * b := by ring
  rw [e1, e2, ← hL, sum_linear s f L]
  intro d c m i _ _
  rw [hL, row_rotate]
  congr 2
  simp only [jet, angle_period s _ _ a b m i hn, Real.sin_add_int_mul_two_pi, Real.cos_add_int_mul_two_pi]

/-- **C143.** Stellarator symmetry: for every SurfaceXYZFourier with `stellsym=True` that a user can obtain, the point at `(-φ, -θ)` is the point at `(φ, θ)` with y and z
reversed; tangents get the opposite sign in addition, second derivatives do not. -/
theorem C143_stellsym (s : XF) (hr : Reach s) (hs : s.stellsym = true) (f : Fam) (p q : ℝ) :
    value s f (-p) (-q) = ((-1 : ℝ) ^ f.order) • mirror (value s f p q) := by
  obtain ⟨L, hL⟩ := mirror_linear ((-1 : ℝ) ^ f.order)
  rw [value_sum, value_sum, ← hL]
  have e1 : ∀ x : ℝ, 2 * Real.pi * -x = -(2 * Real.pi * x) := fun x => by ring
  rw [e1, e1, sum_linear s f L]
  intro d c m i hi hz
  rw [hL, ← row_mirror]
  congr 1
  have hb : (d, c) ∈ s.blocks := by
    by_contra hb
    exact hz (hr.clean _ (fun hm => hb ((mem_layout s d c _).mp hm).1))
  have ea : angle s (-(2 * Real.pi * p)) (-(2 * Real.pi * q)) m i = -angle s (2 * Real.pi * p) (2 * Real.pi * q) m i := by simp only [angle]; ring
  simp only [XF.blocks, hs, if_true, List.mem_cons, Prod.mk.injEq, List.not_mem_nil, or_false] at hb
  rcases hb with ⟨rfl, rfl⟩ | ⟨rfl, rfl⟩ | ⟨rfl, rfl⟩ <;>
    simp [jet, Jet.flip, parity, ea]

/-! ### Dofs -/

/-- **C143.** The dof vector has `num_dofs()` entries; `get_dofs` after `set_dofs(d)` returns `d`; setting the dofs that are there changes nothing; and the dof vector
determines the surface: two surfaces that a user can obtain with the same `mpol`, `ntor`, `nfp`, `stellsym` and the same dofs are the same. -/
theorem C143_dofs (s : XF) :
    ((getDofs s).length : Int) = s.numDofs ∧ (∀ d, (d.length : Int) = s.numDofs → getDofs (setDofs s d) = d) ∧ setDofs s (getDofs s) = s ∧
    (Reach s → ∀ t, Reach t → t.mpol = s.mpol → t.ntor = s.ntor → t.nfp = s.nfp → t.stellsym = s.stellsym → getDofs t = getDofs s → t = s) := by
  refine ⟨?_, ?_, ?_, ?_⟩
  · rw [getDofs_layout, List.length_map, layout_length]
  · intro d hd
    rw [getDofs_layout, setDofs_layout, lay_congr (s := { s with a := _ }) (t := s) rfl rfl rfl]
    refine assign_read _ (layout_nodup s) _ _ ?_
    have := layout_length s; omega
  · rw [setDofs_layout, getDofs_layout, assign_self _ (layout_nodup s)]
  · rintro hs ⟨m, n, f, st, a⟩ ht h1 h2 h3 h4 hd
    have hl := lay_congr (s := ⟨m, n, f, st, a⟩) (t := s) h1 h2 h4
    rw [getDofs_layout, getDofs_layout, hl] at hd
    have ha : a = s.a := by
      funext k
      by_cases hk : k ∈ layout s
      · exact (List.map_inj_left.mp hd) k hk
      · rw [hs.clean k hk]
        exact ht.clean k (by rw [hl]; exact hk)
    obtain ⟨m', n', f', st', a'⟩ := s
    simp only at h1 h2 h3 h4 ha
    subst h1 h2 h3 h4 ha
    rfl

/-! ### Jacobians -/

/-- The mode of a flat position. -/
def XF.pos (s : XF) (j : Nat) : Nat × Nat := (j / s.width, j % s.width)

theorem XF.width_pos (s : XF) : 0 < s.width := by simp [XF.width]

theorem skip_pos (s : XF) (c : Bool) (j : Nat) : skip s c (s.pos j).1 (s.pos j).2 = false ↔ s.lo c ≤ j :=
  RZSurf.skip_pos ⟨s.mpol, s.ntor, s.nfp, s.stellsym, 0, 0, 0, 0⟩ c j

theorem arrayRows_eq (s : XF) (f : Fam) (d : Fin 3) (c : Bool) (phi theta : ℝ) :
    arrayRows s f d c phi theta = if drop s d c then [] else (List.range' (s.lo c) (s.size - s.lo c)).map fun j => dRow s f d c phi theta (s.pos j) := by
  cases hd : drop s d c with
  | true => simp [arrayRows, hd]
  | false =>
    have h := RZSurf.modes_eq ⟨s.mpol, s.ntor, s.nfp, s.stellsym, 0, 0, 0, 0⟩ c
    have e : arrayRows s f d c phi theta = (RZSurf.modes ⟨s.mpol, s.ntor, s.nfp, s.stellsym, 0, 0, 0, 0⟩ c).map fun mi => dRow s f d c phi theta mi := by
      simp only [arrayRows, RZSurf.modes, List.map_flatMap, List.map_filterMap, hd, Bool.false_eq_true, if_false]
      congr 1; funext m
      congr 1; funext i
      cases hs : skip s c m i with
      | true =>
        have : RZSurf.skip ⟨s.mpol, s.ntor, s.nfp, s.stellsym, 0, 0, 0, 0⟩ c m i = true := hs
        simp [this]
      | false =>
        have : RZSurf.skip ⟨s.mpol, s.ntor, s.nfp, s.stellsym, 0, 0, 0, 0⟩ c m i = false := hs
        simp [this]
    rw [e, h, List.map_map]
    simp only [Bool.false_eq_true, if_false]
    rfl

theorem jacobian_layout (s : XF) (f : Fam) (p q : ℝ) :
    jacobian s f p q = (layout s).map fun k => dRow s f k.1 k.2.1 (2 * Real.pi * p) (2 * Real.pi * q) (s.pos k.2.2) := by
  have g1 : ¬ ((1 : Fin 3) = 0) := by decide
  have g2 : ¬ ((2 : Fin 3) = 0) := by decide
  cases h : s.stellsym <;>
    simp [jacobian, arrayRows_eq, drop, h, layout, XF.blocks, List.map_flatMap, Function.comp_def, g1, g2]

/-- The places in the arrays. -/
def places (s : XF) : Finset Key := Finset.univ ×ˢ (Finset.univ ×ˢ Finset.range s.size)

theorem value_places (s : XF) (f : Fam) (p q : ℝ) :
    value s f p q = ∑ k ∈ places s, s.a k • dRow s f k.1 k.2.1 (2 * Real.pi * p) (2 * Real.pi * q) (s.pos k.2.2) := by
  rw [value_sum, places, Finset.sum_product]
  simp only [Finset.sum_product, Fintype.sum_bool, ← Finset.sum_add_distrib]
  rw [Finset.sum_comm (s := (Finset.univ : Finset (Fin 3)))]
  have flat : ∀ g : Nat → V3, ∑ j ∈ Finset.range s.size, g j = ∑ m ∈ Finset.range (s.mpol + 1), ∑ i ∈ Finset.range s.width, g (m * s.width + i) := by
    intro g
    rw [XF.size]
    induction s.mpol + 1 with
    | zero => simp
    | succ M ih => rw [Nat.add_mul, Nat.one_mul, Finset.sum_range_add, ih, Finset.sum_range_succ]
  rw [flat]
  refine Finset.sum_congr rfl fun m _ => Finset.sum_congr rfl fun i hi => ?_
  have hp : s.pos (m * s.width + i) = (m, i) := by
    have hi := Finset.mem_range.mp hi
    simp only [XF.pos]
    rw [Nat.mul_comm, Nat.mul_add_div s.width_pos, Nat.mul_add_mod, Nat.div_eq_of_lt hi, Nat.mod_eq_of_lt hi]; simp
  simp only [term, dRow_eq, hp, XF.at]

theorem dRow_congr (s t : XF) (h2 : s.ntor = t.ntor) (h3 : s.nfp = t.nfp) : dRow s = dRow t := by
  have hn : nn s = nn t := by funext i; simp [nn, h2, h3]
  have ha : angle s = angle t := by funext a b c d; simp [angle, h2, h3]
  funext f d c phi theta mi
  simp only [dRow, hn, ha]

/-- **C143.** `dgamma_by_dcoeff`, `dgammadash1_by_dcoeff`, …, `dgammadash2dash2_by_dcoeff` of a SurfaceXYZFourier have one column per dof, and the column of the `k`-th dof is
the derivative of the array in that dof, at every dof vector. -/
theorem C143_jacobian (s : XF) (f : Fam) (d : List ℝ) (hd : (d.length : Int) = s.numDofs) (p q : ℝ) (k : Nat) (hk : k < d.length) :
    (jacobian s f p q).length = d.length ∧
    ∃ r, (jacobian s f p q)[k]? = some r ∧ HasDerivAt (fun x => value (setDofs s (d.set k x)) f p q) r d[k] := by
  have hlen : (layout s).length = d.length := by have := layout_length s; omega
  refine ⟨by rw [jacobian_layout, List.length_map, hlen], ?_⟩
  obtain ⟨key, hl⟩ : ∃ key, (layout s)[k]? = some key := ⟨_, List.getElem?_eq_getElem (hlen ▸ hk)⟩
  obtain ⟨dd, c, j⟩ := key
  obtain ⟨_, _, hj⟩ := (mem_layout s dd c j).mp (List.mem_of_getElem? hl)
  refine ⟨_, by rw [jacobian_layout, List.getElem?_map, hl]; rfl, ?_⟩
  have e : (fun x => value (setDofs s (d.set k x)) f p q) = fun x => value { s with a := assign (layout s) s.a (d.set k x) } f p q := by
    funext x; rw [setDofs_layout]
  rw [e]
  refine linear_dof (layout s) (layout_nodup s) (places s) (fun k => dRow s f k.1 k.2.1 (2 * Real.pi * p) (2 * Real.pi * q) (s.pos k.2.2))
    (fun a => value { s with a := a } f p q) ?_ s.a d k hk (dd, c, j) hl ?_
  · intro a
    simp only [value_places]
    rw [dRow_congr { s with a := a } s rfl rfl]
    rfl
  · simp [places, hj]

/-- A surface with 2 field periods and stellarator symmetry has the shape the constructor documents: at `φ = θ = 0` its point is `(1.1, 0, 0)`; it has 13 dofs. -/
example : ∃ s, construct 1 1 2 true = some s ∧ Reach s ∧ s.numDofs = 13 ∧ gamma s 0 0 = (1 + 0.1, 0, 0) := by
  refine ⟨_, rfl, .construct (mpol := 1) (ntor := 1) (nfp := 2) (stellsym := true) rfl, rfl, ?_⟩
  rw [show ∀ s : XF, gamma s 0 0 = value s .g 0 0 from fun _ => rfl, value_sum]
  refine Prod.ext ?_ (Prod.ext ?_ ?_) <;>
    simp [Finset.sum_range_succ, XF.width, term, Fin.sum_univ_three, XF.at, row, E, jet, angle, Function.update]

end Simsopt.XYZ
