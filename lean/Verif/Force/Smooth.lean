import Verif.Force.Props
import Mathlib.Analysis.SpecialFunctions.Pow.Deriv
import Mathlib.Analysis.SpecialFunctions.Sqrt
import Mathlib.Analysis.Calculus.FDeriv.Pi
/-!
# C159: the gradients exist

`C159_gradient` assumes the gradients of the pure function.  They exist: `mean_squared_force_pure` is differentiable in all its arguments wherever `gammadash` does not vanish.
-/
namespace Simsopt.Force
open Simsopt Simsopt.Coils Simsopt.Vjp
open Simsopt.Geometry hiding norm tangent

variable {n : Nat} {E : Type} [NormedAddCommGroup E] [NormedSpace ℝ E]

theorem diff_fst {f : E → V3} {p : E} (hf : DifferentiableAt ℝ f p) : DifferentiableAt ℝ (fun e => (f e).1) p := hf.fst
theorem diff_snd {f : E → V3} {p : E} (hf : DifferentiableAt ℝ f p) : DifferentiableAt ℝ (fun e => (f e).2.1) p := hf.snd.fst
theorem diff_trd {f : E → V3} {p : E} (hf : DifferentiableAt ℝ f p) : DifferentiableAt ℝ (fun e => (f e).2.2) p := hf.snd.snd

theorem diff_inner {f h : E → V3} {p : E} (hf : DifferentiableAt ℝ f p) (hh : DifferentiableAt ℝ h p) : DifferentiableAt ℝ (fun e => inner (f e) (h e)) p := by
  unfold inner
  exact (((diff_fst hf).fun_mul (diff_fst hh)).fun_add ((diff_snd hf).fun_mul (diff_snd hh))).fun_add ((diff_trd hf).fun_mul (diff_trd hh))

theorem diff_cross {f h : E → V3} {p : E} (hf : DifferentiableAt ℝ f p) (hh : DifferentiableAt ℝ h p) : DifferentiableAt ℝ (fun e => cross (f e) (h e)) p := by
  unfold cross
  have m : ∀ {a b c d : E → ℝ}, DifferentiableAt ℝ a p → DifferentiableAt ℝ b p → DifferentiableAt ℝ c p → DifferentiableAt ℝ d p → DifferentiableAt ℝ (fun e => a e * b e - c e * d e) p :=
    fun ha hb hc hd => (ha.fun_mul hb).fun_sub (hc.fun_mul hd)
  exact (m (diff_snd hf) (diff_trd hh) (diff_trd hf) (diff_snd hh)).prodMk
    ((m (diff_trd hf) (diff_fst hh) (diff_fst hf) (diff_trd hh)).prodMk (m (diff_fst hf) (diff_snd hh) (diff_snd hf) (diff_fst hh)))

theorem diff_div {f h : E → ℝ} {p : E} (hf : DifferentiableAt ℝ f p) (hh : DifferentiableAt ℝ h p) (h0 : h p ≠ 0) : DifferentiableAt ℝ (fun e => f e / h e) p := by
  have hi : DifferentiableAt ℝ (fun e => (h e)⁻¹) p := (differentiableAt_inv h0).comp p hh
  simp only [div_eq_mul_inv]
  exact hf.fun_mul hi

theorem inner_self_pos (v : V3) (h : v ≠ 0) : 0 < inner v v :=
  lt_of_le_of_ne (inner_self_nonneg v) fun e => h ((nrm_zero_iff v).mp (by rw [nrm_eq, ← e, Real.sqrt_zero]))

theorem nrm_pos (v : V3) (h : v ≠ 0) : 0 < nrm v := by rw [nrm_eq]; exact Real.sqrt_pos.mpr (inner_self_pos v h)

theorem diff_nrm {f : E → V3} {p : E} (hf : DifferentiableAt ℝ f p) (h0 : f p ≠ 0) : DifferentiableAt ℝ (fun e => nrm (f e)) p := by
  simp only [nrm_eq]
  exact (diff_inner hf hf).sqrt (inner_self_pos _ h0).ne'

theorem diff_rpow {f : E → ℝ} {p : E} (hf : DifferentiableAt ℝ f p) (h0 : 0 < f p) : DifferentiableAt ℝ (fun e => f e ^ (1.5 : ℝ)) p := hf.rpow_const (Or.inl h0.ne')

/-- The self-field along differentiable arrays and current. -/
theorem diff_bReg (pref : ℝ) (q : Fin n → ℝ) (reg : ℝ) (hreg : 0 < reg) (g g1 g2 : E → Fin n → V3) (I : E → ℝ) (p : E) (hg : ∀ i, DifferentiableAt ℝ (fun e => g e i) p) (hg1 : ∀ i, DifferentiableAt ℝ (fun e => g1 e i) p)
    (hg2 : ∀ i, DifferentiableAt ℝ (fun e => g2 e i) p) (hI : DifferentiableAt ℝ I p) (h1 : ∀ i, g1 p i ≠ 0) (i : Fin n) :
    DifferentiableAt ℝ (fun e => bReg pref (g e) (g1 e) (g2 e) q (I e) reg i) p := by
  have hpi : (0 : ℝ) < 1 / 2 / Real.pi := by have := Real.pi_pos; positivity
  have hrp : ∀ j, DifferentiableAt ℝ (fun e => (1 / 2 / Real.pi) • g1 e j) p := fun j => (hg1 j).fun_const_smul _
  have hrpp : ∀ j, DifferentiableAt ℝ (fun e => (1 / 4 / Real.pi ^ 2) • g2 e j) p := fun j => (hg2 j).fun_const_smul _
  have hne : ∀ j, (1 / 2 / Real.pi) • g1 p j ≠ 0 := fun j => smul_ne_zero hpi.ne' (h1 j)
  have hN : DifferentiableAt ℝ (fun e => nrm ((1 / 2 / Real.pi) • g1 e i)) p := diff_nrm (hrp i) (hne i)
  have hN0 := nrm_pos _ (hne i)
  unfold bReg singTerm
  refine (hI.mul_const pref).fun_smul (DifferentiableAt.fun_add ?_ (DifferentiableAt.fun_const_smul (DifferentiableAt.fun_sum fun j _ => DifferentiableAt.fun_add ?_ ?_) _))
  · refine DifferentiableAt.fun_smul (diff_div ?_ (hN.fun_pow 3) (by positivity)) (diff_cross (hrp i) (hrpp i))
    refine DifferentiableAt.const_mul (DifferentiableAt.const_add _ (DifferentiableAt.log ?_ (by positivity))) _
    exact diff_div ((hN.const_mul 64).fun_mul hN) (differentiableAt_const reg) hreg.ne'
  · refine DifferentiableAt.fun_smul (diff_div (differentiableAt_const _) (diff_rpow ((diff_inner ((hg i).fun_sub (hg j)) ((hg i).fun_sub (hg j))).add_const _) ?_) ?_) (diff_cross (hrp j) ((hg i).fun_sub (hg j)))
    · have := inner_self_nonneg (g p i - g p j); linarith
    · have := inner_self_nonneg (g p i - g p j); exact (Real.rpow_pos_of_pos (by linarith) _).ne'
  · have hb : 0 < (2 - 2 * Real.cos (q j * 2 * Real.pi - q i * 2 * Real.pi)) * inner ((1 / 2 / Real.pi) • g1 p i) ((1 / 2 / Real.pi) • g1 p i) + reg := by
      have := mul_nonneg (cosFac_nonneg (q j * 2 * Real.pi - q i * 2 * Real.pi)) (inner_self_nonneg ((1 / 2 / Real.pi) • g1 p i)); linarith
    exact DifferentiableAt.fun_smul (diff_div (differentiableAt_const _) (diff_rpow (((diff_inner (hrp i) (hrp i)).const_mul _).add_const _) hb) (Real.rpow_pos_of_pos hb _).ne') (diff_cross (hrpp i) (hrp i))

/-- `mean_squared_force_pure` along differentiable arguments. -/
theorem diff_msForce (pref : ℝ) (q : Fin n → ℝ) (reg : ℝ) (hreg : 0 < reg) (hn : 0 < n) (g g1 g2 B : E → Fin n → V3) (I : E → ℝ) (p : E) (hg : ∀ i, DifferentiableAt ℝ (fun e => g e i) p)
    (hg1 : ∀ i, DifferentiableAt ℝ (fun e => g1 e i) p) (hg2 : ∀ i, DifferentiableAt ℝ (fun e => g2 e i) p) (hI : DifferentiableAt ℝ I p) (hB : ∀ i, DifferentiableAt ℝ (fun e => B e i) p) (h1 : ∀ i, g1 p i ≠ 0) :
    DifferentiableAt ℝ (fun e => msForce pref q reg (g e) (g1 e) (g2 e) (I e) (B e)) p := by
  have hb := diff_bReg pref q reg hreg g g1 g2 I p hg hg1 hg2 hI h1
  have hN : ∀ i, DifferentiableAt ℝ (fun e => nrm (g1 e i)) p := fun i => diff_nrm (hg1 i) (h1 i)
  have hT : ∀ i, DifferentiableAt ℝ (fun e => (1 / nrm (g1 e i)) • g1 e i) p := fun i =>
    DifferentiableAt.fun_smul (diff_div (differentiableAt_const (1 : ℝ)) (hN i) (nrm_pos _ (h1 i)).ne') (hg1 i)
  have hF : ∀ i, DifferentiableAt ℝ (fun e => force pref (g e) (g1 e) (g2 e) q (I e) reg (B e) i) p := fun i =>
    diff_cross (hI.fun_smul (hT i)) ((hb i).fun_add (hB i))
  have hs : 0 < ∑ i, nrm (g1 p i) := Finset.sum_pos (fun i _ => nrm_pos _ (h1 i)) ⟨⟨0, hn⟩, Finset.mem_univ _⟩
  simp only [msForce, nrm_sq]
  exact diff_div (DifferentiableAt.fun_sum fun i _ => (hN i).fun_mul (diff_inner (hF i) (hF i))) (DifferentiableAt.fun_sum fun i _ => hN i) hs.ne'

theorem diff_plus {f : E → ℝ} {p : E} (hf : DifferentiableAt ℝ f p) (h0 : f p ≠ 0) (r : ℝ) : DifferentiableAt ℝ (fun e => max (f e) 0 ^ r) p := by
  rcases lt_or_gt_of_ne h0 with h | h
  · have he : (fun e => max (f e) 0 ^ r) =ᶠ[nhds p] fun _ => (0 : ℝ) ^ r := by
      filter_upwards [hf.continuousAt.eventually (gt_mem_nhds h)] with e he
      rw [max_eq_right he.le]
    exact (differentiableAt_const _).congr_of_eventuallyEq he
  · have he : (fun e => max (f e) 0 ^ r) =ᶠ[nhds p] fun e => f e ^ r := by
      filter_upwards [hf.continuousAt.eventually (lt_mem_nhds h)] with e he
      rw [max_eq_left he.le]
    exact (hf.rpow_const (Or.inl h.ne')).congr_of_eventuallyEq he

/-- `lp_force_pure` along differentiable arguments, where the force does not vanish and is not exactly at the threshold. -/
theorem diff_lpForce (pref : ℝ) (q : Fin n → ℝ) (reg r threshold : ℝ) (hreg : 0 < reg) (g g1 g2 B : E → Fin n → V3) (I : E → ℝ) (p : E) (hg : ∀ i, DifferentiableAt ℝ (fun e => g e i) p)
    (hg1 : ∀ i, DifferentiableAt ℝ (fun e => g1 e i) p) (hg2 : ∀ i, DifferentiableAt ℝ (fun e => g2 e i) p) (hI : DifferentiableAt ℝ I p) (hB : ∀ i, DifferentiableAt ℝ (fun e => B e i) p) (h1 : ∀ i, g1 p i ≠ 0)
    (hF0 : ∀ i, force pref (g p) (g1 p) (g2 p) q (I p) reg (B p) i ≠ 0) (ht : ∀ i, nrm (force pref (g p) (g1 p) (g2 p) q (I p) reg (B p) i) ≠ threshold) :
    DifferentiableAt ℝ (fun e => lpForce pref q reg r threshold (g e) (g1 e) (g2 e) (I e) (B e)) p := by
  have hb := diff_bReg pref q reg hreg g g1 g2 I p hg hg1 hg2 hI h1
  have hN : ∀ i, DifferentiableAt ℝ (fun e => nrm (g1 e i)) p := fun i => diff_nrm (hg1 i) (h1 i)
  have hT : ∀ i, DifferentiableAt ℝ (fun e => (1 / nrm (g1 e i)) • g1 e i) p := fun i =>
    DifferentiableAt.fun_smul (diff_div (differentiableAt_const (1 : ℝ)) (hN i) (nrm_pos _ (h1 i)).ne') (hg1 i)
  have hF : ∀ i, DifferentiableAt ℝ (fun e => force pref (g e) (g1 e) (g2 e) q (I e) reg (B e) i) p := fun i => diff_cross (hI.fun_smul (hT i)) ((hb i).fun_add (hB i))
  unfold lpForce
  exact DifferentiableAt.mul_const (DifferentiableAt.fun_sum fun i _ => (diff_plus ((diff_nrm (hF i) (hF0 i)).sub_const threshold) (sub_ne_zero.mpr (ht i)) r).fun_mul (hN i)) _

/-- Every linear functional on arrays is the contraction with an array. -/
theorem functional (L : (Fin n → V3) →L[ℝ] ℝ) : ∃ w : Fin n → V3, ∀ v, L v = ∑ i, inner (w i) (v i) := by
  refine ⟨fun i => (L (Pi.single i (1, 0, 0)), L (Pi.single i (0, 1, 0)), L (Pi.single i (0, 0, 1))), fun v => ?_⟩
  have hv : v = ∑ i, ((v i).1 • (Pi.single i (1, 0, 0) : Fin n → V3) + (v i).2.1 • (Pi.single i (0, 1, 0) : Fin n → V3) + (v i).2.2 • (Pi.single i (0, 0, 1) : Fin n → V3)) := by
    funext j
    rw [Finset.sum_apply, Finset.sum_eq_single j]
    · simp
    · intro i _ hi
      simp [Pi.single_eq_of_ne (Ne.symm hi)]
    · simp
  conv_lhs => rw [hv]
  rw [map_sum]
  refine Finset.sum_congr rfl fun i _ => ?_
  simp only [map_add, map_smul, inner, smul_eq_mul]
  ring

/-- A pure function that is differentiable in all its arguments together has gradients. -/
theorem grad_exists (jax : Jax n) (g g1 g2 : Fin n → V3) (I : ℝ) (B : Fin n → V3)
    (h : DifferentiableAt ℝ (fun e : (Fin n → V3) × (Fin n → V3) × (Fin n → V3) × ℝ × (Fin n → V3) => jax e.1 e.2.1 e.2.2.1 e.2.2.2.1 e.2.2.2.2) (g, g1, g2, I, B)) :
    ∃ gr, IsGrad jax gr g g1 g2 I B := by
  obtain ⟨L, hL⟩ := h
  let i1 := ContinuousLinearMap.inl ℝ (Fin n → V3) ((Fin n → V3) × (Fin n → V3) × ℝ × (Fin n → V3))
  let r1 := ContinuousLinearMap.inr ℝ (Fin n → V3) ((Fin n → V3) × (Fin n → V3) × ℝ × (Fin n → V3))
  let i2 := ContinuousLinearMap.inl ℝ (Fin n → V3) ((Fin n → V3) × ℝ × (Fin n → V3))
  let r2 := ContinuousLinearMap.inr ℝ (Fin n → V3) ((Fin n → V3) × ℝ × (Fin n → V3))
  let i3 := ContinuousLinearMap.inl ℝ (Fin n → V3) (ℝ × (Fin n → V3))
  let r3 := ContinuousLinearMap.inr ℝ (Fin n → V3) (ℝ × (Fin n → V3))
  let i4 := ContinuousLinearMap.inl ℝ ℝ (Fin n → V3)
  let r4 := ContinuousLinearMap.inr ℝ ℝ (Fin n → V3)
  obtain ⟨w0, h0⟩ := functional (L.comp i1)
  obtain ⟨w1, h1⟩ := functional (L.comp (r1.comp i2))
  obtain ⟨w2, h2⟩ := functional (L.comp (r1.comp (r2.comp i3)))
  obtain ⟨w4, h4⟩ := functional (L.comp (r1.comp (r2.comp (r3.comp r4))))
  refine ⟨(w0, w1, w2, L.comp (r1.comp (r2.comp (r3.comp i4))) 1, w4), ?_⟩
  intro x x1 x2 c b x' x1' x2' c' b' u e0 e1 e2 e3 e4 hx hx1 hx2 hc hb
  have hp : HasDerivAt (fun t => (x t, x1 t, x2 t, c t, b t)) (x', x1', x2', c', b') u :=
    (hasDerivAt_pi.mpr hx).prodMk ((hasDerivAt_pi.mpr hx1).prodMk ((hasDerivAt_pi.mpr hx2).prodMk (hc.prodMk (hasDerivAt_pi.mpr hb))))
  rw [← e0, ← e1, ← e2, ← e3, ← e4] at hL
  refine (hL.comp_hasDerivAt u hp).congr_deriv ?_
  have hc' : L.comp (r1.comp (r2.comp (r3.comp i4))) c' = L.comp (r1.comp (r2.comp (r3.comp i4))) 1 * c' := by
    conv_lhs => rw [show c' = c' • (1 : ℝ) by simp, map_smul]
    rw [smul_eq_mul, mul_comm]
  have key : ((x', x1', x2', c', b') : (Fin n → V3) × (Fin n → V3) × (Fin n → V3) × ℝ × (Fin n → V3)) =
      i1 x' + r1 (i2 x1') + r1 (r2 (i3 x2')) + r1 (r2 (r3 (i4 c'))) + r1 (r2 (r3 (r4 b'))) := by
    simp [i1, r1, i2, r2, i3, r3, i4, r4]
  rw [key, map_add, map_add, map_add, map_add]
  have a0 := h0 x'
  have a1 := h1 x1'
  have a2 := h2 x2'
  have a4 := h4 b'
  simp only [ContinuousLinearMap.comp_apply] at a0 a1 a2 a4 hc'
  rw [a0, a1, a2, a4, hc']
  rfl

/-- **C159.** For `MeanSquaredForce` the gradients assumed by `C159_gradient` exist wherever `gammadash` vanishes nowhere. -/
theorem C159_gradient_exists (pref : ℝ) (q : Fin n → ℝ) (reg : ℝ) (hreg : 0 < reg) (hn : 0 < n) (g g1 g2 : Fin n → V3) (I : ℝ) (B : Fin n → V3) (h1 : ∀ i, g1 i ≠ 0) :
    ∃ gr, IsGrad (msForce pref q reg) gr g g1 g2 I B := by
  apply grad_exists
  have hpi : ∀ {f : ((Fin n → V3) × (Fin n → V3) × (Fin n → V3) × ℝ × (Fin n → V3)) → Fin n → V3} {p}, DifferentiableAt ℝ f p → ∀ i, DifferentiableAt ℝ (fun e => f e i) p :=
    fun h i => differentiableAt_pi.mp h i
  refine diff_msForce pref q reg hreg hn (fun e : (Fin n → V3) × (Fin n → V3) × (Fin n → V3) × ℝ × (Fin n → V3) => e.1) (fun e => e.2.1) (fun e => e.2.2.1) (fun e => e.2.2.2.2) (fun e => e.2.2.2.1) (g, g1, g2, I, B) ?_ ?_ ?_ ?_ ?_ h1
  · exact hpi differentiableAt_fst
  · exact hpi differentiableAt_snd.fst
  · exact hpi differentiableAt_snd.snd.fst
  · exact differentiableAt_snd.snd.snd.fst
  · exact hpi differentiableAt_snd.snd.snd.snd

/-- **C159.** For `LpCurveForce` they exist wherever moreover the force vanishes nowhere and its magnitude is nowhere exactly the threshold. -/
theorem C159_lp_gradient_exists (pref : ℝ) (q : Fin n → ℝ) (reg r threshold : ℝ) (hreg : 0 < reg) (g g1 g2 : Fin n → V3) (I : ℝ) (B : Fin n → V3) (h1 : ∀ i, g1 i ≠ 0)
    (hF0 : ∀ i, force pref g g1 g2 q I reg B i ≠ 0) (ht : ∀ i, nrm (force pref g g1 g2 q I reg B i) ≠ threshold) : ∃ gr, IsGrad (lpForce pref q reg r threshold) gr g g1 g2 I B := by
  apply grad_exists
  have hpi : ∀ {f : ((Fin n → V3) × (Fin n → V3) × (Fin n → V3) × ℝ × (Fin n → V3)) → Fin n → V3} {p}, DifferentiableAt ℝ f p → ∀ i, DifferentiableAt ℝ (fun e => f e i) p :=
    fun h i => differentiableAt_pi.mp h i
  refine diff_lpForce pref q reg r threshold hreg (fun e : (Fin n → V3) × (Fin n → V3) × (Fin n → V3) × ℝ × (Fin n → V3) => e.1) (fun e => e.2.1) (fun e => e.2.2.1) (fun e => e.2.2.2.2) (fun e => e.2.2.2.1) (g, g1, g2, I, B) ?_ ?_ ?_ ?_ ?_ h1 hF0 ht
  · exact hpi differentiableAt_fst
  · exact hpi differentiableAt_snd.fst
  · exact hpi differentiableAt_snd.snd.fst
  · exact differentiableAt_snd.snd.snd.fst
  · exact hpi differentiableAt_snd.snd.snd.snd

end Simsopt.Force
