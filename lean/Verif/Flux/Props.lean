import Verif.Flux.Model
import Mathlib.Algebra.Order.BigOperators.Ring.Finset
/-!
# C64: SquaredFlux
-/
namespace Simsopt.Flux
open Simsopt.Coils Simsopt.Penalties Simsopt.Vjp
open Simsopt.Geometry hiding norm

/-! ### Values -/

/-- The documented objective, for a surface with area elements `a i` and unit normals `ν i`. -/
noncomputable def spec {N : Nat} (d : Definition) (B : Fin N → V3) (target : Fin N → ℝ) (ν : Fin N → V3) (a : Fin N → ℝ) : ℝ :=
  match d with
  | .quadraticFlux => 1 / 2 * mean fun i => (inner (B i) (ν i) - target i) ^ 2 * a i
  | .normalized => 1 / 2 * ((mean fun i => (inner (B i) (ν i) - target i) ^ 2 * a i) / mean fun i => inner (B i) (B i) * a i)
  | .localDef => 1 / 2 * mean fun i => (inner (B i) (ν i) - target i) ^ 2 / inner (B i) (B i) * a i

theorem normN_eq (n : V3) : normN n = Geometry.norm n := rfl

theorem BdotN_eq (B : V3) (t : ℝ) (n : V3) : BdotN B t n = inner B ((1 / Geometry.norm n) • n) - t := by
  simp only [BdotN, normN_eq, inner, Prod.smul_fst, Prod.smul_snd, smul_eq_mul]; ring

theorem norm_smul_unit (a : ℝ) (ν : V3) (ha : 0 < a) (hν : inner ν ν = 1) : Geometry.norm (a • ν) = a := by
  have : inner (a • ν) (a • ν) = a ^ 2 := by
    rw [inner_smul_left, inner_smul_right, hν]; ring
  rw [Geometry.norm_eq, this, Real.sqrt_sq ha.le]

theorem BdotN_unit (B : V3) (t a : ℝ) (ν : V3) (ha : 0 < a) (hν : inner ν ν = 1) : BdotN B t (a • ν) = inner B ν - t := by
  rw [BdotN_eq, norm_smul_unit a ν ha hν, smul_smul, one_div, inv_mul_cancel₀ ha.ne', one_smul]

/-- **C64.** `J()` is the documented quantity for each of the three definitions: half the surface average of the squared normal field, minus the target. -/
theorem C64_value {N : Nat} (d : Definition) (B : Fin N → V3) (target : Fin N → ℝ) (ν : Fin N → V3) (a : Fin N → ℝ)
    (ha : ∀ i, 0 < a i) (hν : ∀ i, inner (ν i) (ν i) = 1) : integral d B target (fun i => a i • ν i) = spec d B target ν a := by
  have h1 : ∀ i, BdotN (B i) (target i) (a i • ν i) = inner (B i) (ν i) - target i := fun i => BdotN_unit _ _ _ _ (ha i) (hν i)
  have h2 : ∀ i, normN (a i • ν i) = a i := fun i => norm_smul_unit _ _ (ha i) (hν i)
  have h3 : ∀ i, modSq (B i) = inner (B i) (B i) := fun i => rfl
  cases d with
  | quadraticFlux =>
    simp only [integral, finish, numTerm, spec, mean, h1, h2, sq]
    ring
  | normalized =>
    simp only [integral, finish, numTerm, denTerm, spec, mean, h1, h2, h3, sq]
    by_cases hN : (N : ℝ) = 0
    · have : N = 0 := by exact_mod_cast hN
      subst this; simp
    · rw [div_div_div_cancel_right₀ hN]; ring
  | localDef =>
    simp only [integral, finish, numTerm, spec, mean, h1, h2, h3, sq]
    ring

/-- **C64.** The objective is never negative. -/
theorem C64_nonneg {N : Nat} (d : Definition) (B : Fin N → V3) (target : Fin N → ℝ) (n : Fin N → V3) : 0 ≤ integral d B target n := by
  have hn : ∀ v : V3, 0 ≤ normN v := fun v => Real.sqrt_nonneg _
  have hm : ∀ v : V3, 0 ≤ modSq v := fun v => by unfold modSq; nlinarith [mul_self_nonneg v.1, mul_self_nonneg v.2.1, mul_self_nonneg v.2.2]
  cases d with
  | quadraticFlux =>
    simp only [integral, finish, numTerm]
    exact div_nonneg (mul_nonneg (by norm_num) (Finset.sum_nonneg fun i _ => mul_nonneg (mul_self_nonneg _) (hn _))) (Nat.cast_nonneg _)
  | normalized =>
    simp only [integral, finish, numTerm, denTerm]
    exact div_nonneg (mul_nonneg (by norm_num) (Finset.sum_nonneg fun i _ => mul_nonneg (mul_self_nonneg _) (hn _)))
      (Finset.sum_nonneg fun i _ => mul_nonneg (hm _) (hn _))
  | localDef =>
    simp only [integral, finish, numTerm]
    exact div_nonneg (mul_nonneg (by norm_num) (Finset.sum_nonneg fun i _ =>
      mul_nonneg (div_nonneg (mul_self_nonneg _) (hm _)) (hn _))) (Nat.cast_nonneg _)

/-- **C64.** The objective vanishes exactly if the normal field is the target at every quadrature point (for a non-vanishing field and normal). -/
theorem C64_zero_iff {N : Nat} (d : Definition) (B : Fin N → V3) (target : Fin N → ℝ) (n : Fin N → V3) (hn : ∀ i, n i ≠ 0) (hB : ∀ i, B i ≠ 0) :
    integral d B target n = 0 ↔ ∀ i, inner (B i) ((1 / Geometry.norm (n i)) • n i) = target i := by
  have hpos : ∀ i, 0 < normN (n i) := fun i => Geometry.norm_pos _ (hn i)
  have hm : ∀ i, 0 < modSq (B i) := fun i => inner_self_pos _ (hB i)
  rcases Nat.eq_zero_or_pos N with hN | hN
  · subst hN
    constructor
    · intro _ i; exact i.elim0
    · intro _; cases d <;> simp [integral, finish]
  have hNr : (N : ℝ) ≠ 0 := by exact_mod_cast hN.ne'
  have key : ∀ w : Fin N → ℝ, (∀ i, 0 < w i) →
      (∑ i, BdotN (B i) (target i) (n i) * BdotN (B i) (target i) (n i) * w i = 0 ↔
        ∀ i, inner (B i) ((1 / Geometry.norm (n i)) • n i) = target i) := by
    intro w hw
    rw [Finset.sum_eq_zero_iff_of_nonneg fun i _ => mul_nonneg (mul_self_nonneg _) (hw i).le]
    refine ⟨fun h i => ?_, fun h i _ => ?_⟩
    · have := h i (Finset.mem_univ i)
      rw [mul_eq_zero, or_iff_left (hw i).ne', mul_self_eq_zero, BdotN_eq] at this
      linarith
    · rw [BdotN_eq, h i]; ring
  cases d with
  | quadraticFlux =>
    simp only [integral, finish, numTerm]
    rw [div_eq_zero_iff, or_iff_left hNr, mul_eq_zero, or_iff_right (by norm_num)]
    exact key _ hpos
  | normalized =>
    simp only [integral, finish, numTerm, denTerm]
    have hd : 0 < ∑ i, modSq (B i) * normN (n i) :=
      Finset.sum_pos (fun i _ => mul_pos (hm i) (hpos i)) ⟨⟨0, hN⟩, Finset.mem_univ _⟩
    rw [div_eq_zero_iff, or_iff_left hd.ne', mul_eq_zero, or_iff_right (by norm_num)]
    exact key _ hpos
  | localDef =>
    simp only [integral, finish, numTerm]
    rw [div_eq_zero_iff, or_iff_left hNr, mul_eq_zero, or_iff_right (by norm_num)]
    have := key (fun i => normN (n i) / modSq (B i)) fun i => div_pos (hpos i) (hm i)
    rw [← this]
    refine Eq.congr (Finset.sum_congr rfl fun i _ => ?_) rfl
    ring

/-- **C64.** Scaling the field and the target by `s ≠ 0` (for instance all currents): the quadratic flux scales by `s²`, the other two definitions
do not change. -/
theorem C64_scale {N : Nat} (d : Definition) (B : Fin N → V3) (target : Fin N → ℝ) (n : Fin N → V3) (s : ℝ) (hs : s ≠ 0) :
    integral d (fun i => s • B i) (fun i => s * target i) n =
      if d = .quadraticFlux then s ^ 2 * integral d B target n else integral d B target n := by
  have h1 : ∀ i, BdotN (s • B i) (s * target i) (n i) = s * BdotN (B i) (target i) (n i) := by
    intro i
    simp only [BdotN_eq, inner_smul_left]; ring
  have h2 : ∀ i, modSq (s • B i) = s ^ 2 * modSq (B i) := by
    intro i; simp only [modSq, Prod.smul_fst, Prod.smul_snd, smul_eq_mul]; ring
  have hs2 : s ^ 2 ≠ 0 := pow_ne_zero 2 hs
  cases d with
  | quadraticFlux =>
    simp only [integral, finish, numTerm, h1, if_true]
    have e1 : ∑ i, s * BdotN (B i) (target i) (n i) * (s * BdotN (B i) (target i) (n i)) * normN (n i)
        = s ^ 2 * ∑ i, BdotN (B i) (target i) (n i) * BdotN (B i) (target i) (n i) * normN (n i) := by
      rw [Finset.mul_sum]; exact Finset.sum_congr rfl fun i _ => by ring
    rw [e1]; ring
  | normalized =>
    simp only [integral, finish, numTerm, denTerm, h1, h2, reduceCtorEq, if_false]
    have e1 : ∑ i, s * BdotN (B i) (target i) (n i) * (s * BdotN (B i) (target i) (n i)) * normN (n i)
        = s ^ 2 * ∑ i, BdotN (B i) (target i) (n i) * BdotN (B i) (target i) (n i) * normN (n i) := by
      rw [Finset.mul_sum]; exact Finset.sum_congr rfl fun i _ => by ring
    have e2 : ∑ i, s ^ 2 * modSq (B i) * normN (n i) = s ^ 2 * ∑ i, modSq (B i) * normN (n i) := by
      rw [Finset.mul_sum]; exact Finset.sum_congr rfl fun i _ => by ring
    rw [e1, e2, mul_left_comm, mul_div_mul_left _ _ hs2]
  | localDef =>
    simp only [integral, finish, numTerm, h1, h2, reduceCtorEq, if_false]
    congr 2
    refine Finset.sum_congr rfl fun i _ => ?_
    rw [show s * BdotN (B i) (target i) (n i) * (s * BdotN (B i) (target i) (n i))
      = s ^ 2 * (BdotN (B i) (target i) (n i) * BdotN (B i) (target i) (n i)) by ring, mul_div_mul_left _ _ hs2]

/-! ### Gradient -/

theorem BdotN_Bn {N : Nat} (B : Fin N → V3) (target : Fin N → ℝ) (n : Fin N → V3) (i : Fin N) : BdotN (B i) (target i) (n i) = Bn B target n i := by
  rw [BdotN_eq]; rfl

theorem modSq_norm (B : V3) : modSq B = Geometry.norm B ^ 2 := by rw [Geometry.norm_sq]; rfl

section
variable {N : Nat} {B : ℝ → Fin N → V3} {B' : Fin N → V3} {u : ℝ} (target : Fin N → ℝ) (n : Fin N → V3)
  (hB : ∀ i, HasDerivAt (fun t => B t i) (B' i) u)
include hB

theorem hasDerivAt_Bn (i : Fin N) : HasDerivAt (fun t => BdotN (B t i) (target i) (n i)) (inner (B' i) (unitn n i)) u := by
  have h := (d_inner (hB i) (hasDerivAt_const u (unitn n i))).sub_const (target i)
  simp only [BdotN_eq]
  refine h.congr_deriv ?_
  simp [inner]

theorem hasDerivAt_modSq (i : Fin N) : HasDerivAt (fun t => modSq (B t i)) (2 * inner (B u i) (B' i)) u := by
  refine (d_inner (hB i) (hB i)).congr_deriv ?_
  simp only [inner]; ring

/-- **C64.** The array `dJdB` that `dJ()` passes to `B_vjp` is the gradient of `J()` in the values of the field. -/
theorem C64_gradient (d : Definition) (hn : ∀ i, n i ≠ 0) (hne : d ≠ .quadraticFlux → ∀ i, B u i ≠ 0) :
    HasDerivAt (fun t => integral d (B t) target n) (∑ i, inner (dJdB d (B u) target n i) (B' i)) u := by
  have hb := hasDerivAt_Bn target n hB
  have hmo := hasDerivAt_modSq hB
  cases d with
  | quadraticFlux =>
    simp only [integral, finish, numTerm]
    have h := ((HasDerivAt.fun_sum (u := Finset.univ) fun i _ => ((hb i).mul (hb i)).mul_const (normN (n i))).const_mul (0.5 : ℝ)).div_const (N : ℝ)
    refine h.congr_deriv ?_
    rw [Finset.mul_sum, Finset.sum_div]
    refine Finset.sum_congr rfl fun i _ => ?_
    simp only [dJdB, inner_smul_left, BdotN_Bn]
    rw [inner_comm' (unitn n i), show absn n i = normN (n i) from rfl]
    ring
  | localDef =>
    have hpos := fun i => inner_self_pos _ (hne (by decide) i)
    simp only [integral, finish, numTerm]
    have h := ((HasDerivAt.fun_sum (u := Finset.univ) fun i _ =>
      (((hb i).mul (hb i)).div (hmo i) (hpos i).ne').mul_const (normN (n i))).const_mul (0.5 : ℝ)).div_const (N : ℝ)
    refine h.congr_deriv ?_
    rw [Finset.mul_sum, Finset.sum_div]
    refine Finset.sum_congr rfl fun i _ => ?_
    have hm := Geometry.norm_pos _ (hne (by decide) i)
    have hsub : ∀ a b c : V3, inner (a - b) c = inner a c - inner b c := by
      intro a b c; simp only [inner, Prod.fst_sub, Prod.snd_sub]; ring
    simp only [dJdB, inner_smul_left, hsub, BdotN_Bn, Pi.mul_apply, modSq_norm]
    rw [inner_comm' (unitn n i), show absn n i = normN (n i) from rfl]
    field_simp
    ring
  | normalized =>
    have hpos := fun i => inner_self_pos _ (hne (by decide) i)
    rcases Nat.eq_zero_or_pos N with hN | hN
    · subst hN
      simpa [integral, finish] using hasDerivAt_const u (0 : ℝ)
    have hNr : (N : ℝ) ≠ 0 := by exact_mod_cast hN.ne'
    have hd : 0 < ∑ i, modSq (B u i) * normN (n i) :=
      Finset.sum_pos (fun i _ => mul_pos (hpos i) (Geometry.norm_pos _ (hn i))) ⟨⟨0, hN⟩, Finset.mem_univ _⟩
    simp only [integral, finish, numTerm, denTerm]
    have h := ((HasDerivAt.fun_sum (u := Finset.univ) fun i _ => ((hb i).mul (hb i)).mul_const (normN (n i))).const_mul (0.5 : ℝ)).div
      (HasDerivAt.fun_sum (u := Finset.univ) fun i _ => (hmo i).mul_const (normN (n i))) hd.ne'
    refine h.congr_deriv ?_
    have hsub : ∀ a b c : V3, inner (a - b) c = inner a c - inner b c := by
      intro a b c; simp only [inner, Prod.fst_sub, Prod.snd_sub]; ring
    have e1 : (mean fun i => Bn (B u) target n i ^ 2 * absn n i)
        = (∑ i, Bn (B u) target n i * Bn (B u) target n i * normN (n i)) / N := by
      rw [mean]; congr 1; exact Finset.sum_congr rfl fun i _ => by rw [sq]; rfl
    have e2 : (mean fun i => Geometry.norm (B u i) ^ 2 * absn n i) = (∑ i, modSq (B u i) * normN (n i)) / N := by
      rw [mean]; congr 1; exact Finset.sum_congr rfl fun i _ => by rw [modSq_norm]; rfl
    simp only [dJdB, inner_smul_left, hsub, e1, e2, BdotN_Bn]
    set S := ∑ i, modSq (B u i) * normN (n i) with hS
    set Q := ∑ i, Bn (B u) target n i * Bn (B u) target n i * normN (n i)
    have e3 : ∀ i, inner (unitn n i) (B' i) = inner (B' i) (unitn n i) := fun i => inner_comm' _ _
    have hstep : ∀ i, (0.5 : ℝ) * (1 / (S / ↑N) * (2 / ↑N * (absn n i * (Bn (B u) target n i * inner (unitn n i) (B' i))))
        - Q / ↑N / (S / ↑N) ^ 2 * (2 / ↑N * (absn n i * inner (B u i) (B' i)))) =
        (0.5 / S) * ((inner (B' i) (unitn n i) * Bn (B u) target n i + Bn (B u) target n i * inner (B' i) (unitn n i)) * normN (n i))
          - (0.5 * Q / S ^ 2) * (2 * inner (B u i) (B' i) * normN (n i)) := by
      intro i
      rw [e3, show absn n i = normN (n i) from rfl]
      have := hd.ne'
      field_simp
      ring
    rw [Finset.sum_congr rfl fun i _ => hstep i, Finset.sum_sub_distrib, ← Finset.mul_sum, ← Finset.mul_sum]
    have := hd.ne'
    simp only [Pi.mul_apply]
    have hQ : ∑ i, Bn (B u) target n i * Bn (B u) target n i * normN (n i) = Q := rfl
    simp only [hQ]
    set P := ∑ i, (inner (B' i) (unitn n i) * Bn (B u) target n i + Bn (B u) target n i * inner (B' i) (unitn n i)) * normN (n i)
    set R := ∑ i, 2 * inner (B u i) (B' i) * normN (n i)
    field_simp

end

/-- **C64.** `dJ()`: for a field of coils, entry `l` of `B_vjp(dJdB)` is the derivative of `J()` in dof `l` of the coils. -/
theorem C64_dJ {nc m N : Nat} {k : Fin nc → Nat} (d : Definition) (points : Fin N → V3) (target : Fin N → ℝ) (n : Fin N → V3)
    (a : ℝ → Arrays nc k) (J : Jacobians nc k m) (l : Fin m) (u : ℝ) (hm : Moves a J l u) (hoff : ∀ i c j, points i ≠ (a u).gamma c j)
    (hn : ∀ i, n i ≠ 0) (hne : d ≠ .quadraticFlux → ∀ i, biotSavart (a u).coils (points i) ≠ 0) :
    HasDerivAt (fun t => integral d (fun i => biotSavart (a t).coils (points i)) target n)
      (bVjp points (a u) J (dJdB d (fun i => biotSavart (a u).coils (points i)) target n) l) u := by
  have hB : ∀ i, ∃ b, HasDerivAt (fun t => biotSavart (a t).coils (points i)) b u := by
    intro i
    have hv : ∀ v : V3, ∃ b, HasDerivAt (fun t => inner v (biotSavart (a t).coils (points i))) b u := fun v => by
      have := C63_B_vjp (np := 1) (fun _ => points i) a J l u hm (fun _ => hoff i) fun _ => v
      exact ⟨_, by simpa using this⟩
    obtain ⟨b0, h0⟩ := hv (1, 0, 0)
    obtain ⟨b1, h1⟩ := hv (0, 1, 0)
    obtain ⟨b2, h2⟩ := hv (0, 0, 1)
    simp only [inner, one_mul, zero_mul, add_zero, zero_add] at h0 h1 h2
    exact ⟨(b0, b1, b2), h0.prodMk (h1.prodMk h2)⟩
  choose B' hB' using hB
  have hg := C64_gradient target n hB' d hn hne
  have hv := C63_B_vjp points a J l u hm hoff (dJdB d (fun i => biotSavart (a u).coils (points i)) target n)
  have hlin : HasDerivAt (fun t => ∑ i, inner (dJdB d (fun i => biotSavart (a u).coils (points i)) target n i) (biotSavart (a t).coils (points i)))
      (∑ i, inner (dJdB d (fun i => biotSavart (a u).coils (points i)) target n i) (B' i)) u := by
    refine (HasDerivAt.fun_sum (u := Finset.univ) fun i _ => d_inner (hasDerivAt_const u _) (hB' i)).congr_deriv ?_
    exact Finset.sum_congr rfl fun i _ => by simp [inner]
  rw [hv.unique hlin]
  exact hg

/-! ### Threads -/

theorem Interleaving.perm {α : Type} {ps : List (List α)} {l : List α} (h : Interleaving ps l) : l.Perm ps.flatten := by
  induction h with
  | nil ps h =>
    have : ps.flatten = [] := by simpa using h
    rw [this]
  | cons before a p after l _ ih =>
    simp only [List.flatten_append, List.flatten_cons, List.cons_append] at ih ⊢
    exact (ih.cons a).trans List.perm_middle.symm

/-- The iterations whose second step has been done. -/
def done {N : Nat} : List (Step N) → List (Fin N)
  | [] => []
  | .write _ :: l => done l
  | .accumulate i :: l => i :: done l

theorem done_append {N : Nat} (a b : List (Step N)) : done (a ++ b) = done a ++ done b := by
  induction a with
  | nil => rfl
  | cons s a ih => cases s <;> simp [done, ih]

theorem done_program {N : Nat} (is : List (Fin N)) : done (program is) = is := by
  induction is with
  | nil => rfl
  | cons i is ih =>
    change done ([.write i, .accumulate i] ++ program is) = _
    rw [done_append, ih]; rfl

theorem done_flatten {N : Nat} (cs : List (List (Fin N))) : done (cs.map program).flatten = cs.flatten := by
  induction cs with
  | nil => rfl
  | cons c cs ih => simp [done_append, done_program, ih]

theorem done_perm {N : Nat} {a b : List (Step N)} (h : a.Perm b) : (done a).Perm (done b) := by
  induction h with
  | nil => exact .refl _
  | cons x _ ih => cases x <;> simpa [done] using ih
  | swap x y l => cases x <;> cases y <;> simp only [done] <;> first | exact .refl _ | exact .swap _ _ _
  | trans _ _ h1 h2 => exact h1.trans h2

theorem quadratic_fold {N : Nat} (B : Fin N → V3) (target : Fin N → ℝ) (n : Fin N → V3) (l : List (Step N)) (s : Sums) :
    (l.foldl (step .quadraticFlux B target n) s).num =
      s.num + ((done l).map fun i => BdotN (B i) (target i) (n i) * BdotN (B i) (target i) (n i) * normN (n i)).sum := by
  induction l generalizing s with
  | nil => simp [done]
  | cons x l ih =>
    cases x with
    | write i => rw [List.foldl_cons, ih]; simp [step, done]
    | accumulate i => rw [List.foldl_cons, ih]; simp [step, done, numTerm, add_assoc]

/-- **C64.** The default definition does not depend on the number of threads, on which thread gets which iterations, or on how the threads are
interleaved. -/
theorem C64_quadratic_schedule {N : Nat} (B : Fin N → V3) (target : Fin N → ℝ) (n : Fin N → V3) (mod0 : ℝ) (chunks : List (List (Fin N)))
    (l : List (Step N)) (h : Schedule chunks l) : runSchedule .quadraticFlux B target n mod0 l = integral .quadraticFlux B target n := by
  have hp : (done l).Perm (List.finRange N) := by
    have := done_perm h.2.perm
    rw [done_flatten] at this
    exact this.trans h.1
  simp only [runSchedule, integral, finish, quadratic_fold, zero_add, (hp.map _).sum_eq, numTerm]
  rw [← List.sum_ofFn, List.ofFn_eq_map]

theorem serial_fold {N : Nat} (d : Definition) (B : Fin N → V3) (target : Fin N → ℝ) (n : Fin N → V3) (is : List (Fin N)) (s : Sums) :
    ((program is).foldl (step d B target n) s).num = s.num + (is.map fun i => numTerm d (B i) (target i) (n i) (modSq (B i))).sum ∧
    ((program is).foldl (step d B target n) s).den = s.den + (is.map fun i => denTerm d (n i) (modSq (B i))).sum := by
  induction is generalizing s with
  | nil => simp [program]
  | cons i is ih =>
    change (([Step.write i, Step.accumulate i] ++ program is).foldl (step d B target n) s).num = _ ∧ (([Step.write i, Step.accumulate i] ++ program is).foldl (step d B target n) s).den = _
    rw [List.foldl_append]
    obtain ⟨h1, h2⟩ := ih ([Step.write i, Step.accumulate i].foldl (step d B target n) s)
    rw [h1, h2]
    cases d <;> simp [step, numTerm, denTerm, add_assoc]

theorem serial_perm_sum {N : Nat} (is : List (Fin N)) (h : is.Perm (List.finRange N)) (f : Fin N → ℝ) : (is.map f).sum = ∑ i, f i := by
  rw [(h.map f).sum_eq, ← List.sum_ofFn, List.ofFn_eq_map]

/-- **C64.** All three definitions are right if the loop is executed by one thread (`OMP_NUM_THREADS=1`), in any order. -/
theorem C64_one_thread {N : Nat} (d : Definition) (B : Fin N → V3) (target : Fin N → ℝ) (n : Fin N → V3) (mod0 : ℝ) (is : List (Fin N))
    (h : is.Perm (List.finRange N)) : runSchedule d B target n mod0 (program is) = integral d B target n := by
  obtain ⟨h1, h2⟩ := serial_fold d B target n is ⟨mod0, 0, 0⟩
  simp only [runSchedule, h1, h2, zero_add, serial_perm_sum is h, integral]

/-- Two quadrature points with fields of different strength. -/
def wB (i : Fin 2) : V3 := if i = 0 then (1, 0, 0) else (2, 0, 0)
def wn (_ : Fin 2) : V3 := (1, 0, 0)

/-- Thread 1 writes `mod_B_squared`, thread 2 overwrites it, then both read it. -/
def race : List (Step 2) := [.write 0, .write 1, .accumulate 0, .accumulate 1]

theorem race_schedule : Schedule [[0], [1]] race := by
  refine ⟨by decide, ?_⟩
  refine .cons [] (Step.write 0) [Step.accumulate 0] [[Step.write 1, Step.accumulate 1]] _ ?_
  refine .cons [[Step.accumulate 0]] (Step.write 1) [Step.accumulate 1] [] _ ?_
  refine .cons [] (Step.accumulate 0) [] [[Step.accumulate 1]] _ ?_
  refine .cons [[]] (Step.accumulate 1) [] [] _ ?_
  exact .nil _ (by simp)

/-- **C64, violated.** `mod_B_squared` is shared by the threads: with two threads there is an interleaving for which `integral_BdotN` returns 5/16
instead of 1/2 for the definition "normalized" and 5/16 instead of 1/2 for "local". -/
theorem C64_race_violated :
    ∃ (chunks : List (List (Fin 2))) (l : List (Step 2)), Schedule chunks l ∧
      (∀ mod0, runSchedule .normalized wB (fun _ => 0) wn mod0 l = 5 / 16) ∧ integral .normalized wB (fun _ => 0) wn = 1 / 2 ∧
      (∀ mod0, runSchedule .localDef wB (fun _ => 0) wn mod0 l = 5 / 16) ∧ integral .localDef wB (fun _ => 0) wn = 1 / 2 := by
  refine ⟨_, _, race_schedule, fun mod0 => ?_, ?_, fun mod0 => ?_, ?_⟩ <;>
    simp [runSchedule, race, step, finish, numTerm, denTerm, BdotN, normN, modSq, wB, wn, integral, Fin.sum_univ_two] <;> norm_num

/-! ### Which points the field is evaluated at -/

/-- What happens between the construction of the object and the call of `J()` without anyone setting the points of the field: the coils change. -/
inductive Quiet : World → World → Prop where
  | refl (w : World) : Quiet w w
  | setDofs (w w' : World) (f : V3 → V3) (h : Quiet w w') : Quiet w (w'.setDofs f)

/-- **C64.** `J()` evaluates the current field on the object's own surface if nobody has set the points of the field since the construction
of the object.  Missing: any other history; see `C64_shared_field_violated`. -/
theorem C64_points (w : World) (s : Surf) (target : List ℝ) (d : Definition) (ht : target.length = s.rows.length) (w' : World)
    (h : Quiet (w.construct s (some target) d).1 w') :
    J w' (w.construct s (some target) d).2 =
      some (integral (N := s.rows.length) d (fun i => w'.field (s.rows.get i).1) (fun i => target.get (i.cast ht.symm)) fun i => (s.rows.get i).2) := by
  have hp : w'.points = s.rows.map Prod.fst := by
    generalize hw : (w.construct s (some target) d).1 = w0 at h
    induction h with
    | refl => subst hw; rfl
    | setDofs w' f _ ih => exact ih
  simp only [J, World.construct, hp, List.length_map, Option.getD_some, ht, and_self, if_true]
  congr 2
  · funext i; congr 1; simp [List.getD_eq_getElem?_getD]
  · funext i; simp [List.getD_eq_getElem?_getD, ht]
  · funext i; simp [List.getD_eq_getElem?_getD]

/-- **C64, violated.** Two `SquaredFlux` objects that share a field: constructing the second moves the points of the field, and `J()` of the first
then evaluates the field on the second surface. -/
theorem C64_shared_field_violated :
    ∃ (w : World) (s1 s2 : Surf),
      let c1 := w.construct s1 none .quadraticFlux
      let c2 := c1.1.construct s2 none .quadraticFlux
      J c1.1 c1.2 = some 0 ∧ J c2.1 c1.2 = some (1 / 2) := by
  refine ⟨⟨[], fun x => x⟩, ⟨[((0, 0, 0), (1, 0, 0))]⟩, ⟨[((1, 0, 0), (1, 0, 0))]⟩, ?_, ?_⟩ <;>
    simp [J, World.construct, integral, finish, numTerm, BdotN, normN]
  have h : ∀ k : ℕ, k = 1 → (0.5 : ℝ) * (k : ℝ) = 2⁻¹ := by rintro k rfl; norm_num
  exact h _ rfl

/-- A schedule with two threads that is not serial, so `C64_quadratic_schedule` applies to it. -/
example : Schedule [[(0 : Fin 2)], [1]] race ∧ race ≠ program [0, 1] := ⟨race_schedule, by decide⟩

end Simsopt.Flux
