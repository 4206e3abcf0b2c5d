import Verif.Util.Trig
import Mathlib.Algebra.BigOperators.Field
import Mathlib.Algebra.Order.BigOperators.Group.Finset
import Mathlib.Data.Fintype.BigOperators
import Mathlib.Data.List.FinRange
import Mathlib.Algebra.Order.BigOperators.Group.List
import Mathlib.Tactic.NormNum
import Mathlib.Tactic.LinearCombination
/-!
# The departure from quasisymmetry in Boozer coordinates

Model of `Quasisymmetry.J` (src/simsopt/mhd/boozer.py L289-396) on one surface.  The arrays `bx.xm_b`, `bx.xn_b / bx.nfp` and `bmnc_b[:, index]` are families over the same indices; the first mode is (0, 0).
-/
namespace Simsopt.Quasi
open Finset Real

/-- The Boozer spectrum on a surface: mode numbers `m`, `n` (in units of `nfp`) and the coefficients of `cos(mθ - n nfp ζ)` and `sin(mθ - n nfp ζ)`; without stellarator symmetry booz_xform also has the latter (`bmns_b`). -/
structure Spectrum (M : Nat) where
  nfp : Nat
  m : Fin (M + 1) → ℤ
  n : Fin (M + 1) → ℤ
  c : Fin (M + 1) → ℝ
  s : Fin (M + 1) → ℝ

inductive Normalization where
  | B00
  | symmetric

inductive Weight where
  | even
  | stellopt
  | ornl

variable {M : Nat}

/-- `symmetric` (L316-333). -/
def symm (hm hn : ℤ) (b : Spectrum M) (i : Fin (M + 1)) : Bool :=
  if hn = 0 then b.n i = 0
  else if hm = 0 then b.m i = 0
  else b.m i * hn + b.n i * hm = 0

/-- `bnorm` (L342-353). -/
noncomputable def bnorm (hm hn : ℤ) (nz : Normalization) (b : Spectrum M) : ℝ :=
  match nz with
  | .B00 => b.c 0
  | .symmetric => √ (((List.finRange (M + 1)).filter fun i => symm hm hn b i).map fun i => b.c i * b.c i).sum

/-- `bmnc[nonsymmetric]` after the normalization (L338, L359). -/
noncomputable def broken (hm hn : ℤ) (nz : Normalization) (b : Spectrum M) : List ℝ :=
  ((List.finRange (M + 1)).filter fun i => !symm hm hn b i).map fun i => b.c i / bnorm hm hn nz b

/-- The entries of `J()` for one surface (L299-395); `sUsed` is the flux label of the surface.  Other values of `helicity_m` raise (L313-314). -/
noncomputable def J (hm hn : ℤ) (nz : Normalization) (wt : Weight) (sUsed : ℝ) (b : Spectrum M) : Option (List ℝ) :=
  if hm ≠ 0 ∧ hm ≠ 1 then none else
  match wt with
  | .even => some (broken hm hn nz b)
  | .stellopt => some ((broken hm hn nz b).map fun e => e / (sUsed * sUsed))
  | .ornl => some [√ ((broken hm hn nz b).map fun e => e * e).sum]

/-! ## Specification -/

/-- The field strength on the surface. -/
noncomputable def Spectrum.B (b : Spectrum M) (θ ζ : ℝ) : ℝ :=
  ∑ i, (b.c i * Real.cos (b.m i * θ - b.n i * (b.nfp * ζ)) + b.s i * Real.sin (b.m i * θ - b.n i * (b.nfp * ζ)))

/-- The field strength depends on the angles only through `hm θ - σ nfp hn ζ`; the documentation (L253-256) has `σ = 1`. -/
def Symmetric (hm hn σ : ℤ) (b : Spectrum M) : Prop := ∃ G : ℝ → ℝ, ∀ θ ζ, b.B θ ζ = G (hm * θ - σ * b.nfp * hn * ζ)

/-- The modes of booz_xform: the first is (0, 0), all different, and of the pairs `±(m, n)` only one. -/
structure Spectrum.Ok (b : Spectrum M) : Prop where
  nfp : 0 < b.nfp
  first : b.m 0 = 0 ∧ b.n 0 = 0
  distinct : ∀ i j, b.m i = b.m j → b.n i = b.n j → i = j
  half : ∀ i, 0 < b.m i ∨ (b.m i = 0 ∧ 0 ≤ b.n i)

/-! ## Proofs -/

theorem symm_iff {hm hn : ℤ} (h : hm = 0 ∨ hm = 1) (h0 : ¬(hm = 0 ∧ hn = 0)) (b : Spectrum M) (i : Fin (M + 1)) :
    symm hm hn b i = true ↔ b.m i * hn + b.n i * hm = 0 := by
  unfold symm
  by_cases h1 : hn = 0
  · have h2 : hm = 1 := by rcases h with h | h
                           · exact absurd ⟨h, h1⟩ h0
                           · exact h
    simp [h1, h2]
  · rw [if_neg h1]
    by_cases h2 : hm = 0
    · simp [h2, h1]
    · rw [if_neg h2]; simp

theorem broken_zero {hm hn : ℤ} {nz : Normalization} {b : Spectrum M} (hb : bnorm hm hn nz b ≠ 0) :
    (∀ e ∈ broken hm hn nz b, e = 0) ↔ ∀ i, symm hm hn b i = false → b.c i = 0 := by
  unfold broken
  constructor
  · intro h i hi
    have := h (b.c i / bnorm hm hn nz b) (List.mem_map.mpr ⟨i, List.mem_filter.mpr ⟨List.mem_finRange i, by simp [hi]⟩, rfl⟩)
    rcases div_eq_zero_iff.mp this with h1 | h1
    · exact h1
    · exact absurd h1 hb
  · intro h e he
    obtain ⟨i, hi, rfl⟩ := List.mem_map.mp he
    have := (List.mem_filter.mp hi).2
    rw [h i (by simpa using this), zero_div]

theorem sum_sq_zero (l : List ℝ) : (l.map fun e => e * e).sum = 0 ↔ ∀ e ∈ l, e = 0 := by
  have hpos : ∀ l : List ℝ, 0 ≤ (l.map fun e => e * e).sum := fun l => List.sum_nonneg (by
    intro x hx; obtain ⟨e, -, rfl⟩ := List.mem_map.mp hx; exact mul_self_nonneg e)
  induction l with
  | nil => simp
  | cons a l ih =>
    rw [List.map_cons, List.sum_cons]
    constructor
    · intro h
      have h1 := mul_self_nonneg a
      have h2 := hpos l
      intro e he
      rcases List.mem_cons.mp he with rfl | he
      · exact mul_self_eq_zero.mp (by linarith)
      · exact (ih.mp (by linarith)) e he
    · intro h
      rw [h a (List.mem_cons_self ..), ih.mpr fun e he => h e (List.mem_cons_of_mem _ he)]
      simp

theorem J_zero {hm hn : ℤ} (h : hm = 0 ∨ hm = 1) {nz : Normalization} {wt : Weight} {sUsed : ℝ} (hs : sUsed ≠ 0) {b : Spectrum M} (hb : bnorm hm hn nz b ≠ 0) :
    ∃ l, J hm hn nz wt sUsed b = some l ∧ ((∀ e ∈ l, e = 0) ↔ ∀ i, symm hm hn b i = false → b.c i = 0) := by
  unfold J
  rw [if_neg (by rcases h with h | h <;> simp [h])]
  rw [← broken_zero hb]
  cases wt with
  | even => exact ⟨_, rfl, Iff.rfl⟩
  | stellopt =>
    refine ⟨_, rfl, ?_⟩
    constructor
    · intro hh e he
      have := hh _ (List.mem_map.mpr ⟨e, he, rfl⟩)
      rcases div_eq_zero_iff.mp this with h1 | h1
      · exact h1
      · exact absurd (mul_self_eq_zero.mp h1) hs
    · intro hh e he
      obtain ⟨e', he', rfl⟩ := List.mem_map.mp he
      rw [hh e' he', zero_div]
  | ornl =>
    refine ⟨_, rfl, ?_⟩
    have hpos : 0 ≤ ((broken hm hn nz b).map fun e => e * e).sum := List.sum_nonneg (by
      intro x hx; obtain ⟨e, -, rfl⟩ := List.mem_map.mp hx; exact mul_self_nonneg e)
    simp only [List.mem_singleton, forall_eq, Real.sqrt_eq_zero hpos]
    exact sum_sq_zero _

/-- Without symmetry-breaking modes the field strength has the symmetry. -/
theorem symmetric_of_modes {hm hn : ℤ} (h : hm = 0 ∨ hm = 1) (h0 : ¬(hm = 0 ∧ hn = 0)) {b : Spectrum M} (hs : ∀ i, b.s i = 0)
    (hz : ∀ i, symm hm hn b i = false → b.c i = 0) : Symmetric hm hn (-1) b := by
  refine ⟨fun χ => ∑ i, if symm hm hn b i then b.c i * Real.cos ((if hm = 1 then (b.m i : ℝ) else -(b.n i : ℝ) / hn) * χ) else 0, fun θ ζ => ?_⟩
  unfold Spectrum.B
  refine Finset.sum_congr rfl fun i _ => ?_
  rw [hs i, zero_mul, add_zero]
  cases hi : symm hm hn b i with
  | false => rw [hz i hi]; simp
  | true =>
    rw [if_pos rfl]
    have hk := (symm_iff h h0 b i).mp hi
    congr 2
    rcases h with h | h
    · subst h
      have hn0 : hn ≠ 0 := fun e => h0 ⟨rfl, e⟩
      have hn0' : (hn : ℝ) ≠ 0 := by exact_mod_cast hn0
      have hm0 : b.m i = 0 := by simpa [hn0] using hk
      rw [if_neg (by decide), hm0]
      push_cast
      field_simp
      ring
    · subst h
      rw [if_pos rfl]
      have : (b.n i : ℝ) = -(b.m i * hn) := by
        have : b.n i = -(b.m i * hn) := by linear_combination hk
        rw [this]; push_cast; ring
      rw [this]
      push_cast
      ring

/-- The average over a fine grid against a cosine picks out its coefficient. -/
theorem projection (b : Spectrum M) (hb : b.Ok) (hs : ∀ i, b.s i = 0) (k : Fin (M + 1)) (hk : ¬(b.m k = 0 ∧ b.n k = 0)) :
    ∃ N : Nat, 0 < N ∧ ∀ α β : ℝ, ∑ j ∈ range N, ∑ l ∈ range N, b.B (2 * π * (j / N) + α) ((2 * π * (l / N) + β) / b.nfp) * Real.cos (b.m k * (2 * π * (j / N)) - b.n k * (2 * π * (l / N))) =
      (N : ℝ) * N * (b.c k * Real.cos (b.m k * α - b.n k * β) / 2) := by
  obtain ⟨N, hN0, hN⟩ : ∃ N : Nat, 0 < N ∧ ∀ i, |b.m i| + |b.n i| < N := by
    refine ⟨(∑ i, (|b.m i| + |b.n i|)).toNat + 1, by omega, fun i => ?_⟩
    have h1 : |b.m i| + |b.n i| ≤ ∑ i, (|b.m i| + |b.n i|) := Finset.single_le_sum (f := fun i => |b.m i| + |b.n i|) (fun i _ => by positivity) (Finset.mem_univ i)
    push_cast
    omega
  refine ⟨2 * N, by omega, fun α β => ?_⟩
  have hnfp : (b.nfp : ℝ) ≠ 0 := by have := hb.nfp; exact_mod_cast this.ne'
  set K : Nat := 2 * N with hKdef
  have hK : 0 < K := by omega
  have hexp : ∀ j l : Nat, b.B (2 * π * (j / K) + α) ((2 * π * (l / K) + β) / b.nfp) * Real.cos (b.m k * (2 * π * (j / K)) - b.n k * (2 * π * (l / K))) =
      ∑ i, (b.c i / 2 * Real.cos (((b.m i - b.m k : ℤ) : ℝ) * (2 * π * (j / K)) + ((-(b.n i - b.n k) : ℤ) : ℝ) * (2 * π * (l / K)) + (b.m i * α - b.n i * β)) +
        b.c i / 2 * Real.cos (((b.m i + b.m k : ℤ) : ℝ) * (2 * π * (j / K)) + ((-(b.n i + b.n k) : ℤ) : ℝ) * (2 * π * (l / K)) + (b.m i * α - b.n i * β))) := by
    intro j l
    unfold Spectrum.B
    rw [Finset.sum_mul]
    refine Finset.sum_congr rfl fun i _ => ?_
    rw [hs i, zero_mul, add_zero, mul_div_cancel₀ _ hnfp]
    have hA : (b.m i : ℝ) * (2 * π * (j / K) + α) - b.n i * (2 * π * (l / K) + β) = (b.m i * (2 * π * (j / K)) - b.n i * (2 * π * (l / K)) + (b.m i * α - b.n i * β)) := by ring
    rw [hA]
    generalize hx : (b.m i : ℝ) * (2 * π * (j / K)) - b.n i * (2 * π * (l / K)) + (b.m i * α - b.n i * β) = x
    generalize hy : (b.m k : ℝ) * (2 * π * (j / K)) - b.n k * (2 * π * (l / K)) = y
    have e1 : ((b.m i - b.m k : ℤ) : ℝ) * (2 * π * (j / K)) + ((-(b.n i - b.n k) : ℤ) : ℝ) * (2 * π * (l / K)) + (b.m i * α - b.n i * β) = x - y := by
      rw [← hx, ← hy]; push_cast; ring
    have e2 : ((b.m i + b.m k : ℤ) : ℝ) * (2 * π * (j / K)) + ((-(b.n i + b.n k) : ℤ) : ℝ) * (2 * π * (l / K)) + (b.m i * α - b.n i * β) = x + y := by
      rw [← hx, ← hy]; push_cast; ring
    rw [e1, e2, Real.cos_sub, Real.cos_add]
    ring
  simp_rw [hexp]
  have hswap : ∀ f : Nat → Nat → Fin (M + 1) → ℝ, ∑ j ∈ range K, ∑ l ∈ range K, ∑ i, f j l i = ∑ i, ∑ j ∈ range K, ∑ l ∈ range K, f j l i := by
    intro f
    have hin : ∀ j, ∑ l ∈ range K, ∑ i, f j l i = ∑ i, ∑ l ∈ range K, f j l i := fun j => Finset.sum_comm
    rw [Finset.sum_congr rfl fun j _ => hin j]
    exact Finset.sum_comm
  rw [hswap]
  have hterm : ∀ i, ∑ j ∈ range K, ∑ l ∈ range K, (b.c i / 2 * Real.cos (((b.m i - b.m k : ℤ) : ℝ) * (2 * π * (j / K)) + ((-(b.n i - b.n k) : ℤ) : ℝ) * (2 * π * (l / K)) + (b.m i * α - b.n i * β)) +
        b.c i / 2 * Real.cos (((b.m i + b.m k : ℤ) : ℝ) * (2 * π * (j / K)) + ((-(b.n i + b.n k) : ℤ) : ℝ) * (2 * π * (l / K)) + (b.m i * α - b.n i * β))) =
      if i = k then (K : ℝ) * K * (b.c k * Real.cos (b.m k * α - b.n k * β) / 2) else 0 := by
    intro i
    simp_rw [Finset.sum_add_distrib, ← Finset.mul_sum]
    rw [Trig.sum_cos_grid K K hK hK, Trig.sum_cos_grid K K hK hK]
    have hi := hN i
    have hk' := hN k
    have hmi := abs_le.mp (le_refl |b.m i|)
    have small : ∀ x : ℤ, -(K : ℤ) < x → x < K → ((K : ℤ) ∣ x ↔ x = 0) := by
      intro x h1 h2
      constructor
      · intro hd; exact Int.eq_zero_of_abs_lt_dvd hd (abs_lt.mpr ⟨h1, h2⟩)
      · rintro rfl; exact dvd_zero _
    have b1 := abs_nonneg (b.m i)
    have b2 := abs_nonneg (b.n i)
    have b3 := abs_nonneg (b.m k)
    have b4 := abs_nonneg (b.n k)
    have c1 := abs_le.mp (le_refl |b.m i|)
    have c2 := abs_le.mp (le_refl |b.n i|)
    have c3 := abs_le.mp (le_refl |b.m k|)
    have c4 := abs_le.mp (le_refl |b.n k|)
    have hKc : (K : ℤ) = 2 * N := by rw [hKdef]; push_cast; ring
    have d1 := small (b.m i - b.m k) (by omega) (by omega)
    have d2 := small (-(b.n i - b.n k)) (by omega) (by omega)
    have d3 := small (b.m i + b.m k) (by omega) (by omega)
    have d4 := small (-(b.n i + b.n k)) (by omega) (by omega)
    simp only [d1, d2, d3, d4]
    by_cases hik : i = k
    · subst hik
      rw [if_pos ⟨by omega, by omega⟩, if_pos rfl, if_neg (fun hh => hk ⟨by omega, by omega⟩)]
      ring
    · rw [if_neg hik, if_neg (fun hh => hik (hb.distinct i k (by omega) (by omega))), if_neg]
      · ring
      · rintro ⟨h1, h2⟩
        rcases hb.half i with h3 | h3 <;> rcases hb.half k with h4 | h4 <;> omega
  simp_rw [hterm]
  rw [Finset.sum_ite_eq' Finset.univ k]
  simp

/-- A field strength with the symmetry has no other modes. -/
theorem modes_of_symmetric {hm hn : ℤ} (h : hm = 0 ∨ hm = 1) (h0 : ¬(hm = 0 ∧ hn = 0)) {b : Spectrum M} (hb : b.Ok) (hs : ∀ i, b.s i = 0)
    (hsym : Symmetric hm hn (-1) b) : ∀ i, symm hm hn b i = false → b.c i = 0 := by
  intro k hk
  obtain ⟨G, hG⟩ := hsym
  have hκ : b.m k * hn + b.n k * hm ≠ 0 := fun e => by
    rw [(symm_iff h h0 b k).mpr e] at hk; cases hk
  have hκ' : ((b.m k : ℝ) * hn + b.n k * hm) ≠ 0 := by exact_mod_cast hκ
  have hkk : ¬(b.m k = 0 ∧ b.n k = 0) := fun e => hκ (by rw [e.1, e.2]; ring)
  have hnfp : (b.nfp : ℝ) ≠ 0 := by have := hb.nfp; exact_mod_cast this.ne'
  -- the shift along which the field strength does not change
  have hinv : ∀ t θ η : ℝ, b.B (θ + hn * t) ((η + -(hm * t)) / b.nfp) = b.B (θ + 0) ((η + 0) / b.nfp) := by
    intro t θ η
    rw [hG, hG]
    congr 1
    push_cast
    field_simp
    ring
  set t : ℝ := π / ((b.m k : ℝ) * hn + b.n k * hm) with ht
  obtain ⟨N, hN, hproj⟩ := projection b hb hs k hkk
  have e1 := hproj (hn * t) (-(hm * t))
  have e2 := hproj 0 0
  have hNN : (N : ℝ) * N ≠ 0 := by
    have : (N : ℝ) ≠ 0 := by exact_mod_cast hN.ne'
    exact mul_ne_zero this this
  simp_rw [hinv t] at e1
  have e1' := mul_left_cancel₀ hNN (e1.symm.trans e2)
  rw [show (b.m k : ℝ) * (hn * t) - b.n k * (-(hm * t)) = π by
    have : (b.m k : ℝ) * (hn * t) - b.n k * (-(hm * t)) = ((b.m k : ℝ) * hn + b.n k * hm) * t := by ring
    rw [this, ht, mul_div_cancel₀ _ hκ'], Real.cos_pi, show (b.m k : ℝ) * 0 - b.n k * 0 = 0 by ring, Real.cos_zero] at e1'
  linarith

/-- **C98.** In stellarator symmetry, `J()` is zero on a surface exactly if the field strength depends on the Boozer angles only through `helicity_m θ + nfp helicity_n ζ`, for every normalization and weight. -/
theorem C98_zero_iff {hm hn : ℤ} (h : hm = 0 ∨ hm = 1) (h0 : ¬(hm = 0 ∧ hn = 0)) (nz : Normalization) (wt : Weight) {sUsed : ℝ} (hs : sUsed ≠ 0)
    {b : Spectrum M} (hb : b.Ok) (hss : ∀ i, b.s i = 0) (hbn : bnorm hm hn nz b ≠ 0) :
    ∃ l, J hm hn nz wt sUsed b = some l ∧ ((∀ e ∈ l, e = 0) ↔ Symmetric hm hn (-1) b) := by
  obtain ⟨l, hl, hiff⟩ := J_zero (hn := hn) h (nz := nz) (wt := wt) hs hbn
  exact ⟨l, hl, hiff.trans ⟨symmetric_of_modes h h0 hss, modes_of_symmetric h h0 hb hss⟩⟩

/-- **C98.** The entries with even weight are the amplitudes of the symmetry-breaking modes relative to the normalization, each once and in the order of the modes. -/
theorem C98_entries {hm hn : ℤ} (h : hm = 0 ∨ hm = 1) (h0 : ¬(hm = 0 ∧ hn = 0)) (sUsed : ℝ) (b : Spectrum M) :
    J hm hn .B00 .even sUsed b = some (((List.finRange (M + 1)).filter fun i => b.m i * hn + b.n i * hm ≠ 0).map fun i => b.c i / b.c 0) := by
  unfold J
  rw [if_neg (by rcases h with h | h <;> simp [h])]
  simp only [broken, bnorm]
  congr 2
  refine List.filter_congr fun i _ => ?_
  have := symm_iff h h0 b i
  cases hs : symm hm hn b i with
  | true => simp [this.mp hs]
  | false =>
    have hne : ¬(b.m i * hn + b.n i * hm = 0) := fun e => by rw [this.mpr e] at hs; cases hs
    simp [hne]

/-- The spectrum of `1 + cos(θ - σ nfp ζ) / 2`. -/
noncomputable def helical (σ : ℤ) : Spectrum 1 := { nfp := 4, m := ![0, 1], n := ![0, σ], c := ![1, 1 / 2], s := ![0, 0] }

theorem helical_ok (σ : ℤ) : (helical σ).Ok := by
  refine ⟨by simp [helical], ⟨rfl, rfl⟩, fun i j h1 h2 => ?_, fun i => ?_⟩
  · fin_cases i <;> fin_cases j <;> simp_all [helical]
  · fin_cases i <;> simp [helical]

theorem helical_symmetric : Symmetric 1 1 1 (helical 1) := by
  refine ⟨fun χ => 1 + 1 / 2 * Real.cos χ, fun θ ζ => ?_⟩
  simp [Spectrum.B, helical, Fin.sum_univ_two]

/-- A case of the theorem: with the opposite sign it is quasi-helically symmetric in the sense of the code. -/
example : (helical (-1)).Ok ∧ (∀ i, (helical (-1)).s i = 0) ∧ bnorm 1 1 .B00 (helical (-1)) ≠ 0 ∧ J 1 1 .B00 .even 1 (helical (-1)) = some [] := by
  refine ⟨helical_ok _, fun i => by fin_cases i <;> rfl, by simp [bnorm, helical], ?_⟩
  rw [C98_entries (Or.inr rfl) (by simp)]
  simp [helical, List.finRange_succ]

/-- **C98.** The documented symmetry is `B(helicity_m θ - nfp helicity_n ζ)`; a field that has it for `helicity_m = helicity_n = 1` gets a nonzero departure. -/
theorem C98_sign_violated : ∃ (b : Spectrum 1) (l : List ℝ), b.Ok ∧ (∀ i, b.s i = 0) ∧ Symmetric 1 1 1 b ∧ J 1 1 .B00 .even 1 b = some l ∧ ¬∀ e ∈ l, e = 0 := by
  refine ⟨helical 1, [1 / 2], helical_ok 1, fun i => by fin_cases i <;> rfl, helical_symmetric, ?_, by norm_num⟩
  rw [C98_entries (Or.inr rfl) (by simp)]
  simp [helical, List.finRange_succ]

/-- **C98.** Without stellarator symmetry the sine part of the spectrum is not looked at: a field without quasisymmetry gets a zero departure. -/
theorem C98_asymmetric_violated : ∃ (b : Spectrum 1) (l : List ℝ), b.Ok ∧ (∀ σ, ¬Symmetric 1 0 σ b) ∧ J 1 0 .B00 .even 1 b = some l ∧ ∀ e ∈ l, e = 0 := by
  let b : Spectrum 1 := { nfp := 4, m := ![0, 0], n := ![0, 1], c := ![1, 0], s := ![0, 1 / 2] }
  refine ⟨b, [0], ⟨by simp [b], ⟨rfl, rfl⟩, fun i j h1 h2 => ?_, fun i => ?_⟩, ?_, ?_, by simp⟩
  · fin_cases i <;> fin_cases j <;> simp_all [b]
  · fin_cases i <;> simp [b]
  · rintro σ ⟨G, hG⟩
    have h1 := hG 0 0
    have h2 := hG 0 (π / 8)
    simp [Spectrum.B, b, Fin.sum_univ_two] at h1 h2
    rw [← h1] at h2
    rw [show (4 : ℝ) * (π / 8) = π / 2 by ring, Real.sin_pi_div_two] at h2
    norm_num at h2
  · rw [C98_entries (Or.inr rfl) (by simp)]
    simp [b, List.finRange_succ]

end Simsopt.Quasi
