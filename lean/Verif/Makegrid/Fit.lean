import Verif.Makegrid.Lines
import Mathlib.Analysis.SpecialFunctions.Complex.Circle
import Mathlib.Algebra.Field.GeomSum
import Mathlib.Algebra.BigOperators.Field
/-!
# C49: the Fourier fit of the loaded filaments
-/
namespace Simsopt.Makegrid
open Simsopt Simsopt.Coils

/-! ### Discrete orthogonality -/

/-- The sum over the uniform grid of a complex exponential. -/
theorem sum_exp (N : Nat) (hN : 0 < N) (m : ℤ) :
    ∑ n ∈ Finset.range N, Complex.exp (((2 * Real.pi * m * n / N : ℝ) : ℂ) * Complex.I) = if (N : ℤ) ∣ m then (N : ℂ) else 0 := by
  set z : ℂ := Complex.exp (2 * Real.pi * Complex.I * ((m : ℂ) / N)) with hz
  have hN' : (N : ℂ) ≠ 0 := by exact_mod_cast hN.ne'
  have h1 : ∀ n ∈ Finset.range N, Complex.exp (((2 * Real.pi * m * n / N : ℝ) : ℂ) * Complex.I) = z ^ n := by
    intro n _
    rw [hz, ← Complex.exp_nat_mul]; congr 1; push_cast; field_simp
  rw [Finset.sum_congr rfl h1]
  have hzN : z ^ N = 1 := by
    rw [hz, ← Complex.exp_nat_mul, Complex.exp_eq_one_iff]
    exact ⟨m, by field_simp⟩
  split_ifs with hd
  · have : z = 1 := by
      rw [hz, Complex.exp_eq_one_iff]
      obtain ⟨q, hq⟩ := hd
      exact ⟨q, by rw [hq]; push_cast; field_simp⟩
    simp [this]
  · have hne : z ≠ 1 := by
      intro h
      rw [hz, Complex.exp_eq_one_iff] at h
      obtain ⟨q, hq⟩ := h
      apply hd
      refine ⟨q, ?_⟩
      have h2 : (2 * Real.pi * Complex.I : ℂ) ≠ 0 := by simp [Complex.I_ne_zero, Real.pi_ne_zero]
      have h3 : ((m : ℂ) / N) = q := by
        apply mul_left_cancel₀ h2; rw [hq]; ring
      have h4 : (m : ℂ) = N * q := by field_simp at h3; rw [h3]
      exact_mod_cast h4
    have := mul_geom_sum z N
    rw [hzN, sub_self] at this
    exact (mul_eq_zero.mp this).resolve_left (sub_ne_zero.mpr hne)

theorem sum_cos (N : Nat) (hN : 0 < N) (m : ℤ) :
    ∑ n ∈ Finset.range N, Real.cos (2 * Real.pi * m * n / N) = if (N : ℤ) ∣ m then (N : ℝ) else 0 := by
  have h := congrArg Complex.re (sum_exp N hN m)
  rw [Complex.re_sum] at h
  simp only [Complex.exp_ofReal_mul_I_re] at h
  rw [h]; split_ifs <;> simp

theorem sum_sin (N : Nat) (hN : 0 < N) (m : ℤ) :
    ∑ n ∈ Finset.range N, Real.sin (2 * Real.pi * m * n / N) = 0 := by
  have h := congrArg Complex.im (sum_exp N hN m)
  rw [Complex.im_sum] at h
  simp only [Complex.exp_ofReal_mul_I_im] at h
  rw [h]; split_ifs <;> simp

/-- `1` if the grid of `N` points does not tell the mode `m` from the constant. -/
noncomputable def aliasW (N : Nat) (m : ℤ) : ℝ := if (N : ℤ) ∣ m then 1 else 0

theorem sum_cos' (N : Nat) (hN : 0 < N) (m : ℤ) :
    ∑ n ∈ Finset.range N, Real.cos (2 * Real.pi * m * n / N) = N * aliasW N m := by
  rw [sum_cos N hN, aliasW]; split_ifs <;> simp

theorem sum_cos_cos (N : Nat) (hN : 0 < N) (j k : Nat) :
    ∑ n ∈ Finset.range N, Real.cos (2 * Real.pi * j * n / N) * Real.cos (2 * Real.pi * k * n / N)
      = N * (aliasW N (j - k) + aliasW N (j + k)) / 2 := by
  have : ∀ n ∈ Finset.range N, Real.cos (2 * Real.pi * j * n / N) * Real.cos (2 * Real.pi * k * n / N) =
      (Real.cos (2 * Real.pi * ((j : ℤ) - k : ℤ) * n / N) + Real.cos (2 * Real.pi * ((j : ℤ) + k : ℤ) * n / N)) / 2 := by
    intro n _
    rw [show (2 * Real.pi * ((j : ℤ) - k : ℤ) * n / N : ℝ) = 2 * Real.pi * j * n / N - 2 * Real.pi * k * n / N by push_cast; ring,
      show (2 * Real.pi * ((j : ℤ) + k : ℤ) * n / N : ℝ) = 2 * Real.pi * j * n / N + 2 * Real.pi * k * n / N by push_cast; ring,
      Real.cos_sub, Real.cos_add]; ring
  rw [Finset.sum_congr rfl this, ← Finset.sum_div, Finset.sum_add_distrib, sum_cos' N hN, sum_cos' N hN]; ring

theorem sum_sin_sin (N : Nat) (hN : 0 < N) (j k : Nat) :
    ∑ n ∈ Finset.range N, Real.sin (2 * Real.pi * j * n / N) * Real.sin (2 * Real.pi * k * n / N)
      = N * (aliasW N (j - k) - aliasW N (j + k)) / 2 := by
  have : ∀ n ∈ Finset.range N, Real.sin (2 * Real.pi * j * n / N) * Real.sin (2 * Real.pi * k * n / N) =
      (Real.cos (2 * Real.pi * ((j : ℤ) - k : ℤ) * n / N) - Real.cos (2 * Real.pi * ((j : ℤ) + k : ℤ) * n / N)) / 2 := by
    intro n _
    rw [show (2 * Real.pi * ((j : ℤ) - k : ℤ) * n / N : ℝ) = 2 * Real.pi * j * n / N - 2 * Real.pi * k * n / N by push_cast; ring,
      show (2 * Real.pi * ((j : ℤ) + k : ℤ) * n / N : ℝ) = 2 * Real.pi * j * n / N + 2 * Real.pi * k * n / N by push_cast; ring,
      Real.cos_sub, Real.cos_add]; ring
  rw [Finset.sum_congr rfl this, ← Finset.sum_div, Finset.sum_sub_distrib, sum_cos' N hN, sum_cos' N hN]; ring

theorem sum_sin_cos (N : Nat) (hN : 0 < N) (j k : Nat) :
    ∑ n ∈ Finset.range N, Real.sin (2 * Real.pi * j * n / N) * Real.cos (2 * Real.pi * k * n / N) = 0 := by
  have : ∀ n ∈ Finset.range N, Real.sin (2 * Real.pi * j * n / N) * Real.cos (2 * Real.pi * k * n / N) =
      (Real.sin (2 * Real.pi * ((j : ℤ) - k : ℤ) * n / N) + Real.sin (2 * Real.pi * ((j : ℤ) + k : ℤ) * n / N)) / 2 := by
    intro n _
    rw [show (2 * Real.pi * ((j : ℤ) - k : ℤ) * n / N : ℝ) = 2 * Real.pi * j * n / N - 2 * Real.pi * k * n / N by push_cast; ring,
      show (2 * Real.pi * ((j : ℤ) + k : ℤ) * n / N : ℝ) = 2 * Real.pi * j * n / N + 2 * Real.pi * k * n / N by push_cast; ring,
      Real.sin_sub, Real.sin_add]; ring
  rw [Finset.sum_congr rfl this, ← Finset.sum_div, Finset.sum_add_distrib, sum_sin N hN, sum_sin N hN]; ring

theorem aliasW_zero (N : Nat) : aliasW N 0 = 1 := by simp [aliasW]

theorem aliasW_small (N : Nat) (m : ℤ) (h : m ≠ 0) (h1 : -N < m) (h2 : m < N) : aliasW N m = 0 := by
  rw [aliasW, if_neg]
  rintro ⟨q, hq⟩
  rcases lt_trichotomy q 0 with h' | h' | h'
  · nlinarith
  · subst h'; simp at hq; exact h hq
  · nlinarith

/-! ### The transforms of sampled Fourier curves -/

/-- The samples of one coordinate. -/
noncomputable def samples (o N : Nat) (d : List ℝ) : List ℝ := (List.range N).map fun (k : Nat) => fourier o d ((k : ℝ) / N)

theorem samples_length (o N : Nat) (d : List ℝ) : (samples o N d).length = N := by simp [samples]

theorem samples_get (o N : Nat) (d : List ℝ) (n : Nat) (h : n ∈ Finset.range N) :
    (samples o N d)[n]?.getD 0 = d[0]?.getD 0 * Real.cos (2 * Real.pi * (0 : Nat) * n / N) + ∑ j ∈ Finset.Icc 1 o,
    (d[2 * j - 1]?.getD 0 * Real.sin (2 * Real.pi * j * n / N) + d[2 * j]?.getD 0 * Real.cos (2 * Real.pi * j * n / N)) := by
  have hn := Finset.mem_range.mp h
  simp only [samples, List.getElem?_map, List.getElem?_range hn, Option.map_some, Option.getD_some, fourier]
  simp only [Nat.cast_zero, mul_zero, zero_mul, zero_div, Real.cos_zero, mul_one]
  congr 1
  refine Finset.sum_congr rfl fun j _ => ?_
  rw [show 2 * Real.pi * (j : ℝ) * ((n : ℝ) / N) = 2 * Real.pi * j * n / N by ring]

theorem rfftRe_samples (o N : Nat) (hN : 0 < N) (d : List ℝ) (k : Nat) :
    rfftRe (samples o N d) k = d[0]?.getD 0 * (aliasW N (0 - k) + aliasW N (0 + k)) / 2
      + ∑ j ∈ Finset.Icc 1 o, d[2 * j]?.getD 0 * (aliasW N (j - k) + aliasW N (j + k)) / 2 := by
  have hN' : (N : ℝ) ≠ 0 := by exact_mod_cast hN.ne'
  rw [rfftRe, samples_length, div_eq_iff hN']
  have : ∀ n ∈ Finset.range N, (samples o N d)[n]?.getD 0 * Real.cos (2 * Real.pi * k * n / N) =
      d[0]?.getD 0 * (Real.cos (2 * Real.pi * (0 : Nat) * n / N) * Real.cos (2 * Real.pi * k * n / N)) + ∑ j ∈ Finset.Icc 1 o,
      (d[2 * j - 1]?.getD 0 * (Real.sin (2 * Real.pi * j * n / N) * Real.cos (2 * Real.pi * k * n / N))
        + d[2 * j]?.getD 0 * (Real.cos (2 * Real.pi * j * n / N) * Real.cos (2 * Real.pi * k * n / N))) := by
    intro n hn
    rw [samples_get o N d n hn, add_mul, Finset.sum_mul]
    congr 1
    · ring
    · exact Finset.sum_congr rfl fun j _ => by ring
  rw [Finset.sum_congr rfl this, Finset.sum_add_distrib, ← Finset.mul_sum, sum_cos_cos N hN, Finset.sum_comm]
  simp only [Finset.sum_add_distrib, ← Finset.mul_sum, sum_sin_cos N hN, sum_cos_cos N hN, mul_zero, Finset.sum_const_zero, zero_add]
  rw [add_mul, Finset.sum_mul]
  congr 1
  · push_cast; ring
  · exact Finset.sum_congr rfl fun j _ => by ring

theorem rfftIm_samples (o N : Nat) (hN : 0 < N) (d : List ℝ) (k : Nat) :
    rfftIm (samples o N d) k = -∑ j ∈ Finset.Icc 1 o, d[2 * j - 1]?.getD 0 * (aliasW N (j - k) - aliasW N (j + k)) / 2 := by
  have hN' : (N : ℝ) ≠ 0 := by exact_mod_cast hN.ne'
  rw [rfftIm, samples_length, div_eq_iff hN', neg_mul, neg_inj]
  have : ∀ n ∈ Finset.range N, (samples o N d)[n]?.getD 0 * Real.sin (2 * Real.pi * k * n / N) =
      d[0]?.getD 0 * (Real.sin (2 * Real.pi * k * n / N) * Real.cos (2 * Real.pi * (0 : Nat) * n / N)) + ∑ j ∈ Finset.Icc 1 o,
      (d[2 * j - 1]?.getD 0 * (Real.sin (2 * Real.pi * j * n / N) * Real.sin (2 * Real.pi * k * n / N))
        + d[2 * j]?.getD 0 * (Real.sin (2 * Real.pi * k * n / N) * Real.cos (2 * Real.pi * j * n / N))) := by
    intro n hn
    rw [samples_get o N d n hn, add_mul, Finset.sum_mul]
    congr 1
    · ring
    · exact Finset.sum_congr rfl fun j _ => by ring
  rw [Finset.sum_congr rfl this, Finset.sum_add_distrib, ← Finset.mul_sum, sum_sin_cos N hN, Finset.sum_comm]
  simp only [Finset.sum_add_distrib, ← Finset.mul_sum, sum_sin_cos N hN, sum_sin_sin N hN, mul_zero, Finset.sum_const_zero, add_zero,
    zero_add]
  rw [Finset.sum_mul]
  exact Finset.sum_congr rfl fun j _ => by ring

theorem fit_mean (o order N : Nat) (ho : o ≤ order) (hN : 2 * order < N) (d : List ℝ) :
    rfftRe (samples o N d) 0 = d[0]?.getD 0 := by
  rw [rfftRe_samples o N (by omega)]
  rw [Finset.sum_eq_zero]
  · simp [aliasW_zero]; ring
  · intro j hj
    have := Finset.mem_Icc.mp hj
    rw [aliasW_small N _ (by omega) (by omega) (by omega), aliasW_small N _ (by omega) (by omega) (by omega)]; simp

theorem fit_cos (o order N : Nat) (ho : o ≤ order) (hN : 2 * order < N) (d : List ℝ) (hd : d.length = 2 * o + 1) (k : Nat) (h1 : 1 ≤ k)
    (h2 : k ≤ order) : 2 * rfftRe (samples o N d) k = d[2 * k]?.getD 0 := by
  rw [rfftRe_samples o N (by omega), aliasW_small N (0 - k) (by omega) (by omega) (by omega),
    aliasW_small N (0 + k) (by omega) (by omega) (by omega)]
  have : ∀ j ∈ Finset.Icc 1 o, d[2 * j]?.getD 0 * (aliasW N (j - k) + aliasW N (j + k)) / 2 =
      if j = k then d[2 * k]?.getD 0 / 2 else 0 := by
    intro j hj
    have := Finset.mem_Icc.mp hj
    rw [aliasW_small N (j + k) (by omega) (by omega) (by omega)]
    split_ifs with h
    · subst h; simp [aliasW_zero]
    · rw [aliasW_small N (j - k) (by omega) (by omega) (by omega)]; simp
  rw [Finset.sum_congr rfl this, Finset.sum_ite_eq']
  split_ifs with h
  · ring
  · have : o < k := by by_contra h'; exact h (Finset.mem_Icc.mpr ⟨h1, by omega⟩)
    rw [List.getElem?_eq_none (l := d) (i := 2 * k) (by omega)]; simp

theorem fit_sin (o order N : Nat) (ho : o ≤ order) (hN : 2 * order < N) (d : List ℝ) (hd : d.length = 2 * o + 1) (k : Nat) (h1 : 1 ≤ k)
    (h2 : k ≤ order) : -2 * rfftIm (samples o N d) k = d[2 * k - 1]?.getD 0 := by
  rw [rfftIm_samples o N (by omega)]
  have : ∀ j ∈ Finset.Icc 1 o, d[2 * j - 1]?.getD 0 * (aliasW N (j - k) - aliasW N (j + k)) / 2 =
      if j = k then d[2 * k - 1]?.getD 0 / 2 else 0 := by
    intro j hj
    have := Finset.mem_Icc.mp hj
    rw [aliasW_small N (j + k) (by omega) (by omega) (by omega)]
    split_ifs with h
    · subst h; simp [aliasW_zero]
    · rw [aliasW_small N (j - k) (by omega) (by omega) (by omega)]; simp
  rw [Finset.sum_congr rfl this, Finset.sum_ite_eq']
  split_ifs with h
  · ring
  · have : o < k := by by_contra h'; exact h (Finset.mem_Icc.mpr ⟨h1, by omega⟩)
    rw [List.getElem?_eq_none (l := d) (i := 2 * k - 1) (by omega)]; simp

/-! ### Reshape, transpose and reassembly -/

theorem flatten_get (w : Nat) (bs : List (List ℝ)) (hb : ∀ b ∈ bs, b.length = w) (j i : Nat) (hi : i < w) :
    bs.flatten[j * w + i]? = (bs[j]?.getD [])[i]? := by
  induction bs generalizing j with
  | nil => simp
  | cons b bs ih =>
    have hl := hb b List.mem_cons_self
    cases j with
    | zero => simp only [Nat.zero_mul, Nat.zero_add, List.flatten_cons, List.getElem?_cons_zero, Option.getD_some]
              rw [List.getElem?_append_left (by omega)]
    | succ j =>
      rw [List.flatten_cons, List.getElem?_append_right (by rw [hl]; nlinarith), hl,
        show (j + 1) * w + i - w = j * w + i by rw [Nat.add_mul]; omega, ih fun b h => hb b (List.mem_cons_of_mem _ h)]
      simp

/-- The two blocks of one coordinate. -/
noncomputable def sinBlock (order : Nat) (x : List ℝ) : List ℝ := (List.range (order + 1)).map fun k => -2 * rfftIm x k
noncomputable def cosBlock (order : Nat) (x : List ℝ) : List ℝ := rfftRe x 0 :: (List.range order).map fun k => 2 * rfftRe x (k + 1)

noncomputable def blocks (order : Nat) (pts : List (ℝ × ℝ × ℝ)) : List (List ℝ) :=
  [sinBlock order (pts.map fun p => p.1), cosBlock order (pts.map fun p => p.1),
   sinBlock order (pts.map fun p => p.2.1), cosBlock order (pts.map fun p => p.2.1),
   sinBlock order (pts.map fun p => p.2.2), cosBlock order (pts.map fun p => p.2.2)]

theorem blocks_length (order : Nat) (pts : List (ℝ × ℝ × ℝ)) : ∀ b ∈ blocks order pts, b.length = order + 1 := by
  intro b hb
  simp only [blocks, List.mem_cons, List.not_mem_nil, or_false] at hb
  rcases hb with h | h | h | h | h | h <;> subst h <;> simp [sinBlock, cosBlock]

theorem curveRow_blocks (order : Nat) (pts : List (ℝ × ℝ × ℝ)) (h0 : pts ≠ []) (h : 2 * order ≤ pts.length) :
    curveRow order pts = .ok (blocks order pts).flatten := by
  simp only [curveRow, h0, if_false, combined, List.length_map, show ¬ pts.length < 2 * order by omega]
  simp only [blocks, sinBlock, cosBlock, List.flatten_cons, List.flatten_nil, List.append_nil, List.append_assoc, List.singleton_append,
    List.cons_append]
  show Except.ok _ = _
  simp [List.append_assoc]

theorem allRows_blocks (order : Nat) (cs : List (List (ℝ × ℝ × ℝ))) (h : ∀ c ∈ cs, c ≠ [] ∧ 2 * order ≤ c.length) :
    allRows order cs = .ok (cs.flatMap (blocks order)).flatten := by
  induction cs with
  | nil => rfl
  | cons c cs ih =>
    obtain ⟨h0, h1⟩ := h c List.mem_cons_self
    simp only [allRows, curveRow_blocks order c h0 h1, ih fun c hc => h c (List.mem_cons_of_mem _ hc)]
    simp [bind, Except.bind]

theorem flatMap_six {α : Type} (f : α → List (List ℝ)) (hf : ∀ a, (f a).length = 6) (cs : List α) (ic : Nat) (c : α)
    (hc : cs[ic]? = some c) (r : Nat) (hr : r < 6) : (cs.flatMap f)[6 * ic + r]? = (f c)[r]? := by
  induction cs generalizing ic with
  | nil => simp at hc
  | cons a cs ih =>
    cases ic with
    | zero =>
      simp at hc; subst hc
      simp only [List.flatMap_cons]
      rw [List.getElem?_append_left (by rw [hf]; omega)]; simp
    | succ ic =>
      simp only [List.getElem?_cons_succ] at hc
      rw [List.flatMap_cons, List.getElem?_append_right (by rw [hf]; omega), hf, ← ih ic hc]
      congr 1; omega

theorem entry_blocks (order : Nat) (cs : List (List (ℝ × ℝ × ℝ))) (ic : Nat) (c : List (ℝ × ℝ × ℝ)) (hc : cs[ic]? = some c)
    (i : Nat) (hi : i ≤ order) (r : Nat) (hr : r < 6) :
    entry order (cs.flatMap (blocks order)).flatten i (6 * ic + r) = (((blocks order c)[r]?.getD [])[i]?).getD 0 := by
  rw [entry, flatten_get (order + 1) _ _ _ _ (by omega), flatMap_six (blocks order) (fun _ => rfl) cs ic c hc r hr]
  intro b hb
  obtain ⟨a, _, hb⟩ := List.mem_flatMap.mp hb
  exact blocks_length order a b hb

theorem sinBlock_get (order : Nat) (x : List ℝ) (k : Nat) (hk : k ≤ order) : (sinBlock order x)[k]?.getD 0 = -2 * rfftIm x k := by
  simp [sinBlock, List.getElem?_range (show k < order + 1 by omega)]

theorem cosBlock_get (order : Nat) (x : List ℝ) (k : Nat) (hk : k < order) :
    (cosBlock order x)[k + 1]?.getD 0 = 2 * rfftRe x (k + 1) := by
  simp [cosBlock, List.getElem?_range hk]

/-- The row read off the transforms of one coordinate. -/
noncomputable def rowOf (order : Nat) (x : List ℝ) : List ℝ :=
  rfftRe x 0 :: (List.range order).flatMap fun k => [-2 * rfftIm x (k + 1), 2 * rfftRe x (k + 1)]

theorem dofsRow_eq (order : Nat) (cs : List (List (ℝ × ℝ × ℝ))) (ic : Nat) (c : List (ℝ × ℝ × ℝ)) (hc : cs[ic]? = some c)
    (r : Nat) (x : List ℝ) (hr : r + 1 < 6) (h1 : (blocks order c)[r]? = some (sinBlock order x))
    (h2 : (blocks order c)[r + 1]? = some (cosBlock order x)) :
    dofsRow order (cs.flatMap (blocks order)).flatten (6 * ic + r) = rowOf order x := by
  rw [dofsRow, rowOf]
  congr 1
  · rw [show 6 * ic + r + 1 = 6 * ic + (r + 1) by omega, entry_blocks order cs ic c hc 0 (by omega) (r + 1) hr, h2]
    simp [cosBlock]
  · apply List.flatMap_congr
    intro k hk
    have hk := List.mem_range.mp hk
    rw [entry_blocks order cs ic c hc (k + 1) (by omega) r (by omega), h1,
      show 6 * ic + r + 1 = 6 * ic + (r + 1) by omega, entry_blocks order cs ic c hc (k + 1) (by omega) (r + 1) hr, h2]
    simp only [Option.getD_some, sinBlock_get order x (k + 1) (by omega), cosBlock_get order x k hk]

theorem fit_eq (order : Nat) (cs : List (List (ℝ × ℝ × ℝ))) (h : ∀ c ∈ cs, c ≠ [] ∧ 2 * order ≤ c.length) :
    fit order cs = .ok (cs.map fun c => rowOf order (c.map fun p => p.1) ++ rowOf order (c.map fun p => p.2.1)
      ++ rowOf order (c.map fun p => p.2.2)) := by
  rw [fit, allRows_blocks order cs h]
  show Except.ok _ = _
  congr 1
  apply List.ext_getElem?
  intro ic
  by_cases hlt : ic < cs.length
  · have hc : cs[ic]? = some cs[ic] := by simp [hlt]
    simp only [List.getElem?_map, List.getElem?_range hlt, hc, Option.map_some, Option.some.injEq, loadedDofs]
    rw [← dofsRow_eq order cs ic _ hc 0 _ (by omega) rfl rfl, ← dofsRow_eq order cs ic _ hc 2 _ (by omega) rfl rfl,
      ← dofsRow_eq order cs ic _ hc 4 _ (by omega) rfl rfl]
    rfl
  · simp [hlt]

/-- The coefficients `d` of a curve as a curve of order `order`: missing coefficients are zero. -/
noncomputable def pad (order : Nat) (d : List ℝ) : List ℝ := (List.range (2 * order + 1)).map fun i => d[i]?.getD 0

theorem pad_eq (order : Nat) (d : List ℝ) :
    pad order d = d[0]?.getD 0 :: (List.range order).flatMap fun k => [d[2 * (k + 1) - 1]?.getD 0, d[2 * (k + 1)]?.getD 0] := by
  induction order with
  | zero => rfl
  | succ n ih =>
    rw [List.range_succ, List.flatMap_append, ← List.cons_append, ← ih, pad, pad, show 2 * (n + 1) + 1 = 2 * n + 1 + 1 + 1 by omega,
      List.range_succ, List.range_succ]
    simp only [List.map_append, List.map_cons, List.map_nil, List.append_assoc, List.flatMap_cons, List.flatMap_nil, List.append_nil]
    rw [show 2 * (n + 1) - 1 = 2 * n + 1 by omega, show 2 * (n + 1) = 2 * n + 1 + 1 by omega]; rfl

theorem rowOf_samples (o order N : Nat) (ho : o ≤ order) (hN : 2 * order < N) (d : List ℝ) (hd : d.length = 2 * o + 1) :
    rowOf order (samples o N d) = pad order d := by
  rw [pad_eq, rowOf, fit_mean o order N ho hN]
  congr 1
  apply List.flatMap_congr
  intro k hk
  have hk := List.mem_range.mp hk
  rw [fit_sin o order N ho hN d hd (k + 1) (by omega) (by omega), fit_cos o order N ho hN d hd (k + 1) (by omega) (by omega)]

/-- A curve of order `o` given by its three rows of coefficients, sampled at `N` points. -/
structure FCurve where
  o : Nat
  N : Nat
  dx : List ℝ
  dy : List ℝ
  dz : List ℝ

/-- C49: the samples of any Fourier curves of orders at most `order`, each with more than `2*order` uniform samples (of its own number), are
    turned into exactly their Fourier coefficients: the dofs of the loaded curves are those of the original curves, with zeros for the
    modes the original does not have. -/
theorem C49_fit_exact (order : Nat) (cs : List FCurve)
    (h : ∀ c ∈ cs, c.o ≤ order ∧ 2 * order < c.N ∧ c.dx.length = 2 * c.o + 1 ∧ c.dy.length = 2 * c.o + 1 ∧ c.dz.length = 2 * c.o + 1) :
    fit order (cs.map fun c => gamma c.o c.N c.dx c.dy c.dz) = .ok (cs.map fun c => pad order c.dx ++ pad order c.dy ++ pad order c.dz) := by
  rw [fit_eq]
  · simp only [List.map_map]
    congr 1
    apply List.map_congr_left
    intro c hc
    obtain ⟨ho, hN, hx, hy, hz⟩ := h c hc
    simp only [Function.comp, gamma, List.map_map]
    rw [← rowOf_samples c.o order c.N ho hN c.dx hx, ← rowOf_samples c.o order c.N ho hN c.dy hy, ← rowOf_samples c.o order c.N ho hN c.dz hz]
    rfl
  · intro c hc
    obtain ⟨f, hf, rfl⟩ := List.mem_map.mp hc
    obtain ⟨_, hN, _⟩ := h f hf
    constructor
    · intro h0
      have := congrArg List.length h0
      simp [gamma] at this; omega
    · simp [gamma]; omega

/-- The whole file: a coil set written with `coils_to_makegrid` and loaded again with `load_coils_from_makegrid_file` has the same Fourier
    coefficients and currents, in the same order (exact numbers). -/
theorem C49_file (fmt : ℝ → String) (parse : String → Except Err ℝ) (hr : ∀ v, parse (fmt v) = .ok v) (nfp order : Nat)
    (cs : List (FCurve × ℝ × String × String))
    (h : ∀ c ∈ cs, c.1.o ≤ order ∧ 2 * order < c.1.N ∧ c.1.dx.length = 2 * c.1.o + 1 ∧ c.1.dy.length = 2 * c.1.o + 1 ∧
      c.1.dz.length = 2 * c.1.o + 1) :
    ∃ file, write fmt nfp (cs.map fun c => ⟨gamma c.1.o c.1.N c.1.dx c.1.dy c.1.dz, c.2.1, [c.2.2.1], [c.2.2.2]⟩) = .ok file ∧
      load parse none order file = .ok (cs.map fun c => (pad order c.1.dx ++ pad order c.1.dy ++ pad order c.1.dz, c.2.1)) := by
  have hne : ∀ c ∈ cs, gamma c.1.o c.1.N c.1.dx c.1.dy c.1.dz ≠ [] := by
    intro c hc h0
    have := congrArg List.length h0
    have := (h c hc).2.1
    simp [gamma] at *; omega
  obtain ⟨file, hw, h1, h2⟩ := C38_round_trip fmt parse id hr none nfp
    (cs.map fun c => (⟨gamma c.1.o c.1.N c.1.dx c.1.dy c.1.dz, c.2.1, [c.2.2.1], [c.2.2.2]⟩ : Filament ℝ))
    (by intro c hc; obtain ⟨f, hf, rfl⟩ := List.mem_map.mp hc; exact hne f hf)
    (by intro c hc; obtain ⟨f, hf, rfl⟩ := List.mem_map.mp hc; exact ⟨rfl, rfl⟩)
  refine ⟨file, hw, ?_⟩
  have hsel : ∀ l : List (Filament ℝ), l.filter (Selected none) = l := fun l => List.filter_eq_self.mpr fun _ _ => rfl
  rw [hsel, List.map_map] at h1 h2
  have hfit := C49_fit_exact order (cs.map fun c => c.1) (by intro c hc; obtain ⟨f, hf, rfl⟩ := List.mem_map.mp hc; exact h f hf)
  rw [List.map_map, List.map_map] at hfit
  have hpts : (cs.map ((fun c : Filament ℝ => c.pts.map (rnd3 id)) ∘
      fun c => (⟨gamma c.1.o c.1.N c.1.dx c.1.dy c.1.dz, c.2.1, [c.2.2.1], [c.2.2.2]⟩ : Filament ℝ))) =
      cs.map ((fun c : FCurve => gamma c.o c.N c.dx c.dy c.dz) ∘ fun c => c.1) := by
    apply List.map_congr_left
    intro c _
    have : (rnd3 (id : ℝ → ℝ)) = id := rfl
    simp [this]
  rw [hpts] at h2
  rw [load, h1, h2]
  show (fit order _ >>= _) = _
  rw [hfit]
  show (if _ then _ else _) = _
  rw [if_neg (by simp)]
  congr 1
  rw [List.zip_map', List.map_inj_left]
  intro c _; rfl

/-- The hypotheses hold of a circle of radius 2 sampled at 5 points, fitted with order 2. -/
example : (1 ≤ 2 ∧ 2 * 2 < 5 ∧ ([0, 0, 2] : List ℝ).length = 2 * 1 + 1 ∧ ([0, 2, 0] : List ℝ).length = 2 * 1 + 1) := by simp

/-- C49 fails at the boundary the assertion allows: with exactly `2*order` samples the coefficient of the highest cosine comes back doubled
    and that of the highest sine comes back as 0, whatever they are. -/
theorem C49_nyquist_violated (o : Nat) (ho : 1 ≤ o) (d : List ℝ) :
    2 * rfftRe (samples o (2 * o) d) o = 2 * d[2 * o]?.getD 0 ∧ -2 * rfftIm (samples o (2 * o) d) o = 0 := by
  have e1 : aliasW (2 * o) ((o : ℤ) - o) = 1 := by simp [aliasW]
  have e2 : aliasW (2 * o) ((o : ℤ) + o) = 1 := by rw [aliasW, if_pos]; exact ⟨1, by push_cast; ring⟩
  rw [rfftRe_samples o (2 * o) (by omega), rfftIm_samples o (2 * o) (by omega),
    aliasW_small (2 * o) (0 - o) (by omega) (by omega) (by omega), aliasW_small (2 * o) (0 + o) (by omega) (by omega) (by omega)]
  have h1 : ∀ j ∈ Finset.Icc 1 o, d[2 * j]?.getD 0 * (aliasW (2 * o) (j - o) + aliasW (2 * o) (j + o)) / 2 =
      if j = o then d[2 * o]?.getD 0 else 0 := by
    intro j hj
    have := Finset.mem_Icc.mp hj
    split_ifs with h
    · subst h; rw [e1, e2]; ring
    · rw [aliasW_small (2 * o) (j - o) (by omega) (by omega) (by omega), aliasW_small (2 * o) (j + o) (by omega) (by omega) (by omega)]
      simp
  have h2 : ∀ j ∈ Finset.Icc 1 o, d[2 * j - 1]?.getD 0 * (aliasW (2 * o) (j - o) - aliasW (2 * o) (j + o)) / 2 = 0 := by
    intro j hj
    have := Finset.mem_Icc.mp hj
    by_cases h : j = o
    · subst h; rw [e1, e2]; ring
    · rw [aliasW_small (2 * o) (j - o) (by omega) (by omega) (by omega), aliasW_small (2 * o) (j + o) (by omega) (by omega) (by omega)]
      simp
  rw [Finset.sum_congr rfl h1, Finset.sum_congr rfl h2, Finset.sum_ite_eq', if_pos (Finset.mem_Icc.mpr ⟨ho, le_refl _⟩)]
  simp

/-- In a file: the unit circle sampled at two points and loaded with order 1 becomes the segment `x = 2 cos t`. -/
theorem C49_circle_violated : fit 1 [gamma 1 2 [0, 0, 1] [0, 1, 0] [0, 0, 0]] = .ok [[0, 0, 2, 0, 0, 0, 0, 0, 0]] := by
  rw [fit_eq]
  · have hx := C49_nyquist_violated 1 (le_refl 1) [0, 0, 1]
    have hy := C49_nyquist_violated 1 (le_refl 1) [0, 1, 0]
    have hz := C49_nyquist_violated 1 (le_refl 1) [0, 0, 0]
    have m : ∀ d : List ℝ, d[0]?.getD 0 = 0 → rfftRe (samples 1 (2 * 1) d) 0 = 0 := by
      intro d hd
      rw [rfftRe_samples 1 (2 * 1) (by omega), hd]
      have h1 : ∀ j ∈ (Finset.Icc 1 1 : Finset ℕ), d[2 * j]?.getD 0 * (aliasW (2 * 1) (j - (0 : Nat)) + aliasW (2 * 1) (j + (0 : Nat))) / 2 = 0 := by
        intro j hj
        have := Finset.mem_Icc.mp hj
        rw [aliasW_small (2 * 1) (j - (0 : Nat)) (by omega) (by omega) (by omega),
          aliasW_small (2 * 1) (j + (0 : Nat)) (by omega) (by omega) (by omega)]
        simp
      rw [Finset.sum_congr rfl h1]; simp
    have key : ∀ d : List ℝ, d[0]?.getD 0 = 0 → rowOf 1 (samples 1 (2 * 1) d) = [0, 0, 2 * d[2]?.getD 0] := by
      intro d hd
      have := C49_nyquist_violated 1 (le_refl 1) d
      simp only [rowOf, m d hd, List.range_one, List.flatMap_singleton, Nat.zero_add, this.1, this.2, Nat.mul_one]
    have a := key [0, 0, 1] rfl
    have b := key [0, 1, 0] rfl
    have c := key [0, 0, 0] rfl
    simp only [gamma, List.map_cons, List.map_nil, List.map_map, Function.comp_def]
    simp only [samples] at a b c
    rw [show (2 : Nat) = 2 * 1 from rfl]
    rw [a, b, c]; simp
  · intro c hc
    simp only [List.mem_singleton] at hc
    subst hc
    simp [gamma]

end Simsopt.Makegrid
