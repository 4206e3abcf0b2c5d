import Verif.NField.Model
/-! # C147: the index maps of NormalField -/
namespace Simsopt.NField
open Simsopt Simsopt.RZSurf

/-- The modes of the odd (`e = false`, vns) and even (`e = true`, vnc) series: `0 ≤ m ≤ mpol`, `|n| ≤ ntor`, `n ≥ 0` for `m = 0`, and no odd mode `(0, 0)`. -/
def Valid (mpol ntor : Nat) (e : Bool) (m n : Int) : Prop :=
  0 ≤ m ∧ m ≤ mpol ∧ -(ntor : Int) ≤ n ∧ n ≤ ntor ∧ (m = 0 → 0 ≤ n) ∧ (e = false → ¬ (m = 0 ∧ n = 0))

theorem indexDofs_eq (mpol ntor : Nat) (m n : Int) (e : Bool) (i : Int) : indexDofs mpol ntor m n e = some i ↔
    Valid mpol ntor e m n ∧ i = m * (2 * ntor + 1) + n + (if e then (ntor : Int) + mpol * (ntor * 2 + 1) else -1) := by
  have hn : |n| > (ntor : Int) ↔ ¬ (-(ntor : Int) ≤ n ∧ n ≤ ntor) := by rw [← abs_le]; omega
  simp only [indexDofs, Valid, hn]
  by_cases h1 : m < 0 ∨ m > mpol
  · rw [if_pos h1]; simp; omega
  rw [if_neg h1]
  by_cases h2 : -(ntor : Int) ≤ n ∧ n ≤ ntor
  swap
  · rw [if_pos h2]; simp; omega
  rw [if_neg (not_not.mpr h2)]
  by_cases h3 : m = 0 ∧ n < 0
  · rw [if_pos h3]; simp; omega
  rw [if_neg h3]
  have hii : (if m = 0 then n else m * (2 * ntor + 1) + n) = m * (2 * ntor + 1) + n := by
    split
    · rename_i h; rw [h]; ring
    · rfl
  rw [hii]
  cases e with
  | false =>
    by_cases h4 : m = 0 ∧ n = 0
    · rw [if_pos (by simp [h4])]; simp; omega
    · rw [if_neg (by simpa using h4)]
      simp only [Bool.not_false, if_true, Option.some.injEq, Bool.false_eq_true, if_false]
      generalize m * (2 * (ntor : Int) + 1) = z
      omega
  | true =>
    simp only [Bool.not_true, Bool.false_and, Bool.false_eq_true, if_false, Option.some.injEq, if_true]
    generalize m * (2 * (ntor : Int) + 1) = z
    generalize (mpol : Int) * (ntor * 2 + 1) = y
    constructor
    · intro h; exact ⟨⟨by omega, by omega, by omega, by omega, by omega, by simp⟩, by omega⟩
    · intro h; omega

/-- Codes `m (2 ntor + 1) + n` determine the mode and have the right range. -/
theorem code_inj (N : Nat) (m n m' n' : Int) (h1 : -(N : Int) ≤ n) (h2 : n ≤ N) (h1' : -(N : Int) ≤ n') (h2' : n' ≤ N)
    (h : m * (2 * N + 1) + n = m' * (2 * N + 1) + n') : m = m' ∧ n = n' := by
  have : m = m' := by
    by_contra hc
    rcases lt_or_gt_of_ne hc with hlt | hlt
    · have : (m + 1) * (2 * (N : Int) + 1) ≤ m' * (2 * N + 1) := mul_le_mul_of_nonneg_right (by omega) (by omega)
      linarith
    · have : (m' + 1) * (2 * (N : Int) + 1) ≤ m * (2 * N + 1) := mul_le_mul_of_nonneg_right (by omega) (by omega)
      linarith
  subst this
  exact ⟨rfl, by linarith⟩

theorem code_range (M N : Nat) (e : Bool) (m n : Int) (h : Valid M N e m n) :
    0 ≤ m * (2 * N + 1) + n ∧ m * (2 * N + 1) + n ≤ N + M * (N * 2 + 1) ∧ (e = false → 1 ≤ m * (2 * N + 1) + n) := by
  obtain ⟨h1, h2, h3, h4, h5, h6⟩ := h
  have hup : m * (2 * (N : Int) + 1) ≤ M * (2 * N + 1) := mul_le_mul_of_nonneg_right h2 (by omega)
  have hlo : m ≠ 0 → 1 * (2 * (N : Int) + 1) ≤ m * (2 * N + 1) := fun h0 => mul_le_mul_of_nonneg_right (by omega) (by omega)
  have e2 : (M : Int) * (N * 2 + 1) = M * (2 * N + 1) := by ring
  rw [e2]
  by_cases h0 : m = 0
  · subst h0; simp at h5 h6 hup ⊢; refine ⟨by omega, by nlinarith [Int.natCast_nonneg M, Int.natCast_nonneg N], fun he => ?_⟩; have := h6 he; omega
  · have := hlo h0
    refine ⟨by omega, by omega, fun _ => by omega⟩

theorem code_surj (M N : Nat) (c : Int) (h0 : 0 ≤ c) (h1 : c ≤ N + M * (N * 2 + 1)) :
    ∃ m n : Int, Valid M N true m n ∧ m * (2 * N + 1) + n = c := by
  have hw : (0 : Int) < 2 * N + 1 := by omega
  refine ⟨(c + N) / (2 * N + 1), (c + N) % (2 * N + 1) - N, ⟨?_, ?_, ?_, ?_, ?_, by simp⟩, ?_⟩
  · exact Int.ediv_nonneg (by omega) hw.le
  · have : (c + N) / (2 * N + 1) < (M : Int) + 1 := by
      rw [Int.ediv_lt_iff_lt_mul hw]; nlinarith
    omega
  · have := Int.emod_nonneg (c + N) hw.ne'; omega
  · have := Int.emod_lt_of_pos (c + N) hw; omega
  · intro hm
    have := Int.mul_ediv_add_emod (c + N) (2 * N + 1)
    rw [hm] at this; simp at this; omega
  · have := Int.mul_ediv_add_emod (c + N) (2 * N + 1)
    linarith [mul_comm ((c + N) / (2 * (N : Int) + 1)) (2 * N + 1)]

/-- **C147.** `get_index_in_dofs` is defined exactly for the modes of the series and numbers them without gaps: every index `0 ≤ k < ndof` belongs to exactly one mode of vns
(or vnc, unless stellarator symmetric), for every resolution. -/
theorem C147_index (mpol ntor : Nat) (st : Bool) :
    (∀ e m n, (∃ i, indexDofs mpol ntor m n e = some i) ↔ Valid mpol ntor e m n) ∧
    (∀ e m n i, (e = true → st = false) → indexDofs mpol ntor m n e = some i → 0 ≤ i ∧ i < ndof st mpol ntor) ∧
    (∀ k : Nat, k < ndof st mpol ntor → ∃! t : Bool × Int × Int, (t.1 = true → st = false) ∧ indexDofs mpol ntor t.2.1 t.2.2 t.1 = some (k : Int)) := by
  refine ⟨?_, ?_, ?_⟩
  · intro e m n
    simp only [indexDofs_eq]
    exact ⟨fun ⟨_, h, _⟩ => h, fun h => ⟨_, h, rfl⟩⟩
  · intro e m n i he h
    rw [indexDofs_eq] at h
    obtain ⟨hv, rfl⟩ := h
    obtain ⟨c1, c2, c3⟩ := code_range _ _ _ _ _ hv
    have e2 : (mpol : Int) * (ntor * 2 + 1) = ((mpol * (2 * ntor + 1) : Nat) : Int) := by push_cast; ring
    rw [e2] at c2 ⊢
    simp only [ndof]
    generalize mpol * (2 * ntor + 1) = z at *
    cases e with
    | false => have := c3 rfl; cases st <;> simp <;> omega
    | true => rw [he rfl]; simp; omega
  · intro k hk
    have e2 : (mpol : Int) * (ntor * 2 + 1) = ((mpol * (2 * ntor + 1) : Nat) : Int) := by push_cast; ring
    have hex : ∃ t : Bool × Int × Int, (t.1 = true → st = false) ∧ indexDofs mpol ntor t.2.1 t.2.2 t.1 = some (k : Int) := by
      simp only [ndof] at hk
      by_cases hlt : k < ntor + mpol * (2 * ntor + 1)
      · obtain ⟨m, n, hv, hc⟩ := code_surj mpol ntor ((k : Int) + 1) (by omega) (by rw [e2]; omega)
        refine ⟨(false, m, n), by simp, ?_⟩
        rw [indexDofs_eq]
        refine ⟨⟨hv.1, hv.2.1, hv.2.2.1, hv.2.2.2.1, hv.2.2.2.2.1, fun _ h => ?_⟩, by simp; linarith⟩
        obtain ⟨ha, hb⟩ : m = 0 ∧ n = 0 := h
        rw [ha, hb] at hc; simp at hc; omega
      · have hst : st = false := by
          cases st with
          | false => rfl
          | true => simp at hk; omega
        subst hst
        simp only [Bool.false_eq_true, if_false] at hk
        obtain ⟨m, n, hv, hc⟩ := code_surj mpol ntor ((k : Int) - (ntor + mpol * (ntor * 2 + 1))) (by rw [e2]; omega) (by rw [e2]; omega)
        refine ⟨(true, m, n), by simp, ?_⟩
        rw [indexDofs_eq]
        exact ⟨hv, by simp; linarith⟩
    obtain ⟨t, ht⟩ := hex
    refine ⟨t, ht, ?_⟩
    rintro ⟨e', m', n'⟩ ⟨_, h'⟩
    obtain ⟨e, m, n⟩ := t
    obtain ⟨_, h⟩ := ht
    rw [indexDofs_eq] at h h'
    simp only at h h' ⊢
    obtain ⟨hv, h⟩ := h
    obtain ⟨hv', h'⟩ := h'
    obtain ⟨c1, c2, c3⟩ := code_range _ _ _ _ _ hv
    obtain ⟨c1', c2', c3'⟩ := code_range _ _ _ _ _ hv'
    have he : e' = e := by
      cases e <;> cases e' <;> simp at h h' c3 c3' ⊢ <;> linarith
    subst he
    obtain ⟨a, b⟩ := code_inj ntor m' n' m n hv'.2.2.1 hv'.2.2.2.1 hv.2.2.1 hv.2.2.2.1 (by linarith)
    rw [a, b]

end Simsopt.NField
