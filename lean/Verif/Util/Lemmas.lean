import Verif.Util.Model
import Mathlib.Data.List.Sort
import Mathlib.Data.List.Nodup
import Mathlib.Data.List.Range
import Mathlib.Tactic.Linarith
import Mathlib.Tactic.Ring
import Mathlib.Tactic.NormNum
import Mathlib.Tactic.Positivity
import Mathlib.Tactic.Push
import Mathlib.Algebra.Order.Floor.Ring
/-! Helper lemmas: integer partitions. -/
namespace Simsopt.Util
open Simsopt

/-- first rank of group `g` -/
def lowRank (N n g : Nat) : Nat := (g * N + n - 1) / n

theorem lowRank_le_iff {N n g r : Nat} (hn : 0 < n) : lowRank N n g ≤ r ↔ g * N ≤ r * n := by
  unfold lowRank
  rw [Nat.div_le_iff_le_mul hn]
  rw [Nat.mul_comm r n]
  constructor <;> intro h <;> omega

theorem group_iff {N n g r : Nat} (hN : 0 < N) (hn : 0 < n) : r * n / N = g ↔ lowRank N n g ≤ r ∧ r < lowRank N n (g + 1) := by
  rw [Nat.div_eq_iff hN, ← Nat.not_le, lowRank_le_iff hn, lowRank_le_iff hn, Nat.add_mul, Nat.one_mul]
  constructor <;> rintro ⟨h1, h2⟩ <;> constructor <;> omega

theorem lowRank_zero {N n : Nat} (hn : 0 < n) : lowRank N n 0 = 0 := by
  have := (lowRank_le_iff (N := N) (g := 0) (r := 0) hn).mpr (by simp)
  omega

theorem lowRank_top {N n : Nat} (hn : 0 < n) : lowRank N n n = N := by
  apply Nat.le_antisymm
  · rw [lowRank_le_iff hn, Nat.mul_comm]
  · by_contra h
    have h' : lowRank N n n ≤ N - 1 := by omega
    rw [lowRank_le_iff hn, Nat.sub_mul, Nat.mul_comm N n] at h'
    have : 0 < N := by omega
    have : n * 1 ≤ n * N := Nat.mul_le_mul_left n this
    omega

theorem lowRank_step {N n g : Nat} (hn : 0 < n) :
    lowRank N n g + N / n ≤ lowRank N n (g + 1) ∧ lowRank N n (g + 1) ≤ lowRank N n g + N / n + 1 := by
  have hdm := Nat.div_add_mod N n
  have hml := Nat.mod_lt N hn
  have h1 := (lowRank_le_iff (N := N) (g := g) (r := lowRank N n g) hn).mp (Nat.le_refl _)
  constructor
  · have h2 := (lowRank_le_iff (N := N) (g := g + 1) (r := lowRank N n (g + 1)) hn).mp (Nat.le_refl _)
    by_cases hle : N / n ≤ lowRank N n (g + 1)
    · suffices lowRank N n g ≤ lowRank N n (g + 1) - N / n by omega
      rw [lowRank_le_iff hn, Nat.sub_mul]
      have : N / n * n = n * (N / n) := Nat.mul_comm _ _
      rw [Nat.add_mul] at h2
      omega
    · exfalso
      have : (lowRank N n (g + 1) + 1) * n ≤ N / n * n := Nat.mul_le_mul_right n (by omega)
      rw [Nat.add_mul] at this h2
      have e : N / n * n = n * (N / n) := Nat.mul_comm _ _
      have : g * N ≥ 0 := Nat.zero_le _
      omega
  · rw [lowRank_le_iff hn, Nat.add_mul, Nat.add_mul, Nat.add_mul]
    have e : N / n * n = n * (N / n) := Nat.mul_comm _ _
    omega

theorem lowRank_mono {N n : Nat} (hn : 0 < n) {g g' : Nat} (h : g ≤ g') : lowRank N n g ≤ lowRank N n g' := by
  induction h with
  | refl => exact Nat.le_refl _
  | @step m _ ih => have := (lowRank_step (N := N) (g := m) hn).1; exact Nat.le_trans ih (Nat.le_trans (Nat.le_add_right _ _) this)

theorem lowRank_strict {N n : Nat} (hn : 0 < n) (hle : n ≤ N) {g g' : Nat} (h : g < g') : lowRank N n g < lowRank N n g' := by
  have h1 := (lowRank_step (N := N) (g := g) hn).1
  have h2 := lowRank_mono (N := N) hn (show g + 1 ≤ g' from h)
  have h3 : 0 < N / n := Nat.div_pos hle hn
  omega

theorem filter_range (N a b : Nat) (hab : a ≤ b) (hb : b ≤ N) :
    (List.range N).filter (fun r => decide (a ≤ r ∧ r < b)) = List.range' a (b - a) := by
  have hs : List.range N = List.range' 0 a ++ (List.range' a (b - a) ++ List.range' b (N - b)) := by
    rw [List.range_eq_range']
    have h1 : List.range' a (b - a) ++ List.range' b (N - b) = List.range' a (N - a) := by
      have := List.range'_append (s := a) (m := b - a) (n := N - b) (step := 1)
      rw [Nat.one_mul, show a + (b - a) = b by omega, show b - a + (N - b) = N - a by omega] at this
      exact this
    rw [h1]
    have := List.range'_append (s := 0) (m := a) (n := N - a) (step := 1)
    rw [Nat.one_mul, Nat.zero_add, show a + (N - a) = N by omega] at this
    exact this.symm
  rw [hs, List.filter_append, List.filter_append]
  have f1 : (List.range' 0 a).filter (fun r => decide (a ≤ r ∧ r < b)) = [] := by
    rw [List.filter_eq_nil_iff]
    intro r hr; rw [List.mem_range'_1] at hr; simp; omega
  have f2 : (List.range' a (b - a)).filter (fun r => decide (a ≤ r ∧ r < b)) = List.range' a (b - a) := by
    rw [List.filter_eq_self]
    intro r hr; rw [List.mem_range'_1] at hr; simp; omega
  have f3 : (List.range' b (N - b)).filter (fun r => decide (a ≤ r ∧ r < b)) = [] := by
    rw [List.filter_eq_nil_iff]
    intro r hr; rw [List.mem_range'_1] at hr; simp; omega
  rw [f1, f2, f3]; simp

/-- Correctly rounded binary64 arithmetic on rationals: relative error at most `2^-53`, monotone, exact on integers up to `2^53`. -/
structure Rounding (rnd : ℚ → ℚ) : Prop where
  err : ∀ q, |rnd q - q| ≤ |q| / 2 ^ 53
  mono : Monotone rnd
  exact : ∀ k : ℤ, |k| ≤ 2 ^ 53 → rnd k = k

theorem Rounding.floor_div {rnd : ℚ → ℚ} (hr : Rounding rnd) {a b : Nat} (hb : 0 < b) (ha : a < 2 ^ 53) :
    ⌊rnd ((a : ℚ) / (b : ℚ))⌋ = ((a / b : Nat) : Int) := by
  have hbq : (0 : ℚ) < b := by exact_mod_cast hb
  have hq : a / b < 2 ^ 53 := Nat.lt_of_le_of_lt (Nat.div_le_self a b) ha
  have hdm := Nat.div_add_mod a b
  have hml := Nat.mod_lt a hb
  rw [Int.floor_eq_iff]
  constructor
  · have h1 : ((a / b : Nat) : ℚ) ≤ (a : ℚ) / b := by
      rw [le_div_iff₀ hbq]
      have : a / b * b ≤ a := Nat.div_mul_le_self a b
      exact_mod_cast this
    have h2 := hr.mono h1
    have h3 := hr.exact ((a / b : Nat) : ℤ) (by rw [abs_of_nonneg (by positivity)]; exact_mod_cast hq.le)
    rw [Int.cast_natCast] at h3
    rw [Int.cast_natCast]
    rw [h3] at h2
    exact h2
  · rw [Int.cast_natCast]
    have hlt : (a : ℚ) / b ≤ (a / b : Nat) + 1 - 1 / b := by
      rw [div_le_iff₀ hbq, sub_mul, div_mul_cancel₀ _ (ne_of_gt hbq)]
      have : a + 1 ≤ (a / b + 1) * b := by rw [Nat.add_mul, Nat.mul_comm (a / b) b]; omega
      have h := (Nat.cast_le (α := ℚ)).mpr this
      push_cast at h ⊢
      linarith
    have herr := hr.err ((a : ℚ) / b)
    have habs : |(a : ℚ) / b| = a / b := abs_of_nonneg (by positivity)
    rw [habs] at herr
    have herr2 := (abs_le.mp herr).2
    have hsmall : (a : ℚ) / b / 2 ^ 53 < 1 / b := by
      rw [div_div, mul_comm, ← div_div]
      rw [div_lt_div_iff_of_pos_right hbq]
      rw [div_lt_one (by positivity)]
      exact_mod_cast ha
    linarith

theorem unique_spec {α : Type} [DecidableEq α] (l : List α) :
    (∀ a, a ∈ unique l ↔ a ∈ l) ∧ (unique l).Nodup ∧ (unique l).Sublist l := by
  have key : ∀ (l pre out seen : List α), (∀ a, a ∈ seen ↔ a ∈ out) → (∀ a, a ∈ out ↔ a ∈ pre) → out.Nodup → out.Sublist pre →
      let r := (l.foldl (fun (st : List α × List α) j => if j ∈ st.2 then st else (st.1 ++ [j], j :: st.2)) (out, seen)).1
      (∀ a, a ∈ r ↔ a ∈ pre ++ l) ∧ r.Nodup ∧ r.Sublist (pre ++ l) := by
    intro l
    induction l with
    | nil => intro pre out seen _ h2 h3 h4; simpa using ⟨h2, h3, h4⟩
    | cons j l ih =>
      intro pre out seen h1 h2 h3 h4
      rw [List.foldl_cons]
      have e : pre ++ j :: l = (pre ++ [j]) ++ l := by simp
      rw [e]
      by_cases hj : j ∈ seen
      · rw [if_pos hj]
        apply ih (pre ++ [j]) out seen h1 _ h3 (h4.trans (List.sublist_append_left _ _))
        intro a
        rw [List.mem_append, List.mem_singleton, ← h2]
        constructor
        · exact Or.inl
        · rintro (h | h)
          · exact h
          · rw [h]; exact (h1 j).mp hj
      · rw [if_neg hj]
        apply ih (pre ++ [j]) (out ++ [j]) (j :: seen)
        · intro a; rw [List.mem_cons, List.mem_append, List.mem_singleton, h1]; exact or_comm
        · intro a; rw [List.mem_append, List.mem_append, h2]
        · rw [List.nodup_append]
          refine ⟨h3, by simp, ?_⟩
          intro a ha b hb hab
          simp at hb; subst hb; subst hab
          exact hj ((h1 a).mpr ha)
        · exact h4.append (List.Sublist.refl _)
  have := key l [] [] [] (by simp) (by simp) (by simp) (by simp)
  simpa [unique] using this

end Simsopt.Util
