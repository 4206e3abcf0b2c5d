import Verif.Interp.Model
import Mathlib.LinearAlgebra.Lagrange
import Mathlib.Tactic.FieldSimp
import Mathlib.Tactic.Linarith
import Mathlib.Tactic.Ring
import Mathlib.Tactic.Positivity
import Mathlib.Tactic.NormNum
/-!
# The interpolant: lemmas
-/
namespace Simsopt.Interp
open Finset

theorem writes_cons {α : Type} (w : ℕ × α) (ws : List (ℕ × α)) (a : ℕ → α) : writes (w :: ws) a = writes ws (Function.update a w.1 w.2) := rfl

theorem writes_not {α : Type} (ws : List (ℕ × α)) (a : ℕ → α) (m : ℕ) (h : ∀ w ∈ ws, w.1 ≠ m) : writes ws a m = a m := by
  induction ws generalizing a with
  | nil => rfl
  | cons w ws ih =>
    rw [writes_cons, ih _ fun x hx => h x (List.mem_cons_of_mem _ hx), Function.update_of_ne (h w List.mem_cons_self).symm]

/-- An index all of whose writes write the same value holds that value. -/
theorem writes_eq {α : Type} (ws : List (ℕ × α)) (a : ℕ → α) (m : ℕ) (v : α) (h : ∀ w ∈ ws, w.1 = m → w.2 = v) (he : ∃ w ∈ ws, w.1 = m) : writes ws a m = v := by
  induction ws generalizing a with
  | nil => obtain ⟨w, hw, _⟩ := he; cases hw
  | cons w ws ih =>
    rw [writes_cons]
    by_cases hx : ∃ x ∈ ws, x.1 = m
    · exact ih _ (fun x hx => h x (List.mem_cons_of_mem _ hx)) hx
    · rw [writes_not _ _ _ fun x hxm e => hx ⟨x, hxm, e⟩]
      obtain ⟨x, hxm, e⟩ := he
      rcases List.mem_cons.mp hxm with rfl | hxm
      · rw [← e, Function.update_self]
        exact h _ List.mem_cons_self e
      · exact absurd ⟨x, hxm, e⟩ hx

theorem mem_triples {a b d : ℕ} {t : ℕ × ℕ × ℕ} : t ∈ triples a b d ↔ t.1 < a ∧ t.2.1 < b ∧ t.2.2 < d := by
  unfold triples
  simp only [List.mem_flatMap, List.mem_map, List.mem_range]
  constructor
  · rintro ⟨i, hi, j, hj, k, hk, rfl⟩; exact ⟨hi, hj, hk⟩
  · rintro ⟨h1, h2, h3⟩; exact ⟨t.1, h1, t.2.1, h2, t.2.2, h3, rfl⟩

/-- Indices in row-major order are distinct. -/
theorem pair_inj {B i j i' j' : ℕ} (hj : j < B) (hj' : j' < B) (h : i * B + j = i' * B + j') : i = i' ∧ j = j' := by
  have hB : 0 < B := by omega
  have h1 : (i * B + j) / B = i := by rw [mul_comm, Nat.mul_add_div hB, Nat.div_eq_of_lt hj, add_zero]
  have h2 : (i' * B + j') / B = i' := by rw [mul_comm, Nat.mul_add_div hB, Nat.div_eq_of_lt hj', add_zero]
  have : i = i' := by rw [← h1, ← h2, h]
  subst this
  exact ⟨rfl, by omega⟩

theorem idx_inj {B C i j k i' j' k' : ℕ} (hj : j < B) (hj' : j' < B) (hk : k < C) (hk' : k' < C) (h : i * B * C + j * C + k = i' * B * C + j' * C + k') : i = i' ∧ j = j' ∧ k = k' := by
  have h1 : (i * B + j) * C + k = (i' * B + j') * C + k' := by rw [add_mul, add_mul]; exact h
  obtain ⟨e, ek⟩ := pair_inj hk hk' h1
  obtain ⟨ei, ej⟩ := pair_inj hj hj' e
  exact ⟨ei, ej, ek⟩

theorem idx_lt {A B C i j k : ℕ} (hi : i < A) (hj : j < B) (hk : k < C) : i * B * C + j * C + k < A * B * C := by
  have h1 : i * B + j < A * B := by
    calc i * B + j < i * B + B := by omega
      _ = (i + 1) * B := by ring
      _ ≤ A * B := Nat.mul_le_mul_right _ hi
  calc i * B * C + j * C + k < i * B * C + j * C + C := by omega
    _ = (i * B + j + 1) * C := by ring
    _ ≤ A * B * C := Nat.mul_le_mul_right _ h1

/-! ## One axis -/

theorem Axis.mesh_eq (a : Axis) (i : ℕ) : a.mesh i = a.lo + i * a.h := by
  unfold Axis.mesh Axis.h
  push_cast
  rw [add_sub_cancel_right]

theorem Axis.h_pos {a : Axis} (h : a.lo < a.hi ∧ 0 < a.n) : 0 < a.h := by
  have : (0 : ℝ) < a.n := by exact_mod_cast h.2
  exact div_pos (by linarith [h.1]) this

theorem Axis.top {a : Axis} (h : 0 < a.n) : a.lo + a.n * a.h = a.hi := by
  have : (a.n : ℝ) ≠ 0 := by exact_mod_cast h.ne'
  unfold Axis.h
  field_simp
  ring

theorem Axis.dof_eq {r : Rule} (hr : r.OK) (a : Axis) {i j : ℕ} (hi : i < a.n) (hj : j ≤ r.degree) : a.dof r (i * r.degree + j) = a.mesh i + r.nodes j * a.h := by
  unfold Axis.dof
  refine writes_eq _ _ _ _ ?_ ?_
  · intro w hw e
    unfold Axis.dofWrites at hw
    simp only [List.mem_flatMap, List.mem_map, List.mem_range] at hw
    obtain ⟨i', _, j', hj', rfl⟩ := hw
    simp only at e ⊢
    rw [a.mesh_eq, a.mesh_eq]
    have hd := hr.pos
    by_cases h1 : j' = r.degree
    · by_cases h2 : j = r.degree
      · have : i' = i := by
          rw [h1, h2] at e
          have : i' * r.degree = i * r.degree := by omega
          exact Nat.eq_of_mul_eq_mul_right hd this
        rw [this, h1, h2]
      · have e2 : (i' + 1) * r.degree + 0 = i * r.degree + j := by rw [← e, h1]; ring
        obtain ⟨e3, e4⟩ := pair_inj (by omega) (by omega) e2
        rw [h1, ← e3, ← e4, hr.last, hr.first]
        push_cast
        ring
    · by_cases h2 : j = r.degree
      · have e2 : i' * r.degree + j' = (i + 1) * r.degree + 0 := by rw [e, h2]; ring
        obtain ⟨e3, e4⟩ := pair_inj (by omega) (by omega) e2
        rw [h2, e3, e4, hr.last, hr.first]
        push_cast
        ring
      · obtain ⟨e3, e4⟩ := pair_inj (by omega) (by omega) e
        rw [e3, e4]
  · refine ⟨(i * r.degree + j, a.mesh i + r.nodes j * a.h), ?_, rfl⟩
    unfold Axis.dofWrites
    simp only [List.mem_flatMap, List.mem_map, List.mem_range]
    exact ⟨i, hi, j, by omega, rfl⟩

theorem trunc_of_nonneg {q : ℝ} (h : 0 ≤ q) : trunc q = ⌊q⌋ := if_pos h

/-- The cell of an interior point. -/
theorem Axis.idx_interior {a : Axis} (h : a.lo < a.hi ∧ 0 < a.n) {x : ℝ} (h1 : a.lo < x) (h2 : x < a.hi) :
    a.shift x = x ∧ ∃ i : ℕ, i < a.n ∧ a.idx x = i ∧ a.mesh i ≤ x ∧ x < a.mesh (i + 1) := by
  refine ⟨?_, ?_⟩
  · unfold Axis.shift
    rw [if_neg (by linarith), if_neg (by linarith)]
  · have hh := Axis.h_pos h
    have hn : (0 : ℝ) < a.n := by exact_mod_cast h.2
    have hq : a.n * (x - a.lo) / (a.hi - a.lo) = (x - a.lo) / a.h := by
      have : a.hi - a.lo ≠ 0 := by linarith
      unfold Axis.h
      field_simp
    have h0 : 0 ≤ (x - a.lo) / a.h := div_nonneg (by linarith) hh.le
    have hlt : (x - a.lo) / a.h < a.n := by
      rw [div_lt_iff₀ hh]
      linarith [Axis.top h.2]
    have hf0 : 0 ≤ ⌊(x - a.lo) / a.h⌋ := Int.floor_nonneg.mpr h0
    have hfn : ⌊(x - a.lo) / a.h⌋ < a.n := by
      have := (Int.floor_lt (z := (a.n : ℤ)) (a := (x - a.lo) / a.h)).mpr (by exact_mod_cast hlt)
      exact this
    obtain ⟨i, hi⟩ := Int.eq_ofNat_of_zero_le hf0
    have hi1 := Int.floor_le ((x - a.lo) / a.h)
    have hi2 := Int.lt_floor_add_one ((x - a.lo) / a.h)
    rw [hi] at hi1 hi2 hfn
    refine ⟨i, by exact_mod_cast hfn, ?_, ?_, ?_⟩
    · unfold Axis.idx
      rw [hq, trunc_of_nonneg h0, hi]
    · rw [a.mesh_eq]
      have := (le_div_iff₀ hh).mp hi1
      push_cast at this
      linarith
    · rw [a.mesh_eq]
      have := (div_lt_iff₀ hh).mp hi2
      push_cast at this ⊢
      linarith

theorem Axis.idx_of_mem {a : Axis} (h : a.lo < a.hi ∧ 0 < a.n) {x : ℝ} {i : ℕ} (hi : i < a.n) (h1 : a.mesh i ≤ x) (h2 : x < a.mesh (i + 1)) : a.idx x = i := by
  have hh := Axis.h_pos h
  rw [a.mesh_eq] at h1 h2
  have hq : a.n * (x - a.lo) / (a.hi - a.lo) = (x - a.lo) / a.h := by
    have : a.hi - a.lo ≠ 0 := by linarith [h.1]
    have hn : (0 : ℝ) < a.n := by exact_mod_cast h.2
    unfold Axis.h
    field_simp
  have h0 : 0 ≤ (x - a.lo) / a.h := div_nonneg (by nlinarith [Nat.cast_nonneg (α := ℝ) i]) hh.le
  unfold Axis.idx
  rw [hq, trunc_of_nonneg h0, Int.floor_eq_iff]
  push_cast at h2 ⊢
  constructor
  · rw [le_div_iff₀ hh]; linarith
  · rw [div_lt_iff₀ hh]; linarith

theorem Axis.meshAt_nat (a : Axis) {i : ℕ} (h : i ≤ a.n) : a.meshAt i = some (a.mesh i) := by
  unfold Axis.meshAt
  rw [if_pos ⟨by omega, by exact_mod_cast h⟩, Int.toNat_natCast]

/-! ## The tables -/

variable {c : Cfg}

theorem dofTensor_eq {i j k : ℕ} (hi : i ≤ c.x.n * c.rule.degree) (hj : j ≤ c.y.n * c.rule.degree) (hk : k ≤ c.z.n * c.rule.degree) :
    c.dofTensor (c.idxDof i j k) = (c.x.dof c.rule i, c.y.dof c.rule j, c.z.dof c.rule k) := by
  unfold Cfg.dofTensor
  refine writes_eq _ _ _ _ ?_ ?_
  · intro w hw e
    rw [List.mem_map] at hw
    obtain ⟨t, ht, rfl⟩ := hw
    rw [mem_triples] at ht
    obtain ⟨e1, e2, e3⟩ := idx_inj ht.2.1 (by omega) ht.2.2 (by omega) e
    simp only [e1, e2, e3]
  · refine ⟨_, List.mem_map.mpr ⟨(i, j, k), ?_, rfl⟩, rfl⟩
    rw [mem_triples]
    exact ⟨by simp only; omega, by simp only; omega, by simp only; omega⟩

theorem idxDof_lt {i j k : ℕ} (hi : i ≤ c.x.n * c.rule.degree) (hj : j ≤ c.y.n * c.rule.degree) (hk : k ≤ c.z.n * c.rule.degree) : c.idxDof i j k < c.N :=
  idx_lt (by omega) (by omega) (by omega)

theorem dof_le {n d i a : ℕ} (hi : i < n) (ha : a ≤ d) : i * d + a ≤ n * d := by
  calc i * d + a ≤ i * d + d := by omega
    _ = (i + 1) * d := by ring
    _ ≤ n * d := Nat.mul_le_mul_right _ hi

theorem skipDof_kept {i j k a b d : ℕ} (hi : i < c.x.n) (hj : j < c.y.n) (hk : k < c.z.n) (hs : c.skipCell i j k = false)
    (ha : a ≤ c.rule.degree) (hb : b ≤ c.rule.degree) (hd : d ≤ c.rule.degree) :
    c.skipDof (c.idxDof (i * c.rule.degree + a) (j * c.rule.degree + b) (k * c.rule.degree + d)) = false := by
  unfold Cfg.skipDof
  refine writes_eq _ _ _ _ ?_ ?_
  · intro w hw _
    rw [List.mem_map] at hw
    obtain ⟨_, _, rfl⟩ := hw
    rfl
  · refine ⟨(_, false), List.mem_map.mpr ⟨_, List.mem_flatMap.mpr ⟨(i, j, k), ?_, ?_⟩, rfl⟩, rfl⟩
    · rw [List.mem_filter]
      exact ⟨mem_triples.mpr ⟨hi, hj, hk⟩, by simp only [hs, Bool.not_false]⟩
    · unfold Cfg.cellDofs
      exact List.mem_map.mpr ⟨(a, b, d), mem_triples.mpr ⟨by simp only; omega, by simp only; omega, by simp only; omega⟩, rfl⟩

theorem ctr_le (m : ℕ) : c.ctr m ≤ m := by
  unfold Cfg.ctr
  exact (List.length_filter_le _ _).trans (by simp)

theorem ctr_succ (m : ℕ) : c.ctr (m + 1) = c.ctr m + if c.skipDof m then 1 else 0 := by
  unfold Cfg.ctr
  rw [List.range_succ, List.filter_append, List.length_append]
  congr 1
  cases h : c.skipDof m <;> simp [List.filter, h]

theorem kept_mono {m n : ℕ} (h : m ≤ n) : m - c.ctr m ≤ n - c.ctr n := by
  induction n, h using Nat.le_induction with
  | base => exact le_rfl
  | succ n _ ih =>
    rw [ctr_succ]
    have := ctr_le (c := c) n
    split <;> omega

theorem kept_strict {m n : ℕ} (h : m < n) (hm : c.skipDof m = false) : m - c.ctr m < n - c.ctr n := by
  have h1 := kept_mono (c := c) (show m + 1 ≤ n from h)
  rw [ctr_succ, hm] at h1
  have := ctr_le (c := c) m
  simp only [Bool.false_eq_true, if_false] at h1
  omega

theorem reducedToFull_eq {m : ℕ} (hm : m < c.N) (hs : c.skipDof m = false) : c.fullToReduced m < c.keep ∧ c.reducedToFull (c.fullToReduced m) = m := by
  refine ⟨kept_strict hm hs, ?_⟩
  unfold Cfg.reducedToFull
  refine writes_eq _ _ _ _ ?_ ?_
  · intro w hw e
    rw [List.mem_map] at hw
    obtain ⟨i, hi, rfl⟩ := hw
    rw [List.mem_filter] at hi
    have hsi : c.skipDof i = false := by simpa using hi.2
    simp only at e ⊢
    unfold Cfg.fullToReduced at e
    rcases Nat.lt_trichotomy i m with h | h | h
    · have := kept_strict h hsi; omega
    · exact h
    · have := kept_strict h hs; omega
  · refine ⟨(m - c.ctr m, m), List.mem_map.mpr ⟨m, ?_, rfl⟩, rfl⟩
    rw [List.mem_filter, List.mem_range]
    exact ⟨hm, by simp [hs]⟩

theorem vals_eq {f : Fun} {F : ℝ → ℝ → ℝ → ℕ → ℝ} (hf : Pointwise c.vs f F) {r l : ℕ} (hr : r < c.keep) (hl : l < c.vs) :
    c.vals f (c.vs * r + l) = F (c.reduced r).1 (c.reduced r).2.1 (c.reduced r).2.2 l := by
  unfold Cfg.vals
  have hval : ∀ first n j l', j < n → l' < c.vs →
      f (((List.range n).map fun j => c.reduced (first + j)).map fun p => p.1) (((List.range n).map fun j => c.reduced (first + j)).map fun p => p.2.1)
        (((List.range n).map fun j => c.reduced (first + j)).map fun p => p.2.2) (j * c.vs + l')
        = F (c.reduced (first + j)).1 (c.reduced (first + j)).2.1 (c.reduced (first + j)).2.2 l' := by
    intro first n j l' hj hl'
    have := hf ((List.range n).map fun j => c.reduced (first + j)) j l' (by simpa using hj) hl'
    rw [this]
    simp
  refine writes_eq _ _ _ _ ?_ ?_
  · intro w hw e
    rw [List.mem_flatMap] at hw
    obtain ⟨i, _, hw⟩ := hw
    unfold Cfg.batchWrites at hw
    simp only [List.mem_flatMap, List.mem_map, List.mem_range] at hw
    obtain ⟨j, hj, l', hl', rfl⟩ := hw
    simp only at e
    have e2 : (i * batch + j) * c.vs + l' = r * c.vs + l := by rw [add_mul, e, mul_comm]
    obtain ⟨e3, e4⟩ := pair_inj hl' hl e2
    simp only
    rw [hval _ _ _ _ hj hl', e3, e4]
  · have hb : 0 < batch := by norm_num [batch]
    have hdm := Nat.div_add_mod r batch
    have hmod := Nat.mod_lt r hb
    refine ⟨(r / batch * batch * c.vs + r % batch * c.vs + l, f
        (((List.range (min ((r / batch + 1) * batch) c.keep - r / batch * batch)).map fun j => c.reduced (r / batch * batch + j)).map fun p => p.1)
        (((List.range (min ((r / batch + 1) * batch) c.keep - r / batch * batch)).map fun j => c.reduced (r / batch * batch + j)).map fun p => p.2.1)
        (((List.range (min ((r / batch + 1) * batch) c.keep - r / batch * batch)).map fun j => c.reduced (r / batch * batch + j)).map fun p => p.2.2)
        (r % batch * c.vs + l)), List.mem_flatMap.mpr ⟨r / batch, ?_, ?_⟩, ?_⟩
    · rw [List.mem_range]
      have hk := Nat.div_add_mod c.keep batch
      have hkm := Nat.mod_lt c.keep hb
      by_contra hcon
      have h1 : c.keep / batch + (if c.keep % batch ≠ 0 then 1 else 0) ≤ r / batch := not_lt.mp hcon
      have h2 : batch * (c.keep / batch + (if c.keep % batch ≠ 0 then 1 else 0)) ≤ batch * (r / batch) := Nat.mul_le_mul_left _ h1
      rw [mul_add] at h2
      split at h2 <;> omega
    · unfold Cfg.batchWrites
      simp only [List.mem_flatMap, List.mem_map, List.mem_range]
      refine ⟨r % batch, ?_, l, hl, rfl⟩
      have : r / batch * batch = batch * (r / batch) := mul_comm _ _
      have h3 : (r / batch + 1) * batch = batch * (r / batch) + batch := by ring
      rw [h3, this]
      omega
    · simp only
      have : r / batch * batch + r % batch = r := by rw [mul_comm]; exact hdm
      calc r / batch * batch * c.vs + r % batch * c.vs + l = (r / batch * batch + r % batch) * c.vs + l := by ring
        _ = c.vs * r + l := by rw [this, mul_comm]

theorem pad_ge (h : 0 < c.simd) : c.vs ≤ c.pad := by
  unfold Cfg.pad
  have := Nat.mod_lt c.vs h
  split <;> omega

theorem localVals_eq {f : Fun} {F : ℝ → ℝ → ℝ → ℕ → ℝ} (hc : c.OK) (hf : Pointwise c.vs f F) {i j k a b d l : ℕ} (hi : i < c.x.n) (hj : j < c.y.n) (hk : k < c.z.n) (hs : c.skipCell i j k = false)
    (ha : a ≤ c.rule.degree) (hb : b ≤ c.rule.degree) (hd : d ≤ c.rule.degree) (hl : l < c.vs) :
    c.localVals f i j k (l + c.pad * c.idxLocal a b d)
      = F (c.x.mesh i + c.rule.nodes a * c.x.h) (c.y.mesh j + c.rule.nodes b * c.y.h) (c.z.mesh k + c.rule.nodes d * c.z.h) l := by
  have hpad := pad_ge hc.simd
  have hvals : c.vals f (c.vs * c.fullToReduced (c.idxDof (i * c.rule.degree + a) (j * c.rule.degree + b) (k * c.rule.degree + d)) + l)
      = F (c.x.mesh i + c.rule.nodes a * c.x.h) (c.y.mesh j + c.rule.nodes b * c.y.h) (c.z.mesh k + c.rule.nodes d * c.z.h) l := by
    have h1 := dof_le hi ha
    have h2 := dof_le hj hb
    have h3 := dof_le hk hd
    have hr := reducedToFull_eq (idxDof_lt h1 h2 h3) (skipDof_kept hi hj hk hs ha hb hd)
    rw [vals_eq hf hr.1 hl]
    have : c.reduced (c.fullToReduced (c.idxDof (i * c.rule.degree + a) (j * c.rule.degree + b) (k * c.rule.degree + d))) =
        (c.x.mesh i + c.rule.nodes a * c.x.h, c.y.mesh j + c.rule.nodes b * c.y.h, c.z.mesh k + c.rule.nodes d * c.z.h) := by
      unfold Cfg.reduced
      rw [hr.2, dofTensor_eq h1 h2 h3, Axis.dof_eq hc.rule _ hi ha, Axis.dof_eq hc.rule _ hj hb, Axis.dof_eq hc.rule _ hk hd]
    rw [this]
  unfold Cfg.localVals
  refine writes_eq _ _ _ _ ?_ ?_
  · intro w hw e
    rw [List.mem_flatMap] at hw
    obtain ⟨t, ht, hw⟩ := hw
    rw [List.mem_map] at hw
    obtain ⟨l', hl', rfl⟩ := hw
    rw [List.mem_range] at hl'
    rw [mem_triples] at ht
    simp only at e
    have e2 : c.idxLocal t.1 t.2.1 t.2.2 * c.pad + l' = c.idxLocal a b d * c.pad + l := by
      rw [mul_comm, e, add_comm, mul_comm]
    obtain ⟨e3, e4⟩ := pair_inj (by omega) (by omega) e2
    obtain ⟨e5, e6, e7⟩ := idx_inj ht.2.1 (by omega) ht.2.2 (by omega) e3
    simp only
    rw [e4, e5, e6, e7, hvals]
  · refine ⟨(c.pad * c.idxLocal a b d + l, c.vals f (c.vs * c.fullToReduced (c.idxDof (i * c.rule.degree + a) (j * c.rule.degree + b) (k * c.rule.degree + d)) + l)), List.mem_flatMap.mpr ⟨(a, b, d), ?_, ?_⟩, ?_⟩
    · rw [mem_triples]; exact ⟨by simp only; omega, by simp only; omega, by simp only; omega⟩
    · exact List.mem_map.mpr ⟨l, List.mem_range.mpr hl, rfl⟩
    · exact add_comm _ _

theorem idxCell_nat (i j k : ℕ) : c.idxCell i j k = ((i * c.y.n * c.z.n + j * c.z.n + k : ℕ) : ℤ) := by
  unfold Cfg.idxCell; push_cast; ring

theorem find_eq {i j k : ℕ} (hi : i < c.x.n) (hj : j < c.y.n) (hk : k < c.z.n) : c.find (c.idxCell i j k) = if c.skipCell i j k then none else some (i, j, k) := by
  have huniq : ∀ t ∈ c.cells.filter (fun t => !c.skipCell t.1 t.2.1 t.2.2), (c.idxCell t.1 t.2.1 t.2.2 == c.idxCell i j k) = true → t = (i, j, k) := by
    intro t ht e
    rw [List.mem_filter] at ht
    have hm := mem_triples.mp ht.1
    rw [beq_iff_eq, idxCell_nat, idxCell_nat] at e
    obtain ⟨e1, e2, e3⟩ := idx_inj hm.2.1 hj hm.2.2 hk (by exact_mod_cast e)
    exact Prod.ext e1 (Prod.ext e2 e3)
  unfold Cfg.find
  split
  · rename_i hs
    rw [List.find?_eq_none]
    intro t ht e
    have := huniq t ht e
    rw [this, List.mem_filter] at ht
    simp [hs] at ht
  · rename_i hs
    cases hfd : (c.cells.filter fun t => !c.skipCell t.1 t.2.1 t.2.2).find? fun t => c.idxCell t.1 t.2.1 t.2.2 == c.idxCell i j k with
    | none =>
      rw [List.find?_eq_none] at hfd
      exact absurd (beq_self_eq_true _) (hfd (i, j, k) (List.mem_filter.mpr ⟨mem_triples.mpr ⟨hi, hj, hk⟩, by simpa using hs⟩))
    | some t =>
      rw [huniq t (List.mem_of_find?_eq_some hfd) (by simpa using List.find?_some hfd)]

/-! ## The rules -/

theorem basis_eq (r : Rule) (i : ℕ) (x : ℝ) : r.basis i x = (Lagrange.basis (range (r.degree + 1)) r.nodes i).eval x := by
  unfold Rule.basis Rule.scaling
  rw [← Finset.prod_mul_distrib, Lagrange.basis, Polynomial.eval_prod]
  refine Finset.prod_congr rfl fun j _ => ?_
  rw [Lagrange.basisDivisor]
  simp

theorem nodes_inj {r : Rule} (hr : r.OK) : Set.InjOn r.nodes (range (r.degree + 1)) := by
  intro i hi j hj e
  have h1 := Finset.mem_range.mp (Finset.mem_coe.mp hi)
  have h2 := Finset.mem_range.mp (Finset.mem_coe.mp hj)
  exact hr.inj i (by omega) j (by omega) e

theorem basis_node {r : Rule} (hr : r.OK) {i j : ℕ} (hi : i ≤ r.degree) (hj : j ≤ r.degree) : r.basis i (r.nodes j) = if i = j then 1 else 0 := by
  rw [basis_eq]
  split
  · rename_i h; subst h
    exact Lagrange.eval_basis_self (nodes_inj hr) (Finset.mem_range.mpr (by omega))
  · rename_i h
    exact Lagrange.eval_basis_of_ne h (Finset.mem_range.mpr (by omega))

/-- A polynomial of at most the rule's degree is reproduced. -/
theorem reproduce {r : Rule} (hr : r.OK) (P : Polynomial ℝ) (hP : P.natDegree ≤ r.degree) (x : ℝ) :
    ∑ a ∈ range (r.degree + 1), P.eval (r.nodes a) * r.basis a x = P.eval x := by
  have h := Lagrange.eq_interpolate (s := range (r.degree + 1)) (v := r.nodes) (f := P) (nodes_inj hr) (by
    rw [Finset.card_range]
    refine lt_of_le_of_lt Polynomial.degree_le_natDegree ?_
    exact_mod_cast Nat.lt_succ_of_le hP)
  conv_rhs => rw [h]
  rw [Lagrange.interpolate_apply, Polynomial.eval_finset_sum]
  refine Finset.sum_congr rfl fun a _ => ?_
  rw [Polynomial.eval_mul, Polynomial.eval_C, basis_eq]

theorem uniform_ok {d : ℕ} (h : 0 < d) : (uniform d).OK where
  pos := h
  first := by simp [uniform]
  last := by
    have : (d : ℝ) ≠ 0 := by exact_mod_cast h.ne'
    simp only [uniform]; field_simp
  inj := by
    intro i _ j _ e
    have : (d : ℝ) ≠ 0 := by exact_mod_cast h.ne'
    simp only [uniform] at e
    have h1 : (i : ℝ) = j := mul_right_cancel₀ (one_div_ne_zero this) e
    exact_mod_cast h1

theorem chebyshev_ok {d : ℕ} (h : 0 < d) : (chebyshev d).OK where
  pos := h
  first := by simp [chebyshev]
  last := by
    have : (d : ℝ) ≠ 0 := by exact_mod_cast h.ne'
    simp only [chebyshev]
    rw [show (d : ℝ) * Real.pi * (1 / d) = Real.pi by field_simp, Real.cos_pi]
    norm_num
  inj := by
    intro i hi j hj e
    have hd : (0 : ℝ) < d := by exact_mod_cast h
    simp only [chebyshev] at e
    have hc : Real.cos (i * Real.pi * (1 / d)) = Real.cos (j * Real.pi * (1 / d)) := by linarith
    have hrange : ∀ n : ℕ, n ≤ d → (n : ℝ) * Real.pi * (1 / d) ∈ Set.Icc 0 Real.pi := by
      intro n hn
      have hn' : (n : ℝ) ≤ d := by exact_mod_cast hn
      have hpi := Real.pi_pos
      refine ⟨by positivity, ?_⟩
      rw [mul_one_div, div_le_iff₀ hd]
      nlinarith
    have h1 := Real.injOn_cos (hrange i hi) (hrange j hj) hc
    have hpi := Real.pi_pos.ne'
    have h2 : (i : ℝ) = j := by
      field_simp at h1
      exact h1
    exact_mod_cast h2

end Simsopt.Interp
