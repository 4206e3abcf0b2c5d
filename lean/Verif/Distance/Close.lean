import Verif.Distance.Model
import Mathlib.Tactic.Linarith
import Mathlib.Tactic.FieldSimp
/-!
# C58: the grid search finds exactly the close pairs
-/
namespace Simsopt.Distance
open Simsopt.Coils

/-! ### Sorted sets -/

theorem mem_setInsert (c x : Cell) (s : List Cell) : x ∈ setInsert c s ↔ x = c ∨ x ∈ s := by
  induction s with
  | nil => simp [setInsert]
  | cons y s ih =>
    simp only [setInsert]
    split
    · simp
    · split
      · simp only [List.mem_cons, ih]; tauto
      · have : c = y := le_antisymm (not_lt.mp ‹¬y < c›) (not_lt.mp ‹¬c < y›)
        subst this; simp

theorem sorted_setInsert (c : Cell) (s : List Cell) (h : s.Pairwise (· < ·)) : (setInsert c s).Pairwise (· < ·) := by
  induction s with
  | nil => simp [setInsert]
  | cons y s ih =>
    simp only [setInsert]
    have hy := List.pairwise_cons.mp h
    split
    · rename_i hc
      refine List.pairwise_cons.mpr ⟨?_, h⟩
      intro z hz
      rcases List.mem_cons.mp hz with rfl | hz
      · exact hc
      · exact lt_trans hc (hy.1 z hz)
    · split
      · rename_i hc
        refine List.pairwise_cons.mpr ⟨?_, ih hy.2⟩
        intro z hz
        rcases (mem_setInsert c z s).mp hz with rfl | hz
        · exact hc
        · exact hy.1 z hz
      · exact h

theorem emptyIntersection_iff (s t : List Cell) (hs : s.Pairwise (· < ·)) (ht : t.Pairwise (· < ·)) :
    emptyIntersection s t = true ↔ ∀ x ∈ s, x ∉ t := by
  fun_induction emptyIntersection s t with
  | case1 => simp
  | case2 => simp
  | case3 x s t => simp
  | case4 x s y t hne hlt ih =>
    have hs' := List.pairwise_cons.mp hs
    have ht' := List.pairwise_cons.mp ht
    rw [ih hs'.2 ht]
    have hx : x ∉ y :: t := by
      intro h
      rcases List.mem_cons.mp h with rfl | h
      · exact hne rfl
      · exact absurd (lt_trans hlt (ht'.1 x h)) (lt_irrefl _)
    constructor
    · intro h z hz
      rcases List.mem_cons.mp hz with rfl | hz
      · exact hx
      · exact h z hz
    · intro h z hz; exact h z (List.mem_cons_of_mem _ hz)
  | case5 x s y t hne hlt ih =>
    have hs' := List.pairwise_cons.mp hs
    have ht' := List.pairwise_cons.mp ht
    have hyx : y < x := lt_of_le_of_ne (not_lt.mp hlt) (fun h => hne h.symm)
    rw [ih hs ht'.2]
    have hy : ∀ z ∈ x :: s, z ≠ y := by
      intro z hz h
      subst h
      rcases List.mem_cons.mp hz with rfl | hz
      · exact hne rfl
      · exact absurd (lt_trans hyx (hs'.1 z hz)) (lt_irrefl _)
    constructor
    · intro h z hz hm
      rcases List.mem_cons.mp hm with rfl | hm
      · exact hy z hz rfl
      · exact h z hz hm
    · intro h z hz hm; exact h z hz (List.mem_cons_of_mem _ hm)

theorem foldl_insert {α : Type} (f : α → Cell) (l : List α) (s : List Cell) (hs : s.Pairwise (· < ·)) :
    (l.foldl (fun s a => setInsert (f a) s) s).Pairwise (· < ·) ∧
      ∀ x, x ∈ l.foldl (fun s a => setInsert (f a) s) s ↔ x ∈ s ∨ ∃ a ∈ l, x = f a := by
  induction l generalizing s with
  | nil => simp [hs]
  | cons a l ih =>
    obtain ⟨h1, h2⟩ := ih (setInsert (f a) s) (sorted_setInsert _ _ hs)
    refine ⟨h1, ?_⟩
    intro x
    rw [List.foldl_cons, h2, mem_setInsert]
    simp only [List.mem_cons, exists_eq_or_imp]
    tauto

theorem cells_spec (t : ℝ) (pts : List V3) : (cells t pts).Pairwise (· < ·) ∧
    ∀ x, x ∈ cells t pts ↔ ∃ p ∈ pts, x = mkCell (cell t p).1 (cell t p).2.1 (cell t p).2.2 := by
  have := foldl_insert (fun p => mkCell (cell t p).1 (cell t p).2.1 (cell t p).2.2) pts [] List.Pairwise.nil
  simpa [cells] using this

theorem foldl_foldl_insert {α β : Type} (f : α → β → Cell) (offs : List β) (l : List α) (s : List Cell) (hs : s.Pairwise (· < ·)) :
    (l.foldl (fun s a => offs.foldl (fun s o => setInsert (f a o) s) s) s).Pairwise (· < ·) ∧
      ∀ x, x ∈ l.foldl (fun s a => offs.foldl (fun s o => setInsert (f a o) s) s) s ↔ x ∈ s ∨ ∃ a ∈ l, ∃ o ∈ offs, x = f a o := by
  induction l generalizing s with
  | nil => simp [hs]
  | cons a l ih =>
    obtain ⟨h1, h2⟩ := foldl_insert (f a) offs s hs
    obtain ⟨h3, h4⟩ := ih _ h1
    refine ⟨h3, ?_⟩
    intro x
    rw [List.foldl_cons, h4, h2]
    rw [or_assoc]
    refine or_congr Iff.rfl ?_
    simp only [List.mem_cons, exists_eq_or_imp]

theorem cellsExtended_spec (t : ℝ) (pts : List V3) : (cellsExtended t pts).Pairwise (· < ·) ∧
    ∀ x, x ∈ cellsExtended t pts ↔ ∃ p ∈ pts, ∃ o ∈ offsets,
      x = mkCell ((cell t p).1 + o.1) ((cell t p).2.1 + o.2.1) ((cell t p).2.2 + o.2.2) := by
  have h := foldl_foldl_insert (fun p (o : Int × Int × Int) => mkCell ((cell t p).1 + o.1) ((cell t p).2.1 + o.2.1) ((cell t p).2.2 + o.2.2))
    offsets pts [] List.Pairwise.nil
  unfold cellsExtended
  generalize offsets = offs at *
  refine ⟨h.1, fun x => (h.2 x).trans ?_⟩
  simp

/-! ### The grid argument -/

theorem mem_offsets (a b c : Int) (ha : |a| ≤ 1) (hb : |b| ≤ 1) (hc : |c| ≤ 1) : (a, b, c) ∈ offsets := by
  rw [abs_le] at ha hb hc
  have ha' : a = -1 ∨ a = 0 ∨ a = 1 := by omega
  have hb' : b = -1 ∨ b = 0 ∨ b = 1 := by omega
  have hc' : c = -1 ∨ c = 0 ∨ c = 1 := by omega
  rcases ha' with rfl | rfl | rfl <;> rcases hb' with rfl | rfl | rfl <;> rcases hc' with rfl | rfl | rfl <;> decide

theorem floor_close (t x y : ℝ) (ht : 0 < t) (h : |x - y| < t) : |⌊x / t⌋ - ⌊y / t⌋| ≤ 1 := by
  rw [abs_lt] at h
  have h1 : x / t < y / t + 1 := by rw [← sub_lt_iff_lt_add', ← sub_div, div_lt_one ht]; linarith
  have h2 : y / t < x / t + 1 := by rw [← sub_lt_iff_lt_add', ← sub_div, div_lt_one ht]; linarith
  have a1 := Int.floor_le (x / t)
  have a2 := Int.lt_floor_add_one (x / t)
  have b1 := Int.floor_le (y / t)
  have b2 := Int.lt_floor_add_one (y / t)
  have c1 : (⌊x / t⌋ : ℝ) < ⌊y / t⌋ + 2 := by linarith
  have c2 : (⌊y / t⌋ : ℝ) < ⌊x / t⌋ + 2 := by linarith
  have d1 : ⌊x / t⌋ < ⌊y / t⌋ + 2 := by exact_mod_cast c1
  have d2 : ⌊y / t⌋ < ⌊x / t⌋ + 2 := by exact_mod_cast c2
  rw [abs_le]; omega

theorem comp_close (t u : ℝ) (ht : 0 < t) (h : u ^ 2 < t * t) : |u| < t := by
  rw [← pow_two] at h
  exact abs_lt_of_sq_lt_sq h ht.le

/-- Two points closer than the cell size lie in neighbouring cells. -/
theorem cells_meet (t : ℝ) (ht : 0 < t) (A B : List V3) (a b : V3) (ha : a ∈ A) (hb : b ∈ B) (h : distSq a b < t * t) :
    emptyIntersection (cellsExtended t A) (cells t B) = false ∧ emptyIntersection (cells t B) (cellsExtended t A) = false := by
  have hx := floor_close t b.1 a.1 ht (comp_close t _ ht (by
    have := sq_nonneg (a.2.1 - b.2.1); have := sq_nonneg (a.2.2 - b.2.2); unfold distSq at h; nlinarith))
  have hy := floor_close t b.2.1 a.2.1 ht (comp_close t _ ht (by
    have := sq_nonneg (a.1 - b.1); have := sq_nonneg (a.2.2 - b.2.2); unfold distSq at h; nlinarith))
  have hz := floor_close t b.2.2 a.2.2 ht (comp_close t _ ht (by
    have := sq_nonneg (a.2.1 - b.2.1); have := sq_nonneg (a.1 - b.1); unfold distSq at h; nlinarith))
  have hm := mem_offsets _ _ _ hx hy hz
  have hmem : mkCell (cell t b).1 (cell t b).2.1 (cell t b).2.2 ∈ cellsExtended t A := by
    rw [(cellsExtended_spec t A).2]
    refine ⟨a, ha, _, hm, ?_⟩
    simp [cell]
  have hmem2 : mkCell (cell t b).1 (cell t b).2.1 (cell t b).2.2 ∈ cells t B := by
    rw [(cells_spec t B).2]; exact ⟨b, hb, rfl⟩
  constructor
  · rw [← Bool.not_eq_true, emptyIntersection_iff _ _ (cellsExtended_spec t A).1 (cells_spec t B).1]
    intro hall; exact hall _ hmem hmem2
  · rw [← Bool.not_eq_true, emptyIntersection_iff _ _ (cells_spec t B).1 (cellsExtended_spec t A).1]
    intro hall; exact hall _ hmem2 hmem

theorem distSq_comm (a b : V3) : distSq a b = distSq b a := by unfold distSq; ring

/-- Two clouds have points at a distance less than `t` (specification; no helper of the model but the squared Euclidean distance). -/
def Near (A B : List V3) (t : ℝ) : Prop := ∃ a ∈ A, ∃ b ∈ B, distSq a b < t * t

theorem tooClose_iff (A B : List V3) (t : ℝ) : tooClose A B (t * t) = true ↔ Near A B t := by
  simp [tooClose, Near]

theorem mem_pairs (n nb i j : Nat) : (i, j) ∈ pairs n nb ↔ j < i ∧ i < n ∧ j < nb := by
  simp only [pairs, List.mem_flatMap, List.mem_range, List.mem_filterMap]
  constructor
  · rintro ⟨i', hi, j', hj, h⟩
    split at h
    · cases h; exact ⟨hj, hi, ‹_›⟩
    · cases h
  · rintro ⟨h1, h2, h3⟩
    exact ⟨i, h2, j, h1, by rw [if_pos h3]⟩

theorem nodup_pairs (n nb : Nat) : (pairs n nb).Nodup := by
  simp only [pairs]
  rw [List.nodup_flatMap]
  refine ⟨?_, ?_⟩
  · intro i _
    refine List.Nodup.filterMap ?_ List.nodup_range
    intro a a' b hb hb'
    simp only [Option.mem_def] at hb hb'
    split at hb <;> split at hb' <;> cases hb <;> cases hb' <;> rfl
  · refine List.Pairwise.imp ?_ List.nodup_range
    intro a b hab
    rw [Function.onFun, List.disjoint_left]
    intro x h1 h2
    simp only [List.mem_filterMap] at h1 h2
    obtain ⟨_, _, h1⟩ := h1
    obtain ⟨_, _, h2⟩ := h2
    split at h1 <;> split at h2 <;> cases h1 <;> cases h2
    exact hab rfl

theorem mem_allPairs (n m i j : Nat) : (i, j) ∈ allPairs n m ↔ i < n ∧ j < m := by simp [allPairs]

theorem nodup_allPairs (n m : Nat) : (allPairs n m).Nodup := by
  simp only [allPairs]
  rw [List.nodup_flatMap]
  refine ⟨?_, ?_⟩
  · intro i _
    refine List.Nodup.map ?_ List.nodup_range
    intro a b h; cases h; rfl
  · refine List.Pairwise.imp ?_ List.nodup_range
    intro a b hab
    rw [Function.onFun, List.disjoint_left]
    intro x h1 h2
    simp only [List.mem_map] at h1 h2
    obtain ⟨_, _, rfl⟩ := h1
    obtain ⟨_, _, h2⟩ := h2
    cases h2; exact hab rfl

/-- **C58.** `get_pointclouds_closer_than_threshold_within_collection`: for every positive threshold, every collection and every
schedule of the parallel loops, the result lists, each once, exactly the pairs `j < i`, `j < num_base_curves` with two points closer than
the threshold. -/
theorem C58_within_collection (pc : List (List V3)) (t : ℝ) (ht : 0 < t) (nb : Nat) (r : List (Nat × Nat)) (hr : PDist pc t nb r) :
    r.Nodup ∧ ∀ i j, (i, j) ∈ r ↔ j < i ∧ i < pc.length ∧ j < nb ∧ Near (cloud pc i) (cloud pc j) t := by
  obtain ⟨c2, h2, h3⟩ := hr
  refine ⟨h3.nodup_iff.mpr ((h2.nodup_iff.mpr ((nodup_pairs _ _).filter _)).filter _), ?_⟩
  intro i j
  rw [h3.mem_iff, List.mem_filter, h2.mem_iff, List.mem_filter, mem_pairs, tooClose_iff]
  constructor
  · rintro ⟨⟨⟨h1, h2, h3⟩, _⟩, h⟩; exact ⟨h1, h2, h3, h⟩
  · rintro ⟨h1, h2, h3, h⟩
    refine ⟨⟨⟨h1, h2, h3⟩, ?_⟩, h⟩
    obtain ⟨a, ha, b, hb, hd⟩ := h
    simp [(cells_meet t ht _ _ a b ha hb hd).1]

/-- **C58.** `get_pointclouds_closer_than_threshold_between_two_collections`: likewise for the pairs of a cloud of the first and a cloud of
the second collection. -/
theorem C58_two_collections (A B : List (List V3)) (t : ℝ) (ht : 0 < t) (r : List (Nat × Nat)) (hr : CDist A B t r) :
    r.Nodup ∧ ∀ i j, (i, j) ∈ r ↔ i < A.length ∧ j < B.length ∧ Near (cloud A i) (cloud B j) t := by
  obtain ⟨c2, h2, h3⟩ := hr
  refine ⟨h3.nodup_iff.mpr ((h2.nodup_iff.mpr ((nodup_allPairs _ _).filter _)).filter _), ?_⟩
  intro i j
  rw [h3.mem_iff, List.mem_filter, h2.mem_iff, List.mem_filter, mem_allPairs, tooClose_iff]
  constructor
  · rintro ⟨⟨⟨h1, h2⟩, _⟩, h⟩; exact ⟨h1, h2, h⟩
  · rintro ⟨h1, h2, h⟩
    refine ⟨⟨⟨h1, h2⟩, ?_⟩, h⟩
    obtain ⟨a, ha, b, hb, hd⟩ := h
    simp [(cells_meet t ht _ _ b a hb ha (by rw [distSq_comm]; exact hd)).2]

/-- A result exists for every input (the relation is not empty). -/
theorem pdist_exists (pc : List (List V3)) (t : ℝ) (nb : Nat) : ∃ r, PDist pc t nb r := ⟨_, _, List.Perm.refl _, List.Perm.refl _⟩
theorem cdist_exists (A B : List (List V3)) (t : ℝ) : ∃ r, CDist A B t r := ⟨_, _, List.Perm.refl _, List.Perm.refl _⟩

/-- Non-vacuity: two clouds in different cells on both sides of a cell boundary (and of zero) are reported as close. -/
example (r : List (Nat × Nat)) (hr : PDist [[(0.4, 0, 0)], [(-0.4, 0, 0)], [(5, 0, 0)]] 1 3 r) : (1, 0) ∈ r ∧ (2, 0) ∉ r := by
  have h := (C58_within_collection _ 1 one_pos 3 r hr).2
  constructor
  · rw [h]
    refine ⟨by omega, by simp, by omega, (-0.4, 0, 0), by simp [cloud], (0.4, 0, 0), by simp [cloud], ?_⟩
    unfold distSq; norm_num
  · rw [h]
    rintro ⟨_, _, _, a, ha, b, hb, hd⟩
    simp only [cloud, List.getElem?_cons_succ, List.getElem?_cons_zero, Option.getD_some, List.mem_singleton] at ha hb
    subst ha; subst hb
    revert hd; unfold distSq; norm_num

end Simsopt.Distance
