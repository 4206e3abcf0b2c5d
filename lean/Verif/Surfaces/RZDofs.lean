import Verif.Surfaces.RZModel
/-!
# C65: the dof vector of SurfaceRZFourier
-/
namespace Simsopt.RZSurf
open Simsopt Simsopt.Coils

/-! ### Enumeration of the modes -/

/-- First flat index of a block of dofs: cos blocks start at `ntor`, sin blocks at `ntor + 1`. -/
def Surf.lo (s : Surf) (cosBlock : Bool) : Nat := if cosBlock then s.ntor else s.ntor + 1

/-- The pair of indices of a flat position. -/
def Surf.pos (s : Surf) (j : Nat) : Nat × Nat := (j / s.width, j % s.width)

theorem Surf.width_pos (s : Surf) : 0 < s.width := by simp [Surf.width]

theorem grid_eq (w : Nat) (hw : 0 < w) (M : Nat) :
    ((List.range M).flatMap fun m => (List.range w).map fun i => (m, i)) = (List.range (M * w)).map fun j => (j / w, j % w) := by
  induction M with
  | zero => simp
  | succ M ih =>
    rw [List.range_succ, List.flatMap_append, ih, Nat.add_mul, Nat.one_mul, List.range_add, List.map_append]
    congr 1
    rw [List.flatMap_cons, List.flatMap_nil, List.append_nil, List.map_map]
    apply List.map_congr_left
    intro i hi
    have hi := List.mem_range.mp hi
    simp only [Function.comp]
    rw [Nat.mul_comm M w, Nat.mul_add_div hw, Nat.mul_add_mod, Nat.div_eq_of_lt hi, Nat.mod_eq_of_lt hi, Nat.add_zero]

theorem drop_range (N lo : Nat) : (List.range N).drop lo = List.range' lo (N - lo) := by
  rw [List.range_eq_range', List.drop_range']; simp

theorem filter_range (N lo : Nat) (f : Nat → Bool) (h : ∀ j < N, f j = true ↔ lo ≤ j) : (List.range N).filter f = List.range' lo (N - lo) := by
  rw [← drop_range]
  apply List.ext_getElem?
  intro p
  induction N generalizing p with
  | zero => simp
  | succ N ih =>
    have ih' := List.ext_getElem? (ih (fun j hj => h j (by omega)))
    rw [List.range_succ, List.filter_append, ih']
    by_cases hN : lo ≤ N
    · rw [List.drop_append_of_le_length (by simpa using hN)]
      simp [(h N (by omega)).mpr hN]
    · have : f N = false := by
        cases hf : f N with
        | false => rfl
        | true => exact absurd ((h N (by omega)).mp hf) hN
      rw [List.drop_eq_nil_of_le (by simp; omega), List.drop_eq_nil_of_le (by simp; omega)]
      simp [this]

theorem skip_pos (s : Surf) (cb : Bool) (j : Nat) : skip s cb (s.pos j).1 (s.pos j).2 = false ↔ s.lo cb ≤ j := by
  have hw := s.width_pos
  have hl : s.lo cb ≤ s.width := by cases cb <;> simp [Surf.lo, Surf.width] <;> omega
  by_cases h : j < s.width
  · have e1 : j / s.width = 0 := Nat.div_eq_of_lt h
    have e2 : j % s.width = j := Nat.mod_eq_of_lt h
    cases cb <;> simp [skip, Surf.pos, e1, e2, Surf.lo] <;> omega
  · have e1 : j / s.width ≠ 0 := by
      have := Nat.div_pos (Nat.le_of_not_lt h) hw; omega
    simp only [skip, Surf.pos, e1, decide_false, Bool.false_and, true_iff]
    omega

theorem modes_eq (s : Surf) (cb : Bool) : modes s cb = (List.range' (s.lo cb) (s.size - s.lo cb)).map s.pos := by
  have h1 : modes s cb = ((List.range (s.mpol + 1)).flatMap fun m => (List.range s.width).map fun i => (m, i)).filter (fun mi => !skip s cb mi.1 mi.2) := by
    rw [modes, List.filter_flatMap]
    congr 1; funext m
    rw [List.filter_map, ← List.filterMap_eq_filter, List.map_filterMap]
    congr 1; funext i
    cases h : skip s cb m i <;> simp [Function.comp, Option.guard, h]
  rw [h1, grid_eq s.width s.width_pos, List.filter_map]
  change _ = List.map (fun j => (j / s.width, j % s.width)) _
  congr 1
  apply filter_range
  intro j _
  rw [← skip_pos s cb j]
  simp [Function.comp, Surf.pos]

theorem intRange_succ (a b : Int) (h : a < b) : intRange a b = a :: intRange (a + 1) b := by
  have : (b - a).toNat = (b - (a + 1)).toNat + 1 := by omega
  simp only [intRange, this, List.range_succ_eq_map, List.map_cons, List.map_map]
  congr 1
  · simp
  · apply List.map_congr_left; intro j _; simp only [Function.comp]; push_cast; ring

theorem intRange_row (s : Surf) : intRange (-s.ntor) (s.ntor + 1) = (List.range s.width).map fun (i : Nat) => (i : Int) - s.ntor := by
  have : ((s.ntor : Int) + 1 - (-s.ntor)).toNat = s.width := by simp [Surf.width]; omega
  rw [intRange, this]
  apply List.map_congr_left; intro j _; ring

theorem drop_intRange (a b : Int) (k : Nat) (h : a + k ≤ b) : (intRange a b).drop k = intRange (a + k) b := by
  induction k generalizing a with
  | zero => simp
  | succ k ih =>
    rw [intRange_succ a b (by push_cast at h; omega), List.drop_succ_cons, ih (a + 1) (by push_cast at h; omega)]
    congr 1; push_cast; ring

/-- The names in terms of the flat positions. -/
def Surf.label (s : Surf) (k : Kind) (j : Nat) : Name := (k, (s.pos j).1, ((s.pos j).2 : Int) - s.ntor)

theorem labelGrid (s : Surf) (k : Kind) :
    ((List.range (s.mpol + 1)).flatMap fun m => (intRange (-s.ntor) (s.ntor + 1)).map fun n => ((k, m, n) : Name)) = (List.range s.size).map (s.label k) := by
  have h := congrArg (List.map fun mi : Nat × Nat => ((k, mi.1, (mi.2 : Int) - s.ntor) : Name)) (grid_eq s.width s.width_pos (s.mpol + 1))
  rw [List.map_map, List.map_flatMap] at h
  simp only [intRange_row, List.map_map]
  simp only [List.map_map] at h
  exact h

theorem namesHelper_eq (s : Surf) (k : Kind) (cb : Bool) : namesHelper s k cb = (List.range' (s.lo cb) (s.size - s.lo cb)).map (s.label k) := by
  rw [← drop_range, List.map_drop, ← labelGrid, List.range_succ_eq_map, List.flatMap_cons, List.drop_append_of_le_length]
  · rw [← List.map_drop, drop_intRange _ _ _ (by cases cb <;> simp [Surf.lo]; omega)]
    have e : (List.map Nat.succ (List.range s.mpol)) = List.range' 1 s.mpol := by
      rw [List.range_eq_range', List.range'_eq_map_range, List.range'_eq_map_range]; simp [Function.comp_def, Nat.add_comm]
    rw [e, namesHelper]
    congr 1
    cases cb with
    | true =>
      have : -(s.ntor : Int) + (s.lo true : Nat) = 0 := by simp [Surf.lo]
      rw [this, intRange_succ 0 _ (by omega)]; simp
    | false =>
      have : -(s.ntor : Int) + (s.lo false : Nat) = 1 := by simp [Surf.lo]
      rw [this]; simp
  · rw [intRange_row, List.length_map, List.length_map, List.length_range]
    cases cb <;> simp [Surf.lo, Surf.width] <;> omega

/-! ### The dof vector and its names -/

/-- The (array, flat position) of every dof, in order. -/
def layout (s : Surf) : List (Kind × Nat) :=
  let blk := fun (k : Kind) (cb : Bool) => (List.range' (s.lo cb) (s.size - s.lo cb)).map fun j => (k, j)
  if s.stellsym then blk .rc true ++ blk .zs false else blk .rc true ++ (blk .rs false ++ (blk .zc true ++ blk .zs false))

theorem getDofs_layout (s : Surf) : getDofs s = (layout s).map fun kj => s.buf kj.1 kj.2 := by
  cases h : s.stellsym <;> simp [getDofs, layout, dump, h, Surf.lo, Surf.buf, Function.comp_def]

theorem makeNames_layout (s : Surf) : makeNames s = (layout s).map fun kj => s.label kj.1 kj.2 := by
  cases h : s.stellsym <;> simp [makeNames, layout, h, namesHelper_eq, Function.comp_def]

theorem size_ge (s : Surf) : 2 * s.ntor + 1 ≤ s.size := by
  simp only [Surf.size, Surf.width]; exact Nat.le_mul_of_pos_left _ (by omega)

theorem layout_length (s : Surf) : ((layout s).length : Int) = s.numDofs := by
  have := size_ge s
  have e : (s.size : Int) = (s.mpol + 1) * (2 * s.ntor + 1) := by simp [Surf.size, Surf.width]
  have e2 : (2 : Int) * (s.mpol + 1) * (2 * s.ntor + 1) = 2 * s.size := by rw [e]; ring
  have e4 : (4 : Int) * (s.mpol + 1) * (2 * s.ntor + 1) = 4 * s.size := by rw [e]; ring
  cases h : s.stellsym <;> simp only [layout, h, Surf.numDofs, Surf.lo, e2, e4, List.length_append, List.length_map, List.length_range', if_true, if_false, Bool.false_eq_true] <;>
    omega

theorem label_inj (s : Surf) (k k' : Kind) (j j' : Nat) (h : s.label k j = s.label k' j') : k = k' ∧ j = j' := by
  simp only [Surf.label, Surf.pos, Prod.mk.injEq, sub_left_inj, Nat.cast_inj] at h
  refine ⟨h.1, ?_⟩
  rw [← Nat.div_add_mod j s.width, ← Nat.div_add_mod j' s.width, h.2.1, h.2.2]

theorem mem_layout (s : Surf) (k : Kind) (j : Nat) :
    (k, j) ∈ layout s ↔ available s k = true ∧ s.lo (decide (k = .rc ∨ k = .zc)) ≤ j ∧ j < s.size := by
  have := size_ge s
  cases h : s.stellsym <;> cases k <;> simp [layout, h, available, Surf.lo] <;> omega

theorem layout_nodup (s : Surf) : (layout s).Nodup := by
  have blk : ∀ (k : Kind) (a n : Nat), ((List.range' a n).map fun j => (k, j)).Nodup := by
    intro k a n
    exact (List.nodup_range').map (fun a b h => by simpa using h)
  cases h : s.stellsym
  · simp only [layout, h, Bool.false_eq_true, if_false]
    refine List.nodup_append'.mpr ⟨blk _ _ _, List.nodup_append'.mpr ⟨blk _ _ _, List.nodup_append'.mpr ⟨blk _ _ _, blk _ _ _, ?_⟩, ?_⟩, ?_⟩ <;>
      (intro x hx hy; simp at hx hy; aesop)
  · simp only [layout, h, if_true]
    refine List.nodup_append'.mpr ⟨blk _ _ _, blk _ _ _, ?_⟩
    intro x hx hy; simp at hx hy; aesop

/-- **C65.** The dof vector has `num_dofs()` entries, and there is one name and one pair `(m, n)` per entry. -/
theorem C65_lengths (s : Surf) : ((getDofs s).length : Int) = s.numDofs ∧ (makeNames s).length = (getDofs s).length := by
  rw [getDofs_layout, makeNames_layout, List.length_map, List.length_map, layout_length]
  exact ⟨rfl, rfl⟩

/-- **C65.** The names are pairwise different. -/
theorem C65_names_nodup (s : Surf) : (makeNames s).Nodup := by
  rw [makeNames_layout]
  exact (layout_nodup s).map_on (fun a _ b _ h => by
    obtain ⟨h1, h2⟩ := label_inj s _ _ _ _ h
    exact Prod.ext h1 h2)

theorem pos_valid (s : Surf) (j : Nat) (h : j < s.size) :
    validMn s ((s.pos j).1 : Int) (((s.pos j).2 : Int) - s.ntor) = true := by
  have h1 : j / s.width < s.mpol + 1 := Nat.div_lt_of_lt_mul (by rw [Nat.mul_comm]; exact h)
  have h2 : j % s.width < s.width := Nat.mod_lt _ s.width_pos
  simp only [Surf.width] at h1 h2
  have key : ∀ a b : Nat, a < s.mpol + 1 → b < 2 * s.ntor + 1 → validMn s (a : Int) ((b : Int) - s.ntor) = true := by
    intro a b ha hb
    simp only [validMn, Bool.and_eq_true, Bool.not_eq_true', decide_eq_false_iff_not]
    refine ⟨⟨⟨?_, ?_⟩, ?_⟩, ?_⟩ <;> omega
  exact key _ _ h1 h2

theorem at_pos (s : Surf) (k : Kind) (j : Nat) : s.at k (s.pos j).1 (s.pos j).2 = s.buf k j := by
  simp only [Surf.at, Surf.pos]; rw [Nat.mul_comm, Nat.div_add_mod]

/-- **C65.** The dof with the name `rc(m,n)` (and likewise for `rs`, `zc`, `zs`) is the amplitude that `get_rc(m, n)` returns. -/
theorem C65_name_is_coefficient (s : Surf) (p : Nat) (k : Kind) (m : Nat) (n : Int) (h : (makeNames s)[p]? = some (k, m, n)) :
    ∃ v, (getDofs s)[p]? = some v ∧ getCoef s k m n = some v := by
  rw [makeNames_layout, List.getElem?_map] at h
  cases hl : (layout s)[p]? with
  | none => rw [hl] at h; simp at h
  | some kj =>
    obtain ⟨k', j⟩ := kj
    rw [hl] at h
    simp only [Option.map_some, Option.some.injEq, Surf.label, Prod.mk.injEq] at h
    obtain ⟨rfl, rfl, rfl⟩ := h
    obtain ⟨ha, hlo, hj⟩ := (mem_layout s k' j).mp (List.mem_of_getElem? hl)
    refine ⟨s.buf k' j, by rw [getDofs_layout, List.getElem?_map, hl]; rfl, ?_⟩
    rw [getCoef, ha, pos_valid s j hj]
    simp only [Bool.and_self, if_true, Int.toNat_natCast, sub_add_cancel, at_pos]

/-- **C65.** Which modes have a dof: those of the documentation, all `0 ≤ m ≤ mpol`, `-ntor ≤ n ≤ ntor` except `m = 0, n < 0` for the cos terms and `m = 0, n ≤ 0`
for the sin terms; `rs` and `zc` only without stellarator symmetry. -/
theorem C65_which_modes (s : Surf) (k : Kind) (m : Nat) (n : Int) :
    (k, m, n) ∈ makeNames s ↔
      (s.stellsym = true → k = .rc ∨ k = .zs) ∧ m ≤ s.mpol ∧ -(s.ntor : Int) ≤ n ∧ n ≤ s.ntor ∧
      ¬ (m = 0 ∧ n < 0) ∧ ¬ ((k = .rs ∨ k = .zs) ∧ m = 0 ∧ n = 0) := by
  rw [makeNames_layout, List.mem_map]
  have hw := s.width_pos
  constructor
  · rintro ⟨⟨k', j⟩, hm, he⟩
    obtain ⟨ha, hlo, hj⟩ := (mem_layout s k' j).mp hm
    simp only [Surf.label, Surf.pos, Prod.mk.injEq] at he
    obtain ⟨rfl, rfl, rfl⟩ := he
    have h1 : j / s.width < s.mpol + 1 := Nat.div_lt_of_lt_mul (by rw [Nat.mul_comm]; exact hj)
    have h2 : j % s.width < s.width := Nat.mod_lt _ hw
    have h0 : j / s.width = 0 → j % s.width = j := fun h => by
      have := Nat.div_add_mod j s.width; rw [h] at this; omega
    have hwd : s.width = 2 * s.ntor + 1 := rfl
    refine ⟨?_, by omega, by omega, by omega, ?_, ?_⟩
    · intro hs; cases k' <;> simp [available, hs] at ha ⊢
    · rintro ⟨hz, hn⟩
      have := h0 hz
      cases k' <;> simp [Surf.lo] at hlo <;> omega
    · rintro ⟨hk, hz, hn⟩
      have := h0 hz
      cases k' <;> simp [Surf.lo] at hlo hk <;> omega
  · rintro ⟨hs, hm, hn1, hn2, hneg, hzero⟩
    have hlt : (n + s.ntor).toNat < s.width := by simp [Surf.width]; omega
    refine ⟨(k, m * s.width + (n + s.ntor).toNat), (mem_layout _ _ _).mpr ⟨?_, ?_, ?_⟩, ?_⟩
    · cases hst : s.stellsym with
      | false => cases k <;> simp [available, hst]
      | true => rcases hs hst with rfl | rfl <;> rfl
    · rcases Nat.eq_zero_or_pos m with rfl | hmp
      · cases k <;> simp [Surf.lo] <;> simp at hneg hzero <;> omega
      · have : s.width ≤ m * s.width := Nat.le_mul_of_pos_left _ hmp
        have hl : s.lo (decide (k = .rc ∨ k = .zc)) ≤ s.width := by cases k <;> simp [Surf.lo, Surf.width] <;> omega
        omega
    · have : m * s.width + s.width ≤ s.size := by
        simp only [Surf.size]; rw [← Nat.succ_mul]; exact Nat.mul_le_mul_right _ (by omega)
      omega
    · simp only [Surf.label, Surf.pos, Prod.mk.injEq, true_and]
      constructor
      · rw [Nat.mul_comm, Nat.mul_add_div hw, Nat.div_eq_of_lt hlt, Nat.add_zero]
      · rw [Nat.mul_comm, Nat.mul_add_mod, Nat.mod_eq_of_lt hlt]; omega

theorem m0n0_eq (s : Surf) : m0n0 s = (List.range' s.ntor (s.size - s.ntor)).map fun j => ((s.pos j).1, ((s.pos j).2 : Int) - s.ntor) := by
  have h := congrArg (List.map fun x : Name => (x.2.1, x.2.2)) (labelGrid s .rc)
  rw [List.map_flatMap] at h
  simp only [List.map_map, Function.comp_def] at h
  rw [m0n0, h, ← List.map_drop, drop_range]; rfl

/-- **C65.** The attributes `m` and `n` are the mode numbers in the names, dof by dof. -/
theorem C65_mn (s : Surf) : makeMn s = (makeNames s).map fun x => (x.2.1, x.2.2) := by
  have hd : (m0n0 s).drop 1 = (List.range' (s.ntor + 1) (s.size - (s.ntor + 1))).map fun j => ((s.pos j).1, ((s.pos j).2 : Int) - s.ntor) := by
    rw [m0n0_eq, ← List.map_drop, List.drop_range']
    congr 1
  rw [makeMn, hd, m0n0_eq, makeNames_layout]
  cases h : s.stellsym <;> simp [layout, h, Surf.lo, Surf.label, Function.comp_def]

/-! ### Setting the dofs -/

theorem fill_eq (lo hi : Nat) (d : List ℝ) (arr : Nat → ℝ) (c : Nat) :
    fill lo hi d (arr, c) = (fun j => if lo ≤ j ∧ j < hi then d[c + (j - lo)]?.getD 0 else arr j, c + (hi - lo)) := by
  have key : ∀ (n : Nat) , (List.range' lo n).foldl (fun (st : (Nat → ℝ) × Nat) i => (Function.update st.1 i (d[st.2]?.getD 0), st.2 + 1)) (arr, c)
      = (fun j => if lo ≤ j ∧ j < lo + n then d[c + (j - lo)]?.getD 0 else arr j, c + n) := by
    intro n
    induction n with
    | zero => simp; funext j; rw [if_neg (by omega)]
    | succ n ih =>
      rw [List.range'_concat, List.foldl_append, ih]
      simp only [List.foldl_cons, List.foldl_nil, Nat.one_mul, Prod.mk.injEq]
      refine ⟨?_, by omega⟩
      funext j
      by_cases hj : j = lo + n
      · subst hj; rw [Function.update_self, if_pos (by omega)]; congr 3; omega
      · rw [Function.update_of_ne hj]
        by_cases h2 : lo ≤ j ∧ j < lo + n
        · rw [if_pos h2, if_pos (by omega)]
        · rw [if_neg h2, if_neg (by omega)]
  rw [fill, key]
  by_cases h : lo ≤ hi
  · rw [Nat.add_sub_cancel' h]
  · congr 1
    funext j
    rw [if_neg (by omega), if_neg (by omega)]

/-- Where the block of an array starts in the dof vector. -/
def Surf.start (s : Surf) (k : Kind) : Nat :=
  let a := s.size - s.ntor
  let b := s.size - (s.ntor + 1)
  match k with
  | .rc => 0
  | .rs => a
  | .zc => a + b
  | .zs => if s.stellsym then a else a + b + a

/-- The buffers after `set_dofs_impl`. -/
theorem setDofs_buf (s : Surf) (d : List ℝ) (k : Kind) (j : Nat) :
    (setDofs s d).buf k j = if available s k = true ∧ s.lo (decide (k = .rc ∨ k = .zc)) ≤ j ∧ j < s.size
      then d[s.start k + (j - s.lo (decide (k = .rc ∨ k = .zc)))]?.getD 0 else s.buf k j := by
  cases h : s.stellsym <;> cases k <;>
    simp [setDofs, h, fill_eq, Surf.buf, available, Surf.lo, Surf.start]

theorem setDofs_params (s : Surf) (d : List ℝ) :
    (setDofs s d).mpol = s.mpol ∧ (setDofs s d).ntor = s.ntor ∧ (setDofs s d).nfp = s.nfp ∧ (setDofs s d).stellsym = s.stellsym := by
  cases h : s.stellsym <;> simp [setDofs, h]

theorem layout_congr (s t : Surf) (h1 : s.mpol = t.mpol) (h2 : s.ntor = t.ntor) (h3 : s.stellsym = t.stellsym) : layout s = layout t := by
  simp [layout, Surf.size, Surf.width, Surf.lo, h1, h2, h3]

theorem setDofs_layout (s : Surf) (d : List ℝ) : layout (setDofs s d) = layout s :=
  layout_congr _ _ (setDofs_params s d).1 (setDofs_params s d).2.1 (setDofs_params s d).2.2.2

/-- The position of an entry of the layout. -/
theorem layout_get (s : Surf) (p : Nat) (k : Kind) (j : Nat) (h : (layout s)[p]? = some (k, j)) :
    p = s.start k + (j - s.lo (decide (k = .rc ∨ k = .zc))) := by
  have aux : ∀ (q : Nat) (kk : Kind) (a n : Nat), ((List.range' a n).map fun j => (kk, j))[q]? = some (k, j) → kk = k ∧ j = a + q := by
    intro q kk a n h
    rw [List.getElem?_map] at h
    cases hq : (List.range' a n)[q]? with
    | none => rw [hq] at h; simp at h
    | some x =>
      rw [hq] at h
      simp only [Option.map_some, Option.some.injEq, Prod.mk.injEq] at h
      obtain ⟨hlt, hx⟩ := List.getElem?_eq_some_iff.mp hq
      rw [List.getElem_range'] at hx
      refine ⟨h.1, ?_⟩
      rw [← h.2, ← hx]; omega
  have step : ∀ (A B : List (Kind × Nat)) (q : Nat) , (A ++ B)[q]? = some (k, j) → (q < A.length ∧ A[q]? = some (k, j)) ∨ (A.length ≤ q ∧ B[q - A.length]? = some (k, j)) := by
    intro A B q h
    by_cases hq : q < A.length
    · left; rw [List.getElem?_append_left hq] at h; exact ⟨hq, h⟩
    · right; rw [List.getElem?_append_right (by omega)] at h; exact ⟨by omega, h⟩
  cases hs : s.stellsym
  · simp only [layout, hs, Bool.false_eq_true, if_false] at h
    rcases step _ _ _ h with ⟨hl, h⟩ | ⟨hl, h⟩
    · obtain ⟨rfl, rfl⟩ := aux _ _ _ _ h; simp [Surf.start, Surf.lo]
    rcases step _ _ _ h with ⟨hl2, h⟩ | ⟨hl2, h⟩
    · obtain ⟨rfl, rfl⟩ := aux _ _ _ _ h
      simp [Surf.lo] at hl hl2 ⊢; simp [Surf.start]; omega
    rcases step _ _ _ h with ⟨hl3, h⟩ | ⟨hl3, h⟩
    · obtain ⟨rfl, rfl⟩ := aux _ _ _ _ h
      simp [Surf.lo] at hl hl2 hl3 ⊢; simp [Surf.start]; omega
    · obtain ⟨rfl, rfl⟩ := aux _ _ _ _ h
      simp [Surf.lo] at hl hl2 hl3 ⊢; simp [Surf.start, hs]; omega
  · simp only [layout, hs, if_true] at h
    rcases step _ _ _ h with ⟨hl, h⟩ | ⟨hl, h⟩
    · obtain ⟨rfl, rfl⟩ := aux _ _ _ _ h; simp [Surf.start, Surf.lo]
    · obtain ⟨rfl, rfl⟩ := aux _ _ _ _ h
      simp [Surf.lo] at hl ⊢; simp [Surf.start, hs]; omega

/-- After `set_dofs`, the entry of the `p`-th dof is `d[p]`. -/
theorem setDofs_entry (s : Surf) (d : List ℝ) (p : Nat) (k : Kind) (j : Nat) (h : (layout s)[p]? = some (k, j)) :
    (setDofs s d).buf k j = d[p]?.getD 0 := by
  rw [setDofs_buf, if_pos ((mem_layout s k j).mp (List.mem_of_getElem? h)), ← layout_get s p k j h]

/-- Entries which are not dofs are not touched by `set_dofs`. -/
theorem setDofs_other (s : Surf) (d : List ℝ) (k : Kind) (j : Nat) (h : (k, j) ∉ layout s) : (setDofs s d).buf k j = s.buf k j := by
  rw [setDofs_buf, if_neg (fun hh => h ((mem_layout s k j).mpr hh))]

/-- **C65.** `get_dofs` after `set_dofs(d)` returns `d`. -/
theorem C65_set_get (s : Surf) (d : List ℝ) (hd : (d.length : Int) = s.numDofs) : getDofs (setDofs s d) = d := by
  rw [getDofs_layout, setDofs_layout]
  have hlen : (layout s).length = d.length := by have := layout_length s; omega
  apply List.ext_getElem?
  intro p
  rw [List.getElem?_map]
  cases h : (layout s)[p]? with
  | none =>
    have : (layout s).length ≤ p := by simpa using h
    rw [List.getElem?_eq_none (by omega)]; rfl
  | some kj =>
    obtain ⟨k, j⟩ := kj
    have hp := (List.getElem?_eq_some_iff.mp h).1
    simp only [Option.map_some, setDofs_entry s d p k j h]
    rw [List.getElem?_eq_getElem (by omega : p < d.length)]; rfl

theorem buf_ext (s t : Surf) (h1 : s.mpol = t.mpol) (h2 : s.ntor = t.ntor) (h3 : s.nfp = t.nfp) (h4 : s.stellsym = t.stellsym)
    (h : ∀ k j, s.buf k j = t.buf k j) : s = t := by
  cases s; cases t
  simp only at h1 h2 h3 h4
  subst h1 h2 h3 h4
  congr
  · funext j; exact h .rc j
  · funext j; exact h .rs j
  · funext j; exact h .zc j
  · funext j; exact h .zs j

theorem setDofs_getDofs_entry (s : Surf) (k : Kind) (j : Nat) : (setDofs s (getDofs s)).buf k j = s.buf k j := by
  by_cases h : (k, j) ∈ layout s
  · obtain ⟨p, hp, hpe⟩ := List.getElem_of_mem h
    have hp' : (layout s)[p]? = some (k, j) := by rw [List.getElem?_eq_getElem hp, hpe]
    rw [setDofs_entry s _ p k j hp', getDofs_layout, List.getElem?_map, hp']; rfl
  · exact setDofs_other s _ k j h

/-- **C65.** Setting the dofs to what they are changes nothing. -/
theorem C65_get_set (s : Surf) : setDofs s (getDofs s) = s := by
  obtain ⟨h1, h2, h3, h4⟩ := setDofs_params s (getDofs s)
  exact buf_ext _ _ h1 h2 h3 h4 (setDofs_getDofs_entry s)

/-! ### Setting one coefficient -/

theorem poke_params (s : Surf) (k : Kind) (m : Nat) (n : Int) (v : ℝ) :
    (poke s k m n v).mpol = s.mpol ∧ (poke s k m n v).ntor = s.ntor ∧ (poke s k m n v).nfp = s.nfp ∧ (poke s k m n v).stellsym = s.stellsym := by
  cases k <;> simp [poke]

theorem poke_buf (s : Surf) (k : Kind) (m : Nat) (n : Int) (v : ℝ) (k' : Kind) (j : Nat) :
    (poke s k m n v).buf k' j = if k' = k ∧ j = m * s.width + (n + s.ntor).toNat then v else s.buf k' j := by
  cases k <;> cases k' <;> simp [poke, Surf.buf, Function.update_apply]

theorem setCoef_eq (s : Surf) (k : Kind) (m n : Int) (v : ℝ) :
    setCoef s k m n v = if available s k && validMn s m n then some (poke s k m.toNat n v) else none := by
  simp only [setCoef, C65_get_set]

/-- **C65.** `set_rc(m, n, v)` on valid mode numbers: `get_rc(m, n)` then returns `v`, and every other coefficient of every array is unchanged. -/
theorem C65_setter (s t : Surf) (k : Kind) (m n : Int) (v : ℝ) (h : setCoef s k m n v = some t) :
    getCoef t k m n = some v ∧ ∀ k' m' n', ¬ (k' = k ∧ m' = m ∧ n' = n) → getCoef t k' m' n' = getCoef s k' m' n' := by
  rw [setCoef_eq] at h
  split at h
  case isFalse => exact absurd h (by simp)
  case isTrue hv =>
    simp only [Option.some.injEq] at h
    subst h
    obtain ⟨h1, h2, h3, h4⟩ := poke_params s k m.toNat n v
    have hav : ∀ k', available (poke s k m.toNat n v) k' = available s k' := fun k' => by cases k' <;> simp [available, h4]
    have hval : ∀ m' n', validMn (poke s k m.toNat n v) m' n' = validMn s m' n' := fun m' n' => by simp [validMn, h1, h2]
    have hat : ∀ k' m' i', (poke s k m.toNat n v).at k' m' i' = if k' = k ∧ m' * s.width + i' = m.toNat * s.width + (n + s.ntor).toNat then v else s.at k' m' i' := by
      intro k' m' i'
      have hw : (poke s k m.toNat n v).width = s.width := by simp [Surf.width, h2]
      simp only [Surf.at, hw, poke_buf]
    constructor
    · rw [getCoef, hav, hval, if_pos hv, h2, hat, if_pos ⟨rfl, rfl⟩]
    · intro k' m' n' hne
      simp only [getCoef, hav, hval, h2, hat]
      split
      case isFalse => rfl
      case isTrue hv' =>
        rw [if_neg]
        rintro ⟨rfl, he⟩
        apply hne
        simp only [Bool.and_eq_true, validMn, Bool.not_eq_true', decide_eq_false_iff_not] at hv hv'
        have hw := s.width_pos
        have l1 : (n + s.ntor).toNat < s.width := by simp [Surf.width]; omega
        have l2 : (n' + s.ntor).toNat < s.width := by simp [Surf.width]; omega
        have d1 := congrArg (· / s.width) he
        have d2 := congrArg (· % s.width) he
        simp only [Nat.mul_comm _ s.width, Nat.mul_add_div hw, Nat.mul_add_mod, Nat.div_eq_of_lt l1, Nat.div_eq_of_lt l2, Nat.mod_eq_of_lt l1, Nat.mod_eq_of_lt l2] at d1 d2
        exact ⟨rfl, by omega, by omega⟩

/-- **C65.** Invalid mode numbers, or `rs`/`zc` on a stellarator-symmetric surface, change nothing (an exception is raised or, for `rs`/`zc`, returned). -/
theorem C65_setter_refuses (s : Surf) (k : Kind) (m n : Int) (v : ℝ) :
    setCoef s k m n v = none ↔ (s.stellsym = true ∧ (k = .rs ∨ k = .zc)) ∨ m < 0 ∨ (s.mpol : Int) < m ∨ (s.ntor : Int) < n ∨ n < -(s.ntor : Int) := by
  rw [setCoef_eq]
  cases hs : s.stellsym <;> cases k <;> simp [available, hs, validMn] <;> omega

end Simsopt.RZSurf
