import Verif.Wireframe.TFCoils
import Verif.Curves.Geometry
/-!
# Toroidal breaks and collisions of a wireframe (C191)

Model of `set_toroidal_breaks` (src/simsopt/geo/wireframe_toroidal.py L628-694) and `constrain_colliding_segments` (L585-626).  Simplified: rational numbers where the code computes the positions in doubles, `n_breaks` and `width` are
natural numbers.
-/
namespace Simsopt.Wireframe

variable (g : Grid)

/-- `tor_inds[i] - np.ceil(0.5 * width)` (L681): the first toroidal index of break `i`.  (It is never negative, `start_add`.) -/
def Grid.start (g : Grid) (k width i : ℕ) : ℕ := g.evenly k i - ⌈(width : ℚ) / 2⌉₊

/-- The segments that one break constrains (L681-692): all toroidal ones of its columns, and the poloidal ones between the columns. -/
def Grid.breakSegs (g : Grid) (k width : ℕ) (allowPol : Bool) (i : ℕ) : List ℤ :=
  let itor0 := g.n * g.start k width i
  (List.range (g.n * width)).map (fun q => ((itor0 + q : ℕ) : ℤ)) ++
  if 1 < width ∧ allowPol = false then (List.range (g.n * (width - 1))).map fun q => ((g.nTor + itor0 + g.h + q : ℕ) : ℤ) else []

/-- The exceptions: bad parameters (`ValueError`), no breaks (`ZeroDivisionError`), a toroidal current is required (`ValueError`), or from `set_segments_constrained`. -/
inductive BreakErr where
  | params
  | zeroDivision
  | conflict
  | inner (e : Err)

/-- `set_toroidal_breaks` (L628-694). -/
noncomputable def Grid.setBreaks (g : Grid) (k width : ℕ) (allowPol : Bool) (w : Wf) : Wf × Option BreakErr :=
  if g.N ≤ 2 * k then (w, some .params)
  else if g.N < 2 * (k * width) then (w, some .params)
  else
    let r : Wf × Option BreakErr := match w.cons.find? fun q => decide (q.name = .tor) with
      | none => (w, none)
      | some q => if q.const = 0 then ((removeConstraint .tor w).1, none) else (w, some .conflict)
    match r with
    | (w, some e) => (w, some e)
    | (w, none) =>
      if k = 0 then (w, some .zeroDivision) else
      match g.exec (.setConstrained ((List.range k).flatMap (g.breakSegs k width allowPol))) w with
      | (w, none) => (w, none)
      | (w, some e) => (w, some (.inner e))

/-! ### Specification -/

/-- Toroidal segments from column `a` to column `a + 1` are within a break. -/
def Grid.Broken (g : Grid) (k width a : ℕ) : Prop := ∃ i < k, g.start k width i ≤ a ∧ a < g.start k width i + width

/-! ### Geometry of the breaks -/

theorem half_ceil (w : ℕ) : ⌈(w : ℚ) / 2⌉₊ = (w + 1) / 2 := by
  apply le_antisymm
  · rw [Nat.ceil_le, div_le_iff₀ (by norm_num)]
    exact_mod_cast (by omega : w ≤ (w + 1) / 2 * 2)
  · by_contra hc
    have h : ⌈(w : ℚ) / 2⌉₊ ≤ (w + 1) / 2 - 1 := by omega
    rw [Nat.ceil_le, div_le_iff₀ (by norm_num)] at h
    have : w ≤ ((w + 1) / 2 - 1) * 2 := by exact_mod_cast h
    omega

theorem width_le {k width i : ℕ} (hk : 0 < k) (hw : 2 * (k * width) ≤ g.N) : width ≤ g.evenly k i := by
  by_contra hc
  have h := (evenly_le g (i := i) (m := width - 1) hk).mp (by omega)
  obtain ⟨v, rfl⟩ : ∃ v, width = v + 1 := ⟨width - 1, by omega⟩
  simp only [Nat.add_sub_cancel] at h
  nlinarith

theorem start_add {k width i : ℕ} (hk : 0 < k) (hw : 2 * (k * width) ≤ g.N) : g.start k width i + (width + 1) / 2 = g.evenly k i := by
  have := width_le g (i := i) hk hw
  rw [Grid.start, half_ceil]
  omega

theorem end_le {k width i : ℕ} (hi : i < k) (hw : 2 * (k * width) ≤ g.N) : g.start k width i + width ≤ g.N := by
  have h1 := start_add g (i := i) (by omega) hw
  have h2 : g.evenly k i ≤ g.N - width := by
    rw [evenly_le g (by omega)]
    have : width ≤ g.N := by nlinarith
    obtain ⟨M, hM⟩ : ∃ M, g.N = M + width := ⟨g.N - width, by omega⟩
    rw [hM] at hw ⊢
    simp only [Nat.add_sub_cancel]
    have h3 : (2 * i + 1) * (M + width) ≤ (2 * k - 1) * (M + width) := Nat.mul_le_mul_right _ (by omega)
    refine h3.trans ?_
    obtain ⟨q, hq⟩ : ∃ q, k = q + 1 := ⟨k - 1, by omega⟩
    subst hq
    rw [show 2 * (q + 1) - 1 = 2 * q + 1 by omega]
    nlinarith
  have : width ≤ g.N := by nlinarith
  omega

theorem start_gap {k width i j : ℕ} (hk : 0 < k) (hw : 2 * (k * width) ≤ g.N) (hij : i < j) : g.start k width i + 2 * width ≤ g.start k width j := by
  have h1 := start_add g (i := i) hk hw
  have h2 := start_add g (i := j) hk hw
  have := evenly_strict g (d := 2 * width) hk (by nlinarith) hij
  omega

/-- **C191**: the breaks lie within the half period, do not touch each other, have the given width, and are centered (to within half a column) at evenly spaced positions (`C190_even`). -/
theorem C191_geometry {k width : ℕ} (hk : 0 < k) (hw : 2 * (k * width) ≤ g.N) :
    (∀ i < k, g.start k width i + width ≤ g.N ∧ 2 * g.evenly k i = (g.start k width i + (g.start k width i + width)) + width % 2) ∧
    ∀ i j, i < j → j < k → g.start k width i + width + width ≤ g.start k width j := by
  refine ⟨fun i hi => ⟨end_le g hi hw, ?_⟩, fun i j hij _ => ?_⟩
  · have := start_add g (i := i) hk hw
    omega
  · have := start_gap g hk hw hij
    omega

/-! ### Membership -/

theorem block_div {n a b q : ℕ} (hb : b < n) : (∃ r < n * q, a * n + b = n * 0 + r) ↔ a < q := by
  constructor
  · rintro ⟨r, hr, h⟩
    by_contra hc
    have : q * n ≤ a * n := Nat.mul_le_mul_right _ (by omega)
    rw [Nat.mul_comm n q] at hr
    omega
  · intro h
    refine ⟨a * n + b, ?_, by omega⟩
    have : (a + 1) * n ≤ q * n := Nat.mul_le_mul_right _ (by omega)
    rw [Nat.mul_comm n q]
    nlinarith

theorem mem_block {n s q x : ℕ} : (∃ r < n * q, n * s + r = x) ↔ n * s ≤ x ∧ x < n * (s + q) := by
  rw [Nat.mul_add]
  constructor
  · rintro ⟨r, hr, rfl⟩; omega
  · rintro ⟨h1, h2⟩; exact ⟨x - n * s, by omega, by omega⟩

theorem block_iff {n s e a b : ℕ} (hb : b < n) : (n * s ≤ a * n + b ∧ a * n + b < n * e) ↔ (s ≤ a ∧ a < e) := by
  rw [Nat.mul_comm n s, Nat.mul_comm n e]
  constructor
  · rintro ⟨h1, h2⟩
    constructor
    · by_contra hc
      have : (a + 1) * n ≤ s * n := Nat.mul_le_mul_right _ (by omega)
      nlinarith
    · by_contra hc
      have : e * n ≤ a * n := Nat.mul_le_mul_right _ (by omega)
      omega
  · rintro ⟨h1, h2⟩
    have h3 : s * n ≤ a * n := Nat.mul_le_mul_right _ h1
    have h4 : (a + 1) * n ≤ e * n := Nat.mul_le_mul_right _ h2
    refine ⟨by omega, by nlinarith⟩

/-- The segments of one break, as natural numbers. -/
theorem mem_break {k width i : ℕ} {allowPol : Bool} {s : ℤ} : s ∈ g.breakSegs k width allowPol i ↔
    ∃ x : ℕ, s = x ∧ ((g.n * g.start k width i ≤ x ∧ x < g.n * (g.start k width i + width)) ∨
      (1 < width ∧ allowPol = false ∧ g.nTor + g.h ≤ x ∧ g.n * g.start k width i ≤ x - g.nTor - g.h ∧ x - g.nTor - g.h < g.n * (g.start k width i + (width - 1)))) := by
  simp only [Grid.breakSegs, List.mem_append, List.mem_map, List.mem_range]
  constructor
  · rintro (⟨r, hr, rfl⟩ | h)
    · exact ⟨_, rfl, Or.inl (mem_block.mp ⟨r, hr, rfl⟩)⟩
    · split at h
      · rename_i hc
        simp only [List.mem_map, List.mem_range] at h
        obtain ⟨r, hr, rfl⟩ := h
        refine ⟨_, rfl, Or.inr ⟨hc.1, hc.2, by omega, ?_⟩⟩
        exact mem_block.mp ⟨r, hr, by omega⟩
      · simp at h
  · rintro ⟨x, rfl, h | ⟨h1, h2, h3, h4⟩⟩
    · obtain ⟨r, hr, rfl⟩ := mem_block.mpr h
      exact Or.inl ⟨r, hr, rfl⟩
    · obtain ⟨r, hr, hx⟩ := mem_block.mpr h4
      right
      rw [if_pos ⟨h1, h2⟩]
      simp only [List.mem_map, List.mem_range]
      exact ⟨r, hr, by omega⟩

variable {g}

/-- Which segments the breaks constrain: toroidal ones within a break, poloidal ones (unless allowed) with a break on both sides. -/
theorem mem_breaks (h1 : 1 ≤ g.h) {k width : ℕ} (hk : 0 < k) (hw : 2 * (k * width) ≤ g.N) (allowPol : Bool) :
    (∀ a < g.N, ∀ j < g.n, g.torKey a j ∈ (List.range k).flatMap (g.breakSegs k width allowPol) ↔ g.Broken k width a) ∧
    (∀ a j, 1 ≤ a → a < g.N → j < g.n → (g.polKey a j ∈ (List.range k).flatMap (g.breakSegs k width allowPol) ↔ allowPol = false ∧ g.Broken k width (a - 1) ∧ g.Broken k width a)) ∧
    (∀ a j, a = 0 ∨ a = g.N → j < g.h → g.polKey a j ∉ (List.range k).flatMap (g.breakSegs k width allowPol)) := by
  have hn : g.n = 2 * g.h := rfl
  have hT : g.nTor = g.n * g.N := rfl
  refine ⟨?_, ?_, ?_⟩
  · intro a ha j hj
    rw [List.mem_flatMap, Grid.torKey, if_pos ha]
    refine exists_congr fun i => ?_
    rw [List.mem_range]
    refine and_congr_right fun hi => ?_
    rw [mem_break]
    constructor
    · rintro ⟨x, hx, h | ⟨_, _, h, _⟩⟩
      · rw [← Int.natCast_inj.mp hx] at h
        exact (block_iff hj).mp h
      · exfalso
        rw [← Int.natCast_inj.mp hx] at h
        have : (a + 1) * g.n ≤ g.N * g.n := Nat.mul_le_mul_right _ ha
        rw [hT, Nat.mul_comm g.n] at h
        nlinarith
    · intro h
      exact ⟨_, rfl, Or.inl ((block_iff hj).mpr h)⟩
  · intro a j ha0 ha hj
    rw [List.mem_flatMap, Grid.polKey, if_neg (by omega), if_pos ha]
    constructor
    · rintro ⟨i, hi, h⟩
      rw [List.mem_range] at hi
      rw [mem_break] at h
      obtain ⟨x, hx, h | ⟨h3, h4, h5, h6⟩⟩ := h
      · exfalso
        rw [← Int.natCast_inj.mp hx] at h
        have h7 := end_le g hi hw
        have : g.n * (g.start k width i + width) ≤ g.n * g.N := Nat.mul_le_mul_left _ h7
        omega
      · rw [← Int.natCast_inj.mp hx, show g.h + (a - 1) * g.n + j + g.nTor - g.nTor - g.h = (a - 1) * g.n + j by omega, block_iff hj] at h6
        exact ⟨h4, ⟨i, hi, by omega, by omega⟩, ⟨i, hi, by omega, by omega⟩⟩
    · rintro ⟨h4, ⟨i, hi, h5, h6⟩, ⟨i', hi', h7, h8⟩⟩
      have hii : i = i' := by
        by_contra hc
        rcases lt_or_gt_of_ne hc with h | h
        · have := start_gap g hk hw h; omega
        · have := start_gap g hk hw h; omega
      subst hii
      refine ⟨i, List.mem_range.mpr hi, ?_⟩
      rw [mem_break]
      refine ⟨_, rfl, Or.inr ⟨by omega, h4, by omega, ?_⟩⟩
      rw [show g.h + (a - 1) * g.n + j + g.nTor - g.nTor - g.h = (a - 1) * g.n + j by omega, block_iff hj]
      omega
  · intro a j ha hj hm
    rw [List.mem_flatMap] at hm
    obtain ⟨i, hi, hm⟩ := hm
    rw [List.mem_range] at hi
    rw [mem_break] at hm
    obtain ⟨x, hx, hm⟩ := hm
    have h7 := end_le g hi hw
    have h8 : g.n * (g.start k width i + width) ≤ g.n * g.N := Nat.mul_le_mul_left _ h7
    have hN : 0 < g.N ∨ width = 0 := by
      by_cases hz : width = 0
      · exact Or.inr hz
      · left
        have : 0 < k * width := by positivity
        omega
    rcases hN with hN | hz
    · have hx2 : x = j + g.nTor ∨ (x = g.nPol - g.h + j + g.nTor) := by
        rcases ha with rfl | rfl
        · left
          rw [Grid.polKey, if_pos rfl, if_pos hj] at hx
          omega
        · right
          rw [Grid.polKey, if_neg (by omega), if_neg (by omega), if_pos hj] at hx
          omega
      rcases hm with h | ⟨h3, h4, h5, h6⟩
      · omega
      · have hP : g.nPol = g.n * g.N := rfl
        have h9 : g.n * (g.start k width i + (width - 1)) + g.n ≤ g.n * g.N := by
          have : g.n * (g.start k width i + (width - 1) + 1) ≤ g.n * g.N := Nat.mul_le_mul_left _ (by omega)
          rw [Nat.mul_add _ _ 1, Nat.mul_one] at this
          exact this
        have h10 := h6.2
        generalize g.n * (g.start k width i + (width - 1)) = u at *
        generalize g.n * g.N = v at *
        omega
    · subst hz
      rcases hm with h | ⟨h3, _⟩
      · rw [Nat.add_zero] at h; omega
      · omega

theorem breaks_range (h1 : 1 ≤ g.h) {k width : ℕ} (hw : 2 * (k * width) ≤ g.N) (allowPol : Bool) :
    ∀ s ∈ (List.range k).flatMap (g.breakSegs k width allowPol), 0 ≤ s ∧ s < g.nSeg := by
  intro s hs
  rw [List.mem_flatMap] at hs
  obtain ⟨i, hi, hs⟩ := hs
  rw [List.mem_range] at hi
  rw [mem_break] at hs
  obtain ⟨x, rfl, h⟩ := hs
  have h7 := end_le g hi hw
  have h8 : g.n * (g.start k width i + width) ≤ g.n * g.N := Nat.mul_le_mul_left _ h7
  have hS : g.nSeg = g.n * g.N + g.n * g.N := rfl
  have hT : g.nTor = g.n * g.N := rfl
  have hn : g.n = 2 * g.h := rfl
  refine ⟨by omega, ?_⟩
  rcases h with h | ⟨h3, _, _, h6⟩
  · exact_mod_cast (by omega)
  · have h9 : g.n * (g.start k width i + (width - 1)) + g.n ≤ g.n * g.N := by
      have : g.n * (g.start k width i + (width - 1) + 1) ≤ g.n * g.N := Nat.mul_le_mul_left _ (by omega)
      rw [Nat.mul_add _ _ 1, Nat.mul_one] at this
      exact this
    have h10 := h6.2
    generalize g.n * (g.start k width i + (width - 1)) = u at *
    generalize g.n * g.N = v at *
    exact_mod_cast (by omega)

theorem breaks_nodup {k width : ℕ} (hk : 0 < k) (hw : 2 * (k * width) ≤ g.N) (allowPol : Bool) : ((List.range k).flatMap (g.breakSegs k width allowPol)).Nodup := by
  have hT : g.nTor = g.n * g.N := rfl
  have hcast : ∀ (b m : ℕ), ((List.range m).map fun q => ((b + q : ℕ) : ℤ)).Nodup := by
    intro b m
    refine List.Nodup.map (fun x y h => ?_) List.nodup_range
    have := Int.natCast_inj.mp h
    omega
  have hdisj : ∀ i j, i < k → j < k → i < j → ∀ s ∈ g.breakSegs k width allowPol i, s ∉ g.breakSegs k width allowPol j := by
    intro i j hi hj hij s h3 h4
    rw [mem_break] at h3 h4
    obtain ⟨x, rfl, h3⟩ := h3
    obtain ⟨y, hy, h4⟩ := h4
    have hy := Int.natCast_inj.mp hy
    subst hy
    have hg := start_gap g hk hw hij
    have hg2 : g.n * (g.start k width i + width) ≤ g.n * g.start k width j := Nat.mul_le_mul_left _ (by omega)
    have hg3 : g.n * (g.start k width i + (width - 1)) ≤ g.n * g.start k width j := Nat.mul_le_mul_left _ (by omega)
    have e1 : g.n * (g.start k width i + width) ≤ g.n * g.N := Nat.mul_le_mul_left _ (end_le g hi hw)
    have e2 : g.n * (g.start k width j + width) ≤ g.n * g.N := Nat.mul_le_mul_left _ (end_le g hj hw)
    omega
  rw [List.nodup_flatMap]
  constructor
  · intro i hi
    rw [List.mem_range] at hi
    show (_ ++ _ : List ℤ).Nodup
    rw [List.nodup_append]
    refine ⟨hcast _ _, ?_, ?_⟩
    · split
      · exact hcast _ _
      · exact List.nodup_nil
    · intro a ha b hb hab
      split at hb
      · simp only [List.mem_map, List.mem_range] at ha hb
        obtain ⟨r, hr, rfl⟩ := ha
        obtain ⟨r', hr', rfl⟩ := hb
        have e1 : g.n * (g.start k width i + width) ≤ g.n * g.N := Nat.mul_le_mul_left _ (end_le g hi hw)
        rw [Nat.mul_add] at e1
        have := Int.natCast_inj.mp hab
        omega
      · simp at hb
  · refine List.Pairwise.imp_of_mem ?_ List.pairwise_lt_range
    intro i j hi hj hij s h3 h4
    exact hdisj i j (List.mem_range.mp hi) (List.mem_range.mp hj) hij s h3 h4

/-! ### The constraints -/

theorem find_has {w : Wf} {n : Name} : (w.cons.find? fun q => decide (q.name = n)) = none ↔ w.has n ≠ true := by
  rw [← find_isSome, ← Option.not_isSome_iff_eq_none]

/-- The first step: afterwards there is no toroidal constraint, and the segments are as before. -/
theorem no_tor (h2 : 2 ≤ g.N) (h1 : 1 ≤ g.h) {w : Wf} (hr : g.Reach w) (hz : ∀ q ∈ w.cons, q.name = .tor → q.const = 0) :
    ∃ v : Wf, g.Reach v ∧ v.has .tor ≠ true ∧ (∀ s, s ∈ v.explicit ↔ s ∈ w.explicit) ∧
      (match w.cons.find? fun q => decide (q.name = .tor) with
        | none => (w, none)
        | some q => if q.const = 0 then ((removeConstraint .tor w).1, none) else (w, some BreakErr.conflict) : Wf × Option BreakErr) = (v, none) := by
  cases e : w.cons.find? fun q => decide (q.name = .tor) with
  | none => exact ⟨w, hr, find_has.mp e, fun _ => Iff.rfl, rfl⟩
  | some q =>
    have hq := List.find?_some e
    have hq0 : q.const = 0 := hz q (List.mem_of_find?_eq_some e) (by simpa using hq)
    refine ⟨(g.exec .removeTor w).1, Grid.Reach.step _ hr, ?_, fun s => C85_others h2 h1 hr .removeTor trivial s, ?_⟩
    · intro h
      exact ((has_remove _ _ _).mp h).2 rfl
    · simp only [hq0, if_true]
      rfl

/-- Constraining segments does not add a toroidal constraint. -/
theorem setConstrained_tor {w : Wf} (l : List Int) (h : w.has .tor ≠ true) : (g.exec (.setConstrained l) w).1.has .tor ≠ true := by
  have hs : (g.setFree l w).1.has .tor ≠ true := by
    rw [Grid.setFree]
    split
    · exact h
    · refine each_inv (I := fun w => w.has .tor ≠ true) l (fun s _ v hv => ?_) w h
      split
      · exact fun hc => hv ((has_remove _ _ _).mp hc).1
      · split
        · exact fun hc => hv ((has_remove _ _ _).mp hc).1
        · exact hv
  show ((g.setFree l w).andThen (g.addSegs l false)).1.has .tor ≠ true
  rw [Res.andThen]
  split
  · exact hs
  · rw [Grid.addSegs]
    split
    · exact hs
    · split
      · exact hs
      · refine each_inv (I := fun w => w.has .tor ≠ true) l (fun s _ v hv => ?_) _ hs
        intro hc
        rcases (has_add _ _ _).mp hc with h | h
        · exact hv h
        · simp [segConstraint] at h

/-- **C191**: `set_toroidal_breaks` succeeds after any history of calls, if at least one break is asked for, the parameters are in range and there is no constraint to a nonzero toroidal current.  Then exactly these segments are constrained
in addition to those before: the toroidal ones within a break, and, unless poloidal currents are allowed, the poloidal ones with toroidal segments of a break on both sides; never those on the symmetry planes.  A constraint to zero
toroidal current is removed. -/
theorem C191_breaks (h2 : 2 ≤ g.N) (h1 : 1 ≤ g.h) {w : Wf} (hr : g.Reach w) {k width : ℕ} (hk : 0 < k) (hk2 : 2 * k < g.N) (hw : 2 * (k * width) ≤ g.N) (allowPol : Bool) (hz : ∀ q ∈ w.cons, q.name = .tor → q.const = 0) :
    let r := g.setBreaks k width allowPol w
    r.2 = none ∧ g.Reach r.1 ∧ r.1.has .tor ≠ true ∧
    (∀ a < g.N, ∀ j < g.n, (g.torKey a j).toNat ∈ r.1.explicit ↔ (g.torKey a j).toNat ∈ w.explicit ∨ g.Broken k width a) ∧
    (∀ a j, 1 ≤ a → a < g.N → j < g.n → ((g.polKey a j).toNat ∈ r.1.explicit ↔ (g.polKey a j).toNat ∈ w.explicit ∨ (allowPol = false ∧ g.Broken k width (a - 1) ∧ g.Broken k width a))) ∧
    (∀ a j, a = 0 ∨ a = g.N → j < g.h → ((g.polKey a j).toNat ∈ r.1.explicit ↔ (g.polKey a j).toNat ∈ w.explicit)) := by
  obtain ⟨v, hv1, hv2, hv3, hv4⟩ := no_tor h2 h1 hr hz
  obtain ⟨e1, e2⟩ := C85_set_constrained h2 h1 hv1 _ (breaks_range h1 hw allowPol) (breaks_nodup hk hw allowPol)
  have hset : g.setBreaks k width allowPol w = ((g.exec (.setConstrained ((List.range k).flatMap (g.breakSegs k width allowPol))) v).1, none) := by
    unfold Grid.setBreaks
    rw [if_neg (by omega), if_neg (by omega)]
    simp only [hv4]
    rw [if_neg (by omega)]
    generalize hx : g.exec (.setConstrained ((List.range k).flatMap (g.breakSegs k width allowPol))) v = x at e1
    obtain ⟨x1, x2⟩ := x
    simp only at e1
    subst e1
    rfl
  obtain ⟨m1, m2, m3⟩ := mem_breaks h1 hk hw allowPol
  have hn : g.n = 2 * g.h := rfl
  have hpos : ∀ a j, j < g.n → (1 ≤ a ∧ a < g.N ∨ (a = 0 ∨ a = g.N) ∧ j < g.h) → (0 : ℤ) ≤ g.polKey a j := by
    intro a j hj h
    have hP : g.h ≤ g.nPol := by
      have : g.n * 1 ≤ g.n * g.N := Nat.mul_le_mul_left _ (by omega)
      have hP : g.nPol = g.n * g.N := rfl
      omega
    rw [Grid.polKey]
    split_ifs <;> omega
  simp only [hset]
  refine ⟨trivial, Grid.Reach.step _ hv1, setConstrained_tor _ hv2, ?_, ?_, ?_⟩
  · intro a ha j hj
    have h0 : (0 : ℤ) ≤ g.torKey a j := by rw [Grid.torKey, if_pos ha]; omega
    rw [e2, hv3, Int.toNat_of_nonneg h0, m1 a ha j hj]
  · intro a j ha0 ha hj
    rw [e2, hv3, Int.toNat_of_nonneg (hpos a j hj (Or.inl ⟨ha0, ha⟩)), m2 a j ha0 ha hj]
  · intro a j ha hj
    rw [e2, hv3, Int.toNat_of_nonneg (hpos a j (by omega) (Or.inr ⟨ha, hj⟩))]
    have := m3 a j ha hj
    tauto

/-- **C191**: currents that meet the constraints after `set_toroidal_breaks` have no toroidal current in any segment of a break, and no net toroidal current through any poloidal plane of the torus. -/
theorem C191_no_current (h2 : 2 ≤ g.N) (h1 : 1 ≤ g.h) {w : Wf} (hr : g.Reach w) {k width : ℕ} (hk : 0 < k) (hk2 : 2 * k < g.N) (hwd : 0 < width) (hw : 2 * (k * width) ≤ g.N) (allowPol : Bool) (hz : ∀ q ∈ w.cons, q.name = .tor → q.const = 0)
    {x : Int → ℝ} {T P : Int → Int → ℝ} (hf : g.IsFlow x T P) (hm : (g.setBreaks k width allowPol w).1.Meets g x) :
    (∀ a < g.N, g.Broken k width a → ∀ j < g.n, T a j = 0 ∧ T (-a - 1) (-j) = 0) ∧
    (allowPol = false → ∀ a, 1 ≤ a → a < g.N → g.Broken k width (a - 1) → g.Broken k width a → ∀ j < g.n, P a j = 0 ∧ P (-a) (-j - 1) = 0) ∧
    ∀ I : Int, ∑ j ∈ Finset.range g.n, T I j = 0 := by
  obtain ⟨-, hr', -, c4, c5, -⟩ := C191_breaks h2 h1 hr hk hk2 hw allowPol hz
  have hb := (hr'.inv h2 h1).1
  have htor : ∀ a < g.N, g.Broken k width a → ∀ j < g.n, T a j = 0 ∧ T (-a - 1) (-j) = 0 := by
    intro a ha hB j hj
    have h := (c4 a ha j hj).mpr (Or.inr hB)
    have h0 : (0 : ℤ) ≤ g.torKey a j := by rw [Grid.torKey, if_pos ha]; omega
    have hx := hm.zero hb ((hb.explicit _).mp h)
    rw [Int.toNat_of_nonneg h0] at hx
    have := hf.atTor ha hj
    rw [hx] at this
    exact this
  refine ⟨htor, ?_, ?_⟩
  · intro hA a ha0 ha hB1 hB2 j hj
    have h := (c5 a j ha0 ha hj).mpr (Or.inr ⟨hA, hB1, hB2⟩)
    have h0 : (0 : ℤ) ≤ g.polKey a j := by rw [Grid.polKey, if_neg (by omega), if_pos ha]; omega
    have hx := hm.zero hb ((hb.explicit _).mp h)
    rw [Int.toNat_of_nonneg h0] at hx
    have := hf.atPol h2 h1 (Or.inl ⟨ha0, ha, hj⟩)
    rw [hx] at this
    exact this
  · intro I
    have hc := hm.continuous hb
    have h7 := end_le g (i := 0) hk hw
    have hB : g.Broken k width (g.start k width 0) := ⟨0, hk, le_rfl, by omega⟩
    rw [← C83_toroidal_current h2 h1 hf hc I, C83_toroidal_current h2 h1 hf hc (g.start k width 0 : ℕ)]
    exact Finset.sum_eq_zero fun j hj => (htor _ (by omega) hB j (Finset.mem_range.mp hj)).1

/-- **C191**: the refusals: too many or too wide breaks, and a constraint to a nonzero toroidal current; the constraints stay as they are. -/
theorem C191_refused {w : Wf} {k width : ℕ} (allowPol : Bool) :
    ((g.N ≤ 2 * k ∨ g.N < 2 * (k * width)) → g.setBreaks k width allowPol w = (w, some .params)) ∧
    (2 * k < g.N → 2 * (k * width) ≤ g.N → ∀ q, (w.cons.map (·.name)).Nodup → q ∈ w.cons → q.name = .tor → q.const ≠ 0 → g.setBreaks k width allowPol w = (w, some .conflict)) := by
  constructor
  · intro h
    unfold Grid.setBreaks
    by_cases hk : g.N ≤ 2 * k
    · rw [if_pos hk]
    · rw [if_neg hk, if_pos (by omega)]
  · intro hk hw q hnd hq hn hz
    unfold Grid.setBreaks
    rw [if_neg (by omega), if_neg (by omega)]
    have e : (w.cons.find? fun q => decide (q.name = .tor)) = some q := by
      cases e : w.cons.find? fun q => decide (q.name = .tor) with
      | none =>
        have := List.find?_eq_none.mp e q hq
        simp [hn] at this
      | some q' =>
        have h1 := List.find?_some e
        have h2 := List.mem_of_find?_eq_some e
        have h3 : q'.name = .tor := by simpa using h1
        rw [List.inj_on_of_nodup_map hnd h2 hq (h3.trans hn.symm)]
    simp only [e, if_neg hz]

/-- Breaks on a wireframe of 8 columns, and what the constraints look like. -/
example : Grid.Reach ⟨8, 3⟩ (Grid.init ⟨8, 3⟩) ∧ (∀ q ∈ (Grid.init ⟨8, 3⟩).cons, q.name = .tor → q.const = 0) ∧ Grid.Broken ⟨8, 3⟩ 2 2 1 ∧ ¬ Grid.Broken ⟨8, 3⟩ 2 2 0 := by
  have hs : ∀ i, Grid.start ⟨8, 3⟩ 2 2 i = 4 * i + 1 := by
    intro i
    have h1 := start_add ⟨8, 3⟩ (k := 2) (width := 2) (i := i) (by norm_num) (by norm_num)
    have h2 := (evenly_le ⟨8, 3⟩ (k := 2) (i := i) (m := 4 * i + 2) (by norm_num)).mpr (by show (2 * i + 1) * 8 ≤ _; omega)
    have h3 : ¬ Grid.evenly ⟨8, 3⟩ 2 i ≤ 4 * i + 1 := fun h => by
      have : (2 * i + 1) * 8 ≤ _ := (evenly_le ⟨8, 3⟩ (k := 2) (i := i) (m := 4 * i + 1) (by norm_num)).mp h
      omega
    omega
  refine ⟨Grid.Reach.init, ?_, ⟨0, by norm_num, by rw [hs], by rw [hs]; norm_num⟩, ?_⟩
  · intro q hq hn
    have hb := ((Grid.Reach.init (g := ⟨8, 3⟩)).inv (by norm_num) (by norm_num)).1
    simp only [init_spec.2, List.mem_map] at hq
    obtain ⟨v, -, rfl⟩ := hq
    simp [Grid.contConstraint] at hn
  · rintro ⟨i, hi, h, -⟩
    rw [hs] at h
    omega

/-! ### Collisions -/

open Classical in
/-- `constrain_colliding_segments` (L585-626); `seg s` are the positions of the endpoints of segment `s`.  Simplified: `coll` is applied point by point, where the code hands it the coordinates of all points at once. -/
noncomputable def Grid.constrainColliding (g : Grid) (seg : ℕ → (Fin 3 → ℝ) × (Fin 3 → ℝ)) (coll : (Fin 3 → ℝ) → Prop) (pts : ℕ) (w : Wf) : Wf × Option (Option Err) :=
  if pts < 2 then (w, some none) else
  let pos (q : ℕ) : ℝ := q / ((pts - 1 : ℕ) : ℝ)
  let bad (s : ℕ) : Prop := ∃ q < pts, coll ((seg s).1 + pos q • ((seg s).2 - (seg s).1))
  let r := g.exec (.setConstrained (((List.range g.nSeg).filter fun s => decide (bad s)).map fun s => ((s : ℕ) : ℤ))) w
  (r.1, r.2.map some)

/-- **C191**: after any history of calls, `constrain_colliding_segments` constrains exactly those segments, besides the ones before, at which one of the evenly spaced test points collides.  The endpoints are among the test points, so
a segment with a colliding endpoint is always constrained; a segment without any colliding point is never constrained. -/
theorem C191_colliding (h2 : 2 ≤ g.N) (h1 : 1 ≤ g.h) {w : Wf} (hr : g.Reach w) (seg : ℕ → (Fin 3 → ℝ) × (Fin 3 → ℝ)) (coll : (Fin 3 → ℝ) → Prop) (pts : ℕ) :
    (pts < 2 → g.constrainColliding seg coll pts w = (w, some none)) ∧
    (2 ≤ pts → (g.constrainColliding seg coll pts w).2 = none ∧ g.Reach (g.constrainColliding seg coll pts w).1 ∧
      (∀ s, s ∈ (g.constrainColliding seg coll pts w).1.explicit ↔ s ∈ w.explicit ∨ (s < g.nSeg ∧ ∃ q < pts, coll ((seg s).1 + ((q : ℝ) / (pts - 1)) • ((seg s).2 - (seg s).1)))) ∧
      (∀ s < g.nSeg, coll (seg s).1 ∨ coll (seg s).2 → s ∈ (g.constrainColliding seg coll pts w).1.explicit) ∧
      ∀ s, (∀ t : ℝ, 0 ≤ t → t ≤ 1 → ¬ coll ((seg s).1 + t • ((seg s).2 - (seg s).1))) → (s ∈ (g.constrainColliding seg coll pts w).1.explicit ↔ s ∈ w.explicit)) := by
  constructor
  · intro h; rw [Grid.constrainColliding, if_pos h]
  · intro hp
    classical
    have hcast : ((pts - 1 : ℕ) : ℝ) = (pts : ℝ) - 1 := by push_cast [show 1 ≤ pts by omega]; rfl
    have hpos : (0 : ℝ) < (pts : ℝ) - 1 := by
      have : (2 : ℝ) ≤ pts := by exact_mod_cast hp
      linarith
    set l : List ℤ := ((List.range g.nSeg).filter fun s => decide (∃ q < pts, coll ((seg s).1 + ((q : ℝ) / ((pts - 1 : ℕ) : ℝ)) • ((seg s).2 - (seg s).1)))).map fun s => ((s : ℕ) : ℤ) with hl
    have hmem : ∀ s : ℕ, (s : ℤ) ∈ l ↔ s < g.nSeg ∧ ∃ q < pts, coll ((seg s).1 + ((q : ℝ) / (pts - 1)) • ((seg s).2 - (seg s).1)) := by
      intro s
      simp only [hl, List.mem_map, List.mem_filter, List.mem_range, decide_eq_true_eq, Int.natCast_inj, exists_eq_right, hcast]
    have hrange : ∀ s ∈ l, 0 ≤ s ∧ s < g.nSeg := by
      intro s hs
      simp only [hl, List.mem_map, List.mem_filter, List.mem_range] at hs
      obtain ⟨r, ⟨hr, _⟩, rfl⟩ := hs
      exact ⟨by omega, by exact_mod_cast hr⟩
    have hnd : l.Nodup := (List.Nodup.filter _ List.nodup_range).map fun a b h => Int.natCast_inj.mp h
    obtain ⟨e1, e2⟩ := C85_set_constrained h2 h1 hr l hrange hnd
    have hset : g.constrainColliding seg coll pts w = ((g.exec (.setConstrained l) w).1, none) := by
      rw [Grid.constrainColliding, if_neg (by omega)]
      have : (g.exec (.setConstrained l) w).2.map some = none := by rw [e1]; rfl
      rw [← this]
    have hex : ∀ s, s ∈ (g.exec (.setConstrained l) w).1.explicit ↔ s ∈ w.explicit ∨ (s < g.nSeg ∧ ∃ q < pts, coll ((seg s).1 + ((q : ℝ) / (pts - 1)) • ((seg s).2 - (seg s).1))) := by
      intro s; rw [e2, hmem]
    rw [hset]
    refine ⟨rfl, Grid.Reach.step _ hr, hex, ?_, ?_⟩
    · intro s hs hc
      rw [hex]
      refine Or.inr ⟨hs, ?_⟩
      rcases hc with hc | hc
      · refine ⟨0, by omega, ?_⟩
        rw [Nat.cast_zero, zero_div, zero_smul, add_zero]; exact hc
      · refine ⟨pts - 1, by omega, ?_⟩
        rw [hcast, div_self hpos.ne', one_smul, add_sub_cancel]; exact hc
    · intro s hs
      rw [hex]
      refine ⟨fun h => h.elim id fun ⟨_, q, hq, hc⟩ => absurd hc (hs _ (by positivity) ?_), Or.inl⟩
      rw [div_le_one hpos]
      have : (q : ℝ) + 1 ≤ pts := by exact_mod_cast hq
      linarith

end Simsopt.Wireframe
