import Verif.Wireframe.ConsProps
import Mathlib.Algebra.Order.BigOperators.Group.Finset
import Mathlib.Tactic.Positivity
/-! # Free cells, the check of the constraints, and the effect of the calls -/
namespace Simsopt.Wireframe

variable {g : Grid}

theorem sum_eq_zero_iff (l : List Nat) (k : List Int) : (l.map fun (s : Nat) => k.countP fun t => decide (t = (s : Int))).sum = 0 ↔ ∀ s ∈ l, (s : Int) ∉ k := by
  induction l with
  | nil => simp
  | cons a l ih =>
    rw [List.map_cons, List.sum_cons, Nat.add_eq_zero_iff, ih, List.forall_mem_cons, List.countP_eq_zero]
    simp only [decide_eq_true_eq]
    exact and_congr_left fun _ => ⟨fun h hh => h _ hh rfl, fun h t ht e => h (e ▸ ht)⟩

/-- **C84, free cells.** A cell is reported as free if and only if its four segments are unconstrained. -/
theorem C84_free_cells (h2 : 2 ≤ g.N) (h1 : 1 ≤ g.h) (w : Wf) (i j : Nat) (hi : i < g.N) (hj : j < g.n) :
    g.freeCell w (i, j) = true ↔ (g.cell i j).tor1.toNat ∈ g.freeSegs (g.fresh w) ∧ (g.cell i j).pol2.toNat ∈ g.freeSegs (g.fresh w) ∧
      (g.cell i j).tor3.toNat ∈ g.freeSegs (g.fresh w) ∧ (g.cell i j).pol4.toNat ∈ g.freeSegs (g.fresh w) := by
  have hn : g.n = 2 * g.h := rfl
  have hsg : g.nSeg = g.nTor + g.nPol := rfl
  obtain ⟨c1, c3, ⟨a2, b2, c2, v2, -, -⟩, ⟨a4, b4, c4, v4, -, -⟩⟩ := Grid.cell_spec h2 h1 i j hi hj
  have hjm : (j + 1) % g.n < g.n := Nat.mod_lt _ (by omega)
  have r1 := Grid.torKey_lt hi hj
  have r3 := Grid.torKey_lt hi hjm
  have r2 := Grid.polNo_lt h2 h1 v2
  have r4 := Grid.polNo_lt h2 h1 v4
  rw [Grid.torKey_eq hi] at c1 c3
  rw [Grid.polKey_eq h2 h1 v2] at c2
  rw [Grid.polKey_eq h2 h1 v4] at c4
  have hmem : ∀ s : Nat, s < g.nSeg → (s ∈ g.freeSegs (g.fresh w) ↔ s ∉ (g.fresh w).explicit ++ (g.fresh w).implicit) := by
    intro s hs
    simp only [Grid.freeSegs, List.mem_filter, List.mem_range, Bool.not_eq_true', decide_eq_false_iff_not]
    exact ⟨And.right, fun h => ⟨hs, h⟩⟩
  simp only [Grid.freeCell, decide_eq_true_eq, sum_eq_zero_iff, c1, c2, c3, c4, Int.toNat_natCast]
  rw [hmem _ (by omega), hmem _ (by omega), hmem _ (by omega), hmem _ (by omega)]
  simp only [List.mem_cons, List.not_mem_nil, or_false, Nat.cast_inj, not_or]
  constructor
  · intro h
    exact ⟨fun hh => (h _ hh).1 rfl, fun hh => (h _ hh).2.1 rfl, fun hh => (h _ hh).2.2.1 rfl, fun hh => (h _ hh).2.2.2 rfl⟩
  · rintro ⟨k1, k2, k3, k4⟩ s hs
    exact ⟨fun e => k1 (e ▸ hs), fun e => k2 (e ▸ hs), fun e => k3 (e ▸ hs), fun e => k4 (e ▸ hs)⟩

/-- **C84, check.** `check_constraints` accepts currents that meet the constraints, for all positive tolerances; it rejects others when the absolute tolerance is small enough and the relative one is zero. -/
theorem C84_check (h2 : 2 ≤ g.N) (h1 : 1 ≤ g.h) {w : Wf} (hr : g.Reach w) (x : Int → ℝ) :
    (w.Meets g x → ∀ atol rtol, 0 < atol → 0 ≤ rtol → g.check atol rtol x w = true) ∧ (¬ w.Meets g x → ∃ ε, 0 < ε ∧ ∀ atol, atol ≤ ε → g.check atol 0 x w = false) := by
  have hM := (C84_matrices h2 h1 hr false x).1
  have hM' : w.Meets g x ↔ ∀ r ∈ (g.matrices false false w).1, g.apply r.1 x = r.2 := by
    rw [← hM]
    simp only [Solves]
    have : (g.matrices false false w).2 = List.range g.nSeg := rfl
    simp only [this, sum_range_list]
    rfl
  constructor
  · intro hm atol rtol h0 hr'
    rw [hM'] at hm
    simp only [Grid.check, List.all_eq_true, Bool.not_eq_true', decide_eq_false_iff_not, not_le]
    intro r hrr
    rw [hm r hrr, sub_self, abs_zero]
    have : 0 ≤ (∑ s ∈ Finset.range g.nSeg, |x s|) / g.nSeg := by
      have : 0 ≤ ∑ s ∈ Finset.range g.nSeg, |x s| := Finset.sum_nonneg fun _ _ => abs_nonneg _
      positivity
    have := mul_nonneg hr' this
    linarith
  · intro hm
    rw [hM'] at hm
    push Not at hm
    obtain ⟨r, hrr, hne⟩ := hm
    refine ⟨|g.apply r.1 x - r.2|, abs_pos.mpr (sub_ne_zero.mpr hne), fun atol ha => ?_⟩
    rw [Bool.eq_false_iff]
    simp only [Grid.check, ne_eq, List.all_eq_true, Bool.not_eq_true', decide_eq_false_iff_not, not_le, zero_mul, add_zero]
    intro h
    exact absurd (h r hrr) (not_lt.mpr ha)

/-! ### C85: the effect of the calls -/

theorem setFree_spec {w : Wf} (hb : g.Base w) (l : List Int) (hl : g.inRange l = true) :
    (g.setFree l w).2 = none ∧ g.Base (g.setFree l w).1 ∧ (∀ s, (g.setFree l w).1.has (.seg s) = true ↔ w.has (.seg s) = true ∧ (s : Int) ∉ l) ∧
      ∀ s, (g.setFree l w).1.has (.impl s) = true ↔ w.has (.impl s) = true ∧ (s : Int) ∉ l := by
  have h0 := Grid.inRange_iff.mp hl
  simp only [Grid.setFree, hl, Bool.not_true, Bool.false_eq_true, if_false]
  suffices h : ∀ (l : List Int) (v : Wf), (∀ s ∈ l, 0 ≤ s) → g.Base v → let r := each (fun (s : Int) (w : Wf) => if w.has (.seg s.toNat) then removeConstraint (.seg s.toNat) w else if w.has (.impl s.toNat) then removeConstraint (.impl s.toNat) w else (w, none)) l v
      r.2 = none ∧ g.Base r.1 ∧ (∀ s, r.1.has (.seg s) = true ↔ v.has (.seg s) = true ∧ (s : Int) ∉ l) ∧ ∀ s, r.1.has (.impl s) = true ↔ v.has (.impl s) = true ∧ (s : Int) ∉ l from
    h l w (fun s hs => (h0 s hs).1) hb
  clear h0 hl hb w l
  intro l
  induction l with
  | nil => intro v _ hv; exact ⟨rfl, hv, by simp [each], by simp [each]⟩
  | cons a l ih =>
    intro v hp hv
    have ha := hp a (by simp)
    have ea : ∀ s : Nat, s = a.toNat ↔ (s : Int) = a := fun s => by omega
    simp only
    -- the state after the first element
    have step : ∀ r : Res, r.2 = none → g.Base r.1 → (∀ s, r.1.has (.seg s) = true ↔ v.has (.seg s) = true ∧ s ≠ a.toNat) → (∀ s, r.1.has (.impl s) = true ↔ v.has (.impl s) = true ∧ s ≠ a.toNat) →
        let r' := r.andThen (each (fun (s : Int) (w : Wf) => if w.has (.seg s.toNat) then removeConstraint (.seg s.toNat) w else if w.has (.impl s.toNat) then removeConstraint (.impl s.toNat) w else (w, none)) l)
        r'.2 = none ∧ g.Base r'.1 ∧ (∀ s, r'.1.has (.seg s) = true ↔ v.has (.seg s) = true ∧ (s : Int) ∉ a :: l) ∧ ∀ s, r'.1.has (.impl s) = true ↔ v.has (.impl s) = true ∧ (s : Int) ∉ a :: l := by
      intro r e1 e2 e3 e4
      obtain ⟨i1, i2, i3, i4⟩ := ih r.1 (fun s hs => hp s (by simp [hs])) e2
      simp only [Res.andThen, e1]
      refine ⟨i1, i2, fun s => ?_, fun s => ?_⟩
      · rw [i3, e3, List.mem_cons, not_or, ne_eq, ea, and_assoc]
      · rw [i4, e4, List.mem_cons, not_or, ne_eq, ea, and_assoc]
    rw [each]
    by_cases h1 : v.has (.seg a.toNat) = true
    · rw [if_pos h1]
      refine step _ (by rw [remove_err, if_pos h1]) (hv.remove _ rfl) (fun s => ?_) (fun s => ?_)
      · rw [has_remove]; simp
      · rw [has_remove]
        refine ⟨fun h => ⟨h.1, ?_⟩, fun h => ⟨h.1, by simp⟩⟩
        rintro rfl
        exact hv.disj _ h1 h.1
    · rw [if_neg h1]
      by_cases h3 : v.has (.impl a.toNat) = true
      · rw [if_pos h3]
        refine step _ (by rw [remove_err, if_pos h3]) (hv.remove _ rfl) (fun s => ?_) (fun s => ?_)
        · rw [has_remove]
          refine ⟨fun h => ⟨h.1, ?_⟩, fun h => ⟨h.1, by simp⟩⟩
          rintro rfl
          exact h1 h.1
        · rw [has_remove]; simp
      · rw [if_neg h3]
        refine step _ rfl hv (fun s => ⟨fun h => ⟨h, ?_⟩, And.left⟩) (fun s => ⟨fun h => ⟨h, ?_⟩, And.left⟩)
        · rintro rfl; exact h1 h
        · rintro rfl; exact h3 h

theorem addSegs_spec {w : Wf} (l : List Int) (hl : g.inRange l = true) (hn : l.Nodup) (h1 : ∀ s ∈ l, ¬ w.has (.seg s.toNat) = true) (h3 : ∀ s ∈ l, ¬ w.has (.impl s.toNat) = true) :
    (g.addSegs l false w).2 = none ∧ (∀ s, (g.addSegs l false w).1.has (.seg s) = true ↔ w.has (.seg s) = true ∨ (s : Int) ∈ l) ∧
      ∀ n : Name, (∀ s, n ≠ .seg s) → ((g.addSegs l false w).1.has n = true ↔ w.has n = true) := by
  have h0 := Grid.inRange_iff.mp hl
  have hany : (!false && l.any fun s => w.has (.impl s.toNat)) = false := by
    simp only [Bool.not_false, Bool.true_and, List.any_eq_false]
    exact h3
  rw [Grid.addSegs, hl, if_neg (by simp), hany, if_neg (by simp)]
  suffices h : ∀ (l : List Int) (v : Wf), (∀ s ∈ l, 0 ≤ s) → l.Nodup → (∀ s ∈ l, ¬ v.has (.seg s.toNat) = true) → let r := each (fun (s : Int) => addConstraint (segConstraint false s.toNat)) l v
      r.2 = none ∧ (∀ s, r.1.has (.seg s) = true ↔ v.has (.seg s) = true ∨ (s : Int) ∈ l) ∧ ∀ n : Name, (∀ s, n ≠ .seg s) → (r.1.has n = true ↔ v.has n = true) from
    h l w (fun s hs => (h0 s hs).1) hn h1
  clear h0 hl h1 h3 hany hn w l
  intro l
  induction l with
  | nil => intro v _ _ _; exact ⟨rfl, by simp [each], by simp [each]⟩
  | cons a l ih =>
    intro v hp hn hv
    have ha := hp a (by simp)
    simp only [each]
    rw [Res.andThen, add_err, show v.has (segConstraint false a.toNat).name = false from Wf.has_eq.mpr (hv a (by simp))]
    simp only [Bool.false_eq_true, if_false]
    obtain ⟨i1, i2, i3⟩ := ih (addConstraint (segConstraint false a.toNat) v).1 (fun s hs => hp s (by simp [hs])) (List.nodup_cons.mp hn).2 (fun s hs => by
      rw [has_add]
      rintro (h | h)
      · exact hv s (by simp [hs]) h
      · simp only [segConstraint, Bool.false_eq_true, if_false] at h
        injection h with h
        have := hp s (by simp [hs])
        have e : s = a := by omega
        rw [e] at hs
        exact (List.nodup_cons.mp hn).1 hs)
    refine ⟨i1, fun s => ?_, fun n hn' => ?_⟩
    · rw [i2, has_add, List.mem_cons]
      simp only [segConstraint, Bool.false_eq_true, if_false, Name.seg.injEq]
      rw [or_assoc, show (s = a.toNat) ↔ ((s : Int) = a) by omega]
    · rw [i3 n hn', has_add]
      simp only [segConstraint, Bool.false_eq_true, if_false]
      exact ⟨fun h => h.elim id fun h => absurd h (hn' _), Or.inl⟩

/-- **C85.** For any wireframe a history of calls leads to, and any segments without repetition, `set_segments_constrained` succeeds; these segments are constrained explicitly from then on, and the other explicit constraints are as
before. -/
theorem C85_set_constrained (h2 : 2 ≤ g.N) (h1 : 1 ≤ g.h) {w : Wf} (hr : g.Reach w) (l : List Int) (hl : ∀ s ∈ l, 0 ≤ s ∧ s < g.nSeg) (hn : l.Nodup) :
    (g.exec (.setConstrained l) w).2 = none ∧ ∀ s, s ∈ (g.exec (.setConstrained l) w).1.explicit ↔ s ∈ w.explicit ∨ (s : Int) ∈ l := by
  have hi := hr.inv h2 h1
  have hi' := (Grid.Reach.step (.setConstrained l) hr).inv h2 h1
  obtain ⟨a1, a2, a3, a4⟩ := setFree_spec hi.1 l (Grid.inRange_iff.mpr hl)
  have e : g.exec (.setConstrained l) w = g.addSegs l false (g.setFree l w).1 := by
    simp only [Grid.exec, Grid.setConstrained, Res.andThen, a1]
  have hpos : ∀ s ∈ l, ((s.toNat : Nat) : Int) = s := fun s hs => by have := hl s hs; omega
  obtain ⟨b1, b2, -⟩ := addSegs_spec l (Grid.inRange_iff.mpr hl) hn (fun s hs h => by have := (a3 _).mp h; rw [hpos s hs] at this; exact this.2 hs)
    (fun s hs h => by have := (a4 _).mp h; rw [hpos s hs] at this; exact this.2 hs)
  refine ⟨by rw [e]; exact b1, fun s => ?_⟩
  rw [hi'.1.explicit, hi.1.explicit, e, b2, a3]
  tauto

/-- **C85.** `set_segments_free` succeeds and removes the explicit constraints of these segments, and no others. -/
theorem C85_set_free (h2 : 2 ≤ g.N) (h1 : 1 ≤ g.h) {w : Wf} (hr : g.Reach w) (l : List Int) (hl : ∀ s ∈ l, 0 ≤ s ∧ s < g.nSeg) :
    (g.exec (.setFree l) w).2 = none ∧ ∀ s, s ∈ (g.exec (.setFree l) w).1.explicit ↔ s ∈ w.explicit ∧ (s : Int) ∉ l := by
  have hi := hr.inv h2 h1
  obtain ⟨a1, a2, a3, -⟩ := setFree_spec hi.1 l (Grid.inRange_iff.mpr hl)
  exact ⟨a1, fun s => by rw [show g.exec (.setFree l) w = g.setFree l w from rfl, a2.explicit, hi.1.explicit, a3]⟩

/-- **C85.** `add_segment_constraints` succeeds for segments that are neither explicitly nor implicitly constrained. -/
theorem C85_add_partial (h2 : 2 ≤ g.N) (h1 : 1 ≤ g.h) {w : Wf} (hr : g.Reach w) (l : List Int) (hl : ∀ s ∈ l, 0 ≤ s ∧ s < g.nSeg) (hn : l.Nodup) (h3 : ∀ s ∈ l, s.toNat ∉ w.explicit) (h4 : ∀ s ∈ l, s.toNat ∉ w.implicit) :
    (g.exec (.addSegs l) w).2 = none ∧ ∀ s, s ∈ (g.exec (.addSegs l) w).1.explicit ↔ s ∈ w.explicit ∨ (s : Int) ∈ l := by
  have hi := hr.inv h2 h1
  have hi' := (Grid.Reach.step (.addSegs l) hr).inv h2 h1
  obtain ⟨b1, b2, -⟩ := addSegs_spec l (Grid.inRange_iff.mpr hl) hn (fun s hs h => h3 s hs ((hi.1.explicit _).mpr h)) (fun s hs h => h4 s hs ((hi.1.implicit _).mpr h))
  exact ⟨b1, fun s => by rw [hi'.1.explicit, hi.1.explicit]; exact b2 s⟩

/-- **C85.** `remove_segment_constraints` succeeds for explicitly constrained segments and removes their constraints, and no others. -/
theorem C85_remove (h2 : 2 ≤ g.N) (h1 : 1 ≤ g.h) {w : Wf} (hr : g.Reach w) (l : List Int) (hl : ∀ s ∈ l, 0 ≤ s ∧ s < g.nSeg) (hn : l.Nodup) (h3 : ∀ s ∈ l, s.toNat ∈ w.explicit) :
    (g.exec (.removeSegs l) w).2 = none ∧ ∀ s, s ∈ (g.exec (.removeSegs l) w).1.explicit ↔ s ∈ w.explicit ∧ (s : Int) ∉ l := by
  have hi := hr.inv h2 h1
  have hi' := (Grid.Reach.step (.removeSegs l) hr).inv h2 h1
  have e : g.exec (.removeSegs l) w = each (fun (s : Int) => removeConstraint (.seg s.toNat)) l w := by
    simp only [Grid.exec, Grid.removeSegs, Grid.inRange_iff.mpr hl, Bool.not_true, Bool.false_eq_true, if_false]
  suffices h : ∀ (l : List Int) (v : Wf), (∀ s ∈ l, 0 ≤ s) → l.Nodup → (∀ s ∈ l, v.has (.seg s.toNat) = true) → let r := each (fun (s : Int) => removeConstraint (.seg s.toNat)) l v
      r.2 = none ∧ ∀ s, r.1.has (.seg s) = true ↔ v.has (.seg s) = true ∧ (s : Int) ∉ l by
    obtain ⟨a1, a2⟩ := h l w (fun s hs => (hl s hs).1) hn (fun s hs => (hi.1.explicit _).mp (h3 s hs))
    exact ⟨by rw [e]; exact a1, fun s => by rw [hi'.1.explicit, hi.1.explicit, e]; exact a2 s⟩
  clear e hi' hi h3 hn hl hr l w
  intro l
  induction l with
  | nil => intro v _ _ _; exact ⟨rfl, by simp [each]⟩
  | cons a l ih =>
    intro v hp hn hv
    have ha := hp a (by simp)
    simp only [each]
    rw [Res.andThen, remove_err, if_pos (hv a (by simp))]
    obtain ⟨i1, i2⟩ := ih (removeConstraint (.seg a.toNat) v).1 (fun s hs => hp s (by simp [hs])) (List.nodup_cons.mp hn).2 (fun s hs => by
      rw [has_remove]
      refine ⟨hv s (by simp [hs]), fun h => ?_⟩
      injection h with h
      have := hp s (by simp [hs])
      have e : s = a := by omega
      rw [e] at hs
      exact (List.nodup_cons.mp hn).1 hs)
    refine ⟨i1, fun s => ?_⟩
    rw [i2, has_remove, List.mem_cons, not_or, and_assoc, ne_eq, Name.seg.injEq, show (s = a.toNat) ↔ ((s : Int) = a) by omega]

/-- **C85, violated.** "Remove implicit constraints on requested segments if they exist": for an implicitly constrained segment `add_segment_constraints` raises `AttributeError` instead. -/
theorem C85_add_implied_violated (h2 : 2 ≤ g.N) (h1 : 1 ≤ g.h) {w : Wf} (hr : g.Reach w) (s : Nat) (hs : s ∈ w.implicit) : g.exec (.addSegs [(s : Int)]) w = (w, some .attribute) := by
  have hi := hr.inv h2 h1
  have hh := (hi.1.implicit s).mp hs
  have hlt := hi.1.lt s (Or.inr hh)
  have hrg : g.inRange [(s : Int)] = true := by
    rw [Grid.inRange_iff]; intro t ht; rw [List.mem_singleton] at ht; subst ht; omega
  simp only [Grid.exec, Grid.addSegs, hrg, Bool.not_true, Bool.false_eq_true, if_false, Bool.not_false, Bool.true_and, List.any_cons, List.any_nil, Bool.or_false, Int.toNat_natCast, hh, if_true]

/-- **C85, violated.** "Ensures that one or more given segments are unconstrained": an implicitly constrained segment is constrained as before when `set_segments_free` has returned. -/
theorem C85_free_implied_violated (h2 : 2 ≤ g.N) (h1 : 1 ≤ g.h) {w : Wf} (hr : g.Reach w) (s : Nat) (hs : s < g.nSeg) (he : s ∉ w.explicit) (hf : s ∉ g.freeSegs (g.fresh w)) :
    (g.exec (.setFree [(s : Int)]) w).2 = none ∧ s ∉ g.freeSegs (g.fresh (g.exec (.setFree [(s : Int)]) w).1) := by
  obtain ⟨a1, a2⟩ := C85_set_free h2 h1 hr [(s : Int)] (fun t ht => by rw [List.mem_singleton] at ht; subst ht; omega)
  refine ⟨a1, fun h => hf ?_⟩
  have hr' := Grid.Reach.step (.setFree [(s : Int)]) hr
  obtain ⟨-, c2, -, -⟩ := C84_closure h2 h1 hr'
  obtain ⟨-, -, c3, -⟩ := C84_closure h2 h1 hr
  refine c3 _ ?_ s h
  intro dF
  obtain ⟨k1, k2⟩ := c2 dF
  refine ⟨fun t ht => ⟨(k1 t ht).1, fun hte => ?_⟩, k2⟩
  by_cases hts : t = s
  · rw [hts] at hte; exact he hte
  · exact (k1 t ht).2 ((a2 t).mpr ⟨hte, by simpa using hts⟩)

theorem freeAll_spec {w : Wf} (hb : g.Base w) : (freeAll w).2 = none ∧ g.Base (freeAll w).1 ∧ ∀ n : Name, (freeAll w).1.has n = true ↔ w.has n = true ∧ n.isSeg = false := by
  let I : List Name → Wf → Prop := fun l v => l.Nodup ∧ g.Base v ∧ (∀ n ∈ l, v.has n = true ∧ n.isSeg = true) ∧ (∀ n, n.isSeg = true → v.has n = true → n ∈ l) ∧ ∀ n, n.isSeg = false → (v.has n = true ↔ w.has n = true)
  have h0 : I ((w.cons.filter fun c => c.type.isSeg).map (·.name)) w := by
    refine ⟨hb.nodup.sublist (List.filter_sublist.map _), hb, ?_, ?_, fun _ _ => Iff.rfl⟩
    · intro n hn
      obtain ⟨c, hc, rfl⟩ := List.mem_map.mp hn
      rw [List.mem_filter] at hc
      exact ⟨Wf.has_iff.mpr ⟨c, hc.1, rfl⟩, by rw [← (hb.wf c hc.1).isSeg]; exact hc.2⟩
    · intro n hn hh
      obtain ⟨c, hc, rfl⟩ := Wf.has_iff.mp hh
      exact List.mem_map.mpr ⟨c, List.mem_filter.mpr ⟨hc, by rw [(hb.wf c hc).isSeg]; exact hn⟩, rfl⟩
  have hstep : ∀ n l v, I (n :: l) v → (removeConstraint n v).2 = none ∧ I l (removeConstraint n v).1 := by
    intro n l v hv
    obtain ⟨i1, i2, i3, i4, i5⟩ := hv
    obtain ⟨k1, k2⟩ := i3 n (by simp)
    refine ⟨by rw [remove_err, if_pos k1], (List.nodup_cons.mp i1).2, i2.remove _ (by cases n <;> simp_all [Name.isSeg, Name.isCont]), fun m hm => ?_, fun m hm hh => ?_, fun m hm => ?_⟩
    · have := i3 m (by simp [hm])
      refine ⟨(has_remove _ _ _).mpr ⟨this.1, ?_⟩, this.2⟩
      rintro rfl
      exact (List.nodup_cons.mp i1).1 hm
    · rw [has_remove] at hh
      rcases List.mem_cons.mp (i4 m hm hh.1) with h | h
      · exact absurd h hh.2
      · exact h
    · rw [has_remove, i5 m hm]
      refine ⟨And.left, fun h => ⟨h, ?_⟩⟩
      rintro rfl
      rw [hm] at k2; cases k2
  obtain ⟨r1, -, r2, -, r4, r5⟩ := each_ok (I := I) _ hstep w h0
  refine ⟨r1, r2, fun n => ?_⟩
  cases hn : n.isSeg with
  | false => simp only [and_true]; exact r5 n hn
  | true =>
    simp only [Bool.true_eq_false, and_false, iff_false]
    intro h
    have := r4 n hn h
    simp at this

/-- **C85.** `free_all_segments` frees all segments. -/
theorem C85_free_all (h2 : 2 ≤ g.N) (h1 : 1 ≤ g.h) {w : Wf} (hr : g.Reach w) :
    (g.exec .freeAll w).2 = none ∧ ∀ s < g.nSeg, s ∈ g.freeSegs (g.fresh (g.exec .freeAll w).1) := by
  obtain ⟨a1, a2, a3⟩ := freeAll_spec (hr.inv h2 h1).1
  refine ⟨a1, fun s hs => ?_⟩
  have hr' := Grid.Reach.step .freeAll hr
  refine (C84_closure h2 h1 hr').2.2.1 (fun s => s < g.nSeg) ?_ s hs
  intro dF
  refine ⟨fun s hs => ⟨hs, fun h => ?_⟩, fun i hi j hj => ?_⟩
  · have := (a3 (.seg s)).mp ((a2.explicit s).mp h)
    cases this.2
  · rw [Grid.degree, List.countP_eq_length.mpr]
    · simp [Grid.conn]
    · intro t ht
      have := Grid.conn_range h2 h1 hi hj (t := t) ht
      simp only [decide_eq_true_eq]
      omega

/-- **C85.** The calls that concern total currents or the user's own constraints, and the queries, do not change which segments are constrained. -/
theorem C85_others (h2 : 2 ≤ g.N) (h1 : 1 ≤ g.h) {w : Wf} (hr : g.Reach w) (op : Op)
    (hop : match op with | .addSegs _ | .removeSegs _ | .setConstrained _ | .setFree _ | .freeAll => False | _ => True) (s : Nat) : s ∈ (g.exec op w).1.explicit ↔ s ∈ w.explicit := by
  have hi := hr.inv h2 h1
  have hi' := (Grid.Reach.step op hr).inv h2 h1
  rw [hi'.1.explicit, hi.1.explicit]
  have ha : ∀ (c : Constraint) (v : Wf), c.name ≠ .seg s → ((addConstraint c v).1.has (.seg s) = true ↔ v.has (.seg s) = true) := fun c v hc => by
    rw [has_add]; exact ⟨fun h => h.elim id fun h => absurd h.symm hc, Or.inl⟩
  have hd : ∀ (n : Name) (v : Wf), n ≠ .seg s → ((removeConstraint n v).1.has (.seg s) = true ↔ v.has (.seg s) = true) := fun n v hn => by
    rw [has_remove]; exact ⟨And.left, fun h => ⟨h, hn.symm⟩⟩
  have hthen : ∀ (r : Res) (f : Wf → Res), (r.1.has (.seg s) = true ↔ w.has (.seg s) = true) → (∀ v, ((f v).1.has (.seg s) = true ↔ v.has (.seg s) = true)) → ((r.andThen f).1.has (.seg s) = true ↔ w.has (.seg s) = true) := by
    intro r f a b
    rw [Res.andThen]
    cases e : r.2 with
    | some _ => exact a
    | none => rw [← a]; exact b _
  cases op with
  | addPol c => exact ha _ _ (by simp)
  | setPol c =>
    refine hthen _ _ ?_ fun v => ha _ _ (by simp)
    split
    · exact hd _ _ (by simp)
    · exact Iff.rfl
  | removePol => exact hd _ _ (by simp)
  | addTor c => exact ha _ _ (by simp)
  | setTor c =>
    refine hthen _ _ ?_ fun v => ha _ _ (by simp)
    split
    · exact hd _ _ (by simp)
    · exact Iff.rfl
  | removeTor => exact hd _ _ (by simp)
  | addUser n r c => exact ha _ _ (by simp)
  | removeUser n => exact hd _ _ (by simp)
  | update => exact (Grid.update_spec h2 h1 hi.1).2.2.1.has (Grid.update_spec h2 h1 hi.1).2.1 hi.1 s
  | query => exact (hi.fresh h2 h1).2.2.has (hi.fresh h2 h1).1.1 hi.1 s
  | _ => exact absurd hop (by simp)

/-! ### A wireframe with implicit constraints -/

/-- In a wireframe with `n_phi = 4`, `n_theta = 6` three of the four segments at node `(1, 2)` are constrained. -/
noncomputable def demoW : Wf := (Grid.exec ⟨4, 3⟩ (.setConstrained [2, 28, 29]) (Grid.init ⟨4, 3⟩)).1

theorem demoW_reach : Grid.Reach ⟨4, 3⟩ demoW := Grid.Reach.step _ Grid.Reach.init

/-- The fourth one is constrained implicitly: so the hypotheses of the theorems above hold. -/
theorem demoW_implied : 8 ∉ demoW.explicit ∧ 8 ∉ Grid.freeSegs ⟨4, 3⟩ (Grid.fresh ⟨4, 3⟩ demoW) ∧ 8 ∈ (Grid.fresh ⟨4, 3⟩ demoW).implicit := by
  have hc : (Grid.conn ⟨4, 3⟩ (1, 2)) = [2, 28, 8, 29] := by decide
  have hinit : ∀ s, s ∉ (Grid.init ⟨4, 3⟩).explicit := by
    intro s hs
    simp only [Wf.explicit, init_spec.2, List.mem_map, List.mem_filter, decide_eq_true_eq] at hs
    obtain ⟨c, ⟨⟨v, -, rfl⟩, ht⟩, -⟩ := hs
    cases ht
  have hex := (C85_set_constrained (g := ⟨4, 3⟩) (by decide) (by decide) Grid.Reach.init [2, 28, 29] (by decide) (by decide)).2
  have h8 : 8 ∉ demoW.explicit := fun h => ((hex 8).mp h).elim (hinit 8) (by decide)
  obtain ⟨c1, c2, -, c4⟩ := C84_closure (g := ⟨4, 3⟩) (by decide) (by decide) demoW_reach
  have hf : 8 ∉ Grid.freeSegs ⟨4, 3⟩ (Grid.fresh ⟨4, 3⟩ demoW) := by
    intro hf
    obtain ⟨k1, k2⟩ := c2 inferInstance
    have hn : ∀ s : Nat, (s : Int) ∈ [(2 : Int), 28, 29] → s ∉ Grid.freeSegs ⟨4, 3⟩ (Grid.fresh ⟨4, 3⟩ demoW) := fun s hs h => (k1 s h).2 ((hex s).mpr (Or.inr hs))
    have := k2 1 (by decide) 2 (by decide)
    rw [Grid.degree, hc] at this
    apply this
    have e1 := hn 2 (by decide)
    have e2 := hn 28 (by decide)
    have e3 := hn 29 (by decide)
    simp [List.countP_cons, e1, e2, e3, hf]
  refine ⟨h8, hf, ?_⟩
  have := c4 8 (by decide)
  have h8' : 8 ∉ (Grid.fresh ⟨4, 3⟩ demoW).explicit := fun h => h8 ((c1 8).mp h)
  tauto

/-- Both violations occur. -/
example : (Grid.exec ⟨4, 3⟩ (.addSegs [8]) (Grid.fresh ⟨4, 3⟩ demoW)).2 = some .attribute ∧
    8 ∉ Grid.freeSegs ⟨4, 3⟩ (Grid.fresh ⟨4, 3⟩ (Grid.exec ⟨4, 3⟩ (.setFree [8]) demoW).1) := by
  refine ⟨?_, (C85_free_implied_violated (g := ⟨4, 3⟩) (by decide) (by decide) demoW_reach 8 (by decide) demoW_implied.1 demoW_implied.2.1).2⟩
  have := C85_add_implied_violated (g := ⟨4, 3⟩) (by decide) (by decide) (Grid.Reach.step .query demoW_reach) 8 demoW_implied.2.2
  exact congrArg Prod.snd this

end Simsopt.Wireframe
