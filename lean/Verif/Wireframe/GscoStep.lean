import Verif.Wireframe.Gsco
import Mathlib.Algebra.BigOperators.Group.Finset.Piecewise
import Mathlib.Algebra.Order.Group.Abs
/-!
# One step of the greedy optimization
-/
namespace Simsopt.Wireframe

variable {p : Gsco}

theorem argmin_lt {α : Type} [LinearOrder α] (f : Nat → α) (m : Nat) (hm : 0 < m) : argmin f m < m := by
  induction m with
  | zero => omega
  | succ m ih =>
    rw [argmin]
    split
    · omega
    · rcases Nat.eq_zero_or_pos m with h | h
      · subst h; simp [argmin]
      · exact Nat.lt_succ_of_lt (ih h)

theorem argmin_le {α : Type} [LinearOrder α] (f : Nat → α) (m a : Nat) (ha : a < m) : f (argmin f m) ≤ f a := by
  induction m with
  | zero => omega
  | succ m ih =>
    rw [argmin]
    rcases Nat.lt_succ_iff_lt_or_eq.mp ha with h | h
    · split
      · rename_i hlt; exact hlt.le.trans (ih h)
      · exact ih h
    · subst h
      split
      · exact le_rfl
      · rename_i hlt; exact not_lt.mp hlt

theorem Gsco.active_iff (v : ℝ) : p.active v = true ↔ 0.001 * p.dflt < |v| := by
  unfold Gsco.active Gsco.tol
  exact decide_eq_true_iff

/-! ### The change of a loop -/

theorem Cell.nodup_iff {k : Cell} (h : (k.segs.map (·.1)).Nodup) : k.tor1 ≠ k.pol2 ∧ k.tor1 ≠ k.tor3 ∧ k.tor1 ≠ k.pol4 ∧ k.pol2 ≠ k.tor3 ∧ k.pol2 ≠ k.pol4 ∧ k.tor3 ≠ k.pol4 := by
  simp only [Cell.segs, List.map_cons, List.map_nil, List.nodup_cons, List.mem_cons, List.not_mem_nil, or_false, not_or] at h
  tauto

/-- The values of the new currents. -/
theorem addLoop_vals {k : Cell} (h : (k.segs.map (·.1)).Nodup) (c : ℝ) (x : Int → ℝ) :
    addLoop c k x k.tor1 = x k.tor1 + c ∧ addLoop c k x k.pol2 = x k.pol2 + c ∧ addLoop c k x k.tor3 = x k.tor3 - c ∧ addLoop c k x k.pol4 = x k.pol4 - c ∧
    ∀ s, s ≠ k.tor1 → s ≠ k.pol2 → s ≠ k.tor3 → s ≠ k.pol4 → addLoop c k x s = x s := by
  obtain ⟨a, b, d, e, f, g⟩ := Cell.nodup_iff h
  refine ⟨?_, ?_, ?_, ?_, ?_⟩
  · simp only [addLoop, if_neg a, if_neg b, if_neg d, if_true]
  · simp only [addLoop, if_neg a.symm, if_neg e, if_neg f, if_true]
  · simp only [addLoop, if_neg b.symm, if_neg e.symm, if_neg g, if_true]
  · simp only [addLoop, if_neg d.symm, if_neg f.symm, if_neg g.symm, if_true]
  · intro s h1 h2 h3 h4
    simp only [addLoop, if_neg h1, if_neg h2, if_neg h3, if_neg h4]

theorem addLoop_segs {k : Cell} (h : (k.segs.map (·.1)).Nodup) (c : ℝ) (x : Int → ℝ) {t : Int × ℝ} (ht : t ∈ k.segs) : addLoop c k x t.1 = x t.1 + t.2 * c := by
  obtain ⟨a1, a2, a3, a4, -⟩ := addLoop_vals h c x
  simp only [Cell.segs, List.mem_cons, List.not_mem_nil, or_false] at ht
  rcases ht with rfl | rfl | rfl | rfl
  · rw [a1]; ring
  · rw [a2]; ring
  · rw [a3]; ring
  · rw [a4]; ring

theorem addLoop_toAdd {k : Cell} (h : (k.segs.map (·.1)).Nodup) (c : ℝ) (x : Int → ℝ) (s : Int) : addLoop c k x s = x s + toAdd k c s := by
  rw [toAdd]
  cases e : k.segs.find? fun t => decide (s = t.1) with
  | some t =>
    have h1 : s = t.1 := by simpa using List.find?_some e
    simp only
    rw [h1]
    exact addLoop_segs h c x (List.mem_of_find?_eq_some e)
  | none =>
    simp only [add_zero]
    rw [List.find?_eq_none] at e
    refine (addLoop_vals h c x).2.2.2.2 s ?_ ?_ ?_ ?_
    · simpa using e (k.tor1, 1) (by simp [Cell.segs])
    · simpa using e (k.pol2, 1) (by simp [Cell.segs])
    · simpa using e (k.tor3, -1) (by simp [Cell.segs])
    · simpa using e (k.pol4, -1) (by simp [Cell.segs])

theorem addLoop_zero (k : Cell) (x : Int → ℝ) : addLoop 0 k x = x := by
  funext s
  simp [addLoop]

/-- Adding and taking away again. -/
theorem addLoop_undo {k : Cell} (h : (k.segs.map (·.1)).Nodup) (c : ℝ) (x : Int → ℝ) : addLoop (-c) k (addLoop c k x) = x := by
  funext s
  rw [addLoop_toAdd h, addLoop_toAdd h, toAdd, toAdd]
  cases k.segs.find? fun t => decide (s = t.1) with
  | some t => simp only; ring
  | none => simp

/-- Sums over the segments of which only those of a list change. -/
theorem sum_change (m : Nat) (l : List Int) (hl : l.Nodup) (hr : ∀ s ∈ l, 0 ≤ s ∧ s < (m : Int)) (G H : Int → ℝ) (hoff : ∀ s, s ∉ l → G s = H s) :
    ∑ s ∈ Finset.range m, G s = ∑ s ∈ Finset.range m, H s + (l.map fun s => G s - H s).sum := by
  have h1 : ∑ s ∈ Finset.range m, (G s - H s) = (l.map fun s => G s - H s).sum := by
    rw [← List.sum_toFinset _ hl]
    have him : ∑ t ∈ (Finset.range m).image (fun s : Nat => (s : Int)), (G t - H t) = ∑ s ∈ Finset.range m, (G (s : Int) - H (s : Int)) :=
      Finset.sum_image (f := fun t => G t - H t) (fun a _ b _ h => by simpa using h)
    rw [← him]
    symm
    refine Finset.sum_subset ?_ ?_
    · intro t ht
      have ht' := hr t (List.mem_toFinset.mp ht)
      rw [Finset.mem_image]
      exact ⟨t.toNat, Finset.mem_range.mpr (by omega), by omega⟩
    · intro t _ ht
      rw [hoff t (fun h => ht (List.mem_toFinset.mpr h)), sub_self]
  rw [← h1, Finset.sum_sub_distrib]; ring

theorem Gsco.Valid.range (hv : p.Valid) {k : Nat} (hk : k < p.nLoop) : ∀ s ∈ (p.loops k).segs.map (·.1), 0 ≤ s ∧ s < (p.nSeg : Int) := by
  intro s hs
  obtain ⟨t, ht, rfl⟩ := List.mem_map.mp hs
  exact hv.lt k hk t ht

theorem addLoop_off {k : Cell} (h : (k.segs.map (·.1)).Nodup) (c : ℝ) (x : Int → ℝ) (s : Int) (hs : s ∉ k.segs.map (·.1)) : addLoop c k x s = x s := by
  simp only [Cell.segs, List.map_cons, List.map_nil, List.mem_cons, List.not_mem_nil, or_false, not_or] at hs
  exact (addLoop_vals h c x).2.2.2.2 s hs.1 hs.2.1 hs.2.2.1 hs.2.2.2

/-- Linear functions of the currents. -/
theorem addLoop_sum (m : Nat) {k : Cell} (h : (k.segs.map (·.1)).Nodup) (hr : ∀ s ∈ k.segs.map (·.1), 0 ≤ s ∧ s < (m : Int)) (c : ℝ) (x : Int → ℝ) (r : Int → ℝ) :
    ∑ s ∈ Finset.range m, r s * addLoop c k x s = ∑ s ∈ Finset.range m, r s * x s + (r k.tor1 * c + r k.pol2 * c - r k.tor3 * c - r k.pol4 * c) := by
  rw [sum_change m (k.segs.map (·.1)) h hr (fun s => r s * addLoop c k x s) (fun s => r s * x s) (fun s hs => by simp only [addLoop_off h c x s hs])]
  congr 1
  obtain ⟨a1, a2, a3, a4, -⟩ := addLoop_vals h c x
  simp only [Cell.segs, List.map_cons, List.map_nil, List.sum_cons, List.sum_nil, a1, a2, a3, a4]
  ring

/-- The number of active segments, twice `f_S`. -/
theorem addLoop_count (hv : p.Valid) {k : Nat} (hk : k < p.nLoop) (c : ℝ) (x : Int → ℝ) :
    2 * p.fS (addLoop c (p.loops k) x) = 2 * p.fS x + ((p.loops k).segs.countP fun t => p.active (x t.1 + t.2 * c)) - ((p.loops k).segs.countP fun t => p.active (x t.1)) := by
  have e : ∀ y : Int → ℝ, 2 * p.fS y = ∑ s ∈ Finset.range p.nSeg, if p.active (y s) then (1 : ℝ) else 0 := by
    intro y
    rw [Gsco.fS, Finset.card_filter]
    push_cast
    rw [← mul_assoc, show (2 : ℝ) * (1 / 2) = 1 by norm_num, one_mul]
    refine Finset.sum_congr rfl fun s _ => ?_
    simp only [Gsco.active_iff]
  rw [e, e, sum_change p.nSeg ((p.loops k).segs.map (·.1)) (hv.nodup k hk) (hv.range hk) (fun s => if p.active (addLoop c (p.loops k) x s) then (1 : ℝ) else 0) (fun s => if p.active (x s) then (1 : ℝ) else 0)
    (fun s hs => by simp only [addLoop_off (hv.nodup k hk) c x s hs])]
  rw [add_sub_assoc]
  congr 1
  rw [List.map_map]
  have key : ∀ l : List (Int × ℝ), (∀ t ∈ l, addLoop c (p.loops k) x t.1 = x t.1 + t.2 * c) →
      (l.map ((fun s => (if p.active (addLoop c (p.loops k) x s) then (1 : ℝ) else 0) - (if p.active (x s) then (1 : ℝ) else 0)) ∘ (·.1))).sum =
        ((l.countP fun t => p.active (x t.1 + t.2 * c) : Nat) : ℝ) - ((l.countP fun t => p.active (x t.1) : Nat) : ℝ) := by
    intro l
    induction l with
    | nil => intro _; simp
    | cons t l ih =>
      intro hl
      rw [List.map_cons, List.sum_cons, ih (fun u hu => hl u (List.mem_cons_of_mem _ hu)), List.countP_cons, List.countP_cons]
      simp only [Function.comp, hl t List.mem_cons_self]
      push_cast
      split <;> split <;> ring
  exact key _ fun t ht => addLoop_segs (hv.nodup k hk) c x ht

/-! ### Which loops are eligible -/

theorem common_iff (l : List ℝ) (a r : ℝ) (ha : 0 ≤ a) : common l a = some r ↔ (∀ v ∈ l, v = 0 ∨ |v| = r) ∧ (a = 0 ∨ a = r) ∧ ((∀ v ∈ l, v = 0) → r = a) := by
  induction l generalizing a with
  | nil =>
    simp only [common, Option.some.injEq]
    exact ⟨fun h => ⟨fun v hv => absurd hv List.not_mem_nil, Or.inr h, fun _ => h.symm⟩, fun h => (h.2.2 fun v hv => absurd hv List.not_mem_nil).symm⟩
  | cons v l ih =>
    rw [common]
    by_cases hv : 0 < |v|
    · have hv0 : v ≠ 0 := abs_pos.mp hv
      rw [if_pos hv]
      by_cases hm : a ≠ 0 ∧ a ≠ |v|
      · rw [if_pos hm]
        refine ⟨fun h => absurd h (by simp), fun ⟨h1, h2, _⟩ => ?_⟩
        have := (h1 v List.mem_cons_self).resolve_left hv0
        rcases h2 with h | h
        · exact absurd h hm.1
        · exact absurd (h.trans this.symm) hm.2
      · rw [if_neg hm, ih _ (abs_nonneg v)]
        constructor
        · rintro ⟨h1, h2, h3⟩
          have hr : |v| = r := h2.resolve_left (ne_of_gt hv)
          refine ⟨fun u hu => ?_, ?_, fun h => absurd (h v List.mem_cons_self) hv0⟩
          · rcases List.mem_cons.mp hu with rfl | hu
            · exact Or.inr hr
            · exact h1 u hu
          · by_cases h0 : a = 0
            · exact Or.inl h0
            · refine Or.inr ?_
              by_contra hne
              exact hm ⟨h0, fun e => hne (e.trans hr)⟩
        · rintro ⟨h1, h2, -⟩
          have hr := (h1 v List.mem_cons_self).resolve_left hv0
          exact ⟨fun u hu => h1 u (List.mem_cons_of_mem _ hu), Or.inr hr, fun _ => hr.symm⟩
    · have hv0 : v = 0 := by
        by_contra h; exact hv (abs_pos.mpr h)
      rw [if_neg hv, ih _ ha]
      refine and_congr ⟨fun h u hu => ?_, fun h u hu => h u (List.mem_cons_of_mem _ hu)⟩ (and_congr_right fun _ => ⟨fun h h' => h fun u hu => h' u (List.mem_cons_of_mem _ hu), fun h h' => h fun u hu => ?_⟩)
      · rcases List.mem_cons.mp hu with rfl | hu
        · exact Or.inl hv0
        · exact h u hu
      · rcases List.mem_cons.mp hu with rfl | hu
        · exact hv0
        · exact h' u hu

theorem sgn_sign (i : Nat) (c : ℝ) (hc : 0 < c) : sgn (p.sign i * c) = p.isign i ∧ |p.sign i * c| = c := by
  rw [Gsco.sign, Gsco.isign]
  split
  · rw [one_mul, sgn, if_pos hc, abs_of_pos hc]; exact ⟨rfl, rfl⟩
  · rw [neg_one_mul, sgn, if_neg (by linarith), if_pos (by linarith), abs_neg, abs_of_pos hc]; exact ⟨rfl, rfl⟩

/-- The proposed current is not zero: its size and its sign. -/
theorem loopCurr_spec (hv : p.Valid) (x : Int → ℝ) (i : Nat) (c : ℝ) (hc : c ≠ 0) :
    p.loopCurr x i = some c ↔ sgn c = p.isign i ∧ (p.matchCurrent = false → |c| = p.dflt) ∧
      (p.matchCurrent = true → (∀ s ∈ (p.loops (i % p.nLoop)).segs, x s.1 = 0 ∨ |x s.1| = |c|) ∧ ((∀ s ∈ (p.loops (i % p.nLoop)).segs, x s.1 = 0) → |c| = p.dflt)) := by
  have back : sgn c = p.isign i → c = p.sign i * |c| := by
    intro h
    rw [Gsco.isign] at h
    rw [Gsco.sign]
    rcases lt_or_gt_of_ne hc with h0 | h0
    · rw [sgn, if_neg (by linarith), if_pos h0] at h
      by_cases hi : i < p.nLoop
      · rw [if_pos hi] at h; omega
      · rw [if_neg hi, abs_of_neg h0]; ring
    · rw [sgn, if_pos h0] at h
      by_cases hi : i < p.nLoop
      · rw [if_pos hi, abs_of_pos h0]; ring
      · rw [if_neg hi] at h; omega
  have pos : ∀ d : ℝ, 0 ≤ d → c = p.sign i * d → 0 < d := fun d hd e => lt_of_le_of_ne hd fun h => hc (by rw [e, ← h, mul_zero])
  rw [Gsco.loopCurr]
  rcases Bool.eq_false_or_eq_true p.matchCurrent with hm | hm
  · rw [if_pos hm]
    have hmem : ∀ q : ℝ → Prop, (∀ v ∈ (p.loops (i % p.nLoop)).segs.map (fun s => x s.1), q v) ↔ ∀ s ∈ (p.loops (i % p.nLoop)).segs, q (x s.1) := fun q => List.forall_mem_map
    constructor
    · cases e : common ((p.loops (i % p.nLoop)).segs.map fun s => x s.1) 0 with
      | none => intro h; cases h
      | some r =>
        simp only [Option.some.injEq]
        intro h
        obtain ⟨h1, -, h3⟩ := (common_iff _ _ _ le_rfl).mp e
        rw [hmem (fun v : ℝ => v = 0 ∨ |v| = r)] at h1
        rw [hmem (fun v : ℝ => v = 0)] at h3
        by_cases hr : r ≠ 0
        · rw [if_pos hr] at h
          have hr0 : 0 ≤ r := by
            by_contra hneg
            exact hr (h3 fun s hs => (h1 s hs).resolve_right fun e => hneg (e ▸ abs_nonneg _))
          obtain ⟨s1, s2⟩ := sgn_sign (p := p) i r (pos r hr0 h.symm)
          rw [← h, s2]
          exact ⟨s1, fun h => absurd (hm.symm.trans h) (by decide), fun _ => ⟨h1, fun h => absurd (h3 h) hr⟩⟩
        · rw [if_neg hr] at h
          obtain ⟨s1, s2⟩ := sgn_sign (p := p) i p.dflt (pos _ hv.dflt h.symm)
          rw [← h, s2]
          push Not at hr
          exact ⟨s1, fun h => absurd (hm.symm.trans h) (by decide), fun _ => ⟨fun s hs => Or.inl ((h1 s hs).elim id fun e => by rw [hr] at e; exact abs_eq_zero.mp e), fun _ => rfl⟩⟩
    · rintro ⟨h1, -, h3⟩
      obtain ⟨h3, h4⟩ := h3 hm
      by_cases hz : ∀ s ∈ (p.loops (i % p.nLoop)).segs, x s.1 = 0
      · rw [(common_iff _ _ 0 le_rfl).mpr ⟨fun v hv => ?_, Or.inl rfl, fun _ => rfl⟩]
        · simp only [ne_eq, not_true_eq_false, if_false, Option.some.injEq]
          rw [← h4 hz]; exact (back h1).symm
        · obtain ⟨s, hs, rfl⟩ := List.mem_map.mp hv
          exact Or.inl (hz s hs)
      · rw [(common_iff _ _ |c| le_rfl).mpr ⟨fun v hv => ?_, Or.inl rfl, fun h => absurd ((hmem _).mp h) hz⟩]
        · simp only [ne_eq, abs_eq_zero, hc, not_false_eq_true, if_true, Option.some.injEq]
          exact (back h1).symm
        · obtain ⟨s, hs, rfl⟩ := List.mem_map.mp hv
          exact h3 s hs
  · rw [if_neg (by rw [hm]; decide), Option.some.injEq]
    constructor
    · intro h
      obtain ⟨s1, s2⟩ := sgn_sign (p := p) i p.dflt (pos _ hv.dflt h.symm)
      rw [← h, s2]
      exact ⟨s1, fun _ => rfl, fun h => absurd (hm.symm.trans h) (by decide)⟩
    · rintro ⟨h1, h2, -⟩
      rw [← h2 hm]; exact (back h1).symm

/-- The sign of the current tells the two copies of the loops apart. -/
theorem Gsco.elig_iff (hv : p.Valid) (x : Int → ℝ) (count : Nat → Int) (i : Nat) (c : ℝ) (hc : c ≠ 0) :
    p.elig x count i = c ↔ p.Allowed x count (i % p.nLoop) c ∧ sgn c = p.isign i := by
  have hk : i % p.nLoop < p.nLoop := Nat.mod_lt _ hv.pos
  have hnd := hv.nodup _ hk
  have limit : ∀ c : ℝ, p.tooLarge x (p.loops (i % p.nLoop)) c = false ↔
      ∀ m, p.maxCurr = some m → ∀ s ∈ (p.loops (i % p.nLoop)).segs, |addLoop c (p.loops (i % p.nLoop)) x s.1| ≤ m := by
    intro c
    rw [Gsco.tooLarge]
    cases hm : p.maxCurr with
    | none => simp
    | some m =>
      simp only [List.any_eq_false, decide_eq_true_eq, not_lt, Option.some.injEq]
      constructor
      · rintro h m rfl s hs
        rw [addLoop_segs hnd c x hs]; exact h s hs
      · intro h s hs
        rw [← addLoop_segs hnd c x hs]; exact h m rfl s hs
  have cross : ∀ c : ℝ, p.crossing x (p.loops (i % p.nLoop)) c = false ↔ ∀ t, t = (p.loops (i % p.nLoop)).tor1 ∨ t = (p.loops (i % p.nLoop)).tor3 → ∀ v, v = (p.segs t).1 ∨ v = (p.segs t).2 →
      (open Classical in (p.conns v).countP fun s => decide (0.001 * p.dflt < |addLoop c (p.loops (i % p.nLoop)) x s|)) ≤ 2 := by
    intro c
    rw [Gsco.crossing, List.any_eq_false]
    simp only [List.mem_cons, List.not_mem_nil, or_false, decide_eq_true_eq, not_lt, Gsco.active, Gsco.tol, ← addLoop_toAdd hnd c x]
    constructor
    · rintro h t (rfl | rfl) v (rfl | rfl)
      · exact h _ (Or.inl rfl)
      · exact h _ (Or.inr (Or.inl rfl))
      · exact h _ (Or.inr (Or.inr (Or.inl rfl)))
      · exact h _ (Or.inr (Or.inr (Or.inr rfl)))
    · rintro h v (rfl | rfl | rfl | rfl)
      · exact h _ (Or.inl rfl) _ (Or.inl rfl)
      · exact h _ (Or.inl rfl) _ (Or.inr rfl)
      · exact h _ (Or.inr rfl) _ (Or.inl rfl)
      · exact h _ (Or.inr rfl) _ (Or.inr rfl)
  have new : (p.noNewCoils && (p.loops (i % p.nLoop)).segs.all (fun s => !p.active (x s.1))) = false ↔ (p.noNewCoils = true → ∃ s ∈ (p.loops (i % p.nLoop)).segs, 0.001 * p.dflt < |x s.1|) := by
    rw [Bool.and_eq_false_iff, List.all_eq_false]
    simp only [Bool.not_eq_true', Bool.not_eq_false, Gsco.active_iff]
    rcases Bool.eq_false_or_eq_true p.noNewCoils with h | h
    · rw [h]; simp only [Bool.true_eq_false, false_or, forall_const]
    · rw [h]; simp
  constructor
  · intro h
    rw [Gsco.elig] at h
    by_cases h1 : (!p.free (i % p.nLoop)) = true
    · rw [if_pos h1] at h; exact absurd h.symm hc
    rw [if_neg h1] at h
    by_cases h2 : 0 < p.maxCount ∧ (p.maxCount : Int) < |count (i % p.nLoop) + p.isign i|
    · rw [if_pos h2] at h; exact absurd h.symm hc
    rw [if_neg h2] at h
    by_cases h3 : (p.noNewCoils && (p.loops (i % p.nLoop)).segs.all (fun s => !p.active (x s.1))) = true
    · rw [if_pos h3] at h; exact absurd h.symm hc
    rw [if_neg h3] at h
    cases e : p.loopCurr x i with
    | none => rw [e] at h; exact absurd h.symm hc
    | some d =>
      rw [e] at h
      simp only at h
      by_cases h4 : p.tooLarge x (p.loops (i % p.nLoop)) d = true
      · rw [if_pos h4] at h; exact absurd h.symm hc
      rw [if_neg h4] at h
      by_cases h5 : (p.noCrossing && p.crossing x (p.loops (i % p.nLoop)) d) = true
      · rw [if_pos h5] at h; exact absurd h.symm hc
      rw [if_neg h5] at h
      subst h
      obtain ⟨s1, s2, s3⟩ := (loopCurr_spec hv x i d hc).mp e
      refine ⟨⟨hk, hc, by simpa using h1, fun hm => ?_, new.mp (by simpa using h3), s2, s3, (limit d).mp (by simpa using h4), fun hcr => (cross d).mp ?_⟩, s1⟩
      · rw [s1]
        by_contra hlt
        exact h2 ⟨by omega, by omega⟩
      · rw [hcr] at h5; simpa using h5
  · rintro ⟨ha, hs⟩
    rw [Gsco.elig, if_neg (by rw [ha.free]; decide), if_neg (fun h => by have := ha.count (by omega); rw [hs] at this; omega), if_neg (by rw [new.mpr ha.old]; decide),
      (loopCurr_spec hv x i c hc).mpr ⟨hs, ha.size, ha.matching⟩]
    simp only
    rw [if_neg (by rw [(limit c).mpr ha.limit]; decide), if_neg]
    rcases Bool.eq_false_or_eq_true p.noCrossing with h | h
    · rw [(cross c).mpr (ha.crossing h)]; simp
    · rw [h]; simp

end Simsopt.Wireframe
