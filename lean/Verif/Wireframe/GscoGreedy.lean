import Verif.Wireframe.GscoProps
import Verif.Wireframe.Witness
/-!
# C90: greedy steps and the end of the optimization
-/
namespace Simsopt.Wireframe

variable {g : Grid}

/-- **C90.** In every iteration the optimization adds a loop that it is allowed to add, and none of the allowed ones would have led to a smaller objective. -/
theorem C90_greedy (h2 : 2 ≤ g.N) (h1 : 1 ≤ g.h) (w : Wf) (o : Opts) (k : Nat) (hk : k + 1 < (g.gsco w o).run.hist.length) :
    let p := g.gsco w o
    let e := p.run.hist[k + 1]
    let X := getIteration (fun k => g.cell (k / g.n) (k % g.n)) o.x0 p.run.hist
    p.Allowed (X k) (p.countAt p.run.hist k) e.loop e.curr ∧ X (k + 1) = addLoop e.curr (g.cell (e.loop / g.n) (e.loop % g.n)) (X k) ∧
    ∀ k' c', p.Allowed (X k) (p.countAt p.run.hist k) k' c' → p.f (X (k + 1)) ≤ p.f (addLoop c' (g.cell (k' / g.n) (k' % g.n)) (X k)) := by
  intro p e X
  have hv := Grid.gsco_valid h2 h1 w o
  obtain ⟨hi, -, -⟩ := Gsco.run_spec hv
  have hX : ∀ k, k < p.run.hist.length → X k = p.xAt p.run.hist k := fun k hk => getIteration_eq hv hi k hk
  obtain ⟨ha, hb⟩ := hi.steps k hk
  rw [hX k (by show k < (g.gsco w o).run.hist.length; omega), hX (k + 1) hk]
  refine ⟨ha, ?_, hb⟩
  have : p.run.hist.take (k + 1 + 1) = p.run.hist.take (k + 1) ++ [p.run.hist[k + 1]] := List.take_succ_eq_append_getElem hk
  rw [Gsco.xAt, this, List.foldl_append]; rfl

/-- **C90.** If it stops before the last iteration, and currents need not match, then no allowed loop improves the solution. -/
theorem C90_stop_partial (h2 : 2 ≤ g.N) (h1 : 1 ≤ g.h) (w : Wf) (o : Opts) (hm : o.matchCurrent = false) (hs : (g.gsco w o).run.hist.length < o.nIter + 1) (k : Nat) (c : ℝ)
    (ha : (g.gsco w o).Allowed (g.gsco w o).run.x (g.gsco w o).run.count k c) : (g.gsco w o).f (g.gsco w o).run.x ≤ (g.gsco w o).f (addLoop c (g.cell (k / g.n) (k % g.n)) (g.gsco w o).run.x) := by
  obtain ⟨-, -, h | h | h⟩ := Gsco.run_spec (Grid.gsco_valid h2 h1 w o)
  · exact absurd h (by show ¬ _ = o.nIter + 1; omega)
  · exact absurd (hm.symm.trans h) (by decide)
  · exact h k c ha

/-! ### One iteration more than enough -/

theorem argmin_unique {α : Type} [LinearOrder α] (f : Nat → α) (m j : Nat) (hj : j < m) (h : ∀ a < m, a ≠ j → f j < f a) : argmin f m = j := by
  by_contra hne
  exact absurd (argmin_le f m j hj) (not_le.mpr (h _ (argmin_lt f m (by omega)) hne))

/-- The first iteration, if there is anything to add. -/
theorem Gsco.iter_zero {p : Gsco} (s : GState) (h : ∃ a < 2 * p.nLoop, p.elig s.x s.count a ≠ 0) :
    p.iter 0 s = (p.place (s.setPrev (argmin (p.vals s) (2 * p.nLoop))) (argmin (p.vals s) (2 * p.nLoop)), decide (0 + 1 = p.nIter)) := by
  simp only [Gsco.iter]
  rw [if_neg (not_not.mpr h), if_neg (by simp)]

/-- **C90, violated.** "Greedy optimization" does not mean that the solution is at least as good as what one starts from: with one iteration, from currents that every allowed loop makes worse, the result is worse. -/
theorem C90_worse_violated (h2 : 2 ≤ g.N) (h1 : 1 ≤ g.h) (w : Wf) (o : Opts) (hn : o.nIter = 1) (hex : ∃ k c, (g.gsco w o).Allowed o.x0 o.count0 k c)
    (hmin : ∀ k c, (g.gsco w o).Allowed o.x0 o.count0 k c → (g.gsco w o).f o.x0 < (g.gsco w o).f (addLoop c (g.cell (k / g.n) (k % g.n)) o.x0)) : (g.gsco w o).f o.x0 < (g.gsco w o).f (g.gsco w o).run.x := by
  set p := g.gsco w o
  have hv : p.Valid := Grid.gsco_valid h2 h1 w o
  obtain ⟨k, c, ha⟩ := hex
  obtain ⟨a, ha2, -, hea⟩ := Gsco.allowed_elig hv ha
  have hex' : ∃ a < 2 * p.nLoop, p.elig p.start.x p.start.count a ≠ 0 := ⟨a, ha2, by show p.elig o.x0 o.count0 a ≠ 0; rw [hea]; exact ha.ne⟩
  have hit := Gsco.iter_zero p.start hex'
  have hn' : p.nIter = 1 := hn
  have hrun : p.run = (p.iter 0 p.start).1 := by
    rw [Gsco.run, hn', Gsco.loop, hit, hn']; simp
  obtain ⟨hi, -, -⟩ := Gsco.run_spec hv
  have hlen : p.run.hist.length = 2 := by
    rw [hrun, hit]; rfl
  obtain ⟨hal, -⟩ := hi.steps 0 (by omega)
  have e0 : p.run.hist.take 1 = [p.run.hist[0]] := by
    rw [List.take_succ_eq_append_getElem (by omega)]; simp
  have hf := hi.first
  rw [List.head?_eq_getElem?, List.getElem?_eq_getElem (by omega)] at hf
  have h0 : p.run.hist[0].curr = 0 := by simp at hf; exact hf.1
  have hx0 : p.xAt p.run.hist 0 = o.x0 := by
    rw [Gsco.xAt, e0]
    show addLoop p.run.hist[0].curr _ o.x0 = _
    rw [h0, addLoop_zero]
  have hc0 : p.countAt p.run.hist 0 = o.count0 := by
    funext l
    rw [Gsco.countAt, e0]
    by_cases e : p.run.hist[0].loop = l
    · rw [List.filter_cons_of_pos (by simpa using e)]; simp [sgn, h0]; rfl
    · rw [List.filter_cons_of_neg (by simpa using e)]; simp; rfl
  have hx : p.run.x = addLoop p.run.hist[0 + 1].curr (p.loops p.run.hist[0 + 1].loop) o.x0 := by
    have hx1 : p.run.x = p.xAt p.run.hist (0 + 1) := by
      have h := hi.x
      rw [hlen] at h
      exact h
    rw [hx1, ← hx0]
    have : p.run.hist.take (0 + 1 + 1) = p.run.hist.take (0 + 1) ++ [p.run.hist[0 + 1]] := List.take_succ_eq_append_getElem (by omega)
    rw [Gsco.xAt, this, List.foldl_append]; rfl
  rw [hx0, hc0] at hal
  rw [hx]
  exact hmin _ _ hal

/-! ### The last loop is undone -/

/-- One test point, which sees the first segment of cell `(0, 0)` only; all cells but the first have their full number of loops. -/
def tug (b : ℝ) (n : Nat) : Opts :=
  { A := fun _ s => if s = 0 then 1 else 0, b := fun _ => b, nGrid := 1, lam := 0, noCrossing := false, matchCurrent := false, dflt := 1, maxCurr := none, nIter := n, noNewCoils := false, maxCount := 1, x0 := fun _ => 0,
    count0 := fun l => if l = 0 then 0 else 3 }

theorem Grid.all_free (h2 : 2 ≤ g.N) (h1 : 1 ≤ g.h) {w : Wf} (hr : g.Reach w) (he : ∀ s, s ∉ w.explicit) (s : Nat) (hs : s < g.nSeg) : s ∈ g.freeSegs (g.fresh w) := by
  refine (C84_closure h2 h1 hr).2.2.1 (fun s => s < g.nSeg) ?_ s hs
  intro dF
  refine ⟨fun s hs => ⟨hs, he s⟩, fun i hi j hj => ?_⟩
  rw [Grid.degree, List.countP_eq_length.mpr]
  · simp [Grid.conn]
  · intro t ht
    have := Grid.conn_range h2 h1 hi hj (t := t) ht
    simp only [decide_eq_true_eq]
    omega

theorem Grid.all_cells_free (h2 : 2 ≤ g.N) (h1 : 1 ≤ g.h) {w : Wf} (hr : g.Reach w) (he : ∀ s, s ∉ w.explicit) (i j : Nat) (hi : i < g.N) (hj : j < g.n) : g.freeCell w (i, j) = true := by
  rw [C84_free_cells h2 h1 w i j hi hj]
  have hc := (Grid.cell_valid h2 h1 i j hi hj).2
  simp only [Cell.segs, List.mem_cons, List.not_mem_nil, or_false] at hc
  have a1 := hc _ (Or.inl rfl)
  have a2 := hc _ (Or.inr (Or.inl rfl))
  have a3 := hc _ (Or.inr (Or.inr (Or.inl rfl)))
  have a4 := hc _ (Or.inr (Or.inr (Or.inr rfl)))
  simp only at a1 a2 a3 a4
  exact ⟨Grid.all_free h2 h1 hr he _ (by omega), Grid.all_free h2 h1 hr he _ (by omega), Grid.all_free h2 h1 hr he _ (by omega), Grid.all_free h2 h1 hr he _ (by omega)⟩

theorem Grid.cell_zero (h2 : 2 ≤ g.N) (h1 : 1 ≤ g.h) : (g.cell 0 0).tor1 = 0 := by
  have hn : g.n = 2 * g.h := rfl
  rw [(Grid.cell_spec h2 h1 0 0 (by omega) (by omega)).1, Grid.torKey_eq (by omega)]; simp

/-- The objective is that of the current in segment `0`. -/
theorem tug_f (h2 : 2 ≤ g.N) (h1 : 1 ≤ g.h) (w : Wf) (b : ℝ) (n : Nat) (x : Int → ℝ) : (g.gsco w (tug b n)).f x = 1 / 2 * (x 0 - b) ^ 2 := by
  have hpos : 0 < g.nSeg := by
    have : 0 < g.n * g.N := Nat.mul_pos (by show 0 < 2 * g.h; omega) (by omega)
    show 0 < g.n * g.N + g.n * g.N
    omega
  have e : ∑ s ∈ Finset.range g.nSeg, (if (s : Int) = 0 then (1 : ℝ) else 0) * x s = x 0 := by
    have := sum_ind g.nSeg 0 hpos x
    simpa using this
  show 1 / 2 * (∑ m ∈ Finset.range 1, (∑ s ∈ Finset.range g.nSeg, (if (s : Int) = 0 then (1 : ℝ) else 0) * x s - b) ^ 2) + 0 * _ = _
  rw [e]; simp

/-- Only the first cell may be changed. -/
theorem tug_allowed (h2 : 2 ≤ g.N) (h1 : 1 ≤ g.h) {w : Wf} (hr : g.Reach w) (he : ∀ s, s ∉ w.explicit) (b : ℝ) (n : Nat) (x : Int → ℝ) (count : Nat → Int) (hc : ∀ l, l ≠ 0 → count l = 3) (k : Nat) (c : ℝ) :
    (g.gsco w (tug b n)).Allowed x count k c ↔ k = 0 ∧ (c = 1 ∨ c = -1) ∧ |count 0 + sgn c| ≤ 1 := by
  have hn : g.n = 2 * g.h := rfl
  constructor
  · intro ha
    have hcnt := ha.count (by show (1 : Int).natAbs ≠ 0; decide)
    have hsz := ha.size rfl
    have hsz' : |c| = 1 := by
      have : |c| = |(1 : ℝ)| := hsz
      rw [this]; norm_num
    have hc1 : c = 1 ∨ c = -1 := by
      rcases abs_cases c with h | h
      · left; linarith
      · right; linarith
    have hcnt' : |count k + sgn c| ≤ 1 := hcnt
    have hk : k = 0 := by
      by_contra hk
      rw [hc k hk] at hcnt'
      rcases hc1 with rfl | rfl
      · rw [sgn, if_pos (by norm_num)] at hcnt'; norm_num at hcnt'
      · rw [sgn, if_neg (by norm_num), if_pos (by norm_num)] at hcnt'; norm_num at hcnt'
    subst hk
    exact ⟨rfl, hc1, hcnt'⟩
  · rintro ⟨rfl, hc1, hcnt⟩
    refine ⟨Nat.mul_pos (by omega) (by omega), ?_, ?_, fun _ => hcnt, fun h => (by cases h), fun _ => ?_, fun h => (by cases h), fun m h => (by cases h), fun h => (by cases h)⟩
    · rcases hc1 with rfl | rfl <;> norm_num
    · exact Grid.all_cells_free h2 h1 hr he (0 / g.n) (0 % g.n) (by rw [Nat.zero_div]; omega) (Nat.mod_lt _ (by omega))
    · show |c| = |(1 : ℝ)|
      rcases hc1 with rfl | rfl <;> norm_num

/-- After a positive loop an iteration goes on if there is anything to add, whatever it does to the objective (L266: `%` binds more tightly than `+`). -/
theorem Gsco.iter_positive {p : Gsco} (hv : p.Valid) {i : Nat} {s : GState} (ha : p.At i s) (h0 : 0 < i) (hc : 0 < (s.hist[i]'(by rw [ha.len]; omega)).curr) (h : ∃ a < 2 * p.nLoop, p.elig s.x s.count a ≠ 0) :
    p.iter i s = (p.place (s.setPrev (argmin (p.vals s) (2 * p.nLoop))) (argmin (p.vals s) (2 * p.nLoop)), decide (i + 1 = p.nIter)) := by
  simp only [Gsco.iter]
  rw [if_neg (not_not.mpr h), if_neg]
  rintro ⟨-, h3⟩
  have hpos := hv.pos
  obtain ⟨q1, -, q3⟩ := ha.prev h0
  rw [Nat.mod_eq_of_lt (by omega)] at h3
  rw [sgn, if_pos hc, Gsco.isign, if_neg (by omega)] at q3
  exact absurd q3 (by decide)

theorem Grid.init_explicit (h2 : 2 ≤ g.N) (h1 : 1 ≤ g.h) (s : Nat) : s ∉ g.init.explicit := by
  have hi := (Grid.Reach.init (g := g)).inv h2 h1
  rw [hi.1.explicit, Wf.has_iff, init_spec.2]
  rintro ⟨c, hc, hn⟩
  obtain ⟨v, -, rfl⟩ := List.mem_map.mp hc
  cases hn

/-- **C90, violated.** The optimization is meant to stop when it is about to undo its last step, and to refuse the step if it makes things worse.  After a positive loop it does neither: here the first iteration reaches a strict local minimum
of the objective, the second one undoes it, and the result is worse than the intermediate one. -/
theorem C90_undo_violated (h2 : 2 ≤ g.N) (h1 : 1 ≤ g.h) :
    let p := g.gsco g.init (tug 0.6 2)
    let X := getIteration (fun k => g.cell (k / g.n) (k % g.n)) (fun _ => 0) p.run.hist
    p.run.hist.length = 3 ∧ p.f (X 1) < p.f (X 0) ∧ p.run.x = X 0 ∧ p.f (X 1) < p.f p.run.x ∧
    ∀ k c, p.Allowed (X 1) (p.countAt p.run.hist 1) k c → p.f (X 1) < p.f (addLoop c (g.cell (k / g.n) (k % g.n)) (X 1)) := by
  intro p X
  have hn : g.n = 2 * g.h := rfl
  have hv : p.Valid := Grid.gsco_valid h2 h1 _ _
  have hr := Grid.Reach.init (g := g)
  have hex := Grid.init_explicit (g := g) h2 h1
  have hal := fun x count hc k c => tug_allowed h2 h1 hr hex 0.6 2 x count hc k c
  have hff := fun x => tug_f h2 h1 g.init 0.6 2 x
  have hs1 : sgn (1 : ℝ) = 1 := by rw [sgn, if_pos (by norm_num)]
  have hs2 : sgn (-1 : ℝ) = -1 := by rw [sgn, if_neg (by norm_num), if_pos (by norm_num)]
  have hnd := (Grid.cell_valid h2 h1 0 0 (by omega) (by omega)).1
  have hz := Grid.cell_zero (g := g) h2 h1
  have hval : ∀ (c : ℝ) (x : Int → ℝ), addLoop c (g.cell (0 / g.n) (0 % g.n)) x 0 = x 0 + c := by
    intro c x
    rw [Nat.zero_div, Nat.zero_mod]
    have := (addLoop_vals hnd c x).1
    rw [hz] at this; exact this
  -- the counts of the other cells never change
  have hcnt : ∀ s, p.Inv s → ∀ k < s.hist.length, ∀ l, l ≠ 0 → p.countAt s.hist k l = 3 := by
    intro s hi k hk
    refine hi.induct (fun _ count => ∀ l, l ≠ 0 → count l = 3) (fun l hl => ?_) (fun x count k c ha hc l hl => ?_) k hk
    · show (if l = 0 then (0 : Int) else 3) = 3
      rw [if_neg hl]
    · obtain ⟨rfl, -, -⟩ := (hal x count hc k c).mp ha
      simp only [if_neg hl, add_zero]; exact hc l hl
  have a0 : p.At 0 p.start := ⟨Gsco.inv_start hv, rfl, fun h => absurd h (Nat.lt_irrefl 0)⟩
  have some0 : ∃ a < 2 * p.nLoop, p.elig p.start.x p.start.count a ≠ 0 := by
    obtain ⟨a, h3, -, h4⟩ := Gsco.allowed_elig hv ((hal (fun _ => 0) (tug 0.6 2).count0 (fun l hl => if_neg hl) 0 1).mpr ⟨rfl, Or.inl rfl, by rw [hs1]; show |(0 : Int) + 1| ≤ 1; decide⟩)
    exact ⟨a, h3, by show p.elig (fun _ => 0) (tug 0.6 2).count0 a ≠ 0; rw [h4]; norm_num⟩
  have hit0 := Gsco.iter_zero p.start some0
  have hN : p.nIter = 2 := rfl
  have nl0 : (p.iter 0 p.start).2 = false := by rw [hit0, hN]; rfl
  have a1 := (Gsco.iter_spec hv a0 (by rw [hN]; omega)).1 nl0
  set s1 := (p.iter 0 p.start).1 with hs1def
  have hlen1 : s1.hist.length = 2 := a1.len
  -- the first entry
  have xstart : ∀ s, p.Inv s → p.xAt s.hist 0 = (fun _ => 0) ∧ p.countAt s.hist 0 = (tug 0.6 2).count0 := by
    intro s hi
    have hp : 0 < s.hist.length := List.length_pos_iff.mpr hi.ne
    have e0 : s.hist.take 1 = [s.hist[0]] := by rw [List.take_succ_eq_append_getElem hp]; simp
    have hf := hi.first
    rw [List.head?_eq_getElem?, List.getElem?_eq_getElem hp] at hf
    have h0 : s.hist[0].curr = 0 := by simp at hf; exact hf.1
    constructor
    · rw [Gsco.xAt, e0]
      show addLoop s.hist[0].curr _ _ = _
      rw [h0, addLoop_zero]; rfl
    · funext l
      rw [Gsco.countAt, e0]
      by_cases e : s.hist[0].loop = l
      · rw [List.filter_cons_of_pos (by simpa using e)]; simp [sgn, h0]; rfl
      · rw [List.filter_cons_of_neg (by simpa using e)]; simp; rfl
  have stepX : ∀ (s : GState) k (hk : k + 1 < s.hist.length), p.xAt s.hist (k + 1) = addLoop s.hist[k + 1].curr (p.loops s.hist[k + 1].loop) (p.xAt s.hist k) := by
    intro s k hk
    have : s.hist.take (k + 1 + 1) = s.hist.take (k + 1) ++ [s.hist[k + 1]] := List.take_succ_eq_append_getElem hk
    rw [Gsco.xAt, this, List.foldl_append]; rfl
  have stepC : ∀ (s : GState) k (hk : k + 1 < s.hist.length) l, p.countAt s.hist (k + 1) l = p.countAt s.hist k l + if l = s.hist[k + 1].loop then sgn s.hist[k + 1].curr else 0 := by
    intro s k hk l
    have : s.hist.take (k + 1 + 1) = s.hist.take (k + 1) ++ [s.hist[k + 1]] := List.take_succ_eq_append_getElem hk
    rw [Gsco.countAt, this, List.filter_append, List.map_append, List.sum_append, Gsco.countAt, add_assoc]
    congr 2
    by_cases e : s.hist[k + 1].loop = l
    · rw [if_pos e.symm, List.filter_cons_of_pos (by simpa using e)]; simp
    · rw [if_neg (fun h => e h.symm), List.filter_cons_of_neg (by simpa using e)]; simp
  have first : ∀ s, p.Inv s → ∀ h : 0 + 1 < s.hist.length, s.hist[0 + 1].loop = 0 ∧ s.hist[0 + 1].curr = 1 := by
    intro s hi h
    obtain ⟨q1, q2⟩ := hi.steps 0 h
    obtain ⟨e1, e2⟩ := xstart s hi
    rw [stepX s 0 h, e1, e2] at q2
    rw [e1, e2] at q1
    obtain ⟨k0, kc, -⟩ := (hal _ _ (fun l hl => if_neg hl) _ _).mp q1
    refine ⟨k0, ?_⟩
    rcases kc with kc | kc
    · exact kc
    · have := q2 0 1 ((hal _ _ (fun l hl => if_neg hl) 0 1).mpr ⟨rfl, Or.inl rfl, by rw [hs1]; show |(0 : Int) + 1| ≤ 1; decide⟩)
      rw [k0, kc] at this
      have h3 : p.f (addLoop (-1) (g.cell (0 / g.n) (0 % g.n)) fun _ => 0) ≤ p.f (addLoop 1 (g.cell (0 / g.n) (0 % g.n)) fun _ => 0) := this
      rw [hff, hff, hval, hval] at h3
      norm_num at h3
  obtain ⟨f1, f2⟩ := first s1 a1.inv (by rw [hlen1]; omega)
  -- the state after the first iteration
  have allowed1 : ∀ s, p.Inv s → ∀ h : 0 + 1 < s.hist.length, ∀ k c, p.Allowed (p.xAt s.hist 1) (p.countAt s.hist 1) k c ↔ k = 0 ∧ c = -1 := by
    intro s hi h k c
    obtain ⟨f1, f2⟩ := first s hi h
    have c1 : p.countAt s.hist 1 0 = 1 := by
      rw [stepC s 0 h, (xstart s hi).2, f1, f2, hs1, if_pos rfl]; rfl
    rw [hal _ _ (hcnt s hi 1 h), c1]
    constructor
    · rintro ⟨rfl, rfl | rfl, h3⟩
      · rw [hs1] at h3; norm_num at h3
      · exact ⟨rfl, rfl⟩
    · rintro ⟨rfl, rfl⟩
      exact ⟨rfl, Or.inr rfl, by rw [hs2]; decide⟩
  have hs1x : s1.x = p.xAt s1.hist 1 := by
    have h := a1.inv.x
    rw [hlen1] at h; exact h
  have hs1c : s1.count = p.countAt s1.hist 1 := by
    funext l
    have h := a1.inv.count l
    rw [hlen1] at h; exact h
  have some1 : ∃ a < 2 * p.nLoop, p.elig s1.x s1.count a ≠ 0 := by
    obtain ⟨a, h3, -, h4⟩ := Gsco.allowed_elig hv ((allowed1 s1 a1.inv (by rw [hlen1]; omega) 0 (-1)).mpr ⟨rfl, rfl⟩)
    refine ⟨a, h3, ?_⟩
    rw [hs1x, hs1c, h4]; norm_num
  have hit1 := Gsco.iter_positive hv a1 (by omega) (by simp only [Nat.zero_add] at f2 ⊢; rw [f2]; norm_num) some1
  have hrun : p.run = (p.iter 1 s1).1 := by
    rw [Gsco.run, hN, Gsco.loop, nl0, if_neg (by decide), Gsco.loop, hit1, hN]
    simp
  have hlen : p.run.hist.length = 3 := by
    rw [hrun, hit1]
    show (s1.hist ++ [_]).length = 3
    rw [List.length_append, hlen1]; rfl
  obtain ⟨hi, -, -⟩ := Gsco.run_spec hv
  have hX : ∀ k, k < p.run.hist.length → X k = p.xAt p.run.hist k := fun k hk => getIteration_eq hv hi k hk
  have hX0 := hX 0 (by omega)
  have hX1 := hX 1 (by omega)
  have hX2 := hX 2 (by omega)
  rw [(xstart _ hi).1] at hX0
  obtain ⟨g1, g2⟩ := first _ hi (by omega)
  obtain ⟨st2, -⟩ := hi.steps 1 (by omega)
  obtain ⟨g3, g4⟩ := (allowed1 _ hi (by omega) _ _).mp st2
  have e1 : X 1 = addLoop 1 (g.cell (0 / g.n) (0 % g.n)) fun _ => 0 := by
    rw [hX1, stepX _ 0 (by omega), g1, g2, (xstart _ hi).1]; rfl
  have e2 : p.run.x = fun _ => 0 := by
    have h := hi.x
    rw [hlen] at h
    rw [h]
    show p.xAt p.run.hist (1 + 1) = _
    rw [stepX _ 1 (by omega), g3, g4, ← hX1, e1]
    show addLoop (-1) (g.cell (0 / g.n) (0 % g.n)) (addLoop 1 (g.cell (0 / g.n) (0 % g.n)) fun _ => 0) = _
    rw [Nat.zero_div, Nat.zero_mod]
    exact addLoop_undo hnd 1 _
  refine ⟨hlen, ?_, by rw [hX0]; exact e2, ?_, fun k c ha => ?_⟩
  · rw [hX0, e1, hff, hff, hval]; norm_num
  · rw [e2, e1, hff, hff, hval]; norm_num
  · rw [hX1] at ha
    obtain ⟨rfl, rfl⟩ := (allowed1 _ hi (by omega) k c).mp ha
    rw [hff, hff, hval, e1, hval]; norm_num

/-- **C88, violated.** "The optimizer will obey the constraints set in wframe": a constraint of the user's own is not obeyed.  Here the current in segment `0` is to be zero; it is one ampere after the optimization. -/
theorem C88_user_violated (h2 : 2 ≤ g.N) (h1 : 1 ≤ g.h) :
    let w := (g.exec (.addUser "no current" (unitRow 0) 0) g.init).1
    g.Reach w ∧ (∃ c ∈ w.cons, c.row = unitRow 0 ∧ c.const = 0) ∧ w.Meets g (tug 1 1).x0 ∧ (g.gsco w (tug 1 1)).run.x 0 = 1 ∧ ¬ w.Meets g (g.gsco w (tug 1 1)).run.x := by
  intro w
  have hn : g.n = 2 * g.h := rfl
  have hr : g.Reach w := Grid.Reach.step _ Grid.Reach.init
  have hcons : w.cons = g.init.cons ++ [⟨.user "no current", .other, unitRow 0, 0⟩] := by
    show (addConstraint _ g.init).1.cons = _
    rw [addConstraint, if_neg]
    rw [Wf.has_iff, init_spec.2]
    rintro ⟨c, hc, hn⟩
    obtain ⟨v, -, rfl⟩ := List.mem_map.mp hc
    cases hn
  have hex : ∀ s, s ∉ w.explicit := by
    intro s
    have hi := hr.inv h2 h1
    rw [hi.1.explicit, Wf.has_iff, hcons, init_spec.2]
    rintro ⟨c, hc, hn⟩
    rw [List.mem_append] at hc
    rcases hc with hc | hc
    · obtain ⟨v, -, rfl⟩ := List.mem_map.mp hc
      cases hn
    · rw [List.mem_singleton] at hc; subst hc; cases hn
  have hpos : 0 < g.nSeg := by
    have : 0 < g.n * g.N := Nat.mul_pos (by omega) (by omega)
    show 0 < g.n * g.N + g.n * g.N
    omega
  have hmem : (⟨.user "no current", .other, unitRow 0, 0⟩ : Constraint) ∈ w.cons := by rw [hcons]; simp
  have happ : ∀ y : Int → ℝ, g.apply (unitRow 0) y = y 0 := fun y => by
    have := sum_ind g.nSeg 0 hpos y
    simpa [Grid.apply, unitRow] using this
  set p := g.gsco w (tug 1 1) with hp
  have hv : p.Valid := Grid.gsco_valid h2 h1 _ _
  have hal := fun x count hc k c => tug_allowed h2 h1 hr hex 1 1 x count hc k c
  have hff := fun x => tug_f h2 h1 w 1 1 x
  have hs1 : sgn (1 : ℝ) = 1 := by rw [sgn, if_pos (by norm_num)]
  have hnd := (Grid.cell_valid h2 h1 0 0 (by omega) (by omega)).1
  have hz := Grid.cell_zero (g := g) h2 h1
  have hval : ∀ (c : ℝ) (x : Int → ℝ), addLoop c (g.cell (0 / g.n) (0 % g.n)) x 0 = x 0 + c := by
    intro c x
    rw [Nat.zero_div, Nat.zero_mod]
    have := (addLoop_vals hnd c x).1
    rw [hz] at this; exact this
  have one : p.Allowed (fun _ => 0) (tug 1 1).count0 0 1 := (hal (fun _ => 0) (tug 1 1).count0 (fun l hl => if_neg hl) 0 1).mpr ⟨rfl, Or.inl rfl, by rw [hs1]; show |(0 : Int) + 1| ≤ 1; decide⟩
  have some0 : ∃ a < 2 * p.nLoop, p.elig p.start.x p.start.count a ≠ 0 := by
    obtain ⟨a, h3, -, h4⟩ := Gsco.allowed_elig hv one
    exact ⟨a, h3, by show p.elig (fun _ => 0) (tug 1 1).count0 a ≠ 0; rw [h4]; norm_num⟩
  have hit := Gsco.iter_zero p.start some0
  have hN : p.nIter = 1 := rfl
  have hrun : p.run = (p.iter 0 p.start).1 := by rw [Gsco.run, hN, Gsco.loop, hit, hN]; simp
  obtain ⟨hi, -, -⟩ := Gsco.run_spec hv
  have hlen : p.run.hist.length = 2 := by rw [hrun, hit]; rfl
  have hh : p.run.hist.take 1 = p.start.hist := by rw [hrun, hit]; rfl
  have q0 : p.xAt p.run.hist 0 = fun _ => 0 := by
    rw [Gsco.xAt, hh]
    show addLoop 0 _ _ = _
    rw [addLoop_zero]; rfl
  have q0c : p.countAt p.run.hist 0 = (tug 1 1).count0 := by
    funext l
    rw [Gsco.countAt, hh]
    show _ + ((List.filter _ [(⟨0, 0, _, _, _⟩ : Rec)]).map _).sum = _
    by_cases e : 0 = l
    · rw [List.filter_cons_of_pos (by simpa using e)]; simp [sgn]; rfl
    · rw [List.filter_cons_of_neg (by simpa using e)]; simp; rfl
  obtain ⟨s1, s2⟩ := hi.steps 0 (by omega)
  have q1 : p.xAt p.run.hist (0 + 1) = addLoop p.run.hist[0 + 1].curr (p.loops p.run.hist[0 + 1].loop) (p.xAt p.run.hist 0) := by
    have : p.run.hist.take (0 + 1 + 1) = p.run.hist.take (0 + 1) ++ [p.run.hist[0 + 1]] := List.take_succ_eq_append_getElem (by omega)
    rw [Gsco.xAt, this, List.foldl_append]; rfl
  have hx : p.run.x = p.xAt p.run.hist (0 + 1) := by
    have h := hi.x
    rw [hlen] at h; exact h
  rw [q0, q0c] at s1 s2
  obtain ⟨k0, kc, -⟩ := (hal _ _ (fun l hl => if_neg hl) _ _).mp s1
  have best := s2 0 1 one
  rw [q1, q0, k0] at best
  have hfin : p.run.x 0 = 1 := by
    rw [hx, q1, q0, k0]
    show addLoop _ (g.cell (0 / g.n) (0 % g.n)) _ 0 = 1
    rw [hval, zero_add]
    rcases kc with kc | kc
    · exact kc
    · rw [kc] at best
      have h3 : p.f (addLoop (-1) (g.cell (0 / g.n) (0 % g.n)) fun _ => 0) ≤ p.f (addLoop 1 (g.cell (0 / g.n) (0 % g.n)) fun _ => 0) := best
      rw [hff, hff, hval, hval] at h3
      norm_num at h3
  refine ⟨hr, ⟨_, hmem, rfl, rfl⟩, fun c hc _ => ?_, hfin, fun hm => ?_⟩
  · have hz : g.apply c.row (fun _ => 0) = 0 := by simp [Grid.apply]
    show g.apply c.row (fun _ => 0) = c.const
    rw [hz]
    rw [hcons, init_spec.2, List.mem_append] at hc
    rcases hc with hc | hc
    · obtain ⟨v, -, rfl⟩ := List.mem_map.mp hc; rfl
    · rw [List.mem_singleton] at hc; subst hc; rfl
  · have := hm _ hmem (by decide)
    rw [happ, hfin] at this
    norm_num at this

/-! ### The hypotheses are met -/

/-- Starting from no current with no field wanted, every allowed loop makes things worse, and there are allowed loops: one iteration spoils the solution. -/
example : (demo.gsco demo.init (tug 0 1)).f (fun _ => 0) < (demo.gsco demo.init (tug 0 1)).f (demo.gsco demo.init (tug 0 1)).run.x := by
  have h2 : 2 ≤ demo.N := by decide
  have h1 : 1 ≤ demo.h := by decide
  have hs1 : sgn (1 : ℝ) = 1 := by rw [sgn, if_pos (by norm_num)]
  have hal := fun k c => tug_allowed h2 h1 Grid.Reach.init (Grid.init_explicit h2 h1) 0 1 (tug 0 1).x0 (tug 0 1).count0 (fun l hl => if_neg hl) k c
  refine C90_worse_violated h2 h1 _ _ rfl ⟨0, 1, (hal 0 1).mpr ⟨rfl, Or.inl rfl, by rw [hs1]; decide⟩⟩ fun k c ha => ?_
  obtain ⟨rfl, hc, -⟩ := (hal k c).mp ha
  rw [tug_f h2 h1, tug_f h2 h1]
  have h3 := (addLoop_vals (Grid.cell_valid h2 h1 0 0 (by decide) (by decide)).1 c (tug 0 1).x0).1
  rw [Grid.cell_zero h2 h1] at h3
  rw [Nat.zero_div, Nat.zero_mod, h3]
  show 1 / 2 * ((0 : ℝ) - 0) ^ 2 < 1 / 2 * ((0 : ℝ) + c - 0) ^ 2
  rcases hc with rfl | rfl <;> norm_num

/-- The runs of the other theorems need not be trivial: this one has two iterations. -/
example : ∃ k, k + 1 < (demo.gsco demo.init (tug 0.6 2)).run.hist.length := ⟨1, by rw [(C90_undo_violated (g := demo) (by decide) (by decide)).1]; decide⟩

/-- Currents that do not cross. -/
example : NoCrossing 0.001 (fun _ _ => 0) (fun I _ => if I = 0 then 1 else 0) := by
  intro I J
  simp only [List.countP_cons, List.countP_nil]
  have : ¬ (0.001 : ℝ) < |0| := by norm_num
  simp only [this, decide_false, Bool.false_eq_true, if_false]
  split_ifs <;> omega

end Simsopt.Wireframe
