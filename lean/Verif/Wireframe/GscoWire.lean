import Verif.Wireframe.GscoInv
/-!
# C87-C90: the greedy optimization of a wireframe
-/
namespace Simsopt.Wireframe

variable {g : Grid}

/-- The arguments of `gsco_wireframe` (src/simsopt/solve/wireframe_optimization.py L545-548).  `maxCurr = none` stands for `np.inf`; `x0`, `count0` are the initial currents and counts after the defaults were filled in (L626-637). -/
structure Opts where
  A : Nat → Int → ℝ
  b : Nat → ℝ
  nGrid : Nat
  lam : ℝ
  noCrossing : Bool
  matchCurrent : Bool
  dflt : ℝ
  maxCurr : Option ℝ
  nIter : Nat
  noNewCoils : Bool
  maxCount : Int
  x0 : Int → ℝ
  count0 : Nat → Int

/-- `gsco_wireframe` (L619-649): what is passed to `GSCO`. -/
noncomputable def Grid.gsco (g : Grid) (w : Wf) (o : Opts) : Gsco :=
  { noCrossing := o.noCrossing, noNewCoils := o.noNewCoils, matchCurrent := o.matchCurrent, nSeg := g.nSeg, nGrid := o.nGrid, nLoop := g.n * g.N, A := o.A, b := o.b,
    dflt := |o.dflt|, maxCurr := o.maxCurr.map fun m => |m|, maxCount := o.maxCount.natAbs, loops := fun k => g.cell (k / g.n) (k % g.n), free := fun k => g.freeCell w (k / g.n, k % g.n),
    segs := fun s => (g.segStart s.toNat, g.segEnd s.toNat), conns := fun v => g.conn (v / g.n, v % g.n), lam := o.lam, nIter := o.nIter, x0 := o.x0, count0 := o.count0 }

/-! ### The arguments fit together -/

theorem Grid.loop_index (h1 : 1 ≤ g.h) {k : Nat} (hk : k < g.n * g.N) : k / g.n < g.N ∧ k % g.n < g.n := by
  have hn : g.n = 2 * g.h := rfl
  exact ⟨by rw [Nat.div_lt_iff_lt_mul (by omega), Nat.mul_comm]; exact hk, Nat.mod_lt _ (by omega)⟩

theorem Grid.cell_valid (h2 : 2 ≤ g.N) (h1 : 1 ≤ g.h) (i j : Nat) (hi : i < g.N) (hj : j < g.n) :
    ((g.cell i j).segs.map (·.1)).Nodup ∧ ∀ s ∈ (g.cell i j).segs, 0 ≤ s.1 ∧ s.1 < (g.nSeg : Int) := by
  have hn : g.n = 2 * g.h := rfl
  have hsg : g.nSeg = g.nTor + g.nPol := rfl
  obtain ⟨c1, c3, ⟨a2, b2, c2, v2, e2, -⟩, ⟨a4, b4, c4, v4, e4, -⟩⟩ := Grid.cell_spec h2 h1 i j hi hj
  have hjm : (j + 1) % g.n < g.n := Nat.mod_lt _ (by omega)
  have n13 : g.torKey i j ≠ g.torKey i ((j + 1) % g.n) := by
    intro e
    have := ((Grid.torKey_inj hi hj hi hjm).mp e).2
    by_cases hc : j + 1 = g.n
    · rw [hc, Nat.mod_self] at this; omega
    · rw [Nat.mod_eq_of_lt (by omega)] at this; omega
  have n24 : g.polKey a2 b2 ≠ g.polKey a4 b4 := by
    intro e
    have := ((Grid.polKey_inj h2 h1 v2 v4).mp e).1
    omega
  constructor
  · simp only [Cell.segs, List.map_cons, List.map_nil, c1, c2, c3, c4, List.nodup_cons, List.mem_cons, List.not_mem_nil, or_false, not_or]
    refine ⟨⟨Grid.tor_ne_pol h2 h1 hi hj v2, n13, Grid.tor_ne_pol h2 h1 hi hj v4⟩, ⟨(Grid.tor_ne_pol h2 h1 hi hjm v2).symm, n24⟩, Grid.tor_ne_pol h2 h1 hi hjm v4, not_false, List.nodup_nil⟩
  · have r1 := Grid.torKey_lt hi hj
    have r3 := Grid.torKey_lt hi hjm
    have r2 := Grid.polNo_lt h2 h1 v2
    have r4 := Grid.polNo_lt h2 h1 v4
    rw [Grid.torKey_eq hi] at c1 c3
    rw [Grid.polKey_eq h2 h1 v2] at c2
    rw [Grid.polKey_eq h2 h1 v4] at c4
    intro s hs
    simp only [Cell.segs, List.mem_cons, List.not_mem_nil, or_false] at hs
    rcases hs with rfl | rfl | rfl | rfl
    · simp only [c1]; omega
    · simp only [c2]; omega
    · simp only [c3]; omega
    · simp only [c4]; omega

theorem Grid.gsco_valid (h2 : 2 ≤ g.N) (h1 : 1 ≤ g.h) (w : Wf) (o : Opts) : (g.gsco w o).Valid := by
  have hn : g.n = 2 * g.h := rfl
  refine ⟨Nat.mul_pos (by omega) (by omega), fun k hk => ?_, fun k hk => ?_, abs_nonneg _⟩
  · obtain ⟨hi, hj⟩ := Grid.loop_index h1 hk
    exact (Grid.cell_valid h2 h1 _ _ hi hj).2
  · obtain ⟨hi, hj⟩ := Grid.loop_index h1 hk
    exact (Grid.cell_valid h2 h1 _ _ hi hj).1

/-- What every allowed loop keeps, holds all along. -/
theorem Gsco.Inv.induct {p : Gsco} {s : GState} (hi : p.Inv s) (Q : (Int → ℝ) → (Nat → Int) → Prop) (h0 : Q p.x0 p.count0)
    (hs : ∀ x count k c, p.Allowed x count k c → Q x count → Q (addLoop c (p.loops k) x) (fun l => count l + if l = k then sgn c else 0)) (k : Nat) (hk : k < s.hist.length) : Q (p.xAt s.hist k) (p.countAt s.hist k) := by
  have e0 : ∀ r : Rec, s.hist.head? = some r → r.curr = 0 ∧ r.loop = 0 := by
    intro r hr
    have := hi.first
    rw [hr] at this
    simpa using this
  have take_eq : ∀ k (h : k < s.hist.length), s.hist.take (k + 1) = s.hist.take k ++ [s.hist[k]] := fun k h => List.take_succ_eq_append_getElem h
  induction k with
  | zero =>
    cases e : s.hist with
    | nil => exact absurd e hi.ne
    | cons r l =>
      obtain ⟨q1, q2⟩ := e0 r (by rw [e]; rfl)
      have a : p.xAt (r :: l) 0 = p.x0 := by
        show addLoop r.curr (p.loops r.loop) p.x0 = p.x0
        rw [q1, addLoop_zero]
      have b : p.countAt (r :: l) 0 = p.count0 := by
        funext m
        rw [Gsco.countAt, List.take_succ_cons, List.take_zero]
        by_cases e : r.loop = m
        · rw [List.filter_cons_of_pos (by simpa using e)]; simp [sgn, q1]
        · rw [List.filter_cons_of_neg (by simpa using e)]; simp
      rw [a, b]; exact h0
  | succ k ih =>
    have hp := ih (by omega)
    obtain ⟨ha, -⟩ := hi.steps k hk
    have hst := hs _ _ _ _ ha hp
    have a : p.xAt s.hist (k + 1) = addLoop s.hist[k + 1].curr (p.loops s.hist[k + 1].loop) (p.xAt s.hist k) := by
      rw [Gsco.xAt, take_eq (k + 1) hk, List.foldl_append]; rfl
    have b : p.countAt s.hist (k + 1) = fun l => p.countAt s.hist k l + if l = s.hist[k + 1].loop then sgn s.hist[k + 1].curr else 0 := by
      funext l
      rw [Gsco.countAt, take_eq (k + 1) hk, List.filter_append, List.map_append, List.sum_append, Gsco.countAt, add_assoc]
      congr 2
      by_cases e : s.hist[k + 1].loop = l
      · rw [if_pos e.symm, List.filter_cons_of_pos (by simpa using e)]; simp
      · rw [if_neg (fun h => e h.symm), List.filter_cons_of_neg (by simpa using e)]; simp
    rw [a, b]; exact hst

theorem Gsco.Inv.final {p : Gsco} {s : GState} (hi : p.Inv s) (Q : (Int → ℝ) → (Nat → Int) → Prop) (h0 : Q p.x0 p.count0)
    (hs : ∀ x count k c, p.Allowed x count k c → Q x count → Q (addLoop c (p.loops k) x) (fun l => count l + if l = k then sgn c else 0)) : Q s.x s.count := by
  have hpos : 0 < s.hist.length := List.length_pos_iff.mpr hi.ne
  have := hi.induct Q h0 hs (s.hist.length - 1) (by omega)
  rw [← hi.x, show p.countAt s.hist (s.hist.length - 1) = s.count from funext fun l => (hi.count l).symm] at this
  exact this

/-! ### C87: the history -/

/-- `get_gsco_iteration` adds the loops. -/
theorem getIteration_eq {p : Gsco} (hv : p.Valid) {s : GState} (hi : p.Inv s) (k : Nat) (hk : k < s.hist.length) : getIteration p.loops p.x0 s.hist k = p.xAt s.hist k := by
  have hl : ∀ r ∈ s.hist, r.loop < p.nLoop := by
    intro r hr
    obtain ⟨m, hm, rfl⟩ := List.mem_iff_getElem.mp hr
    cases m with
    | zero =>
      have := hi.first
      rw [List.head?_eq_getElem?, List.getElem?_eq_getElem hm] at this
      have h2 : s.hist[0].loop = 0 := by simp at this; exact this.2
      rw [h2]; exact hv.pos
    | succ m => exact (hi.steps m hm).1.loop
  rw [getIteration, Gsco.xAt]
  have hl' : ∀ r ∈ s.hist.take (k + 1), r.loop < p.nLoop := fun r hr => hl r (List.mem_of_mem_take hr)
  generalize p.x0 = x
  generalize s.hist.take (k + 1) = l at hl'
  induction l generalizing x with
  | nil => rfl
  | cons r l ih =>
    rw [List.foldl_cons, List.foldl_cons]
    have hr := hl' r (List.mem_cons_self)
    obtain ⟨a, b, d, e, f, h⟩ := Cell.nodup_iff (hv.nodup _ hr)
    have : (fun t => if t = (p.loops r.loop).tor3 ∨ t = (p.loops r.loop).pol4 then
        (if t = (p.loops r.loop).tor1 ∨ t = (p.loops r.loop).pol2 then x t + r.curr else x t) - r.curr else
        (if t = (p.loops r.loop).tor1 ∨ t = (p.loops r.loop).pol2 then x t + r.curr else x t)) = addLoop r.curr (p.loops r.loop) x := by
      funext t
      obtain ⟨a1, a2, a3, a4, a5⟩ := addLoop_vals (hv.nodup _ hr) r.curr x
      by_cases t1 : t = (p.loops r.loop).tor1
      · subst t1; rw [a1, if_neg (by simp [b, d]), if_pos (Or.inl rfl)]
      by_cases t2 : t = (p.loops r.loop).pol2
      · subst t2; rw [a2, if_neg (by simp [e, f]), if_pos (Or.inr rfl)]
      by_cases t3 : t = (p.loops r.loop).tor3
      · subst t3; rw [a3, if_pos (Or.inl rfl), if_neg (by simp [b.symm, e.symm])]
      by_cases t4 : t = (p.loops r.loop).pol4
      · subst t4; rw [a4, if_pos (Or.inr rfl), if_neg (by simp [d.symm, f.symm])]
      rw [a5 t t1 t2 t3 t4, if_neg (by simp [t3, t4]), if_neg (by simp [t1, t2])]
    simp only
    rw [this]
    exact ih _ fun r' h' => hl' r' (List.mem_cons_of_mem _ h')

/-- **C87.** The history that the optimization returns is true.  `get_gsco_iteration` reproduces from it the currents of every iteration, from the initial ones to those that are returned; the recorded objectives are those of these
currents; the returned loop counts are the initial ones plus one for each recorded positive loop and minus one for each negative one.  There is at most one entry per iteration, and one for the start. -/
theorem C87_history (h2 : 2 ≤ g.N) (h1 : 1 ≤ g.h) (w : Wf) (o : Opts) :
    let p := g.gsco w o
    let r := p.run
    let X := getIteration (fun k => g.cell (k / g.n) (k % g.n)) o.x0 r.hist
    0 < r.hist.length ∧ r.hist.length ≤ o.nIter + 1 ∧ X 0 = o.x0 ∧ X (r.hist.length - 1) = r.x ∧
    (∀ k (h : k < r.hist.length), r.hist[k].fB = p.fB (X k) ∧ r.hist[k].fS = p.fS (X k) ∧ r.hist[k].f = p.f (X k)) ∧
    ∀ l, r.count l = o.count0 l + ((r.hist.filter fun e => decide (e.loop = l)).map fun e => sgn e.curr).sum := by
  intro p r X
  have hv := Grid.gsco_valid h2 h1 w o
  obtain ⟨hi, hlen, -⟩ := Gsco.run_spec hv
  have hpos : 0 < r.hist.length := List.length_pos_iff.mpr hi.ne
  have hX : ∀ k, k < r.hist.length → X k = p.xAt r.hist k := fun k hk => getIteration_eq hv hi k hk
  refine ⟨hpos, hlen, ?_, ?_, fun k hk => ?_, fun l => ?_⟩
  · have := hi.induct (fun _ _ => True) trivial (fun _ _ _ _ _ _ => trivial) 0 hpos
    rw [hX 0 hpos, Gsco.xAt]
    cases e : r.hist with
    | nil => exact absurd e hi.ne
    | cons a l =>
      have hf := hi.first
      rw [show p.run.hist = a :: l from e] at hf
      have h0 : a.curr = 0 := by simp at hf; exact hf.1
      show addLoop a.curr (p.loops a.loop) p.x0 = o.x0
      rw [h0, addLoop_zero]; rfl
  · rw [hX _ (by omega)]; exact hi.x.symm
  · rw [hX k hk]; exact hi.good k hk
  · have := hi.count l
    rw [Gsco.countAt, List.take_of_length_le (by show p.run.hist.length ≤ p.run.hist.length - 1 + 1; omega)] at this
    exact this

/-! ### C88: the constraints -/

theorem Grid.apply_addLoop (h2 : 2 ≤ g.N) (h1 : 1 ≤ g.h) {i j : Nat} (hi : i < g.N) (hj : j < g.n) (c : ℝ) (x : Int → ℝ) (r : Row) :
    g.apply r (addLoop c (g.cell i j) x) = g.apply r x + g.apply r (addLoop c (g.cell i j) fun _ => 0) := by
  obtain ⟨hnd, hr⟩ := Grid.cell_valid h2 h1 i j hi hj
  have hr' : ∀ s ∈ (g.cell i j).segs.map (·.1), 0 ≤ s ∧ s < (g.nSeg : Int) := fun s hs => by
    obtain ⟨t, ht, rfl⟩ := List.mem_map.mp hs; exact hr t ht
  simp only [Grid.apply]
  rw [addLoop_sum g.nSeg hnd hr', addLoop_sum g.nSeg hnd hr' c (fun _ => 0)]
  simp

theorem Grid.zero_flow (g : Grid) : g.IsFlow (fun _ => 0) (fun _ _ => 0) (fun _ _ => 0) :=
  ⟨fun _ _ => ⟨rfl, rfl⟩, fun _ _ => ⟨rfl, rfl⟩, fun _ _ _ _ _ _ => ⟨rfl, rfl⟩, fun _ _ _ _ _ _ _ => ⟨rfl, rfl⟩⟩

theorem Grid.loop_continuous (h2 : 2 ≤ g.N) (h1 : 1 ≤ g.h) {i j : Nat} (hi : i < g.N) (hj : j < g.n) (c : ℝ) : g.Continuous (addLoop c (g.cell i j) fun _ => 0) :=
  C83_loop_continuous h2 h1 i j hi hj c fun a _ b _ _ => by simp [Grid.apply]

/-- A loop carries no net current around the torus or through its hole. -/
theorem Grid.loop_totals (h2 : 2 ≤ g.N) (h1 : 1 ≤ g.h) {i j : Nat} (hi : i < g.N) (hj : j < g.n) (c : ℝ) :
    g.apply g.polRow (addLoop c (g.cell i j) fun _ => 0) = 0 ∧ g.apply g.torRow (addLoop c (g.cell i j) fun _ => 0) = 0 := by
  obtain ⟨T, P, hf⟩ := (C83_unfold h2 h1 (addLoop c (g.cell i j) fun _ => 0)).1
  have hc := Grid.loop_continuous h2 h1 hi hj c
  have hl := C83_loop h2 h1 i j hi hj c g.zero_flow T P hf
  constructor
  · rw [C83_poloidal_current h2 h1 hf hc 0]
    simp only [(hl _ _).2, zero_add]
    rw [← Finset.mul_sum, Finset.sum_sub_distrib, sum_shift (fun I => g.images i j I 0) (2 * g.N) (fun I => by have := Grid.images_per (g := g) i j I 0 1 0; push_cast; simpa using this)]
    ring
  · rw [C83_toroidal_current h2 h1 hf hc 0]
    simp only [(hl _ _).1, zero_add]
    rw [← Finset.mul_sum, Finset.sum_sub_distrib, sum_shift (fun J => g.images i j 0 J) g.n (fun J => by have := Grid.images_per (g := g) i j 0 J 0 1; simpa using this)]
    ring

/-- **C88.** The optimization respects the constraints of the wireframe: the net current at every node, the total poloidal and toroidal currents and the currents in constrained segments, explicitly or implicitly, are the same before
and after. -/
theorem C88_constraints (h2 : 2 ≤ g.N) (h1 : 1 ≤ g.h) {w : Wf} (hr : g.Reach w) (o : Opts) :
    (∀ c ∈ w.cons, c.type ≠ .other → c.type ≠ .implicit → g.apply c.row (g.gsco w o).run.x = g.apply c.row o.x0) ∧
    ∀ s < g.nSeg, s ∉ g.freeSegs (g.fresh w) → (g.gsco w o).run.x s = o.x0 s := by
  have hv := Grid.gsco_valid h2 h1 w o
  obtain ⟨hi, -, -⟩ := Gsco.run_spec hv
  have hinv := hr.inv h2 h1
  -- the constrained segments
  have hfix : ∀ s < g.nSeg, s ∉ g.freeSegs (g.fresh w) → (g.gsco w o).run.x s = o.x0 s := by
    intro s hs hf
    refine hi.final (fun x _ => x s = o.x0 s) rfl fun x count k c ha hx => ?_
    obtain ⟨ka, kb⟩ := Grid.loop_index h1 ha.loop
    have hfree := (C84_free_cells h2 h1 w _ _ ka kb).mp ha.free
    show addLoop c (g.cell (k / g.n) (k % g.n)) x s = _
    rw [(addLoop_vals (Grid.cell_valid h2 h1 _ _ ka kb).1 c x).2.2.2.2 s]
    · exact hx
    · intro e; rw [← e] at hfree; exact hf hfree.1
    · intro e; rw [← e] at hfree; exact hf hfree.2.1
    · intro e; rw [← e] at hfree; exact hf hfree.2.2.1
    · intro e; rw [← e] at hfree; exact hf hfree.2.2.2
  have lin : ∀ r : Row, (∀ i < g.N, ∀ j < g.n, ∀ c : ℝ, g.apply r (addLoop c (g.cell i j) fun _ => 0) = 0) → g.apply r (g.gsco w o).run.x = g.apply r o.x0 := by
    intro r h
    refine hi.final (fun x _ => g.apply r x = g.apply r o.x0) rfl fun x count k c ha hx => ?_
    obtain ⟨ka, kb⟩ := Grid.loop_index h1 ha.loop
    show g.apply r (addLoop c (g.cell (k / g.n) (k % g.n)) x) = _
    rw [Grid.apply_addLoop h2 h1 ka kb, h _ ka _ kb, hx, add_zero]
  refine ⟨fun c hc ho him => ?_, hfix⟩
  have hwf := hinv.1.wf c hc
  unfold Grid.WellFormed at hwf
  cases e : c.name with
  | seg s =>
    rw [e] at hwf
    obtain ⟨-, hs, hrow, -⟩ := hwf
    have hx : s ∈ w.explicit := (hinv.1.explicit s).mpr (Wf.has_iff.mpr ⟨c, hc, e⟩)
    have hnf : s ∉ g.freeSegs (g.fresh w) := by
      have hcl := C84_closure h2 h1 hr
      intro hf
      rcases hcl.2.2.2 s hs with h | h | h
      · exact h.2.1 ((hcl.1 s).mpr hx)
      · exact h.1 hf
      · exact h.1 hf
    have key : ∀ y : Int → ℝ, g.apply c.row y = y s := by
      intro y
      rw [hrow]
      exact sum_ind g.nSeg s hs y
    rw [key, key, hfix s hs hnf]
  | impl s => rw [e] at hwf; exact absurd hwf.1 him
  | cont v =>
    rw [e] at hwf
    obtain ⟨-, i, j, a, b, d, -, hrow, -⟩ := hwf
    rw [hrow]
    exact lin _ fun i' hi' j' hj' c' => Grid.loop_continuous h2 h1 hi' hj' c' i a j b d
  | pol => rw [e] at hwf; rw [hwf.2]; exact lin _ fun i' hi' j' hj' c' => (Grid.loop_totals h2 h1 hi' hj' c').1
  | tor => rw [e] at hwf; rw [hwf.2]; exact lin _ fun i' hi' j' hj' c' => (Grid.loop_totals h2 h1 hi' hj' c').2
  | user n => rw [e] at hwf; exact absurd hwf ho

/-- **C88.** So a solution that starts with currents that meet the constraints meets them, unless there are constraints of the user's own. -/
theorem C88_meets (h2 : 2 ≤ g.N) (h1 : 1 ≤ g.h) {w : Wf} (hr : g.Reach w) (o : Opts) (hu : ∀ c ∈ w.cons, c.type ≠ .other) (hm : w.Meets g o.x0) : w.Meets g (g.gsco w o).run.x := by
  intro c hc ht
  rw [(C88_constraints h2 h1 hr o).1 c hc (hu c hc) ht]
  exact hm c hc ht

end Simsopt.Wireframe
