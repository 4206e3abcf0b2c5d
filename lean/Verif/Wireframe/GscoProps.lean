import Verif.Wireframe.GscoWire
/-!
# C89: the limits of the greedy optimization
-/
namespace Simsopt.Wireframe

variable {g : Grid}

/-- **C89.** No segment carries more than the maximum current, unless it did at the start and was left alone. -/
theorem C89_max_current (h2 : 2 ≤ g.N) (h1 : 1 ≤ g.h) (w : Wf) (o : Opts) (m : ℝ) (hm : o.maxCurr = some m) (s : Int) : |(g.gsco w o).run.x s| ≤ |m| ∨ (g.gsco w o).run.x s = o.x0 s := by
  obtain ⟨hi, -, -⟩ := Gsco.run_spec (Grid.gsco_valid h2 h1 w o)
  refine hi.final (fun x _ => |x s| ≤ |m| ∨ x s = o.x0 s) (Or.inr rfl) fun x count k c ha hx => ?_
  obtain ⟨ka, kb⟩ := Grid.loop_index h1 ha.loop
  by_cases hs : s ∈ (g.cell (k / g.n) (k % g.n)).segs.map (·.1)
  · obtain ⟨t, ht, rfl⟩ := List.mem_map.mp hs
    refine Or.inl (ha.limit |m| ?_ t ht)
    show Option.map _ o.maxCurr = _
    rw [hm]; rfl
  · have := addLoop_off (Grid.cell_valid h2 h1 _ _ ka kb).1 c x s hs
    show |addLoop c (g.cell (k / g.n) (k % g.n)) x s| ≤ _ ∨ addLoop c (g.cell (k / g.n) (k % g.n)) x s = _
    rw [this]; exact hx

/-- **C89.** No cell gets more than the maximum number of loops, unless it had more at the start and was left alone. -/
theorem C89_max_count (h2 : 2 ≤ g.N) (h1 : 1 ≤ g.h) (w : Wf) (o : Opts) (hm : o.maxCount ≠ 0) (l : Nat) : |(g.gsco w o).run.count l| ≤ |o.maxCount| ∨ (g.gsco w o).run.count l = o.count0 l := by
  obtain ⟨hi, -, -⟩ := Gsco.run_spec (Grid.gsco_valid h2 h1 w o)
  refine hi.final (fun _ count => |count l| ≤ |o.maxCount| ∨ count l = o.count0 l) (Or.inr rfl) fun x count k c ha hx => ?_
  by_cases e : l = k
  · subst e
    have := ha.count (by show o.maxCount.natAbs ≠ 0; omega)
    refine Or.inl ?_
    simp only [if_true]
    refine this.trans ?_
    show ((o.maxCount.natAbs : Nat) : Int) ≤ _
    rw [Int.natCast_natAbs]
  · simp only [if_neg e, add_zero]; exact hx

/-- **C89.** What is added in every iteration: a loop around a cell whose segments are all unconstrained.  With `no_new_coils` one of its segments carried current (more than a thousandth of the default).  Without `match_current` the current
around the loop is the default current, in one direction or the other; with it, the current is that in the segments of the cell that carry any, and they all carry the same, or the default current if there are none. -/
theorem C89_steps (h2 : 2 ≤ g.N) (h1 : 1 ≤ g.h) (w : Wf) (o : Opts) (k : Nat) (hk : k + 1 < (g.gsco w o).run.hist.length) :
    let e := (g.gsco w o).run.hist[k + 1]
    let X := getIteration (fun k => g.cell (k / g.n) (k % g.n)) o.x0 (g.gsco w o).run.hist k
    let segs := (g.cell (e.loop / g.n) (e.loop % g.n)).segs.map (·.1)
    e.loop < g.n * g.N ∧ e.curr ≠ 0 ∧ (∀ s ∈ segs, s.toNat ∈ g.freeSegs (g.fresh w)) ∧ (o.noNewCoils = true → ∃ s ∈ segs, 0.001 * |o.dflt| < |X s|) ∧ (o.matchCurrent = false → |e.curr| = |o.dflt|) ∧
    (o.matchCurrent = true → (∀ s ∈ segs, X s = 0 ∨ |X s| = |e.curr|) ∧ ((∀ s ∈ segs, X s = 0) → |e.curr| = |o.dflt|)) := by
  intro e X segs
  have hv := Grid.gsco_valid h2 h1 w o
  obtain ⟨hi, -, -⟩ := Gsco.run_spec hv
  obtain ⟨ha, -⟩ := hi.steps k hk
  have hX : X = (g.gsco w o).xAt (g.gsco w o).run.hist k := getIteration_eq hv hi k (by omega)
  obtain ⟨ka, kb⟩ := Grid.loop_index h1 ha.loop
  have hfree := (C84_free_cells h2 h1 w _ _ ka kb).mp ha.free
  refine ⟨ha.loop, ha.ne, fun s hs => ?_, fun h => ?_, ha.size, fun h => ⟨fun s hs => ?_, fun h0 => ?_⟩⟩
  · obtain ⟨t, ht, rfl⟩ := List.mem_map.mp hs
    simp only [Cell.segs, List.mem_cons, List.not_mem_nil, or_false] at ht
    rcases ht with rfl | rfl | rfl | rfl
    · exact hfree.1
    · exact hfree.2.1
    · exact hfree.2.2.1
    · exact hfree.2.2.2
  · obtain ⟨t, ht, h⟩ := ha.old h
    exact ⟨t.1, List.mem_map.mpr ⟨t, ht, rfl⟩, by rw [hX]; exact h⟩
  · obtain ⟨t, ht, rfl⟩ := List.mem_map.mp hs
    rw [hX]
    exact (ha.matching h).1 t ht
  · refine (ha.matching h).2 fun t ht => ?_
    have := h0 t.1 (List.mem_map.mpr ⟨t, ht, rfl⟩)
    rw [hX] at this; exact this

/-! ### Crossings -/

/-- Specification: at no node of the torus do more than two of the four segments carry a current of more than `tol`. -/
noncomputable def NoCrossing (tol : ℝ) (T P : Int → Int → ℝ) : Prop := open Classical in ∀ I J, [T (I - 1) J, P I (J - 1), T I J, P I J].countP (fun v => decide (tol < |v|)) ≤ 2

open Classical in
/-- The number of active segments at a node of the torus. -/
noncomputable def activeAt (tol : ℝ) (T P : Int → Int → ℝ) (I J : Int) : Nat := [T (I - 1) J, P I (J - 1), T I J, P I J].countP (fun v => decide (tol < |v|))

theorem activeAt_shift {x : Int → ℝ} {T P : Int → Int → ℝ} (hf : g.IsFlow x T P) (tol : ℝ) (I J k l : Int) : activeAt tol T P (I + k * (2 * g.N)) (J + l * g.n) = activeAt tol T P I J := by
  simp only [activeAt]
  rw [hf.shiftT, hf.shiftP, show I + k * (2 * g.N) - 1 = (I - 1) + k * (2 * g.N) by ring, hf.shiftT, show J + l * g.n - 1 = (J - 1) + l * g.n by ring, hf.shiftP]

theorem activeAt_sym {x : Int → ℝ} {T P : Int → Int → ℝ} (h2 : 2 ≤ g.N) (h1 : 1 ≤ g.h) (hf : g.IsFlow x T P) (tol : ℝ) (I J : Int) : activeAt tol T P (-I) (-J) = activeAt tol T P I J := by
  have a := hf.symT h2 h1 I J
  have b := hf.symT h2 h1 (I - 1) J
  have c := hf.symP h2 h1 I J
  have d := hf.symP h2 h1 I (J - 1)
  rw [show (-(I - 1) - 1 : Int) = -I by ring] at b
  rw [show (-(J - 1) - 1 : Int) = -J by ring] at d
  simp only [activeAt]
  rw [a, b, c, d]
  simp only [List.countP_cons, List.countP_nil]
  omega

theorem Grid.node_div {i j : Nat} (hj : j < g.n) : g.node i j / g.n = i ∧ g.node i j % g.n = j := lin_div hj

/-- The check of `GSCO` at a corner of the cell is the count on the torus. -/
theorem activeAt_conn {x : Int → ℝ} {T P : Int → Int → ℝ} (h2 : 2 ≤ g.N) (h1 : 1 ≤ g.h) (hf : g.IsFlow x T P) (tol : ℝ) (i j : Nat) (hi : i ≤ g.N) (hj : j < g.n) :
    activeAt tol T P i j = (open Classical in (g.conn (i, j)).countP fun s => decide (tol < |x s|)) := by
  obtain ⟨a, b, c, d⟩ := C83_connected h2 h1 hf i j hi hj
  simp only [activeAt, Grid.conn, List.countP_cons, List.countP_nil, a, b, c, d]

theorem Grid.segEnd_tor {i j : Nat} (hi : i < g.N) (hj : j < g.n) : g.segEnd (i * g.n + j) = g.node (i + 1) j := by
  rw [Grid.segEnd, if_pos (Grid.torKey_lt hi hj), Grid.node]; ring

/-- The nodes of the torus next to an image of a cell are images of its corners. -/
theorem corner_of_image (i j : Nat) (I J : Int) (e f : Int) (he : e = 0 ∨ e = 1) (hf : f = 0 ∨ f = 1) (h : g.images i j (I - e) (J - f) ≠ 0) :
    ∃ (e' f' : Nat) (k l : Int), (e' = 0 ∨ e' = 1) ∧ (f' = 0 ∨ f' = 1) ∧ ((I = (i + e' : Nat) + k * (2 * g.N) ∧ J = (j + f' : Nat) + l * g.n) ∨ (-I = (i + e' : Nat) + k * (2 * g.N) ∧ -J = (j + f' : Nat) + l * g.n)) := by
  rw [Grid.images] at h
  by_cases c1 : I - e ≡ i [ZMOD 2 * g.N] ∧ J - f ≡ j [ZMOD g.n]
  · obtain ⟨k, hk⟩ := (Int.modEq_iff_dvd.mp c1.1)
    obtain ⟨l, hl⟩ := (Int.modEq_iff_dvd.mp c1.2)
    refine ⟨e.toNat, f.toNat, -k, -l, by omega, by omega, Or.inl ⟨?_, ?_⟩⟩
    · have he' : ((e.toNat : Nat) : Int) = e := by omega
      push_cast [he']
      linear_combination -hk
    · have hf' : ((f.toNat : Nat) : Int) = f := by omega
      push_cast [hf']
      linear_combination -hl
  · rw [if_neg c1] at h
    by_cases c2 : I - e ≡ -i - 1 [ZMOD 2 * g.N] ∧ J - f ≡ -j - 1 [ZMOD g.n]
    · obtain ⟨k, hk⟩ := (Int.modEq_iff_dvd.mp c2.1)
      obtain ⟨l, hl⟩ := (Int.modEq_iff_dvd.mp c2.2)
      refine ⟨(1 - e).toNat, (1 - f).toNat, k, l, by omega, by omega, Or.inr ⟨?_, ?_⟩⟩
      · have he' : (((1 - e).toNat : Nat) : Int) = 1 - e := by omega
        push_cast [he']
        linear_combination hk
      · have hf' : (((1 - f).toNat : Nat) : Int) = 1 - f := by omega
        push_cast [hf']
        linear_combination hl
    · exact absurd (if_neg c2) h

/-- **C89.** With `no_crossing`, if the initial currents do not cross anywhere on the torus then those of the solution do not: at every node at most two of the four segments carry current (more than a thousandth of the default). -/
theorem C89_no_crossing (h2 : 2 ≤ g.N) (h1 : 1 ≤ g.h) (w : Wf) (o : Opts) (hc : o.noCrossing = true) (T0 P0 T P : Int → Int → ℝ) (hf0 : g.IsFlow o.x0 T0 P0) (hf : g.IsFlow (g.gsco w o).run.x T P)
    (h0 : NoCrossing (0.001 * |o.dflt|) T0 P0) : NoCrossing (0.001 * |o.dflt|) T P := by
  have hn : g.n = 2 * g.h := rfl
  obtain ⟨hi, -, -⟩ := Gsco.run_spec (Grid.gsco_valid h2 h1 w o)
  suffices h : ∀ T P, g.IsFlow (g.gsco w o).run.x T P → NoCrossing (0.001 * |o.dflt|) T P from h T P hf
  refine hi.final (fun x _ => ∀ T P, g.IsFlow x T P → NoCrossing (0.001 * |o.dflt|) T P) ?_ fun x count k c ha hx T' P' hf' => ?_
  · intro T P hf
    obtain ⟨rfl, rfl⟩ := (C83_unfold h2 h1 o.x0).2 _ _ _ _ hf hf0
    exact h0
  obtain ⟨ka, kb⟩ := Grid.loop_index h1 ha.loop
  obtain ⟨T, P, hf⟩ := (C83_unfold h2 h1 x).1
  have hold := hx T P hf
  set i := k / g.n
  set j := k % g.n
  have hl := C83_loop h2 h1 i j ka kb c hf T' P' hf'
  obtain ⟨c1, c3, -, -⟩ := Grid.cell_spec h2 h1 i j ka kb
  have hjm : (j + 1) % g.n < g.n := Nat.mod_lt _ (by omega)
  -- the corners of the cell
  have corner : ∀ e f : Nat, (e = 0 ∨ e = 1) → (f = 0 ∨ f = 1) → activeAt (0.001 * |o.dflt|) T' P' (i + e : Nat) ((j + f) % g.n : Nat) ≤ 2 := by
    intro e f he hf1
    have hjf : (j + f) % g.n < g.n := Nat.mod_lt _ (by omega)
    rw [activeAt_conn h2 h1 hf' _ (i + e) ((j + f) % g.n) (by omega) hjf]
    have hcr := ha.crossing hc
    have hnode : ∀ t v, (t = (g.cell i j).tor1 ∨ t = (g.cell i j).tor3) → (v = g.segStart t.toNat ∨ v = g.segEnd t.toNat) →
        (open Classical in (g.conn (v / g.n, v % g.n)).countP fun s => decide (0.001 * |o.dflt| < |addLoop c (g.cell i j) x s|)) ≤ 2 := fun t v a b => hcr t a v b
    rcases hf1 with rfl | rfl
    · have e1 : (j + 0) % g.n = j := by rw [Nat.add_zero, Nat.mod_eq_of_lt kb]
      rw [e1]
      have ht : (g.cell i j).tor1.toNat = i * g.n + j := by rw [c1, Grid.torKey_eq ka, Int.toNat_natCast]
      rcases he with rfl | rfl
      · have := hnode _ (g.node i j) (Or.inl rfl) (Or.inl (by rw [ht, Grid.segStart_tor ka kb]))
        rw [(Grid.node_div kb).1, (Grid.node_div kb).2] at this
        exact this
      · have := hnode _ (g.node (i + 1) j) (Or.inl rfl) (Or.inr (by rw [ht, Grid.segEnd_tor ka kb]))
        rw [(Grid.node_div kb).1, (Grid.node_div kb).2] at this
        exact this
    · have ht : (g.cell i j).tor3.toNat = i * g.n + (j + 1) % g.n := by rw [c3, Grid.torKey_eq ka, Int.toNat_natCast]
      rcases he with rfl | rfl
      · have := hnode _ (g.node i ((j + 1) % g.n)) (Or.inr rfl) (Or.inl (by rw [ht, Grid.segStart_tor ka hjm]))
        rw [(Grid.node_div hjm).1, (Grid.node_div hjm).2] at this
        exact this
      · have := hnode _ (g.node (i + 1) ((j + 1) % g.n)) (Or.inr rfl) (Or.inr (by rw [ht, Grid.segEnd_tor ka hjm]))
        rw [(Grid.node_div hjm).1, (Grid.node_div hjm).2] at this
        exact this
  have corner' : ∀ (e f : Nat) (k l : Int), (e = 0 ∨ e = 1) → (f = 0 ∨ f = 1) → activeAt (0.001 * |o.dflt|) T' P' ((i + e : Nat) + k * (2 * g.N)) ((j + f : Nat) + l * g.n) ≤ 2 := by
    intro e f k l he hf1
    rw [activeAt_shift hf']
    have := corner e f he hf1
    have hdm := Nat.div_add_mod (j + f) g.n
    have : ((j + f : Nat) : Int) = (((j + f) % g.n : Nat) : Int) + (((j + f) / g.n : Nat) : Int) * g.n := by
      have h4 : (j + f) % g.n + (j + f) / g.n * g.n = j + f := by rw [Nat.mul_comm]; omega
      exact_mod_cast h4.symm
    rw [this]
    have h3 := activeAt_shift hf' (0.001 * |o.dflt|) ((i + e : Nat) : Int) (((j + f) % g.n : Nat) : Int) 0 (((j + f) / g.n : Nat) : Int)
    rw [zero_mul, add_zero] at h3
    rw [h3]
    exact corner e f he hf1
  intro I J
  show activeAt _ T' P' I J ≤ 2
  by_cases hany : ∃ e f : Int, (e = 0 ∨ e = 1) ∧ (f = 0 ∨ f = 1) ∧ g.images i j (I - e) (J - f) ≠ 0
  · obtain ⟨e, f, he, hf1, hne⟩ := hany
    obtain ⟨e', f', k', l', he', hf'', h | h⟩ := corner_of_image i j I J e f he hf1 hne
    · rw [h.1, h.2]; exact corner' e' f' k' l' he' hf''
    · rw [← activeAt_sym h2 h1 hf', h.1, h.2]; exact corner' e' f' k' l' he' hf''
  · push Not at hany
    have z : ∀ e f : Int, (e = 0 ∨ e = 1) → (f = 0 ∨ f = 1) → g.images i j (I - e) (J - f) = 0 := hany
    have z00 := z 0 0 (Or.inl rfl) (Or.inl rfl)
    have z01 := z 0 1 (Or.inl rfl) (Or.inr rfl)
    have z10 := z 1 0 (Or.inr rfl) (Or.inl rfl)
    have z11 := z 1 1 (Or.inr rfl) (Or.inr rfl)
    simp only [sub_zero] at z00 z01 z10 z11
    have : activeAt (0.001 * |o.dflt|) T' P' I J = activeAt (0.001 * |o.dflt|) T P I J := by
      simp only [activeAt, (hl _ _).1, (hl _ _).2, z00, z01, z10, z11, sub_zero, mul_zero, add_zero]
    rw [this]
    exact hold I J

end Simsopt.Wireframe
