import Verif.Wireframe.ConsOps
/-!
# `constraint_matrices(assume_no_crossings=True)`

Model of the second half of `find_inactive_nodes` (src/simsopt/geo/wireframe_toroidal.py L1003-1062) and its use in `constraint_matrices` (L938-962).  `set.pop` removes an arbitrary element: the model takes the choice as a parameter.
-/
namespace Simsopt.Wireframe

variable (g : Grid)

/-- `for seg in self.connected_segments[node, :]` (L1034-1038): the last free segment found, the remaining free ones, the count. -/
def Grid.pickAt (v : Nat) (free : List Nat) : Option Nat × List Nat × Nat :=
  (g.conn (v / g.n, v % g.n)).foldl (fun st t => if t.toNat ∈ st.2.1 then (some t.toNat, st.2.1.erase t.toNat, st.2.2 + 1) else st) (none, free, 0)

/-- `while True` (L1022-1052): the remaining free segments and the nodes whose constraints are dropped; `none` for the exception (and for fuel that does not suffice). -/
def Grid.walk (hasCont : Nat → Bool) : Nat → Nat → Bool → List Nat → List Nat → Option (List Nat × List Nat)
  | 0, _, _, _, _ => none
  | fuel + 1, seg, lifted, free, dropped =>
    let n0 := g.segStart seg
    let n1 := g.segEnd seg
    let lift := !lifted && hasCont n0
    let dropped := if lift then n0 :: dropped else dropped
    let p := g.pickAt n0 free
    let q := if p.2.2 = 0 then g.pickAt n1 p.2.1 else p
    if q.2.2 = 0 then some (q.2.1, dropped)
    else if 1 < q.2.2 then none
    else match q.1 with
      | some s => Grid.walk hasCont fuel s (lifted || lift) q.2.1 dropped
      | none => none

/-- `while len(free_segs) > 0` (L1014-1052). -/
def Grid.walks (hasCont : Nat → Bool) (pop : List Nat → Nat) : Nat → List Nat → List Nat → Option (List Nat)
  | 0, _, _ => none
  | fuel + 1, free, dropped =>
    if free = [] then some dropped
    else match g.walk hasCont (g.nSeg + 1) (pop free) false (free.erase (pop free)) dropped with
      | none => none
      | some (free', dropped') => Grid.walks hasCont pop fuel free' dropped'

/-- `constraint_matrices(assume_no_crossings=True)`, all columns. -/
def Grid.matricesNoCross (pop : List Nat → Nat) (w : Wf) : Option (List (Row × ℝ) × List Nat) :=
  let w := g.fresh w
  let free := g.freeSegs w
  match g.walks (fun v => w.has (.cont v)) pop (g.nSeg + 1) free [] with
  | none => none
  | some dropped =>
    let excluded (c : Constraint) : Bool := g.nodes.any fun v => (decide (g.nodeSum free v = 0) || decide (g.node v.1 v.2 ∈ dropped)) && decide (c.name = .cont (g.node v.1 v.2))
    some ((w.cons.filter fun c => !excluded c).map fun c => (c.row, c.const), List.range g.nSeg)

variable {g}

/-- **C86, part.** Only rows of the constraints are left out: currents that meet the constraints solve the equations. -/
theorem C86_sound_partial (h2 : 2 ≤ g.N) (h1 : 1 ≤ g.h) {w : Wf} (hr : g.Reach w) (pop : List Nat → Nat) (M : List (Row × ℝ) × List Nat) (hM : g.matricesNoCross pop w = some M) (x : Int → ℝ) (hx : w.Meets g x) : Solves M x := by
  have hfull := ((C84_matrices h2 h1 hr false x).1).mpr hx
  simp only [Grid.matricesNoCross] at hM
  cases e : g.walks (fun v => (g.fresh w).has (.cont v)) pop (g.nSeg + 1) (g.freeSegs (g.fresh w)) [] with
  | none => rw [e] at hM; cases hM
  | some dropped =>
    rw [e] at hM
    simp only [Option.some.injEq] at hM
    subst hM
    intro r hr'
    obtain ⟨c, hc, rfl⟩ := List.mem_map.mp hr'
    refine hfull (c.row, c.const) (List.mem_map.mpr ⟨c, List.mem_filter.mpr ⟨(List.mem_filter.mp hc).1, ?_⟩, rfl⟩)
    simp

/-! ### A loop through two points of a symmetry plane -/

/-- `n_phi = 2`, `n_theta = 4`. -/
def small : Grid := ⟨2, 2⟩

/-- All segments are constrained but the two poloidal ones in the first symmetry plane, which form, with their mirror images, one planar coil. -/
noncomputable def smallW : Wf := (small.exec (.setConstrained [0, 1, 2, 3, 4, 5, 6, 7, 10, 11, 12, 13, 14, 15]) small.init).1

theorem smallW_reach : small.Reach smallW := Grid.Reach.step _ Grid.Reach.init

theorem smallW_explicit (s : Nat) : s ∈ smallW.explicit ↔ (s : Int) ∈ [(0 : Int), 1, 2, 3, 4, 5, 6, 7, 10, 11, 12, 13, 14, 15] := by
  have hinit : s ∉ small.init.explicit := by
    intro hs
    simp only [Wf.explicit, init_spec.2, List.mem_map, List.mem_filter, decide_eq_true_eq] at hs
    obtain ⟨c, ⟨⟨v, -, rfl⟩, ht⟩, -⟩ := hs
    cases ht
  rw [show smallW = (small.exec (.setConstrained [0, 1, 2, 3, 4, 5, 6, 7, 10, 11, 12, 13, 14, 15]) small.init).1 from rfl, (C85_set_constrained (g := small) (by decide) (by decide) Grid.Reach.init _ (by decide) (by decide)).2 s]
  exact ⟨fun h => h.elim (fun h => absurd h hinit) id, Or.inr⟩

theorem smallW_free : small.freeSegs (small.fresh smallW) = [8, 9] := by
  obtain ⟨c1, c2, c3, c4⟩ := C84_closure (g := small) (by decide) (by decide) smallW_reach
  have hmem : ∀ s, s ∈ small.freeSegs (small.fresh smallW) ↔ s = 8 ∨ s = 9 := by
    intro s
    constructor
    · intro h
      obtain ⟨k1, -⟩ := c2 inferInstance
      have : s < small.nSeg ∧ ¬ s ∈ smallW.explicit := k1 s h
      rw [smallW_explicit] at this
      have hlt : s < 16 := this.1
      have := this.2
      simp only [List.mem_cons, List.not_mem_nil, or_false] at this
      omega
    · intro h
      have hd : ∀ i ≤ 2, ∀ j < 4, small.degree (fun s => s = 8 ∨ s = 9) (i, j) ≠ 1 := by decide
      refine c3 (fun s => s = 8 ∨ s = 9) ?_ s h
      intro dF
      refine ⟨fun s hs => ⟨?_, ?_⟩, fun i hi j hj => ?_⟩
      · rcases hs with rfl | rfl <;> decide
      · show ¬ s ∈ smallW.explicit
        rw [smallW_explicit]; rcases hs with rfl | rfl <;> decide
      · have := hd i hi j hj
        convert this
  have e : small.freeSegs (small.fresh smallW) = (List.range 16).filter fun s => decide (s = 8 ∨ s = 9) := by
    rw [Grid.freeSegs]
    refine List.filter_congr fun s hs => ?_
    rw [← Bool.coe_iff_coe, decide_eq_true_eq, ← hmem]
    simp only [Grid.freeSegs, List.mem_filter]
    exact ⟨fun h => ⟨hs, h⟩, And.right⟩
  rw [e]; decide

/-- The nodes of the first plane that matter: node `1` has a continuity constraint, nodes `0` and `2` have none. -/
theorem smallW_cont : (small.fresh smallW).has (.cont 1) = true ∧ (small.fresh smallW).has (.cont 0) = false := by
  have hb : small.Base (small.fresh smallW) := ((Grid.Reach.step .query smallW_reach).inv (g := small) (by decide) (by decide)).1
  constructor
  · exact hb.cont 0 (by decide) 1 (by decide) (by decide)
  · rw [Wf.has_eq, Wf.has_iff]
    rintro ⟨c, hc, hn⟩
    have hw := hb.wf c hc
    unfold Grid.WellFormed at hw
    rw [hn] at hw
    obtain ⟨-, i, j, hi, hj, hcont, e, -, -⟩ := hw
    have hn4 : small.n = 4 := rfl
    have : i = 0 ∧ j = 0 := by
      rw [Grid.node, hn4] at e
      omega
    rw [this.1, this.2] at hcont
    exact absurd hcont (by decide)

theorem setFree_sub (g : Grid) (l : List Int) (w : Wf) (n : Name) (h : (g.setFree l w).1.has n = true) : w.has n = true := by
  rw [Grid.setFree] at h
  split at h
  · exact h
  · refine each_inv (I := fun v => v.has n = true → w.has n = true) l (fun a _ v hv hh => ?_) w id h
    split at hh
    · exact hv ((has_remove _ _ _).mp hh).1
    · split at hh
      · exact hv ((has_remove _ _ _).mp hh).1
      · exact hv hh

/-- Only continuity and segment constraints are there. -/
theorem smallW_names (c : Constraint) (hc : c ∈ (small.fresh smallW).cons) : (c.name.isSeg || c.name.isCont) = true := by
  have hi := smallW_reach.inv (g := small) (by decide) (by decide)
  obtain ⟨⟨hb, -⟩, -, hs⟩ := hi.fresh (g := small) (by decide) (by decide)
  by_contra hne
  rw [Bool.not_eq_true, Bool.or_eq_false_iff] at hne
  have ht : c.type ≠ .implicit := by
    intro ht
    have := (hb.wf c hc).isSeg
    rw [ht, hne.1] at this; cases this
  have h1 : smallW.has c.name = true := Wf.has_iff.mpr ⟨c, (hs c ht).mp hc, rfl⟩
  have hi0 := Grid.inv_init (g := small) (by decide) (by decide)
  obtain ⟨a1, a2, a3, a4⟩ := setFree_spec hi0.1 [0, 1, 2, 3, 4, 5, 6, 7, 10, 11, 12, 13, 14, 15] (by decide)
  have hno : ∀ n : Name, n.isCont = false → ¬ small.init.has n = true := by
    intro n hn
    rw [Wf.has_iff, init_spec.2]
    rintro ⟨c, hc, rfl⟩
    obtain ⟨v, -, rfl⟩ := List.mem_map.mp hc
    cases hn
  obtain ⟨-, -, b3⟩ := addSegs_spec (g := small) (w := (small.setFree [0, 1, 2, 3, 4, 5, 6, 7, 10, 11, 12, 13, 14, 15] small.init).1) [0, 1, 2, 3, 4, 5, 6, 7, 10, 11, 12, 13, 14, 15] (by decide) (by decide)
    (fun s _ h => hno _ rfl (setFree_sub _ _ _ _ h)) (fun s _ h => hno _ rfl (setFree_sub _ _ _ _ h))
  have e : smallW = (small.addSegs [0, 1, 2, 3, 4, 5, 6, 7, 10, 11, 12, 13, 14, 15] false (small.setFree [0, 1, 2, 3, 4, 5, 6, 7, 10, 11, 12, 13, 14, 15] small.init).1).1 := by
    simp only [smallW, Grid.exec, Grid.setConstrained, Res.andThen, a1]
  rw [e, b3 _ (fun s h => by rw [h] at hne; cases hne.1)] at h1
  exact hno _ hne.2 (setFree_sub _ _ _ _ h1)

theorem small_walk (hc : Nat → Bool) (k1 : hc 1 = true) (k0 : hc 0 = false) : small.walk hc 17 8 false [9] [] = some ([], [1]) ∧ small.walk hc 17 9 false [8] [] = some ([], [1]) := by
  have a8 : small.segStart 8 = 0 := by decide
  have b8 : small.segEnd 8 = 1 := by decide
  have a9 : small.segStart 9 = 1 := by decide
  have b9 : small.segEnd 9 = 2 := by decide
  have p1 : small.pickAt 0 [9] = (none, [9], 0) := by decide
  have p2 : small.pickAt 1 [9] = (some 9, [], 1) := by decide
  have p3 : small.pickAt 1 [] = (none, [], 0) := by decide
  have p4 : small.pickAt 2 [] = (none, [], 0) := by decide
  have p5 : small.pickAt 1 [8] = (some 8, [], 1) := by decide
  have p6 : small.pickAt 0 [] = (none, [], 0) := by decide
  constructor
  · rw [Grid.walk]
    simp only [a8, b8, k0, p1, p2, Bool.not_false, Bool.and_false, Bool.false_eq_true, if_false, if_true, Nat.one_ne_zero, Nat.lt_irrefl, Bool.or_false]
    rw [Grid.walk]
    simp only [a9, b9, k1, p3, p4, Bool.not_false, Bool.and_true, if_true]
  · rw [Grid.walk]
    simp only [a9, b9, k1, p5, Bool.not_false, Bool.and_true, if_false, if_true, Nat.one_ne_zero, Nat.lt_irrefl, Bool.or_true]
    rw [Grid.walk]
    simp only [a8, b8, p6, p3, Bool.not_true, Bool.false_and, Bool.false_eq_true, if_false, if_true]

theorem small_walks_nil (hc : Nat → Bool) (pop : List Nat → Nat) (l : List Nat) : small.walks hc pop small.nSeg [] l = some l := by
  rw [show small.nSeg = 15 + 1 from rfl, Grid.walks, if_pos rfl]

theorem small_row (i j : Nat) (hi : i ≤ small.N) (hj : j < small.n) (hc : small.hasContinuity i j = true) (hv : small.node i j ≠ 1) : contRow (small.connected i j) 8 = 0 := by
  have hd : ((List.range 3).all fun i => (List.range 4).all fun j => !(small.hasContinuity i j && !(small.node i j == 1)) || !(small.conn (i, j)).contains 8) = true := by decide
  rw [List.all_eq_true] at hd
  have h1 := hd i (List.mem_range.mpr (by have : small.N = 2 := rfl; omega))
  rw [List.all_eq_true] at h1
  have h3 := h1 j (List.mem_range.mpr hj)
  have h4 : (small.node i j == 1) = false := by rw [beq_eq_false_iff_ne]; exact hv
  rw [hc, h4] at h3
  have h5 : (8 : Int) ∉ small.conn (i, j) := by simpa using h3
  simp only [Grid.conn, List.mem_cons, List.not_mem_nil, or_false, not_or] at h5
  obtain ⟨x1, x2, x3, x4⟩ := h5
  rw [contRow, if_neg (fun h => h.elim x3 x4), if_neg (fun h => h.elim x1 x2)]

/-- **C86, violated.** "Enough constraints will be removed to allow for one degree of freedom per loop".  The planar coil in the symmetry plane is one loop; its two segments are joined by one continuity constraint.  In whatever order the
segments are taken, this constraint is removed: the equations have solutions with different currents in the two segments, that violate the continuity. -/
theorem C86_symmetry_plane_violated (pop : List Nat → Nat) (hpop : ∀ l, l ≠ [] → pop l ∈ l) :
    ∃ M x, small.matricesNoCross pop smallW = some M ∧ Solves M x ∧ ¬ smallW.Meets small x ∧ x 8 ≠ x 9 := by
  have hb : small.Base (small.fresh smallW) := ((Grid.Reach.step .query smallW_reach).inv (g := small) (by decide) (by decide)).1
  obtain ⟨k1, k0⟩ := smallW_cont
  -- the walk
  have hwalk : ∃ dropped, small.walks (fun v => (small.fresh smallW).has (.cont v)) pop (small.nSeg + 1) [8, 9] [] = some dropped ∧ 1 ∈ dropped := by
    have hp := hpop [8, 9] (by simp)
    obtain ⟨w1, w2⟩ := small_walk (fun v => (small.fresh smallW).has (.cont v)) k1 k0
    refine ⟨[1], ?_, by simp⟩
    rw [Grid.walks, if_neg (by simp)]
    have e17 : small.nSeg + 1 = 17 := rfl
    simp only [List.mem_cons, List.not_mem_nil, or_false] at hp
    rcases hp with hp | hp
    · rw [hp, e17, show [8, 9].erase 8 = [9] from by decide, w1]; exact small_walks_nil _ _ _
    · rw [hp, e17, show [8, 9].erase 9 = [8] from by decide, w2]; exact small_walks_nil _ _ _
  obtain ⟨dropped, hd, h1d⟩ := hwalk
  refine ⟨_, fun s => if s = 8 then 1 else 0, by simp only [Grid.matricesNoCross, smallW_free, hd]; rfl, ?_, ?_, by norm_num⟩
  · intro r hr
    obtain ⟨c, hc, rfl⟩ := List.mem_map.mp hr
    obtain ⟨hc, hex⟩ := List.mem_filter.mp hc
    simp only
    have hsum : ((List.range small.nSeg).map fun (s : Nat) => c.row s * (if (s : Int) = 8 then (1 : ℝ) else 0)).sum = c.row 8 := by
      rw [sum_range_list, Finset.sum_eq_single_of_mem 8 (by decide)]
      · simp
      · intro b _ hb'
        rw [if_neg (by exact_mod_cast hb'), mul_zero]
    rw [hsum]
    -- the rows that are left
    have hw := hb.wf c hc
    unfold Grid.WellFormed at hw
    have hseg : ∀ s, (small.fresh smallW).has (.seg s) = true ∨ (small.fresh smallW).has (.impl s) = true → s ≠ 8 := by
      rintro s hs rfl
      have : 8 ∈ small.freeSegs (small.fresh smallW) := by rw [smallW_free]; simp
      rw [hb.mem_free] at this
      tauto
    have hkinds := smallW_names c hc
    cases e : c.name with
    | seg s =>
      rw [e] at hw
      have := hseg s (Or.inl (Wf.has_iff.mpr ⟨c, hc, e⟩))
      rw [hw.2.2.1, hw.2.2.2, unitRow, if_neg (by exact_mod_cast this.symm)]
    | impl s =>
      rw [e] at hw
      have := hseg s (Or.inr (Wf.has_iff.mpr ⟨c, hc, e⟩))
      rw [hw.2.2.1, hw.2.2.2, unitRow, if_neg (by exact_mod_cast this.symm)]
    | cont v =>
      rw [e] at hw
      obtain ⟨-, i, j, hi, hj, hcont, ev, hrow, hconst⟩ := hw
      have hv1 : small.node i j ≠ 1 := by
        intro h1
        rw [Bool.not_eq_true', List.any_eq_false] at hex
        refine hex (i, j) (Grid.mem_nodes.mpr ⟨hi, hj⟩) ?_
        simp only [h1, h1d, decide_true, Bool.or_true, Bool.true_and, decide_eq_true_eq]
        rw [e, ev, h1]
      rw [hrow, hconst]
      exact small_row i j hi hj hcont hv1
    | pol => rw [e] at hkinds; cases hkinds
    | tor => rw [e] at hkinds; cases hkinds
    | user s => rw [e] at hkinds; cases hkinds
  · intro hm
    have hbal := (hm.continuous (smallW_reach.inv (g := small) (by decide) (by decide)).1).balance (g := small) (by decide) (by decide) (i := 0) (j := 1) (by decide) (by decide)
    rw [show (small.connected 0 1).torIn = 3 from by decide, show (small.connected 0 1).polIn = 8 from by decide, show (small.connected 0 1).torOut = 1 from by decide, show (small.connected 0 1).polOut = 9 from by decide] at hbal
    norm_num at hbal

end Simsopt.Wireframe
