import Verif.Wireframe.Implicit
/-! # Reachable wireframes: implicit constraints and constraint matrices -/
namespace Simsopt.Wireframe

variable {g : Grid}

/-- The invariant of the reachable states. -/
def Grid.Inv (g : Grid) (w : Wf) : Prop := g.Base w ∧ (w.updated = true → g.Closed w)

theorem freeSegs_congr {w w' : Wf} (hb : g.Base w) (hb' : g.Base w') (h : ∀ n : Name, n.isSeg = true → (w'.has n = true ↔ w.has n = true)) : g.freeSegs w' = g.freeSegs w := by
  refine List.filter_congr fun s _ => ?_
  have e : (s ∈ w'.explicit ++ w'.implicit) ↔ (s ∈ w.explicit ++ w.implicit) := by
    simp only [List.mem_append, hb.explicit, hb.implicit, hb'.explicit, hb'.implicit, h (.seg s) rfl, h (.impl s) rfl]
  rw [← Bool.coe_iff_coe]; simp only [Bool.not_eq_true', decide_eq_false_iff_not, e]

theorem closed_congr {w w' : Wf} (hb : g.Base w) (hb' : g.Base w') (h : ∀ n : Name, n.isSeg = true → (w'.has n = true ↔ w.has n = true)) (hc : g.Closed w) : g.Closed w' := by
  refine ⟨fun v hv => by rw [freeSegs_congr hb hb' h]; exact hc.1 v hv, fun F hF s hs hi => ?_⟩
  refine hc.2 F ?_ s hs ((h (.impl s) rfl).mp hi)
  intro dF
  have := hF dF
  exact ⟨fun s hs => ⟨(this.1 s hs).1, fun hh => (this.1 s hs).2 ((h (.seg s) rfl).mpr hh)⟩, this.2⟩

theorem add_updated (c : Constraint) (w : Wf) : (addConstraint c w).1 = w ∨ (addConstraint c w).1.updated = (w.updated && !c.type.isSeg) := by
  rw [addConstraint]; split
  · exact Or.inl rfl
  · exact Or.inr rfl

theorem remove_updated {w : Wf} (hb : g.Base w) (n : Name) : (removeConstraint n w).1 = w ∨ (removeConstraint n w).1.updated = (w.updated && !n.isSeg) := by
  rw [removeConstraint]
  cases e : w.cons.find? fun c => decide (c.name = n) with
  | none => exact Or.inl rfl
  | some c =>
    refine Or.inr ?_
    have h1 := List.mem_of_find?_eq_some e
    have h2 := List.find?_some e
    simp only [decide_eq_true_eq] at h2
    simp only
    rw [(hb.wf c h1).isSeg, h2]

theorem Grid.Inv.add {w : Wf} (hi : g.Inv w) (c : Constraint) (hc : g.WellFormed c) (h1 : ∀ s, c.name = .seg s → ¬ w.has (.impl s) = true) (h2 : ∀ s, c.name = .impl s → ¬ w.has (.seg s) = true) :
    g.Inv (addConstraint c w).1 := by
  have hb := hi.1.add c hc h1 h2
  refine ⟨hb, fun hu => ?_⟩
  rcases add_updated c w with h | h
  · rw [h] at hu ⊢; exact hi.2 hu
  · rw [h, Bool.and_eq_true, Bool.not_eq_true', hc.isSeg] at hu
    refine closed_congr hi.1 hb (fun n hn => ?_) (hi.2 hu.1)
    rw [has_add]
    refine ⟨fun hh => hh.elim id fun hh => ?_, Or.inl⟩
    rw [← hh, hn] at hu; simp at hu

theorem Grid.Inv.remove {w : Wf} (hi : g.Inv w) (n : Name) (hn : n.isCont = false) : g.Inv (removeConstraint n w).1 := by
  have hb := hi.1.remove n hn
  refine ⟨hb, fun hu => ?_⟩
  rcases remove_updated hi.1 n with h | h
  · rw [h] at hu ⊢; exact hi.2 hu
  · rw [h, Bool.and_eq_true, Bool.not_eq_true'] at hu
    refine closed_congr hi.1 hb (fun m hm => ?_) (hi.2 hu.1)
    rw [has_remove]
    refine ⟨And.left, fun hh => ⟨hh, ?_⟩⟩
    rintro rfl
    rw [hm] at hu; simp at hu

theorem Grid.Inv.addSegs {w : Wf} (hi : g.Inv w) (l : List Int) : g.Inv (g.addSegs l false w).1 := by
  rw [Grid.addSegs]
  split
  · exact hi
  · rename_i h1
    rw [Bool.not_eq_true, Bool.not_eq_false', Grid.inRange_iff] at h1
    split
    · exact hi
    · rename_i h2
      have h2' : ∀ s ∈ l, ¬ w.has (.impl s.toNat) = true := by
        intro s hs hh
        refine h2 ?_
        simp only [Bool.not_false, Bool.true_and, List.any_eq_true]
        exact ⟨s, hs, hh⟩
      refine (each_inv (I := fun w => g.Inv w ∧ ∀ s ∈ l, ¬ w.has (.impl s.toNat) = true) l ?_ w ⟨hi, h2'⟩).1
      rintro a ha v ⟨hv, k2⟩
      have ha' := h1 a ha
      refine ⟨hv.add _ (wellFormed_seg false _ (by omega)) ?_ ?_, ?_⟩
      · intro s hs
        simp only [segConstraint] at hs; injection hs with hs; rw [← hs]; exact k2 a ha
      · intro s hs; cases hs
      · intro s hs
        rw [has_add]
        simp only [segConstraint, Bool.false_eq_true, if_false, reduceCtorEq, or_false]
        exact k2 s hs

theorem Grid.Inv.setFree {w : Wf} (hi : g.Inv w) (l : List Int) : g.Inv (g.setFree l w).1 := by
  rw [Grid.setFree]
  split
  · exact hi
  · refine each_inv l (fun a _ v hv => ?_) w hi
    split
    · exact hv.remove _ rfl
    · split
      · exact hv.remove _ rfl
      · exact hv

theorem Grid.Inv.andThen {r : Res} (h : g.Inv r.1) (f : Wf → Res) (hf : ∀ w, g.Inv w → g.Inv (f w).1) : g.Inv (r.andThen f).1 := by
  rw [Res.andThen]
  cases e : r.2 with
  | some _ => exact h
  | none => exact hf _ h

theorem Grid.Inv.update (h2 : 2 ≤ g.N) (h1 : 1 ≤ g.h) {w : Wf} (hi : g.Inv w) : g.Inv (g.update w) :=
  ⟨(Grid.update_spec h2 h1 hi.1).2.1, fun _ => (Grid.update_spec h2 h1 hi.1).2.2.2.1⟩

theorem Grid.Inv.fresh (h2 : 2 ≤ g.N) (h1 : 1 ≤ g.h) {w : Wf} (hi : g.Inv w) : g.Inv (g.fresh w) ∧ g.Closed (g.fresh w) ∧ SameCons w (g.fresh w) := by
  rw [Grid.fresh]
  split
  · rename_i h; exact ⟨hi, hi.2 h, SameCons.refl w⟩
  · have := Grid.update_spec h2 h1 hi.1
    exact ⟨hi.update h2 h1, this.2.2.2.1, this.2.2.1⟩

theorem Grid.Inv.exec (h2 : 2 ≤ g.N) (h1 : 1 ≤ g.h) {w : Wf} (hi : g.Inv w) (op : Op) : g.Inv (g.exec op w).1 := by
  cases op with
  | addSegs l => exact hi.addSegs l
  | removeSegs l =>
    simp only [Grid.exec, Grid.removeSegs]
    split
    · exact hi
    · exact each_inv l (fun a _ v hv => hv.remove _ rfl) w hi
  | setConstrained l => exact (hi.setFree l).andThen _ fun w hw => hw.addSegs l
  | setFree l => exact hi.setFree l
  | freeAll =>
    simp only [Grid.exec, Wireframe.freeAll]
    refine each_inv _ (fun n hn v hv => hv.remove n ?_) w hi
    obtain ⟨c, hc, rfl⟩ := List.mem_map.mp hn
    rw [List.mem_filter] at hc
    have := (hi.1.wf c hc.1).isSeg
    rw [hc.2] at this
    cases e : c.name <;> rw [e] at this <;> first | rfl | (simp [Name.isSeg] at this)
  | addPol c => exact hi.add _ ⟨rfl, rfl⟩ (fun _ h => by cases h) (fun _ h => by cases h)
  | setPol c =>
    refine Grid.Inv.andThen ?_ _ fun w hw => hw.add _ ⟨rfl, rfl⟩ (fun _ h => by cases h) (fun _ h => by cases h)
    split
    · exact hi.remove _ rfl
    · exact hi
  | removePol => exact hi.remove _ rfl
  | addTor c => exact hi.add _ ⟨rfl, rfl⟩ (fun _ h => by cases h) (fun _ h => by cases h)
  | setTor c =>
    refine Grid.Inv.andThen ?_ _ fun w hw => hw.add _ ⟨rfl, rfl⟩ (fun _ h => by cases h) (fun _ h => by cases h)
    split
    · exact hi.remove _ rfl
    · exact hi
  | removeTor => exact hi.remove _ rfl
  | addUser n r c => exact hi.add _ rfl (fun _ h => by cases h) (fun _ h => by cases h)
  | removeUser n => exact hi.remove _ rfl
  | update => exact hi.update h2 h1
  | query => exact (hi.fresh h2 h1).1

/-! ### The initial state -/

theorem Grid.node_inj' {v v' : Nat × Nat} (h : v ∈ g.nodes) (h' : v' ∈ g.nodes) (e : g.node v.1 v.2 = g.node v'.1 v'.2) : v = v' := by
  have a := Grid.mem_nodes.mp h
  have b := Grid.mem_nodes.mp h'
  obtain ⟨x, y⟩ := Grid.node_inj a.2 b.2 e
  exact Prod.ext x y

theorem Grid.nodes_nodup : g.nodes.Nodup := by
  rw [Grid.nodes, List.nodup_flatMap]
  refine ⟨fun i _ => List.nodup_range.map fun a b h => by simpa using h, ?_⟩
  refine List.nodup_range.imp fun {a b} hab => ?_
  intro v h1 h2
  obtain ⟨j, -, rfl⟩ := List.mem_map.mp h1
  obtain ⟨j', -, e⟩ := List.mem_map.mp h2
  exact hab (by simpa using (congrArg Prod.fst e).symm)

theorem init_spec : g.init.updated = true ∧ g.init.cons = (g.nodes.filter fun v => g.hasContinuity v.1 v.2).map g.contConstraint := by
  suffices h : ∀ (l : List (Nat × Nat)) (w : Wf), l.Nodup → (∀ v ∈ l, v ∈ g.nodes) → (∀ v ∈ l, w.has (.cont (g.node v.1 v.2)) = false) →
      (each (fun v => addConstraint (g.contConstraint v)) l w).1.updated = w.updated ∧ (each (fun v => addConstraint (g.contConstraint v)) l w).1.cons = w.cons ++ l.map g.contConstraint by
    have := h (g.nodes.filter fun v => g.hasContinuity v.1 v.2) ⟨[], true⟩ (Grid.nodes_nodup.sublist List.filter_sublist) (fun v hv => (List.mem_filter.mp hv).1) (fun v _ => rfl)
    simpa [Grid.init] using this
  intro l
  induction l with
  | nil => intro w _ _ _; simp [each]
  | cons a l ih =>
    intro w hn hm hw
    have h0 := hw a (by simp)
    have e : addConstraint (g.contConstraint a) w = (⟨w.cons ++ [g.contConstraint a], w.updated⟩, none) := by
      rw [addConstraint, show w.has (g.contConstraint a).name = false from h0]
      simp [Grid.contConstraint, CType.isSeg]
    rw [each, e, Res.andThen]
    obtain ⟨i1, i2⟩ := ih ⟨w.cons ++ [g.contConstraint a], w.updated⟩ (List.nodup_cons.mp hn).2 (fun v hv => hm v (by simp [hv])) (fun v hv => by
      rw [Wf.has_eq, Wf.has_iff]
      rintro ⟨c, hc, hcn⟩
      rcases List.mem_append.mp hc with hc | hc
      · have := hw v (by simp [hv])
        rw [Wf.has_eq, Wf.has_iff] at this
        exact this ⟨c, hc, hcn⟩
      · rw [List.mem_singleton] at hc
        rw [hc] at hcn
        simp only [Grid.contConstraint] at hcn
        injection hcn with hcn
        have := Grid.node_inj' (hm a (by simp)) (hm v (by simp [hv])) hcn
        rw [this] at hn
        exact (List.nodup_cons.mp hn).1 hv)
    exact ⟨i1, by rw [i2]; simp⟩

theorem Grid.inv_init (h2 : 2 ≤ g.N) (h1 : 1 ≤ g.h) : g.Inv g.init := by
  obtain ⟨-, hc⟩ := init_spec (g := g)
  have hno : ∀ n : Name, n.isSeg = true → ¬ g.init.has n = true := by
    intro n hn
    rw [Wf.has_iff, hc]
    rintro ⟨c, hc, rfl⟩
    obtain ⟨v, -, rfl⟩ := List.mem_map.mp hc
    simp [Grid.contConstraint, Name.isSeg] at hn
  have hb : g.Base g.init := by
    refine ⟨?_, ?_, ?_, ?_⟩
    · rw [hc, List.map_map]
      refine List.Nodup.map_on ?_ (Grid.nodes_nodup.sublist List.filter_sublist)
      intro a ha b hb e
      simp only [Function.comp, Grid.contConstraint] at e
      injection e with e
      exact Grid.node_inj' (List.mem_filter.mp ha).1 (List.mem_filter.mp hb).1 e
    · intro c hc'
      rw [hc] at hc'
      obtain ⟨v, hv, rfl⟩ := List.mem_map.mp hc'
      have hv := List.mem_filter.mp hv
      have hn := Grid.mem_nodes.mp hv.1
      exact ⟨rfl, v.1, v.2, hn.1, hn.2, hv.2, rfl, rfl, rfl⟩
    · intro i hi j hj h
      rw [Wf.has_iff, hc]
      exact ⟨_, List.mem_map.mpr ⟨(i, j), List.mem_filter.mpr ⟨Grid.mem_nodes.mpr ⟨hi, hj⟩, h⟩, rfl⟩, rfl⟩
    · intro s h _; exact hno _ rfl h
  refine ⟨hb, fun _ => ⟨fun v hv => ?_, fun F _ s _ => hno _ rfl⟩⟩
  have hn := Grid.mem_nodes.mp hv
  have e : g.nodeSum (g.freeSegs g.init) v = g.degree (fun s => s ∈ g.freeSegs g.init) v := Grid.nodeSum_eq h2 h1 g.init hn.1 hn.2
  have e4 : g.degree (fun s => s ∈ g.freeSegs g.init) v = 4 := by
    rw [Grid.degree, List.countP_eq_length.mpr]
    · rfl
    · intro t ht
      have := Grid.conn_range h2 h1 hn.1 hn.2 (t := t) ht
      simp only [decide_eq_true_eq]
      exact (hb.mem_free _).mpr ⟨by omega, hno _ rfl, hno _ rfl⟩
  rw [e, e4]; decide

theorem Grid.Reach.inv (h2 : 2 ≤ g.N) (h1 : 1 ≤ g.h) {w : Wf} (h : g.Reach w) : g.Inv w := by
  induction h with
  | init => exact Grid.inv_init h2 h1
  | step op _ ih => exact ih.exec h2 h1 op

/-! ### C84 -/

/-- **C84, the update ends.** The loop of `update_implicit_constraints` ends after at most `n_segments + 1` passes. -/
theorem C84_terminates (h2 : 2 ≤ g.N) (h1 : 1 ≤ g.h) {w : Wf} (hr : g.Reach w) : (g.loop (g.nSeg + 1) (clearImplicit w).1).2 = true :=
  (Grid.update_spec h2 h1 (hr.inv h2 h1).1).1

/-- **C84, what the queries report.** After any history, the segments reported as unconstrained are the largest set of segments without explicit constraints in which no node of the wireframe has exactly one place; in particular they depend
on the explicit constraints alone.  Every segment is either unconstrained, explicitly constrained or implicitly constrained. -/
theorem C84_closure (h2 : 2 ≤ g.N) (h1 : 1 ≤ g.h) {w : Wf} (hr : g.Reach w) :
    (∀ s, s ∈ (g.fresh w).explicit ↔ s ∈ w.explicit) ∧
    g.NoDeadEnd (fun s => s ∈ w.explicit) (fun s => s ∈ g.freeSegs (g.fresh w)) ∧
    (∀ F, g.NoDeadEnd (fun s => s ∈ w.explicit) F → ∀ s, F s → s ∈ g.freeSegs (g.fresh w)) ∧
    ∀ s < g.nSeg, (s ∈ g.freeSegs (g.fresh w) ∧ s ∉ (g.fresh w).explicit ∧ s ∉ (g.fresh w).implicit) ∨ (s ∉ g.freeSegs (g.fresh w) ∧ s ∈ (g.fresh w).explicit ∧ s ∉ (g.fresh w).implicit) ∨
      (s ∉ g.freeSegs (g.fresh w) ∧ s ∉ (g.fresh w).explicit ∧ s ∈ (g.fresh w).implicit) := by
  have hi := hr.inv h2 h1
  obtain ⟨⟨hb, -⟩, hc, hs⟩ := hi.fresh h2 h1
  have he : ∀ s, s ∈ (g.fresh w).explicit ↔ s ∈ w.explicit := fun s => by rw [hb.explicit, hi.1.explicit]; exact hs.has hb hi.1 s
  have hE : ∀ s, (g.fresh w).has (.seg s) = true ↔ s ∈ w.explicit := fun s => by rw [← hb.explicit]; exact he s
  refine ⟨he, ?_, ?_, ?_⟩
  · intro dF
    refine ⟨fun s hs => ?_, fun i hi' j hj => ?_⟩
    · replace hs := (hb.mem_free s).mp hs
      exact ⟨hs.1, fun h => hs.2.1 ((hE s).mpr h)⟩
    · have := hc.1 (i, j) (Grid.mem_nodes.mpr ⟨hi', hj⟩)
      rw [Grid.nodeSum_eq h2 h1 _ hi' hj] at this
      convert this
  · intro F hF s hs'
    rw [hb.mem_free]
    classical
    have hd := hF (Classical.decPred F)
    refine ⟨(hd.1 s hs').1, fun h => (hd.1 s hs').2 ((hE s).mp h), hc.2 F ?_ s hs'⟩
    intro dF
    have := hF dF
    exact ⟨fun s hs => ⟨(this.1 s hs).1, fun h => (this.1 s hs).2 ((hE s).mp h)⟩, this.2⟩
  · intro s hs'
    rw [hb.mem_free, hb.explicit, hb.implicit]
    have := hb.disj s
    tauto

theorem apply_unitRow {s : Nat} (hs : s < g.nSeg) (x : Int → ℝ) : g.apply (unitRow s) x = x s := sum_ind _ _ hs x

theorem Wf.Meets.zero {w : Wf} {x : Int → ℝ} (hb : g.Base w) (hm : w.Meets g x) {s : Nat} (h : w.has (.seg s) = true) : x s = 0 := by
  obtain ⟨c, hc, hn⟩ := Wf.has_iff.mp h
  have hw := hb.wf c hc
  unfold Grid.WellFormed at hw
  rw [hn] at hw
  have := hm c hc (by rw [hw.1]; decide)
  rw [hw.2.2.1, hw.2.2.2, apply_unitRow hw.2.1] at this
  exact this

theorem Wf.Meets.continuous {w : Wf} {x : Int → ℝ} (hb : g.Base w) (hm : w.Meets g x) : g.Continuous x := by
  intro i hi j hj h
  obtain ⟨c, hc, hn⟩ := Wf.has_iff.mp (hb.cont i hi j hj h)
  have hw := hb.wf c hc
  unfold Grid.WellFormed at hw
  rw [hn] at hw
  obtain ⟨ht, i', j', hi', hj', -, e, hrow, hconst⟩ := hw
  obtain ⟨rfl, rfl⟩ := Grid.node_inj hj hj' e
  have := hm c hc (by rw [ht]; decide)
  rw [hrow, hconst] at this
  exact this

/-- The currents at a node balance. -/
theorem Grid.Continuous.balance (h2 : 2 ≤ g.N) (h1 : 1 ≤ g.h) {x : Int → ℝ} (hx : g.Continuous x) {i j : Nat} (hi : i ≤ g.N) (hj : j < g.n) :
    x (g.connected i j).torIn + x (g.connected i j).polIn = x (g.connected i j).torOut + x (g.connected i j).polOut := by
  obtain ⟨T, P, hf⟩ := (C83_unfold h2 h1 x).1
  obtain ⟨a, b, c, d⟩ := C83_connected h2 h1 hf i j hi hj
  rw [a, b, c, d]
  exact (C83_continuity h2 h1 hf).mp hx i j

/-- Where currents flow there are no dead ends. -/
theorem Grid.Continuous.noDeadEnd (h2 : 2 ≤ g.N) (h1 : 1 ≤ g.h) {x : Int → ℝ} (hx : g.Continuous x) (E : Nat → Prop) (hE : ∀ s, E s → x s = 0) : g.NoDeadEnd E (fun s => s < g.nSeg ∧ x s ≠ 0) := by
  intro dF
  refine ⟨fun s hs => ⟨hs.1, fun h => hs.2 (hE s h)⟩, fun i hi j hj hone => ?_⟩
  have hbal := hx.balance h2 h1 hi hj
  have hr := fun t (ht : t ∈ g.conn (i, j)) => Grid.conn_range h2 h1 hi hj ht
  have key : ∀ t ∈ g.conn (i, j), (decide (t.toNat < g.nSeg ∧ x t.toNat ≠ 0) = true ↔ x t ≠ 0) := by
    intro t ht
    have := hr t ht
    rw [decide_eq_true_eq, show ((t.toNat : Nat) : Int) = t by omega]
    exact ⟨And.right, fun h => ⟨by omega, h⟩⟩
  have k1 := key (g.connected i j).torIn (by simp [Grid.conn])
  have k2 := key (g.connected i j).polIn (by simp [Grid.conn])
  have k3 := key (g.connected i j).torOut (by simp [Grid.conn])
  have k4 := key (g.connected i j).polOut (by simp [Grid.conn])
  simp only [Grid.degree, Grid.conn, List.countP_cons, List.countP_nil, k1, k2, k3, k4] at hone
  split_ifs at hone with b1 b2 b3 b4 b5 b6 b7 b8 b9 b10 b11 b12 b13 b14 b15 <;> first | omega | skip
  all_goals simp only [ne_eq, not_not] at *
  all_goals first | (apply b1; linarith) | (apply b2; linarith) | (apply b3; linarith) | (apply b4; linarith) | (apply b5; linarith) | (apply b6; linarith) | (apply b7; linarith) | (apply b8; linarith) | (apply b9; linarith) | (apply b10; linarith) | (apply b11; linarith) | (apply b12; linarith) | (apply b13; linarith) | (apply b14; linarith) | (apply b15; linarith)

/-- **C84, implicit constraints are implied.** Currents that meet the explicit constraints and the continuity vanish in every segment reported as constrained. -/
theorem C84_sound (h2 : 2 ≤ g.N) (h1 : 1 ≤ g.h) {w : Wf} (hr : g.Reach w) (x : Int → ℝ) (hm : w.Meets g x) (s : Nat) (hs : s < g.nSeg) (hf : s ∉ g.freeSegs (g.fresh w)) : x s = 0 := by
  have hb := (hr.inv h2 h1).1
  by_contra hne
  exact hf ((C84_closure h2 h1 hr).2.2.1 _ ((hm.continuous hb).noDeadEnd h2 h1 _ fun t ht => hm.zero hb ((hb.explicit t).mp ht)) s ⟨hs, hne⟩)

/-- Specification: `C @ y = d`. -/
def Solves (M : List (Row × ℝ) × List Nat) (y : Int → ℝ) : Prop := ∀ r ∈ M.1, (M.2.map fun (s : Nat) => r.1 s * y s).sum = r.2

theorem sum_range_list (m : Nat) (f : Nat → ℝ) : ((List.range m).map f).sum = ∑ s ∈ Finset.range m, f s := by
  induction m with
  | zero => simp
  | succ m ih => rw [List.range_succ, List.map_append, List.sum_append, ih, Finset.sum_range_succ]; simp

theorem sum_filter_list (m : Nat) (p : Nat → Bool) (f : Nat → ℝ) : (((List.range m).filter p).map f).sum = ∑ s ∈ Finset.range m, if p s then f s else 0 := by
  induction m with
  | zero => simp
  | succ m ih =>
    rw [List.range_succ, List.filter_append, List.map_append, List.sum_append, ih, Finset.sum_range_succ]
    congr 1
    cases hp : p m <;> simp [hp]

/-- The continuity row of a node without free segments gives zero for currents in the free segments. -/
theorem inactive_row {w : Wf} (h2 : 2 ≤ g.N) (h1 : 1 ≤ g.h) {i j : Nat} (hi : i ≤ g.N) (hj : j < g.n) (h0 : g.nodeSum (g.freeSegs w) (i, j) = 0) (x : Int → ℝ)
    (hx : ∀ s < g.nSeg, s ∉ g.freeSegs w → x s = 0) : g.apply (contRow (g.connected i j)) x = 0 := by
  rw [Grid.nodeSum_eq h2 h1 w hi hj, Grid.degree, List.countP_eq_zero] at h0
  refine Finset.sum_eq_zero fun s hs => ?_
  rw [Finset.mem_range] at hs
  by_cases hc : (s : Int) ∈ g.conn (i, j)
  · have := h0 _ hc
    simp only [Int.toNat_natCast, decide_eq_true_eq] at this
    rw [hx s hs this, mul_zero]
  · simp only [Grid.conn, List.mem_cons, List.not_mem_nil, or_false, not_or] at hc
    rw [contRow, if_neg (by tauto), if_neg (by tauto), zero_mul]

/-- **C84, the matrices.** `constraint_matrices` describes exactly the currents that meet the constraints, whether or not redundant rows are removed.  If the columns of constrained segments are removed, it describes the currents in the
free segments: with zeros elsewhere they meet the constraints; by `C84_sound` no others do. -/
theorem C84_matrices (h2 : 2 ≤ g.N) (h1 : 1 ≤ g.h) {w : Wf} (hr : g.Reach w) (noRedundant : Bool) (x : Int → ℝ) :
    (Solves (g.matrices noRedundant false w) x ↔ w.Meets g x) ∧
    (Solves (g.matrices noRedundant true w) x ↔ w.Meets g fun s => if s.toNat ∈ g.freeSegs (g.fresh w) then x s else 0) ∧
    (g.matrices noRedundant true w).2 = g.freeSegs (g.fresh w) := by
  have hi := hr.inv h2 h1
  obtain ⟨⟨hb, -⟩, hc, hs⟩ := hi.fresh h2 h1
  have hrf : g.Reach (g.fresh w) := Grid.Reach.step .query hr
  -- meeting the constraints before and after the update is the same
  have hmeet : ∀ y, (g.fresh w).Meets g y ↔ w.Meets g y := fun y =>
    ⟨fun h c hc ht => h c ((hs c ht).mpr hc) ht, fun h c hc ht => h c ((hs c ht).mp hc) ht⟩
  have hff : g.fresh (g.fresh w) = g.fresh w := by
    rw [Grid.fresh]
    split
    · rfl
    · rename_i h
      exfalso; apply h
      rw [Grid.fresh]; split
      · assumption
      · rfl
  have hzero : ∀ y, (g.fresh w).Meets g y → ∀ s < g.nSeg, s ∉ g.freeSegs (g.fresh w) → y s = 0 := fun y hy s hs hns => by
    have := C84_sound h2 h1 hrf y hy s hs
    rw [hff] at this; exact this hns
  -- a removed continuity row holds for currents in the free segments
  have hskip : ∀ y : Int → ℝ, (∀ s < g.nSeg, s ∉ g.freeSegs (g.fresh w) → y s = 0) → ∀ c ∈ (g.fresh w).cons,
      ((g.nodes.filter fun v => decide (g.nodeSum (g.freeSegs (g.fresh w)) v = 0)).any fun v => decide (c.name = .cont (g.node v.1 v.2))) = true → g.apply c.row y = c.const := by
    intro y hy c hc' hex
    obtain ⟨v, hv, hn⟩ := List.any_eq_true.mp hex
    rw [decide_eq_true_eq] at hn
    have hv := List.mem_filter.mp hv
    have hvn := Grid.mem_nodes.mp hv.1
    have hw := hb.wf c hc'
    unfold Grid.WellFormed at hw
    rw [hn] at hw
    obtain ⟨ht, i', j', hi', hj', -, e, hrow, hconst⟩ := hw
    obtain ⟨ei, ej⟩ := Grid.node_inj hvn.2 hj' e
    rw [hrow, hconst, ← ei, ← ej]
    exact inactive_row h2 h1 hvn.1 hvn.2 (by simpa using hv.2) y hy
  have hsegrow : ∀ y : Int → ℝ, (∀ s < g.nSeg, s ∉ g.freeSegs (g.fresh w) → y s = 0) → ∀ c ∈ (g.fresh w).cons, c.type.isSeg = true → g.apply c.row y = c.const := by
    intro y hy c hc' ht
    have hw := hb.wf c hc'
    rw [hw.isSeg] at ht
    unfold Grid.WellFormed at hw
    cases e : c.name <;> rw [e] at hw ht <;> simp only [Name.isSeg, Bool.false_eq_true] at ht
    all_goals
      rw [hw.2.2.1, hw.2.2.2, apply_unitRow hw.2.1]
      refine hy _ hw.2.1 fun hfree => ?_
      rw [hb.mem_free] at hfree
    · exact hfree.2.1 (Wf.has_iff.mpr ⟨c, hc', e⟩)
    · exact hfree.2.2 (Wf.has_iff.mpr ⟨c, hc', e⟩)
  refine ⟨?_, ?_, ?_⟩
  · rw [← hmeet]
    simp only [Solves, Grid.matrices, Bool.false_and, Bool.or_false, Bool.false_eq_true, if_false, List.mem_map, List.mem_filter, sum_range_list]
    constructor
    · intro h
      -- rows of segment constraints are all there
      have hseg : ∀ s < g.nSeg, s ∉ g.freeSegs (g.fresh w) → x s = 0 := by
        intro s hs' hns
        rw [hb.mem_free] at hns
        have : (g.fresh w).has (.seg s) = true ∨ (g.fresh w).has (.impl s) = true := by tauto
        rcases this with hh | hh
        all_goals
          obtain ⟨c, hc', hn⟩ := Wf.has_iff.mp hh
          have hw := hb.wf c hc'
          unfold Grid.WellFormed at hw
          rw [hn] at hw
          have := h (c.row, c.const) ⟨c, ⟨hc', by
            simp only [Bool.not_eq_true', Bool.and_eq_false_iff, List.any_eq_false, decide_eq_true_eq, hn, reduceCtorEq, not_false_eq_true, implies_true, or_true]⟩, rfl⟩
          simp only [hw.2.2.1, hw.2.2.2] at this
          rw [← apply_unitRow hw.2.1 x]
          exact this
      intro c hc' ht
      by_cases hex : (noRedundant && (g.nodes.filter fun v => decide (g.nodeSum (g.freeSegs (g.fresh w)) v = 0)).any fun v => decide (c.name = .cont (g.node v.1 v.2))) = true
      · rw [Bool.and_eq_true] at hex
        exact hskip x hseg c hc' hex.2
      · exact h (c.row, c.const) ⟨c, ⟨hc', by rw [Bool.not_eq_true] at hex; rw [hex]; rfl⟩, rfl⟩
    · intro h r hr'
      obtain ⟨c, ⟨hc', -⟩, rfl⟩ := hr'
      by_cases ht : c.type = .implicit
      · exact hsegrow x (hzero x h) c hc' (by rw [ht]; rfl)
      · exact h c hc' ht
  · rw [← hmeet]
    have hy : ∀ s < g.nSeg, s ∉ g.freeSegs (g.fresh w) → (fun s : Int => if s.toNat ∈ g.freeSegs (g.fresh w) then x s else 0) s = 0 := by
      intro s _ hns
      simp only [Int.toNat_natCast, if_neg hns]
    have hsum : ∀ r : Row, ((g.freeSegs (g.fresh w)).map fun (s : Nat) => r s * x s).sum = g.apply r fun s => if s.toNat ∈ g.freeSegs (g.fresh w) then x s else 0 := by
      intro r
      have e := sum_filter_list g.nSeg (fun s => !decide (s ∈ (g.fresh w).explicit ++ (g.fresh w).implicit)) fun s => r s * x s
      rw [show (List.range g.nSeg).filter (fun s => !decide (s ∈ (g.fresh w).explicit ++ (g.fresh w).implicit)) = g.freeSegs (g.fresh w) from rfl] at e
      rw [e, Grid.apply]
      refine Finset.sum_congr rfl fun s hs' => ?_
      rw [Finset.mem_range] at hs'
      have hmem : (s ∈ g.freeSegs (g.fresh w)) ↔ (!decide (s ∈ (g.fresh w).explicit ++ (g.fresh w).implicit)) = true := by
        rw [Grid.freeSegs, List.mem_filter, List.mem_range]; exact ⟨And.right, fun h => ⟨hs', h⟩⟩
      simp only [Int.toNat_natCast, hmem]
      split
      · rfl
      · rw [mul_zero]
    simp only [Solves, Grid.matrices, Bool.true_and, if_true, List.mem_map, List.mem_filter, hsum]
    constructor
    · intro h c hc' ht
      by_cases hex : (noRedundant && (g.nodes.filter fun v => decide (g.nodeSum (g.freeSegs (g.fresh w)) v = 0)).any fun v => decide (c.name = .cont (g.node v.1 v.2))) = true
      · rw [Bool.and_eq_true] at hex
        exact hskip _ hy c hc' hex.2
      · by_cases hsg : c.type.isSeg = true
        · exact hsegrow _ hy c hc' hsg
        · exact h (c.row, c.const) ⟨c, ⟨hc', by rw [Bool.not_eq_true] at hex hsg; rw [hex, hsg]; rfl⟩, rfl⟩
    · intro h r hr'
      obtain ⟨c, ⟨hc', -⟩, rfl⟩ := hr'
      by_cases ht : c.type = .implicit
      · exact hsegrow _ hy c hc' (by rw [ht]; rfl)
      · exact h c hc' ht
  · rfl

end Simsopt.Wireframe
