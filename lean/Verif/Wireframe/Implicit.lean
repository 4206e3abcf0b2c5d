import Verif.Wireframe.ConsInv
/-! # The implicit constraints -/
namespace Simsopt.Wireframe

variable {g : Grid}

/-- The same constraints, apart from the implicit ones. -/
def SameCons (w0 w : Wf) : Prop := ∀ c : Constraint, c.type ≠ .implicit → (c ∈ w.cons ↔ c ∈ w0.cons)

theorem SameCons.refl (w : Wf) : SameCons w w := fun _ _ => Iff.rfl

theorem SameCons.trans {a b c : Wf} (h : SameCons a b) (h' : SameCons b c) : SameCons a c := fun d hd => (h' d hd).trans (h d hd)

theorem SameCons.has {w0 w : Wf} (h : SameCons w0 w) (hb : g.Base w) (hb0 : g.Base w0) (s : Nat) : w.has (.seg s) = true ↔ w0.has (.seg s) = true := by
  rw [Wf.has_iff, Wf.has_iff]
  constructor
  · rintro ⟨c, hc, hn⟩
    have := hb.wf c hc
    unfold Grid.WellFormed at this; rw [hn] at this
    exact ⟨c, (h c (by rw [this.1]; decide)).mp hc, hn⟩
  · rintro ⟨c, hc, hn⟩
    have := hb0.wf c hc
    unfold Grid.WellFormed at this; rw [hn] at this
    exact ⟨c, (h c (by rw [this.1]; decide)).mpr hc, hn⟩

/-- No set of segments without dead ends contains an implicitly constrained segment. -/
def Grid.Sound (g : Grid) (w : Wf) : Prop := ∀ F, g.NoDeadEnd (fun s => w.has (.seg s) = true) F → ∀ s, F s → ¬ w.has (.impl s) = true

theorem Wf.has_eq {w : Wf} {n : Name} : w.has n = false ↔ ¬ w.has n = true := by simp

theorem addImplicit_spec {w : Wf} {s : Int} (hs : 0 ≤ s ∧ s < g.nSeg) (h : ¬ w.has (.impl s.toNat) = true) :
    (g.addSegs [s] true w).2 = none ∧ (g.addSegs [s] true w).1.cons = w.cons ++ [segConstraint true s.toNat] := by
  have hr : g.inRange [s] = true := by rw [Grid.inRange_iff]; intro t ht; rw [List.mem_singleton] at ht; subst ht; exact hs
  have e : g.addSegs [s] true w = ((addConstraint (segConstraint true s.toNat) w).andThen fun w => (w, none)) := by
    simp only [Grid.addSegs, hr, Bool.not_true, Bool.false_eq_true, if_false, Bool.false_and, each]
  rw [e, Res.andThen, add_err, addConstraint]
  have h' : w.has (segConstraint true s.toNat).name = false := Wf.has_eq.mpr h
  rw [h']
  exact ⟨rfl, rfl⟩

/-- One step of a pass. -/
def Grid.step (g : Grid) (s : Int) (w : Wf) : Res := if !w.has (.seg s.toNat) && !w.has (.impl s.toNat) then g.addSegs [s] true w else (w, none)

theorem step_spec {w : Wf} (hb : g.Base w) {s : Int} (hs : 0 ≤ s ∧ s < g.nSeg) :
    (g.step s w).2 = none ∧ g.Base (g.step s w).1 ∧ SameCons w (g.step s w).1 ∧
      (∀ t, (g.step s w).1.has (.impl t) = true ↔ w.has (.impl t) = true ∨ (t = s.toNat ∧ ¬ w.has (.seg s.toNat) = true)) := by
  rw [Grid.step]
  by_cases h : w.has (.seg s.toNat) = true
  · rw [if_neg (by simp [h])]
    exact ⟨rfl, hb, SameCons.refl w, fun t => ⟨Or.inl, fun h' => h'.elim id fun h'' => absurd h h''.2⟩⟩
  · by_cases h' : w.has (.impl s.toNat) = true
    · rw [if_neg (by simp [h'])]
      exact ⟨rfl, hb, SameCons.refl w, fun t => ⟨Or.inl, fun h'' => h''.elim id fun h3 => by rw [h3.1]; exact h'⟩⟩
    · rw [if_pos (by simp [h, h'])]
      obtain ⟨e1, e2⟩ := addImplicit_spec hs h'
      refine ⟨e1, hb.addSegs _ _ (fun _ t ht => by rw [List.mem_singleton] at ht; rw [ht]; exact h), fun c hc => ?_, fun t => ?_⟩
      · rw [e2, List.mem_append, List.mem_singleton]
        refine ⟨fun hh => hh.elim id fun hh => absurd ?_ hc, Or.inl⟩
        rw [hh]; rfl
      · simp only [Wf.has_iff, e2, List.mem_append, List.mem_singleton]
        constructor
        · rintro ⟨c, hc | hc, hn⟩
          · exact Or.inl ⟨c, hc, hn⟩
          · rw [hc] at hn; simp only [segConstraint, if_true] at hn; injection hn with hn
            exact Or.inr ⟨hn.symm, by rw [← Wf.has_iff]; exact h⟩
        · rintro (⟨c, hc, hn⟩ | ⟨rfl, _⟩)
          · exact ⟨c, Or.inl hc, hn⟩
          · exact ⟨_, Or.inr rfl, rfl⟩

/-- A loop that never raises and establishes something for every element. -/
theorem each_all {α : Type} {f : α → Wf → Res} {I : Wf → Prop} {Q : α → Wf → Prop} (l : List α) (h : ∀ a ∈ l, ∀ w, I w → (f a w).2 = none ∧ I (f a w).1 ∧ Q a (f a w).1)
    (mono : ∀ a ∈ l, ∀ b w, I w → Q b w → Q b (f a w).1) (w : Wf) (hw : I w) : (each f l w).2 = none ∧ I (each f l w).1 ∧ (∀ a ∈ l, Q a (each f l w).1) ∧ ∀ b, Q b w → Q b (each f l w).1 := by
  induction l generalizing w with
  | nil => exact ⟨rfl, hw, by simp, fun _ h => h⟩
  | cons a l ih =>
    obtain ⟨h1, h2, h3⟩ := h a (by simp) w hw
    rw [each, Res.andThen, h1]
    obtain ⟨i1, i2, i3, i4⟩ := ih (fun b hb => h b (by simp [hb])) (fun b hb => mono b (by simp [hb])) _ h2
    refine ⟨i1, i2, fun b hb => ?_, fun b hb => i4 b (mono a (by simp) b w hw hb)⟩
    rcases List.mem_cons.mp hb with rfl | hb
    · exact i4 _ h3
    · exact i3 b hb

theorem Grid.pass_spec (h2 : 2 ≤ g.N) (h1 : 1 ≤ g.h) {w0 : Wf} (hb0 : g.Base w0) (hs0 : g.Sound w0) (vs : List (Nat × Nat)) (hvs : ∀ v ∈ vs, v ∈ g.nodes ∧ g.nodeSum (g.freeSegs w0) v = 1) :
    let w := (g.pass vs w0).1
    g.Base w ∧ SameCons w0 w ∧ g.Sound w ∧ (∀ s, w0.has (.impl s) = true → w.has (.impl s) = true) ∧ ∀ v ∈ vs, ∀ t ∈ g.conn v, w.has (.seg t.toNat) = true ∨ w.has (.impl t.toNat) = true := by
  intro w
  let I : Wf → Prop := fun w => g.Base w ∧ SameCons w0 w ∧ (∀ F, g.NoDeadEnd (fun s => w0.has (.seg s) = true) F → ∀ s, F s → ¬ w.has (.impl s) = true) ∧
    ∀ s, w0.has (.impl s) = true → w.has (.impl s) = true
  let Q : Int → Wf → Prop := fun t w => w.has (.seg t.toNat) = true ∨ w.has (.impl t.toNat) = true
  have one : ∀ v ∈ vs, ∀ t ∈ g.conn v, ∀ w, I w → (g.step t w).2 = none ∧ I (g.step t w).1 ∧ Q t (g.step t w).1 := by
    rintro v hv t ht w ⟨i1, i2, i3, i4⟩
    obtain ⟨hn, hsum⟩ := hvs v hv
    rw [Grid.mem_nodes] at hn
    have hr := Grid.conn_range h2 h1 hn.1 hn.2 (t := t) ht
    obtain ⟨k1, k2, k3, k4⟩ := step_spec i1 hr
    refine ⟨k1, ⟨k2, i2.trans k3, fun F hF s hs hh => ?_, fun s hs => (k4 s).mpr (Or.inl (i4 s hs))⟩, ?_⟩
    · rcases (k4 s).mp hh with hh | ⟨rfl, hns⟩
      · exact i3 F hF s hs hh
      · classical
        -- the node has exactly one free place, so `F` has none
        have hd := hF (Classical.decPred F)
        have hsub : ∀ s, F s → s ∈ g.freeSegs w0 := fun s hs => (hb0.mem_free s).mpr ⟨(hd.1 s hs).1, (hd.1 s hs).2, hs0 F hF s hs⟩
        have hdeg := hd.2 v.1 hn.1 v.2 hn.2
        have hle : g.degree F v ≤ g.degree (fun s => s ∈ g.freeSegs w0) v := Grid.degree_mono v hsub
        have e := Grid.nodeSum_eq h2 h1 w0 hn.1 hn.2
        rw [hsum] at e
        rw [← e] at hle
        have h0 : g.degree F v = 0 := by
          have : g.degree F v ≠ 1 := by convert hdeg
          omega
        rw [Grid.degree, List.countP_eq_zero] at h0
        exact h0 t ht (by simpa using hs)
    · by_cases h : w.has (.seg t.toNat) = true
      · exact Or.inl ((k3.has k2 i1 _).mpr h)
      · exact Or.inr ((k4 _).mpr (Or.inr ⟨rfl, h⟩))
  have mono1 : ∀ v ∈ vs, ∀ t ∈ g.conn v, ∀ b w, I w → Q b w → Q b (g.step t w).1 := by
    rintro v hv t ht b w ⟨i1, -, -, -⟩ hq
    have hn := Grid.mem_nodes.mp (hvs v hv).1
    obtain ⟨k1, k2, k3, k4⟩ := step_spec i1 (Grid.conn_range h2 h1 hn.1 hn.2 (t := t) ht)
    rcases hq with h | h
    · exact Or.inl ((k3.has k2 i1 _).mpr h)
    · exact Or.inr ((k4 _).mpr (Or.inl h))
  have inner : ∀ v ∈ vs, ∀ w, I w → (each g.step (g.conn v) w).2 = none ∧ I (each g.step (g.conn v) w).1 ∧ (∀ t ∈ g.conn v, Q t (each g.step (g.conn v) w).1) ∧ ∀ b, Q b w → Q b (each g.step (g.conn v) w).1 :=
    fun v hv w hw => each_all (g.conn v) (fun t ht => one v hv t ht) (fun t ht b w' hw' => mono1 v hv t ht b w' hw') w hw
  have hw0 : I w0 := ⟨hb0, SameCons.refl w0, hs0, fun _ h => h⟩
  obtain ⟨-, ⟨r1, r2, r3, r4⟩, r5, -⟩ := each_all (I := I) (Q := fun v w => ∀ t ∈ g.conn v, Q t w) vs (fun v hv w hw => ⟨(inner v hv w hw).1, (inner v hv w hw).2.1, (inner v hv w hw).2.2.1⟩)
    (fun v hv b w hw hq t ht => (inner v hv w hw).2.2.2 t (hq t ht)) w0 hw0
  refine ⟨r1, r2, fun F hF s hs => ?_, r4, fun v hv t ht => r5 v hv t ht⟩
  refine r3 F ?_ s hs
  intro dF
  have := hF dF
  refine ⟨fun s hs => ⟨(this.1 s hs).1, fun h => (this.1 s hs).2 ((r2.has r1 hb0 s).mpr h)⟩, this.2⟩

theorem Grid.freeSegs_nodup (w : Wf) : (g.freeSegs w).Nodup := List.nodup_range.sublist List.filter_sublist

/-- No node has exactly one free segment, and nothing was constrained that need not be. -/
def Grid.Closed (g : Grid) (w : Wf) : Prop := (∀ v ∈ g.nodes, g.nodeSum (g.freeSegs w) v ≠ 1) ∧ g.Sound w

theorem Grid.loop_spec (h2 : 2 ≤ g.N) (h1 : 1 ≤ g.h) (fuel : Nat) (w0 : Wf) (hb0 : g.Base w0) (hs0 : g.Sound w0) (hf : (g.freeSegs w0).length < fuel) :
    (g.loop fuel w0).2 = true ∧ g.Base (g.loop fuel w0).1 ∧ SameCons w0 (g.loop fuel w0).1 ∧ g.Closed (g.loop fuel w0).1 := by
  induction fuel generalizing w0 with
  | zero => omega
  | succ fuel ih =>
    simp only [Grid.loop]
    by_cases hv : (g.nodes.filter fun v => decide (g.nodeSum (g.freeSegs w0) v = 1)) = []
    · rw [if_pos hv]
      refine ⟨rfl, hb0, SameCons.refl w0, fun v hv' => ?_, hs0⟩
      have := (List.filter_eq_nil_iff.mp hv) v hv'
      simpa using this
    · rw [if_neg hv]
      obtain ⟨r1, r2, r3, r4, r5⟩ := Grid.pass_spec h2 h1 hb0 hs0 (g.nodes.filter fun v => decide (g.nodeSum (g.freeSegs w0) v = 1))
        (fun v hv => by rw [List.mem_filter] at hv; exact ⟨hv.1, by simpa using hv.2⟩)
      -- a segment was added
      have hlt : (g.freeSegs (g.pass (g.nodes.filter fun v => decide (g.nodeSum (g.freeSegs w0) v = 1)) w0).1).length < (g.freeSegs w0).length := by
        obtain ⟨v, hv'⟩ := List.exists_mem_of_ne_nil _ hv
        have hvm := List.mem_filter.mp hv'
        have hn := Grid.mem_nodes.mp hvm.1
        have hs1 : g.nodeSum (g.freeSegs w0) v = 1 := by simpa using hvm.2
        rw [Grid.nodeSum_eq h2 h1 w0 hn.1 hn.2] at hs1
        have hpos : 0 < g.degree (fun s => s ∈ g.freeSegs w0) v := by rw [hs1]; exact Nat.one_pos
        rw [Grid.degree, List.countP_pos_iff] at hpos
        obtain ⟨t, ht, htf⟩ := hpos
        have htf' : t.toNat ∈ g.freeSegs w0 := by simpa using htf
        have hnew := r5 v hv' t ht
        have hni : t.toNat ∉ g.freeSegs (g.pass (g.nodes.filter fun v => decide (g.nodeSum (g.freeSegs w0) v = 1)) w0).1 := by
          rw [r1.mem_free]
          rintro ⟨-, a, b⟩
          exact hnew.elim a b
        have hsub : t.toNat :: g.freeSegs (g.pass (g.nodes.filter fun v => decide (g.nodeSum (g.freeSegs w0) v = 1)) w0).1 ⊆ g.freeSegs w0 := by
          intro s hs
          rcases List.mem_cons.mp hs with rfl | hs
          · exact htf'
          · rw [r1.mem_free] at hs
            rw [hb0.mem_free]
            exact ⟨hs.1, fun h => hs.2.1 ((r2.has r1 hb0 s).mpr h), fun h => hs.2.2 (r4 s h)⟩
        have := ((List.nodup_cons.mpr ⟨hni, Grid.freeSegs_nodup _⟩).subperm hsub).length_le
        simpa using this
      obtain ⟨k1, k2, k3, k4⟩ := ih _ r1 r3 (by omega)
      exact ⟨k1, k2, r2.trans k3, k4⟩

theorem clear_spec {w : Wf} (hb : g.Base w) : (clearImplicit w).2 = none ∧ g.Base (clearImplicit w).1 ∧ SameCons w (clearImplicit w).1 ∧ ∀ s, ¬ (clearImplicit w).1.has (.impl s) = true := by
  let I : List Name → Wf → Prop := fun l v => l.Nodup ∧ g.Base v ∧ SameCons w v ∧ (∀ n ∈ l, v.has n = true ∧ ∃ s, n = .impl s) ∧ ∀ s, v.has (.impl s) = true → Name.impl s ∈ l
  have h0 : I ((w.cons.filter fun c => decide (c.type = .implicit)).map (·.name)) w := by
    refine ⟨hb.nodup.sublist (List.filter_sublist.map _), hb, SameCons.refl w, ?_, ?_⟩
    · intro n hn
      obtain ⟨c, hc, rfl⟩ := List.mem_map.mp hn
      rw [List.mem_filter] at hc
      refine ⟨Wf.has_iff.mpr ⟨c, hc.1, rfl⟩, ?_⟩
      have := hb.wf c hc.1
      have ht : c.type = .implicit := by simpa using hc.2
      unfold Grid.WellFormed at this
      cases e : c.name <;> rw [e] at this <;> simp only [ht, reduceCtorEq, false_and] at this
      exact ⟨_, rfl⟩
    · intro s hs
      obtain ⟨c, hc, hn⟩ := Wf.has_iff.mp hs
      have := hb.wf c hc
      unfold Grid.WellFormed at this
      rw [hn] at this
      exact List.mem_map.mpr ⟨c, List.mem_filter.mpr ⟨hc, by simpa using this.1⟩, hn⟩
  have hstep : ∀ n l v, I (n :: l) v → (removeConstraint n v).2 = none ∧ I l (removeConstraint n v).1 := by
    intro n l v hv
    obtain ⟨i1, i2, i3, i4, i5⟩ := hv
    obtain ⟨hn, s, rfl⟩ := i4 n (by simp)
    refine ⟨by rw [remove_err, if_pos hn], (List.nodup_cons.mp i1).2, i2.remove _ rfl, ?_, ?_, ?_⟩
    · refine i3.trans fun c hc => ⟨mem_remove, fun h => ?_⟩
      rw [removeConstraint]
      cases e : v.cons.find? fun c => decide (c.name = .impl s) with
      | none => exact h
      | some d =>
        refine List.mem_filter.mpr ⟨h, ?_⟩
        simp only [Bool.not_eq_true', decide_eq_false_iff_not]
        intro hn'
        have := i2.wf c h
        unfold Grid.WellFormed at this
        rw [hn'] at this
        exact hc this.1
    · intro n hn'
      have := i4 n (by simp [hn'])
      refine ⟨(has_remove _ _ _).mpr ⟨this.1, ?_⟩, this.2⟩
      rintro rfl
      exact (List.nodup_cons.mp i1).1 hn'
    · intro t ht
      rw [has_remove] at ht
      rcases List.mem_cons.mp (i5 t ht.1) with h | h
      · exact absurd h ht.2
      · exact h
  obtain ⟨r1, -, r2, r3, -, r4⟩ := each_ok (I := I) _ hstep w h0
  exact ⟨r1, r2, r3, fun s hs => by have := r4 s hs; simp at this⟩

theorem base_setUpdated {w : Wf} (hb : g.Base w) : g.Base w.setUpdated := ⟨hb.nodup, hb.wf, hb.cont, hb.disj⟩

theorem Grid.update_spec (h2 : 2 ≤ g.N) (h1 : 1 ≤ g.h) {w : Wf} (hb : g.Base w) :
    (g.loop (g.nSeg + 1) (clearImplicit w).1).2 = true ∧ g.Base (g.update w) ∧ SameCons w (g.update w) ∧ g.Closed (g.update w) ∧ (g.update w).updated = true := by
  obtain ⟨-, c2, c3, c4⟩ := clear_spec hb
  have hs : g.Sound (clearImplicit w).1 := fun F _ s _ h => c4 s h
  have hl : (g.freeSegs (clearImplicit w).1).length < g.nSeg + 1 := by
    have : (g.freeSegs (clearImplicit w).1).length ≤ (List.range g.nSeg).length := List.length_filter_le _ _
    rw [List.length_range] at this; omega
  obtain ⟨k1, k2, k3, k4⟩ := Grid.loop_spec h2 h1 (g.nSeg + 1) _ c2 hs hl
  exact ⟨k1, base_setUpdated k2, c3.trans k3, k4, rfl⟩

end Simsopt.Wireframe
