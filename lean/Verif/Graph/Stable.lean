import Verif.Graph.Props2
/-!
# What a method of an object can read, and when it can change

`SameInputs s s' j`: the objects `j` depends on (itself included) have the same parents, the same DOFs objects and
the same dof values and names in `s'` as in `s`.  Free/fixed status and bounds are *not* part of it: `fix`/`unfix` do not notify.
-/
namespace Simsopt.Graph
variable {V : Type} {cfg : Cfg V}

/-- Everything a method of `j` can read, apart from free/fixed status and bounds, is the same in both stores. -/
def SameInputs (s s' : State V) (j : Nat) : Prop :=
  ∀ a, DependsOn s j a →
    (s'.obj a).name = (s.obj a).name ∧ (s'.obj a).parents = (s.obj a).parents ∧ (s'.obj a).dofs = (s.obj a).dofs ∧
    (s'.dof (s.obj a).dofs).x = (s.dof (s.obj a).dofs).x ∧ (s'.dof (s.obj a).dofs).names = (s.dof (s.obj a).dofs).names

theorem SameInputs.refl (s : State V) (j : Nat) : SameInputs s s j := fun _ _ => ⟨rfl, rfl, rfl, rfl, rfl⟩

theorem DependsOn.trans' {s : State V} {a b c : Nat} (h : DependsOn s a b) (h' : DependsOn s b c) : DependsOn s a c := by
  rcases h with rfl | h
  · exact h'
  · rcases h' with rfl | h'
    · exact Or.inr h
    · exact Or.inr (h'.trans h)

theorem SameInputs.of_dep {s s' : State V} {j a : Nat} (h : SameInputs s s' j) (ha : DependsOn s j a) : SameInputs s s' a :=
  fun b hb => h b (ha.trans' hb)

/-- The lineage of an object is a function of its inputs. -/
theorem SameInputs.anc (hn : NameInj cfg) {s s' : State V} (h : Inv cfg s) (h' : Inv cfg s') :
    ∀ j, s.alive j = true → s'.alive j = true → SameInputs s s' j → (s'.obj j).anc = (s.obj j).anc := by
  intro j
  induction j using h.acyclic.induction with
  | _ j ih =>
    intro hj hj' hs
    rw [(h.full j hj).anc, (h'.full j hj').anc]
    have hp : ∀ p ∈ (s.obj j).parents, DependsOn s j p := fun p hp => Or.inr (Relation.TransGen.single ⟨hj, hp⟩)
    have hpar := (hs j (Or.inl rfl)).2.1
    have hL : (s'.obj j).parents.flatMap (fun p => (s'.obj p).anc) ++ (s'.obj j).parents =
        (s.obj j).parents.flatMap (fun p => (s.obj p).anc) ++ (s.obj j).parents := by
      rw [hpar]
      congr 1
      apply List.flatMap_congr
      intro p hpp
      refine ih p ⟨hj, hpp⟩ (h.graph.parAlive j p hj hpp) (h'.graph.parAlive j p hj' (by rw [hpar]; exact hpp)) (hs.of_dep (hp p hpp))
    have hmem : ∀ a ∈ (s.obj j).parents.flatMap (fun p => (s.obj p).anc) ++ (s.obj j).parents, DependsOn s j a := by
      intro a ha
      rcases List.mem_append.mp ha with ha | ha
      · obtain ⟨p, hpp, hap⟩ := List.mem_flatMap.mp ha
        exact Or.inr (Relation.TransGen.tail ((h.anc_iff hn p (h.graph.parAlive j p hj hpp) a).mp hap) ⟨hj, hpp⟩)
      · exact hp a ha
    unfold getAncestors
    simp only []
    rw [hL, dedupOn_congr (k := fun a => (s'.obj a).name) (k' := fun a => (s.obj a).name) _ (fun a ha => (hs a (hmem a ha)).1)]
    unfold sortByName
    apply sortBy_congr
    intro a ha b hb
    have ha' := hmem a ((mem_of_dedupOn ha))
    have hb' := hmem b ((mem_of_dedupOn hb))
    rw [(hs a ha').1, (hs b hb').1]

theorem SameInputs.uniq (hn : NameInj cfg) {s s' : State V} (h : Inv cfg s) (h' : Inv cfg s') {j : Nat}
    (hj : s.alive j = true) (hj' : s'.alive j = true) (hs : SameInputs s s' j) : (s'.obj j).uniq = (s.obj j).uniq := by
  rw [(h.full j hj).uniq, (h'.full j hj').uniq, hs.anc hn h h' j hj hj']
  apply dedupOn_congr
  intro a ha
  refine (hs a ?_).2.2.1
  rcases List.mem_append.mp ha with h1 | h1
  · exact Or.inr ((h.anc_iff hn j hj a).mp h1)
  · simp at h1; exact Or.inl h1.symm

/-- `full_x` reads nothing but the inputs. -/
theorem SameInputs.fullX (hn : NameInj cfg) {s s' : State V} (h : Inv cfg s) (h' : Inv cfg s') {j : Nat}
    (hj : s.alive j = true) (hj' : s'.alive j = true) (hs : SameInputs s s' j) : getFullX s' j = getFullX s j := by
  unfold getFullX
  rw [hs.uniq hn h h' hj hj']
  apply List.flatMap_congr
  intro o ho
  have := hs o (h.uniq_mem hn hj ho).1
  rw [this.2.2.1]
  exact this.2.2.2.1

/-- One API call: either `j` is told to recompute, or nothing a method of `j` can read has changed; and the
    recompute flag of `j` is lowered by no call except `self.new_x = False` itself. -/
theorem step_inputs (hn : NameInj cfg) (hsh : ShuffleOK cfg) {op : Op V} {s s' : State V} (h : Inv cfg s) (hsafe : op.Safe s)
    (hst : Step cfg s op s') {j : Nat} (hj : s.alive j = true) :
    (Notified s s' j ∨ SameInputs s s' j) ∧
    (op ≠ .clearNewX j → (s.obj j).newX = true → (s'.obj j).newX = true) := by
  have hlt := h.graph.lt
  have al : ∀ {a}, DependsOn s j a → s.alive a = true := fun ha => ha.alive h.graph hj
  have vrOK : ValRel s s' → (Notified s s' j ∨ SameInputs s s' j) ∧
      (op ≠ .clearNewX j → (s.obj j).newX = true → (s'.obj j).newX = true) := by
    intro vr
    refine ⟨?_, fun _ => vr.flag.newX j⟩
    by_cases hc : ∃ a, DependsOn s j a ∧ (s'.dof (s.obj a).dofs).x ≠ (s.dof (s.obj a).dofs).x
    · obtain ⟨a, ha, hne⟩ := hc
      left
      exact vr.told _ hne a (h.dofs.depIn a (al ha)) (al ha) j ((h.graph.desc_iff a j).mpr ha)
    · right
      intro a ha
      refine ⟨vr.flag.static.name a, vr.flag.static.parents a, vr.flag.static.dofs a, ?_, (vr.mask _).2⟩
      by_contra hne
      exact hc ⟨a, ha, hne⟩
  have mrOK : MaskRel s s' → (Notified s s' j ∨ SameInputs s s' j) ∧
      (op ≠ .clearNewX j → (s.obj j).newX = true → (s'.obj j).newX = true) := by
    intro mr
    refine ⟨Or.inr fun a ha => ⟨mr.static.name a, mr.static.parents a, mr.dofs a, (mr.same _).1, (mr.same _).2.1⟩, fun _ hx => ?_⟩
    rw [(mr.lineage j).2.2.2.2.2.1]; exact hx
  have keptOK : Kept s s' → (Notified s s' j ∨ ∀ a, DependsOn s j a → (s'.obj a).name = (s.obj a).name ∧
        (s'.obj a).parents = (s.obj a).parents ∧ (s'.obj a).dofs = (s.obj a).dofs) →
      (Notified s s' j ∨ SameInputs s s' j) ∧
      (op ≠ .clearNewX j → (s.obj j).newX = true → (s'.obj j).newX = true) := by
    intro k hk
    refine ⟨hk.imp id (fun hk a ha => ?_), fun _ => k.newX j (hlt j hj)⟩
    have := k.dof _ (h.dofs.lt a (al ha))
    exact ⟨(hk a ha).1, (hk a ha).2.1, (hk a ha).2.2, by rw [this], by rw [this]⟩
  have editOK : ∀ i ps, EditOK cfg s i ps s' → (Notified s s' j ∨ SameInputs s s' j) ∧
      (op ≠ .clearNewX j → (s.obj j).newX = true → (s'.obj j).newX = true) := by
    intro i ps ok
    refine keptOK ok.2.1 ?_
    obtain ⟨_, _, _, _, _, _, nd, _, oth, told, dsc⟩ := ok
    by_cases hd : DependsOn s j i
    · exact Or.inl (told j (dsc j ((h.graph.desc_iff i j).mpr hd)))
    · right
      intro a ha
      have hai : a ≠ i := fun e => hd (e ▸ ha)
      exact ⟨(nd a).2, oth a hai, (nd a).1⟩
  have same : s' = s → (Notified s s' j ∨ SameInputs s s' j) ∧
      (op ≠ .clearNewX j → (s.obj j).newX = true → (s'.obj j).newX = true) := by
    rintro rfl; exact ⟨Or.inr (SameInputs.refl _ _), fun _ h => h⟩
  have stp : ∀ {r} {P : Prop}, exec cfg op s = r → (∃ u, r = .error .recursionError u) ∨ (∃ u, r = .ok () u ∧ (u = s' → P)) ∨
      (∃ e u, r = .error e u ∧ (u = s' → P)) → P := by
    intro r P er hr
    rcases hr with ⟨u, e⟩ | ⟨u, e, k⟩ | ⟨e', u, e, k⟩
    · rcases hst with e' | ⟨_, hne, e'⟩
      · rw [er, e] at e'; cases e'
      · rw [er, e] at e'; cases e'; exact absurd rfl hne
    · rcases hst with e' | ⟨_, hne, e'⟩
      · rw [er, e] at e'; cases e'; exact k rfl
      · rw [er, e] at e'; cases e'
    · rcases hst with e' | ⟨_, hne, e''⟩
      · rw [er, e] at e'; cases e'
      · rw [er, e] at e''; cases e''; exact k rfl
  cases op with
  | newDofs a =>
    refine stp (discard_run (newDofs cfg a) s) ?_
    rcases newDofs_spec hn a s h with ⟨e, _, h1⟩ | ⟨r, _, h1, _⟩
    · rw [h1]; right; right; exact ⟨_, _, rfl, fun e => same e.symm⟩
    · rw [h1]; right; left
      refine ⟨_, rfl, fun e => keptOK (e ▸ newDofs_kept s r) (Or.inr fun a _ => ?_)⟩
      subst e; exact ⟨rfl, rfl, rfl⟩
  | new cls src setter depends dedup =>
    refine stp (discard_run (new cfg cls src setter depends dedup) s) ?_
    cases src with
    | shared d =>
      rw [new_shared_eq]
      rcases newWith_spec hn hsh cls d setter depends dedup s h hsafe.2 hsafe.1 with ⟨s', e⟩ | ⟨ps, t, _, e, ok⟩
      · rw [e]; left; exact ⟨_, rfl⟩
      · rw [e]; right; left
        refine ⟨_, rfl, fun e => ?_⟩
        subst e
        refine keptOK ok.2.1 (Or.inr fun a ha => ?_)
        obtain ⟨_, _, _, _, _, _, _, _, _, _, _, old, _⟩ := ok
        have := old a (hlt a (al ha)); exact ⟨this.2.2, this.1, this.2.1⟩
    | fresh a =>
      rw [new_fresh_eq, run_bind]
      rcases newDofs_spec hn a s h with ⟨e, _, h1⟩ | ⟨r, _, h1, h2⟩
      · rw [h1]; right; right; exact ⟨_, _, rfl, fun e => same e.symm⟩
      · rw [h1]
        simp only
        rcases newWith_spec hn hsh cls s.ndof setter depends dedup _ h2 (Nat.lt_succ_self _) hsafe.1 with ⟨s', e⟩ | ⟨ps, t, _, e, ok⟩
        · rw [e]; left; exact ⟨_, rfl⟩
        · rw [e]; right; left
          refine ⟨_, rfl, fun e => ?_⟩
          subst e
          refine keptOK ((newDofs_kept s r).trans ok.2.1) (Or.inr fun a ha => ?_)
          obtain ⟨_, _, _, _, _, _, _, _, _, _, _, old, _⟩ := ok
          have := old a (hlt a (al ha)); exact ⟨this.2.2, this.1, this.2.1⟩
  | replaceDofs i d =>
    refine stp (r := replaceDofs cfg i d s) rfl ?_
    rcases replaceDofs_spec hn i d s h hsafe.1 hsafe.2 with ⟨s', e, _⟩ | ⟨s', e, ok⟩
    · rw [e]; left; exact ⟨_, rfl⟩
    · rw [e]; right; left
      refine ⟨_, rfl, fun e => ?_⟩
      subst e
      refine keptOK ok.2.1 ?_
      obtain ⟨_, _, _, _, _, _, _, oth, pn, told⟩ := ok
      by_cases hd : DependsOn s j i
      · exact Or.inl (told j ((h.graph.desc_iff i j).mpr hd))
      · right
        intro a ha
        exact ⟨(pn a).2, (pn a).1, oth a (fun e => hd (e ▸ ha))⟩
  | addParent i idx p =>
    refine stp (r := addParent cfg i idx p s) rfl ?_
    rcases addParent_spec hn hsh i idx p s h hsafe.1 hsafe.2 with ⟨s', e⟩ | ⟨_, e⟩ | ⟨_, s', e, ok⟩
    · rw [e]; left; exact ⟨_, rfl⟩
    · rw [e]; right; left; exact ⟨_, rfl, fun e => same e.symm⟩
    · rw [e]; right; left; exact ⟨_, rfl, fun e => editOK _ _ (e ▸ ok)⟩
  | appendParent i p =>
    refine stp (r := addParent cfg i (s.obj i).parents.length p s) rfl ?_
    rcases addParent_spec hn hsh i (s.obj i).parents.length p s h hsafe.1 hsafe.2 with ⟨s', e⟩ | ⟨_, e⟩ | ⟨_, s', e, ok⟩
    · rw [e]; left; exact ⟨_, rfl⟩
    · rw [e]; right; left; exact ⟨_, rfl, fun e => same e.symm⟩
    · rw [e]; right; left; exact ⟨_, rfl, fun e => editOK _ _ (e ▸ ok)⟩
  | popParent i idx =>
    refine stp (discard_run (popParent cfg i idx) s) ?_
    rcases popParent_spec hn hsh i idx s h hsafe.1 hsafe.2 with ⟨s', e⟩ | ⟨e, _⟩ | ⟨k, p, s', _, _, e, ok⟩
    · rw [e]; left; exact ⟨_, rfl⟩
    · rw [e]; right; right; exact ⟨_, _, rfl, fun e => same e.symm⟩
    · rw [e]; right; left; exact ⟨_, rfl, fun e => editOK _ _ (e ▸ ok)⟩
  | removeParent i p =>
    refine stp (r := removeParent cfg i p s) rfl ?_
    rcases removeParent_spec hn hsh i p s h hsafe.1 hsafe.2.1 hsafe.2.2 with ⟨s', e⟩ | ⟨_, e⟩ | ⟨_, ps, s', _, _, e, ok⟩
    · rw [e]; left; exact ⟨_, rfl⟩
    · rw [e]; right; right; exact ⟨_, _, rfl, fun e => same e.symm⟩
    · rw [e]; right; left; exact ⟨_, rfl, fun e => editOK _ _ (e ▸ ok)⟩
  | gc i =>
    obtain ⟨t, e, _, h2, _, _, ob⟩ := gc_spec i s h
    refine stp (r := gc i s) rfl ?_
    rw [e]; right; left
    refine ⟨_, rfl, fun e => ?_⟩
    subst e
    exact keptOK h2 (Or.inr fun a _ => by rw [ob]; exact ⟨rfl, rfl, rfl⟩)
  | setX i v => exact vrOK ((out_setX i v s h).of_step hst).2
  | setFullX i v => exact vrOK ((out_setFullX i v s h).of_step hst).2
  | setLocalX i v => exact vrOK ((out_setLocalX i v s s ⟨h, ValRel.refl s⟩).of_step hst).2
  | setLocalFullX i v => exact vrOK ((out_setLocalFullX i v s s ⟨h, ValRel.refl s⟩).of_step hst).2
  | setKey i k v => exact vrOK ((out_setKey i k v s s ⟨h, ValRel.refl s⟩).of_step hst).2
  | fix i k =>
    have : Out (fix cfg i k) s (fun s' => Inv cfg s' ∧ MaskRel s s') := by rw [fix_eq]; exact out_maskOp hn (mask_fix k) i s s ⟨h, MaskRel.refl s⟩ hsafe
    exact mrOK (this.of_step hst).2
  | unfix i k =>
    have : Out (unfix cfg i k) s (fun s' => Inv cfg s' ∧ MaskRel s s') := by rw [unfix_eq]; exact out_maskOp hn (mask_unfix k) i s s ⟨h, MaskRel.refl s⟩ hsafe
    exact mrOK (this.of_step hst).2
  | localFixAll i =>
    have : Out (localFixAll cfg i) s (fun s' => Inv cfg s' ∧ MaskRel s s') := by rw [localFixAll_eq]; exact out_maskOp hn mask_fixAll i s s ⟨h, MaskRel.refl s⟩ hsafe
    exact mrOK (this.of_step hst).2
  | localUnfixAll i =>
    have : Out (localUnfixAll cfg i) s (fun s' => Inv cfg s' ∧ MaskRel s s') := by rw [localUnfixAll_eq]; exact out_maskOp hn mask_unfixAll i s s ⟨h, MaskRel.refl s⟩ hsafe
    exact mrOK (this.of_step hst).2
  | fixAll i => exact mrOK ((out_fixAll hn i s h hsafe).of_step hst).2
  | unfixAll i => exact mrOK ((out_unfixAll hn i s h hsafe).of_step hst).2
  | fullFix i arr => exact mrOK ((out_fullFix hn i arr s h).of_step hst).2
  | fullUnfix i arr => exact mrOK ((out_fullUnfix hn i arr s h).of_step hst).2
  | bounds i b => exact vrOK ((out_execBound i b s h).of_step hst).2
  | clearNewX i =>
    refine stp (r := clearNewX i s) rfl (Or.inr (Or.inl ⟨_, rfl, fun e => ?_⟩))
    have hc : Cleared s s' := ⟨i, e.symm⟩
    have sm := hc.static
    refine ⟨Or.inr fun a _ => ⟨sm.name a, sm.parents a, sm.dofs a, by rw [sm.dof], by rw [sm.dof]⟩, fun hne hx => ?_⟩
    have hji : j ≠ i := fun e => hne (by rw [e])
    rw [← e]
    show (upd s.obj i _ j).newX = true
    rw [upd_ne _ _ _ _ hji]; exact hx

end Simsopt.Graph
