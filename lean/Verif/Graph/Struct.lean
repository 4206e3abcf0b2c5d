import Verif.Graph.Masks
/-! Helper lemmas: operations that change the graph. -/
set_option linter.unusedSimpArgs false
namespace Simsopt.Graph
variable {V : Type} {cfg : Cfg V}

/-! ### lineage data depends only on what an object depends on -/

/-- `s` and `s'` give object `a` the same identity, links and caches. -/
structure Agree (s s' : State V) (a : Nat) : Prop where
  name : (s'.obj a).name = (s.obj a).name
  dofs : (s'.obj a).dofs = (s.obj a).dofs
  parents : (s'.obj a).parents = (s.obj a).parents
  anc : (s'.obj a).anc = (s.obj a).anc
  uniq : (s'.obj a).uniq = (s.obj a).uniq
  fullSize : (s'.obj a).fullSize = (s.obj a).fullSize
  fullIdx : (s'.obj a).fullIdx = (s.obj a).fullIdx
  freeSize : (s'.obj a).freeSize = (s.obj a).freeSize
  freeIdx : (s'.obj a).freeIdx = (s.obj a).freeIdx
  size : localSize s' a = localSize s a
  lfsize : localFullSize s' a = localFullSize s a

theorem dedupOn_congr {α β : Type} [DecidableEq β] {k k' : α → β} (l : List α) (h : ∀ a ∈ l, k a = k' a) :
    dedupOn k l = dedupOn k' l := by
  unfold dedupOn
  have key : ∀ (l acc : List α), (∀ a ∈ l, k a = k' a) → (∀ a ∈ acc, k a = k' a) →
      l.foldl (fun acc a => if acc.any (fun b => k b = k a) then acc else acc ++ [a]) acc =
      l.foldl (fun acc a => if acc.any (fun b => k' b = k' a) then acc else acc ++ [a]) acc := by
    intro l
    induction l with
    | nil => intros; rfl
    | cons a l ih =>
      intro acc hl hacc
      simp only [List.foldl_cons]
      have e : acc.any (fun b => decide (k b = k a)) = acc.any (fun b => decide (k' b = k' a)) := by
        rw [Bool.eq_iff_iff, List.any_eq_true, List.any_eq_true]
        have ha := hl a List.mem_cons_self
        constructor
        · rintro ⟨b, hb, hk⟩; exact ⟨b, hb, by rw [hacc b hb, ha] at hk; exact hk⟩
        · rintro ⟨b, hb, hk⟩; exact ⟨b, hb, by rw [hacc b hb, ha]; exact hk⟩
      rw [e]
      apply ih _ (fun b hb => hl b (List.mem_cons_of_mem _ hb))
      intro b hb
      split at hb
      · exact hacc b hb
      · rcases List.mem_append.mp hb with h | h
        · exact hacc b h
        · simp at h; subst h; exact hl b List.mem_cons_self
  exact key l [] h (by simp)

theorem indexPairs_congr {opts : List Nat} {f g : Nat → Nat} (h : ∀ o ∈ opts, f o = g o) :
    indexPairs opts (opts.map f) = indexPairs opts (opts.map g) := by
  rw [List.map_congr_left h]

theorem DependsOn.alive (h : GraphOK cfg s) {j a : Nat} (hj : s.alive j = true) (hd : DependsOn s j a) :
    s.alive a = true := by
  rcases hd with e | ha
  · rw [← e]; exact hj
  · exact ha.alive_left h

theorem Inv.full_agree (hn : NameInj cfg) {s s' : State V} (h : Inv cfg s) {j : Nat} (hj : s.alive j = true)
    (hag : ∀ a, DependsOn s j a → Agree s s' a) : FullOK s' j := by
  have hanc : ∀ a ∈ (s.obj j).anc, DependsOn s j a := fun a ha => Or.inr ((h.anc_iff hn j hj a).mp ha)
  have hself : DependsOn s j j := Or.inl rfl
  have hpar : ∀ p ∈ (s.obj j).parents, DependsOn s j p := fun p hp => Or.inr (Relation.TransGen.single ⟨hj, hp⟩)
  have hL : ∀ a ∈ (s.obj j).parents.flatMap (fun p => (s.obj p).anc) ++ (s.obj j).parents, DependsOn s j a := by
    intro a ha
    rcases List.mem_append.mp ha with ha | ha
    · obtain ⟨p, hp, hap⟩ := List.mem_flatMap.mp ha
      exact Or.inr (Relation.TransGen.tail
        ((h.anc_iff hn p (h.graph.parAlive j p hj hp) a).mp hap) ⟨hj, hp⟩)
    · exact hpar a ha
  have hu : ∀ o ∈ (s.obj j).uniq, DependsOn s j o := fun o ho => (h.uniq_mem hn hj ho).1
  have hf := h.full j hj
  have A := hag j hself
  have hga : getAncestors s' j = getAncestors s j := by
    unfold getAncestors
    simp only
    rw [A.parents]
    have e1 : (s.obj j).parents.flatMap (fun p => (s'.obj p).anc) = (s.obj j).parents.flatMap (fun p => (s.obj p).anc) :=
      List.flatMap_congr (fun p hp => (hag p (hpar p hp)).anc)
    rw [e1]
    rw [dedupOn_congr (k := fun a => (s'.obj a).name) (k' := fun a => (s.obj a).name) _ (fun a ha => (hag a (hL a ha)).name)]
    unfold sortByName
    apply sortBy_congr
    intro a ha b hb
    rw [(hag a (hL a (mem_of_dedupOn ha))).name, (hag b (hL b (mem_of_dedupOn hb))).name]
  have hmm : ∀ a ∈ (s.obj j).anc ++ [j], DependsOn s j a := by
    intro a ha
    rcases List.mem_append.mp ha with h1 | h1
    · exact hanc a h1
    · simp at h1; subst h1; exact hself
  constructor
  · rw [A.anc, hga]; exact hf.anc
  · rw [A.uniq, A.anc, dedupOn_congr (k := fun a => (s'.obj a).dofs) (k' := fun a => (s.obj a).dofs) _
      (fun a ha => (hag a (hmm a ha)).dofs)]
    exact hf.uniq
  · rw [A.fullSize, A.uniq, List.map_congr_left (fun o ho => (hag o (hu o ho)).lfsize)]; exact hf.size
  · rw [A.fullIdx, A.uniq, List.map_congr_left (g := localFullSize s) (fun o ho => (hag o (hu o ho)).lfsize), hf.idx]
    rw [dict_indexPairs (by simp) (h.uniq_names_nodup hn hj), dict_indexPairs (by simp)]
    rw [List.map_congr_left (fun o ho => (hag o (hu o ho)).name)]
    exact h.uniq_names_nodup hn hj

theorem Inv.free_agree (hn : NameInj cfg) {s s' : State V} (h : Inv cfg s) {j : Nat} (hj : s.alive j = true)
    (hag : ∀ a, DependsOn s j a → Agree s s' a) : FreeOK s' j := by
  have hu : ∀ o ∈ (s.obj j).uniq, DependsOn s j o := fun o ho => (h.uniq_mem hn hj ho).1
  have hf := h.free j hj
  have A := hag j (Or.inl rfl)
  constructor
  · rw [A.freeSize, A.uniq, List.map_congr_left (fun o ho => (hag o (hu o ho)).size)]; exact hf.size
  · rw [A.freeIdx, A.uniq, List.map_congr_left (g := localSize s) (fun o ho => (hag o (hu o ho)).size), hf.idx]
    rw [dict_indexPairs (by simp) (h.uniq_names_nodup hn hj), dict_indexPairs (by simp)]
    rw [List.map_congr_left (fun o ho => (hag o (hu o ho)).name)]
    exact h.uniq_names_nodup hn hj

/-! ### child sets -/

/-- `s'` differs from `s` only in `_children` sets. -/
structure ChildRel (s s' : State V) : Prop where
  nobj : s'.nobj = s.nobj
  alive : s'.alive = s.alive
  ndof : s'.ndof = s.ndof
  dof : s'.dof = s.dof
  deps : s'.deps = s.deps
  ids : s'.ids = s.ids
  obj : ∀ j, s'.obj j = { s.obj j with children := (s'.obj j).children }

theorem ChildRel.refl (s : State V) : ChildRel s s := ⟨rfl, rfl, rfl, rfl, rfl, rfl, fun _ => rfl⟩
theorem ChildRel.trans {s s' s'' : State V} (h : ChildRel s s') (h' : ChildRel s' s'') : ChildRel s s'' :=
  ⟨h'.nobj.trans h.nobj, h'.alive.trans h.alive, h'.ndof.trans h.ndof, h'.dof.trans h.dof, h'.deps.trans h.deps,
    h'.ids.trans h.ids, fun j => by rw [h'.obj j, h.obj j]⟩

/-- What the set operations need to know. -/
structure SetOK (s : State V) : Prop where
  inj : ∀ a b, a < s.nobj → b < s.nobj → (s.obj a).name = (s.obj b).name → a = b
  lt : ∀ p c, c ∈ (s.obj p).children → c < s.nobj
  nodup : ∀ p, (s.obj p).children.Nodup

theorem setOK_eqv {s : State V} (h : SetOK s) {a b : Nat} (ha : a < s.nobj) (hb : b < s.nobj) :
    s.eqv a b = true ↔ a = b := by
  unfold State.eqv; rw [beq_iff_eq]; exact ⟨h.inj a b ha hb, fun e => by rw [e]⟩

theorem addChild_spec (hsh : ShuffleOK cfg) (p i : Nat) (s : State V) (h : SetOK s) (hi : s.alive i = true)
    (hil : i < s.nobj) :
    ∃ s', addChild cfg p i s = .ok () s' ∧ ChildRel s s' ∧ SetOK s' ∧
      (∀ q c, c ∈ (s'.obj q).children ↔ c ∈ (s.obj q).children ∨ (q = p ∧ c = i)) := by
  unfold addChild
  rw [run_modify]
  refine ⟨_, rfl, ?_⟩
  have hany : ((s.obj p).children.any (fun k => s.alive k && s.eqv k i)) = true ↔ i ∈ (s.obj p).children := by
    rw [List.any_eq_true]
    constructor
    · rintro ⟨k, hk, hke⟩
      simp only [Bool.and_eq_true] at hke
      have := (setOK_eqv h (h.lt p k hk) hil).mp hke.2
      rw [← this]; exact hk
    · intro hk; exact ⟨i, hk, by simp [hi, State.eqv]⟩
  by_cases hm : i ∈ (s.obj p).children
  · rw [if_pos (hany.mpr hm)]
    refine ⟨ChildRel.refl s, h, fun q c => ⟨Or.inl, ?_⟩⟩
    rintro (hc | ⟨rfl, rfl⟩)
    · exact hc
    · exact hm
  · rw [if_neg (fun hc => hm (hany.mp hc))]
    have hperm := hsh s.tick ((s.obj p).children ++ [i])
    have hobj : ∀ q, (upd s.obj p { s.obj p with children := cfg.shuffle s.tick ((s.obj p).children ++ [i]) } q) =
        { s.obj q with children := if q = p then cfg.shuffle s.tick ((s.obj p).children ++ [i]) else (s.obj q).children } := by
      intro q
      by_cases hq : q = p
      · subst hq; simp [upd]
      · simp [upd, hq]
    have hmem : ∀ q c, c ∈ (upd s.obj p { s.obj p with children := cfg.shuffle s.tick ((s.obj p).children ++ [i]) } q).children ↔
        c ∈ (s.obj q).children ∨ (q = p ∧ c = i) := by
      intro q c
      rw [hobj]
      by_cases hq : q = p
      · subst hq
        simp only [if_true]
        rw [hperm.mem_iff]; simp
      · simp [hq]
    refine ⟨⟨rfl, rfl, rfl, rfl, rfl, rfl, fun j => ?_⟩, ⟨?_, ?_, ?_⟩, hmem⟩
    · simp only [hobj j]
    · intro a b ha hb he; simp only [hobj] at he; exact h.inj a b ha hb he
    · intro q c hc
      rcases (hmem q c).mp hc with hc | ⟨_, rfl⟩
      · exact h.lt q c hc
      · exact hil
    · intro q
      simp only [hobj q]
      split
      · rw [hperm.nodup_iff]
        rw [List.nodup_append]
        exact ⟨h.nodup p, by simp, by intro a ha b hb; simp at hb; subst hb; exact fun e => hm (e ▸ ha)⟩
      · exact h.nodup q

theorem addChildLoop_spec (hsh : ShuffleOK cfg) (i : Nat) : ∀ (l : List Nat) (s : State V), SetOK s →
    s.alive i = true → i < s.nobj →
    ∃ s', forEach l (fun p => addChild cfg p i) s = .ok () s' ∧ ChildRel s s' ∧ SetOK s' ∧
      (∀ q c, c ∈ (s'.obj q).children ↔ c ∈ (s.obj q).children ∨ (q ∈ l ∧ c = i)) := by
  intro l
  induction l with
  | nil => intro s h _ _; exact ⟨s, rfl, ChildRel.refl s, h, fun q c => by simp⟩
  | cons p l ih =>
    intro s h hi hil
    obtain ⟨s1, h1, r1, o1, m1⟩ := addChild_spec hsh p i s h hi hil
    obtain ⟨s2, h2, r2, o2, m2⟩ := ih s1 o1 (by rw [r1.alive]; exact hi) (by rw [r1.nobj]; exact hil)
    refine ⟨s2, by rw [forEach_cons, h1]; exact h2, r1.trans r2, o2, fun q c => ?_⟩
    rw [m2, m1]; simp only [List.mem_cons]; tauto

theorem removeChild_spec (hsh : ShuffleOK cfg) (p i : Nat) (s : State V) (h : SetOK s) (hi : s.alive i = true)
    (hil : i < s.nobj) (hm : i ∈ (s.obj p).children) :
    ∃ s', removeChild cfg p i s = .ok () s' ∧ ChildRel s s' ∧ SetOK s' ∧
      (∀ q c, c ∈ (s'.obj q).children ↔ c ∈ (s.obj q).children ∧ ¬ (q = p ∧ c = i)) := by
  unfold removeChild
  simp only [run_bind, run_get]
  have hany : ((s.obj p).children.any (fun k => s.alive k && s.eqv k i)) = true := by
    rw [List.any_eq_true]; exact ⟨i, hm, by simp [hi, State.eqv]⟩
  rw [if_pos hany]
  rw [run_set]
  refine ⟨_, rfl, ?_⟩
  set L := removeFirst (fun k => s.alive k && s.eqv k i) (s.obj p).children with hL
  have hmL : ∀ c, c ∈ L ↔ c ∈ (s.obj p).children ∧ c ≠ i := by
    apply removeFirst_mem_iff (h.nodup p)
    intro a ha
    simp only [Bool.and_eq_true]
    rw [setOK_eqv h (h.lt p a ha) hil]
    exact ⟨fun e => e.2, fun e => ⟨by rw [e]; exact hi, e⟩⟩
  have hperm := hsh s.tick L
  have hobj : ∀ q, (upd s.obj p { s.obj p with children := cfg.shuffle s.tick L } q) =
      { s.obj q with children := if q = p then cfg.shuffle s.tick L else (s.obj q).children } := by
    intro q
    by_cases hq : q = p
    · subst hq; simp [upd]
    · simp [upd, hq]
  have hmem : ∀ q c, c ∈ (upd s.obj p { s.obj p with children := cfg.shuffle s.tick L } q).children ↔
      c ∈ (s.obj q).children ∧ ¬ (q = p ∧ c = i) := by
    intro q c
    rw [hobj]
    by_cases hq : q = p
    · subst hq
      simp only [if_true, true_and]
      rw [hperm.mem_iff, hmL]
    · simp [hq]
  refine ⟨⟨rfl, rfl, rfl, rfl, rfl, rfl, fun j => ?_⟩, ⟨?_, ?_, ?_⟩, hmem⟩
  · simp only [hobj j]
  · intro a b ha hb he; simp only [hobj] at he; exact h.inj a b ha hb he
  · intro q c hc; exact h.lt q c ((hmem q c).mp hc).1
  · intro q
    simp only [hobj q]
    split
    · rw [hperm.nodup_iff]; exact removeFirst_nodup (h.nodup p)
    · exact h.nodup q

theorem GraphOK.setOK (hn : NameInj cfg) {s : State V} (h : GraphOK cfg s) : SetOK s :=
  ⟨fun _ _ ha hb he => h.name_inj hn ha hb he, h.childLt, h.childNodup⟩

theorem ChildRel.agree {s s' : State V} (h : ChildRel s s') (a : Nat) : Agree s s' a := by
  have e := h.obj a
  constructor
  any_goals rw [e]
  · unfold localSize; rw [e, h.dof]
  · unfold localFullSize; rw [e, h.dof]

theorem Agree.trans {s s' s'' : State V} {a : Nat} (h : Agree s s' a) (h' : Agree s' s'' a) : Agree s s'' a :=
  ⟨h'.name.trans h.name, h'.dofs.trans h.dofs, h'.parents.trans h.parents, h'.anc.trans h.anc, h'.uniq.trans h.uniq,
    h'.fullSize.trans h.fullSize, h'.fullIdx.trans h.fullIdx, h'.freeSize.trans h.freeSize, h'.freeIdx.trans h.freeIdx,
    h'.size.trans h.size, h'.lfsize.trans h.lfsize⟩

/-! ### what graph operations leave alone -/

/-- Effect of a graph operation on values: none, and flags are only raised. -/
structure Kept (s s' : State V) : Prop where
  ndof : s.ndof ≤ s'.ndof
  nobj : s.nobj ≤ s'.nobj
  dof : ∀ d, d < s.ndof → s'.dof d = s.dof d
  setter : ∀ j, j < s.nobj → (s'.obj j).setter = (s.obj j).setter
  ext : ∀ j, j < s.nobj → (s'.obj j).ext = (s.obj j).ext
  newX : ∀ j, j < s.nobj → (s.obj j).newX = true → (s'.obj j).newX = true
  bells : ∀ j, j < s.nobj → (s.obj j).bells ≤ (s'.obj j).bells

theorem Kept.refl (s : State V) : Kept s s :=
  ⟨le_refl _, le_refl _, fun _ _ => rfl, fun _ _ => rfl, fun _ _ => rfl, fun _ _ h => h, fun _ _ => le_refl _⟩
theorem Kept.trans {s s' s'' : State V} (h : Kept s s') (h' : Kept s' s'') : Kept s s'' :=
  ⟨h.ndof.trans h'.ndof, h.nobj.trans h'.nobj,
   fun d hd => (h'.dof d (lt_of_lt_of_le hd h.ndof)).trans (h.dof d hd),
   fun j hj => (h'.setter j (lt_of_lt_of_le hj h.nobj)).trans (h.setter j hj),
   fun j hj => (h'.ext j (lt_of_lt_of_le hj h.nobj)).trans (h.ext j hj),
   fun j hj hx => h'.newX j (lt_of_lt_of_le hj h.nobj) (h.newX j hj hx),
   fun j hj => (h.bells j hj).trans (h'.bells j (lt_of_lt_of_le hj h.nobj))⟩

theorem ChildRel.kept {s s' : State V} (h : ChildRel s s') : Kept s s' := by
  refine ⟨by rw [h.ndof], by rw [h.nobj], fun d _ => by rw [h.dof], ?_, ?_, ?_, ?_⟩
  · intro j _; rw [h.obj j]
  · intro j _; rw [h.obj j]
  · intro j _ hx; rw [h.obj j]; exact hx
  · intro j _; rw [h.obj j]

/-! ### new DOFs object, garbage collection -/

theorem newDofs_spec (hn : NameInj cfg) (a : DofArgs V) (s : State V) (hi : Inv cfg s) :
    (∃ e, e ≠ .recursionError ∧ newDofs cfg a s = .error e s) ∨
    (∃ r, Dofs.init cfg.ninf cfg.pinf a.x a.names a.free a.lb a.ub = .ok r ∧
      newDofs cfg a s = .ok s.ndof { s with ndof := s.ndof + 1, dof := upd s.dof s.ndof r, deps := upd s.deps s.ndof [] } ∧
      Inv cfg { s with ndof := s.ndof + 1, dof := upd s.dof s.ndof r, deps := upd s.deps s.ndof [] }) := by
  unfold newDofs
  simp only [run_bind, run_get]
  cases h : Dofs.init cfg.ninf cfg.pinf a.x a.names a.free a.lb a.ub with
  | error e =>
    left
    refine ⟨e, ?_, rfl⟩
    unfold Dofs.init at h
    simp only at h
    intro he
    subst he
    split at h <;> try split at h
    all_goals simp at h
  | ok r =>
    right
    refine ⟨r, rfl, rfl, ?_⟩
    have hdof : ∀ j, s.alive j = true → upd s.dof s.ndof r (s.obj j).dofs = s.dof (s.obj j).dofs := fun j hj =>
      upd_ne _ _ _ _ (Nat.ne_of_lt (hi.dofs.lt j hj))
    have hag : ∀ j, s.alive j = true →
        Agree s { s with ndof := s.ndof + 1, dof := upd s.dof s.ndof r, deps := upd s.deps s.ndof [] } j := by
      intro j hj
      refine ⟨rfl, rfl, rfl, rfl, rfl, rfl, rfl, rfl, rfl, ?_, ?_⟩
      · unfold localSize; simp only [hdof j hj]
      · unfold localFullSize; simp only [hdof j hj]
    have hdeps : ∀ d, upd s.deps s.ndof [] d = s.deps d := by
      intro d
      by_cases hd : d = s.ndof
      · subst hd; rw [upd_same, hi.dofs.depNew _ (le_refl _)]
      · rw [upd_ne _ _ _ _ hd]
    refine ⟨⟨hi.graph.lt, hi.graph.blank, hi.graph.childLt, hi.graph.childNodup, hi.graph.names, hi.graph.numInj,
      hi.graph.parAlive, hi.graph.link⟩, ⟨?_, ?_, ?_, ?_, ?_, ?_, ?_⟩, hi.acyclic, ?_, ?_⟩
    · intro d
      simp only
      by_cases hd : d = s.ndof
      · subst hd; rw [upd_same]; exact Dofs.init_WF h
      · rw [upd_ne _ _ _ _ hd]; exact hi.dofs.wf d
    · intro j hj; exact Nat.lt_succ_of_lt (hi.dofs.lt j hj)
    · intro d o ho; simp only [hdeps] at ho; exact hi.dofs.depLt d o ho
    · intro d hd; simp only [hdeps] at hd ⊢; exact hi.dofs.depNew d (by omega)
    · intro o ho; simp only [hdeps]; exact hi.dofs.depIn o ho
    · intro o d ho; simp only [hdeps]; exact hi.dofs.depOf o d ho
    · intro d; simp only [hdeps]; exact hi.dofs.depNodup d
    · intro j hj; exact hi.full_agree hn hj (fun a ha => hag a (ha.alive hi.graph hj))
    · intro j hj; exact hi.free_agree hn hj (fun a ha => hag a (ha.alive hi.graph hj))

theorem newDofs_kept (s : State V) (r : Dofs V) :
    Kept s { s with ndof := s.ndof + 1, dof := upd s.dof s.ndof r, deps := upd s.deps s.ndof [] } :=
  ⟨Nat.le_succ _, le_refl _, fun d hd => upd_ne _ _ _ _ (Nat.ne_of_lt hd), fun _ _ => rfl, fun _ _ => rfl,
    fun _ _ h => h, fun _ _ => le_refl _⟩

theorem gc_spec (i : Nat) (s : State V) (hi : Inv cfg s) :
    ∃ s', gc i s = .ok () s' ∧ Inv cfg s' ∧ Kept s s' ∧ s'.dof = s.dof ∧ (∀ j, s'.alive j = true → s.alive j = true) ∧
      s'.obj = s.obj := by
  unfold gc
  rw [run_modify]
  refine ⟨_, rfl, ?_⟩
  by_cases hc : ((List.range s.nobj).any (fun c => s.alive c && (s.obj c).parents.contains i)) = true
  · rw [if_pos hc]; exact ⟨hi, Kept.refl s, rfl, fun _ h => h, rfl⟩
  · rw [if_neg hc]
    have hno : ∀ c, s.alive c = true → i ∉ (s.obj c).parents := by
      intro c hca hp
      apply hc
      rw [List.any_eq_true]
      exact ⟨c, List.mem_range.mpr (hi.graph.lt c hca), by simp [hca, hp]⟩
    have hal : ∀ j, upd s.alive i false j = true → s.alive j = true ∧ j ≠ i := by
      intro j hj
      by_cases hji : j = i
      · subst hji; rw [upd_same] at hj; cases hj
      · rw [upd_ne _ _ _ _ hji] at hj; exact ⟨hj, hji⟩
    refine ⟨⟨⟨?_, hi.graph.blank, hi.graph.childLt, hi.graph.childNodup, hi.graph.names, hi.graph.numInj, ?_, ?_⟩,
      ⟨hi.dofs.wf, ?_, hi.dofs.depLt, hi.dofs.depNew, ?_, ?_, hi.dofs.depNodup⟩, ?_, ?_, ?_⟩,
      ⟨le_refl _, le_refl _, fun _ _ => rfl, fun _ _ => rfl, fun _ _ => rfl, fun _ _ h => h, fun _ _ => le_refl _⟩,
      rfl, fun j hj => (hal j hj).1, rfl⟩
    · intro j hj; exact hi.graph.lt j (hal j hj).1
    · intro c p hca hp
      have hc1 := (hal c hca).1
      have hpi : p ≠ i := fun e => hno c hc1 (e ▸ hp)
      show upd s.alive i false p = true
      rw [upd_ne _ _ _ _ hpi]; exact hi.graph.parAlive c p hc1 hp
    · intro c p hca; exact hi.graph.link c p (hal c hca).1
    · intro j hj; exact hi.dofs.lt j (hal j hj).1
    · intro o ho; exact hi.dofs.depIn o (hal o ho).1
    · intro o d ho; exact hi.dofs.depOf o d (hal o ho).1
    · refine Subrelation.wf (r := Parent s) ?_ hi.acyclic
      intro p c hpc; exact ⟨(hal c hpc.1).1, hpc.2⟩
    · intro j hj
      exact ⟨(hi.full j (hal j hj).1).anc, (hi.full j (hal j hj).1).uniq, (hi.full j (hal j hj).1).size, (hi.full j (hal j hj).1).idx⟩
    · intro j hj
      exact ⟨(hi.free j (hal j hj).1).size, (hi.free j (hal j hj).1).idx⟩

end Simsopt.Graph
