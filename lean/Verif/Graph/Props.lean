import Verif.Graph.Reach
import Mathlib.Data.List.Sort
/-!
# Properties of the object graph (C04-C12, C42-C44)

Throughout: `NameInj` says that the class table never produces the same name twice (discharged for ordinary
class names by `C11_names_injective`), `ShuffleOK` says that child sets are sets in an arbitrary order, and
`Reachable` ranges over all finite histories of API calls, including calls that raised.
-/
set_option linter.unusedSimpArgs false
namespace Simsopt.Graph
variable {V : Type} {cfg : Cfg V}

theorem NoDeepChain.shallow {s : State V} (hg : GraphOK cfg s) (h : NoDeepChain cfg s) : Shallow cfg s := by
  have hcp : Child s = Parent s := by funext p c; exact propext (hg.child_iff p c)
  intro j hj
  apply term_of_chains
  intro l hl
  rw [hcp] at hl
  apply h _ _ hl
  -- every member of the chain is alive
  have : ∀ (l : List Nat) j, s.alive j = true → (j :: l).IsChain (Parent s) → ∀ k ∈ j :: l, s.alive k = true := by
    intro l
    induction l with
    | nil => intro j hj _ k hk; simp at hk; rw [hk]; exact hj
    | cons a l ih =>
      intro j hj hc k hk
      rw [List.isChain_cons_cons] at hc
      rcases List.mem_cons.mp hk with e | hk
      · rw [e]; exact hj
      · exact ih a hc.1.1 hc.2 k hk
  exact this l j hj hl

section
variable (hn : NameInj cfg) (hsh : ShuffleOK cfg) {s s' : State V} (hr : Reachable cfg s)
include hn hsh hr

/-! ### C07: lineage -/

/-- `ancestors` is exactly the transitive closure of `parents`, without repetition, sorted by name. -/
theorem C07_ancestors (i : Nat) (hi : s.alive i = true) :
    (∀ a, a ∈ (s.obj i).anc ↔ Ancestor s a i) ∧ (s.obj i).anc.Nodup ∧
    (s.obj i).anc.Pairwise (fun a b => (s.obj a).name ≤ (s.obj b).name) ∧ ¬ Ancestor s i i := by
  have h := hr.inv hn hsh
  exact ⟨h.anc_iff hn i hi, h.anc_nodup i hi, h.anc_sorted i hi, h.not_ancestor_self i⟩

/-- The objects whose dofs make up the state vector of `i` are among `i` and its ancestors, and for every one of
    those the DOFs object is represented. -/
theorem C07_lineage (i : Nat) (hi : s.alive i = true) :
    (∀ o ∈ (s.obj i).uniq, DependsOn s i o ∧ s.alive o = true) ∧
    (∀ o, DependsOn s i o → ∃ o' ∈ (s.obj i).uniq, (s.obj o').dofs = (s.obj o).dofs) := by
  have h := hr.inv hn hsh
  exact ⟨fun o ho => h.uniq_mem hn hi ho, fun o ho => h.uniq_covers hn hi ho⟩

/-! ### C08: sharing -/

/-- There is one duplicate-free list of DOFs objects, namely those of `i` and its ancestors, such that every
    per-dof view of `i` is the concatenation over that list. -/
theorem C08_shared_dofs_once (i : Nat) (hi : s.alive i = true) :
    ∃ ds : List Nat, ds.Nodup ∧ (∀ d, d ∈ ds ↔ ∃ o, DependsOn s i o ∧ (s.obj o).dofs = d) ∧
      getX s i = ds.flatMap (fun d => (s.dof d).freeX) ∧ getFullX s i = ds.flatMap (fun d => (s.dof d).x) ∧
      freeStatus s i = ds.flatMap (fun d => (s.dof d).free) ∧
      getLb s i = ds.flatMap (fun d => (s.dof d).freeLb) ∧ getUb s i = ds.flatMap (fun d => (s.dof d).freeUb) := by
  have h := hr.inv hn hsh
  refine ⟨(s.obj i).uniq.map (fun o => (s.obj o).dofs), h.uniq_dofs_nodup hi, ?_, ?_, ?_, ?_, ?_, ?_⟩
  · intro d
    rw [List.mem_map]
    constructor
    · rintro ⟨o, ho, e⟩; exact ⟨o, (h.uniq_mem hn hi ho).1, e⟩
    · rintro ⟨o, ho, e⟩
      obtain ⟨o', h1, h2⟩ := h.uniq_covers hn hi ho
      exact ⟨o', h1, h2.trans e⟩
  all_goals rw [List.flatMap_map]; rfl

/-! ### C06: consistent views -/

omit hn hsh hr in
theorem flatMap_len {α β : Type} (l : List α) (f : α → List β) (g : α → Nat) (h : ∀ a ∈ l, (f a).length = g a) :
    (l.flatMap f).length = (l.map g).sum := by
  rw [List.length_flatMap, List.map_congr_left h]

omit hn hsh hr in
theorem gather_flatMap {α β : Type} (l : List α) (m : α → List Bool) (f : α → List β)
    (h : ∀ a ∈ l, (m a).length = (f a).length) :
    gather (l.flatMap m) (l.flatMap f) = l.flatMap (fun a => gather (m a) (f a)) := by
  induction l with
  | nil => simp [gather]
  | cons a l ih =>
    simp only [List.flatMap_cons]
    rw [gather_append _ _ _ _ (h a List.mem_cons_self), ih (fun b hb => h b (List.mem_cons_of_mem _ hb))]

/-- All free views have length `dof_size`, all full views have length `full_dof_size`. -/
theorem C06_lengths (i : Nat) (hi : s.alive i = true) :
    (getX s i).length = (s.obj i).freeSize ∧ (dofNames s i).length = (s.obj i).freeSize ∧
    (getLb s i).length = (s.obj i).freeSize ∧ (getUb s i).length = (s.obj i).freeSize ∧
    (freeStatus s i).count true = (s.obj i).freeSize ∧
    (getFullX s i).length = (s.obj i).fullSize ∧ (fullDofNames s i).length = (s.obj i).fullSize ∧
    (freeStatus s i).length = (s.obj i).fullSize ∧
    (getFullLb s i).length = (s.obj i).fullSize ∧ (getFullUb s i).length = (s.obj i).fullSize := by
  have h := hr.inv hn hsh
  have hw : ∀ o, (s.dof (s.obj o).dofs).WF := fun o => h.dofs.wf _
  have hfree := (h.free i hi).size
  have hfull := (h.full i hi).size
  have hls : ∀ o, localSize s o = (s.dof (s.obj o).dofs).free.count true := fun o => by rw [localSize_eq]; rfl
  have hlf : ∀ o, localFullSize s o = (s.dof (s.obj o).dofs).free.length := fun o => rfl
  refine ⟨?_, ?_, ?_, ?_, ?_, ?_, ?_, ?_, ?_, ?_⟩
  · rw [hfree]; refine flatMap_len _ _ _ (fun o _ => ?_)
    rw [hls]; exact gather_length _ _ (hw o).free_len
  · rw [hfree]; refine flatMap_len _ _ _ (fun o _ => ?_)
    rw [hls, List.length_map]; exact gather_length _ _ (by rw [(hw o).free_len, (hw o).names_len])
  · rw [hfree]; refine flatMap_len _ _ _ (fun o _ => ?_)
    rw [hls]; exact gather_length _ _ (by rw [(hw o).free_len, (hw o).lb_len])
  · rw [hfree]; refine flatMap_len _ _ _ (fun o _ => ?_)
    rw [hls]; exact gather_length _ _ (by rw [(hw o).free_len, (hw o).ub_len])
  · rw [hfree]
    unfold freeStatus
    rw [List.count_flatMap]
    congr 1
    apply List.map_congr_left
    intro o _
    simp only [Function.comp]
    rw [hls]
  · rw [hfull]; refine flatMap_len _ _ _ (fun o _ => ?_)
    rw [hlf, (hw o).free_len]; rfl
  · rw [hfull]; refine flatMap_len _ _ _ (fun o _ => ?_)
    rw [hlf, List.length_map, (hw o).free_len]; exact (hw o).names_len
  · rw [hfull]; exact flatMap_len _ _ _ (fun o _ => hlf o ▸ rfl)
  · rw [hfull]; refine flatMap_len _ _ _ (fun o _ => ?_)
    rw [hlf, (hw o).free_len]; exact (hw o).lb_len
  · rw [hfull]; refine flatMap_len _ _ _ (fun o _ => ?_)
    rw [hlf, (hw o).free_len]; exact (hw o).ub_len

/-- The free views are the full views masked by `dofs_free_status`: entry `k` of every view refers to the same dof. -/
theorem C06_masked (i : Nat) (hi : s.alive i = true) :
    getX s i = Dofs.maskedSpec (freeStatus s i) (getFullX s i) ∧
    dofNames s i = Dofs.maskedSpec (freeStatus s i) (fullDofNames s i) ∧
    getLb s i = Dofs.maskedSpec (freeStatus s i) (getFullLb s i) ∧
    getUb s i = Dofs.maskedSpec (freeStatus s i) (getFullUb s i) := by
  have h := hr.inv hn hsh
  have hw : ∀ o, (s.dof (s.obj o).dofs).WF := fun o => h.dofs.wf _
  refine ⟨?_, ?_, ?_, ?_⟩ <;> rw [← gather_eq_masked]
  · unfold freeStatus getFullX getX
    exact (gather_flatMap (s.obj i).uniq _ (fun o => (s.dof (s.obj o).dofs).fullX) (fun o _ => (hw o).free_len)).symm
  · unfold freeStatus fullDofNames dofNames
    rw [gather_flatMap _ _ _ (fun o _ => by rw [List.length_map]; exact (hw o).free_len.trans (hw o).names_len.symm)]
    apply List.flatMap_congr
    intro o _
    rw [gather_map]; rfl
  · unfold freeStatus getFullLb getLb
    rw [gather_flatMap _ _ _ (fun o _ => (hw o).free_len.trans (hw o).lb_len.symm)]; rfl
  · unfold freeStatus getFullUb getUb
    rw [gather_flatMap _ _ _ (fun o _ => (hw o).free_len.trans (hw o).ub_len.symm)]; rfl

/-! ### C04, C05: assigning the state vector -/

/-- Outcome of `obj.x = v`. -/
theorem setX_outcome (i : Nat) (hi : s.alive i = true) (v : List V) :
    ((s.obj i).freeSize ≠ v.length ∧ exec cfg (.setX i v) s = .error .valueError s) ∨
    ((s.obj i).freeSize = v.length ∧
      ((∃ s', exec cfg (.setX i v) s = .error .recursionError s' ∧ ¬ Shallow cfg s) ∨
      (∃ s', exec cfg (.setX i v) s = .ok () s' ∧ Inv cfg s' ∧ ValRel s s' ∧
        (s.obj i).uniq.flatMap (fun o => (s'.dof (s.obj o).dofs).freeX) = v ∧
        (∀ d, d ∉ (s.obj i).uniq.map (fun o => (s.obj o).dofs) → s'.dof d = s.dof d) ∧
        (∀ d, Dofs.SameButX (s.dof d) (s'.dof d) ∧ (s'.dof d).x.length = (s.dof d).x.length ∧
          ∀ k : Nat, (s.dof d).free[k]? = some false → (s'.dof d).x[k]? = (s.dof d).x[k]?) ∧
        (∀ o ∈ (s.obj i).uniq, ∀ k ∈ s.deps (s.obj o).dofs, s.alive k = true → ∀ j, Desc s k j → Told s s' j)))) := by
  have h := hr.inv hn hsh
  show ((s.obj i).freeSize ≠ v.length ∧ setX cfg i v s = _) ∨ _
  have heq := setX_eq cfg i v s
  rw [h.lastIndex_free hn hi] at heq
  simp only at heq
  by_cases hl : (s.obj i).freeSize = v.length
  · right
    refine ⟨hl, ?_⟩
    simp only [hl, ne_eq, not_true_eq_false, if_false] at heq
    show (∃ s', setX cfg i v s = _ ∧ _) ∨ (∃ s', setX cfg i v s = _ ∧ _)
    rw [heq, h.freeIdx_eq hn hi]
    have := setXLoop v (s.obj i).uniq 0 s h (h.uniq_dofs_nodup hi) (by rw [← hl, (h.free i hi).size]; simp)
    simpa using this
  · left
    refine ⟨hl, ?_⟩
    simp only [ne_eq, hl, not_false_eq_true, if_true] at heq
    exact heq

/-- `obj.x = v` followed by reading `obj.x` returns `v`. -/
theorem C04_x_round_trip (i : Nat) (hi : s.alive i = true) (v : List V) (hok : exec cfg (.setX i v) s = .ok () s') :
    getX s' i = v := by
  rcases setX_outcome hn hsh hr i hi v with ⟨_, e⟩ | ⟨_, ⟨s1, e, _⟩ | ⟨s1, e, _, vr, hv, _⟩⟩
  · rw [e] at hok; cases hok
  · rw [e] at hok; cases hok
  · rw [e] at hok; cases hok
    unfold getX
    rw [vr.uniq]
    simp only [vr.dofs]
    exact hv

/-- The assignment succeeds exactly for vectors of length `dof_size` (unless the graph is deeper than the
    recursion limit); any other length raises before anything changes. -/
theorem C04_x_length (i : Nat) (hi : s.alive i = true) (v : List V) (hd : NoDeepChain cfg s) :
    (v.length = (s.obj i).freeSize → ∃ s', exec cfg (.setX i v) s = .ok () s') ∧
    (v.length ≠ (s.obj i).freeSize → exec cfg (.setX i v) s = .error .valueError s) := by
  have h := hr.inv hn hsh
  have hs := hd.shallow h.graph
  rcases setX_outcome hn hsh hr i hi v with ⟨hl, e⟩ | ⟨hl, ⟨s1, e, hns⟩ | ⟨s1, e, _⟩⟩
  · exact ⟨fun h => absurd h.symm hl, fun _ => e⟩
  · exact absurd hs hns
  · exact ⟨fun _ => ⟨s1, e⟩, fun h => absurd hl.symm h⟩

/-- Only free dofs of the lineage change: fixed dofs, every DOFs object not owned by `i` or an ancestor, and all names,
    bounds and statuses are untouched. -/
theorem C05_x_frame (i : Nat) (hi : s.alive i = true) (v : List V) (hok : exec cfg (.setX i v) s = .ok () s') :
    (∀ d, (∀ o, DependsOn s i o → (s.obj o).dofs ≠ d) → s'.dof d = s.dof d) ∧
    (∀ d, (s'.dof d).names = (s.dof d).names ∧ (s'.dof d).free = (s.dof d).free ∧ (s'.dof d).lb = (s.dof d).lb ∧
      (s'.dof d).ub = (s.dof d).ub ∧ (s'.dof d).x.length = (s.dof d).x.length ∧
      ∀ k : Nat, (s.dof d).free[k]? = some false → (s'.dof d).x[k]? = (s.dof d).x[k]?) ∧
    (∀ j, (s'.obj j).parents = (s.obj j).parents ∧ (s'.obj j).dofs = (s.obj j).dofs) := by
  have h := hr.inv hn hsh
  rcases setX_outcome hn hsh hr i hi v with ⟨_, e⟩ | ⟨_, ⟨s1, e, _⟩ | ⟨s1, e, _, vr, _, fr, sm, _⟩⟩
  · rw [e] at hok; cases hok
  · rw [e] at hok; cases hok
  · rw [e] at hok; cases hok
    refine ⟨?_, ?_, ?_⟩
    · intro d hd
      apply fr
      rw [List.mem_map]
      rintro ⟨o, ho, e⟩
      exact hd o (h.uniq_mem hn hi ho).1 e
    · intro d
      obtain ⟨⟨a1, a2, a3, a4⟩, a5, a6⟩ := sm d
      exact ⟨a1, a2, a3, a4, a5, a6⟩
    · intro j; exact ⟨vr.flag.static.parents j, vr.dofs j⟩

/-! ### C09: notification -/

/-- Whatever call is made: if it changes the values held by a DOFs object, every live object using that DOFs object and
    everything that depends on such an object has been notified. -/
theorem C09_value_change_notifies {op : Op V} (hsafe : op.Safe s) (hs : Step cfg s op s')
    (d : Nat) (hd : d < s.ndof) (hne : (s'.dof d).x ≠ (s.dof d).x) (o : Nat) (ho : s.alive o = true)
    (hod : (s.obj o).dofs = d) (j : Nat) (hj : DependsOn s j o) : Notified s s' j := by
  have h := hr.inv hn hsh
  have hdep : o ∈ s.deps d := by have := h.dofs.depIn o ho; rw [hod] at this; exact this
  rcases (step_ok hn hsh h hsafe hs).2 with hv | hm | hk | hc
  · exact hv.told d hne o hdep ho j ((h.graph.desc_iff o j).mpr hj)
  · exact absurd (hm.same d).1 hne
  · exact absurd (by rw [hk.dof d hd]) hne
  · exact absurd (by rw [hc.static.dof]) hne

/-- Every successful value assignment notifies, even when the new values equal the old ones. -/
theorem C09_assignment_notifies (i : Nat) (hi : s.alive i = true) (v : List V)
    (hok : exec cfg (.setX i v) s = .ok () s') (o : Nat) (ho : DependsOn s i o) (o' : Nat) (ho' : s.alive o' = true)
    (hsame : (s.obj o').dofs = (s.obj o).dofs) (j : Nat) (hj : DependsOn s j o') : Notified s s' j := by
  have h := hr.inv hn hsh
  rcases setX_outcome hn hsh hr i hi v with ⟨_, e⟩ | ⟨_, ⟨s1, e, _⟩ | ⟨s1, e, _, vr, _, fr, sm, td⟩⟩
  · rw [e] at hok; cases hok
  · rw [e] at hok; cases hok
  · rw [e] at hok; cases hok
    obtain ⟨u, hu, hud⟩ := h.uniq_covers hn hi ho
    refine td u hu o' ?_ ho' j ((h.graph.desc_iff o' j).mpr hj)
    have := h.dofs.depIn o' ho'
    rw [hsame, ← hud] at this
    exact this

/-- Changing the parents of an object, or swapping its DOFs object, notifies it and everything that depends on it. -/
theorem C09_relink_notifies (i : Nat) (j : Nat) (hj : DependsOn s j i) :
    (∀ idx p, (Op.addParent i idx p : Op V).Safe s → exec cfg (.addParent i idx p) s = .ok () s' →
      p ∉ (s.obj i).parents → Notified s s' j) ∧
    (∀ idx, (Op.popParent i idx : Op V).Safe s → exec cfg (.popParent i idx) s = .ok () s' → Notified s s' j) ∧
    (∀ p, (Op.removeParent i p : Op V).Safe s → exec cfg (.removeParent i p) s = .ok () s' → Notified s s' j) ∧
    (∀ d, (Op.replaceDofs i d : Op V).Safe s → exec cfg (.replaceDofs i d) s = .ok () s' → Notified s s' j) := by
  have h := hr.inv hn hsh
  have hd := (h.graph.desc_iff i j).mpr hj
  refine ⟨?_, ?_, ?_, ?_⟩
  · intro idx p hsafe hok hp
    replace hok : addParent cfg i idx p s = _ := hok
    rcases addParent_spec hn hsh i idx p s h hsafe.1 hsafe.2 with ⟨s1, e⟩ | ⟨hp', _⟩ | ⟨_, s1, e, ok⟩
    · rw [e] at hok; cases hok
    · exact absurd hp' hp
    · rw [e] at hok; cases hok
      obtain ⟨_, _, _, _, _, _, _, _, _, t, m⟩ := ok
      exact t j (m j hd)
  · intro idx hsafe hok
    replace hok : (do discard (popParent cfg i idx) : M V Unit) s = _ := hok
    rw [discard_run] at hok
    rcases popParent_spec hn hsh i idx s h hsafe.1 hsafe.2 with ⟨s1, e⟩ | ⟨e, _⟩ | ⟨_, _, s1, _, _, e, ok⟩
    · rw [e] at hok; cases hok
    · rw [e] at hok; cases hok
    · rw [e] at hok; cases hok
      obtain ⟨_, _, _, _, _, _, _, _, _, t, m⟩ := ok
      exact t j (m j hd)
  · intro p hsafe hok
    replace hok : removeParent cfg i p s = _ := hok
    rcases removeParent_spec hn hsh i p s h hsafe.1 hsafe.2.1 hsafe.2.2 with ⟨s1, e⟩ | ⟨_, e⟩ | ⟨_, _, s1, _, _, e, ok⟩
    · rw [e] at hok; cases hok
    · rw [e] at hok; cases hok
    · rw [e] at hok; cases hok
      obtain ⟨_, _, _, _, _, _, _, _, _, t, m⟩ := ok
      exact t j (m j hd)
  · intro d hsafe hok
    replace hok : replaceDofs cfg i d s = _ := hok
    rcases replaceDofs_spec hn i d s h hsafe.1 hsafe.2 with ⟨s1, e, _⟩ | ⟨s1, e, ok⟩
    · rw [e] at hok; cases hok
    · rw [e] at hok; cases hok
      obtain ⟨_, _, _, _, _, _, _, _, _, t⟩ := ok
      exact t j hd

/-! ### C10: links -/

/-- A live object lists `p` as parent exactly when `p` has it registered as a child, and parents are alive. -/
theorem C10_two_way (c p : Nat) (hc : s.alive c = true) :
    (p ∈ (s.obj c).parents ↔ c ∈ (s.obj p).children) ∧ (p ∈ (s.obj c).parents → s.alive p = true) := by
  have h := hr.inv hn hsh
  exact ⟨h.graph.link c p hc, h.graph.parAlive c p hc⟩

/-- Adding a parent that is already there changes nothing. -/
theorem C10_add_twice (i p : Nat) (idx : Int) (hi : s.alive i = true) (hp : p ∈ (s.obj i).parents) :
    exec cfg (.addParent i idx p) s = .ok () s := by
  have h := hr.inv hn hsh
  have hap := h.graph.parAlive i p hi hp
  show addParent cfg i idx p s = _
  unfold addParent
  simp only [run_bind, run_get]
  rw [if_pos]
  · rfl
  · rw [List.any_eq_true]; exact ⟨p, hp, by simp [State.eqv]⟩

/-- A parent edit can close a cycle only by raising `RecursionError`: whenever a call returns, the parent relation
    has no cycle. -/
theorem C10_no_cycles {op : Op V} (hsafe : op.Safe s) (hs : Step cfg s op s') : ∀ i, ¬ Ancestor s' i i := by
  intro i
  exact (step_ok hn hsh (hr.inv hn hsh) hsafe hs).1.not_ancestor_self i

omit hn hsh hr in
theorem pyInsert_length {α : Type} (l : List α) (a : α) : pyInsert l (l.length : Int) a = l ++ [a] := by
  unfold pyInsert
  have : (0 : Int) ≤ (l.length : Int) := Int.natCast_nonneg _
  simp [this]

omit hn hsh hr in
theorem removeFirst_append {α : Type} (f : α → Bool) (l : List α) (a : α) (h : ∀ b ∈ l, f b = false) (ha : f a = true) :
    removeFirst f (l ++ [a]) = l := by
  induction l with
  | nil => simp [removeFirst, ha]
  | cons b l ih =>
    simp only [List.cons_append, removeFirst, h b List.mem_cons_self]
    simp [ih (fun c hc => h c (List.mem_cons_of_mem _ hc))]

/-- Appending a new parent and removing it again restores the parent list and the ancestors (as lists). -/
theorem C10_append_remove (i p : Nat) (hi : s.alive i = true) (hp : s.alive p = true) (hnew : p ∉ (s.obj i).parents)
    (hnd : (s.obj i).parents.Nodup) {s1 s2 : State V}
    (h1 : exec cfg (.appendParent i p) s = .ok () s1) (h2 : exec cfg (.removeParent i p) s1 = .ok () s2) :
    (s2.obj i).parents = (s.obj i).parents ∧ (s2.obj i).anc = (s.obj i).anc ∧
    (∀ j, s.alive j = true → (s2.obj j).anc = (s.obj j).anc) := by
  have h := hr.inv hn hsh
  replace h1 : addParent cfg i (s.obj i).parents.length p s = _ := h1
  rcases addParent_spec hn hsh i (s.obj i).parents.length p s h hi hp with ⟨t, e⟩ | ⟨hp', _⟩ | ⟨_, t, e, ok⟩
  · rw [e] at h1; cases h1
  · exact absurd hp' hnew
  · rw [e] at h1; cases h1
    obtain ⟨inv1, _, al1, nb1, _, _, nm1, pi1, po1, _, _⟩ := ok
    rw [pyInsert_length] at pi1
    have hnd1 : (s1.obj i).parents.Nodup := by
      rw [pi1, List.nodup_append]
      exact ⟨hnd, by simp, by intro a ha b hb; simp at hb; subst hb; exact fun e => hnew (e ▸ ha)⟩
    replace h2 : removeParent cfg i p s1 = _ := h2
    rcases removeParent_spec hn hsh i p s1 inv1 (by rw [al1]; exact hi) (by rw [al1]; exact hp) hnd1 with
      ⟨t, e⟩ | ⟨_, e⟩ | ⟨_, ps, t, _, hps, e, ok⟩
    · rw [e] at h2; cases h2
    · rw [e] at h2; cases h2
    · rw [e] at h2; cases h2
      obtain ⟨inv2, _, al2, nb2, _, _, nm2, pi2, po2, _, _⟩ := ok
      have hpar : (s2.obj i).parents = (s.obj i).parents := by
        rw [pi2, hps, pi1]
        apply removeFirst_append
        · intro b hb
          rw [Bool.eq_false_iff]
          intro hc
          have hbl := h.graph.lt b (h.graph.parAlive i b hi hb)
          have := (inv1.graph.eqv_iff hn (by rw [nb1]; exact hbl) (by rw [nb1]; exact h.graph.lt p hp)).mp hc
          exact hnew (this ▸ hb)
        · simp [State.eqv]
      have hall : ∀ j, (s2.obj j).parents = (s.obj j).parents := by
        intro j
        by_cases hj : j = i
        · rw [hj]; exact hpar
        · rw [po2 j hj, po1 j hj]
      have hal : s2.alive = s.alive := al2.trans al1
      have hname : ∀ j, (s2.obj j).name = (s.obj j).name := fun j => (nm2 j).2.trans (nm1 j).2
      have hPar : Parent s2 = Parent s := by funext q c; unfold Parent; rw [hal, hall]
      have hanc : ∀ j, s.alive j = true → (s2.obj j).anc = (s.obj j).anc := by
        intro j hj
        have hj2 : s2.alive j = true := by rw [hal]; exact hj
        have hmem : ∀ a, a ∈ (s2.obj j).anc ↔ a ∈ (s.obj j).anc := by
          intro a
          rw [inv2.anc_iff hn j hj2, h.anc_iff hn j hj]
          unfold Ancestor; rw [hPar]
        have hperm : (s2.obj j).anc.Perm (s.obj j).anc :=
          (List.perm_ext_iff_of_nodup (inv2.anc_nodup j hj2) (h.anc_nodup j hj)).mpr hmem
        refine hperm.eq_of_pairwise (le := fun a b => (s.obj a).name ≤ (s.obj b).name) ?_ ?_ (h.anc_sorted j hj)
        · intro a b ha hb h1 h2
          have ha' := ((h.anc_iff hn j hj a).mp ((hmem a).mp ha)).alive_left h.graph
          have hb' := ((h.anc_iff hn j hj b).mp hb).alive_left h.graph
          exact h.graph.name_inj hn (h.graph.lt a ha') (h.graph.lt b hb') (String.le_antisymm h1 h2)
        · have := inv2.anc_sorted j hj2
          exact this.imp (by intro a b hab; rw [hname, hname] at hab; exact hab)
      exact ⟨hpar, hanc i hi, hanc⟩

/-! ### C11: identity -/

/-- Distinct objects never compare equal: `==` (and the hash, which is the hash of the name) coincides with identity. -/
theorem C11_eq_is_identity (i j : Nat) (hi : s.alive i = true) (hj : s.alive j = true) :
    (s.eqv i j = true ↔ i = j) ∧ ((s.obj i).name = (s.obj j).name ↔ i = j) := by
  have h := hr.inv hn hsh
  refine ⟨h.graph.eqv_iff hn (h.graph.lt i hi) (h.graph.lt j hj), ?_⟩
  exact ⟨h.graph.name_inj hn (h.graph.lt i hi) (h.graph.lt j hj), fun e => by rw [e]⟩

end

/-- Class names that are pairwise distinct and do not end in a digit give distinct object names. -/
theorem C11_names_injective (cfg : Cfg V) (hinj : ∀ c c', cfg.cname c = cfg.cname c' → c = c')
    (hdig : ∀ c ch, (cfg.cname c).toList.getLast? = some ch → ch.isDigit = false) : NameInj cfg := by
  have hrev : ∀ c k, (cfg.cname c ++ toString k).toList.reverse.takeWhile Char.isDigit = (Nat.toDigits 10 k).reverse ∧
      (cfg.cname c ++ toString k).toList.reverse.dropWhile Char.isDigit = (cfg.cname c).toList.reverse := by
    intro c k
    have e : (cfg.cname c ++ toString k).toList.reverse = (Nat.toDigits 10 k).reverse ++ (cfg.cname c).toList.reverse := by
      rw [Nat.toString_eq_repr, Nat.repr_eq_ofList_toDigits]
      simp
    have hall : ∀ ch ∈ (Nat.toDigits 10 k).reverse, ch.isDigit = true := by
      intro ch hch
      rw [List.mem_reverse] at hch
      exact Nat.isDigit_of_mem_toDigits (by decide) (by decide) hch
    have htail : (cfg.cname c).toList.reverse.takeWhile Char.isDigit = [] ∧
        (cfg.cname c).toList.reverse.dropWhile Char.isDigit = (cfg.cname c).toList.reverse := by
      have := hdig c
      cases hl : (cfg.cname c).toList.reverse with
      | nil => simp
      | cons a l =>
        have ha : a.isDigit = false := by
          apply this
          rw [← List.head?_reverse, hl]; rfl
        simp [ha]
    rw [e]
    rw [List.takeWhile_append_of_pos hall, List.dropWhile_append_of_pos hall, htail.1, htail.2]
    simp
  intro c c' k k' he
  have h1 := hrev c k
  have h2 := hrev c' k'
  rw [he] at h1
  have hk : Nat.toDigits 10 k = Nat.toDigits 10 k' := List.reverse_injective (h1.1.symm.trans h2.1)
  have hc : (cfg.cname c).toList = (cfg.cname c').toList := List.reverse_injective (h1.2.symm.trans h2.2)
  refine ⟨hinj c c' (String.toList_inj.mp hc), ?_⟩
  have := congrArg (fun l => Nat.ofDigitChars 10 l 0) hk
  simpa [Nat.ofDigitChars_toDigits] using this

end Simsopt.Graph
