import Verif.Graph.Struct
import Mathlib.Tactic.Tauto
/-! Helper lemmas: constructors and edits of the parent lists preserve the invariant. -/
set_option linter.unusedSimpArgs false
namespace Simsopt.Graph
variable {V : Type} {cfg : Cfg V}

/-- `refresh` on a relinked store. -/
theorem refresh_relink (hn : NameInj cfg) {s s2 : State V} (h : Inv cfg s) (i : Nat) (g2 : GraphOK cfg s2)
    (hag : ∀ j, s2.alive j = true → ¬ Desc s2 i j → s.alive j = true ∧ ∀ a, DependsOn s j a → Agree s s2 a) :
    (∃ s', refresh cfg i s2 = .error .recursionError s' ∧ ¬ Term s2 cfg.limit i) ∨
    (∃ s', refresh cfg i s2 = .ok () s' ∧ Static s2 s' ∧ Term s2 cfg.limit i ∧
      (∀ j, s2.alive j = true → FullOK s' j) ∧ (∀ j, s2.alive j = true → FreeOK s' j) ∧
      (∀ j, Desc s2 i j → Told s2 s' j) ∧
      (∀ j, (s2.obj j).newX = true → (s'.obj j).newX = true) ∧ (∀ j, (s2.obj j).bells ≤ (s'.obj j).bells) ∧
      (∀ j, (s'.obj j).ext = (s2.obj j).ext)) := by
  apply refresh_spec cfg i s2 g2.linkOK
  · intro j hj
    by_cases hd : Desc s2 i j
    · exact Or.inr hd
    · obtain ⟨h1, h2⟩ := hag j hj hd; exact Or.inl (h.full_agree hn h1 h2)
  · intro j hj
    by_cases hd : Desc s2 i j
    · exact Or.inr hd
    · obtain ⟨h1, h2⟩ := hag j hj hd; exact Or.inl (h.free_agree hn h1 h2)

theorem static_kept {s s' : State V} (h : Static s s')
    (hx : ∀ j, (s.obj j).newX = true → (s'.obj j).newX = true) (hb : ∀ j, (s.obj j).bells ≤ (s'.obj j).bells)
    (he : ∀ j, (s'.obj j).ext = (s.obj j).ext) : Kept s s' :=
  ⟨by rw [h.ndof], by rw [h.nobj], fun d _ => by rw [h.dof], fun j _ => h.setter j, fun j _ => he j, fun j _ => hx j,
    fun j _ => hb j⟩

theorem pyInsert_eqv_setOK {s : State V} (h : SetOK s) (i : Nat) (ps : List Nat) :
    SetOK (s.setObj i { s.obj i with parents := ps }) := by
  have hobj : ∀ q, ((s.setObj i { s.obj i with parents := ps }).obj q).children = (s.obj q).children ∧
      ((s.setObj i { s.obj i with parents := ps }).obj q).name = (s.obj q).name := by
    intro q
    by_cases hq : q = i
    · subst hq; simp [State.setObj, upd]
    · simp [State.setObj, upd, hq]
  refine ⟨?_, ?_, ?_⟩
  · intro a b ha hb he; rw [(hobj a).2, (hobj b).2] at he; exact h.inj a b ha hb he
  · intro p c hc; rw [(hobj p).1] at hc; exact h.lt p c hc
  · intro p; rw [(hobj p).1]; exact h.nodup p

/-- The store with the parents of `i` replaced and child sets changed: everything but links agrees with `s`. -/
structure Relinked (s : State V) (i : Nat) (s2 : State V) : Prop where
  nobj : s2.nobj = s.nobj
  alive : s2.alive = s.alive
  ndof : s2.ndof = s.ndof
  dof : s2.dof = s.dof
  deps : s2.deps = s.deps
  ids : s2.ids = s.ids
  obj : ∀ j, s2.obj j = { s.obj j with parents := (s2.obj j).parents, children := (s2.obj j).children }
  parents : ∀ j, j ≠ i → (s2.obj j).parents = (s.obj j).parents

theorem Relinked.agree {s s2 : State V} {i : Nat} (h : Relinked s i s2) {a : Nat} (ha : a ≠ i) : Agree s s2 a := by
  have e := h.obj a
  refine ⟨by rw [e], by rw [e], h.parents a ha, by rw [e], by rw [e], by rw [e], by rw [e], by rw [e], by rw [e], ?_, ?_⟩
  · unfold localSize; rw [e, h.dof]
  · unfold localFullSize; rw [e, h.dof]

theorem Relinked.dofOK {s s2 : State V} {i : Nat} (h : Relinked s i s2) (hd : DofOK s) : DofOK s2 := by
  have e : ∀ j, (s2.obj j).dofs = (s.obj j).dofs := fun j => by rw [h.obj j]
  refine ⟨?_, ?_, ?_, ?_, ?_, ?_, ?_⟩
  · intro d; rw [h.dof]; exact hd.wf d
  · intro j hj; rw [h.alive] at hj; rw [e, h.ndof]; exact hd.lt j hj
  · intro d o; rw [h.deps, h.nobj]; exact hd.depLt d o
  · intro d; rw [h.deps, h.ndof]; exact hd.depNew d
  · intro o ho; rw [h.alive] at ho; rw [e, h.deps]; exact hd.depIn o ho
  · intro o d ho; rw [h.alive] at ho; rw [e, h.deps]; exact hd.depOf o d ho
  · intro d; rw [h.deps]; exact hd.depNodup d

theorem Relinked.kept {s s2 : State V} {i : Nat} (h : Relinked s i s2) : Kept s s2 := by
  refine ⟨by rw [h.ndof], by rw [h.nobj], fun d _ => by rw [h.dof], ?_, ?_, ?_, ?_⟩
  · intro j _; rw [h.obj j]
  · intro j _; rw [h.obj j]
  · intro j _ hx; rw [h.obj j]; exact hx
  · intro j _; rw [h.obj j]

theorem relinked_of {s : State V} {i : Nat} {ps : List Nat} {s2 : State V}
    (h : ChildRel (s.setObj i { s.obj i with parents := ps }) s2) :
    Relinked s i s2 ∧ (s2.obj i).parents = ps := by
  refine ⟨⟨h.nobj, h.alive, h.ndof, h.dof, h.deps, h.ids, ?_, ?_⟩, ?_⟩
  · intro j
    have e := h.obj j
    by_cases hj : j = i
    · subst hj
      simp only [State.setObj, upd_same] at e
      rw [e]
    · simp only [State.setObj, upd_ne _ _ _ _ hj] at e
      rw [e]
  · intro j hj
    have e := h.obj j
    simp only [State.setObj, upd_ne _ _ _ _ hj] at e
    rw [e]
  · have e := h.obj i
    simp only [State.setObj, upd_same] at e
    rw [e]

/-- GraphOK of the relinked store from the new links. -/
theorem Relinked.graphOK {s s2 : State V} {i : Nat} (h : Relinked s i s2) (g : GraphOK cfg s) (so : SetOK s2)
    (hblank : ∀ p, s.nobj ≤ p → (s2.obj p).children = [])
    (hpar : ∀ p ∈ (s2.obj i).parents, s.alive p = true)
    (hlink : ∀ c p, s.alive c = true → (p ∈ (s2.obj c).parents ↔ c ∈ (s2.obj p).children)) : GraphOK cfg s2 := by
  have en : ∀ j, (s2.obj j).name = (s.obj j).name := fun j => by rw [h.obj j]
  have ec : ∀ j, (s2.obj j).cls = (s.obj j).cls := fun j => by rw [h.obj j]
  have em : ∀ j, (s2.obj j).num = (s.obj j).num := fun j => by rw [h.obj j]
  refine ⟨?_, ?_, so.lt, so.nodup, ?_, ?_, ?_, ?_⟩
  · intro j hj; rw [h.alive] at hj; rw [h.nobj]; exact g.lt j hj
  · intro p hp; rw [h.nobj] at hp; exact hblank p hp
  · intro j hj; rw [h.nobj] at hj; rw [en, ec, em, h.ids]; exact g.names j hj
  · intro a b ha hb; rw [h.nobj] at ha hb; rw [ec, ec, em, em]; exact g.numInj a b ha hb
  · intro c p hc hp
    rw [h.alive] at hc ⊢
    by_cases hci : c = i
    · subst hci; exact hpar p hp
    · rw [h.parents c hci] at hp; exact g.parAlive c p hc hp
  · intro c p hc; rw [h.alive] at hc; exact hlink c p hc

/-- Assemble the invariant after `refresh`. -/
theorem relink_inv {s2 s3 : State V} (g2 : GraphOK cfg s2) (d3 : DofOK s3) (st : Static s2 s3)
    (hac : WellFounded (Parent s2)) (hfull : ∀ j, s2.alive j = true → FullOK s3 j)
    (hfree : ∀ j, s2.alive j = true → FreeOK s3 j) : Inv cfg s3 := by
  refine ⟨g2.static st, d3, by rw [st.parent]; exact hac, ?_, ?_⟩
  · intro j hj; rw [st.alive] at hj; exact hfull j hj
  · intro j hj; rw [st.alive] at hj; exact hfree j hj

theorem acyclic_add {s s2 : State V} {i : Nat} (hac : WellFounded (Parent s)) (g2 : GraphOK cfg s2)
    (hal : s2.alive = s.alive)
    (hpar : ∀ j, j ≠ i → (s2.obj j).parents = (s.obj j).parents) {n : Nat} (ht : Term s2 n i) :
    WellFounded (Parent s2) := by
  have hcp : Child s2 = Parent s2 := by funext p c; exact propext (g2.child_iff p c)
  have hnc : ¬ Relation.TransGen (Parent s2) i i := by rw [← hcp]; exact ht.no_cycle
  have hdesc : Desc s2 = Relation.ReflTransGen (Parent s2) := by unfold Desc; rw [hcp]
  have hstep : ∀ p j, j ≠ i → Parent s2 p j → Parent s p j := by
    intro p j hj ⟨h1, h2⟩; rw [hal] at h1; rw [hpar j hj] at h2; exact ⟨h1, h2⟩
  have hA : ∀ j, ¬ Desc s2 i j → Acc (Parent s2) j := by
    intro j
    induction j using hac.induction with
    | _ j ih =>
      intro hnd
      refine Acc.intro _ (fun p hp => ?_)
      have hji : j ≠ i := fun e => hnd (e ▸ Relation.ReflTransGen.refl)
      refine ih p (hstep p j hji hp) (fun hd => hnd ?_)
      rw [hdesc] at hd ⊢
      exact Relation.ReflTransGen.tail hd hp
  have hB : Acc (Parent s2) i := by
    refine Acc.intro _ (fun p hp => hA p (fun hd => hnc ?_))
    rw [hdesc] at hd
    exact Relation.TransGen.tail' hd hp
  refine ⟨fun j => ?_⟩
  induction j using hac.induction with
  | _ j ih =>
    by_cases hji : j = i
    · subst hji; exact hB
    · exact Acc.intro _ (fun p hp => ih p (hstep p j hji hp))

/-- Result of an edit of the parents of `i`. -/
def EditOK (cfg : Cfg V) (s : State V) (i : Nat) (ps : List Nat) (s' : State V) : Prop :=
  Inv cfg s' ∧ Kept s s' ∧ s'.alive = s.alive ∧ s'.nobj = s.nobj ∧ s'.ndof = s.ndof ∧ s'.dof = s.dof ∧
  (∀ j, (s'.obj j).dofs = (s.obj j).dofs ∧ (s'.obj j).name = (s.obj j).name) ∧
  (s'.obj i).parents = ps ∧ (∀ j, j ≠ i → (s'.obj j).parents = (s.obj j).parents) ∧
  (∀ j, Desc s' i j → Told s s' j) ∧ (∀ j, Desc s i j → Desc s' i j)

theorem addParent_spec (hn : NameInj cfg) (hsh : ShuffleOK cfg) (i : Nat) (idx : Int) (p : Nat) (s : State V)
    (h : Inv cfg s) (hai : s.alive i = true) (hap : s.alive p = true) :
    (∃ s', addParent cfg i idx p s = .error .recursionError s') ∨
    (p ∈ (s.obj i).parents ∧ addParent cfg i idx p s = .ok () s) ∨
    (p ∉ (s.obj i).parents ∧ ∃ s', addParent cfg i idx p s = .ok () s' ∧
      EditOK cfg s i (pyInsert (s.obj i).parents idx p) s') := by
  have hany : ((s.obj i).parents.any (fun q => s.eqv q p)) = true ↔ p ∈ (s.obj i).parents := by
    rw [List.any_eq_true]
    constructor
    · rintro ⟨q, hq, he⟩
      have := (h.graph.eqv_iff hn (h.graph.lt q (h.graph.parAlive i q hai hq)) (h.graph.lt p hap)).mp he
      rw [← this]; exact hq
    · intro hp; exact ⟨p, hp, by simp [State.eqv]⟩
  unfold addParent
  simp only [run_bind, run_get]
  by_cases hp : p ∈ (s.obj i).parents
  · right; left; rw [if_pos (hany.mpr hp)]; exact ⟨hp, rfl⟩
  · rw [if_neg (fun hc => hp (hany.mp hc))]
    simp only [run_bind, run_set]
    have so1 := pyInsert_eqv_setOK (h.graph.setOK hn) i (pyInsert (s.obj i).parents idx p)
    obtain ⟨s2, e2, r2, so2, m2⟩ := addChild_spec hsh p i _ so1 (by exact hai) (h.graph.lt i hai)
    rw [e2]
    simp only
    obtain ⟨rl, hps⟩ := relinked_of r2
    have hch : ∀ q c, c ∈ (s2.obj q).children ↔ c ∈ (s.obj q).children ∨ (q = p ∧ c = i) := by
      intro q c; rw [m2]
      have : ((s.setObj i { s.obj i with parents := pyInsert (s.obj i).parents idx p }).obj q).children = (s.obj q).children := by
        by_cases hq : q = i
        · subst hq; simp [State.setObj, upd]
        · simp [State.setObj, upd, hq]
      rw [this]
    have g2 : GraphOK cfg s2 := by
      refine rl.graphOK h.graph so2 ?_ ?_ ?_
      · intro q hq
        apply List.eq_nil_iff_forall_not_mem.mpr
        intro c hc
        rcases (hch q c).mp hc with hc | ⟨rfl, _⟩
        · rw [h.graph.blank q hq] at hc; simp at hc
        · exact absurd (h.graph.lt q hap) (by omega)
      · intro q hq
        rw [hps, mem_pyInsert] at hq
        rcases hq with rfl | hq
        · exact hap
        · exact h.graph.parAlive i q hai hq
      · intro c q hc
        rw [hch]
        by_cases hci : c = i
        · subst hci
          rw [hps, mem_pyInsert, h.graph.link c q hc]; tauto
        · rw [rl.parents c hci, h.graph.link c q hc]; tauto
    have hsub : ∀ a b, Child s a b → Child s2 a b := by
      intro a b hab
      unfold Child kids at hab ⊢
      rw [List.mem_filter] at hab ⊢
      exact ⟨(hch a b).mpr (Or.inl hab.1), by rw [rl.alive]; exact hab.2⟩
    have hmono : ∀ j, Desc s i j → Desc s2 i j := fun j hj => Relation.ReflTransGen.mono hsub _ _ hj
    rcases refresh_relink hn h i g2 (fun j hj hnd => ⟨by rw [rl.alive] at hj; exact hj, fun a ha => by
        refine rl.agree (fun e => hnd (hmono j ?_))
        subst e
        exact (h.graph.desc_iff _ j).mpr ha⟩) with ⟨s', e, _⟩ | ⟨s3, e3, st, ht, hf, hfr, td, nx, bl, ex⟩
    · left; exact ⟨s', e⟩
    · right; right
      refine ⟨hp, s3, e3, ?_⟩
      refine ⟨relink_inv g2 ((rl.dofOK h.dofs).static st) st (acyclic_add h.acyclic g2 rl.alive rl.parents ht) hf hfr,
        rl.kept.trans (static_kept st nx bl ex), st.alive.trans rl.alive, st.nobj.trans rl.nobj, st.ndof.trans rl.ndof,
        st.dof.trans rl.dof, ?_, ?_, ?_, ?_, ?_⟩
      · intro j; rw [st.dofs, st.name, rl.obj j]; exact ⟨rfl, rfl⟩
      · rw [st.parents]; exact hps
      · intro j hj; rw [st.parents]; exact rl.parents j hj
      · intro j hj
        rw [st.desc] at hj
        have := td j hj
        exact ⟨this.1, by have h2 := this.2; rw [rl.obj j] at h2; exact h2⟩
      · intro j hj; rw [st.desc]; exact hmono j hj

/-- Removing one parent: shared by `pop_parent` and `remove_parent`. -/
theorem unlink_spec (hn : NameInj cfg) (hsh : ShuffleOK cfg) (i p : Nat) (ps : List Nat) (s : State V)
    (h : Inv cfg s) (hai : s.alive i = true) (hp : p ∈ (s.obj i).parents)
    (hps : ∀ q, q ∈ ps ↔ q ∈ (s.obj i).parents ∧ q ≠ p) :
    let m : M V Unit := do removeChild cfg p i; refresh cfg i
    (∃ s', m (s.setObj i { s.obj i with parents := ps }) = .error .recursionError s') ∨
    (∃ s', m (s.setObj i { s.obj i with parents := ps }) = .ok () s' ∧ EditOK cfg s i ps s') := by
  simp only [run_bind]
  have so1 := pyInsert_eqv_setOK (h.graph.setOK hn) i ps
  have hchs : ∀ q, ((s.setObj i { s.obj i with parents := ps }).obj q).children = (s.obj q).children := by
    intro q
    by_cases hq : q = i
    · subst hq; simp [State.setObj, upd]
    · simp [State.setObj, upd, hq]
  obtain ⟨s2, e2, r2, so2, m2⟩ := removeChild_spec hsh p i _ so1 (by exact hai) (h.graph.lt i hai)
    (by rw [hchs]; exact (h.graph.link i p hai).mp hp)
  rw [e2]
  simp only
  obtain ⟨rl, hpe⟩ := relinked_of r2
  have hch : ∀ q c, c ∈ (s2.obj q).children ↔ c ∈ (s.obj q).children ∧ ¬ (q = p ∧ c = i) := by
    intro q c; rw [m2, hchs]
  have g2 : GraphOK cfg s2 := by
    refine rl.graphOK h.graph so2 ?_ ?_ ?_
    · intro q hq
      apply List.eq_nil_iff_forall_not_mem.mpr
      intro c hc
      have := ((hch q c).mp hc).1
      rw [h.graph.blank q hq] at this; simp at this
    · intro q hq
      rw [hpe, hps] at hq
      exact h.graph.parAlive i q hai hq.1
    · intro c q hc
      rw [hch]
      by_cases hci : c = i
      · subst hci
        rw [hpe, hps, h.graph.link c q hc]; tauto
      · rw [rl.parents c hci, h.graph.link c q hc]; tauto
  have hmono : ∀ j, Desc s i j → Desc s2 i j := by
    intro j hj
    induction hj with
    | refl => exact Relation.ReflTransGen.refl
    | @tail b c hb hbc ih =>
      by_cases hci : c = i
      · exfalso
        subst hci
        have hcp : Child s = Parent s := by funext p c; exact propext (h.graph.child_iff p c)
        unfold Desc at hb
        rw [hcp] at hb hbc
        exact h.not_ancestor_self c (Relation.TransGen.tail' hb hbc)
      · refine Relation.ReflTransGen.tail ih ?_
        unfold Child kids at hbc ⊢
        rw [List.mem_filter] at hbc ⊢
        exact ⟨(hch b c).mpr ⟨hbc.1, fun e => hci e.2⟩, by rw [rl.alive]; exact hbc.2⟩
  have hacy : WellFounded (Parent s2) := by
    refine Subrelation.wf (r := Parent s) ?_ h.acyclic
    intro q c ⟨h1, h2⟩
    rw [rl.alive] at h1
    refine ⟨h1, ?_⟩
    by_cases hci : c = i
    · subst hci; rw [hpe, hps] at h2; exact h2.1
    · rw [rl.parents c hci] at h2; exact h2
  rcases refresh_relink hn h i g2 (fun j hj hnd => ⟨by rw [rl.alive] at hj; exact hj, fun a ha => by
      refine rl.agree (fun e => hnd (hmono j ?_))
      subst e
      exact (h.graph.desc_iff _ j).mpr ha⟩) with ⟨s', e, _⟩ | ⟨s3, e3, st, ht, hf, hfr, td, nx, bl, ex⟩
  · left; exact ⟨s', e⟩
  · right
    refine ⟨s3, e3, ?_⟩
    refine ⟨relink_inv g2 ((rl.dofOK h.dofs).static st) st hacy hf hfr,
      rl.kept.trans (static_kept st nx bl ex), st.alive.trans rl.alive, st.nobj.trans rl.nobj, st.ndof.trans rl.ndof,
      st.dof.trans rl.dof, ?_, ?_, ?_, ?_, ?_⟩
    · intro j; rw [st.dofs, st.name, rl.obj j]; exact ⟨rfl, rfl⟩
    · rw [st.parents]; exact hpe
    · intro j hj; rw [st.parents]; exact rl.parents j hj
    · intro j hj
      rw [st.desc] at hj
      have := td j hj
      exact ⟨this.1, by have h2 := this.2; rw [rl.obj j] at h2; exact h2⟩
    · intro j hj; rw [st.desc]; exact hmono j hj

theorem mem_eraseIdx_nodup {l : List Nat} (hnd : l.Nodup) {k : Nat} {p : Nat} (hk : l[k]? = some p) (q : Nat) :
    q ∈ l.eraseIdx k ↔ q ∈ l ∧ q ≠ p := by
  rw [List.mem_eraseIdx_iff_getElem?]
  constructor
  · rintro ⟨m, hm, hq⟩
    refine ⟨List.mem_of_getElem? hq, fun e => hm ?_⟩
    subst e
    obtain ⟨h1, h1'⟩ := List.getElem?_eq_some_iff.mp hq
    obtain ⟨h2, h2'⟩ := List.getElem?_eq_some_iff.mp hk
    exact (List.Nodup.getElem_inj_iff hnd).mp (h1'.trans h2'.symm)
  · rintro ⟨hq, hne⟩
    obtain ⟨m, hm⟩ := List.getElem?_of_mem hq
    refine ⟨m, fun e => hne ?_, hm⟩
    subst e; rw [hk] at hm; exact (Option.some.inj hm).symm

theorem popParent_spec (hn : NameInj cfg) (hsh : ShuffleOK cfg) (i : Nat) (idx : Int) (s : State V)
    (h : Inv cfg s) (hai : s.alive i = true) (hnd : (s.obj i).parents.Nodup) :
    (∃ s', popParent cfg i idx s = .error .recursionError s') ∨
    (popParent cfg i idx s = .error .indexError s ∧ pyIndex (s.obj i).parents.length idx = .error .indexError) ∨
    (∃ k p s', pyIndex (s.obj i).parents.length idx = .ok k ∧ (s.obj i).parents[k]? = some p ∧
      popParent cfg i idx s = .ok p s' ∧ EditOK cfg s i ((s.obj i).parents.eraseIdx k) s') := by
  unfold popParent
  simp only [run_bind, run_get]
  cases hx : pyIndex (s.obj i).parents.length idx with
  | error e =>
    right; left
    have := pyIndex_err hx; subst this
    exact ⟨rfl, rfl⟩
  | ok k =>
    have hk := (pyIndex_ok.mp hx).1
    have hg : (s.obj i).parents[k]? = some (s.obj i).parents[k] := List.getElem?_eq_getElem hk
    simp only [hg]
    simp only [run_bind, run_set]
    have := unlink_spec hn hsh i (s.obj i).parents[k] ((s.obj i).parents.eraseIdx k) s h hai (List.getElem_mem hk)
      (mem_eraseIdx_nodup hnd hg)
    simp only [run_bind] at this
    cases h1 : removeChild cfg (s.obj i).parents[k] i (s.setObj i { s.obj i with parents := (s.obj i).parents.eraseIdx k }) with
    | error e t =>
      rw [h1] at this
      rcases this with ⟨s', e⟩ | ⟨s', e, _⟩
      · left; exact ⟨s', by simpa using e⟩
      · cases e
    | ok u t =>
      rw [h1] at this
      simp only at this ⊢
      rcases this with ⟨s', e⟩ | ⟨s', e, ok⟩
      · left; exact ⟨s', by rw [e]⟩
      · right; right; exact ⟨k, _, s', rfl, hg, by rw [e]; rfl, ok⟩

theorem removeParent_spec (hn : NameInj cfg) (hsh : ShuffleOK cfg) (i p : Nat) (s : State V)
    (h : Inv cfg s) (hai : s.alive i = true) (hap : s.alive p = true) (hnd : (s.obj i).parents.Nodup) :
    (∃ s', removeParent cfg i p s = .error .recursionError s') ∨
    (p ∉ (s.obj i).parents ∧ removeParent cfg i p s = .error .valueError s) ∨
    (p ∈ (s.obj i).parents ∧ ∃ ps s', (∀ q, q ∈ ps ↔ q ∈ (s.obj i).parents ∧ q ≠ p) ∧
      ps = removeFirst (fun q => s.eqv q p) (s.obj i).parents ∧
      removeParent cfg i p s = .ok () s' ∧ EditOK cfg s i ps s') := by
  have heq : ∀ q ∈ (s.obj i).parents, s.eqv q p = true ↔ q = p := fun q hq =>
    h.graph.eqv_iff hn (h.graph.lt q (h.graph.parAlive i q hai hq)) (h.graph.lt p hap)
  have hany : ((s.obj i).parents.any (fun q => s.eqv q p)) = true ↔ p ∈ (s.obj i).parents := by
    rw [List.any_eq_true]
    constructor
    · rintro ⟨q, hq, he⟩; rw [← (heq q hq).mp he]; exact hq
    · intro hp; exact ⟨p, hp, by simp [State.eqv]⟩
  unfold removeParent
  simp only [run_bind, run_get]
  by_cases hp : p ∈ (s.obj i).parents
  · rw [if_pos (hany.mpr hp)]
    simp only [run_bind, run_set]
    have hmem := removeFirst_mem_iff hnd heq
    have := unlink_spec hn hsh i p _ s h hai hp hmem
    simp only [run_bind] at this
    rcases this with ⟨s', e⟩ | ⟨s', e, ok⟩
    · left; exact ⟨s', e⟩
    · right; right; exact ⟨hp, _, s', hmem, rfl, e, ok⟩
  · rw [if_neg (fun hc => hp (hany.mp hc))]
    right; left; exact ⟨hp, rfl⟩

/-! ### DOFs dependents -/

theorem addOpt_spec (d i : Nat) (s : State V) :
    ∃ s', addOpt d i s = .ok () s' ∧ s'.obj = s.obj ∧ s'.alive = s.alive ∧ s'.dof = s.dof ∧ s'.nobj = s.nobj ∧
      s'.ndof = s.ndof ∧ s'.ids = s.ids ∧
      s'.deps = (if (s.deps d).any (fun o => s.alive o && s.eqv o i) then s.deps else upd s.deps d (s.deps d ++ [i])) := by
  unfold addOpt
  rw [run_modify]
  refine ⟨_, rfl, ?_⟩
  split
  · exact ⟨rfl, rfl, rfl, rfl, rfl, rfl, rfl⟩
  · exact ⟨rfl, rfl, rfl, rfl, rfl, rfl, rfl⟩

theorem fullOK_of_eq {s s' : State V} (h1 : s'.obj = s.obj) (h2 : s'.dof = s.dof) {j : Nat} (h : FullOK s j) :
    FullOK s' j := by
  have e : localFullSize s' = localFullSize s := by funext o; unfold localFullSize; rw [h1, h2]
  have g : getAncestors s' j = getAncestors s j := by unfold getAncestors sortByName; rw [h1]
  exact ⟨by rw [g, h1]; exact h.anc, by rw [h1]; exact h.uniq, by rw [e, h1]; exact h.size, by rw [e, h1]; exact h.idx⟩

theorem freeOK_of_eq {s s' : State V} (h1 : s'.obj = s.obj) (h2 : s'.dof = s.dof) {j : Nat} (h : FreeOK s j) :
    FreeOK s' j := by
  have e : localSize s' = localSize s := by funext o; unfold localSize; rw [h1, h2]
  exact ⟨by rw [e, h1]; exact h.size, by rw [e, h1]; exact h.idx⟩

theorem graphOK_of_eq {s s' : State V} (h1 : s'.obj = s.obj) (h2 : s'.alive = s.alive) (h3 : s'.nobj = s.nobj)
    (h4 : s'.ids = s.ids) (h : GraphOK cfg s) : GraphOK cfg s' := by
  refine ⟨?_, ?_, ?_, ?_, ?_, ?_, ?_, ?_⟩
  · rw [h2, h3]; exact h.lt
  · rw [h1, h3]; exact h.blank
  · rw [h1, h3]; exact h.childLt
  · rw [h1]; exact h.childNodup
  · rw [h1, h3, h4]; exact h.names
  · rw [h1, h3]; exact h.numInj
  · rw [h1, h2]; exact h.parAlive
  · rw [h1, h2]; exact h.link

end Simsopt.Graph
