import Verif.Graph.Inv
import Verif.Graph.Lists
/-! Helper lemmas: what the invariant says about lineages. -/
namespace Simsopt.Graph
variable {V : Type} {cfg : Cfg V} {s : State V}

theorem Ancestor.alive_left (hg : GraphOK cfg s) {a j : Nat} (h : Ancestor s a j) : s.alive a = true := by
  induction h using Relation.TransGen.head_induction_on with
  | single h => exact hg.parAlive _ _ h.1 h.2
  | head h _ _ => exact hg.parAlive _ _ h.1 h.2

theorem Ancestor.alive_right {a j : Nat} (h : Ancestor s a j) : s.alive j = true := by
  cases h with
  | single h => exact h.1
  | tail _ h => exact h.1

theorem insertBy_perm {α : Type} (le : α → α → Bool) (a : α) (l : List α) : (insertBy le a l).Perm (a :: l) := by
  induction l with
  | nil => exact List.Perm.refl _
  | cons b l ih =>
    unfold insertBy
    split
    · exact List.Perm.refl _
    · exact (ih.cons b).trans (List.Perm.swap a b l)

theorem sortBy_perm {α : Type} (le : α → α → Bool) (l : List α) : (sortBy le l).Perm l := by
  induction l with
  | nil => exact List.Perm.refl _
  | cons a l ih => exact (insertBy_perm le a _).trans (ih.cons a)

theorem pairwise_insertBy {α : Type} {le : α → α → Bool} (ht : ∀ a b c, le a b = true → le b c = true → le a c = true)
    (hl : ∀ a b, (le a b || le b a) = true) (a : α) (l : List α) (h : l.Pairwise (fun a b => le a b = true)) :
    (insertBy le a l).Pairwise (fun a b => le a b = true) := by
  induction l with
  | nil => simp [insertBy]
  | cons b l ih =>
    unfold insertBy
    rw [List.pairwise_cons] at h
    split
    · rename_i hab
      refine List.pairwise_cons.mpr ⟨?_, List.pairwise_cons.mpr h⟩
      intro c hc
      rcases List.mem_cons.mp hc with rfl | hc
      · exact hab
      · exact ht _ _ _ hab (h.1 c hc)
    · rename_i hab
      refine List.pairwise_cons.mpr ⟨?_, ih h.2⟩
      intro c hc
      rcases List.mem_cons.mp ((insertBy_perm le a l).mem_iff.mp hc) with rfl | hc
      · have := hl c b
        simp only [Bool.or_eq_true] at this
        exact this.resolve_left hab
      · exact h.1 c hc

theorem pairwise_sortBy {α : Type} {le : α → α → Bool} (ht : ∀ a b c, le a b = true → le b c = true → le a c = true)
    (hl : ∀ a b, (le a b || le b a) = true) (l : List α) : (sortBy le l).Pairwise (fun a b => le a b = true) := by
  induction l with
  | nil => exact List.Pairwise.nil
  | cons a l ih => exact pairwise_insertBy ht hl a _ ih

theorem insertBy_congr {α : Type} {r r' : α → α → Bool} (a : α) (l : List α) (h : ∀ b ∈ l, r a b = r' a b) :
    insertBy r a l = insertBy r' a l := by
  induction l with
  | nil => rfl
  | cons b l ih =>
    unfold insertBy
    rw [h b List.mem_cons_self, ih (fun c hc => h c (List.mem_cons_of_mem _ hc))]

theorem sortBy_congr {α : Type} {r r' : α → α → Bool} (l : List α) (h : ∀ a ∈ l, ∀ b ∈ l, r a b = r' a b) :
    sortBy r l = sortBy r' l := by
  induction l with
  | nil => rfl
  | cons a l ih =>
    unfold sortBy
    rw [ih (fun x hx y hy => h x (List.mem_cons_of_mem _ hx) y (List.mem_cons_of_mem _ hy))]
    apply insertBy_congr
    intro b hb
    exact h a List.mem_cons_self b (List.mem_cons_of_mem _ ((sortBy_perm _ _).mem_iff.mp hb))

theorem mem_sortByName (s : State V) (l : List Nat) (a : Nat) : a ∈ sortByName s l ↔ a ∈ l :=
  (sortBy_perm _ l).mem_iff

/-- Cached ancestors are exactly the transitive parents. -/
theorem Inv.anc_iff (hn : NameInj cfg) (h : Inv cfg s) (j : Nat) (hj : s.alive j = true) (a : Nat) :
    a ∈ (s.obj j).anc ↔ Ancestor s a j := by
  induction j using h.acyclic.induction generalizing a with
  | _ j ih =>
    rw [(h.full j hj).anc]
    unfold getAncestors
    simp only
    rw [mem_sortByName]
    have hmem : ∀ a, a ∈ (s.obj j).parents.flatMap (fun p => (s.obj p).anc) ++ (s.obj j).parents ↔
        Ancestor s a j := by
      intro a
      rw [List.mem_append, List.mem_flatMap]
      constructor
      · rintro (⟨p, hp, hap⟩ | hp)
        · exact Relation.TransGen.tail ((ih p ⟨hj, hp⟩ (h.graph.parAlive j p hj hp) a).mp hap) ⟨hj, hp⟩
        · exact Relation.TransGen.single ⟨hj, hp⟩
      · intro ha
        cases ha with
        | single hp => exact Or.inr hp.2
        | tail hap hp =>
          exact Or.inl ⟨_, hp.2, (ih _ hp (h.graph.parAlive j _ hj hp.2) a).mpr hap⟩
    rw [mem_dedupOn, hmem]
    intro a ha b hb he
    rw [hmem] at ha hb
    exact h.graph.name_inj hn (h.graph.lt a (ha.alive_left h.graph)) (h.graph.lt b (hb.alive_left h.graph)) he

theorem Inv.not_ancestor_self (h : Inv cfg s) (j : Nat) : ¬ Ancestor s j j :=
  acc_irrefl (h.acyclic.apply j).transGen

theorem Inv.anc_nodup (h : Inv cfg s) (j : Nat) (hj : s.alive j = true) : (s.obj j).anc.Nodup := by
  rw [(h.full j hj).anc]
  unfold getAncestors sortByName
  exact (sortBy_perm _ _).nodup_iff.mpr (dedupOn_nodup _ _)

theorem Inv.anc_sorted (h : Inv cfg s) (j : Nat) (hj : s.alive j = true) :
    (s.obj j).anc.Pairwise (fun a b => (s.obj a).name ≤ (s.obj b).name) := by
  rw [(h.full j hj).anc]
  unfold getAncestors sortByName
  have := pairwise_sortBy (le := fun a b : Nat => decide ((s.obj a).name ≤ (s.obj b).name))
    (by intro a b c; simp only [decide_eq_true_eq]; exact String.le_trans)
    (by intro a b; simp only [Bool.or_eq_true, decide_eq_true_eq]; exact String.le_total _ _)
    (dedupOn (fun a => (s.obj a).name)
      ((s.obj j).parents.flatMap (fun p => (s.obj p).anc) ++ (s.obj j).parents))
  exact this.imp (by intro a b; simp)

theorem Inv.uniq_mem (hn : NameInj cfg) (h : Inv cfg s) {j o : Nat} (hj : s.alive j = true)
    (ho : o ∈ (s.obj j).uniq) : DependsOn s j o ∧ s.alive o = true := by
  rw [(h.full j hj).uniq] at ho
  have := mem_of_dedupOn ho
  rw [List.mem_append] at this
  rcases this with ha | ha
  · have := (h.anc_iff hn j hj o).mp ha
    exact ⟨Or.inr this, this.alive_left h.graph⟩
  · simp at ha; subst ha; exact ⟨Or.inl rfl, hj⟩

theorem Inv.uniq_dofs_nodup (h : Inv cfg s) {j : Nat} (hj : s.alive j = true) :
    ((s.obj j).uniq.map (fun o => (s.obj o).dofs)).Nodup := by
  rw [(h.full j hj).uniq]; exact dedupOn_keys_nodup _ _

theorem Inv.uniq_covers (hn : NameInj cfg) (h : Inv cfg s) {j o : Nat} (hj : s.alive j = true)
    (ho : DependsOn s j o) : ∃ o' ∈ (s.obj j).uniq, (s.obj o').dofs = (s.obj o).dofs := by
  rw [(h.full j hj).uniq]
  apply exists_dedupOn (fun o => (s.obj o).dofs)
  rw [List.mem_append]
  rcases ho with e | ha
  · right; simp [e]
  · left; exact (h.anc_iff hn j hj o).mpr ha

theorem Inv.uniq_names_nodup (hn : NameInj cfg) (h : Inv cfg s) {j : Nat} (hj : s.alive j = true) :
    ((s.obj j).uniq.map (fun o => (s.obj o).name)).Nodup := by
  have hnd : (s.obj j).uniq.Nodup := List.Nodup.of_map _ (h.uniq_dofs_nodup hj)
  refine hnd.map_on ?_
  intro a ha b hb he
  exact h.graph.name_inj hn (h.graph.lt a (h.uniq_mem hn hj ha).2) (h.graph.lt b (h.uniq_mem hn hj hb).2) he

theorem dict_indexPairs {names : Nat → String} {opts sizes : List Nat} (hl : opts.length = sizes.length)
    (hnd : (opts.map names).Nodup) : dictOf names (indexPairs opts sizes) = indexPairs opts sizes := by
  apply dictOf_eq_self
  have : (indexPairs opts sizes).map (fun e => names e.1) = ((indexPairs opts sizes).map Prod.fst).map names := by
    rw [List.map_map]; rfl
  rw [this, indexPairs_fst hl]; exact hnd

theorem Inv.freeIdx_eq (hn : NameInj cfg) (h : Inv cfg s) {j : Nat} (hj : s.alive j = true) :
    (s.obj j).freeIdx = (s.obj j).uniq.zip (offsetPairs 0 ((s.obj j).uniq.map (localSize s))) := by
  rw [(h.free j hj).idx, dict_indexPairs (by simp) (h.uniq_names_nodup hn hj), indexPairs_eq]

theorem Inv.fullIdx_eq (hn : NameInj cfg) (h : Inv cfg s) {j : Nat} (hj : s.alive j = true) :
    (s.obj j).fullIdx = (s.obj j).uniq.zip (offsetPairs 0 ((s.obj j).uniq.map (localFullSize s))) := by
  rw [(h.full j hj).idx, dict_indexPairs (by simp) (h.uniq_names_nodup hn hj), indexPairs_eq]

theorem Inv.uniq_ne_nil (h : Inv cfg s) {j : Nat} (hj : s.alive j = true) : (s.obj j).uniq ≠ [] := by
  rw [(h.full j hj).uniq]
  obtain ⟨b, hb, _⟩ := exists_dedupOn (fun o => (s.obj o).dofs) (l := (s.obj j).anc ++ [j]) (a := j) (by simp)
  intro e; rw [e] at hb; simp at hb

theorem lastIndex_zip : ∀ (opts sizes : List Nat) (a : Nat), opts.length = sizes.length → opts ≠ [] →
    lastIndex (opts.zip (offsetPairs a sizes)) = .ok (a + sizes.sum) := by
  intro opts
  induction opts with
  | nil => intro sizes a _ h; exact absurd rfl h
  | cons o opts ih =>
    intro sizes a hl _
    cases sizes with
    | nil => simp at hl
    | cons n sizes =>
      simp at hl
      simp only [offsetPairs, List.zip_cons_cons]
      cases opts with
      | nil =>
        cases sizes with
        | nil => simp [lastIndex]
        | cons => simp at hl
      | cons o' opts =>
        cases sizes with
        | nil => simp at hl
        | cons n' sizes =>
          have := ih (n' :: sizes) (a + n) hl (by simp)
          simp only [offsetPairs, List.zip_cons_cons] at this ⊢
          rw [lastIndex, List.getLast?_cons_cons]
          rw [lastIndex] at this
          rw [this]
          simp only [List.sum_cons]
          congr 1; omega

theorem Inv.lastIndex_free (hn : NameInj cfg) (h : Inv cfg s) {j : Nat} (hj : s.alive j = true) :
    lastIndex (s.obj j).freeIdx = .ok (s.obj j).freeSize := by
  rw [h.freeIdx_eq hn hj, lastIndex_zip _ _ _ (by simp) (h.uniq_ne_nil hj), (h.free j hj).size]
  simp

end Simsopt.Graph
