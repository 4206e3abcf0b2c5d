import Verif.Graph.Walk
/-! Helper lemmas: the lineage recursion restores consistency of all cached lineages. -/
namespace Simsopt.Graph
variable {V : Type}

/-- Cached lineage data of `j` is what a recomputation from its parents' cached data would give. -/
structure FullOK (s : State V) (j : Nat) : Prop where
  anc : (s.obj j).anc = getAncestors s j
  uniq : (s.obj j).uniq = dedupOn (fun o => (s.obj o).dofs) ((s.obj j).anc ++ [j])
  size : (s.obj j).fullSize = ((s.obj j).uniq.map (localFullSize s)).sum
  idx : (s.obj j).fullIdx =
    dictOf (fun o => (s.obj o).name) (indexPairs (s.obj j).uniq ((s.obj j).uniq.map (localFullSize s)))

/-- Cached free-dof data of `j` is up to date. -/
structure FreeOK (s : State V) (j : Nat) : Prop where
  size : (s.obj j).freeSize = ((s.obj j).uniq.map (localSize s)).sum
  idx : (s.obj j).freeIdx =
    dictOf (fun o => (s.obj o).name) (indexPairs (s.obj j).uniq ((s.obj j).uniq.map (localSize s)))

/-- every parent knows its live child -/
def LinkOK (s : State V) : Prop := ∀ p c, s.alive c = true → p ∈ (s.obj c).parents → c ∈ (s.obj p).children

theorem Static.linkOK {s s' : State V} (h : Static s s') (hl : LinkOK s) : LinkOK s' := by
  intro p c hc hp
  rw [h.alive] at hc; rw [h.parents] at hp; rw [h.children]
  exact hl p c hc hp

theorem getAncestors_congr {s s' : State V} (h : Static s s') (j : Nat)
    (hanc : ∀ p ∈ (s.obj j).parents, (s'.obj p).anc = (s.obj p).anc) :
    getAncestors s' j = getAncestors s j := by
  unfold getAncestors sortByName
  rw [h.parents]
  have hn : (fun a => (s'.obj a).name) = fun a => (s.obj a).name := by funext a; exact h.name a
  have hfm : (s.obj j).parents.flatMap (fun p => (s'.obj p).anc) =
      (s.obj j).parents.flatMap (fun p => (s.obj p).anc) := by
    apply List.flatMap_congr; exact hanc
  simp only [hn, hfm, h.name]

theorem FullOK.congr {s s' : State V} (h : Static s s') {j : Nat}
    (hanc : ∀ p ∈ (s.obj j).parents, (s'.obj p).anc = (s.obj p).anc)
    (h1 : (s'.obj j).anc = (s.obj j).anc) (h2 : (s'.obj j).uniq = (s.obj j).uniq)
    (h3 : (s'.obj j).fullSize = (s.obj j).fullSize) (h4 : (s'.obj j).fullIdx = (s.obj j).fullIdx)
    (hf : FullOK s j) : FullOK s' j := by
  have hn : (fun a => (s'.obj a).name) = fun a => (s.obj a).name := by funext a; exact h.name a
  have hd : (fun a => (s'.obj a).dofs) = fun a => (s.obj a).dofs := by funext a; exact h.dofs a
  constructor
  · rw [h1, getAncestors_congr h j hanc]; exact hf.anc
  · rw [h2, h1, hd]; exact hf.uniq
  · rw [h3, h2, h.localFullSize]; exact hf.size
  · rw [h4, h2, hn, h.localFullSize]; exact hf.idx

theorem FreeOK.congr {s s' : State V} (h : Static s s') {j : Nat}
    (h2 : (s'.obj j).uniq = (s.obj j).uniq)
    (h3 : (s'.obj j).freeSize = (s.obj j).freeSize) (h4 : (s'.obj j).freeIdx = (s.obj j).freeIdx)
    (hf : FreeOK s j) : FreeOK s' j := by
  have hn : (fun a => (s'.obj a).name) = fun a => (s.obj a).name := by funext a; exact h.name a
  constructor
  · rw [h3, h2, h.localSize]; exact hf.size
  · rw [h4, h2, hn, h.localSize]; exact hf.idx

theorem actFull_self {s : State V} {i : Nat} (hi : i ∉ (s.obj i).parents) : FullOK (actFull s i) i := by
  have h := localAct_full.static s i
  have hn : (fun a => ((actFull s i).obj a).name) = fun a => (s.obj a).name := by funext a; exact h.name a
  have hd : (fun a => ((actFull s i).obj a).dofs) = fun a => (s.obj a).dofs := by funext a; exact h.dofs a
  have hg : getAncestors (actFull s i) i = getAncestors s i := by
    apply getAncestors_congr h
    intro p hp
    have : p ≠ i := fun e => hi (e ▸ hp)
    rw [localAct_full.other s i p this]
  constructor
  · rw [hg]; simp [actFull, State.setObj, upd]
  · rw [hd]; simp [actFull, State.setObj, upd]
  · rw [h.localFullSize]; simp [actFull, State.setObj, upd]
  · rw [hn, h.localFullSize]; simp [actFull, State.setObj, upd]

theorem actFree_self (s : State V) (i : Nat) : FreeOK (actFree s i) i := by
  have h := localAct_free.static s i
  have hn : (fun a => ((actFree s i).obj a).name) = fun a => (s.obj a).name := by funext a; exact h.name a
  constructor
  · rw [h.localSize]; simp [actFree, State.setObj, upd]
  · rw [hn, h.localSize]; simp [actFree, State.setObj, upd]

theorem actFree_pres (s : State V) (k j : Nat) (h : FreeOK s j) : FreeOK (actFree s k) j := by
  by_cases hjk : j = k
  · subst hjk; exact actFree_self s j
  · refine h.congr (localAct_free.static s k) ?_ ?_ ?_ <;> rw [localAct_free.other s k j hjk]

theorem actFree_fields (s : State V) (k j : Nat) :
    ((actFree s k).obj j).anc = (s.obj j).anc ∧ ((actFree s k).obj j).uniq = (s.obj j).uniq ∧
    ((actFree s k).obj j).fullSize = (s.obj j).fullSize ∧ ((actFree s k).obj j).fullIdx = (s.obj j).fullIdx ∧
    ((actFree s k).obj j).ext = (s.obj j).ext ∧ ((actFree s k).obj j).newX = (s.obj j).newX ∧
    ((actFree s k).obj j).bells = (s.obj j).bells := by
  by_cases hjk : j = k
  · subst hjk; simp [actFree, State.setObj, upd]
  · rw [localAct_free.other s k j hjk]; simp

theorem actFlag_fields (s : State V) (k j : Nat) :
    ((actFlag s k).obj j).anc = (s.obj j).anc ∧ ((actFlag s k).obj j).uniq = (s.obj j).uniq ∧
    ((actFlag s k).obj j).fullSize = (s.obj j).fullSize ∧ ((actFlag s k).obj j).fullIdx = (s.obj j).fullIdx ∧
    ((actFlag s k).obj j).freeSize = (s.obj j).freeSize ∧ ((actFlag s k).obj j).freeIdx = (s.obj j).freeIdx ∧
    ((actFlag s k).obj j).ext = (s.obj j).ext := by
  by_cases hjk : j = k
  · subst hjk; simp [actFlag, State.setObj, upd]
  · rw [localAct_flag.other s k j hjk]; simp

theorem actFull_fields (s : State V) (k j : Nat) :
    ((actFull s k).obj j).freeSize = (s.obj j).freeSize ∧ ((actFull s k).obj j).freeIdx = (s.obj j).freeIdx ∧
    ((actFull s k).obj j).ext = (s.obj j).ext ∧ ((actFull s k).obj j).newX = (s.obj j).newX ∧
    ((actFull s k).obj j).bells = (s.obj j).bells := by
  by_cases hjk : j = k
  · subst hjk; simp [actFull, State.setObj, upd]
  · rw [localAct_full.other s k j hjk]; simp

theorem actFree_fullOK {s : State V} (k j : Nat) (h : FullOK s j) : FullOK (actFree s k) j :=
  h.congr (localAct_free.static s k) (fun p _ => (actFree_fields s k p).1) (actFree_fields s k j).1
    (actFree_fields s k j).2.1 (actFree_fields s k j).2.2.1 (actFree_fields s k j).2.2.2.1

theorem actFlag_fullOK {s : State V} (k j : Nat) (h : FullOK s j) : FullOK (actFlag s k) j :=
  h.congr (localAct_flag.static s k) (fun p _ => (actFlag_fields s k p).1) (actFlag_fields s k j).1
    (actFlag_fields s k j).2.1 (actFlag_fields s k j).2.2.1 (actFlag_fields s k j).2.2.2.1

theorem actFlag_freeOK {s : State V} (k j : Nat) (h : FreeOK s j) : FreeOK (actFlag s k) j :=
  h.congr (localAct_flag.static s k)
    (actFlag_fields s k j).2.1 (actFlag_fields s k j).2.2.2.2.1 (actFlag_fields s k j).2.2.2.2.2.1

/-- The heart of C07: after the recursion from `i`, every live object that was consistent before, and every
    descendant of `i`, is consistent — whatever the order in which children are visited and
    however many paths lead to it. -/
theorem walk_full_ok :
    ∀ n i (s s' : State V), walk actFull n i s = some s' → LinkOK s →
      ∀ j, s.alive j = true → (FullOK s j ∨ Desc s i j) → FullOK s' j := by
  intro n
  induction n with
  | zero => intro i s s' hw; simp [walk] at hw
  | succ n ih =>
    intro i s s' hw hl j hj hcase
    simp only [walk] at hw
    have hst := localAct_full.static s i
    have hfirst : FullOK (actFull s i) j ∨ ∃ c ∈ kids (actFull s i) i, Desc s c j := by
      rw [hst.kids]
      by_cases hp : i ∈ (s.obj j).parents
      · right
        refine ⟨j, ?_, Relation.ReflTransGen.refl⟩
        unfold kids
        rw [List.mem_filter]
        exact ⟨hl i j hj hp, hj⟩
      · by_cases hji : j = i
        · subst hji; left; exact actFull_self hp
        · rcases hcase with h | h
          · left
            refine h.congr hst ?_ ?_ ?_ ?_ ?_
            · intro p hp'
              have : p ≠ i := fun e => hp (e ▸ hp')
              rw [localAct_full.other s i p this]
            all_goals rw [localAct_full.other s i j hji]
          · right
            rcases Relation.ReflTransGen.cases_head h with h | ⟨c, hc, hcj⟩
            · exact absurd h.symm hji
            · exact ⟨c, hc, hcj⟩
    have hgen : ∀ (l : List Nat) (t t' : State V), Static s t →
        (FullOK t j ∨ ∃ c ∈ l, Desc s c j) →
        l.foldlM (fun s c => walk actFull n c s) t = some t' → FullOK t' j := by
      intro l
      induction l with
      | nil =>
        intro t t' _ hc hf
        simp at hf
        rcases hc with hc | ⟨c, hc, _⟩
        · exact hf ▸ hc
        · simp at hc
      | cons a l ihl =>
        intro t t' hs hc hf
        simp only [List.foldlM_cons] at hf
        cases h1 : walk actFull n a t with
        | none => simp [h1] at hf
        | some t1 =>
          simp [h1] at hf
          have hs1 : Static s t1 := hs.trans (walk_static localAct_full h1)
          have hjt : t.alive j = true := by rw [hs.alive]; exact hj
          refine ihl t1 t' hs1 ?_ hf
          rcases hc with hc | ⟨c, hc, hcj⟩
          · left; exact ih a t t1 h1 (hs.linkOK hl) j hjt (Or.inl hc)
          · rcases List.mem_cons.mp hc with h | h
            · subst h; left
              exact ih c t t1 h1 (hs.linkOK hl) j hjt (Or.inr (by rw [hs.desc]; exact hcj))
            · right; exact ⟨c, h, hcj⟩
    exact hgen _ _ _ hst hfirst hw

end Simsopt.Graph
