import Verif.Deriv.Props
import Verif.Graph.Witness
import Mathlib.Algebra.BigOperators.Group.List.Basic
import Mathlib.Algebra.Order.Ring.Int
/-!
# C16: the gradient vector is aligned with the state vector

`D(optim)` on a graph of Optimizables: the blocks that `__call__` walks through are read off the graph state.
-/
set_option linter.unusedSimpArgs false
set_option linter.unusedSectionVars false
namespace Simsopt.Deriv
open Simsopt Graph
variable {V R : Type}

/-- What `optim` presents to `Derivative.__call__` (derivative.py L206-213): for each member of `unique_dof_lineage` the live
    objects registered with its DOFs (`dep_opts`, optimizable.py L145-152), whether anything in *its* lineage is free, and the mask of
    its DOFs (`local_dofs_free_status`). -/
def blocksOf (s : State V) (i : Nat) : List (Block Nat) :=
  (s.obj i).uniq.map fun k =>
    { opts := (s.deps (s.obj k).dofs).filter (fun o => s.alive o)
      anyFree := (freeStatus s k).any id
      free := (s.dof (s.obj k).dofs).free }

/-- The contribution of every live object that uses DOFs object `d` to the derivative with respect to its entry `q`. -/
def dofDerivative [AddCommMonoid R] (s : State V) (h : Heap Nat R) (j d q : Nat) : R :=
  (((List.range s.nobj).filter (fun o => s.alive o = true ∧ (s.obj o).dofs = d)).map
    (fun o => (partialD (localFullSize s) h j o).getD q 0)).sum

theorem map_getD_range [Zero R] (l : List R) : (List.range l.length).map (fun q => l.getD q 0) = l := by
  apply List.ext_getElem?
  intro q
  rw [List.getElem?_map]
  by_cases h : q < l.length
  · rw [List.getElem?_range h]; simp [h]
  · simp [h]

theorem gather_range [Zero R] (m : List Bool) (l : List R) (h : l.length = m.length) :
    gather m l = (gather m (List.range m.length)).map (fun q => l.getD q 0) := by
  rw [← gather_map, ← h, map_getD_range]

theorem mem_gather_map_succ (m : List Bool) (l : List Nat) (q : Nat) : q + 1 ∈ gather m (l.map Nat.succ) ↔ q ∈ gather m l := by
  rw [gather_map, List.mem_map]
  constructor
  · rintro ⟨a, ha, e⟩; simp at e; subst e; exact ha
  · intro h; exact ⟨q, h, rfl⟩

theorem mem_gather_range (m : List Bool) (q : Nat) : q ∈ gather m (List.range m.length) ↔ m[q]? = some true := by
  induction m generalizing q with
  | nil => simp [gather]
  | cons b m ih =>
    rw [List.length_cons, List.range_succ_eq_map]
    cases q with
    | zero =>
      cases b with
      | true => simp [gather]
      | false =>
        simp only [gather, List.getElem?_cons_zero, Option.some.injEq, Bool.false_eq_true, iff_false]
        rw [gather_map, List.mem_map]
        rintro ⟨a, _, e⟩; cases e
    | succ q =>
      rw [List.getElem?_cons_succ, ← ih]
      cases b with
      | true => simp only [gather, List.mem_cons, Nat.succ_ne_zero, false_or]; exact mem_gather_map_succ m _ q
      | false => simp only [gather]; exact mem_gather_map_succ m _ q

theorem gather_sublist {α : Type} (m : List Bool) (l : List α) : (gather m l).Sublist l := by
  induction m generalizing l with
  | nil => simp [gather]
  | cons b m ih =>
    cases l with
    | nil => simp [gather]
    | cons a l => cases b with
      | true => simp only [gather]; exact (ih l).cons_cons a
      | false => simp only [gather]; exact (ih l).cons a

theorem acc_entries [AddCommMonoid R] {size : Nat → Nat} {h : Heap Nat R} {j : Nat} (free : List Bool) : ∀ (ks : List Nat) (f : Nat → R),
    (∀ k ∈ ks, (partialD size h j k).length = free.length) →
    accSpec size h j free ks ((gather free (List.range free.length)).map f) =
      (gather free (List.range free.length)).map (fun q => f q + (ks.map (fun k => (partialD size h j k).getD q 0)).sum) := by
  intro ks
  induction ks with
  | nil => intro f _; simp [accSpec]
  | cons k ks ih =>
    intro f hk
    have e : List.zipWith (· + ·) ((gather free (List.range free.length)).map f) (gather free (partialD size h j k)) =
        (gather free (List.range free.length)).map (fun q => f q + (partialD size h j k).getD q 0) := by
      rw [gather_range free _ (hk k List.mem_cons_self), List.zipWith_map, List.zipWith_self]
    have := ih (fun q => f q + (partialD size h j k).getD q 0) (fun k' hk' => hk k' (List.mem_cons_of_mem _ hk'))
    unfold accSpec at this ⊢
    rw [List.foldl_cons, e, this]
    simp [add_assoc]

section
variable {cfg : Cfg V} (hn : NameInj cfg) (hsh : ShuffleOK cfg) {s : State V} (hr : Graph.Reachable cfg s)
include hn hsh hr

theorem blocksOf_ok (i : Nat) : BlocksOK (localFullSize s) (blocksOf s i) := by
  have hI := hr.inv hn hsh
  intro b hb k hk
  obtain ⟨u, _, rfl⟩ := List.mem_map.mp hb
  simp only [List.mem_filter] at hk
  unfold localFullSize
  rw [hI.dofs.depOf k _ hk.2 hk.1]
  rfl

/-- `np.any(dofs_free_status)` of the members of the lineage. -/
theorem anyFree_iff (i : Nat) (hi : s.alive i = true) : (∃ b ∈ blocksOf s i, b.anyFree = true) ↔ 0 < (s.obj i).freeSize := by
  have hI := hr.inv hn hsh
  have hfs : ∀ k, s.alive k = true → ((freeStatus s k).any id = true ↔ ∃ o, DependsOn s k o ∧ true ∈ (s.dof (s.obj o).dofs).free) := by
    intro k hk
    unfold freeStatus
    rw [List.any_eq_true]
    simp only [List.mem_flatMap, id]
    constructor
    · rintro ⟨x, ⟨o, ho, hx⟩, rfl⟩; exact ⟨o, (hI.uniq_mem hn hk ho).1, hx⟩
    · rintro ⟨o, ho, ht⟩
      obtain ⟨o', ho', he⟩ := hI.uniq_covers hn hk ho
      exact ⟨true, ⟨o', ho', by rw [he]; exact ht⟩, rfl⟩
  have hcount := (C06_lengths hn hsh hr i hi).2.2.2.2.1
  rw [← hcount, List.count_pos_iff]
  constructor
  · rintro ⟨b, hb, hf⟩
    obtain ⟨u, hu, rfl⟩ := List.mem_map.mp hb
    obtain ⟨hdu, hau⟩ := hI.uniq_mem hn hi hu
    obtain ⟨o, ho, ht⟩ := (hfs u hau).mp hf
    have : DependsOn s i o := by
      unfold DependsOn at *
      rcases hdu with rfl | hdu
      · exact ho
      · rcases ho with rfl | ho
        · exact Or.inr hdu
        · exact Or.inr (ho.trans hdu)
    have := (hfs i hi).mpr ⟨o, this, ht⟩
    rw [List.any_eq_true] at this
    obtain ⟨x, hx, hxt⟩ := this
    simp at hxt; rw [← hxt]; exact hx
  · intro ht
    unfold freeStatus at ht
    obtain ⟨u, hu, hut⟩ := List.mem_flatMap.mp ht
    refine ⟨_, List.mem_map.mpr ⟨u, hu, rfl⟩, ?_⟩
    exact (hfs u (hI.uniq_mem hn hi hu).2).mpr ⟨u, Or.inl rfl, hut⟩

theorem blocks_filter {α : Type} (i : Nat) (hi : s.alive i = true) (f : Block Nat → List α) (hf : ∀ b, countTrue b.free = 0 → f b = []) :
    (((blocksOf s i).filter (·.anyFree)).map f).flatten = ((blocksOf s i).map f).flatten := by
  have hI := hr.inv hn hsh
  have hmem : ∀ b ∈ blocksOf s i, b.anyFree = false → f b = [] := by
    intro b hb hf0
    apply hf
    obtain ⟨u, hu, rfl⟩ := List.mem_map.mp hb
    simp only at hf0 ⊢
    rw [countTrue_eq, List.count_eq_zero]
    intro ht
    have hau := (hI.uniq_mem hn hi hu).2
    obtain ⟨o', ho', he⟩ := hI.uniq_covers hn hau (Or.inl rfl)
    have : (freeStatus s u).any id = true := by
      rw [List.any_eq_true]
      exact ⟨true, List.mem_flatMap.mpr ⟨o', ho', by rw [he]; exact ht⟩, rfl⟩
    rw [this] at hf0; cases hf0
  revert hmem
  generalize blocksOf s i = l
  intro hmem
  induction l with
  | nil => rfl
  | cons b l ih =>
    have ih' := ih (fun c hc => hmem c (List.mem_cons_of_mem _ hc))
    by_cases hb : b.anyFree = true
    · simp [List.filter_cons, hb, ih']
    · simp only [Bool.not_eq_true] at hb
      simp [List.filter_cons, hb, ih', hmem b List.mem_cons_self hb]

/-- `C16_gradient_aligned` for any well-formed heap. -/
theorem gradient_aligned [CommRing R] {h : Heap Nat R} (hk : HeapOK (localFullSize s) h) (j : Nat) (hj : j < h.nder)
    (i : Nat) (hi : s.alive i = true) (hfree : 0 < (s.obj i).freeSize) :
    ∃ pos : List (Nat × Nat), pos.Nodup ∧ pos.length = (s.obj i).freeSize ∧
      (∀ d q, (d, q) ∈ pos ↔ (∃ o, DependsOn s i o ∧ (s.obj o).dofs = d) ∧ (s.dof d).free[q]? = some true) ∧
      (∀ D : Nat → Dofs V, (∀ d, (D d).free = (s.dof d).free ∧ (D d).x.length = (s.dof d).x.length) →
        ((s.obj i).uniq.flatMap (fun o => (D (s.obj o).dofs).freeX)).map some = pos.map (fun p => (D p.1).x[p.2]?)) ∧
      ∃ g, Gradient (localFullSize s) h j (blocksOf s i) g ∧ g = pos.map (fun p => dofDerivative s h j p.1 p.2) := by
  have hI := hr.inv hn hsh
  have hbs := blocksOf_ok hn hsh hr i
  have hw : ∀ o, (s.dof (s.obj o).dofs).WF := fun o => hI.dofs.wf _
  let P : Nat → List (Nat × Nat) := fun d => (gather (s.dof d).free (List.range (s.dof d).free.length)).map (fun q => (d, q))
  have hPmem : ∀ d d' q, (d', q) ∈ P d ↔ d' = d ∧ (s.dof d).free[q]? = some true := by
    intro d d' q
    simp only [P, List.mem_map, Prod.mk.injEq]
    constructor
    · rintro ⟨a, ha, rfl, rfl⟩; exact ⟨rfl, (mem_gather_range _ _).mp ha⟩
    · rintro ⟨rfl, hq⟩; exact ⟨q, (mem_gather_range _ _).mpr hq, rfl, rfl⟩
  have hPn : ∀ d, (P d).Nodup := by
    intro d
    refine List.Nodup.map (fun a b hab => by simpa using hab) ?_
    exact (gather_sublist _ _).nodup List.nodup_range
  refine ⟨(s.obj i).uniq.flatMap (fun o => P (s.obj o).dofs), ?_, ?_, ?_, ?_, ?_⟩
  · rw [← List.flatMap_map (f := fun o => (s.obj o).dofs) (g := P), List.nodup_flatMap]
    refine ⟨fun d _ => hPn d, ?_⟩
    refine (hI.uniq_dofs_nodup hi).imp ?_
    intro a b hab
    rw [Function.onFun, List.disjoint_left]
    rintro ⟨d, q⟩ h1 h2
    rw [hPmem] at h1 h2
    exact hab (h1.1.symm.trans h2.1)
  · rw [(hI.free i hi).size, List.length_flatMap]
    congr 1
    apply List.map_congr_left
    intro o _
    rw [localSize_eq]
    simp only [P, List.length_map]
    rw [gather_length _ _ (by simp)]; rfl
  · intro d q
    rw [List.mem_flatMap]
    constructor
    · rintro ⟨o, ho, hm⟩
      rw [hPmem] at hm
      exact ⟨⟨o, (hI.uniq_mem hn hi ho).1, hm.1.symm⟩, by rw [hm.1]; exact hm.2⟩
    · rintro ⟨⟨o, ho, rfl⟩, hq⟩
      obtain ⟨o', h1, h2⟩ := hI.uniq_covers hn hi ho
      exact ⟨o', h1, by rw [hPmem]; exact ⟨h2.symm, by rw [h2]; exact hq⟩⟩
  · intro D hD
    rw [List.map_flatMap, List.map_flatMap]
    apply List.flatMap_congr
    intro o _
    simp only [P, List.map_map, Function.comp_def]
    show (gather (D _).free _).map some = _
    rw [(hD _).1, ← gather_map, ← gather_map]
    congr 1
    apply List.ext_getElem?
    intro q
    rw [List.getElem?_map, List.getElem?_map, (hw o).free_len, ← (hD _).2]
    by_cases hq : q < (D (s.obj o).dofs).x.length
    · rw [List.getElem?_range hq]; simp [hq]
    · simp [hq]
  · refine ⟨_, (grad_iff hk hj hbs _).mpr ⟨(anyFree_iff hn hsh hr i hi).mpr hfree, rfl⟩, ?_⟩
    unfold gradSpec
    rw [blocks_filter hn hsh hr i hi]
    · unfold blocksOf
      rw [List.map_map, ← List.flatMap_def, List.map_flatMap]
      apply List.flatMap_congr
      intro o ho
      simp only [Function.comp_def, P, List.map_map]
      have hrep : (List.replicate (countTrue (s.dof (s.obj o).dofs).free) (0 : R)) =
          (gather (s.dof (s.obj o).dofs).free (List.range (s.dof (s.obj o).dofs).free.length)).map (fun _ => 0) := by
        rw [List.map_const', gather_length' _ _ (by simp)]
      rw [hrep, acc_entries]
      · apply List.map_congr_left
        intro q _
        rw [zero_add]
        unfold dofDerivative
        refine List.Perm.sum_eq (List.Perm.map _ ?_)
        rw [List.perm_ext_iff_of_nodup ((hI.dofs.depNodup _).filter _) (List.nodup_range.filter _)]
        intro a
        simp only [List.mem_filter, List.mem_range, decide_eq_true_eq]
        constructor
        · rintro ⟨h1, h2⟩; exact ⟨hI.graph.lt a h2, h2, hI.dofs.depOf a _ h2 h1⟩
        · rintro ⟨_, h2, h3⟩; exact ⟨by rw [← h3]; exact hI.dofs.depIn a h2, h2⟩
      · intro k hk0
        rw [hk.len hj]
        simp only [List.mem_filter] at hk0
        unfold localFullSize
        rw [hI.dofs.depOf k _ hk0.2 hk0.1]; rfl
    · intro b hb
      apply List.eq_nil_of_length_eq_zero
      rw [← hb]
      by_cases hbm : b ∈ blocksOf s i
      · exact acc_length _ _ _ (fun k hk0 => by rw [hk.len hj, hbs b hbm k hk0]) (by simp)
      · rw [hb]
        have : ∀ (ks : List Nat) (a : List R), a.length = 0 → (accSpec (localFullSize s) h j b.free ks a).length = 0 := by
          intro ks
          induction ks with
          | nil => intro a ha; exact ha
          | cons k ks ih => intro a ha; exact ih _ (by simp [ha])
        exact this _ _ (by simp [hb])

/-- When something is free, `D(obj)` returns a vector with one entry per free dof: there is one list `pos` of (DOFs object,
    index) pairs, listing exactly the free dofs of `obj` and its ancestors, such that entry by entry `obj.x` holds the value
    and the gradient the sum over all live objects using that DOFs object of the derivative for that index. -/
theorem C16_gradient_aligned [CommRing R] {h : Heap Nat R} (hd : Reachable (localFullSize s) h) (j : Nat) (hj : j < h.nder)
    (i : Nat) (hi : s.alive i = true) (hfree : 0 < (s.obj i).freeSize) :
    ∃ pos : List (Nat × Nat), pos.Nodup ∧ pos.length = (s.obj i).freeSize ∧
      (∀ d q, (d, q) ∈ pos ↔ (∃ o, DependsOn s i o ∧ (s.obj o).dofs = d) ∧ (s.dof d).free[q]? = some true) ∧
      (getX s i).map some = pos.map (fun p => (s.dof p.1).x[p.2]?) ∧
      ∃ g, Gradient (localFullSize s) h j (blocksOf s i) g ∧ g = pos.map (fun p => dofDerivative s h j p.1 p.2) := by
  obtain ⟨pos, h1, h2, h3, h4, h5⟩ := gradient_aligned hn hsh hr hd.ok j hj i hi hfree
  exact ⟨pos, h1, h2, h3, h4 s.dof (fun _ => ⟨rfl, rfl⟩), h5⟩

/-- Whenever `D(obj)` returns, its length is `dof_size`, the length of `obj.x`. -/
theorem C16_gradient_length [CommRing R] {h : Heap Nat R} (hd : Reachable (localFullSize s) h) (j : Nat) (hj : j < h.nder)
    (i : Nat) (hi : s.alive i = true) (g : List R) (hg : Gradient (localFullSize s) h j (blocksOf s i) g) :
    g.length = (s.obj i).freeSize ∧ g.length = (getX s i).length := by
  have hbs := blocksOf_ok hn hsh hr i
  have hpos : 0 < (s.obj i).freeSize := (anyFree_iff hn hsh hr i hi).mp ((grad_iff hd.ok hj hbs g).mp hg).1
  obtain ⟨pos, _, hl, _, _, g', hg', e⟩ := C16_gradient_aligned hn hsh hr hd j hj i hi hpos
  have : g = g' := by rw [((grad_iff hd.ok hj hbs g).mp hg).2, ((grad_iff hd.ok hj hbs g').mp hg').2]
  rw [this, e, List.length_map, hl]
  exact ⟨rfl, ((C06_lengths hn hsh hr i hi).1).symm⟩

/-- When every dof of `obj` and its ancestors is fixed the call raises instead of returning an empty vector. -/
theorem C16_all_fixed_raises [CommRing R] {h : Heap Nat R} (hd : Reachable (localFullSize s) h) (j : Nat) (hj : j < h.nder)
    (i : Nat) (hi : s.alive i = true) (hfree : (s.obj i).freeSize = 0) :
    ∃ h', call (localFullSize s) j (blocksOf s i) h = .error .valueError h' := by
  refine (C14_gradient_defined hd j hj _ (blocksOf_ok hn hsh hr i)).2 ?_
  intro b hb
  by_contra hc
  have := (anyFree_iff hn hsh hr i hi).mp ⟨b, hb, by simpa using hc⟩
  omega

end

/-! #### the store `w5` of `Verif.Graph.Witness` -/

/-- a Derivative with entries for `a` (object 0), for `d` (object 3), which shares the DOFs of `a`, and for `b` (object 1) -/
def dw : Heap Nat Int := after (localFullSize w5) (.mk [(0, [1, 2]), (3, [10, 20]), (1, [3, 4, 5])]) Heap.empty
theorem dw_reach : Reachable (localFullSize w5) dw := reach_after .init _ ⟨by decide, by decide +kernel⟩

example : Gradient (localFullSize w5) dw 0 (blocksOf w5 3) [11, 3, 4, 5] ∧ (w5.obj 3).freeSize = 4 ∧ getX w5 3 = [1, 3, 4, 5] := by
  refine ⟨?_, by decide +kernel, by decide +kernel⟩
  have hbs := blocksOf_ok cfg0_names cfg0_shuffle w5_reach 3
  rw [grad_iff dw_reach.ok (by decide +kernel) hbs]
  exact ⟨(anyFree_iff cfg0_names cfg0_shuffle w5_reach 3 (by decide +kernel)).mpr (by decide +kernel), by decide +kernel⟩

/-- C16 fails when everything is fixed: `dof_size` is 0 but the call raises. -/
theorem C16_all_fixed_violated : ∃ (cfg : Cfg Int) (s : State Int), NameInj cfg ∧ ShuffleOK cfg ∧ Graph.Reachable cfg s ∧
    ∃ (h : Heap Nat Int) (i j : Nat), s.alive i = true ∧ Reachable (localFullSize s) h ∧ j < h.nder ∧ (s.obj i).freeSize = 0 ∧ (getFullX s i).length > 0 ∧
      ∃ h', call (localFullSize s) j (blocksOf s i) h = .error .valueError h' := by
  have hr : Graph.Reachable cfg0 (next cfg0 (.fixAll 3) w5) := reach_next w5_reach (by show w5.alive 3 = true; decide +kernel) (by decide +kernel)
  have hd : Reachable (localFullSize (next cfg0 (.fixAll 3) w5)) (after (localFullSize (next cfg0 (.fixAll 3) w5)) (.mk [(0, [1, 2])]) (Heap.empty : Heap Nat Int)) :=
    reach_after .init _ ⟨by decide, by decide +kernel⟩
  refine ⟨cfg0, next cfg0 (.fixAll 3) w5, cfg0_names, cfg0_shuffle, hr, _, 3, 0, by decide +kernel, hd, by decide +kernel, by decide +kernel, by decide +kernel, ?_⟩
  exact C16_all_fixed_raises cfg0_names cfg0_shuffle hr hd 0 (by decide +kernel) 3 (by decide +kernel) (by decide +kernel)

end Simsopt.Deriv
