import Verif.Graph.Props
/-! Helper lemmas: lineage-wide setters of bounds and of the free/fixed status. -/
set_option linter.unusedSimpArgs false
namespace Simsopt.Graph
open Dofs
variable {V : Type} {cfg : Cfg V}

/-- One of the two bound arrays of a DOFs object, read and written. -/
structure BField (V : Type) where
  get : Dofs V → List V
  put : Dofs V → List V → Dofs V
  set : List V → Dofs.M V Unit

/-- the lower / upper bound arrays -/
def lbF : BField V := ⟨Dofs.lb, fun d v => { d with lb := v }, Dofs.setFreeLb⟩
def ubF : BField V := ⟨Dofs.ub, fun d v => { d with ub := v }, Dofs.setFreeUb⟩

structure BField.OK (B : BField V) : Prop where
  run : ∀ v r, v.length = r.numFree → B.set v r = .ok () (B.put r (scatter r.free (B.get r) v))
  put_get : ∀ r v, B.get (B.put r v) = v
  put_free : ∀ r v, (B.put r v).free = r.free
  put_x : ∀ r v, (B.put r v).x = r.x
  put_names : ∀ r v, (B.put r v).names = r.names
  get_len : ∀ r : Dofs V, r.WF → r.free.length = (B.get r).length

theorem lbF_ok : (lbF : BField V).OK := by
  refine ⟨?_, fun _ _ => rfl, fun _ _ => rfl, fun _ _ => rfl, fun _ _ => rfl, fun r h => h.free_len.trans h.lb_len.symm⟩
  intro v r hl
  simp [lbF, Dofs.setFreeLb, Dofs.reducedLen_eq, hl, get, getThe, MonadStateOf.get, EStateM.get, bind, EStateM.bind,
        set, MonadStateOf.set, EStateM.set, pure, EStateM.pure]

theorem ubF_ok : (ubF : BField V).OK := by
  refine ⟨?_, fun _ _ => rfl, fun _ _ => rfl, fun _ _ => rfl, fun _ _ => rfl, fun r h => h.free_len.trans h.ub_len.symm⟩
  intro v r hl
  simp [ubF, Dofs.setFreeUb, Dofs.reducedLen_eq, hl, get, getThe, MonadStateOf.get, EStateM.get, bind, EStateM.bind,
        set, MonadStateOf.set, EStateM.set, pure, EStateM.pure]

/-- What the loop of a lineage-wide bound setter does. -/
theorem boundLoop {B : BField V} (hB : B.OK) (v : List V) : ∀ (opts : List Nat) (a : Nat) (s : State V),
    (∀ d, (s.dof d).free.length = (B.get (s.dof d)).length) →
    ((opts.map (fun o => (s.obj o).dofs)).Nodup) → v.length = a + (opts.map (localSize s)).sum →
    ∃ s', forEach (opts.zip (offsetPairs a (opts.map (localSize s))))
      (fun e => do let s ← get; onDofs (s.obj e.1).dofs (B.set (pySlice v e.2.1 e.2.2))) s = .ok () s' ∧
      s'.obj = s.obj ∧ s'.alive = s.alive ∧
      opts.flatMap (fun o => gather (s'.dof (s.obj o).dofs).free (B.get (s'.dof (s.obj o).dofs))) = v.drop a ∧
      (∀ d, d ∉ opts.map (fun o => (s.obj o).dofs) → s'.dof d = s.dof d) ∧
      (∀ d, (∃ w, s'.dof d = B.put (s.dof d) w ∧ ∀ i : Nat, (s.dof d).free[i]? = some false → w[i]? = (B.get (s.dof d))[i]?)
        ∨ s'.dof d = s.dof d) := by
  intro opts
  induction opts with
  | nil =>
    intro a s _ _ hv
    refine ⟨s, rfl, rfl, rfl, ?_, fun _ _ => rfl, fun d => Or.inr rfl⟩
    simp at hv
    simp [hv]
  | cons o opts ih =>
    intro a s hwf hnd hv
    simp only [List.map_cons, offsetPairs, List.zip_cons_cons, forEach_cons]
    simp only [List.map_cons, List.nodup_cons] at hnd
    simp only [List.map_cons, List.sum_cons] at hv
    have hlen : (pySlice v a (a + localSize s o)).length = localSize s o := pySlice_length v a _ (by omega)
    have hnf : (pySlice v a (a + localSize s o)).length = (s.dof (s.obj o).dofs).numFree := by
      rw [hlen, localSize_eq]
    have hrun := hB.run _ _ hnf
    have hstep : (do let s ← get; onDofs (s.obj o).dofs (B.set (pySlice v a (a + localSize s o))) : M V Unit) s =
        onDofs (s.obj o).dofs (B.set (pySlice v a (a + localSize s o))) s := rfl
    generalize hw : scatter (s.dof (s.obj o).dofs).free (B.get (s.dof (s.obj o).dofs)) (pySlice v a (a + localSize s o)) = w at hrun
    have hon : onDofs (s.obj o).dofs (B.set (pySlice v a (a + localSize s o))) s =
        .ok () { s with dof := upd s.dof (s.obj o).dofs (B.put (s.dof (s.obj o).dofs) w) } := by
      unfold onDofs; rw [hrun]
    have hon' : (do let s_1 ← get; onDofs (s_1.obj o).dofs (B.set (pySlice v a (a + localSize s o))) : M V Unit) s =
        .ok () { s with dof := upd s.dof (s.obj o).dofs (B.put (s.dof (s.obj o).dofs) w) } := hon
    rw [hon']
    simp only
    generalize hs1 : ({ s with dof := upd s.dof (s.obj o).dofs (B.put (s.dof (s.obj o).dofs) w) } : State V) = s1
    have hobj : s1.obj = s.obj := by rw [← hs1]
    have hal : s1.alive = s.alive := by rw [← hs1]
    have hd1 : s1.dof = upd s.dof (s.obj o).dofs (B.put (s.dof (s.obj o).dofs) w) := by rw [← hs1]
    have hfree : ∀ d, (s1.dof d).free = (s.dof d).free := by
      intro d; rw [hd1]; unfold upd; split
      · rename_i e; rw [hB.put_free, e]
      · rfl
    have hls : localSize s1 = localSize s := by
      funext q; rw [localSize_eq, localSize_eq]; unfold Dofs.numFree; rw [hobj, hfree]
    have hwl : w.length = (B.get (s.dof (s.obj o).dofs)).length := by rw [← hw]; exact scatter_length _ _ _
    have hwf1 : ∀ d, (s1.dof d).free.length = (B.get (s1.dof d)).length := by
      intro d
      rw [hfree, hd1]; unfold upd; split
      · rename_i e; rw [hB.put_get, hwl, e]; exact hwf _
      · exact hwf d
    have hrest := ih (a + localSize s o) s1 hwf1 (by rw [hobj]; exact hnd.2) (by rw [hls]; omega)
    rw [hls, hobj] at hrest
    obtain ⟨s2, h2, o2, a2, fx2, fr2, sm2⟩ := hrest
    refine ⟨s2, h2, o2, a2.trans hal, ?_, ?_, ?_⟩
    · simp only [List.flatMap_cons]
      rw [fx2, fr2 _ hnd.1, hfree, hd1, upd_same, hB.put_get, ← hw]
      rw [gather_scatter _ _ _ (hwf _) hnf]
      exact pySlice_append_drop v a _
    · intro d hd
      simp only [List.map_cons, List.mem_cons, not_or] at hd
      rw [fr2 d hd.2, hd1, upd_ne _ _ _ _ hd.1]
    · intro d
      by_cases hdd : d = (s.obj o).dofs
      · left
        subst hdd
        refine ⟨w, ?_, ?_⟩
        · rw [fr2 _ hnd.1, hd1, upd_same]
        · intro i hi; rw [← hw]; exact scatter_fixed _ _ _ _ hi
      · have : s1.dof d = s.dof d := by rw [hd1, upd_ne _ _ _ _ hdd]
        rw [← this]; exact sm2 d

end Simsopt.Graph
