import Verif.Graph.SetX
/-! Helper lemmas: operations that change the free/fixed status. -/
set_option linter.unusedSimpArgs false
namespace Simsopt.Graph
open Dofs
variable {V : Type} {cfg : Cfg V}

/-- Fields the free-index recursion never writes. -/
def SameLineage (s s' : State V) : Prop :=
  ∀ j, (s'.obj j).anc = (s.obj j).anc ∧ (s'.obj j).uniq = (s.obj j).uniq ∧
      (s'.obj j).fullSize = (s.obj j).fullSize ∧ (s'.obj j).fullIdx = (s.obj j).fullIdx ∧
      (s'.obj j).ext = (s.obj j).ext ∧ (s'.obj j).newX = (s.obj j).newX ∧ (s'.obj j).bells = (s.obj j).bells

theorem SameLineage.refl (s : State V) : SameLineage s s := fun _ => ⟨rfl, rfl, rfl, rfl, rfl, rfl, rfl⟩
theorem SameLineage.trans {s s' s'' : State V} (h : SameLineage s s') (h' : SameLineage s' s'') :
    SameLineage s s'' := by
  intro j
  obtain ⟨a1, a2, a3, a4, a5, a6, a7⟩ := h j
  obtain ⟨b1, b2, b3, b4, b5, b6, b7⟩ := h' j
  exact ⟨b1.trans a1, b2.trans a2, b3.trans a3, b4.trans a4, b5.trans a5, b6.trans a6, b7.trans a7⟩

/-- the loop body of `updateOptIndices` -/
def freeOne (cfg : Cfg V) (o : Nat) : M V Unit := do
  let s ← get
  if s.alive o then walkM cfg actFree o

theorem updateOptIndices_eq (cfg : Cfg V) (d : Nat) (s : State V) :
    updateOptIndices cfg d s = forEach (s.deps d) (freeOne cfg) s := rfl

theorem freeWalk_spec (cfg : Cfg V) (o : Nat) (s : State V) (ha : s.alive o = true) :
    (∃ s', walkM cfg actFree o s = .error .recursionError s' ∧ ¬ Shallow cfg s) ∨
    (∃ s', walkM cfg actFree o s = .ok () s' ∧ Static s s' ∧ SameLineage s s' ∧
      ∀ j, (FreeOK s j ∨ Desc s o j) → FreeOK s' j) := by
  rcases walkM_cases cfg localAct_free o s with ⟨s', h1, w1⟩ | ⟨h1, n1⟩
  · right
    obtain ⟨st, fr, fld⟩ := walk_free_spec w1
    exact ⟨s', h1, st, fld, fr⟩
  · left; exact ⟨s, h1, fun hsh => n1 (hsh o ha)⟩

theorem freeOne_spec (cfg : Cfg V) (o : Nat) (s : State V) :
    (∃ s', freeOne cfg o s = .error .recursionError s' ∧ ¬ Shallow cfg s) ∨
    (∃ s', freeOne cfg o s = .ok () s' ∧ Static s s' ∧ SameLineage s s' ∧
      ∀ j, (FreeOK s j ∨ (s.alive o = true ∧ Desc s o j)) → FreeOK s' j) := by
  unfold freeOne
  simp only [run_bind, run_get]
  by_cases ha : s.alive o = true
  · simp only [ha, if_true]
    rcases freeWalk_spec cfg o s ha with h | ⟨s', h1, h2, h3, h4⟩
    · left; exact h
    · right; exact ⟨s', h1, h2, h3, fun j hj => h4 j (hj.imp id And.right)⟩
  · simp only [ha, run_pure]
    right
    exact ⟨s, rfl, Static.refl s, SameLineage.refl s, fun j hj => hj.elim id (fun h => absurd h.1 (by simp))⟩

theorem freeLoop_spec (cfg : Cfg V) : ∀ (l : List Nat) (s : State V),
    (∃ s', forEach l (freeOne cfg) s = .error .recursionError s' ∧ ¬ Shallow cfg s) ∨
    (∃ s', forEach l (freeOne cfg) s = .ok () s' ∧ Static s s' ∧ SameLineage s s' ∧
      ∀ j, (FreeOK s j ∨ ∃ o ∈ l, s.alive o = true ∧ Desc s o j) → FreeOK s' j) := by
  intro l
  induction l with
  | nil => intro s; right; exact ⟨s, rfl, Static.refl s, SameLineage.refl s, fun j hj => by simpa using hj⟩
  | cons a l ih =>
    intro s
    rw [forEach_cons]
    rcases freeOne_spec cfg a s with ⟨s', h, hns⟩ | ⟨s1, h1, r1, l1, f1⟩
    · left; exact ⟨s', by rw [h], hns⟩
    · rw [h1]
      rcases ih s1 with ⟨s', h, hns⟩ | ⟨s2, h2, r2, l2, f2⟩
      · left; exact ⟨s', h, fun hsh => hns (hsh.static r1)⟩
      · right
        refine ⟨s2, h2, r1.trans r2, l1.trans l2, fun j hj => f2 j ?_⟩
        rcases hj with hj | ⟨o, ho, ha, hd⟩
        · left; exact f1 j (Or.inl hj)
        · rcases List.mem_cons.mp ho with e | ho
          · subst e; left; exact f1 j (Or.inr ⟨ha, hd⟩)
          · right; exact ⟨o, ho, by rw [r1.alive]; exact ha, by rw [r1.desc]; exact hd⟩

/-- A method that can only change the free/fixed status, and changes nothing when it raises. -/
structure MaskMethod (m : Dofs.M V Unit) : Prop where
  ok : ∀ r r', m r = .ok () r' → ∃ f, f.length = r.free.length ∧ r' = { r with free := f }
  err : ∀ r e r', m r = .error e r' → r' = r ∧ e ≠ .recursionError

/-- What operations on the free/fixed status may change: the status and the free-dof index tables. -/
structure MaskRel (s s' : State V) : Prop where
  static : Static { s with dof := s'.dof } s'
  same : ∀ d, (s'.dof d).x = (s.dof d).x ∧ (s'.dof d).names = (s.dof d).names ∧ (s'.dof d).lb = (s.dof d).lb ∧
    (s'.dof d).ub = (s.dof d).ub ∧ (s'.dof d).free.length = (s.dof d).free.length
  lineage : SameLineage s s'

namespace MaskRel
variable {s s' s'' : State V}
theorem refl (s : State V) : MaskRel s s :=
  ⟨Static.refl s, fun _ => ⟨rfl, rfl, rfl, rfl, rfl⟩, SameLineage.refl s⟩
theorem trans (h : MaskRel s s') (h' : MaskRel s' s'') : MaskRel s s'' := by
  refine ⟨?_, ?_, h.lineage.trans h'.lineage⟩
  · have a := h.static; have b := h'.static
    exact ⟨b.nobj.trans a.nobj, b.alive.trans a.alive, b.ndof.trans a.ndof, rfl, b.deps.trans a.deps,
      b.ids.trans a.ids, fun j => (b.core j).trans (a.core j)⟩
  · intro d
    obtain ⟨a1, a2, a3, a4, a5⟩ := h.same d
    obtain ⟨b1, b2, b3, b4, b5⟩ := h'.same d
    exact ⟨b1.trans a1, b2.trans a2, b3.trans a3, b4.trans a4, b5.trans a5⟩
theorem alive (h : MaskRel s s') : s'.alive = s.alive := h.static.alive
theorem deps (h : MaskRel s s') : s'.deps = s.deps := h.static.deps
theorem dofs (h : MaskRel s s') (j : Nat) : (s'.obj j).dofs = (s.obj j).dofs := h.static.dofs j
theorem desc (h : MaskRel s s') : Desc s' = Desc s := by rw [h.static.desc]; rfl
theorem shallow (h : MaskRel s s') (hs : Shallow cfg s) : Shallow cfg s' :=
  Shallow.static (s := { s with dof := s'.dof }) (shallow_withStore hs) h.static
end MaskRel

/-- A method call on a DOFs object followed by `_update_opt_indices`. -/
def maskAct (cfg : Cfg V) (d : Nat) (m : Dofs.M V Unit) : M V Unit := do
  onDofs d m
  updateOptIndices cfg d

theorem maskAct_spec (hn : NameInj cfg) {m : Dofs.M V Unit} (hm : MaskMethod m) (d : Nat) (s : State V)
    (hi : Inv cfg s) :
    (∃ s', maskAct cfg d m s = .error .recursionError s' ∧ ¬ Shallow cfg s) ∨
    (∃ e, e ≠ .recursionError ∧ maskAct cfg d m s = .error e s ∧ m (s.dof d) = .error e (s.dof d)) ∨
    (∃ r s', m (s.dof d) = .ok () r ∧ maskAct cfg d m s = .ok () s' ∧ s'.dof = upd s.dof d r ∧
      MaskRel s s' ∧ Inv cfg s') := by
  unfold maskAct
  simp only [run_bind]
  cases h : m (s.dof d) with
  | error e r =>
    obtain ⟨h1, h2⟩ := hm.err _ _ _ h
    right; left
    refine ⟨e, h2, ?_, by rw [h1]⟩
    have : onDofs d m s = .error e s := by
      unfold onDofs; rw [h, h1]; simp only [upd_self]
    rw [this]
  | ok u r =>
    obtain ⟨f, hf, hr⟩ := hm.ok _ _ h
    have h1 : onDofs d m s = .ok () (s.withDof d r) := by unfold onDofs; rw [h]; rfl
    rw [h1]
    simp only
    rw [updateOptIndices_eq]
    have hrl : r.free.length = (s.dof d).free.length := by rw [hr]; exact hf
    have hwf : r.WF := by
      have w := hi.dofs.wf d
      rw [hr]; exact ⟨by rw [← w.free_len]; exact hf, w.lb_len, w.ub_len, w.names_len, w.names_nodup⟩
    rcases freeLoop_spec cfg ((s.withDof d r).deps d) (s.withDof d r) with ⟨s', h2, hns⟩ | ⟨s', h2, st, sl, fr⟩
    · left; exact ⟨s', h2, fun hsh => hns (shallow_withStore hsh)⟩
    · right; right
      refine ⟨r, s', rfl, h2, st.dof, ⟨?_, ?_, fun j => sl j⟩, ?_⟩
      · rw [st.dof]; exact st
      · intro d'
        rw [st.dof]
        unfold State.withDof upd
        simp only
        split
        · rename_i e; subst e; rw [hr]; exact ⟨rfl, rfl, rfl, rfl, hf⟩
        · exact ⟨rfl, rfl, rfl, rfl, rfl⟩
      · refine ⟨(hi.graph.withDof (d := d) (r := r)).static st, (hi.dofs.withDof hwf).static st, ?_, ?_, ?_⟩
        · rw [st.parent]; exact hi.acyclic
        · intro j hj
          rw [st.alive] at hj
          have : FullOK (s.withDof d r) j := (hi.full j hj).withDof hrl
          exact this.of_fields st (fun j => ⟨(sl j).1, (sl j).2.1, (sl j).2.2.1, (sl j).2.2.2.1⟩)
        · intro j hj
          rw [st.alive] at hj
          apply fr j
          by_cases hex : ∃ o ∈ (s.obj j).uniq, (s.obj o).dofs = d
          · right
            obtain ⟨o, ho, hod⟩ := hex
            obtain ⟨h3, h4⟩ := hi.uniq_mem hn hj ho
            refine ⟨o, ?_, h4, ?_⟩
            · have := hi.dofs.depIn o h4; rw [hod] at this; exact this
            · exact (hi.graph.desc_iff o j).mpr h3
          · left
            exact (hi.free j hj).withDof (fun o ho hod => absurd ⟨o, ho, hod⟩ hex)

/-- The extra `self.update_free_dof_size_indices()` in `fix`, `unfix`, `local_fix_all`, `local_unfix_all`. -/
theorem freeWalk_inv (i : Nat) (s : State V) (hi : Inv cfg s) (ha : s.alive i = true) :
    (∃ s', walkM cfg actFree i s = .error .recursionError s' ∧ ¬ Shallow cfg s) ∨
    (∃ s', walkM cfg actFree i s = .ok () s' ∧ s'.dof = s.dof ∧ MaskRel s s' ∧ Inv cfg s') := by
  rcases freeWalk_spec cfg i s ha with h | ⟨s', h1, st, sl, fr⟩
  · left; exact h
  · right
    refine ⟨s', h1, st.dof, ⟨?_, fun d => by rw [st.dof]; exact ⟨rfl, rfl, rfl, rfl, rfl⟩, sl⟩, ?_⟩
    · rw [st.dof]; exact st
    · refine ⟨hi.graph.static st, hi.dofs.static st, by rw [st.parent]; exact hi.acyclic, ?_, ?_⟩
      · intro j hj; rw [st.alive] at hj
        exact (hi.full j hj).of_fields st (fun j => ⟨(sl j).1, (sl j).2.1, (sl j).2.2.1, (sl j).2.2.2.1⟩)
      · intro j hj; rw [st.alive] at hj; exact fr j (Or.inl (hi.free j hj))

/-- `maskAct` on `i`'s own DOFs followed by the extra recursion. -/
def maskOp (cfg : Cfg V) (i : Nat) (m : Dofs.M V Unit) : M V Unit := do
  let s ← get
  maskAct cfg (s.obj i).dofs m
  walkM cfg actFree i

theorem maskOp_spec (hn : NameInj cfg) {m : Dofs.M V Unit} (hm : MaskMethod m) (i : Nat) (s : State V)
    (hi : Inv cfg s) (ha : s.alive i = true) :
    (∃ s', maskOp cfg i m s = .error .recursionError s' ∧ ¬ Shallow cfg s) ∨
    (∃ e, e ≠ .recursionError ∧ maskOp cfg i m s = .error e s ∧ m (s.dof (s.obj i).dofs) = .error e (s.dof (s.obj i).dofs)) ∨
    (∃ r s', m (s.dof (s.obj i).dofs) = .ok () r ∧ maskOp cfg i m s = .ok () s' ∧ s'.dof = upd s.dof (s.obj i).dofs r ∧
      MaskRel s s' ∧ Inv cfg s') := by
  unfold maskOp
  simp only [run_bind, run_get]
  rcases maskAct_spec hn hm (s.obj i).dofs s hi with ⟨s', h, hns⟩ | ⟨e, he, h, h'⟩ | ⟨r, s1, h0, h1, h2, h3, h4⟩
  · left; exact ⟨s', by rw [h], hns⟩
  · right; left; exact ⟨e, he, by rw [h], h'⟩
  · rw [h1]
    simp only
    rcases freeWalk_inv i s1 h4 (by rw [h3.alive]; exact ha) with ⟨s', h, hns⟩ | ⟨s2, g1, g2, g3, g4⟩
    · left; exact ⟨s', h, fun hsh => hns (h3.shallow hsh)⟩
    · right; right; exact ⟨r, s2, h0, g1, g2.trans h2, h3.trans g3, g4⟩

theorem fix_eq (cfg : Cfg V) (i : Nat) (k : Key) : fix cfg i k = maskOp cfg i (Dofs.fix k) := by
  funext s; unfold fix maskOp maskAct; simp only [run_bind, run_get]; cases onDofs (s.obj i).dofs (Dofs.fix k) s <;> rfl
theorem unfix_eq (cfg : Cfg V) (i : Nat) (k : Key) : unfix cfg i k = maskOp cfg i (Dofs.unfix k) := by
  funext s; unfold unfix maskOp maskAct; simp only [run_bind, run_get]; cases onDofs (s.obj i).dofs (Dofs.unfix k) s <;> rfl
theorem localFixAll_eq (cfg : Cfg V) (i : Nat) : localFixAll cfg i = maskOp cfg i Dofs.fixAll := by
  funext s; unfold localFixAll maskOp maskAct; simp only [run_bind, run_get]; cases onDofs (s.obj i).dofs Dofs.fixAll s <;> rfl
theorem localUnfixAll_eq (cfg : Cfg V) (i : Nat) : localUnfixAll cfg i = maskOp cfg i Dofs.unfixAll := by
  funext s; unfold localUnfixAll maskOp maskAct; simp only [run_bind, run_get]; cases onDofs (s.obj i).dofs Dofs.unfixAll s <;> rfl

theorem mask_keyed (k : Key) (b : Bool) (m : Dofs.M V Unit)
    (hm : m = (do let d ← get; let i ← liftE (d.resolve k); set { d with free := d.free.set i b })) : MaskMethod m := by
  subst hm
  constructor
  · intro r r' h
    cases hr : r.resolve k with
    | ok i =>
      simp [hr, Dofs.liftE, get, getThe, MonadStateOf.get, EStateM.get, bind, EStateM.bind,
        set, MonadStateOf.set, EStateM.set] at h
      exact ⟨_, by simp, h.symm⟩
    | error e =>
      simp [hr, Dofs.liftE, get, getThe, MonadStateOf.get, EStateM.get, bind, EStateM.bind] at h
  · intro r e r' h
    cases hr : r.resolve k with
    | ok i =>
      simp [hr, Dofs.liftE, get, getThe, MonadStateOf.get, EStateM.get, bind, EStateM.bind,
        set, MonadStateOf.set, EStateM.set] at h
    | error e' =>
      simp [hr, Dofs.liftE, get, getThe, MonadStateOf.get, EStateM.get, bind, EStateM.bind] at h
      obtain ⟨rfl, rfl⟩ := h
      exact ⟨rfl, resolve_err_ne hr⟩

theorem mask_fix (k : Key) : MaskMethod (V := V) (Dofs.fix k) := mask_keyed k false _ rfl
theorem mask_unfix (k : Key) : MaskMethod (V := V) (Dofs.unfix k) := mask_keyed k true _ rfl

theorem fixAll_run (r : Dofs V) : Dofs.fixAll r = .ok () { r with free := List.replicate r.free.length false } := rfl
theorem unfixAll_run (r : Dofs V) : Dofs.unfixAll r = .ok () { r with free := List.replicate r.free.length true } := rfl

theorem mask_fixAll : MaskMethod (V := V) Dofs.fixAll :=
  ⟨fun r r' h => by rw [fixAll_run] at h; cases h; exact ⟨_, by simp, rfl⟩, fun r e r' h => by rw [fixAll_run] at h; cases h⟩
theorem mask_unfixAll : MaskMethod (V := V) Dofs.unfixAll :=
  ⟨fun r r' h => by rw [unfixAll_run] at h; cases h; exact ⟨_, by simp, rfl⟩, fun r e r' h => by rw [unfixAll_run] at h; cases h⟩

theorem assignFree_run (arr : List Bool) (r : Dofs V) : Dofs.assignFree arr r =
    if arr.length = r.free.length then .ok () { r with free := arr }
    else match arr with
      | [b] => .ok () { r with free := List.replicate r.free.length b }
      | _ => .error .valueError r := by
  unfold Dofs.assignFree
  simp only [dofs_run_bind]
  have hg : (get : Dofs.M V (Dofs V)) r = .ok r r := rfl
  simp only [hg]
  split
  · rfl
  · rcases arr with _ | ⟨b, _ | ⟨c, l⟩⟩ <;> rfl

theorem mask_assignFree (arr : List Bool) : MaskMethod (V := V) (Dofs.assignFree arr) := by
  constructor
  · intro r r' h
    rw [assignFree_run] at h
    split at h
    · rename_i hl; cases h; exact ⟨arr, hl, rfl⟩
    · rcases arr with _ | ⟨b, _ | ⟨c, l⟩⟩
      · cases h
      · cases h; exact ⟨_, by simp, rfl⟩
      · cases h
  · intro r e r' h
    rw [assignFree_run] at h
    split at h
    · cases h
    · rcases arr with _ | ⟨b, _ | ⟨c, l⟩⟩
      · cases h; exact ⟨rfl, by simp⟩
      · cases h
      · cases h; exact ⟨rfl, by simp⟩

theorem out_maskOp (hn : NameInj cfg) {m : Dofs.M V Unit} (hm : MaskMethod m) (i : Nat) (s0 s : State V)
    (h : Inv cfg s ∧ MaskRel s0 s) (ha : s0.alive i = true) :
    Out (maskOp cfg i m) s (fun s' => Inv cfg s' ∧ MaskRel s0 s') := by
  unfold Out
  rcases maskOp_spec hn hm i s h.1 (by rw [h.2.alive]; exact ha) with ⟨s', e, _⟩ | ⟨e, _, h2, _⟩ | ⟨r, s', _, h2, _, vr, iv⟩
  · rw [e]; exact Or.inl rfl
  · rw [h2]; exact Or.inr h
  · rw [h2]; exact ⟨iv, h.2.trans vr⟩

theorem out_maskAct (hn : NameInj cfg) {m : Dofs.M V Unit} (hm : MaskMethod m) (d : Nat) (s0 s : State V)
    (h : Inv cfg s ∧ MaskRel s0 s) :
    Out (maskAct cfg d m) s (fun s' => Inv cfg s' ∧ MaskRel s0 s') := by
  unfold Out
  rcases maskAct_spec hn hm d s h.1 with ⟨s', e, _⟩ | ⟨e, _, h2, _⟩ | ⟨r, s', _, h2, _, vr, iv⟩
  · rw [e]; exact Or.inl rfl
  · rw [h2]; exact Or.inr h
  · rw [h2]; exact ⟨iv, h.2.trans vr⟩

theorem out_fixAll (hn : NameInj cfg) (i : Nat) (s : State V) (h : Inv cfg s) (ha : s.alive i = true) :
    Out (fixAll cfg i) s (fun s' => Inv cfg s' ∧ MaskRel s s') := by
  have := Out.forEach (I := fun s' => Inv cfg s' ∧ MaskRel s s') (f := fun o => localFixAll cfg o) (s.obj i).uniq
    (fun o ho t ht => by
      rw [localFixAll_eq]
      exact out_maskOp hn mask_fixAll o s t ht (h.uniq_mem hn ha ho).2) s ⟨h, MaskRel.refl s⟩
  exact this

theorem out_unfixAll (hn : NameInj cfg) (i : Nat) (s : State V) (h : Inv cfg s) (ha : s.alive i = true) :
    Out (unfixAll cfg i) s (fun s' => Inv cfg s' ∧ MaskRel s s') := by
  have := Out.forEach (I := fun s' => Inv cfg s' ∧ MaskRel s s') (f := fun o => localUnfixAll cfg o) (s.obj i).uniq
    (fun o ho t ht => by
      rw [localUnfixAll_eq]
      exact out_maskOp hn mask_unfixAll o s t ht (h.uniq_mem hn ha ho).2) s ⟨h, MaskRel.refl s⟩
  exact this

theorem out_fullMask (hn : NameInj cfg) (g : List Bool → List Bool) (l : List (Nat × (Nat × Nat))) (arr : List Bool)
    (s : State V) (h : Inv cfg s) :
    Out (forEach l fun e => do
      let s ← get
      onDofs (s.obj e.1).dofs (Dofs.assignFree (g (pySlice arr e.2.1 e.2.2)))
      updateOptIndices cfg (s.obj e.1).dofs) s (fun s' => Inv cfg s' ∧ MaskRel s s') := by
  refine Out.forEach (I := fun s' => Inv cfg s' ∧ MaskRel s s') l (fun e _ t ht => ?_) s ⟨h, MaskRel.refl s⟩
  exact out_maskAct hn (mask_assignFree _) (t.obj e.1).dofs s t ht

theorem out_fullFix (hn : NameInj cfg) (i : Nat) (arr : List Bool) (s : State V) (h : Inv cfg s) :
    Out (fullFix cfg i arr) s (fun s' => Inv cfg s' ∧ MaskRel s s') :=
  out_fullMask hn (fun l => l.map (!·)) (s.obj i).fullIdx arr s h
theorem out_fullUnfix (hn : NameInj cfg) (i : Nat) (arr : List Bool) (s : State V) (h : Inv cfg s) :
    Out (fullUnfix cfg i arr) s (fun s' => Inv cfg s' ∧ MaskRel s s') :=
  out_fullMask hn id (s.obj i).fullIdx arr s h

end Simsopt.Graph
