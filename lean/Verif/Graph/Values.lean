import Verif.Graph.Lineage
/-! Helper lemmas: operations on dof values and bounds. -/
set_option linter.unusedSimpArgs false
namespace Simsopt.Graph
variable {V : Type} {cfg : Cfg V}

/-- Only recompute flags, bell counts and external dof copies may differ. -/
structure FlagRel (s s' : State V) : Prop where
  static : Static s s'
  fields : ∀ j, (s'.obj j).anc = (s.obj j).anc ∧ (s'.obj j).uniq = (s.obj j).uniq ∧
      (s'.obj j).fullSize = (s.obj j).fullSize ∧ (s'.obj j).fullIdx = (s.obj j).fullIdx ∧
      (s'.obj j).freeSize = (s.obj j).freeSize ∧ (s'.obj j).freeIdx = (s.obj j).freeIdx
  newX : ∀ j, (s.obj j).newX = true → (s'.obj j).newX = true
  bells : ∀ j, (s.obj j).bells ≤ (s'.obj j).bells

namespace FlagRel
variable {s s' s'' : State V}
theorem refl (s : State V) : FlagRel s s :=
  ⟨Static.refl s, fun _ => ⟨rfl, rfl, rfl, rfl, rfl, rfl⟩, fun _ h => h, fun _ => le_refl _⟩
theorem trans (h : FlagRel s s') (h' : FlagRel s' s'') : FlagRel s s'' := by
  refine ⟨h.static.trans h'.static, fun j => ?_, fun j hj => h'.newX j (h.newX j hj),
    fun j => (h.bells j).trans (h'.bells j)⟩
  obtain ⟨a1, a2, a3, a4, a5, a6⟩ := h.fields j
  obtain ⟨b1, b2, b3, b4, b5, b6⟩ := h'.fields j
  exact ⟨b1.trans a1, b2.trans a2, b3.trans a3, b4.trans a4, b5.trans a5, b6.trans a6⟩

theorem inv (h : FlagRel s s') (hi : Inv cfg s) : Inv cfg s' := by
  have hst := h.static
  refine ⟨hi.graph.static hst, hi.dofs.static hst, by rw [hst.parent]; exact hi.acyclic, ?_, ?_⟩
  · intro j hj; rw [hst.alive] at hj
    exact (hi.full j hj).of_fields hst (fun j => ⟨(h.fields j).1, (h.fields j).2.1, (h.fields j).2.2.1, (h.fields j).2.2.2.1⟩)
  · intro j hj; rw [hst.alive] at hj
    exact (hi.free j hj).congr hst (h.fields j).2.1 (h.fields j).2.2.2.2.1 (h.fields j).2.2.2.2.2
end FlagRel

/-- `j` has been told to recompute since `s`. -/
def Told (s s' : State V) (j : Nat) : Prop := (s'.obj j).newX = true ∧ (s.obj j).bells < (s'.obj j).bells

/-- the loop body of `flagDofs` -/
def flagOne (cfg : Cfg V) (d o : Nat) : M V Unit := do
  let s ← get
  if s.alive o then
    if (s.obj o).setter then set (s.setObj o { s.obj o with ext := (s.dof d).x })
    walkM cfg actFlag o

theorem flagDofs_eq (cfg : Cfg V) (d : Nat) (s : State V) :
    flagDofs cfg d s = forEach (s.deps d) (flagOne cfg d) s := rfl

theorem flagOne_spec (cfg : Cfg V) (d o : Nat) (s : State V) :
    (∃ s', flagOne cfg d o s = .error .recursionError s' ∧ ¬ Shallow cfg s) ∨
    (∃ s', flagOne cfg d o s = .ok () s' ∧ FlagRel s s' ∧
      (s.alive o = true → ∀ j, Desc s o j → Told s s' j) ∧
      (∀ j, (s'.obj j).ext = if j = o ∧ s.alive o = true ∧ (s.obj o).setter = true then (s.dof d).x else (s.obj j).ext)) := by
  unfold flagOne
  simp only [run_bind, run_get]
  by_cases ha : s.alive o = true
  · simp only [ha, if_true]
    have main : ∀ t : State V, FlagRel s t → (∀ j, (t.obj j).bells = (s.obj j).bells) →
        (∀ j, (t.obj j).ext = if j = o ∧ s.alive o = true ∧ (s.obj o).setter = true then (s.dof d).x else (s.obj j).ext) →
        (∃ s', walkM cfg actFlag o t = .error .recursionError s' ∧ ¬ Shallow cfg s) ∨
        (∃ s', walkM cfg actFlag o t = .ok () s' ∧ FlagRel s s' ∧
          (∀ j, Desc s o j → Told s s' j) ∧
          (∀ j, (s'.obj j).ext = if j = o ∧ s.alive o = true ∧ (s.obj o).setter = true then (s.dof d).x else (s.obj j).ext)) := by
      intro t ht hb he
      rcases walkM_cases cfg localAct_flag o t with ⟨s', h1, w1⟩ | ⟨h1, n1⟩
      · right
        obtain ⟨st, fl, nx, mono, fld⟩ := walk_flag_spec w1
        refine ⟨s', h1, ht.trans ⟨st, fun j => ?_, nx, mono⟩, ?_, ?_⟩
        · obtain ⟨a, b, c, d, e, f, _⟩ := fld j; exact ⟨a, b, c, d, e, f⟩
        · intro j hj
          have := fl j (by rw [ht.static.desc]; exact hj)
          rw [hb j] at this; exact this
        · intro j; rw [(fld j).2.2.2.2.2.2, he j]
      · left; exact ⟨t, h1, fun hsh => n1 ((hsh.static ht.static) o (by rw [ht.static.alive]; exact ha))⟩
    by_cases hs : (s.obj o).setter = true
    · simp only [hs, if_true, run_bind, run_set]
      have := main (s.setObj o { s.obj o with ext := (s.dof d).x })
        ⟨setObj_static _ _ _ rfl, fun j => ?_, fun j hj => ?_, fun j => ?_⟩ (fun j => ?_) (fun j => ?_)
      · simp only [ha, hs] at this
        rcases this with h | ⟨s', h1, h2, h3, h4⟩
        · left; exact h
        · right; exact ⟨s', h1, h2, fun _ => h3, h4⟩
      · by_cases hj : j = o
        · subst hj; simp [State.setObj, upd]
        · simp [State.setObj, upd, hj]
      · by_cases hjo : j = o
        · subst hjo; simpa [State.setObj, upd] using hj
        · simpa [State.setObj, upd, hjo] using hj
      · by_cases hj : j = o
        · subst hj; simp [State.setObj, upd]
        · simp [State.setObj, upd, hj]
      · by_cases hj : j = o
        · subst hj; simp [State.setObj, upd]
        · simp [State.setObj, upd, hj]
      · by_cases hj : j = o
        · subst hj; simp [State.setObj, upd, ha, hs]
        · simp [State.setObj, upd, hj]
    · have := main s (FlagRel.refl s) (fun _ => rfl) (fun j => by simp [hs])
      simp only [hs, run_pure, run_bind] at this ⊢
      rcases this with h | ⟨s', h1, h2, h3, h4⟩
      · left; simpa using h
      · right; exact ⟨s', by simpa using h1, h2, fun _ => h3, by simpa using h4⟩
  · simp only [ha, run_pure]
    right
    exact ⟨s, rfl, FlagRel.refl s, fun h => absurd h (by simp), fun j => by simp⟩

theorem forEach_nil (f : α → M V Unit) (s : State V) : forEach ([] : List α) f s = .ok () s := rfl
theorem forEach_cons (a : α) (l : List α) (f : α → M V Unit) (s : State V) :
    forEach (a :: l) f s = (match f a s with | .ok _ s' => forEach l f s' | .error e s' => .error e s') := by
  show (f a >>= fun _ => forEach l f) s = _
  rw [run_bind]; cases f a s <;> rfl

theorem flagLoop_spec (cfg : Cfg V) (d : Nat) : ∀ (l : List Nat) (s : State V),
    (∃ s', forEach l (flagOne cfg d) s = .error .recursionError s' ∧ ¬ Shallow cfg s) ∨
    (∃ s', forEach l (flagOne cfg d) s = .ok () s' ∧ FlagRel s s' ∧
      (∀ o ∈ l, s.alive o = true → ∀ j, Desc s o j → Told s s' j) ∧
      (∀ j, (s'.obj j).ext = if j ∈ l ∧ s.alive j = true ∧ (s.obj j).setter = true then (s.dof d).x else (s.obj j).ext)) := by
  intro l
  induction l with
  | nil => intro s; right; exact ⟨s, rfl, FlagRel.refl s, fun o ho => by simp at ho, fun j => by simp⟩
  | cons a l ih =>
    intro s
    rw [forEach_cons]
    rcases flagOne_spec cfg d a s with ⟨s', h, hns⟩ | ⟨s1, h1, r1, t1, e1⟩
    · left; exact ⟨s', by rw [h], hns⟩
    · rw [h1]
      rcases ih s1 with ⟨s', h, hns⟩ | ⟨s2, h2, r2, t2, e2⟩
      · left; exact ⟨s', h, fun hsh => hns (hsh.static r1.static)⟩
      · right
        refine ⟨s2, h2, r1.trans r2, ?_, ?_⟩
        · intro o ho ha j hj
          rcases List.mem_cons.mp ho with e | ho
          · subst e
            have := t1 ha j hj
            exact ⟨r2.newX j this.1, lt_of_lt_of_le this.2 (r2.bells j)⟩
          · have := t2 o ho (by rw [r1.static.alive]; exact ha) j (by rw [r1.static.desc]; exact hj)
            exact ⟨this.1, lt_of_le_of_lt (r1.bells j) this.2⟩
        · intro j
          rw [e2 j, e1 j, r1.static.alive, r1.static.setter, r1.static.dof]
          by_cases hja : j = a
          · subst hja
            by_cases hc : s.alive j = true ∧ (s.obj j).setter = true
            · simp [hc]
            · by_cases hjl : j ∈ l <;> simp [hc, hjl]
          · simp [hja]

/-- `DOFs._flag_recompute_opt`: every dependent and everything below it is told to recompute. -/
theorem flagDofs_spec (cfg : Cfg V) (d : Nat) (s : State V) :
    (∃ s', flagDofs cfg d s = .error .recursionError s' ∧ ¬ Shallow cfg s) ∨
    (∃ s', flagDofs cfg d s = .ok () s' ∧ FlagRel s s' ∧
      (∀ o ∈ s.deps d, s.alive o = true → ∀ j, Desc s o j → Told s s' j) ∧
      (∀ j, (s'.obj j).ext =
        if j ∈ s.deps d ∧ s.alive j = true ∧ (s.obj j).setter = true then (s.dof d).x else (s.obj j).ext)) := by
  rw [flagDofs_eq]; exact flagLoop_spec cfg d (s.deps d) s

/-! ### replacing the DOFs store -/

/-- store with DOFs object `d` replaced -/
def State.withDof (s : State V) (d : Nat) (r : Dofs V) : State V := { s with dof := upd s.dof d r }

theorem getAncestors_withDof (s : State V) (d : Nat) (r : Dofs V) (j : Nat) :
    getAncestors (s.withDof d r) j = getAncestors s j := rfl

theorem localFullSize_withDof (s : State V) (d : Nat) (r : Dofs V) (h : r.free.length = (s.dof d).free.length) :
    localFullSize (s.withDof d r) = localFullSize s := by
  funext o
  unfold localFullSize State.withDof Dofs.len upd
  simp only
  split
  · rename_i e; rw [h, e]
  · rfl

theorem localSize_withDof (s : State V) (d : Nat) (r : Dofs V) (o : Nat)
    (h : (s.obj o).dofs = d → r.free = (s.dof d).free) :
    localSize (s.withDof d r) o = localSize s o := by
  unfold localSize State.withDof Dofs.reducedLen upd
  simp only
  split
  · rename_i e; rw [h e, e]
  · rfl

theorem FullOK.withDof {s : State V} {d : Nat} {r : Dofs V} (h : r.free.length = (s.dof d).free.length) {j : Nat}
    (hf : FullOK s j) : FullOK (s.withDof d r) j := by
  constructor
  · exact hf.anc
  · exact hf.uniq
  · rw [localFullSize_withDof s d r h]; exact hf.size
  · rw [localFullSize_withDof s d r h]; exact hf.idx

theorem FreeOK.withDof {s : State V} {d : Nat} {r : Dofs V} {j : Nat}
    (h : ∀ o ∈ (s.obj j).uniq, (s.obj o).dofs = d → r.free = (s.dof d).free)
    (hf : FreeOK s j) : FreeOK (s.withDof d r) j := by
  have : (s.obj j).uniq.map (localSize (s.withDof d r)) = (s.obj j).uniq.map (localSize s) := by
    apply List.map_congr_left
    intro o ho; exact localSize_withDof s d r o (h o ho)
  constructor
  · show (s.obj j).freeSize = ((s.obj j).uniq.map _).sum
    rw [this]; exact hf.size
  · show (s.obj j).freeIdx = dictOf _ (indexPairs (s.obj j).uniq ((s.obj j).uniq.map _))
    rw [this]; exact hf.idx

theorem GraphOK.withDof {s : State V} {d : Nat} {r : Dofs V} (h : GraphOK cfg s) : GraphOK cfg (s.withDof d r) :=
  ⟨h.lt, h.blank, h.childLt, h.childNodup, h.names, h.numInj, h.parAlive, h.link⟩

theorem DofOK.withDof {s : State V} {d : Nat} {r : Dofs V} (h : DofOK s) (hr : r.WF) : DofOK (s.withDof d r) := by
  refine ⟨?_, h.lt, h.depLt, h.depNew, h.depIn, h.depOf, h.depNodup⟩
  intro d'
  unfold State.withDof upd
  simp only
  split
  · exact hr
  · exact h.wf d'

/-- Changing values or bounds only keeps the invariant. -/
theorem Inv.withDof {s : State V} {d : Nat} {r : Dofs V} (h : Inv cfg s) (hr : r.WF)
    (hfree : r.free = (s.dof d).free) : Inv cfg (s.withDof d r) :=
  ⟨h.graph.withDof, h.dofs.withDof hr, h.acyclic, fun j hj => (h.full j hj).withDof (by rw [hfree]),
    fun j hj => (h.free j hj).withDof (fun _ _ _ => hfree)⟩

/-- A method of `DOFs` that writes values or bounds but never the free/fixed status, and that changes
    nothing when it raises. -/
structure ValMethod (m : Dofs.M V α) : Prop where
  ok : ∀ r a r', m r = .ok a r' → r'.free = r.free ∧ r'.names = r.names ∧ (r.WF → r'.WF)
  err : ∀ r e r', m r = .error e r' → r' = r ∧ e ≠ .recursionError

theorem upd_self {α : Type} (f : Nat → α) (d : Nat) : upd f d (f d) = f := by
  funext i; unfold upd; split <;> simp [*]

theorem onDofs_cases {m : Dofs.M V α} (hm : ValMethod m) (d : Nat) (s : State V) :
    (∃ a r, m (s.dof d) = .ok a r ∧ onDofs d m s = .ok a (s.withDof d r)) ∨
    (∃ e, e ≠ .recursionError ∧ onDofs d m s = .error e s ∧ m (s.dof d) = .error e (s.dof d)) := by
  unfold onDofs
  cases h : m (s.dof d) with
  | ok a r => left; exact ⟨a, r, rfl, rfl⟩
  | error e r =>
    right
    obtain ⟨h1, h2⟩ := hm.err _ _ _ h
    subst h1
    refine ⟨e, h2, ?_, rfl⟩
    simp only [upd_self]

theorem resolve_err_ne {r : Dofs V} {k : Key} {e : Err} (h : r.resolve k = .error e) : e ≠ .recursionError := by
  unfold Dofs.resolve at h
  cases k with
  | name s =>
    simp only at h
    cases hp : pyListIndex r.names s with
    | ok i => rw [hp] at h; rw [pyIndex_err h]; simp
    | error e' =>
      rw [hp] at h; cases h
      unfold pyListIndex at hp
      split at hp <;> cases hp; simp
  | idx i => rw [pyIndex_err h]; simp

section methods
open Dofs

theorem dofs_run_bind {α β : Type} (m : Dofs.M V α) (f : α → Dofs.M V β) (s : Dofs V) :
    (m >>= f) s = (match m s with | .ok a s' => f a s' | .error e s' => .error e s') := by
  show EStateM.bind m f s = _
  unfold EStateM.bind; cases m s <;> rfl

theorem val_setFreeX (v : List V) : ValMethod (Dofs.setFreeX v) := by
  constructor
  · intro r a r' h
    by_cases hl : v.length = r.numFree
    · simp [setFreeX, reducedLen_eq, hl, get, getThe, MonadStateOf.get, EStateM.get, bind, EStateM.bind,
        set, MonadStateOf.set, EStateM.set, pure, EStateM.pure] at h
      subst h
      exact ⟨rfl, rfl, fun hd => ⟨by simp [scatter_length, hd.free_len], by simp [scatter_length, hd.lb_len],
        by simp [scatter_length, hd.ub_len], by simp [scatter_length, hd.names_len], hd.names_nodup⟩⟩
    · simp [setFreeX, reducedLen_eq, Ne.symm hl, get, getThe, MonadStateOf.get, EStateM.get, bind, EStateM.bind,
        throw, throwThe, MonadExceptOf.throw, EStateM.throw] at h
  · intro r e r' h
    by_cases hl : v.length = r.numFree
    · simp [setFreeX, reducedLen_eq, hl, get, getThe, MonadStateOf.get, EStateM.get, bind, EStateM.bind,
        set, MonadStateOf.set, EStateM.set, pure, EStateM.pure] at h
    · simp [setFreeX, reducedLen_eq, Ne.symm hl, get, getThe, MonadStateOf.get, EStateM.get, bind, EStateM.bind,
        throw, throwThe, MonadExceptOf.throw, EStateM.throw] at h
      exact ⟨h.2.symm, by rw [← h.1]; simp⟩

theorem val_setFullX (v : List V) : ValMethod (Dofs.setFullX v) := by
  constructor
  · intro r a r' h
    by_cases hl : v.length = r.x.length
    · simp [Dofs.setFullX, hl, get, getThe, MonadStateOf.get, EStateM.get, bind, EStateM.bind,
        set, MonadStateOf.set, EStateM.set, pure, EStateM.pure] at h
      subst h
      exact ⟨rfl, rfl, fun hd => ⟨by simp [hl, hd.free_len], by simp [hl, hd.lb_len],
        by simp [hl, hd.ub_len], by simp [hl, hd.names_len], hd.names_nodup⟩⟩
    · simp [Dofs.setFullX, Ne.symm hl, get, getThe, MonadStateOf.get, EStateM.get, bind, EStateM.bind,
        throw, throwThe, MonadExceptOf.throw, EStateM.throw] at h
  · intro r e r' h
    by_cases hl : v.length = r.x.length
    · simp [Dofs.setFullX, hl, get, getThe, MonadStateOf.get, EStateM.get, bind, EStateM.bind,
        set, MonadStateOf.set, EStateM.set, pure, EStateM.pure] at h
    · simp [Dofs.setFullX, Ne.symm hl, get, getThe, MonadStateOf.get, EStateM.get, bind, EStateM.bind,
        throw, throwThe, MonadExceptOf.throw, EStateM.throw] at h
      exact ⟨h.2.symm, by rw [← h.1]; simp⟩

theorem val_setFreeLb (v : List V) : ValMethod (Dofs.setFreeLb v) := by
  constructor
  · intro r a r' h
    by_cases hl : v.length = r.numFree
    · simp [setFreeLb, reducedLen_eq, hl, get, getThe, MonadStateOf.get, EStateM.get, bind, EStateM.bind,
        set, MonadStateOf.set, EStateM.set, pure, EStateM.pure] at h
      subst h
      exact ⟨rfl, rfl, fun hd => ⟨hd.free_len, by simp [scatter_length, hd.lb_len],
        hd.ub_len, hd.names_len, hd.names_nodup⟩⟩
    · simp [setFreeLb, reducedLen_eq, Ne.symm hl, get, getThe, MonadStateOf.get, EStateM.get, bind, EStateM.bind,
        throw, throwThe, MonadExceptOf.throw, EStateM.throw] at h
  · intro r e r' h
    by_cases hl : v.length = r.numFree
    · simp [setFreeLb, reducedLen_eq, hl, get, getThe, MonadStateOf.get, EStateM.get, bind, EStateM.bind,
        set, MonadStateOf.set, EStateM.set, pure, EStateM.pure] at h
    · simp [setFreeLb, reducedLen_eq, Ne.symm hl, get, getThe, MonadStateOf.get, EStateM.get, bind, EStateM.bind,
        throw, throwThe, MonadExceptOf.throw, EStateM.throw] at h
      exact ⟨h.2.symm, by rw [← h.1]; simp⟩

theorem val_setFreeUb (v : List V) : ValMethod (Dofs.setFreeUb v) := by
  constructor
  · intro r a r' h
    by_cases hl : v.length = r.numFree
    · simp [setFreeUb, reducedLen_eq, hl, get, getThe, MonadStateOf.get, EStateM.get, bind, EStateM.bind,
        set, MonadStateOf.set, EStateM.set, pure, EStateM.pure] at h
      subst h
      exact ⟨rfl, rfl, fun hd => ⟨hd.free_len, hd.lb_len, by simp [scatter_length, hd.ub_len],
        hd.names_len, hd.names_nodup⟩⟩
    · simp [setFreeUb, reducedLen_eq, Ne.symm hl, get, getThe, MonadStateOf.get, EStateM.get, bind, EStateM.bind,
        throw, throwThe, MonadExceptOf.throw, EStateM.throw] at h
  · intro r e r' h
    by_cases hl : v.length = r.numFree
    · simp [setFreeUb, reducedLen_eq, hl, get, getThe, MonadStateOf.get, EStateM.get, bind, EStateM.bind,
        set, MonadStateOf.set, EStateM.set, pure, EStateM.pure] at h
    · simp [setFreeUb, reducedLen_eq, Ne.symm hl, get, getThe, MonadStateOf.get, EStateM.get, bind, EStateM.bind,
        throw, throwThe, MonadExceptOf.throw, EStateM.throw] at h
      exact ⟨h.2.symm, by rw [← h.1]; simp⟩

theorem val_attr : ValMethod (V := V) (α := Unit) (throw .attributeError) := by
  constructor
  · intro r a r' h; simp [throw, throwThe, MonadExceptOf.throw, EStateM.throw] at h
  · intro r e r' h
    simp [throw, throwThe, MonadExceptOf.throw, EStateM.throw] at h
    exact ⟨h.2.symm, by rw [← h.1]; simp⟩

theorem val_keyed (k : Key) (f : Dofs V → Nat → Dofs V)
    (hf : ∀ r i, (f r i).free = r.free ∧ (f r i).names = r.names ∧ (r.WF → (f r i).WF))
    (m : Dofs.M V Unit) (hm : m = (do let d ← get; let i ← liftE (d.resolve k); set (f d i))) : ValMethod m := by
  subst hm
  constructor
  · intro r a r' h
    cases hr : r.resolve k with
    | ok i =>
      simp [hr, liftE, get, getThe, MonadStateOf.get, EStateM.get, bind, EStateM.bind,
        set, MonadStateOf.set, EStateM.set] at h
      subst h; exact hf r i
    | error e =>
      simp [hr, liftE, get, getThe, MonadStateOf.get, EStateM.get, bind, EStateM.bind] at h
  · intro r e r' h
    cases hr : r.resolve k with
    | ok i =>
      simp [hr, liftE, get, getThe, MonadStateOf.get, EStateM.get, bind, EStateM.bind,
        set, MonadStateOf.set, EStateM.set] at h
    | error e' =>
      simp [hr, liftE, get, getThe, MonadStateOf.get, EStateM.get, bind, EStateM.bind] at h
      exact ⟨h.2.symm, by rw [← h.1]; exact resolve_err_ne hr⟩

theorem val_setKey (k : Key) (v : V) : ValMethod (Dofs.setKey k v) :=
  val_keyed k (fun d i => { d with x := d.x.set i v })
    (fun r i => ⟨rfl, rfl, fun hd => ⟨by simp [hd.free_len], by simp [hd.lb_len], by simp [hd.ub_len],
      by simp [hd.names_len], hd.names_nodup⟩⟩) _ rfl

theorem val_updateLb (k : Key) (v : V) : ValMethod (Dofs.updateLb k v) :=
  val_keyed k (fun d i => { d with lb := d.lb.set i v })
    (fun r i => ⟨rfl, rfl, fun hd => ⟨hd.free_len, by simp [hd.lb_len], hd.ub_len,
      hd.names_len, hd.names_nodup⟩⟩) _ rfl

theorem val_updateUb (k : Key) (v : V) : ValMethod (Dofs.updateUb k v) :=
  val_keyed k (fun d i => { d with ub := d.ub.set i v })
    (fun r i => ⟨rfl, rfl, fun hd => ⟨hd.free_len, hd.lb_len, by simp [hd.ub_len],
      hd.names_len, hd.names_nodup⟩⟩) _ rfl

end methods

/-! ### effect of value operations -/

/-- What a value (or bound) operation may do to the store: values change, masks and names do not,
    the graph and all lineage tables are the same, everything that depends on a changed DOFs object has
    been told, and external copies follow. -/
structure ValRel (s s' : State V) : Prop where
  flag : FlagRel { s with dof := s'.dof } s'
  mask : ∀ d, (s'.dof d).free = (s.dof d).free ∧ (s'.dof d).names = (s.dof d).names
  told : ∀ d, (s'.dof d).x ≠ (s.dof d).x → ∀ o ∈ s.deps d, s.alive o = true → ∀ j, Desc s o j → Told s s' j
  ext : ∀ j, s.alive j = true → j ∈ s.deps (s.obj j).dofs → (∀ d, j ∈ s.deps d → (s.obj j).dofs = d) →
    (s.obj j).setter = true → (s.obj j).ext = (s.dof (s.obj j).dofs).x →
    (s'.obj j).ext = (s'.dof (s'.obj j).dofs).x

theorem desc_withStore (s : State V) (D : Nat → Dofs V) : Desc { s with dof := D } = Desc s := rfl

theorem term_withStore (s : State V) (D : Nat → Dofs V) : ∀ n i, Term { s with dof := D } n i → Term s n i := by
  intro n
  induction n with
  | zero => intro i h; exact h
  | succ n ih => intro i h c hc; exact ih c (h c hc)

theorem shallow_withStore {s : State V} {D : Nat → Dofs V} (h : Shallow cfg s) : Shallow cfg { s with dof := D } := by
  intro j hj
  exact term_withStore { s with dof := D } s.dof _ _ (h j hj)

namespace ValRel
variable {s s' s'' : State V}
theorem refl (s : State V) : ValRel s s :=
  ⟨FlagRel.refl s, fun _ => ⟨rfl, rfl⟩, fun _ h => absurd rfl h, fun _ _ _ _ _ h => h⟩

theorem alive (h : ValRel s s') : s'.alive = s.alive := h.flag.static.alive
theorem deps (h : ValRel s s') : s'.deps = s.deps := h.flag.static.deps
theorem core (h : ValRel s s') (j : Nat) : (s'.obj j).core = (s.obj j).core := h.flag.static.core j
theorem dofs (h : ValRel s s') (j : Nat) : (s'.obj j).dofs = (s.obj j).dofs := h.flag.static.dofs j
theorem name (h : ValRel s s') (j : Nat) : (s'.obj j).name = (s.obj j).name := h.flag.static.name j
theorem uniq (h : ValRel s s') (j : Nat) : (s'.obj j).uniq = (s.obj j).uniq := (h.flag.fields j).2.1
theorem desc (h : ValRel s s') : Desc s' = Desc s := by
  rw [h.flag.static.desc]; rfl
theorem localSize (h : ValRel s s') : Graph.localSize s' = Graph.localSize s := by
  funext o
  unfold Graph.localSize Dofs.reducedLen
  rw [h.dofs, (h.mask _).1]
theorem localFullSize (h : ValRel s s') : Graph.localFullSize s' = Graph.localFullSize s := by
  funext o
  unfold Graph.localFullSize Dofs.len
  rw [h.dofs, (h.mask _).1]
theorem shallow (h : ValRel s s') (hs : Shallow cfg s) : Shallow cfg s' :=
  Shallow.static (s := { s with dof := s'.dof }) (shallow_withStore hs) h.flag.static

theorem trans (h : ValRel s s') (h' : ValRel s' s'') : ValRel s s'' := by
  have e1 : FlagRel { s with dof := s''.dof } { s' with dof := s''.dof } := by
    obtain ⟨⟨a1, a2, a3, _, a5, a6, a7⟩, f, n, b⟩ := h.flag
    exact ⟨⟨a1, a2, a3, rfl, a5, a6, a7⟩, f, n, b⟩
  refine ⟨e1.trans h'.flag, fun d => ⟨(h'.mask d).1.trans (h.mask d).1, (h'.mask d).2.trans (h.mask d).2⟩, ?_, ?_⟩
  · intro d hd o ho ha j hj
    by_cases hx : (s'.dof d).x = (s.dof d).x
    · have := h'.told d (by rw [hx]; exact hd) o (by rw [h.deps]; exact ho) (by rw [h.alive]; exact ha) j
        (by rw [h.desc]; exact hj)
      exact ⟨this.1, lt_of_le_of_lt (h.flag.bells j) this.2⟩
    · have := h.told d hx o ho ha j hj
      exact ⟨h'.flag.newX j this.1, lt_of_lt_of_le this.2 (h'.flag.bells j)⟩
  · intro j ha hin hof hset hext
    have h1 := h.ext j ha hin hof hset hext
    have hset' : (s'.obj j).setter = true := by
      rw [show (s'.obj j).setter = (s.obj j).setter from h.flag.static.setter j]; exact hset
    exact h'.ext j (by rw [h.alive]; exact ha) (by rw [h.deps, h.dofs]; exact hin)
      (fun d hd => by rw [h.deps] at hd; rw [h.dofs]; exact hof d hd) hset' h1
end ValRel

/-- `onDofs d m; flagDofs d`: the common body of `free_x=`, `full_x=` and `set`. -/
def valAct (cfg : Cfg V) (d : Nat) (m : Dofs.M V Unit) : M V Unit := do
  onDofs d m
  flagDofs cfg d

theorem valAct_spec (cfg : Cfg V) {m : Dofs.M V Unit} (hm : ValMethod m) (d : Nat) (s : State V) (hi : Inv cfg s) :
    (∃ s', valAct cfg d m s = .error .recursionError s' ∧ ¬ Shallow cfg s) ∨
    (∃ e, e ≠ .recursionError ∧ valAct cfg d m s = .error e s ∧ m (s.dof d) = .error e (s.dof d)) ∨
    (∃ r s', m (s.dof d) = .ok () r ∧ valAct cfg d m s = .ok () s' ∧ s'.dof = upd s.dof d r ∧
      ValRel s s' ∧ Inv cfg s' ∧ (∀ o ∈ s.deps d, s.alive o = true → ∀ j, Desc s o j → Told s s' j)) := by
  unfold valAct
  rw [run_bind]
  rcases onDofs_cases hm d s with ⟨a, r, h1, h2⟩ | ⟨e, h1, h2, h3⟩
  · rw [h2]
    simp only
    obtain ⟨m1, m2, m3⟩ := hm.ok _ _ _ h1
    have hi1 : Inv cfg (s.withDof d r) := hi.withDof (m3 (hi.dofs.wf d)) m1
    rcases flagDofs_spec cfg d (s.withDof d r) with ⟨s', h, hns⟩ | ⟨s', h, fr, td, ex⟩
    · left; exact ⟨s', h, fun hsh => hns (shallow_withStore hsh)⟩
    · right; right
      have hdof : s'.dof = upd s.dof d r := fr.static.dof
      refine ⟨r, s', h1, h, hdof, ⟨?_, ?_, ?_, ?_⟩, fr.inv hi1, td⟩
      · rw [hdof]; exact fr
      · intro d'
        rw [hdof]
        unfold upd
        split
        · rename_i e; subst e; exact ⟨m1, m2⟩
        · exact ⟨rfl, rfl⟩
      · intro d' hd' o ho ha j hj
        have : d' = d := by
          by_contra hne
          rw [hdof, upd_ne _ _ _ _ hne] at hd'; exact hd' rfl
        subst this
        exact td o ho ha j hj
      · intro j ha hin hof hset hext
        have hd' : (s'.obj j).dofs = (s.obj j).dofs := fr.static.dofs j
        have hexj := ex j
        change (s'.obj j).ext = if j ∈ s.deps d ∧ s.alive j = true ∧ (s.obj j).setter = true then
          (upd s.dof d r d).x else (s.obj j).ext at hexj
        rw [hexj, hd', hdof]
        by_cases hjd : (s.obj j).dofs = d
        · have hin' : j ∈ s.deps d := by rw [← hjd]; exact hin
          rw [if_pos ⟨hin', ha, hset⟩, hjd]
        · have hnin : j ∉ s.deps d := fun hh => hjd (hof d hh)
          rw [if_neg (fun hh => hnin hh.1), hext, upd_ne _ _ _ _ hjd]
  · right; left
    exact ⟨e, h1, by rw [h2], h3⟩

theorem setLocalFullX_eq (cfg : Cfg V) (i : Nat) (v : List V) (s : State V) :
    setLocalFullX cfg i v s = valAct cfg (s.obj i).dofs (Dofs.setFullX v) s := rfl
theorem setKey_eq (cfg : Cfg V) (i : Nat) (k : Key) (v : V) (s : State V) :
    setKey cfg i k v s = valAct cfg (s.obj i).dofs (Dofs.setKey k v) s := rfl
theorem setLocalX_eq (cfg : Cfg V) (i : Nat) (v : List V) (s : State V) :
    setLocalX cfg i v s = if localSize s i ≠ v.length then .error .valueError s
      else valAct cfg (s.obj i).dofs (Dofs.setFreeX v) s := by
  unfold setLocalX
  simp only [run_bind, run_get]
  by_cases h : localSize s i = v.length
  · simp only [h, ne_eq, not_true_eq_false, if_false]; rfl
  · simp only [ne_eq, h, not_false_eq_true, if_true]; rfl

end Simsopt.Graph
