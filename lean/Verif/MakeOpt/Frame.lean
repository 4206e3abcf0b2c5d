import Verif.Graph.Stable
/-!
# Frame: who can change the parents, the DOFs object or the number of dofs of an object

No naming hypothesis and no invariant is used here, so the results also hold for stores containing objects with
equal names (as two objects made by `make_optimizable` have).
-/
namespace Simsopt.MakeOpt
open Simsopt.Graph
variable {V : Type} {cfg : Cfg V} {α β : Type}

/-- `o` keeps its parents and its DOFs object, and no DOFs object changes its number of dofs. -/
structure Fr (o : Nat) (s s' : State V) : Prop where
  nobj : s.nobj ≤ s'.nobj
  ndof : s.ndof ≤ s'.ndof
  parents : o < s.nobj → (s'.obj o).parents = (s.obj o).parents
  dofs : o < s.nobj → (s'.obj o).dofs = (s.obj o).dofs
  size : ∀ d, d < s.ndof → (s'.dof d).x.length = (s.dof d).x.length

theorem Fr.refl (o : Nat) (s : State V) : Fr o s s := ⟨le_refl _, le_refl _, fun _ => rfl, fun _ => rfl, fun _ _ => rfl⟩

theorem Fr.trans {o : Nat} {s s' s'' : State V} (h : Fr o s s') (h' : Fr o s' s'') : Fr o s s'' :=
  ⟨h.nobj.trans h'.nobj, h.ndof.trans h'.ndof,
    fun ho => (h'.parents (lt_of_lt_of_le ho h.nobj)).trans (h.parents ho),
    fun ho => (h'.dofs (lt_of_lt_of_le ho h.nobj)).trans (h.dofs ho),
    fun d hd => (h'.size d (lt_of_lt_of_le hd h.ndof)).trans (h.size d hd)⟩

theorem Fr.of_static {o : Nat} {s s' : State V} (h : Static s s') : Fr o s s' :=
  ⟨h.nobj.ge, h.ndof.ge, fun _ => h.parents o, fun _ => h.dofs o, fun d _ => by rw [h.dof]⟩

/-- the store after an action, whether it returned or raised -/
def after : EStateM.Result Err (State V) α → State V
  | .ok _ s => s
  | .error _ s => s

/-- The action keeps the frame of `o`, from any store. -/
def Pres (o : Nat) (m : M V α) : Prop := ∀ s, Fr o s (after (m s))

theorem pres_pure (o : Nat) (a : α) : Pres o (pure a : M V α) := fun s => Fr.refl o s
theorem pres_throw (o : Nat) (e : Err) : Pres o (throw e : M V α) := fun s => Fr.refl o s
theorem pres_get (o : Nat) : Pres o (get : M V (State V)) := fun s => Fr.refl o s

theorem pres_bind {o : Nat} {m : M V α} {f : α → M V β} (h : Pres o m) (hf : ∀ a, Pres o (f a)) : Pres o (m >>= f) := by
  intro s
  rw [run_bind]
  have := h s
  cases hm : m s with
  | ok a t => rw [hm] at this; exact this.trans (hf a t)
  | error e t => rw [hm] at this; exact this

/-- `let s ← get; …`: the rest may use the store it has read. -/
theorem pres_getBind {o : Nat} {f : State V → M V β} (hf : ∀ s, Fr o s (after (f s s))) :
    Pres o ((get : M V (State V)) >>= f) := fun s => by rw [run_bind]; exact hf s

theorem pres_modify {o : Nat} {f : State V → State V} (h : ∀ s, Fr o s (f s)) : Pres o (modify f : M V Unit) := fun s => h s

theorem pres_forEach {o : Nat} {f : α → M V Unit} (h : ∀ a, Pres o (f a)) : ∀ l : List α, Pres o (forEach l f)
  | [] => pres_pure o ()
  | a :: l => pres_bind (h a) fun _ => pres_forEach h l

theorem pres_walkM {o : Nat} {act : State V → Nat → State V} (ha : LocalAct act) (i : Nat) : Pres o (walkM cfg act i) := by
  intro s
  unfold walkM
  cases hw : walk act cfg.limit i s with
  | none => exact Fr.refl o s
  | some s' => exact Fr.of_static (walk_static ha hw)

theorem pres_refresh (o i : Nat) : Pres o (refresh cfg i) :=
  pres_bind (pres_walkM localAct_full i) fun _ => pres_bind (pres_walkM localAct_free i) fun _ => pres_walkM localAct_flag i

/-- the DOFs object after a method, whether it returned or raised -/
def afterD : EStateM.Result Err (Dofs V) α → Dofs V
  | .ok _ s => s
  | .error _ s => s

/-- A DOFs method that never changes the number of dofs. -/
def KeepsLen (m : Dofs.M V α) : Prop := ∀ d, (afterD (m d)).x.length = d.x.length

theorem pres_onDofs {o : Nat} {m : Dofs.M V α} (h : KeepsLen m) (d : Nat) : Pres o (onDofs d m) := by
  intro s
  have := h (s.dof d)
  unfold onDofs
  have key : ∀ r : Dofs V, r.x.length = (s.dof d).x.length → Fr o s { s with dof := upd s.dof d r } := by
    intro r hr
    refine ⟨le_refl _, le_refl _, fun _ => rfl, fun _ => rfl, fun e _ => ?_⟩
    show (upd s.dof d r e).x.length = _
    by_cases he : e = d
    · subst he; rw [upd_same]; exact hr
    · rw [upd_ne _ _ _ _ he]
  cases hm : m (s.dof d) with
  | ok a r => rw [hm] at this; exact key r this
  | error a r => rw [hm] at this; exact key r this

theorem keeps_keyed (f : Dofs V → Nat → Dofs V) (hf : ∀ d i, (f d i).x.length = d.x.length) (k : Key)
    {m : Dofs.M V Unit} (hm : m = (do let d ← get; let i ← Dofs.liftE (d.resolve k); set (f d i))) : KeepsLen m := by
  subst hm
  intro d
  cases hr : d.resolve k with
  | ok i =>
    simp [hr, Dofs.liftE, get, getThe, MonadStateOf.get, EStateM.get, bind, EStateM.bind,
        set, MonadStateOf.set, EStateM.set, afterD, hf]
  | error e =>
    simp [hr, Dofs.liftE, get, getThe, MonadStateOf.get, EStateM.get, bind, EStateM.bind, afterD]

theorem keeps_fix (k : Key) : KeepsLen (V := V) (Dofs.fix k) :=
  keeps_keyed (fun d i => { d with free := d.free.set i false }) (fun _ _ => rfl) k rfl
theorem keeps_unfix (k : Key) : KeepsLen (V := V) (Dofs.unfix k) :=
  keeps_keyed (fun d i => { d with free := d.free.set i true }) (fun _ _ => rfl) k rfl
theorem keeps_setKey (k : Key) (v : V) : KeepsLen (Dofs.setKey k v) :=
  keeps_keyed (fun d i => { d with x := d.x.set i v }) (fun _ _ => List.length_set) k rfl
theorem keeps_updateLb (k : Key) (v : V) : KeepsLen (Dofs.updateLb k v) :=
  keeps_keyed (fun d i => { d with lb := d.lb.set i v }) (fun _ _ => rfl) k rfl
theorem keeps_updateUb (k : Key) (v : V) : KeepsLen (Dofs.updateUb k v) :=
  keeps_keyed (fun d i => { d with ub := d.ub.set i v }) (fun _ _ => rfl) k rfl
theorem keeps_fixAll : KeepsLen (V := V) Dofs.fixAll := fun _ => rfl
theorem keeps_unfixAll : KeepsLen (V := V) Dofs.unfixAll := fun _ => rfl
theorem keeps_attr : KeepsLen (V := V) (α := Unit) (throw .attributeError) := fun _ => rfl

theorem keeps_setFreeX (v : List V) : KeepsLen (Dofs.setFreeX v) := by
  intro d
  by_cases hl : d.reducedLen = v.length <;>
    simp [Dofs.setFreeX, hl, get, getThe, MonadStateOf.get, EStateM.get, bind, EStateM.bind, afterD,
      set, MonadStateOf.set, EStateM.set, pure, EStateM.pure, throw, throwThe, MonadExceptOf.throw, EStateM.throw, scatter_length]
theorem keeps_setFullX (v : List V) : KeepsLen (Dofs.setFullX v) := by
  intro d
  by_cases hl : d.x.length = v.length <;>
    simp [Dofs.setFullX, hl, get, getThe, MonadStateOf.get, EStateM.get, bind, EStateM.bind, afterD,
      set, MonadStateOf.set, EStateM.set, pure, EStateM.pure, throw, throwThe, MonadExceptOf.throw, EStateM.throw]
theorem keeps_setFreeLb (v : List V) : KeepsLen (Dofs.setFreeLb v) := by
  intro d
  by_cases hl : d.reducedLen = v.length <;>
    simp [Dofs.setFreeLb, hl, get, getThe, MonadStateOf.get, EStateM.get, bind, EStateM.bind, afterD,
      set, MonadStateOf.set, EStateM.set, pure, EStateM.pure, throw, throwThe, MonadExceptOf.throw, EStateM.throw]
theorem keeps_setFreeUb (v : List V) : KeepsLen (Dofs.setFreeUb v) := by
  intro d
  by_cases hl : d.reducedLen = v.length <;>
    simp [Dofs.setFreeUb, hl, get, getThe, MonadStateOf.get, EStateM.get, bind, EStateM.bind, afterD,
      set, MonadStateOf.set, EStateM.set, pure, EStateM.pure, throw, throwThe, MonadExceptOf.throw, EStateM.throw]

theorem keeps_assignFree (arr : List Bool) : KeepsLen (V := V) (Dofs.assignFree arr) := by
  intro d
  by_cases hl : arr.length = d.free.length
  · simp [Dofs.assignFree, hl, get, getThe, MonadStateOf.get, EStateM.get, bind, EStateM.bind, afterD,
      set, MonadStateOf.set, EStateM.set]
  · simp only [Dofs.assignFree, hl, get, getThe, MonadStateOf.get, EStateM.get, bind, EStateM.bind, if_false]
    split <;> rfl

theorem fr_setObj {o : Nat} (s : State V) (a : Nat) (ob : Obj V)
    (h1 : o = a → ob.parents = (s.obj a).parents) (h2 : o = a → ob.dofs = (s.obj a).dofs) : Fr o s (s.setObj a ob) := by
  refine ⟨le_refl _, le_refl _, fun _ => ?_, fun _ => ?_, fun _ _ => rfl⟩
  · show (upd s.obj a ob o).parents = _
    by_cases h : o = a
    · subst h; rw [upd_same]; exact h1 rfl
    · rw [upd_ne _ _ _ _ h]
  · show (upd s.obj a ob o).dofs = _
    by_cases h : o = a
    · subst h; rw [upd_same]; exact h2 rfl
    · rw [upd_ne _ _ _ _ h]

theorem pres_set {o : Nat} {s t : State V} {m : M V α} (h : Fr o s t) (hm : Pres o m) :
    Fr o s (after ((do set t; m : M V α) s)) := by
  rw [run_bind, run_set]; exact h.trans (hm t)

theorem pres_flagDofs (o d : Nat) : Pres o (flagDofs cfg d) := by
  refine pres_bind (pres_get o) fun s0 => pres_forEach (fun a => ?_) _
  refine pres_getBind fun s => ?_
  by_cases ha : s.alive a = true
  · rw [if_pos ha]
    by_cases hs : (s.obj a).setter = true
    · rw [if_pos hs]
      exact pres_set (fr_setObj s a _ (fun _ => rfl) (fun _ => rfl)) (pres_walkM localAct_flag a)
    · rw [if_neg hs]
      exact pres_bind (pres_pure o ()) (fun _ => pres_walkM localAct_flag a) s
  · rw [if_neg ha]; exact Fr.refl o s

theorem pres_updateOptIndices (o d : Nat) : Pres o (updateOptIndices cfg d) := by
  refine pres_bind (pres_get o) fun s0 => pres_forEach (fun a => ?_) _
  refine pres_getBind fun s => ?_
  by_cases ha : s.alive a = true
  · rw [if_pos ha]; exact pres_walkM localAct_free a s
  · rw [if_neg ha]; exact Fr.refl o s

theorem pres_addChild (o p c : Nat) : Pres o (addChild cfg p c) := by
  refine pres_modify fun s => ?_
  split
  · exact Fr.refl o s
  · refine ⟨le_refl _, le_refl _, fun _ => ?_, fun _ => ?_, fun _ _ => rfl⟩ <;>
    · simp only [upd]; split <;> simp_all

theorem pres_removeChild (o p c : Nat) : Pres o (removeChild cfg p c) := by
  refine pres_getBind fun s => ?_
  split
  · refine ⟨le_refl _, le_refl _, fun _ => ?_, fun _ => ?_, fun _ _ => rfl⟩ <;>
    · simp only [after, set, MonadStateOf.set, EStateM.set, upd]; split <;> simp_all
  · exact Fr.refl o s

theorem pres_addOpt (o d i : Nat) : Pres (V := V) o (addOpt d i) := by
  refine pres_modify fun s => ?_
  split
  · exact Fr.refl o s
  · exact ⟨le_refl _, le_refl _, fun _ => rfl, fun _ => rfl, fun _ _ => rfl⟩

theorem pres_removeOpt (o d i : Nat) : Pres (V := V) o (removeOpt d i) :=
  pres_modify fun _ => ⟨le_refl _, le_refl _, fun _ => rfl, fun _ => rfl, fun _ _ => rfl⟩

theorem pres_newDofs (o : Nat) (a : DofArgs V) : Pres o (newDofs cfg a) := by
  refine pres_getBind fun s => ?_
  cases Dofs.init cfg.ninf cfg.pinf a.x a.names a.free a.lb a.ub
  on_goal 2 => refine pres_set ⟨le_refl _, Nat.le_succ _, fun _ => rfl, fun _ => rfl, fun d hd => ?_⟩ (pres_pure o _)
  · exact Fr.refl o s
  · show (upd s.dof s.ndof _ d).x.length = _
    rw [upd_ne _ _ _ _ (Nat.ne_of_lt hd)]

theorem pres_newWith (o cls d : Nat) (setter : Bool) (depends : List Nat) (dedup : Bool) :
    Pres o (newWith cfg cls d setter depends dedup) := by
  refine pres_getBind fun s => ?_
  refine pres_set ⟨Nat.le_succ _, le_refl _, fun ho => ?_, fun ho => ?_, fun _ _ => rfl⟩ ?_
  · show (upd s.obj s.nobj _ o).parents = _
    rw [upd_ne _ _ _ _ (Nat.ne_of_lt ho)]
  · show (upd s.obj s.nobj _ o).dofs = _
    rw [upd_ne _ _ _ _ (Nat.ne_of_lt ho)]
  · exact pres_bind (pres_forEach (fun p => pres_addChild o p _) _) fun _ => pres_bind (pres_refresh o _) fun _ =>
      pres_bind (pres_addOpt o d _) fun _ => pres_pure o _

theorem pres_new (o cls : Nat) (src : DofSource V) (setter : Bool) (depends : List Nat) (dedup : Bool) :
    Pres o (new cfg cls src setter depends dedup) := by
  cases src with
  | shared d => rw [new_shared_eq]; exact pres_newWith o cls d setter depends dedup
  | fresh a => rw [new_fresh_eq]; exact pres_bind (pres_newDofs o a) fun d => pres_newWith o cls d setter depends dedup

theorem pres_replaceDofs {o i : Nat} (d : Nat) (h : i ≠ o) : Pres o (replaceDofs cfg i d) := by
  refine pres_bind (pres_get o) fun s => pres_bind (pres_removeOpt o _ i) fun _ => pres_bind ?_ fun _ =>
    pres_bind (pres_refresh o i) fun _ => pres_addOpt o d i
  exact pres_modify fun s => fr_setObj s i _ (fun _ => rfl) (fun e => absurd e.symm h)

theorem pres_addParent {o i : Nat} (idx : Int) (p : Nat) (h : i ≠ o) : Pres o (addParent cfg i idx p) := by
  refine pres_getBind fun s => ?_
  split
  · exact Fr.refl o s
  · exact pres_set (fr_setObj s i _ (fun e => absurd e.symm h) (fun _ => rfl))
      (pres_bind (pres_addChild o p i) fun _ => pres_refresh o i)

theorem pres_popParent {o i : Nat} (idx : Int) (h : i ≠ o) : Pres o (popParent cfg i idx) := by
  refine pres_getBind fun s => ?_
  cases pyIndex (s.obj i).parents.length idx with
  | error e => exact Fr.refl o s
  | ok k =>
    simp only []
    cases (s.obj i).parents[k]? with
    | none => exact Fr.refl o s
    | some p =>
      exact pres_set (fr_setObj s i _ (fun e => absurd e.symm h) (fun _ => rfl))
        (pres_bind (pres_removeChild o _ i) fun _ => pres_bind (pres_refresh o i) fun _ => pres_pure o _)

theorem pres_removeParent {o i : Nat} (p : Nat) (h : i ≠ o) : Pres o (removeParent cfg i p) := by
  refine pres_getBind fun s => ?_
  split
  · exact pres_set (fr_setObj s i _ (fun e => absurd e.symm h) (fun _ => rfl))
      (pres_bind (pres_removeChild o _ i) fun _ => pres_refresh o i)
  · exact Fr.refl o s

theorem pres_setLocalX (o i : Nat) (v : List V) : Pres o (setLocalX cfg i v) := by
  refine pres_getBind fun s => ?_
  split
  · exact Fr.refl o s
  · exact pres_bind (pres_onDofs (keeps_setFreeX v) _) (fun _ => pres_flagDofs o _) s

theorem pres_setLocalFullX (o i : Nat) (v : List V) : Pres o (setLocalFullX cfg i v) :=
  pres_bind (pres_get o) fun _ => pres_bind (pres_onDofs (keeps_setFullX v) _) (fun _ => pres_flagDofs o _)

theorem pres_setX (o i : Nat) (v : List V) : Pres o (setX cfg i v) := by
  refine pres_getBind fun s => ?_
  cases lastIndex (s.obj i).freeIdx with
  | error e => exact Fr.refl o s
  | ok n =>
    simp only []
    split
    · exact Fr.refl o s
    · exact pres_forEach (fun e => pres_setLocalX o _ _) _ s

theorem pres_setFullX (o i : Nat) (v : List V) : Pres o (setFullX cfg i v) :=
  pres_bind (pres_get o) fun _ => pres_forEach (fun e => pres_setLocalFullX o _ _) _

theorem pres_maskOp {m : Dofs.M V Unit} (hm : KeepsLen m) (o i : Nat) : Pres o (maskOp cfg i m) :=
  pres_bind (pres_get o) fun _ => pres_bind (pres_bind (pres_onDofs hm _) fun _ => pres_updateOptIndices o _) fun _ =>
    pres_walkM localAct_free i

theorem pres_setBoundsWith {m : List V → Dofs.M V Unit} (hm : ∀ v, KeepsLen (m v)) (o i : Nat) (v : List V) :
    Pres o (setBoundsWith m i v) := by
  refine pres_getBind fun s => ?_
  cases lastIndex (s.obj i).freeIdx with
  | error e => exact Fr.refl o s
  | ok n =>
    simp only []
    split
    · exact Fr.refl o s
    · exact pres_forEach (fun e => pres_bind (pres_get o) fun _ => pres_onDofs (hm _) _) _ s

theorem pres_onLocal {m : Dofs.M V Unit} (hm : KeepsLen m) (o i : Nat) : Pres o (onLocalDofs i m) :=
  pres_bind (pres_get o) fun _ => pres_onDofs hm _

/-- The call leaves the parents and the DOFs object of `o` alone. -/
def Leaves (o : Nat) : Op V → Prop
  | .replaceDofs i _ => i ≠ o
  | .addParent i _ _ => i ≠ o
  | .appendParent i _ => i ≠ o
  | .popParent i _ => i ≠ o
  | .removeParent i _ => i ≠ o
  | _ => True

theorem pres_exec {o : Nat} (op : Op V) (h : Leaves o op) : Pres o (exec cfg op) := by
  cases op with
  | newDofs a => exact pres_bind (pres_newDofs o a) fun _ => pres_pure o ()
  | new cls src setter depends dedup => exact pres_bind (pres_new o cls src setter depends dedup) fun _ => pres_pure o ()
  | replaceDofs i d => exact pres_replaceDofs d h
  | addParent i idx p => exact pres_addParent idx p h
  | appendParent i p => exact pres_bind (pres_get o) fun s => pres_addParent _ p h
  | popParent i idx => exact pres_bind (pres_popParent idx h) fun _ => pres_pure o ()
  | removeParent i p => exact pres_removeParent p h
  | setX i v => exact pres_setX o i v
  | setFullX i v => exact pres_setFullX o i v
  | setLocalX i v => exact pres_setLocalX o i v
  | setLocalFullX i v => exact pres_setLocalFullX o i v
  | setKey i k v => exact pres_bind (pres_get o) fun _ => pres_bind (pres_onDofs (keeps_setKey k v) _) (fun _ => pres_flagDofs o _)
  | fix i k => show Pres o (fix cfg i k); rw [fix_eq]; exact pres_maskOp (keeps_fix k) o i
  | unfix i k => show Pres o (unfix cfg i k); rw [unfix_eq]; exact pres_maskOp (keeps_unfix k) o i
  | localFixAll i => exact pres_maskOp keeps_fixAll o i
  | localUnfixAll i => exact pres_maskOp keeps_unfixAll o i
  | fixAll i => exact pres_bind (pres_get o) fun _ => pres_forEach (fun a => pres_maskOp keeps_fixAll o a) _
  | unfixAll i => exact pres_bind (pres_get o) fun _ => pres_forEach (fun a => pres_maskOp keeps_unfixAll o a) _
  | fullFix i arr =>
    exact pres_bind (pres_get o) fun _ => pres_forEach (fun e => pres_bind (pres_get o) fun _ =>
      pres_bind (pres_onDofs (keeps_assignFree _) _) fun _ => pres_updateOptIndices o _) _
  | fullUnfix i arr =>
    exact pres_bind (pres_get o) fun _ => pres_forEach (fun e => pres_bind (pres_get o) fun _ =>
      pres_bind (pres_onDofs (keeps_assignFree _) _) fun _ => pres_updateOptIndices o _) _
  | bounds i b =>
    cases b with
    | lb v => exact pres_setBoundsWith keeps_setFreeLb o i v
    | ub v => exact pres_setBoundsWith keeps_setFreeUb o i v
    | fullLb v => exact pres_setBoundsWith (fun _ => keeps_attr) o i v
    | fullUb v => exact pres_setBoundsWith (fun _ => keeps_attr) o i v
    | localLb v => exact pres_onLocal (keeps_setFreeLb v) o i
    | localUb v => exact pres_onLocal (keeps_setFreeUb v) o i
    | localFullLb v => exact pres_onLocal keeps_attr o i
    | localFullUb v => exact pres_onLocal keeps_attr o i
    | lbKey k v => exact pres_onLocal (keeps_updateLb k v) o i
    | ubKey k v => exact pres_onLocal (keeps_updateUb k v) o i
  | gc i =>
    refine pres_modify fun s => ?_
    split
    · exact Fr.refl o s
    · exact ⟨le_refl _, le_refl _, fun _ => rfl, fun _ => rfl, fun _ _ => rfl⟩
  | clearNewX i => exact pres_modify fun s => fr_setObj s i _ (fun _ => rfl) (fun _ => rfl)

end Simsopt.MakeOpt
