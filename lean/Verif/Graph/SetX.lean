import Verif.Graph.Values
/-! Helper lemmas: assigning whole state vectors and bounds through a lineage. -/
set_option linter.unusedSimpArgs false
namespace Simsopt.Graph
variable {V : Type} {cfg : Cfg V}

/-- After the call (returned or raised, other than `RecursionError`) `I` holds. -/
def Out (m : M V α) (s : State V) (I : State V → Prop) : Prop :=
  match m s with
  | .ok _ s' => I s'
  | .error e s' => e = .recursionError ∨ I s'

theorem Out.forEach {I : State V → Prop} {f : α → M V Unit} (l : List α)
    (h : ∀ a ∈ l, ∀ s, I s → Out (f a) s I) : ∀ s, I s → Out (Graph.forEach l f) s I := by
  induction l with
  | nil => intro s hs; exact hs
  | cons a l ih =>
    intro s hs
    unfold Out
    rw [forEach_cons]
    have h1 := h a List.mem_cons_self s hs
    unfold Out at h1
    cases hf : f a s with
    | ok u s' => rw [hf] at h1; exact ih (fun a ha => h a (List.mem_cons_of_mem _ ha)) s' h1
    | error e s' => rw [hf] at h1; exact h1

theorem out_valAct {m : Dofs.M V Unit} (hm : ValMethod m) (d : Nat) (s0 s : State V)
    (h : Inv cfg s ∧ ValRel s0 s) : Out (valAct cfg d m) s (fun s' => Inv cfg s' ∧ ValRel s0 s') := by
  unfold Out
  rcases valAct_spec cfg hm d s h.1 with ⟨s', e, _⟩ | ⟨e, _, h2, _⟩ | ⟨r, s', _, h2, _, vr, iv, _⟩
  · rw [e]; exact Or.inl rfl
  · rw [h2]; exact Or.inr h
  · rw [h2]; exact ⟨iv, h.2.trans vr⟩

theorem out_setLocalX (i : Nat) (v : List V) (s0 s : State V)
    (h : Inv cfg s ∧ ValRel s0 s) : Out (setLocalX cfg i v) s (fun s' => Inv cfg s' ∧ ValRel s0 s') := by
  have := out_valAct (cfg := cfg) (val_setFreeX v) (s.obj i).dofs s0 s h
  unfold Out at this ⊢
  rw [setLocalX_eq]
  by_cases hl : localSize s i = v.length
  · simp only [hl, ne_eq, not_true_eq_false, if_false]; exact this
  · simp only [hl, ne_eq, not_false_eq_true, if_true]; exact Or.inr h

theorem out_setLocalFullX (i : Nat) (v : List V) (s0 s : State V)
    (h : Inv cfg s ∧ ValRel s0 s) : Out (setLocalFullX cfg i v) s (fun s' => Inv cfg s' ∧ ValRel s0 s') := by
  have := out_valAct (cfg := cfg) (val_setFullX v) (s.obj i).dofs s0 s h
  unfold Out at this ⊢
  rw [setLocalFullX_eq]; exact this

theorem out_setKey (i : Nat) (k : Key) (v : V) (s0 s : State V)
    (h : Inv cfg s ∧ ValRel s0 s) : Out (setKey cfg i k v) s (fun s' => Inv cfg s' ∧ ValRel s0 s') := by
  have := out_valAct (cfg := cfg) (val_setKey k v) (s.obj i).dofs s0 s h
  unfold Out at this ⊢
  rw [setKey_eq]; exact this

theorem setX_eq (cfg : Cfg V) (i : Nat) (v : List V) (s : State V) :
    setX cfg i v s = match lastIndex (s.obj i).freeIdx with
      | .error e => .error e s
      | .ok n => if n ≠ v.length then .error .valueError s
        else forEach (s.obj i).freeIdx (fun e => setLocalX cfg e.1 (pySlice v e.2.1 e.2.2)) s := by
  unfold setX
  simp only [run_bind, run_get]
  cases lastIndex (s.obj i).freeIdx with
  | error e => rfl
  | ok n =>
    simp only
    by_cases h : n = v.length
    · simp only [h, ne_eq, not_true_eq_false, if_false]
    · simp only [ne_eq, h, not_false_eq_true, if_true]; rfl

theorem out_setX (i : Nat) (v : List V) (s : State V) (h : Inv cfg s) :
    Out (setX cfg i v) s (fun s' => Inv cfg s' ∧ ValRel s s') := by
  unfold Out
  rw [setX_eq]
  cases lastIndex (s.obj i).freeIdx with
  | error e => exact Or.inr ⟨h, ValRel.refl s⟩
  | ok n =>
    simp only
    split
    · rename_i h2; split at h2
      · cases h2
      · have := Out.forEach (I := fun s' => Inv cfg s' ∧ ValRel s s') (s.obj i).freeIdx
          (fun a _ t ht => out_setLocalX (cfg := cfg) a.1 (pySlice v a.2.1 a.2.2) s t ht) s ⟨h, ValRel.refl s⟩
        unfold Out at this; rw [h2] at this; exact this
    · rename_i h2; split at h2
      · cases h2; exact Or.inr ⟨h, ValRel.refl s⟩
      · have := Out.forEach (I := fun s' => Inv cfg s' ∧ ValRel s s') (s.obj i).freeIdx
          (fun a _ t ht => out_setLocalX (cfg := cfg) a.1 (pySlice v a.2.1 a.2.2) s t ht) s ⟨h, ValRel.refl s⟩
        unfold Out at this; rw [h2] at this; exact this

theorem setFullX_eq (cfg : Cfg V) (i : Nat) (v : List V) (s : State V) :
    setFullX cfg i v s =
      forEach (s.obj i).fullIdx (fun e => setLocalFullX cfg e.1 (pySlice v e.2.1 e.2.2)) s := rfl

theorem out_setFullX (i : Nat) (v : List V) (s : State V) (h : Inv cfg s) :
    Out (setFullX cfg i v) s (fun s' => Inv cfg s' ∧ ValRel s s') := by
  have := Out.forEach (I := fun s' => Inv cfg s' ∧ ValRel s s') (s.obj i).fullIdx
          (fun a _ t ht => out_setLocalFullX (cfg := cfg) a.1 (pySlice v a.2.1 a.2.2) s t ht) s ⟨h, ValRel.refl s⟩
  unfold Out at this ⊢
  rw [setFullX_eq]; exact this

/-! ### exact effect of `x = v` -/

theorem setFreeX_ok (r : Dofs V) (v : List V) (h : v.length = r.numFree) :
    Dofs.setFreeX v r = .ok () { r with x := scatter r.free r.x v } := by
  simp [Dofs.setFreeX, Dofs.reducedLen_eq, h, get, getThe, MonadStateOf.get, EStateM.get, bind, EStateM.bind,
        set, MonadStateOf.set, EStateM.set, pure, EStateM.pure]

theorem setFullX_ok (r : Dofs V) (v : List V) (h : v.length = r.x.length) :
    Dofs.setFullX v r = .ok () { r with x := v } := by
  simp [Dofs.setFullX, h, get, getThe, MonadStateOf.get, EStateM.get, bind, EStateM.bind,
        set, MonadStateOf.set, EStateM.set, pure, EStateM.pure]

theorem localSize_eq (s : State V) (o : Nat) : localSize s o = (s.dof (s.obj o).dofs).numFree :=
  Dofs.reducedLen_eq _

theorem pySlice_length (v : List V) (a n : Nat) (h : a + n ≤ v.length) : (pySlice v a (a + n)).length = n := by
  unfold pySlice; simp; omega

theorem pySlice_append_drop (v : List V) (a n : Nat) :
    pySlice v a (a + n) ++ v.drop (a + n) = v.drop a := by
  unfold pySlice
  have h : (v.take (a + n)).drop a = (v.drop a).take n := by
    rw [List.drop_take]; congr 1; omega
  rw [h, ← List.drop_drop, List.take_append_drop]

/-- The loop of the `x` setter, started anywhere in the lineage list. -/
theorem setXLoop (v : List V) : ∀ (opts : List Nat) (a : Nat) (s : State V), Inv cfg s →
    ((opts.map (fun o => (s.obj o).dofs)).Nodup) → v.length = a + (opts.map (localSize s)).sum →
    (∃ s', forEach (opts.zip (offsetPairs a (opts.map (localSize s))))
      (fun e => setLocalX cfg e.1 (pySlice v e.2.1 e.2.2)) s = .error .recursionError s' ∧ ¬ Shallow cfg s) ∨
    (∃ s', forEach (opts.zip (offsetPairs a (opts.map (localSize s))))
      (fun e => setLocalX cfg e.1 (pySlice v e.2.1 e.2.2)) s = .ok () s' ∧ Inv cfg s' ∧ ValRel s s' ∧
      opts.flatMap (fun o => (s'.dof (s.obj o).dofs).freeX) = v.drop a ∧
      (∀ d, d ∉ opts.map (fun o => (s.obj o).dofs) → s'.dof d = s.dof d) ∧
      (∀ d, Dofs.SameButX (s.dof d) (s'.dof d) ∧ (s'.dof d).x.length = (s.dof d).x.length ∧
        ∀ i : Nat, (s.dof d).free[i]? = some false → (s'.dof d).x[i]? = (s.dof d).x[i]?) ∧
      (∀ o ∈ opts, ∀ k ∈ s.deps (s.obj o).dofs, s.alive k = true → ∀ j, Desc s k j → Told s s' j)) := by
  intro opts
  induction opts with
  | nil =>
    intro a s hi _ hv
    right
    refine ⟨s, rfl, hi, ValRel.refl s, ?_, fun _ _ => rfl,
      fun d => ⟨⟨rfl, rfl, rfl, rfl⟩, rfl, fun _ _ => rfl⟩, fun o ho => by simp at ho⟩
    simp at hv
    simp [hv]
  | cons o opts ih =>
    intro a s hi hnd hv
    simp only [List.map_cons, offsetPairs, List.zip_cons_cons, forEach_cons]
    simp only [List.map_cons, List.nodup_cons] at hnd
    simp only [List.map_cons, List.sum_cons] at hv
    have hlen : (pySlice v a (a + localSize s o)).length = localSize s o := pySlice_length v a _ (by omega)
    have hnf : (pySlice v a (a + localSize s o)).length = (s.dof (s.obj o).dofs).numFree := by
      rw [hlen, localSize_eq]
    rw [setLocalX_eq, hlen]
    simp only [ne_eq, not_true_eq_false, if_false]
    rcases valAct_spec cfg (val_setFreeX (pySlice v a (a + localSize s o))) (s.obj o).dofs s hi with
      ⟨s', e, hns⟩ | ⟨e, _, _, h3⟩ | ⟨r, s1, hm, h1, hd1, vr1, iv1, td1⟩
    · left; exact ⟨s', by rw [e], hns⟩
    · rw [setFreeX_ok _ _ hnf] at h3; cases h3
    · rw [h1]
      simp only
      rw [setFreeX_ok _ _ hnf] at hm
      cases hm
      have hls : localSize s1 = localSize s := vr1.localSize
      have hdo : ∀ o, (s1.obj o).dofs = (s.obj o).dofs := vr1.dofs
      have hrest := ih (a + localSize s o) s1 iv1 (by simpa [hdo] using hnd.2) (by rw [hls]; omega)
      rw [hls] at hrest
      rcases hrest with ⟨s', e, hns⟩ | ⟨s2, h2, iv2, vr2, fx2, fr2, sm2, td2⟩
      · left; exact ⟨s', e, fun hsh => hns (vr1.shallow hsh)⟩
      · right
        simp only [hdo] at fx2 fr2 td2
        have hdo2 : s2.dof (s.obj o).dofs = s1.dof (s.obj o).dofs := fr2 _ hnd.1
        have hs1o : s1.dof (s.obj o).dofs = { s.dof (s.obj o).dofs with
            x := scatter (s.dof (s.obj o).dofs).free (s.dof (s.obj o).dofs).x (pySlice v a (a + localSize s o)) } := by
          rw [hd1, upd_same]
        refine ⟨s2, h2, iv2, vr1.trans vr2, ?_, ?_, ?_, ?_⟩
        · simp only [List.flatMap_cons]
          rw [fx2, hdo2, hs1o]
          have : Dofs.freeX { s.dof (s.obj o).dofs with
            x := scatter (s.dof (s.obj o).dofs).free (s.dof (s.obj o).dofs).x (pySlice v a (a + localSize s o)) }
              = pySlice v a (a + localSize s o) :=
            gather_scatter _ _ _ (hi.dofs.wf _).free_len hnf
          rw [this]
          exact pySlice_append_drop v a _
        · intro d hd
          simp only [List.map_cons, List.mem_cons, not_or] at hd
          rw [fr2 d hd.2, hd1, upd_ne _ _ _ _ hd.1]
        · intro d
          obtain ⟨⟨q1, q2, q3, q4⟩, q5, q6⟩ := sm2 d
          have hsd : Dofs.SameButX (s.dof d) (s1.dof d) ∧ (s1.dof d).x.length = (s.dof d).x.length ∧
              ∀ i : Nat, (s.dof d).free[i]? = some false → (s1.dof d).x[i]? = (s.dof d).x[i]? := by
            rw [hd1]
            by_cases hdd : d = (s.obj o).dofs
            · subst hdd
              rw [upd_same]
              exact ⟨⟨rfl, rfl, rfl, rfl⟩, scatter_length _ _ _, fun i hi => scatter_fixed _ _ _ _ hi⟩
            · rw [upd_ne _ _ _ _ hdd]; exact ⟨⟨rfl, rfl, rfl, rfl⟩, rfl, fun _ _ => rfl⟩
          obtain ⟨⟨p1, p2, p3, p4⟩, p5, p6⟩ := hsd
          refine ⟨⟨q1.trans p1, q2.trans p2, q3.trans p3, q4.trans p4⟩, q5.trans p5, fun i hi => ?_⟩
          rw [q6 i (by rw [p2]; exact hi), p6 i hi]
        · intro o' ho' k hk ha j hj
          rcases List.mem_cons.mp ho' with e | ho'
          · subst e
            have := td1 k hk ha j hj
            exact ⟨vr2.flag.newX j this.1, lt_of_lt_of_le this.2 (vr2.flag.bells j)⟩
          · have := td2 o' ho' k (by rw [vr1.deps]; exact hk) (by rw [vr1.alive]; exact ha) j
              (by rw [vr1.desc]; exact hj)
            exact ⟨this.1, lt_of_le_of_lt (vr1.flag.bells j) this.2⟩

/-- The loop of the `full_x` setter. -/
theorem setFullXLoop (v : List V) : ∀ (opts : List Nat) (a : Nat) (s : State V), Inv cfg s →
    ((opts.map (fun o => (s.obj o).dofs)).Nodup) → a + (opts.map (localFullSize s)).sum ≤ v.length →
    (∃ s', forEach (opts.zip (offsetPairs a (opts.map (localFullSize s))))
      (fun e => setLocalFullX cfg e.1 (pySlice v e.2.1 e.2.2)) s = .error .recursionError s' ∧ ¬ Shallow cfg s) ∨
    (∃ s', forEach (opts.zip (offsetPairs a (opts.map (localFullSize s))))
      (fun e => setLocalFullX cfg e.1 (pySlice v e.2.1 e.2.2)) s = .ok () s' ∧ Inv cfg s' ∧ ValRel s s' ∧
      opts.flatMap (fun o => (s'.dof (s.obj o).dofs).x) = (v.take (a + (opts.map (localFullSize s)).sum)).drop a ∧
      (∀ d, d ∉ opts.map (fun o => (s.obj o).dofs) → s'.dof d = s.dof d) ∧
      (∀ d, Dofs.SameButX (s.dof d) (s'.dof d))) := by
  intro opts
  induction opts with
  | nil =>
    intro a s hi _ hv
    right
    refine ⟨s, rfl, hi, ValRel.refl s, ?_, fun _ _ => rfl, fun d => ⟨rfl, rfl, rfl, rfl⟩⟩
    simp
  | cons o opts ih =>
    intro a s hi hnd hv
    simp only [List.map_cons, offsetPairs, List.zip_cons_cons, forEach_cons]
    simp only [List.map_cons, List.nodup_cons] at hnd
    simp only [List.map_cons, List.sum_cons] at hv
    have hlen : (pySlice v a (a + localFullSize s o)).length = localFullSize s o := pySlice_length v a _ (by omega)
    have hnf : (pySlice v a (a + localFullSize s o)).length = (s.dof (s.obj o).dofs).x.length := by
      rw [hlen, ← (hi.dofs.wf _).free_len]; rfl
    rw [setLocalFullX_eq]
    rcases valAct_spec cfg (val_setFullX (pySlice v a (a + localFullSize s o))) (s.obj o).dofs s hi with
      ⟨s', e, hns⟩ | ⟨e, _, _, h3⟩ | ⟨r, s1, hm, h1, hd1, vr1, iv1, td1⟩
    · left; exact ⟨s', by rw [e], hns⟩
    · rw [setFullX_ok _ _ hnf] at h3; cases h3
    · rw [h1]
      simp only
      rw [setFullX_ok _ _ hnf] at hm
      cases hm
      have hls : localFullSize s1 = localFullSize s := vr1.localFullSize
      have hdo : ∀ o, (s1.obj o).dofs = (s.obj o).dofs := vr1.dofs
      have hrest := ih (a + localFullSize s o) s1 iv1 (by simpa [hdo] using hnd.2) (by rw [hls]; omega)
      rw [hls] at hrest
      rcases hrest with ⟨s', e, hns⟩ | ⟨s2, h2, iv2, vr2, fx2, fr2, sm2⟩
      · left; exact ⟨s', e, fun hsh => hns (vr1.shallow hsh)⟩
      · right
        simp only [hdo] at fx2 fr2
        have hdo2 : s2.dof (s.obj o).dofs = s1.dof (s.obj o).dofs := fr2 _ hnd.1
        refine ⟨s2, h2, iv2, vr1.trans vr2, ?_, ?_, ?_⟩
        · simp only [List.flatMap_cons, List.sum_cons]
          rw [fx2, hdo2, hd1, upd_same]
          have := pySlice_append_drop (v.take (a + (localFullSize s o + (opts.map (localFullSize s)).sum))) a (localFullSize s o)
          rw [← this, ← Nat.add_assoc]
          congr 1
          unfold pySlice
          rw [List.take_take, Nat.min_eq_left (by omega)]
        · intro d hd
          simp only [List.map_cons, List.mem_cons, not_or] at hd
          rw [fr2 d hd.2, hd1, upd_ne _ _ _ _ hd.1]
        · intro d
          obtain ⟨q1, q2, q3, q4⟩ := sm2 d
          have hsd : Dofs.SameButX (s.dof d) (s1.dof d) := by
            rw [hd1]
            by_cases hdd : d = (s.obj o).dofs
            · subst hdd; rw [upd_same]; exact ⟨rfl, rfl, rfl, rfl⟩
            · rw [upd_ne _ _ _ _ hdd]; exact ⟨rfl, rfl, rfl, rfl⟩
          obtain ⟨p1, p2, p3, p4⟩ := hsd
          exact ⟨q1.trans p1, q2.trans p2, q3.trans p3, q4.trans p4⟩

/-! ### bounds -/

theorem valRel_withDof_bounds {s : State V} {d : Nat} {r : Dofs V} (h1 : r.free = (s.dof d).free)
    (h2 : r.names = (s.dof d).names) (h3 : r.x = (s.dof d).x) : ValRel s (s.withDof d r) := by
  have hx : ∀ d', ((s.withDof d r).dof d').x = (s.dof d').x := by
    intro d'
    unfold State.withDof upd; simp only; split
    · rename_i e; rw [h3, e]
    · rfl
  refine ⟨FlagRel.refl _, ?_, ?_, ?_⟩
  · intro d'
    unfold State.withDof upd; simp only; split
    · rename_i e; rw [h1, h2, e]; exact ⟨rfl, rfl⟩
    · exact ⟨rfl, rfl⟩
  · intro d' hd'; exact absurd (hx d') hd'
  · intro j _ _ _ _ hext
    show (s.obj j).ext = ((s.withDof d r).dof (s.obj j).dofs).x
    rw [hx]; exact hext

/-- A bound setter: never touches values. -/
structure BoundMethod (m : Dofs.M V Unit) : Prop extends ValMethod m where
  x : ∀ r r', m r = .ok () r' → r'.x = r.x

theorem out_onDofs_bound {m : Dofs.M V Unit} (hm : BoundMethod m) (d : Nat) (s0 s : State V)
    (h : Inv cfg s ∧ ValRel s0 s) : Out (onDofs d m) s (fun s' => Inv cfg s' ∧ ValRel s0 s') := by
  unfold Out
  rcases onDofs_cases hm.toValMethod d s with ⟨a, r, h1, h2⟩ | ⟨e, h1, h2, h3⟩
  · rw [h2]
    obtain ⟨m1, m2, m3⟩ := hm.ok _ _ _ h1
    exact ⟨h.1.withDof (m3 (h.1.dofs.wf d)) m1, h.2.trans (valRel_withDof_bounds m1 m2 (hm.x _ _ h1))⟩
  · rw [h2]; exact Or.inr h

theorem bnd_setFreeLb (v : List V) : BoundMethod (Dofs.setFreeLb v) := by
  refine ⟨val_setFreeLb v, ?_⟩
  intro r r' h
  by_cases hl : v.length = r.numFree
  · simp [Dofs.setFreeLb, Dofs.reducedLen_eq, hl, get, getThe, MonadStateOf.get, EStateM.get, bind, EStateM.bind,
        set, MonadStateOf.set, EStateM.set, pure, EStateM.pure] at h
    subst h; rfl
  · simp [Dofs.setFreeLb, Dofs.reducedLen_eq, Ne.symm hl, get, getThe, MonadStateOf.get, EStateM.get, bind, EStateM.bind,
        throw, throwThe, MonadExceptOf.throw, EStateM.throw] at h

theorem bnd_setFreeUb (v : List V) : BoundMethod (Dofs.setFreeUb v) := by
  refine ⟨val_setFreeUb v, ?_⟩
  intro r r' h
  by_cases hl : v.length = r.numFree
  · simp [Dofs.setFreeUb, Dofs.reducedLen_eq, hl, get, getThe, MonadStateOf.get, EStateM.get, bind, EStateM.bind,
        set, MonadStateOf.set, EStateM.set, pure, EStateM.pure] at h
    subst h; rfl
  · simp [Dofs.setFreeUb, Dofs.reducedLen_eq, Ne.symm hl, get, getThe, MonadStateOf.get, EStateM.get, bind, EStateM.bind,
        throw, throwThe, MonadExceptOf.throw, EStateM.throw] at h

theorem bnd_setFullLb (v : List V) : BoundMethod (Dofs.setFullLb v) :=
  ⟨val_attr, by intro r r' h; simp [Dofs.setFullLb, throw, throwThe, MonadExceptOf.throw, EStateM.throw] at h⟩
theorem bnd_setFullUb (v : List V) : BoundMethod (Dofs.setFullUb v) :=
  ⟨val_attr, by intro r r' h; simp [Dofs.setFullUb, throw, throwThe, MonadExceptOf.throw, EStateM.throw] at h⟩

theorem bnd_updateLb (k : Key) (v : V) : BoundMethod (Dofs.updateLb k v) := by
  refine ⟨val_updateLb k v, ?_⟩
  intro r r' h
  cases hr : r.resolve k with
  | ok i =>
    simp [Dofs.updateLb, hr, Dofs.liftE, get, getThe, MonadStateOf.get, EStateM.get, bind, EStateM.bind,
        set, MonadStateOf.set, EStateM.set] at h
    subst h; rfl
  | error e =>
    simp [Dofs.updateLb, hr, Dofs.liftE, get, getThe, MonadStateOf.get, EStateM.get, bind, EStateM.bind] at h

theorem bnd_updateUb (k : Key) (v : V) : BoundMethod (Dofs.updateUb k v) := by
  refine ⟨val_updateUb k v, ?_⟩
  intro r r' h
  cases hr : r.resolve k with
  | ok i =>
    simp [Dofs.updateUb, hr, Dofs.liftE, get, getThe, MonadStateOf.get, EStateM.get, bind, EStateM.bind,
        set, MonadStateOf.set, EStateM.set] at h
    subst h; rfl
  | error e =>
    simp [Dofs.updateUb, hr, Dofs.liftE, get, getThe, MonadStateOf.get, EStateM.get, bind, EStateM.bind] at h

theorem setBoundsWith_eq (m : List V → Dofs.M V Unit) (i : Nat) (v : List V) (s : State V) :
    setBoundsWith m i v s = match lastIndex (s.obj i).freeIdx with
      | .error e => .error e s
      | .ok n => if n ≠ v.length then .error .valueError s
        else forEach (s.obj i).freeIdx
          (fun e => do let s ← get; onDofs (s.obj e.1).dofs (m (pySlice v e.2.1 e.2.2))) s := by
  unfold setBoundsWith
  simp only [run_bind, run_get]
  cases lastIndex (s.obj i).freeIdx with
  | error e => rfl
  | ok n =>
    simp only
    by_cases h : n = v.length
    · simp only [h, ne_eq, not_true_eq_false, if_false]
    · simp only [ne_eq, h, not_false_eq_true, if_true]; rfl

theorem out_setBoundsWith {m : List V → Dofs.M V Unit} (hm : ∀ v, BoundMethod (m v)) (i : Nat) (v : List V)
    (s : State V) (h : Inv cfg s) : Out (setBoundsWith m i v) s (fun s' => Inv cfg s' ∧ ValRel s s') := by
  have hloop := Out.forEach (I := fun s' => Inv cfg s' ∧ ValRel s s') (s.obj i).freeIdx
    (f := fun e => do let s ← get; onDofs (s.obj e.1).dofs (m (pySlice v e.2.1 e.2.2)))
    (fun a _ t ht => by
      have := out_onDofs_bound (cfg := cfg) (hm (pySlice v a.2.1 a.2.2)) (t.obj a.1).dofs s t ht
      exact this) s ⟨h, ValRel.refl s⟩
  unfold Out at hloop ⊢
  rw [setBoundsWith_eq]
  cases lastIndex (s.obj i).freeIdx with
  | error e => exact Or.inr ⟨h, ValRel.refl s⟩
  | ok n =>
    simp only
    by_cases hn : n = v.length
    · simp only [hn, ne_eq, not_true_eq_false, if_false]; exact hloop
    · simp only [ne_eq, hn, not_false_eq_true, if_true]; exact Or.inr ⟨h, ValRel.refl s⟩

theorem out_execBound (i : Nat) (b : BoundOp V) (s : State V) (h : Inv cfg s) :
    Out (execBound i b) s (fun s' => Inv cfg s' ∧ ValRel s s') := by
  cases b with
  | lb v => exact out_setBoundsWith bnd_setFreeLb i v s h
  | ub v => exact out_setBoundsWith bnd_setFreeUb i v s h
  | fullLb v => exact out_setBoundsWith bnd_setFullLb i v s h
  | fullUb v => exact out_setBoundsWith bnd_setFullUb i v s h
  | localLb v => exact out_onDofs_bound (bnd_setFreeLb v) _ s s ⟨h, ValRel.refl s⟩
  | localUb v => exact out_onDofs_bound (bnd_setFreeUb v) _ s s ⟨h, ValRel.refl s⟩
  | localFullLb v => exact out_onDofs_bound (bnd_setFullLb v) _ s s ⟨h, ValRel.refl s⟩
  | localFullUb v => exact out_onDofs_bound (bnd_setFullUb v) _ s s ⟨h, ValRel.refl s⟩
  | lbKey k v => exact out_onDofs_bound (bnd_updateLb k v) _ s s ⟨h, ValRel.refl s⟩
  | ubKey k v => exact out_onDofs_bound (bnd_updateUb k v) _ s s ⟨h, ValRel.refl s⟩

end Simsopt.Graph
