import Verif.Graph.Create
/-! Helper lemmas: every reachable store satisfies the invariant. -/
set_option linter.unusedSimpArgs false
namespace Simsopt.Graph
variable {V : Type} {cfg : Cfg V}

theorem inv_empty : Inv cfg (State.empty : State V) := by
  refine ⟨⟨?_, ?_, ?_, ?_, ?_, ?_, ?_, ?_⟩, ⟨?_, ?_, ?_, ?_, ?_, ?_, ?_⟩, ?_, ?_, ?_⟩
  · intro j hj; cases hj
  · intro p _; rfl
  · intro p c hc; simp [State.empty, blankObj] at hc
  · intro p; simp [State.empty, blankObj]
  · intro j hj; exact absurd hj (Nat.not_lt_zero j)
  · intro i j hi; exact absurd hi (Nat.not_lt_zero i)
  · intro c p hc; cases hc
  · intro c p hc; cases hc
  · intro d; exact ⟨rfl, rfl, rfl, rfl, by simp [State.empty]⟩
  · intro j hj; cases hj
  · intro d o ho; simp [State.empty] at ho
  · intro d _; rfl
  · intro o ho; cases ho
  · intro o d ho; cases ho
  · intro d; simp [State.empty]
  · exact ⟨fun a => Acc.intro _ (fun b hb => by cases hb.1)⟩
  · intro j hj; cases hj
  · intro j hj; cases hj

/-- Effect of `self.new_x = False`. -/
def Cleared (s s' : State V) : Prop := ∃ i, s' = s.setObj i { s.obj i with newX := false }

theorem Cleared.field {s s' : State V} (h : Cleared s s') {α : Type} (g : Obj V → α)
    (hg : ∀ o b, g { o with newX := b } = g o) (j : Nat) : g (s'.obj j) = g (s.obj j) := by
  obtain ⟨i, rfl⟩ := h
  by_cases hj : j = i
  · subst hj; simp only [State.setObj, upd_same]; exact hg _ _
  · simp only [State.setObj, upd_ne _ _ _ _ hj]

theorem Cleared.static {s s' : State V} (h : Cleared s s') : Static s s' := by
  refine ⟨?_, ?_, ?_, ?_, ?_, ?_, fun j => h.field Obj.core (fun _ _ => rfl) j⟩ <;> (obtain ⟨i, rfl⟩ := h; rfl)

theorem Cleared.inv {s s' : State V} (h : Cleared s s') (hi : Inv cfg s) : Inv cfg s' := by
  have hst := h.static
  refine ⟨hi.graph.static hst, hi.dofs.static hst, by rw [hst.parent]; exact hi.acyclic, ?_, ?_⟩
  · intro j hj; rw [hst.alive] at hj
    exact (hi.full j hj).of_fields hst (fun j => ⟨h.field Obj.anc (fun _ _ => rfl) j, h.field Obj.uniq (fun _ _ => rfl) j,
      h.field Obj.fullSize (fun _ _ => rfl) j, h.field Obj.fullIdx (fun _ _ => rfl) j⟩)
  · intro j hj; rw [hst.alive] at hj
    exact (hi.free j hj).congr hst (h.field Obj.uniq (fun _ _ => rfl) j) (h.field Obj.freeSize (fun _ _ => rfl) j)
      (h.field Obj.freeIdx (fun _ _ => rfl) j)

/-- Outcome of any admissible call. -/
def StepOK (cfg : Cfg V) (s s' : State V) : Prop :=
  Inv cfg s' ∧ (ValRel s s' ∨ MaskRel s s' ∨ Kept s s' ∨ Cleared s s')

theorem Out.of_step {m : M V Unit} {s s' : State V} {I : State V → Prop} (h : Out m s I)
    (hs : m s = .ok () s' ∨ ∃ e, e ≠ Err.recursionError ∧ m s = .error e s') : I s' := by
  unfold Out at h
  rcases hs with hs | ⟨e, hne, hs⟩
  · rw [hs] at h; exact h
  · rw [hs] at h; exact h.resolve_left hne

theorem Out.mono {α : Type} {m : M V α} {s : State V} {I J : State V → Prop} (h : Out m s I) (hij : ∀ t, I t → J t) : Out m s J := by
  unfold Out at h ⊢
  cases hm : m s with
  | ok a t => rw [hm] at h; exact hij t h
  | error e t => rw [hm] at h; exact h.imp id (hij t)

theorem discard_run {α : Type} (m : M V α) (s : State V) : (do discard m : M V Unit) s =
    (match m s with | .ok _ s' => .ok () s' | .error e s' => .error e s') := by
  show EStateM.map (fun _ => ()) m s = _
  unfold EStateM.map; cases m s <;> rfl

theorem out_discard {α : Type} {m : M V α} {s : State V} {I : State V → Prop} (h : Out m s I) :
    Out (do discard m : M V Unit) s I := by
  unfold Out at h ⊢
  rw [discard_run]
  cases hm : m s with
  | ok a t => rw [hm] at h; exact h
  | error e t => rw [hm] at h; exact h

theorem out_exec (hn : NameInj cfg) (hsh : ShuffleOK cfg) (op : Op V) (s : State V) (h : Inv cfg s) (hsafe : op.Safe s) :
    Out (exec cfg op) s (StepOK cfg s) := by
  have val : ∀ {m : M V Unit}, Out m s (fun s' => Inv cfg s' ∧ ValRel s s') → Out m s (StepOK cfg s) :=
    fun hm => hm.mono (fun t ht => ⟨ht.1, Or.inl ht.2⟩)
  have msk : ∀ {m : M V Unit}, Out m s (fun s' => Inv cfg s' ∧ MaskRel s s') → Out m s (StepOK cfg s) :=
    fun hm => hm.mono (fun t ht => ⟨ht.1, Or.inr (Or.inl ht.2)⟩)
  have same : StepOK cfg s s := ⟨h, Or.inl (ValRel.refl s)⟩
  have rv : Inv cfg s ∧ ValRel s s := ⟨h, ValRel.refl s⟩
  have rm : Inv cfg s ∧ MaskRel s s := ⟨h, MaskRel.refl s⟩
  cases op with
  | newDofs a =>
    apply out_discard
    unfold Out
    rcases newDofs_spec hn a s h with ⟨e, _, h1⟩ | ⟨r, _, h1, h2⟩
    · rw [h1]; exact Or.inr same
    · rw [h1]; exact ⟨h2, Or.inr (Or.inr (Or.inl (newDofs_kept s r)))⟩
  | new cls src setter depends dedup =>
    apply out_discard
    unfold Out
    cases src with
    | shared d =>
      rw [new_shared_eq]
      rcases newWith_spec hn hsh cls d setter depends dedup s h hsafe.2 hsafe.1 with ⟨s', e⟩ | ⟨ps, s', _, e, ok⟩
      · rw [e]; exact Or.inl rfl
      · rw [e]; exact ⟨ok.1, Or.inr (Or.inr (Or.inl ok.2.1))⟩
    | fresh a =>
      rw [new_fresh_eq, run_bind]
      rcases newDofs_spec hn a s h with ⟨e, _, h1⟩ | ⟨r, _, h1, h2⟩
      · rw [h1]; exact Or.inr same
      · rw [h1]
        simp only
        rcases newWith_spec hn hsh cls s.ndof setter depends dedup _ h2 (Nat.lt_succ_self _) hsafe.1 with ⟨s', e⟩ | ⟨ps, s', _, e, ok⟩
        · rw [e]; exact Or.inl rfl
        · rw [e]; exact ⟨ok.1, Or.inr (Or.inr (Or.inl ((newDofs_kept s r).trans ok.2.1)))⟩
  | replaceDofs i d =>
    show Out (replaceDofs cfg i d) s _
    unfold Out
    rcases replaceDofs_spec hn i d s h hsafe.1 hsafe.2 with ⟨s', e, _⟩ | ⟨s', e, ok⟩
    · rw [e]; exact Or.inl rfl
    · rw [e]; exact ⟨ok.1, Or.inr (Or.inr (Or.inl ok.2.1))⟩
  | addParent i idx p =>
    show Out (addParent cfg i idx p) s _
    unfold Out
    rcases addParent_spec hn hsh i idx p s h hsafe.1 hsafe.2 with ⟨s', e⟩ | ⟨_, e⟩ | ⟨_, s', e, ok⟩
    · rw [e]; exact Or.inl rfl
    · rw [e]; exact same
    · rw [e]; exact ⟨ok.1, Or.inr (Or.inr (Or.inl ok.2.1))⟩
  | appendParent i p =>
    have happ : exec cfg (.appendParent i p) s = addParent cfg i (s.obj i).parents.length p s := rfl
    unfold Out
    rw [happ]
    rcases addParent_spec hn hsh i (s.obj i).parents.length p s h hsafe.1 hsafe.2 with ⟨s', e⟩ | ⟨_, e⟩ | ⟨_, s', e, ok⟩
    · rw [e]; exact Or.inl rfl
    · rw [e]; exact same
    · rw [e]; exact ⟨ok.1, Or.inr (Or.inr (Or.inl ok.2.1))⟩
  | popParent i idx =>
    apply out_discard
    unfold Out
    rcases popParent_spec hn hsh i idx s h hsafe.1 hsafe.2 with ⟨s', e⟩ | ⟨e, _⟩ | ⟨k, p, s', _, _, e, ok⟩
    · rw [e]; exact Or.inl rfl
    · rw [e]; exact Or.inr same
    · rw [e]; exact ⟨ok.1, Or.inr (Or.inr (Or.inl ok.2.1))⟩
  | removeParent i p =>
    show Out (removeParent cfg i p) s _
    unfold Out
    rcases removeParent_spec hn hsh i p s h hsafe.1 hsafe.2.1 hsafe.2.2 with ⟨s', e⟩ | ⟨_, e⟩ | ⟨_, ps, s', _, _, e, ok⟩
    · rw [e]; exact Or.inl rfl
    · rw [e]; exact Or.inr same
    · rw [e]; exact ⟨ok.1, Or.inr (Or.inr (Or.inl ok.2.1))⟩
  | setX i v => exact val (out_setX i v s h)
  | setFullX i v => exact val (out_setFullX i v s h)
  | setLocalX i v => exact val (out_setLocalX i v s s rv)
  | setLocalFullX i v => exact val (out_setLocalFullX i v s s rv)
  | setKey i k v => exact val (out_setKey i k v s s rv)
  | fix i k => show Out (fix cfg i k) s _; rw [fix_eq]; exact msk (out_maskOp hn (mask_fix k) i s s rm hsafe)
  | unfix i k => show Out (unfix cfg i k) s _; rw [unfix_eq]; exact msk (out_maskOp hn (mask_unfix k) i s s rm hsafe)
  | localFixAll i => show Out (localFixAll cfg i) s _; rw [localFixAll_eq]; exact msk (out_maskOp hn mask_fixAll i s s rm hsafe)
  | localUnfixAll i => show Out (localUnfixAll cfg i) s _; rw [localUnfixAll_eq]; exact msk (out_maskOp hn mask_unfixAll i s s rm hsafe)
  | fixAll i => exact msk (out_fixAll hn i s h hsafe)
  | unfixAll i => exact msk (out_unfixAll hn i s h hsafe)
  | fullFix i arr => exact msk (out_fullFix hn i arr s h)
  | fullUnfix i arr => exact msk (out_fullUnfix hn i arr s h)
  | bounds i b => exact val (out_execBound i b s h)
  | gc i =>
    show Out (gc i) s _
    unfold Out
    obtain ⟨s', e, h1, h2, _⟩ := gc_spec i s h
    rw [e]; exact ⟨h1, Or.inr (Or.inr (Or.inl h2))⟩
  | clearNewX i =>
    have hc : Cleared s (s.setObj i { s.obj i with newX := false }) := ⟨i, rfl⟩
    show Out (clearNewX i) s _
    unfold Out
    show StepOK cfg s _
    exact ⟨hc.inv h, Or.inr (Or.inr (Or.inr hc))⟩

theorem step_ok (hn : NameInj cfg) (hsh : ShuffleOK cfg) {op : Op V} {s s' : State V} (h : Inv cfg s) (hsafe : op.Safe s)
    (hs : Step cfg s op s') : StepOK cfg s s' :=
  (out_exec hn hsh op s h hsafe).of_step hs

theorem Reachable.inv (hn : NameInj cfg) (hsh : ShuffleOK cfg) {s : State V} (h : Reachable cfg s) : Inv cfg s := by
  induction h with
  | init => exact inv_empty
  | step _ hsafe hs ih => exact (step_ok hn hsh ih hsafe hs).1

/-! ### depth -/

theorem term_of_chains {s : State V} : ∀ n i, (∀ l, (i :: l).IsChain (Child s) → (i :: l).length ≤ n) → Term s n i := by
  intro n
  induction n with
  | zero => intro i h; have := h [] (by simp); simp at this
  | succ n ih =>
    intro i h c hc
    refine ih c (fun l hl => ?_)
    have := h (c :: l) (List.isChain_cons_cons.mpr ⟨hc, hl⟩)
    simp at this ⊢; omega

/-! ### lineage-wide fixing -/

/-- `forEach` over objects with distinct DOFs objects, each call a successful mask assignment. -/
theorem maskLoop (hn : NameInj cfg) {β : Type} (f : β → M V Unit) (o : β → Nat) (g : β → List Bool)
    (hf : ∀ b (s : State V), Inv cfg s → s.alive (o b) = true → (g b).length = (s.dof (s.obj (o b)).dofs).free.length →
      (∃ s', f b s = .error .recursionError s' ∧ ¬ Shallow cfg s) ∨
      (∃ s', f b s = .ok () s' ∧ Inv cfg s' ∧ MaskRel s s' ∧
        s'.dof = upd s.dof (s.obj (o b)).dofs { s.dof (s.obj (o b)).dofs with free := g b })) :
    ∀ (l : List β) (s : State V), Inv cfg s → (∀ b ∈ l, s.alive (o b) = true) →
    ((l.map (fun b => (s.obj (o b)).dofs)).Nodup) →
    (∀ b ∈ l, (g b).length = (s.dof (s.obj (o b)).dofs).free.length) →
    (∃ s', forEach l f s = .error .recursionError s' ∧ ¬ Shallow cfg s) ∨
    (∃ s', forEach l f s = .ok () s' ∧ Inv cfg s' ∧ MaskRel s s' ∧
      (∀ b ∈ l, (s'.dof (s.obj (o b)).dofs).free = g b) ∧
      (∀ d, d ∉ l.map (fun b => (s.obj (o b)).dofs) → s'.dof d = s.dof d)) := by
  intro l
  induction l with
  | nil => intro s hi _ _ _; right; exact ⟨s, rfl, hi, MaskRel.refl s, by simp, fun _ _ => rfl⟩
  | cons b l ih =>
    intro s hi hal hnd hlen
    rw [forEach_cons]
    simp only [List.map_cons, List.nodup_cons] at hnd
    rcases hf b s hi (hal b List.mem_cons_self) (hlen b List.mem_cons_self) with ⟨s', e, hns⟩ | ⟨s1, e1, i1, r1, d1⟩
    · left; exact ⟨s', by rw [e], hns⟩
    · rw [e1]
      have hdo : ∀ j, (s1.obj j).dofs = (s.obj j).dofs := r1.dofs
      have h1 := ih s1 i1 (fun c hc => by rw [r1.alive]; exact hal c (List.mem_cons_of_mem _ hc))
        (by simpa [hdo] using hnd.2)
        (fun c hc => by rw [hdo, (r1.same _).2.2.2.2]; exact hlen c (List.mem_cons_of_mem _ hc))
      simp only [hdo] at h1
      rcases h1 with ⟨s', e, hns⟩ | ⟨s2, e2, i2, r2, g2, f2⟩
      · left; exact ⟨s', e, fun hsh => hns (r1.shallow hsh)⟩
      · right
        refine ⟨s2, e2, i2, r1.trans r2, ?_, ?_⟩
        · intro c hc
          rcases List.mem_cons.mp hc with e | hc
          · subst e
            rw [f2 _ hnd.1, d1, upd_same]
          · exact g2 c hc
        · intro d hd
          simp only [List.map_cons, List.mem_cons, not_or] at hd
          rw [f2 d hd.2, d1, upd_ne _ _ _ _ hd.1]

theorem maskOp_ok (hn : NameInj cfg) {m : Dofs.M V Unit} (hm : MaskMethod m) (i : Nat) (s : State V) (h : Inv cfg s)
    (ha : s.alive i = true) {g : List Bool}
    (hg : m (s.dof (s.obj i).dofs) = .ok () { s.dof (s.obj i).dofs with free := g }) :
    (∃ s', maskOp cfg i m s = .error .recursionError s' ∧ ¬ Shallow cfg s) ∨
    (∃ s', maskOp cfg i m s = .ok () s' ∧ Inv cfg s' ∧ MaskRel s s' ∧
      s'.dof = upd s.dof (s.obj i).dofs { s.dof (s.obj i).dofs with free := g }) := by
  rcases maskOp_spec hn hm i s h ha with h1 | ⟨e, _, _, h3⟩ | ⟨r, s', h1, h2, h3, h4, h5⟩
  · left; exact h1
  · rw [hg] at h3; cases h3
  · right; rw [hg] at h1; cases h1; exact ⟨s', h2, h5, h4, h3⟩

theorem maskAct_ok (hn : NameInj cfg) {m : Dofs.M V Unit} (hm : MaskMethod m) (d : Nat) (s : State V) (h : Inv cfg s)
    {g : List Bool} (hg : m (s.dof d) = .ok () { s.dof d with free := g }) :
    (∃ s', maskAct cfg d m s = .error .recursionError s' ∧ ¬ Shallow cfg s) ∨
    (∃ s', maskAct cfg d m s = .ok () s' ∧ Inv cfg s' ∧ MaskRel s s' ∧
      s'.dof = upd s.dof d { s.dof d with free := g }) := by
  rcases maskAct_spec hn hm d s h with h1 | ⟨e, _, _, h3⟩ | ⟨r, s', h1, h2, h3, h4, h5⟩
  · left; exact h1
  · rw [hg] at h3; cases h3
  · right; rw [hg] at h1; cases h1; exact ⟨s', h2, h5, h4, h3⟩

end Simsopt.Graph
