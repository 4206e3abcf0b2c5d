import Verif.Graph.Relink
/-! Helper lemmas: `__init__` and `replace_dofs` preserve the invariant. -/
set_option linter.unusedSimpArgs false
namespace Simsopt.Graph
variable {V : Type} {cfg : Cfg V}

/-- the object made by `Optimizable.__init__` before it is linked -/
def freshObj (cfg : Cfg V) (s : State V) (cls d : Nat) (setter : Bool) (ps : List Nat) : Obj V :=
  { (blankObj : Obj V) with
      cls := cls, num := s.ids cls + 1, name := cfg.cname cls ++ toString (s.ids cls + 1), dofs := d, setter := setter,
      parents := ps, ext := if setter then (s.dof d).x else [] }

/-- the store with that object added -/
def State.grow (cfg : Cfg V) (s : State V) (cls d : Nat) (setter : Bool) (ps : List Nat) : State V :=
  { s with
    nobj := s.nobj + 1
    alive := upd s.alive s.nobj true
    ids := upd s.ids cls (s.ids cls + 1)
    obj := upd s.obj s.nobj (freshObj cfg s cls d setter ps) }

/-- second half of `__init__` -/
def newWith (cfg : Cfg V) (cls d : Nat) (setter : Bool) (depends : List Nat) (dedup : Bool) : M V Nat := do
  let s ← get
  set (s.grow cfg cls d setter (if dedup then dedupOn (fun a => (s.obj a).name) depends else depends))
  forEach (if dedup then dedupOn (fun a => (s.obj a).name) depends else depends) fun p => addChild cfg p s.nobj
  refresh cfg s.nobj
  addOpt d s.nobj
  pure s.nobj

theorem new_shared_eq (cfg : Cfg V) (cls d : Nat) (setter : Bool) (depends : List Nat) (dedup : Bool) :
    new cfg cls (.shared d) setter depends dedup = newWith cfg cls d setter depends dedup := rfl

theorem new_fresh_eq (cfg : Cfg V) (cls : Nat) (a : DofArgs V) (setter : Bool) (depends : List Nat) (dedup : Bool) :
    new cfg cls (.fresh a) setter depends dedup = (do let d ← newDofs cfg a; newWith cfg cls d setter depends dedup) := rfl

/-- Result of creating object number `s.nobj`. -/
def CreateOK (cfg : Cfg V) (s : State V) (cls d : Nat) (setter : Bool) (ps : List Nat) (s' : State V) : Prop :=
  Inv cfg s' ∧ Kept s s' ∧ s'.nobj = s.nobj + 1 ∧ s'.alive = upd s.alive s.nobj true ∧ s'.dof = s.dof ∧ s'.ndof = s.ndof ∧
  (s'.obj s.nobj).parents = ps ∧ (s'.obj s.nobj).dofs = d ∧ (s'.obj s.nobj).setter = setter ∧
  (s'.obj s.nobj).name = cfg.cname cls ++ toString (s.ids cls + 1) ∧
  (s'.obj s.nobj).ext = (if setter then (s.dof d).x else []) ∧
  (∀ j, j < s.nobj → (s'.obj j).parents = (s.obj j).parents ∧ (s'.obj j).dofs = (s.obj j).dofs ∧
    (s'.obj j).name = (s.obj j).name) ∧ (s'.obj s.nobj).newX = true

theorem newWith_spec' (hn : NameInj cfg) (hsh : ShuffleOK cfg) (cls d : Nat) (setter : Bool) (depends : List Nat)
    (dedup : Bool) (s : State V) (h : Inv cfg s) (hd : d < s.ndof) (hdep : ∀ p ∈ depends, s.alive p = true) :
    (∃ s', newWith cfg cls d setter depends dedup s = .error .recursionError s') ∨
    (∃ ps s', ps = (if dedup then dedupOn (fun a => (s.obj a).name) depends else depends) ∧ (∀ p, p ∈ ps ↔ p ∈ depends) ∧ newWith cfg cls d setter depends dedup s = .ok s.nobj s' ∧
      CreateOK cfg s cls d setter ps s') := by
  unfold newWith
  simp only [run_bind, run_get, run_set]
  set ps := (if dedup then dedupOn (fun a => (s.obj a).name) depends else depends) with hpsdef
  have hps : ∀ p, p ∈ ps ↔ p ∈ depends := by
    intro p
    rw [hpsdef]
    split
    · apply mem_dedupOn
      intro a ha b hb he
      exact h.graph.name_inj hn (h.graph.lt a (hdep a ha)) (h.graph.lt b (hdep b hb)) he
    · rfl
  have hpal : ∀ p ∈ ps, s.alive p = true := fun p hp => hdep p ((hps p).mp hp)
  have hplt : ∀ p ∈ ps, p < s.nobj := fun p hp => h.graph.lt p (hpal p hp)
  clear_value ps
  generalize hg : s.grow cfg cls d setter ps = s1
  have g_obj : ∀ j, j ≠ s.nobj → s1.obj j = s.obj j := by
    intro j hj; rw [← hg]; simp [State.grow, upd, hj]
  have g_new : s1.obj s.nobj = freshObj cfg s cls d setter ps := by rw [← hg]; simp [State.grow, upd]
  have g_alive : s1.alive = upd s.alive s.nobj true := by rw [← hg]; rfl
  have g_nobj : s1.nobj = s.nobj + 1 := by rw [← hg]; rfl
  have g_dof : s1.dof = s.dof := by rw [← hg]; rfl
  have g_ndof : s1.ndof = s.ndof := by rw [← hg]; rfl
  have g_deps : s1.deps = s.deps := by rw [← hg]; rfl
  have g_ids : s1.ids = upd s.ids cls (s.ids cls + 1) := by rw [← hg]; rfl
  have hal1 : ∀ j, s1.alive j = true ↔ s.alive j = true ∨ j = s.nobj := by
    intro j
    rw [g_alive]
    by_cases hj : j = s.nobj
    · subst hj; rw [upd_same]; simp
    · rw [upd_ne _ _ _ _ hj]; simp [hj]
  have hne : ∀ j, s.alive j = true → j ≠ s.nobj := fun j hj => Nat.ne_of_lt (h.graph.lt j hj)
  -- names in the grown store
  have hnames : ∀ j, j < s1.nobj → (s1.obj j).name = cfg.cname (s1.obj j).cls ++ toString (s1.obj j).num ∧
      (s1.obj j).num ≤ s1.ids (s1.obj j).cls := by
    intro j hj
    rw [g_nobj] at hj
    by_cases hjn : j = s.nobj
    · subst hjn; rw [g_new, g_ids]; exact ⟨rfl, by simp [freshObj, upd]⟩
    · rw [g_obj j hjn, g_ids]
      have := h.graph.names j (by omega)
      refine ⟨this.1, this.2.trans ?_⟩
      unfold upd; split
      · rename_i e; rw [e]; omega
      · exact le_refl _
  have hnum : ∀ a b, a < s1.nobj → b < s1.nobj → (s1.obj a).cls = (s1.obj b).cls → (s1.obj a).num = (s1.obj b).num → a = b := by
    have hold : ∀ a, a < s.nobj → (s.obj a).cls = cls → (s.obj a).num ≠ s.ids cls + 1 := by
      intro a ha hc hk
      have := (h.graph.names a ha).2
      rw [hc, hk] at this; omega
    intro a b ha hb hc hk
    rw [g_nobj] at ha hb
    by_cases han : a = s.nobj <;> by_cases hbn : b = s.nobj
    · rw [han, hbn]
    · subst han; rw [g_new, g_obj b hbn] at hc hk
      exact absurd hk.symm (hold b (by omega) hc.symm)
    · subst hbn; rw [g_new, g_obj a han] at hc hk
      exact absurd hk (hold a (by omega) hc)
    · rw [g_obj a han, g_obj b hbn] at hc hk
      exact h.graph.numInj a b (by omega) (by omega) hc hk
  have hinj1 : ∀ a b, a < s1.nobj → b < s1.nobj → (s1.obj a).name = (s1.obj b).name → a = b := by
    intro a b ha hb he
    rw [(hnames a ha).1, (hnames b hb).1] at he
    obtain ⟨hc, hk⟩ := hn _ _ _ _ he
    exact hnum a b ha hb hc hk
  have hch1 : ∀ q, (s1.obj q).children = (s.obj q).children := by
    intro q
    by_cases hq : q = s.nobj
    · subst hq; rw [g_new, h.graph.blank _ (le_refl _)]; rfl
    · rw [g_obj q hq]
  have so1 : SetOK s1 := by
    refine ⟨hinj1, ?_, ?_⟩
    · intro p c hc; rw [hch1] at hc; rw [g_nobj]; exact Nat.lt_succ_of_lt (h.graph.childLt p c hc)
    · intro p; rw [hch1]; exact h.graph.childNodup p
  obtain ⟨s2, e2, r2, so2, m2⟩ := addChildLoop_spec hsh s.nobj ps s1 so1 ((hal1 _).mpr (Or.inr rfl)) (by rw [g_nobj]; omega)
  rw [e2]
  simp only
  have hch : ∀ q c, c ∈ (s2.obj q).children ↔ c ∈ (s.obj q).children ∨ (q ∈ ps ∧ c = s.nobj) := by
    intro q c; rw [m2, hch1]
  have hpar2 : ∀ j, (s2.obj j).parents = (s1.obj j).parents := fun j => by rw [r2.obj j]
  have hal2 : ∀ j, s2.alive j = true ↔ s.alive j = true ∨ j = s.nobj := by rw [r2.alive]; exact hal1
  have hnochild : ∀ q, s.nobj ∉ (s.obj q).children := fun q hc => absurd (h.graph.childLt q _ hc) (by omega)
  have g2 : GraphOK cfg s2 := by
    refine ⟨?_, ?_, so2.lt, so2.nodup, ?_, ?_, ?_, ?_⟩
    · intro j hj
      rw [r2.nobj, g_nobj]
      rcases (hal2 j).mp hj with hj | hj
      · exact Nat.lt_succ_of_lt (h.graph.lt j hj)
      · omega
    · intro q hq
      rw [r2.nobj, g_nobj] at hq
      apply List.eq_nil_iff_forall_not_mem.mpr
      intro c hc
      rcases (hch q c).mp hc with hc | ⟨hqp, _⟩
      · rw [h.graph.blank q (by omega)] at hc; simp at hc
      · have := hplt q hqp; omega
    · intro j hj; rw [r2.nobj] at hj; rw [r2.ids, r2.obj j]; exact hnames j hj
    · intro a b ha hb; rw [r2.nobj] at ha hb; rw [r2.obj a, r2.obj b]; exact hnum a b ha hb
    · intro c p hc hp
      rw [hpar2] at hp
      rw [hal2] at hc ⊢
      left
      rcases hc with hc | hc
      · rw [g_obj c (hne c hc)] at hp; exact h.graph.parAlive c p hc hp
      · subst hc; rw [g_new] at hp; exact hpal p hp
    · intro c p hc
      rw [hpar2, hch]
      rcases (hal2 c).mp hc with hc | hc
      · rw [g_obj c (hne c hc), h.graph.link c p hc]
        constructor
        · exact Or.inl
        · rintro (h1 | ⟨_, h1⟩)
          · exact h1
          · exact absurd h1 (hne c hc)
      · subst hc
        rw [g_new]
        constructor
        · intro hp; exact Or.inr ⟨hp, rfl⟩
        · rintro (h1 | ⟨h1, _⟩)
          · exact absurd h1 (hnochild p)
          · exact h1
  have hag2 : ∀ a, s.alive a = true → Agree s s2 a := by
    intro a ha
    have e : s1.obj a = s.obj a := g_obj a (hne a ha)
    have A1 : Agree s s1 a := by
      refine ⟨by rw [e], by rw [e], by rw [e], by rw [e], by rw [e], by rw [e], by rw [e], by rw [e], by rw [e], ?_, ?_⟩
      · unfold localSize; rw [e, g_dof]
      · unfold localFullSize; rw [e, g_dof]
    exact A1.trans (r2.agree a)
  have hac : WellFounded (Parent s2) := by
    have hstep : ∀ p j, j ≠ s.nobj → Parent s2 p j → Parent s p j := by
      intro p j hj ⟨h1, h2⟩
      rw [hpar2, g_obj j hj] at h2
      exact ⟨((hal2 j).mp h1).resolve_right hj, h2⟩
    have hA : ∀ j, s.alive j = true → Acc (Parent s2) j := by
      intro j
      induction j using h.acyclic.induction with
      | _ j ih =>
        intro hj
        refine Acc.intro _ (fun p hp => ?_)
        have := hstep p j (hne j hj) hp
        exact ih p this (h.graph.parAlive j p hj this.2)
    refine ⟨fun j => Acc.intro _ (fun p hp => hA p ?_)⟩
    by_cases hj : j = s.nobj
    · subst hj
      have := hp.2
      rw [hpar2, g_new] at this
      exact hpal p this
    · have := hstep p j hj hp
      exact h.graph.parAlive j p this.1 this.2
  rcases refresh_relink hn h s.nobj g2 (fun j hj hnd => by
      rcases (hal2 j).mp hj with hj | hj
      · exact ⟨hj, fun a ha => hag2 a (ha.alive h.graph hj)⟩
      · subst hj; exact absurd Relation.ReflTransGen.refl hnd) with
    ⟨s', e, _⟩ | ⟨s3, e3, st, ht, hf, hfr, td, nx, bl, ex⟩
  · left; exact ⟨s', by rw [e]⟩
  · right
    rw [e3]
    simp only
    obtain ⟨s4, e4, o4, a4, dd4, n4, nd4, i4, dp4⟩ := addOpt_spec d s.nobj s3
    rw [e4]
    simp only
    have hdeps3 : s3.deps = s.deps := by rw [st.deps, r2.deps, g_deps]
    have hany : ((s3.deps d).any (fun o => s3.alive o && s3.eqv o s.nobj)) = false := by
      rw [Bool.eq_false_iff]
      intro hc
      rw [List.any_eq_true] at hc
      obtain ⟨o, ho, hoe⟩ := hc
      rw [hdeps3] at ho
      have holt := h.dofs.depLt d o ho
      simp only [Bool.and_eq_true] at hoe
      have := ((g2.static st).eqv_iff hn (by rw [st.nobj, r2.nobj, g_nobj]; omega) (by rw [st.nobj, r2.nobj, g_nobj]; omega)).mp hoe.2
      omega
    rw [hany] at dp4
    simp only [Bool.false_eq_true, if_false, hdeps3] at dp4
    have hobj4 : ∀ j, (s4.obj j).core = (s2.obj j).core := fun j => by rw [o4]; exact st.core j
    have hdofs4 : ∀ j, (s4.obj j).dofs = (s1.obj j).dofs := fun j => by rw [o4, st.dofs, r2.obj j]
    have hal4 : ∀ j, s4.alive j = true ↔ s.alive j = true ∨ j = s.nobj := by rw [a4, st.alive]; exact hal2
    refine ⟨ps, s4, rfl, hps, rfl, ?_⟩
    have hmd : ∀ e o, o ∈ s4.deps e ↔ o ∈ s.deps e ∨ (e = d ∧ o = s.nobj) := by
      intro e o
      rw [dp4]
      by_cases hed : e = d
      · subst hed; rw [upd_same]; simp
      · rw [upd_ne _ _ _ _ hed]; simp [hed]
    have hdof4 : DofOK s4 := by
      refine ⟨?_, ?_, ?_, ?_, ?_, ?_, ?_⟩
      · intro e; rw [dd4, st.dof, r2.dof, g_dof]; exact h.dofs.wf e
      · intro j hj
        rw [hdofs4, nd4, st.ndof, r2.ndof, g_ndof]
        rcases (hal4 j).mp hj with hj | hj
        · rw [g_obj j (hne j hj)]; exact h.dofs.lt j hj
        · subst hj; rw [g_new]; exact hd
      · intro e o ho
        rw [n4, st.nobj, r2.nobj, g_nobj]
        rcases (hmd e o).mp ho with ho | ⟨_, ho⟩
        · exact Nat.lt_succ_of_lt (h.dofs.depLt e o ho)
        · omega
      · intro e he
        rw [nd4, st.ndof, r2.ndof, g_ndof] at he
        apply List.eq_nil_iff_forall_not_mem.mpr
        intro o ho
        rcases (hmd e o).mp ho with ho | ⟨ho, _⟩
        · rw [h.dofs.depNew e he] at ho; simp at ho
        · omega
      · intro o ho
        rw [hdofs4, hmd]
        rcases (hal4 o).mp ho with ho | ho
        · rw [g_obj o (hne o ho)]; exact Or.inl (h.dofs.depIn o ho)
        · subst ho; rw [g_new]; exact Or.inr ⟨rfl, rfl⟩
      · intro o e ho hoe
        rw [hdofs4]
        rcases (hmd e o).mp hoe with hoe | ⟨he, hoe⟩
        · have holt := h.dofs.depLt e o hoe
          have hon : o ≠ s.nobj := by omega
          rw [g_obj o hon]
          exact h.dofs.depOf o e (((hal4 o).mp ho).resolve_right hon) hoe
        · subst hoe; rw [g_new]; exact he.symm
      · intro e
        rw [dp4]
        by_cases hed : e = d
        · subst hed; rw [upd_same, List.nodup_append]
          refine ⟨h.dofs.depNodup e, by simp, ?_⟩
          intro a ha b hb; simp at hb; subst hb
          have := h.dofs.depLt e a ha; omega
        · rw [upd_ne _ _ _ _ hed]; exact h.dofs.depNodup e
    have hinv3 : GraphOK cfg s4 := graphOK_of_eq o4 a4 n4 i4 (g2.static st)
    refine ⟨⟨hinv3, hdof4, ?_, ?_, ?_⟩, ?_, ?_, ?_, ?_, ?_, ?_, ?_, ?_, ?_, ?_, ?_, ?_⟩
    · have : Parent s4 = Parent s2 := by
        funext p c; unfold Parent; rw [a4, o4, st.alive, st.parents]
      rw [this]; exact hac
    · intro j hj; rw [a4, st.alive] at hj; exact fullOK_of_eq o4 dd4 (hf j hj)
    · intro j hj; rw [a4, st.alive] at hj; exact freeOK_of_eq o4 dd4 (hfr j hj)
    · have hk : ∀ j, j < s.nobj → s1.obj j = s.obj j := fun j hj => g_obj j (by omega)
      refine ⟨?_, ?_, ?_, ?_, ?_, ?_, ?_⟩
      · rw [nd4, st.ndof, r2.ndof, g_ndof]
      · rw [n4, st.nobj, r2.nobj, g_nobj]; omega
      · intro e _; rw [dd4, st.dof, r2.dof, g_dof]
      · intro j hj; rw [o4, st.setter, r2.obj j, hk j hj]
      · intro j hj; rw [o4, ex, r2.obj j, hk j hj]
      · intro j hj hx; rw [o4]; apply nx; rw [r2.obj j, hk j hj]; exact hx
      · intro j hj; rw [o4]; have := bl j; rw [r2.obj j, hk j hj] at this; exact this
    · rw [n4, st.nobj, r2.nobj, g_nobj]
    · rw [a4, st.alive, r2.alive, g_alive]
    · rw [dd4, st.dof, r2.dof, g_dof]
    · rw [nd4, st.ndof, r2.ndof, g_ndof]
    · rw [o4, st.parents, hpar2, g_new]; rfl
    · rw [hdofs4, g_new]; rfl
    · rw [o4, st.setter, r2.obj, g_new]; rfl
    · rw [o4, st.name, r2.obj, g_new]; rfl
    · rw [o4, ex, r2.obj, g_new]; rfl
    · intro j hj
      have hjn : j ≠ s.nobj := by omega
      refine ⟨?_, ?_, ?_⟩
      · rw [o4, st.parents, hpar2, g_obj j hjn]
      · rw [hdofs4, g_obj j hjn]
      · rw [o4, st.name, r2.obj j, g_obj j hjn]
    · rw [o4]; exact (td s.nobj Relation.ReflTransGen.refl).1

theorem newWith_spec (hn : NameInj cfg) (hsh : ShuffleOK cfg) (cls d : Nat) (setter : Bool) (depends : List Nat)
    (dedup : Bool) (s : State V) (h : Inv cfg s) (hd : d < s.ndof) (hdep : ∀ p ∈ depends, s.alive p = true) :
    (∃ s', newWith cfg cls d setter depends dedup s = .error .recursionError s') ∨
    (∃ ps s', (∀ p, p ∈ ps ↔ p ∈ depends) ∧ newWith cfg cls d setter depends dedup s = .ok s.nobj s' ∧
      CreateOK cfg s cls d setter ps s') := by
  rcases newWith_spec' hn hsh cls d setter depends dedup s h hd hdep with h | ⟨ps, s', _, h⟩
  · exact Or.inl h
  · exact Or.inr ⟨ps, s', h⟩

/-- Result of `replace_dofs`. -/
def ReplaceOK (cfg : Cfg V) (s : State V) (i d : Nat) (s' : State V) : Prop :=
  Inv cfg s' ∧ Kept s s' ∧ s'.alive = s.alive ∧ s'.nobj = s.nobj ∧ s'.ndof = s.ndof ∧ s'.dof = s.dof ∧
  (s'.obj i).dofs = d ∧ (∀ j, j ≠ i → (s'.obj j).dofs = (s.obj j).dofs) ∧
  (∀ j, (s'.obj j).parents = (s.obj j).parents ∧ (s'.obj j).name = (s.obj j).name) ∧
  (∀ j, Desc s i j → Told s s' j)

theorem removeOpt_run (d i : Nat) (s : State V) : removeOpt d i s = .ok ⟨⟩
  { s with deps := upd s.deps d (removeFirst (fun o => s.alive o && s.eqv o i) (s.deps d)) } := rfl

theorem replaceDofs_spec (hn : NameInj cfg) (i d : Nat) (s : State V) (h : Inv cfg s) (hai : s.alive i = true)
    (hd : d < s.ndof) :
    (∃ s', replaceDofs cfg i d s = .error .recursionError s' ∧ ¬ Shallow cfg s) ∨
    (∃ s', replaceDofs cfg i d s = .ok () s' ∧ ReplaceOK cfg s i d s') := by
  unfold replaceDofs
  simp only [run_bind, run_get, removeOpt_run, run_modify]
  generalize hg : State.setObj _ i _ = s2
  have g_obj : ∀ j, s2.obj j = { s.obj j with dofs := if j = i then d else (s.obj j).dofs } := by
    intro j; rw [← hg]
    by_cases hj : j = i
    · subst hj; simp [State.setObj, upd]
    · simp [State.setObj, upd, hj]
  have g_alive : s2.alive = s.alive := by rw [← hg]; rfl
  have g_nobj : s2.nobj = s.nobj := by rw [← hg]; rfl
  have g_ndof : s2.ndof = s.ndof := by rw [← hg]; rfl
  have g_dof : s2.dof = s.dof := by rw [← hg]; rfl
  have g_ids : s2.ids = s.ids := by rw [← hg]; rfl
  have g_deps : s2.deps = upd s.deps (s.obj i).dofs
      (removeFirst (fun o => s.alive o && s.eqv o i) (s.deps (s.obj i).dofs)) := by rw [← hg]; rfl
  clear hg
  have hrm : ∀ o, o ∈ removeFirst (fun o => s.alive o && s.eqv o i) (s.deps (s.obj i).dofs) ↔
      o ∈ s.deps (s.obj i).dofs ∧ o ≠ i := by
    apply removeFirst_mem_iff (h.dofs.depNodup _)
    intro a ha
    simp only [Bool.and_eq_true]
    rw [h.graph.eqv_iff hn (h.dofs.depLt _ a ha) (h.graph.lt i hai)]
    exact ⟨fun e => e.2, fun e => ⟨by rw [e]; exact hai, e⟩⟩
  have hdp2 : ∀ e o, o ∈ s2.deps e ↔ o ∈ s.deps e ∧ ¬ (e = (s.obj i).dofs ∧ o = i) := by
    intro e o
    rw [g_deps]
    by_cases he : e = (s.obj i).dofs
    · subst he; rw [upd_same, hrm]; simp
    · rw [upd_ne _ _ _ _ he]; simp [he]
  have g2 : GraphOK cfg s2 := by
    have en : ∀ j, (s2.obj j).name = (s.obj j).name := fun j => by rw [g_obj j]
    have ec : ∀ j, (s2.obj j).cls = (s.obj j).cls := fun j => by rw [g_obj j]
    have em : ∀ j, (s2.obj j).num = (s.obj j).num := fun j => by rw [g_obj j]
    have eh : ∀ j, (s2.obj j).children = (s.obj j).children := fun j => by rw [g_obj j]
    have ep : ∀ j, (s2.obj j).parents = (s.obj j).parents := fun j => by rw [g_obj j]
    refine ⟨?_, ?_, ?_, ?_, ?_, ?_, ?_, ?_⟩
    · rw [g_alive, g_nobj]; exact h.graph.lt
    · intro p hp; rw [g_nobj] at hp; rw [eh]; exact h.graph.blank p hp
    · intro p c hc; rw [eh] at hc; rw [g_nobj]; exact h.graph.childLt p c hc
    · intro p; rw [eh]; exact h.graph.childNodup p
    · intro j hj; rw [g_nobj] at hj; rw [en, ec, em, g_ids]; exact h.graph.names j hj
    · intro a b ha hb; rw [g_nobj] at ha hb; rw [ec, ec, em, em]; exact h.graph.numInj a b ha hb
    · intro c p hc hp; rw [g_alive] at hc ⊢; rw [ep] at hp; exact h.graph.parAlive c p hc hp
    · intro c p hc; rw [g_alive] at hc; rw [ep, eh]; exact h.graph.link c p hc
  have hdesc : Desc s2 = Desc s := by
    have : Child s2 = Child s := by
      funext p c; unfold Child kids; rw [g_alive, g_obj p]
    unfold Desc; rw [this]
  have hterm : ∀ n j, Term s n j → Term s2 n j := by
    intro n
    induction n with
    | zero => intro j h; exact h
    | succ n ih =>
      intro j hj c hc
      refine ih c (hj c ?_)
      unfold Child kids at hc ⊢
      rw [g_alive, g_obj j] at hc; exact hc
  have hag : ∀ a, a ≠ i → Agree s s2 a := by
    intro a ha
    have e : s2.obj a = s.obj a := by rw [g_obj a]; simp [ha]
    refine ⟨by rw [e], by rw [e], by rw [e], by rw [e], by rw [e], by rw [e], by rw [e], by rw [e], by rw [e], ?_, ?_⟩
    · unfold localSize; rw [e, g_dof]
    · unfold localFullSize; rw [e, g_dof]
  rcases refresh_relink hn h i g2 (fun j hj hnd => ⟨by rw [g_alive] at hj; exact hj, fun a ha => by
      refine hag a (fun e => hnd ?_)
      subst e
      rw [hdesc]
      exact (h.graph.desc_iff _ j).mpr ha⟩) with ⟨s', e, hnt⟩ | ⟨s3, e3, st, ht, hf, hfr, td, nx, bl, ex⟩
  · left; exact ⟨s', by rw [e], fun hsh => hnt (hterm _ _ (hsh i hai))⟩
  · right
    rw [e3]
    simp only
    obtain ⟨s4, e4, o4, a4, dd4, n4, nd4, i4, dp4⟩ := addOpt_spec d i s3
    rw [e4]
    refine ⟨s4, rfl, ?_⟩
    have hdeps3 : s3.deps = s2.deps := st.deps
    have hany : ((s3.deps d).any (fun o => s3.alive o && s3.eqv o i)) = false := by
      rw [Bool.eq_false_iff]
      intro hc
      rw [List.any_eq_true] at hc
      obtain ⟨o, ho, hoe⟩ := hc
      rw [hdeps3, hdp2] at ho
      simp only [Bool.and_eq_true] at hoe
      have holt := h.dofs.depLt d o ho.1
      have := ((g2.static st).eqv_iff hn (by rw [st.nobj, g_nobj]; exact holt) (by rw [st.nobj, g_nobj]; exact h.graph.lt i hai)).mp hoe.2
      subst this
      exact ho.2 ⟨(h.dofs.depOf o d hai ho.1).symm, rfl⟩
    rw [hany] at dp4
    simp only [Bool.false_eq_true, if_false, hdeps3] at dp4
    have hmd : ∀ e o, o ∈ s4.deps e ↔ (o ∈ s.deps e ∧ o ≠ i) ∨ (e = d ∧ o = i) := by
      intro e o
      have hstep : (o ∈ s.deps e ∧ ¬ (e = (s.obj i).dofs ∧ o = i)) ↔ (o ∈ s.deps e ∧ o ≠ i) := by
        constructor
        · rintro ⟨h1, h2⟩
          refine ⟨h1, fun e' => h2 ⟨?_, e'⟩⟩
          subst e'; exact (h.dofs.depOf o e hai h1).symm
        · rintro ⟨h1, h2⟩; exact ⟨h1, fun e' => h2 e'.2⟩
      rw [dp4]
      by_cases hed : e = d
      · subst hed; rw [upd_same, List.mem_append, hdp2, hstep]; simp
      · rw [upd_ne _ _ _ _ hed, hdp2, hstep]; simp [hed]
    have hdofs4 : ∀ j, (s4.obj j).dofs = if j = i then d else (s.obj j).dofs := fun j => by rw [o4, st.dofs, g_obj j]
    have hal4 : s4.alive = s.alive := by rw [a4, st.alive, g_alive]
    have hdof4 : DofOK s4 := by
      refine ⟨?_, ?_, ?_, ?_, ?_, ?_, ?_⟩
      · intro e; rw [dd4, st.dof, g_dof]; exact h.dofs.wf e
      · intro j hj
        rw [hal4] at hj
        rw [hdofs4, nd4, st.ndof, g_ndof]
        split
        · exact hd
        · exact h.dofs.lt j hj
      · intro e o ho
        rw [n4, st.nobj, g_nobj]
        rcases (hmd e o).mp ho with ho | ⟨_, ho⟩
        · exact h.dofs.depLt e o ho.1
        · subst ho; exact h.graph.lt o hai
      · intro e he
        rw [nd4, st.ndof, g_ndof] at he
        apply List.eq_nil_iff_forall_not_mem.mpr
        intro o ho
        rcases (hmd e o).mp ho with ho | ⟨ho, _⟩
        · have := ho.1; rw [h.dofs.depNew e he] at this; simp at this
        · omega
      · intro o ho
        rw [hal4] at ho
        rw [hdofs4, hmd]
        by_cases hoi : o = i
        · simp [hoi]
        · simp [hoi]; exact h.dofs.depIn o ho
      · intro o e ho hoe
        rw [hal4] at ho
        rw [hdofs4]
        rcases (hmd e o).mp hoe with hoe | ⟨he, hoe⟩
        · rw [if_neg hoe.2]; exact h.dofs.depOf o e ho hoe.1
        · rw [if_pos hoe]; exact he.symm
      · intro e
        have hnd2 : ∀ e, (s2.deps e).Nodup := by
          intro e; rw [g_deps]
          by_cases he : e = (s.obj i).dofs
          · subst he; rw [upd_same]; exact removeFirst_nodup (h.dofs.depNodup _)
          · rw [upd_ne _ _ _ _ he]; exact h.dofs.depNodup e
        rw [dp4]
        by_cases hed : e = d
        · subst hed; rw [upd_same, List.nodup_append]
          refine ⟨hnd2 e, by simp, ?_⟩
          intro a ha b hb; simp at hb; subst hb
          intro e'; subst e'
          rw [hdp2] at ha
          exact ha.2 ⟨(h.dofs.depOf a e hai ha.1).symm, rfl⟩
        · rw [upd_ne _ _ _ _ hed]; exact hnd2 e
    refine ⟨⟨graphOK_of_eq o4 a4 n4 i4 (g2.static st), hdof4, ?_, ?_, ?_⟩, ?_, hal4, ?_, ?_, ?_, ?_, ?_, ?_, ?_⟩
    · have : Parent s4 = Parent s := by
        funext p c; unfold Parent; rw [hal4, o4, st.parents, g_obj c]
      rw [this]; exact h.acyclic
    · intro j hj; rw [a4, st.alive] at hj; exact fullOK_of_eq o4 dd4 (hf j hj)
    · intro j hj; rw [a4, st.alive] at hj; exact freeOK_of_eq o4 dd4 (hfr j hj)
    · refine ⟨?_, ?_, ?_, ?_, ?_, ?_, ?_⟩
      · rw [nd4, st.ndof, g_ndof]
      · rw [n4, st.nobj, g_nobj]
      · intro e _; rw [dd4, st.dof, g_dof]
      · intro j _; rw [o4, st.setter, g_obj j]
      · intro j _; rw [o4, ex, g_obj j]
      · intro j _ hx; rw [o4]; apply nx; rw [g_obj j]; exact hx
      · intro j _; rw [o4]; have := bl j; rw [g_obj j] at this; exact this
    · rw [n4, st.nobj, g_nobj]
    · rw [nd4, st.ndof, g_ndof]
    · rw [dd4, st.dof, g_dof]
    · rw [hdofs4]; simp
    · intro j hj; rw [hdofs4]; simp [hj]
    · intro j; rw [o4, st.parents, st.name, g_obj j]; exact ⟨rfl, rfl⟩
    · intro j hj
      have := td j (by rw [hdesc]; exact hj)
      refine ⟨by rw [o4]; exact this.1, ?_⟩
      have h2 := this.2
      rw [g_obj j] at h2
      rw [o4]; exact h2

end Simsopt.Graph
