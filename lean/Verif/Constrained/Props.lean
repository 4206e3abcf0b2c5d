import Verif.Constrained.Lemmas
/-!
# Properties C31 and C32 of `ConstrainedProblem`
-/
namespace Simsopt.Constrained
open Simsopt Simsopt.LSq
open Simsopt.Graph (State Cfg Op Reachable Step NameInj ShuffleOK)
variable {V R : Type} {cfg : Cfg V}

theorem Created.inv [Sub R] (hn : NameInj cfg) (hsh : ShuffleOK cfg) {w0 : World V R} (h : Created cfg w0) : CInv cfg w0 w0 := by
  obtain ⟨g, cls, obj, nlc, fail, hr, hal, he, hloc⟩ := h
  have key : ∀ {i g'}, Graph.new cfg cls (.fresh {}) false ((obj :: (nlc.getD []).map (·.fn)).map (·.owner)) true g = .ok i g' →
      w0 = { g := g', p := { self := i, fail := fail, obj := obj, cons := nlc } } → CInv cfg w0 w0 := by
    intro i g' hnew hw
    obtain ⟨h1, h2, h3, h4, h5, _⟩ := new_ok hn hsh hr (by
      intro p hp; obtain ⟨f, hf, rfl⟩ := List.mem_map.mp hp; exact hal f hf) hnew
    subst hw
    refine ⟨⟨h2, h3, fun f hf => (h4 _).mpr (List.mem_map_of_mem hf), hloc⟩, ⟨rfl, rfl, rfl, rfl⟩, (fun _ o ho => by cases ho), (fun _ c hc => by cases hc)⟩
  unfold create at he
  split at he
  · cases he
  · split at he
    · cases he
    · rename_i hnew
      injection he with he
      exact key hnew he.symm

section
variable [Sub R] [DecidableEq V]

theorem objective_out (hn : NameInj cfg) (hsh : ShuffleOK cfg) {w0 w : World V R} (h : CInv cfg w0 w) (x : Option (List V)) :
    match objective cfg x w with
    | .ok o w' => CInv cfg w0 w' ∧ ObjOK w' o ∧ assignX cfg x w' = .ok () w' ∧
        (∀ v, x = some v → v.length = (Graph.getX w.g w.p.self).length → Graph.getX w'.g w.p.self = v) ∧
        (x = none → w'.g.dof = w.g.dof ∧ ∀ f ∈ w.p.funcs, f.call w'.g = f.call w.g)
    | .error e w' => e = .recursionError ∨ (CInv cfg w0 w' ∧ ((e = .valueError ∧ w' = w) ∨
        (∃ w1, assignX cfg x w = .ok () w1 ∧ w1.p.obj.call w1.g = .error e ∧ (e = .objectiveFailure → w.p.fail = none ∨ w.p.firstObj = true)))) := by
  have ha := assignX_inv hn hsh h x
  unfold objective
  cases hax : assignX cfg x w with
  | error e w1 =>
    rw [hax] at ha
    rcases ha with ha | ⟨ha, hw⟩
    · exact Or.inl ha
    · subst hw; exact Or.inr ⟨h, Or.inl ⟨ha, rfl⟩⟩
  | ok u w1 =>
    rw [hax] at ha
    obtain ⟨a1, a2, a3, a4⟩ := ha
    obtain ⟨e1, e2, e3, e4, e5, e6, e7, e8, e9, e10, e11⟩ := empty_inv a1
    have ho := evalObj_inv hn hsh e1 e10 e11
    simp only
    have hfun : (empty w1).p.funcs = w.p.funcs := by unfold Prob.funcs Prob.nlc; rw [e4, e5, a2]
    have hself : (empty w1).p.self = w.p.self := by rw [e3, a2]
    cases hob : evalObj (empty w1) with
    | error e w2 =>
      rw [hob] at ho
      obtain ⟨o1, o2, o3⟩ := ho
      subst o1
      refine Or.inr ⟨e1, Or.inr ⟨w1, rfl, by rw [← e2, ← e4]; exact o2, fun he => ?_⟩⟩
      have := o3 he
      rw [e6, e9, a2] at this
      exact this
    | ok o w2 =>
      rw [hob] at ho
      obtain ⟨o1, o2, _, _, o5, o6, o7, _⟩ := ho
      rw [hself, e2] at o6
      rw [hfun, e2] at o7
      rw [e2] at o5
      have hs2 : w2.p.self = w.p.self := by rw [o1.same.1, h.same.1]
      refine ⟨o1, o2, ?_, fun v hv hl => ?_, fun hx => ?_⟩
      · -- assigning the same x again does nothing
        cases x with
        | none => rfl
        | some v =>
          have hd : differs (Graph.getX w2.g w2.p.self) v = some false := by
            rw [hs2, o6]
            unfold assignX at hax
            simp only at hax
            cases hdf : differs (Graph.getX w.g w.p.self) v with
            | none => rw [hdf] at hax; cases hax
            | some b =>
              rw [hdf] at hax
              cases b with
              | false =>
                simp only at hax
                injection hax with _ hax
                subst hax
                exact hdf
              | true =>
                simp only at hax
                have hst := h.att.setX hn hsh v
                cases hset : Graph.setX cfg w.p.self v w.g with
                | error e g => rw [hset] at hax; cases hax
                | ok u g =>
                  rw [hset] at hax hst
                  injection hax with _ hax
                  subst hax
                  rw [hst.2.1]
                  simp only [differs, bcast, if_true, Option.map_some, Option.some.injEq, List.any_eq_false, decide_eq_true_eq]
                  intro e he
                  have : ∀ (l : List V), ∀ e ∈ l.zip l, e.1 = e.2 := by
                    intro l
                    induction l with
                    | nil => intro e he; cases he
                    | cons a l ih =>
                      intro e he
                      rw [List.zip_cons_cons] at he
                      rcases List.mem_cons.mp he with rfl | he
                      · rfl
                      · exact ih e he
                  simpa using this v e he
          unfold assignX
          simp only [hd]
      · rw [o6]; exact a4 v hv hl
      · have := a3 hx
        subst this
        exact ⟨o5, o7⟩

theorem constraints_out (hn : NameInj cfg) (hsh : ShuffleOK cfg) {w0 w : World V R} (h : CInv cfg w0 w) (x : Option (List V)) :
    match constraints cfg x w with
    | .ok c w' => CInv cfg w0 w' ∧ ConOK w' c ∧ w.p.cons ≠ none ∧
        (∀ v, x = some v → v.length = (Graph.getX w.g w.p.self).length → Graph.getX w'.g w.p.self = v) ∧
        (assignX cfg x w = .ok () w → w'.g.dof = w.g.dof ∧ (∀ f ∈ w.p.funcs, f.call w'.g = f.call w.g) ∧ Graph.getX w'.g w.p.self = Graph.getX w.g w.p.self)
    | .error e w' => e = .recursionError ∨ (CInv cfg w0 w' ∧ ((e = .valueError ∧ w' = w) ∨
        (∃ w1, assignX cfg x w = .ok () w1 ∧ w'.g = w1.g ∧ ((w.p.cons = none ∧ e = .runtimeError) ∨ (w.p.cons ≠ none ∧ ((conLoop w1.g w.p.nlc).1 = .raised e ∨
          ((conLoop w1.g w.p.nlc).1 = .failed ∧ e = .objectiveFailure ∧ (w.p.fail = none ∨ w.p.firstCon = true)) ∨
          ((conLoop w1.g w.p.nlc).1 = .done [] ∧ e = .valueError))))))) := by
  have ha := assignX_inv hn hsh h x
  unfold constraints
  cases hax : assignX cfg x w with
  | error e w1 =>
    rw [hax] at ha
    rcases ha with ha | ⟨ha, hw⟩
    · exact Or.inl ha
    · subst hw; exact Or.inr ⟨h, Or.inl ⟨ha, rfl⟩⟩
  | ok u w1 =>
    rw [hax] at ha
    obtain ⟨a1, a2, a3, a4⟩ := ha
    obtain ⟨e1, e2, e3, e4, e5, e6, e7, e8, e9, e10, e11⟩ := empty_inv a1
    have ho := evalCon_inv hn hsh e1 e10 e11
    simp only
    have hfun : (empty w1).p.funcs = w.p.funcs := by unfold Prob.funcs Prob.nlc; rw [e4, e5, a2]
    have hnlc : (empty w1).p.nlc = w.p.nlc := by unfold Prob.nlc; rw [e5, a2]
    have hself : (empty w1).p.self = w.p.self := by rw [e3, a2]
    cases hob : evalCon (empty w1) with
    | error e w2 =>
      rw [hob] at ho
      obtain ⟨o1, o2, o3⟩ := ho
      rw [hnlc, e2, e5, e6, e8, a2] at o3
      exact Or.inr ⟨o1, Or.inr ⟨w1, rfl, by rw [o2, e2], o3⟩⟩
    | ok o w2 =>
      rw [hob] at ho
      obtain ⟨o1, o2, o3, o4, o5, o6⟩ := ho
      rw [hself, e2] at o5
      rw [hfun, e2] at o6
      rw [e2] at o4
      refine ⟨o1, o2, by rw [e5, a2] at o3; exact o3, fun v hv hl => by rw [o5]; exact a4 v hv hl, fun hx => ?_⟩
      injection hx with _ hx
      subst hx
      exact ⟨o4, o6, o5⟩

theorem Hist.inv (hn : NameInj cfg) (hsh : ShuffleOK cfg) {w0 w : World V R} (hc : Created cfg w0) (h : Hist cfg w0 w) : CInv cfg w0 w := by
  induction h with
  | start => exact hc.inv hn hsh
  | graph _ hsafe hne hst ha hatt ih => exact ih.graph hn hsh hsafe hne hst ha hatt
  | @call w c _ hne ih =>
    have hO := fun x => objective_out hn hsh ih x
    cases c with
    | objective x =>
      have := hO x
      simp only [Call.run] at hne ⊢
      cases he : objective cfg x w with
      | ok o w' => rw [he] at this; exact this.1
      | error e w' => rw [he] at this hne; exact (this.resolve_left (fun hc => hne (by simp [hc]))).1
    | constraints x =>
      have := constraints_out hn hsh ih x
      simp only [Call.run] at hne ⊢
      cases he : constraints cfg x w with
      | ok o w' => rw [he] at this; exact this.1
      | error e w' => rw [he] at this hne; exact (this.resolve_left (fun hc => hne (by simp [hc]))).1
    | allFuncs x =>
      have h1 := hO x
      simp only [Call.run, allFuncs] at hne ⊢
      cases he : objective cfg x w with
      | error e w' => rw [he] at h1 hne; exact (h1.resolve_left (fun hc => hne (by simp [hc]))).1
      | ok o w' =>
        rw [he] at h1 hne
        simp only at hne ⊢
        cases hcn : w'.p.cons with
        | none => simp only; cases o <;> exact h1.1
        | some cons =>
          rw [hcn] at hne
          simp only at hne ⊢
          have h2 := constraints_out hn hsh h1.1 x
          cases he2 : constraints cfg x w' with
          | ok c w2 => rw [he2] at h2; cases o <;> exact h2.1
          | error e w2 => rw [he2] at h2 hne; exact (h2.resolve_left (fun hc => hne (by simp [hc]))).1

/-- a valid constraint vector is that of a fresh evaluation -/
theorem ConOK.fresh {w : World V R} {c : List (Ext R)} (h : ConOK w c) :
    (∃ outs, Gives (w.p.nlc.map (·.fn)) w.g outs ∧ c = constraintVector w.p.nlc outs ∧ ∀ e ∈ w.p.nlc.zip outs, FitsFinite e.1 e.2) ∨
    (Breaks (w.p.nlc.map (·.fn)) w.g ∧ ∃ v, w.p.fail = some v ∧ ∃ n, c = List.replicate n (.fin v)) := by
  have hs := conLoop_spec w.g w.p.nlc
  rcases h with ⟨os, h1, _, h3⟩ | ⟨h1, _, v, h3, h4⟩
  · have e : conLoop w.g w.p.nlc = (.done os, (conLoop w.g w.p.nlc).2) := by rw [← h1]
    rw [e] at hs
    obtain ⟨outs, g1, g2, g3, _⟩ := hs
    exact Or.inl ⟨outs, g1, by rw [h3, g2], g3⟩
  · have e : conLoop w.g w.p.nlc = (.failed, (conLoop w.g w.p.nlc).2) := by rw [← h1]
    rw [e] at hs
    exact Or.inr ⟨hs, v, h3, _, h4⟩

theorem same_nlc {w0 w : World V R} (h : CInv cfg w0 w) : w.p.nlc = w0.p.nlc := by unfold Prob.nlc; rw [h.same.2.2.2]

/-- C32: whatever happened before, `objective(x)` returns the value of the objective function now (at `x` if given; no dof changes
    otherwise), or the failure value if it fails now. -/
theorem C32_objective_fresh (hn : NameInj cfg) (hsh : ShuffleOK cfg) {w0 w w' : World V R} (hc : Created cfg w0) (hh : Hist cfg w0 w)
    {x : Option (List V)} {o : Out R} (he : objective cfg x w = .ok o w') :
    (w0.p.obj.call w'.g = .ok o ∨ (w0.p.obj.call w'.g = .error .objectiveFailure ∧ ∃ v, w0.p.fail = some v ∧ o = .scalar v)) ∧
    (∀ v, x = some v → v.length = (Graph.getX w.g w0.p.self).length → Graph.getX w'.g w0.p.self = v) ∧ (x = none → w'.g.dof = w.g.dof) := by
  have hi := hh.inv hn hsh hc
  have ho := objective_out hn hsh hi x
  rw [he] at ho
  obtain ⟨o1, o2, _, o4, o5⟩ := ho
  rw [← hi.same.1]
  refine ⟨?_, o4, fun hx => (o5 hx).1⟩
  unfold ObjOK at o2
  rw [o1.same.2.2.1, o1.same.2.1] at o2
  exact o2

/-- and it does return whenever the objective function does. -/
theorem C32_objective_returns (hn : NameInj cfg) (hsh : ShuffleOK cfg) {w0 w : World V R} (hc : Created cfg w0) (hh : Hist cfg w0 w)
    {o : Out R} (hret : w0.p.obj.call w.g = .ok o) : ∃ w', objective cfg none w = .ok o w' := by
  have hi := hh.inv hn hsh hc
  have ho := objective_out hn hsh hi none
  rw [← hi.same.2.2.1] at hret
  cases he : objective cfg none w with
  | ok o' w' =>
    rw [he] at ho
    obtain ⟨o1, o2, _, _, o5⟩ := ho
    have hcall := (o5 rfl).2 w.p.obj List.mem_cons_self
    have hobj : w'.p.obj = w.p.obj := by rw [o1.same.2.2.1, hi.same.2.2.1]
    unfold ObjOK at o2
    rw [hobj, hcall, hret] at o2
    rcases o2 with o2 | ⟨o2, _⟩
    · injection o2 with o2; exact ⟨w', by rw [o2]⟩
    · cases o2
  | error e w' =>
    rw [he] at ho
    have key : ∀ w1, assignX cfg none w = .ok () w1 → w1 = w := by intro w1 h; injection h with _ h; exact h.symm
    unfold objective at he
    have hax : assignX cfg none w = .ok () w := rfl
    rw [hax] at he
    simp only at he
    obtain ⟨e1, e2, e3, e4, e5, e6, e7, e8, e9, e10, e11⟩ := empty_inv hi
    have hv := evalObj_inv hn hsh e1 e10 e11
    rw [he] at hv
    rw [e2, e4, hret] at hv
    cases hv.2.1

/-- C32: `nonlinear_constraints(x)` returns the constraint vector of the functions evaluated now, or the failure vector. -/
theorem C32_constraints_fresh (hn : NameInj cfg) (hsh : ShuffleOK cfg) {w0 w w' : World V R} (hc : Created cfg w0) (hh : Hist cfg w0 w)
    {x : Option (List V)} {c : List (Ext R)} (he : constraints cfg x w = .ok c w') :
    ((∃ outs, Gives (w0.p.nlc.map (·.fn)) w'.g outs ∧ c = constraintVector w0.p.nlc outs) ∨
      (Breaks (w0.p.nlc.map (·.fn)) w'.g ∧ ∃ v, w0.p.fail = some v ∧ ∃ n, c = List.replicate n (.fin v))) ∧
    (∀ v, x = some v → v.length = (Graph.getX w.g w0.p.self).length → Graph.getX w'.g w0.p.self = v) ∧ (x = none → w'.g.dof = w.g.dof) := by
  have hi := hh.inv hn hsh hc
  have ho := constraints_out hn hsh hi x
  rw [he] at ho
  obtain ⟨o1, o2, _, o4, o5⟩ := ho
  rw [← hi.same.1]
  refine ⟨?_, o4, fun hx => (o5 (by rw [hx]; rfl)).1⟩
  have := o2.fresh
  rw [same_nlc o1, o1.same.2.1] at this
  rcases this with ⟨outs, h1, h2, _⟩ | h
  · exact Or.inl ⟨outs, h1, h2⟩
  · exact Or.inr h

/-- and it does return whenever the constraint functions do, their values fit the bounds, and some bound is finite. -/
theorem C32_constraints_returns (hn : NameInj cfg) (hsh : ShuffleOK cfg) {w0 w : World V R} (hc : Created cfg w0) (hh : Hist cfg w0 w)
    {outs : List (Out R)} (hret : Gives (w0.p.nlc.map (·.fn)) w.g outs) (hfit : ∀ e ∈ w0.p.nlc.zip outs, e.1.Fits e.2)
    (hact : ∃ k ∈ w0.p.nlc, k.Active) : ∃ w', constraints cfg none w = .ok (constraintVector w0.p.nlc outs) w' := by
  have hi := hh.inv hn hsh hc
  have ho := constraints_out hn hsh hi none
  have hcons : w.p.cons ≠ none := by
    intro h0
    obtain ⟨k, hk, _⟩ := hact
    rw [← same_nlc hi] at hk
    unfold Prob.nlc at hk
    rw [h0] at hk; cases hk
  rw [← same_nlc hi] at hret hfit hact ⊢
  have hs := conLoop_spec w.g w.p.nlc
  cases he : constraints cfg none w with
  | ok c w' =>
    rw [he] at ho
    obtain ⟨o1, o2, _, _, o5⟩ := ho
    have hcall := (o5 rfl).2.1
    have hg : Gives (w.p.nlc.map (·.fn)) w'.g outs := hret.congr (fun f hf => hcall f (List.mem_cons_of_mem _ hf))
    have := o2.fresh
    rw [(same_nlc o1).trans (same_nlc hi).symm] at this
    rcases this with ⟨outs', h1, h2, _⟩ | ⟨h1, _⟩
    · rw [h1.unique hg] at h2; exact ⟨w', by rw [h2]⟩
    · exact absurd h1 hg.not_breaks
  | error e w' =>
    rw [he] at ho
    exfalso
    have hax : assignX cfg none w = .ok () w := rfl
    have hcon : constraints cfg none w = evalCon (empty w) := by unfold constraints; rw [hax]
    rw [hcon] at he
    obtain ⟨e1, e2, e3, e4, e5, e6, e7, e8, e9, e10, e11⟩ := empty_inv hi
    have hv := evalCon_inv hn hsh e1 e10 e11
    have hnlc : (empty w).p.nlc = w.p.nlc := by unfold Prob.nlc; rw [e5]
    rw [he] at hv
    obtain ⟨_, _, hv⟩ := hv
    rw [hnlc, e2, e5] at hv
    rcases hv with ⟨h1, _⟩ | ⟨_, h1 | ⟨h1, _⟩ | ⟨h1, _⟩⟩
    · exact hcons h1
    · have e : conLoop w.g w.p.nlc = (.raised e, (conLoop w.g w.p.nlc).2) := by rw [← h1]
      rw [e] at hs
      exact hs ⟨outs, hret, fun e he => ⟨fun _ => (hfit e he).1, fun _ => (hfit e he).2⟩⟩
    · have e : conLoop w.g w.p.nlc = (.failed, (conLoop w.g w.p.nlc).2) := by rw [← h1]
      rw [e] at hs
      exact hret.not_breaks hs
    · have e : conLoop w.g w.p.nlc = (.done [], (conLoop w.g w.p.nlc).2) := by rw [← h1]
      rw [e] at hs
      obtain ⟨_, _, _, _, h4, _⟩ := hs
      obtain ⟨k, hk, ha⟩ := hact
      exact h4.mp rfl k hk ha

/-- C32: `all_funcs(x)` is the objective followed by the constraints, both of one fresh evaluation. -/
theorem C32_all_funcs_fresh (hn : NameInj cfg) (hsh : ShuffleOK cfg) {w0 w w' : World V R} (hc : Created cfg w0) (hh : Hist cfg w0 w)
    {x : Option (List V)} {r : List (Ext R)} (he : allFuncs cfg x w = .ok r w') :
    ∃ f c, r = .fin f :: c ∧
      (w0.p.obj.call w'.g = .ok (.scalar f) ∨ (w0.p.obj.call w'.g = .error .objectiveFailure ∧ w0.p.fail = some f)) ∧
      (match w0.p.cons with
        | none => c = []
        | some cons => (∃ outs, Gives (cons.map (·.fn)) w'.g outs ∧ c = constraintVector cons outs) ∨
          (Breaks (cons.map (·.fn)) w'.g ∧ ∃ v, w0.p.fail = some v ∧ ∃ n, c = List.replicate n (.fin v))) ∧
      (∀ v, x = some v → v.length = (Graph.getX w.g w0.p.self).length → Graph.getX w'.g w0.p.self = v) := by
  have hi := hh.inv hn hsh hc
  have h1 := objective_out hn hsh hi x
  unfold allFuncs at he
  cases ho : objective cfg x w with
  | error e w1 => rw [ho] at he; cases he
  | ok o w1 =>
    rw [ho] at he h1
    obtain ⟨o1, o2, o3, o4, o5⟩ := h1
    simp only at he
    unfold ObjOK at o2
    rw [o1.same.2.2.1, o1.same.2.1] at o2
    rw [← o1.same.2.2.2]
    rw [← hi.same.1]
    cases hcn : w1.p.cons with
    | none =>
      rw [hcn] at he
      cases o with
      | array l => cases he
      | scalar f =>
        simp only at he
        injection he with he1 he2
        subst he2
        refine ⟨f, [], he1.symm, ?_, rfl, o4⟩
        rcases o2 with o2 | ⟨o2, v, o3, o6⟩
        · exact Or.inl o2
        · injection o6 with o6; subst o6; exact Or.inr ⟨o2, o3⟩
    | some cons =>
      rw [hcn] at he
      simp only at he
      have h2 := constraints_out hn hsh o1 x
      cases hcc : constraints cfg x w1 with
      | error e w2 => rw [hcc] at he; cases he
      | ok c w2 =>
        rw [hcc] at he h2
        obtain ⟨p1, p2, _, p4, p5⟩ := h2
        obtain ⟨_, p6, p7⟩ := p5 o3
        have hnlc : w1.p.nlc = cons := by unfold Prob.nlc; rw [hcn]; rfl
        cases o with
        | array l => cases he
        | scalar f =>
          simp only at he
          injection he with he1 he2
          subst he2
          have hobj : w0.p.obj.call w2.g = w0.p.obj.call w1.g := by
            rw [← o1.same.2.2.1]; exact p6 _ List.mem_cons_self
          have hself : w1.p.self = w.p.self := by rw [o1.same.1, hi.same.1]
          refine ⟨f, c, he1.symm, ?_, ?_, fun v hv hl => ?_⟩
          · rw [hobj]
            rcases o2 with o2 | ⟨o2, v, o3, o6⟩
            · exact Or.inl o2
            · injection o6 with o6; subst o6; exact Or.inr ⟨o2, o3⟩
          · have := p2.fresh
            rw [(same_nlc p1).trans (same_nlc o1).symm, hnlc, p1.same.2.1] at this
            rcases this with ⟨outs, g1, g2, _⟩ | h
            · exact Or.inl ⟨outs, g1, g2⟩
            · exact Or.inr h
          · rw [← hself, p7, hself]; exact o4 v hv hl

/-- A problem without nonlinear constraints refuses to evaluate them. -/
theorem C32_no_constraints (w : World V R) (h : w.p.cons = none) : ∃ w', constraints cfg none w = .error .runtimeError w' := by
  unfold constraints assignX evalCon
  simp only
  have : (empty w).p.cons = none := by unfold empty; split <;> exact h
  rw [this]
  exact ⟨_, rfl⟩

end

section
variable [Field R] [LinearOrder R] [IsStrictOrderedRing R] [DecidableEq V]

/-- C31: for lower bounds that are numbers or `-inf` and upper bounds that are numbers or `+inf`, the returned vector is nonpositive in
    every entry exactly when every constraint satisfies its bounds. -/
theorem C31_nonpositive_iff_feasible (hn : NameInj cfg) (hsh : ShuffleOK cfg) {w0 w w' : World V R} (hc : Created cfg w0) (hh : Hist cfg w0 w)
    {x : Option (List V)} {c : List (Ext R)} (he : constraints cfg x w = .ok c w') {outs : List (Out R)}
    (hret : Gives (w0.p.nlc.map (·.fn)) w'.g outs) (hp : ∀ k ∈ w0.p.nlc, k.Proper) :
    (∀ v ∈ c, v.nonpos) ↔ ∀ e ∈ w0.p.nlc.zip outs, Feasible e.1.lhs e.1.rhs e.2 := by
  have hi := hh.inv hn hsh hc
  have ho := constraints_out hn hsh hi x
  rw [he] at ho
  obtain ⟨o1, o2, _⟩ := ho
  have := o2.fresh
  rw [same_nlc o1] at this
  rcases this with ⟨outs', h1, h2, h3⟩ | ⟨h1, _⟩
  · have := h1.unique hret
    subst this
    rw [h2]
    unfold constraintVector
    constructor
    · intro h e he
      refine (conEntry_nonpos (hp _ (List.of_mem_zip he).1) (h3 e he)).mp (fun v hv => h v ?_)
      exact List.mem_flatten.mpr ⟨_, List.mem_map_of_mem he, hv⟩
    · intro h v hv
      obtain ⟨l, hl, hv⟩ := List.mem_flatten.mp hv
      obtain ⟨e, he, rfl⟩ := List.mem_map.mp hl
      exact (conEntry_nonpos (hp _ (List.of_mem_zip he).1) (h3 e he)).mpr (h e he) v hv
  · exact absurd h1 hret.not_breaks

/-- Evaluating constraints none of which has a finite bound raises `ValueError` instead of returning an empty vector. -/
theorem C31_all_infinite_violated (hn : NameInj cfg) (hsh : ShuffleOK cfg) {w0 w : World V R} (hc : Created cfg w0) (hh : Hist cfg w0 w)
    {outs : List (Out R)} (hret : Gives (w0.p.nlc.map (·.fn)) w.g outs) (hact : ∀ k ∈ w0.p.nlc, ¬ k.Active) (hcons : w0.p.cons ≠ none) :
    ∃ w', constraints cfg none w = .error .valueError w' := by
  have hi := hh.inv hn hsh hc
  rw [← same_nlc hi] at hret hact
  rw [← hi.same.2.2.2] at hcons
  have hs := conLoop_spec w.g w.p.nlc
  have hax : assignX cfg none w = .ok () w := rfl
  have hcon : constraints cfg none w = evalCon (empty w) := by unfold constraints; rw [hax]
  rw [hcon]
  obtain ⟨e1, e2, e3, e4, e5, e6, e7, e8, e9, e10, e11⟩ := empty_inv hi
  have hv := evalCon_inv hn hsh e1 e10 e11
  have hnlc : (empty w).p.nlc = w.p.nlc := by unfold Prob.nlc; rw [e5]
  have hfit : ∀ e ∈ w.p.nlc.zip outs, FitsFinite e.1 e.2 := by
    intro e he
    have := hact _ (List.of_mem_zip he).1
    unfold Con.Active at this
    exact ⟨fun h => absurd (Or.inl h) this, fun h => absurd (Or.inr h) this⟩
  have hdone : (conLoop w.g w.p.nlc).1 = .done [] := by
    generalize hr : conLoop w.g w.p.nlc = r at hs
    obtain ⟨r, n⟩ := r
    cases r with
    | done os =>
      obtain ⟨_, _, _, _, h4, _⟩ := hs
      rw [h4.mpr hact]
    | failed => exact absurd hs hret.not_breaks
    | raised e => exact absurd ⟨outs, hret, hfit⟩ hs
  cases he : evalCon (empty w) with
  | ok c w' =>
    rw [he] at hv
    obtain ⟨v1, v2, _, _, _, v6⟩ := hv
    exfalso
    have hn' : w'.p.nlc = w.p.nlc := (same_nlc v1).trans (same_nlc hi).symm
    have hf : (empty w).p.funcs = w.p.funcs := by unfold Prob.funcs Prob.nlc; rw [e4, e5]
    rw [hf, e2] at v6
    have hl : conLoop w'.g w.p.nlc = conLoop w.g w.p.nlc := conLoop_congr _ (fun c hm => v6 _ (nlc_mem hm))
    rcases v2 with ⟨os, h1, h2, _⟩ | ⟨h1, _⟩
    · rw [hn', hl, hdone] at h1; injection h1 with h1; exact h2 h1.symm
    · rw [hn', hl, hdone] at h1; cases h1
  | error e w' =>
    rw [he] at hv
    obtain ⟨_, _, hv⟩ := hv
    rw [hnlc, e2, e5] at hv
    rcases hv with ⟨h1, _⟩ | ⟨_, h1 | ⟨h1, _⟩ | ⟨_, h1⟩⟩
    · exact absurd h1 hcons
    · rw [hdone] at h1; cases h1
    · rw [hdone] at h1; cases h1
    · exact ⟨w', by rw [h1]⟩

end
end Simsopt.Constrained
