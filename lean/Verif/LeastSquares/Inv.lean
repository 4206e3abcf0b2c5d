import Verif.LeastSquares.Lemmas
/-! Helper lemmas: invariant of every history of a least-squares problem. -/
namespace Simsopt.LSq
open Simsopt
open Simsopt.Graph (State Cfg Op Reachable SameInputs Step Inv NameInj ShuffleOK DependsOn Notified)
variable {V R : Type} {cfg : Cfg V}

/-- What every history preserves. -/
structure WInv [Field R] [LinearOrder R] (cfg : Cfg V) (w : World V R) : Prop where
  reach : Reachable cfg w.g
  alive : w.g.alive w.p.self = true
  att : ∀ f ∈ w.p.funcs, f.owner ∈ (w.g.obj w.p.self).parents
  loc : ∀ f ∈ w.p.funcs, ReadsInputs cfg f
  inpNonneg : ∀ v ∈ w.p.inpWeights, 0 ≤ v
  wts : w.p.firstEval = false → ∃ ws, w.p.weights = some ws ∧ ∀ v ∈ ws, 0 ≤ v
  nowts : w.p.firstEval = true → w.p.weights = none
  cache : (w.g.obj w.p.self).newX = false →
    match (loop w).1 with
    | .done ws os => w.p.cache = some os ∧ w.p.weights = some ws ∧ w.p.funcs ≠ [] ∧ w.p.firstEval = false
    | .failed => ∃ v, w.p.fail = some v ∧ w.p.firstEval = false ∧ w.p.cache = some (List.replicate w.p.nvals v)
    | .raised _ => False

section
variable [Field R] [LinearOrder R]

theorem calls_same (hn : NameInj cfg) (hsh : ShuffleOK cfg) {w : World V R} (h : WInv cfg w) {g' : State V} (hr' : Reachable cfg g')
    (ha' : g'.alive w.p.self = true) (hs : SameInputs w.g g' w.p.self) : ∀ f ∈ w.p.funcs, f.call g' = f.call w.g := by
  intro f hf
  have hi := h.reach.inv hn hsh
  have hi' := hr'.inv hn hsh
  have hp := h.att f hf
  have hd : DependsOn w.g w.p.self f.owner := Or.inr (Relation.TransGen.single ⟨h.alive, hp⟩)
  have hp' : f.owner ∈ (g'.obj w.p.self).parents := by rw [(hs _ (Or.inl rfl)).2.1]; exact hp
  exact h.loc f hf w.g g' h.reach hr' (hi.graph.parAlive _ _ h.alive hp) (hi'.graph.parAlive _ _ ha' hp') (hs.of_dep hd)

theorem WInv.graph (hn : NameInj cfg) (hsh : ShuffleOK cfg) {w : World V R} (h : WInv cfg w) {op : Op V} (hsafe : op.Safe w.g)
    (hne : op ≠ .clearNewX w.p.self) {g' : State V} (hst : Step cfg w.g op g') (ha' : g'.alive w.p.self = true)
    (hatt : ∀ f ∈ w.p.funcs, f.owner ∈ (g'.obj w.p.self).parents) : WInv cfg { w with g := g' } := by
  have hr' : Reachable cfg g' := .step h.reach hsafe hst
  refine ⟨hr', ha', hatt, h.loc, h.inpNonneg, h.wts, h.nowts, fun hx => ?_⟩
  have hx : (g'.obj w.p.self).newX = false := hx
  obtain ⟨h1, h2⟩ := Graph.step_inputs hn hsh (h.reach.inv hn hsh) hsafe hst h.alive
  have hold : (w.g.obj w.p.self).newX = false := by
    by_contra hc
    have := h2 hne (by simpa using hc)
    rw [hx] at this; cases this
  rcases h1 with hN | hs
  · have := hN.1; rw [hx] at this; cases this
  · have hl : loop { w with g := g' } = loop w := evalLoop_congr _ _ _ _ (calls_same hn hsh h hr' ha' hs)
    rw [hl]
    exact h.cache hold

theorem expand_nonneg {weights : List R} (h : ∀ v ∈ weights, 0 ≤ v) (outs : List (List R)) : ∀ v ∈ expand weights outs, 0 ≤ v := by
  intro v hv
  unfold expand at hv
  simp only [List.mem_flatten, List.mem_map] at hv
  obtain ⟨l, ⟨e, he, rfl⟩, hv⟩ := hv
  rw [(List.mem_replicate.mp hv).2]
  exact h _ (List.of_mem_zip he).2

/-- outcome of `if x is not None: self.x = x` -/
theorem assignX_inv (hn : NameInj cfg) (hsh : ShuffleOK cfg) {w : World V R} (h : WInv cfg w) (x : Option (List V)) :
    match assignX cfg x w with
    | .ok _ w' => WInv cfg w' ∧ w'.p = w.p ∧ (∀ j, (w'.g.obj j).uniq = (w.g.obj j).uniq ∧ (w'.g.obj j).dofs = (w.g.obj j).dofs) ∧
        (x = none → w' = w) ∧ (∀ v, x = some v → Graph.getX w'.g w.p.self = v)
    | .error e w' => e = .recursionError ∨ (e = .valueError ∧ w' = w) := by
  cases x with
  | none => exact ⟨h, rfl, fun _ => ⟨rfl, rfl⟩, fun _ => rfl, fun _ hv => by cases hv⟩
  | some v =>
    have e : assignX cfg (some v) w = liftG (Graph.setX cfg w.p.self v) w := rfl
    rw [e]
    unfold liftG
    have hi := h.reach.inv hn hsh
    have hex : Graph.exec cfg (.setX w.p.self v) w.g = Graph.setX cfg w.p.self v w.g := rfl
    rcases Graph.setX_outcome hn hsh h.reach w.p.self h.alive v with ⟨_, e⟩ | ⟨_, ⟨s1, e, _⟩ | ⟨s1, e, hi1, vr, hv, _⟩⟩
    · rw [hex] at e; rw [e]; exact Or.inr ⟨rfl, rfl⟩
    · rw [hex] at e; rw [e]; exact Or.inl rfl
    · have e' := e
      rw [hex] at e; rw [e]
      have st := vr.flag.static
      refine ⟨h.graph hn hsh (op := .setX w.p.self v) h.alive (by intro hc; cases hc) (Or.inl e') ?_ ?_, rfl, ?_, ?_, ?_⟩
      · rw [vr.alive]; exact h.alive
      · intro f hf; rw [st.parents]; exact h.att f hf
      · intro j; exact ⟨(vr.flag.fields j).2.1, st.dofs j⟩
      · intro hc; cases hc
      · intro u hu
        injection hu with hu
        subst hu
        unfold Graph.getX
        rw [(vr.flag.fields _).2.1]
        simp only [st.dofs]
        exact hv

theorem cleared_inv (hn : NameInj cfg) (hsh : ShuffleOK cfg) {w : World V R} (h : WInv cfg w) :
    Reachable cfg (cleared w) ∧ (cleared w).alive w.p.self = true ∧ ((cleared w).obj w.p.self).newX = false ∧
    (∀ f ∈ w.p.funcs, f.owner ∈ ((cleared w).obj w.p.self).parents) ∧ (∀ f ∈ w.p.funcs, f.call (cleared w) = f.call w.g) ∧
    Graph.Static w.g (cleared w) ∧ (∀ j, ((cleared w).obj j).uniq = (w.g.obj j).uniq) := by
  have hr : Reachable cfg (cleared w) := .step (op := .clearNewX w.p.self) h.reach trivial (Or.inl rfl)
  have hc : Graph.Cleared w.g (cleared w) := ⟨_, rfl⟩
  have sm := hc.static
  have ha : (cleared w).alive w.p.self = true := by rw [sm.alive]; exact h.alive
  refine ⟨hr, ha, ?_, ?_, ?_, sm, fun j => hc.field Graph.Obj.uniq (fun _ _ => rfl) j⟩
  · show (Graph.upd w.g.obj w.p.self _ w.p.self).newX = false
    rw [Graph.upd_same]
  · intro f hf; rw [sm.parents]; exact h.att f hf
  · exact calls_same hn hsh h hr ha (fun a _ => ⟨sm.name a, sm.parents a, sm.dofs a, by rw [sm.dof], by rw [sm.dof]⟩)

theorem loop_weights (h : WInv cfg w) {ws os : List R} (hl : (loop w).1 = .done ws os) : ∀ v ∈ ws, 0 ≤ v := by
  have := evalLoop_spec w.g w.p.goals w.p.inpWeights w.p.funcs 0
  have e : evalLoop w.g w.p.goals w.p.inpWeights 0 w.p.funcs = (.done ws os, (loop w).2) := by
    rw [← hl]; rfl
  rw [e] at this
  obtain ⟨outs, _, _, _, _, e5, _⟩ := this
  rw [e5]
  exact expand_nonneg (by simpa using h.inpNonneg) outs

/-- Everything about one evaluation from a world satisfying the invariant. -/
theorem compute_inv (hn : NameInj cfg) (hsh : ShuffleOK cfg) {w : World V R} (h : WInv cfg w) :
    match compute w with
    | .ok r w' => WInv cfg w' ∧ w'.p.goals = w.p.goals ∧ w'.p.inpWeights = w.p.inpWeights ∧ w'.p.funcs = w.p.funcs ∧
        w'.p.fail = w.p.fail ∧ w'.p.self = w.p.self ∧ w'.p.firstEval = false ∧
        (∀ f ∈ w.p.funcs, f.call w'.g = f.call w.g) ∧
        w'.g.dof = w.g.dof ∧ (∀ j, (w'.g.obj j).uniq = (w.g.obj j).uniq ∧ (w'.g.obj j).dofs = (w.g.obj j).dofs) ∧
        (w'.g.obj w.p.self).newX = false ∧ w'.p.cache = some r ∧
        ((∃ ws, (loop w').1 = .done ws r ∧ w'.p.weights = some ws ∧ w'.p.funcs ≠ []) ∨
         ((loop w').1 = .failed ∧ w.p.firstEval = false ∧ w'.p.weights = w.p.weights ∧ w'.p.nvals = w.p.nvals ∧
           ∃ v, w.p.fail = some v ∧ r = List.replicate w.p.nvals v))
    | .error e w' => WInv cfg w' ∧ w'.g = w.g ∧ w'.p.goals = w.p.goals ∧ w'.p.inpWeights = w.p.inpWeights ∧ w'.p.funcs = w.p.funcs ∧
        w'.p.fail = w.p.fail ∧ w'.p.self = w.p.self ∧ (w.g.obj w.p.self).newX = true ∧
        ((loop w).1 = .raised e ∨ ((loop w).1 = .failed ∧ e = .objectiveFailure ∧ (w.p.fail = none ∨ w.p.firstEval = true)) ∨
          (w.p.funcs = [] ∧ e = .valueError)) := by
  by_cases hx : (w.g.obj w.p.self).newX = true
  · rw [compute_fresh hx]
    have bg : (bump w).goals = w.p.goals ∧ (bump w).inpWeights = w.p.inpWeights ∧ (bump w).funcs = w.p.funcs ∧ (bump w).fail = w.p.fail ∧
        (bump w).self = w.p.self ∧ (bump w).firstEval = w.p.firstEval ∧ (bump w).weights = w.p.weights ∧ (bump w).cache = w.p.cache ∧
        (w.p.firstEval = false → (bump w).nvals = w.p.nvals) := by
      unfold bump; split
      · rename_i hc; exact ⟨rfl, rfl, rfl, rfl, rfl, rfl, rfl, rfl, fun h => by rw [hc] at h; cases h⟩
      · exact ⟨rfl, rfl, rfl, rfl, rfl, rfl, rfl, rfl, fun _ => rfl⟩
    obtain ⟨b1, b2, b3, b4, b5, b6, b7, b8, b9⟩ := bg
    have wb : WInv cfg { w with p := bump w } := by
      refine ⟨h.reach, by simp only [b5]; exact h.alive, by simp only [b5, b3]; exact h.att, by simp only [b3]; exact h.loc,
        by simp only [b2]; exact h.inpNonneg, by simp only [b6, b7]; exact h.wts, by simp only [b6, b7]; exact h.nowts, fun hc => ?_⟩
      simp only [b5, hx] at hc; cases hc
    obtain ⟨c1, c2, c3, c4, c5, c6, c7⟩ := cleared_inv hn hsh h
    cases hl : (loop w).1 with
    | raised e =>
      exact ⟨wb, rfl, b1, b2, b3, b4, b5, hx, Or.inl rfl⟩
    | failed =>
      simp only
      by_cases hf : w.p.firstEval = true
      · rw [if_pos hf]; exact ⟨wb, rfl, b1, b2, b3, b4, b5, hx, Or.inr (Or.inl ⟨trivial, rfl, Or.inr hf⟩)⟩
      · rw [if_neg hf]
        have hf : w.p.firstEval = false := by simpa using hf
        cases hfl : w.p.fail with
        | none => exact ⟨wb, rfl, b1, b2, b3, by rw [b4, hfl], b5, hx, Or.inr (Or.inl ⟨trivial, rfl, Or.inl rfl⟩)⟩
        | some v =>
          have hl' : loop { g := cleared w, p := { w.p with cache := some (List.replicate w.p.nvals v), fail := some v } } = loop w :=
            evalLoop_congr _ _ _ _ c5
          refine ⟨⟨c1, c2, c4, h.loc, h.inpNonneg, h.wts, h.nowts, fun _ => ?_⟩, rfl, rfl, rfl, rfl, rfl, hf, c5, c6.dof, fun j => ⟨c7 j, c6.dofs j⟩, c3, rfl, Or.inr ?_⟩
          · rw [hl', hl]; exact ⟨v, rfl, hf, rfl⟩
          · refine ⟨?_, hf, rfl, rfl, v, rfl, rfl⟩
            rw [hl', hl]
    | done ws os =>
      simp only
      by_cases hE : w.p.funcs.isEmpty = true
      · rw [if_pos hE]
        refine ⟨⟨h.reach, by simp only [b5]; exact h.alive, by simp only [b5, b3]; exact h.att, by simp only [b3]; exact h.loc,
          by simp only [b2]; exact h.inpNonneg, fun _ => ⟨ws, rfl, loop_weights h hl⟩, (fun hc => by cases hc), fun hc => ?_⟩,
          rfl, b1, b2, b3, b4, b5, hx, Or.inr (Or.inr ⟨by simpa using hE, rfl⟩)⟩
        simp only [b5, hx] at hc; cases hc
      · rw [if_neg hE]
        have hE' : w.p.funcs ≠ [] := by simpa using hE
        have hl' : loop { g := cleared w, p := { bump w with firstEval := false, weights := some ws, cache := some os } } = loop w := by
          unfold loop
          simp only [b1, b2, b3]
          exact evalLoop_congr _ _ _ _ c5
        refine ⟨⟨c1, by simp only [b5]; exact c2, by simp only [b5, b3]; exact c4, by simp only [b3]; exact h.loc, by simp only [b2]; exact h.inpNonneg,
          fun _ => ⟨ws, rfl, loop_weights h hl⟩, (fun hc => by cases hc), fun _ => ?_⟩, b1, b2, b3, b4, b5, rfl, c5, c6.dof, fun j => ⟨c7 j, c6.dofs j⟩, c3, rfl, Or.inl ⟨ws, ?_, rfl, by simp only [b3]; exact hE'⟩⟩
        · rw [hl', hl]; exact ⟨rfl, rfl, by simp only [b3]; exact hE', rfl⟩
        · rw [hl', hl]
  · have hx : (w.g.obj w.p.self).newX = false := by simpa using hx
    rw [compute_cached hx]
    have hc := h.cache hx
    cases hl : (loop w).1 with
    | raised e => rw [hl] at hc; exact hc.elim
    | failed =>
      rw [hl] at hc
      obtain ⟨v, h1, h2, h3⟩ := hc
      rw [h3]
      exact ⟨h, rfl, rfl, rfl, rfl, rfl, h2, fun _ _ => rfl, rfl, fun _ => ⟨rfl, rfl⟩, hx, h3, Or.inr ⟨hl, h2, rfl, rfl, v, h1, rfl⟩⟩
    | done ws os =>
      rw [hl] at hc
      obtain ⟨h1, h2, h3, h4⟩ := hc
      rw [h1]
      exact ⟨h, rfl, rfl, rfl, rfl, rfl, h4, fun _ _ => rfl, rfl, fun _ => ⟨rfl, rfl⟩, hx, h1, Or.inl ⟨ws, hl, h2, h3⟩⟩

end
end Simsopt.LSq
