import Verif.LeastSquares.Inv
import Mathlib.Tactic.FieldSimp
/-!
Helper lemmas: construction of a least-squares problem, and the invariant
-/
namespace Simsopt.LSq
open Simsopt
open Simsopt.Graph (State Cfg Op Reachable SameInputs Step Inv NameInj ShuffleOK DependsOn Notified)
variable {V R : Type} {cfg : Cfg V}

/-! ### construction -/

theorem new_ok (hn : NameInj cfg) (hsh : ShuffleOK cfg) {g : State V} (hr : Reachable cfg g) {cls : Nat} {deps : List Nat} {dedup : Bool}
    (hd : ∀ p ∈ deps, g.alive p = true) {i : Nat} {g' : State V}
    (he : Graph.new cfg cls (.fresh {}) false deps dedup g = .ok i g') :
    i = g.nobj ∧ Reachable cfg g' ∧ g'.alive i = true ∧ (∀ p, p ∈ (g'.obj i).parents ↔ p ∈ deps) ∧ (g'.obj i).newX = true ∧
    g'.nobj = g.nobj + 1 ∧ (∀ j, j < g.nobj → (g'.obj j).parents = (g.obj j).parents) ∧ (∀ j, g.alive j = true → g'.alive j = true) ∧
    ((g'.obj i).parents = if dedup then Graph.dedupOn (fun a => (g.obj a).name) deps else deps) := by
  have hi := hr.inv hn hsh
  have hex : Graph.exec cfg (.new cls (.fresh {}) false deps dedup) g = .ok () g' := by
    show (do discard (Graph.new cfg cls (.fresh {}) false deps dedup) : Graph.M V Unit) g = _
    rw [Graph.discard_run, he]
  have hr' : Reachable cfg g' := .step hr (op := .new cls (.fresh {}) false deps dedup) ⟨hd, trivial⟩ (Or.inl hex)
  rw [Graph.new_fresh_eq, Graph.run_bind] at he
  rcases Graph.newDofs_spec hn {} g hi with ⟨e, _, h1⟩ | ⟨r, _, h1, h2⟩
  · rw [h1] at he; cases he
  · rw [h1] at he
    simp only at he
    rcases Graph.newWith_spec' hn hsh cls g.ndof false deps dedup _ h2 (Nat.lt_succ_self _) hd with ⟨s', e⟩ | ⟨ps, s', hps, _, e, ok⟩
    · rw [e] at he; cases he
    · rw [e] at he; cases he
      subst hps
      obtain ⟨_, k, nb, al, _, _, pp, _, _, _, _, old, nx⟩ := ok
      refine ⟨rfl, hr', ?_, ?_, nx, nb, ?_, ?_, pp⟩
      · rw [al]; exact Graph.upd_same _ _ _
      · intro p
        rw [pp]
        split
        · apply Graph.mem_dedupOn
          intro a ha b hb he
          exact h2.graph.name_inj hn (h2.graph.lt a (hd a ha)) (h2.graph.lt b (hd b hb)) he
        · rfl
      · intro j hj; exact (old j hj).1
      · intro j hj
        rw [al]
        unfold Graph.upd
        split
        · rfl
        · exact hj

theorem linkFns_owner (fm : FnMap V R) (child parent : Nat) : ∀ (l : List (RetFn V R)) (reg : Registry V R) {reg' fs},
    linkFns fm child parent l reg = .ok (reg', fs) → fs = l.map (fun f => ⟨parent, f⟩)
  | [], _, _, _, h => by injection h with h; injection h with _ h; exact h.symm
  | f :: l, reg, reg', fs, h => by
    unfold linkFns at h
    cases h1 : addReturnFn fm reg parent child f with
    | error e => rw [h1] at h; cases h
    | ok reg1 =>
      rw [h1] at h
      cases h2 : linkFns fm child parent l reg1 with
      | error e => simp only [bind, Except.bind, h2] at h; cases h
      | ok r =>
        obtain ⟨reg2, fs2⟩ := r
        simp only [bind, Except.bind, h2] at h
        injection h with h; injection h with _ h
        rw [← h, linkFns_owner fm child parent l reg1 h2]; rfl

theorem linkDepends_owner (fm : FnMap V R) (child : Nat) (opt : List (List (RetFn V R))) : ∀ (ps : List Nat) (i : Nat) (reg : Registry V R) {reg' fs},
    linkDepends fm child opt i ps reg = .ok (reg', fs) → ∀ f ∈ fs, f.owner ∈ ps
  | [], _, _, _, _, h, f, hf => by injection h with h; injection h with _ h; rw [← h] at hf; cases hf
  | p :: ps, i, reg, reg', fs, h, f, hf => by
    unfold linkDepends at h
    cases h0 : fnsAt fm opt i p with
    | error e => rw [h0] at h; cases h
    | ok fns =>
      cases h1 : linkFns fm child p fns reg with
      | error e => simp only [bind, Except.bind, h0, h1] at h; cases h
      | ok r =>
        cases h2 : linkDepends fm child opt (i + 1) ps r.1 with
        | error e => simp only [bind, Except.bind, h0, h1, h2] at h; cases h
        | ok r2 =>
          simp only [bind, Except.bind, h0, h1, h2] at h
          injection h with h; injection h with _ h
          rw [← h] at hf
          rcases List.mem_append.mp hf with hf | hf
          · rw [linkFns_owner fm child p _ _ h1] at hf
            obtain ⟨_, _, rfl⟩ := List.mem_map.mp hf
            exact List.mem_cons_self
          · exact List.mem_cons_of_mem _ (linkDepends_owner fm child opt ps _ _ h2 f hf)

section
variable [Field R] [LinearOrder R]

/-- What the constructor builds. -/
theorem create_ok (hn : NameInj cfg) (hsh : ShuffleOK cfg) {g : State V} (hr : Reachable cfg g) {cls : Nat} {fm : FnMap V R}
    {reg : Registry V R} {goals weights : NumArg R} {src : Source V R} {fail : Option R} (hs : src.Safe g) {w : World V R}
    {reg' : Registry V R} (he : create cfg cls fm reg g goals weights src fail = .ok (w, reg')) :
    Reachable cfg w.g ∧ w.g.alive w.p.self = true ∧ (∀ f ∈ w.p.funcs, f.owner ∈ (w.g.obj w.p.self).parents) ∧
    (w.g.obj w.p.self).newX = true ∧ w.p.goals = goals.toList ∧ w.p.inpWeights = weights.toList ∧ w.p.fail = fail ∧
    (∀ v ∈ w.p.inpWeights, 0 ≤ v) ∧ w.p.nvals = 0 ∧ w.p.firstEval = true ∧ w.p.weights = none ∧ w.p.cache = none ∧
    w.p.self = g.nobj ∧ w.g.nobj = g.nobj + 1 ∧ (∀ j, j < g.nobj → (w.g.obj j).parents = (g.obj j).parents) ∧
    (∀ j, g.alive j = true → w.g.alive j = true) ∧
    (match src with
      | .funcs l => w.p.funcs = l ∧ reg' = linkFuncs g.nobj l reg ∧
          (w.g.obj w.p.self).parents = Graph.dedupOn (fun a => (g.obj a).name) (l.map (·.owner))
      | .depends ps opt => linkDepends fm g.nobj opt 0 ps reg = .ok (reg', w.p.funcs) ∧ (w.g.obj w.p.self).parents = ps) := by
  unfold create at he
  split at he
  · cases he
  · rename_i hneg
    have hw : ∀ v ∈ weights.toList, 0 ≤ v := by
      intro v hv
      by_contra hc
      exact hneg (List.any_eq_true.mpr ⟨v, hv, by simpa using hc⟩)
    cases src with
    | funcs l =>
      simp only at he
      split at he
      · cases he
      · rename_i i g' hnew
        injection he with he; injection he with he1 he2
        subst he1; subst he2
        obtain ⟨h1, h2, h3, h4, h5, h6, h7, h8, h9⟩ := new_ok hn hsh hr (by
          intro p hp; obtain ⟨f, hf, rfl⟩ := List.mem_map.mp hp; exact hs f hf) hnew
        refine ⟨h2, h3, ?_, h5, rfl, rfl, rfl, hw, rfl, rfl, rfl, rfl, h1, h6, h7, h8, rfl, rfl, by rw [h9]; rfl⟩
        intro f hf
        exact (h4 _).mpr (List.mem_map_of_mem hf)
    | depends ps opt =>
      cases ps with
      | nil =>
        simp only at he
        split at he
        · cases he
        · rename_i i g' hnew
          injection he with he; injection he with he1 he2
          subst he1; subst he2
          obtain ⟨h1, h2, h3, h4, h5, h6, h7, h8, h9⟩ := new_ok hn hsh hr (by intro p hp; cases hp) hnew
          exact ⟨h2, h3, (by intro f hf; cases hf), h5, rfl, rfl, rfl, hw, rfl, rfl, rfl, rfl, h1, h6, h7, h8, rfl, by rw [h9]; rfl⟩
      | cons p ps =>
        simp only at he
        split at he
        · cases he
        · rename_i reg1 fs hl
          split at he
          · cases he
          · rename_i i g' hnew
            injection he with he; injection he with he1 he2
            subst he1; subst he2
            obtain ⟨h1, h2, h3, h4, h5, h6, h7, h8, h9⟩ := new_ok hn hsh hr hs hnew
            refine ⟨h2, h3, ?_, h5, rfl, rfl, rfl, hw, rfl, rfl, rfl, rfl, h1, h6, h7, h8, hl, by rw [h9]; rfl⟩
            intro f hf
            exact (h4 _).mpr (linkDepends_owner fm _ _ _ _ _ hl f hf)

theorem unweighted_eq (cfg : Cfg V) (x : Option (List V)) (w : World V R) :
    unweighted cfg x w = match assignX cfg x w with | .ok _ w' => compute w' | .error e w' => .error e w' := by
  unfold unweighted; rw [rb]; cases assignX cfg x w <;> rfl

theorem residuals_eq (sqrt : R → R) (cfg : Cfg V) (x : Option (List V)) (w : World V R) :
    residuals sqrt cfg x w = match unweighted cfg x w with
      | .ok u w' => (match w'.p.weights with
        | none => .error .attributeError w'
        | some ws => match npMul u (ws.map sqrt) with | .ok r => .ok r w' | .error e => .error e w')
      | .error e w' => .error e w' := by
  unfold residuals; rw [rb]
  cases unweighted cfg x w with
  | ok u w' =>
    simp only [rb, rg]
    cases w'.p.weights with
    | none => rfl
    | some ws => simp only; cases npMul u (ws.map sqrt) <;> rfl
  | error e w' => rfl

theorem objective_eq (cfg : Cfg V) (x : Option (List V)) (w : World V R) :
    objective cfg x w = match unweighted cfg x w with
      | .ok u w' => (match w'.p.weights with
        | none => (match u with | [] => .ok 0 w' | _ => .error .attributeError w')
        | some ws => match accum ws 0 0 u with | .ok r => .ok r w' | .error e => .error e w')
      | .error e w' => .error e w' := by
  unfold objective; rw [rb]
  cases unweighted cfg x w with
  | ok u w' =>
    simp only [rb, rg]
    cases w'.p.weights with
    | none => cases u <;> rfl
    | some ws => simp only; cases accum ws 0 0 u <;> rfl
  | error e w' => rfl

theorem unweighted_inv (hn : NameInj cfg) (hsh : ShuffleOK cfg) {w : World V R} (h : WInv cfg w) (x : Option (List V)) :
    match unweighted cfg x w with
    | .ok _ w' => WInv cfg w'
    | .error e w' => e = .recursionError ∨ WInv cfg w' := by
  rw [unweighted_eq]
  have ha := assignX_inv hn hsh h x
  cases he : assignX cfg x w with
  | error e w' =>
    rw [he] at ha
    exact ha.imp id (fun h1 => by rw [h1.2]; exact h)
  | ok u w' =>
    rw [he] at ha
    have hc := compute_inv hn hsh ha.1
    simp only
    cases he2 : compute w' with
    | ok r w2 => rw [he2] at hc; exact hc.1
    | error e w2 => rw [he2] at hc; exact Or.inr hc.1

theorem Created.inv (hn : NameInj cfg) (hsh : ShuffleOK cfg) {w : World V R} (hc : Created cfg w) :
    WInv cfg w ∧ w.p.nvals = 0 ∧ w.p.firstEval = true := by
  obtain ⟨g, cls, fm, reg, goals, weights, src, fail, reg', hg, hs, he, hloc⟩ := hc
  obtain ⟨h1, h2, h3, h4, _, _, _, h5, h8, h6, h7, _⟩ := create_ok hn hsh hg hs he
  refine ⟨⟨h1, h2, h3, hloc, h5, ?_, fun _ => h7, ?_⟩, h8, h6⟩
  · intro hc; rw [h6] at hc; cases hc
  · intro hc; rw [h4] at hc; cases hc
end
end Simsopt.LSq
