import Verif.LeastSquares.Build
/-! Helper lemmas: one evaluation of a least-squares problem, and histories. -/
namespace Simsopt.LSq
open Simsopt
open Simsopt.Graph (State Cfg Op Reachable SameInputs Step Inv NameInj ShuffleOK DependsOn Notified)
variable {V R : Type} {cfg : Cfg V}

section
variable [Field R] [LinearOrder R]

theorem loop_done {w : World V R} {ws os : List R} (h : (loop w).1 = .done ws os) :
    ∃ outs, Returns w.p.funcs w.g outs ∧ w.p.funcs.length ≤ w.p.goals.length ∧ w.p.funcs.length ≤ w.p.inpWeights.length ∧
      os = residualVector w.p.goals outs ∧ ws = expand w.p.inpWeights outs ∧ (loop w).2 = os.length := by
  have := evalLoop_spec w.g w.p.goals w.p.inpWeights w.p.funcs 0
  have e : evalLoop w.g w.p.goals w.p.inpWeights 0 w.p.funcs = (.done ws os, (loop w).2) := by rw [← h]; rfl
  rw [e] at this
  simpa using this

theorem loop_failed {w : World V R} (h : (loop w).1 = .failed) : Fails w.p.funcs w.g := by
  have := evalLoop_spec w.g w.p.goals w.p.inpWeights w.p.funcs 0
  have e : evalLoop w.g w.p.goals w.p.inpWeights 0 w.p.funcs = (.failed, (loop w).2) := by rw [← h]; rfl
  rw [e] at this
  exact this

theorem loop_raised {w : World V R} {e : Err} (h : (loop w).1 = .raised e) (hg : w.p.funcs.length ≤ w.p.goals.length)
    (hw : w.p.funcs.length ≤ w.p.inpWeights.length) : (∀ outs, ¬ Returns w.p.funcs w.g outs) ∧ ¬ Fails w.p.funcs w.g := by
  have := evalLoop_spec w.g w.p.goals w.p.inpWeights w.p.funcs 0
  have e : evalLoop w.g w.p.goals w.p.inpWeights 0 w.p.funcs = (.raised e, (loop w).2) := by rw [← h]; rfl
  rw [e] at this
  simp only [List.drop_zero] at this
  exact ⟨fun outs ho => this.1 ⟨⟨outs, ho⟩, hg, hw⟩, fun hf => this.2 ⟨hf, hg, hw⟩⟩

/-- fields that an evaluation never changes -/
def Same (w w' : World V R) : Prop :=
  w'.p.goals = w.p.goals ∧ w'.p.inpWeights = w.p.inpWeights ∧ w'.p.funcs = w.p.funcs ∧ w'.p.fail = w.p.fail ∧ w'.p.self = w.p.self

theorem Same.refl (w : World V R) : Same w w := ⟨rfl, rfl, rfl, rfl, rfl⟩
theorem Same.trans {a b c : World V R} (h : Same a b) (h' : Same b c) : Same a c :=
  ⟨h'.1.trans h.1, h'.2.1.trans h.2.1, h'.2.2.1.trans h.2.2.1, h'.2.2.2.1.trans h.2.2.2.1, h'.2.2.2.2.trans h.2.2.2.2⟩

theorem compute_nvals {w : World V R} (h : WInv cfg w) :
    match compute w with
    | .ok r w' => w'.p.nvals = (if w.p.firstEval then w.p.nvals + r.length else w.p.nvals)
    | .error _ w' => (w.p.firstEval = false → w'.p.nvals = w.p.nvals ∧ w'.p.firstEval = false) ∧
        (w.p.funcs ≠ [] → w'.p.firstEval = w.p.firstEval ∧ w'.p.weights = w.p.weights) := by
  by_cases hx : (w.g.obj w.p.self).newX = true
  · rw [compute_fresh hx]
    have hbf : (bump w).firstEval = w.p.firstEval := by unfold bump; split <;> rfl
    have hbw : (bump w).weights = w.p.weights := by unfold bump; split <;> rfl
    have hbn : w.p.firstEval = false → (bump w).nvals = w.p.nvals := by intro hc; unfold bump; rw [if_neg (by simp [hc])]
    cases hl : (loop w).1 with
    | raised e => exact ⟨fun hc => ⟨hbn hc, hbf.trans hc⟩, fun _ => ⟨hbf, hbw⟩⟩
    | failed =>
      simp only
      by_cases hf : w.p.firstEval = true
      · rw [if_pos hf]; exact ⟨fun hc => ⟨hbn hc, hbf.trans hc⟩, fun _ => ⟨hbf, hbw⟩⟩
      · rw [if_neg hf]
        cases w.p.fail with
        | none => exact ⟨fun hc => ⟨hbn hc, hbf.trans hc⟩, fun _ => ⟨hbf, hbw⟩⟩
        | some v => simp only; rw [if_neg hf]
    | done ws os =>
      simp only
      by_cases hE : w.p.funcs.isEmpty = true
      · rw [if_pos hE]
        exact ⟨fun hc => ⟨hbn hc, rfl⟩, fun hne => absurd (by simpa using hE) hne⟩
      · rw [if_neg hE]
        simp only
        obtain ⟨_, _, _, _, _, _, hlen⟩ := loop_done hl
        unfold bump
        split
        · rw [hlen]
        · rfl
  · have hx : (w.g.obj w.p.self).newX = false := by simpa using hx
    rw [compute_cached hx]
    have hc := h.cache hx
    cases hl : (loop w).1 with
    | raised e => rw [hl] at hc; exact hc.elim
    | failed =>
      rw [hl] at hc
      obtain ⟨v, _, h2, h3⟩ := hc
      rw [h3]; simp only; rw [if_neg (by simp [h2])]
    | done ws os =>
      rw [hl] at hc
      obtain ⟨h1, _, _, h4⟩ := hc
      rw [h1]; simp only; rw [if_neg (by simp [h4])]

/-- Everything about `unweighted_residuals(x)`. -/
theorem unweighted_out (hn : NameInj cfg) (hsh : ShuffleOK cfg) {w : World V R} (h : WInv cfg w) (x : Option (List V)) :
    match unweighted cfg x w with
    | .ok r w' => WInv cfg w' ∧ Same w w' ∧ w'.p.firstEval = false ∧
        w'.p.nvals = (if w.p.firstEval then w.p.nvals + r.length else w.p.nvals) ∧
        ((∃ outs, Returns w.p.funcs w'.g outs ∧ w.p.funcs ≠ [] ∧ w.p.funcs.length ≤ w.p.goals.length ∧
            w.p.funcs.length ≤ w.p.inpWeights.length ∧ r = residualVector w.p.goals outs ∧ w'.p.weights = some (expand w.p.inpWeights outs)) ∨
         (Fails w.p.funcs w'.g ∧ w.p.firstEval = false ∧ w'.p.weights = w.p.weights ∧ w'.p.nvals = w.p.nvals ∧
           ∃ v, w.p.fail = some v ∧ r = List.replicate w.p.nvals v)) ∧
        (∀ v, x = some v → Graph.getX w'.g w.p.self = v) ∧
        (x = none → (∀ f ∈ w.p.funcs, f.call w'.g = f.call w.g) ∧ w'.g.dof = w.g.dof)
    | .error e w' => e = .recursionError ∨ (WInv cfg w' ∧ Same w w' ∧
        (w.p.firstEval = false → w'.p.nvals = w.p.nvals ∧ w'.p.firstEval = false) ∧
        (w.p.funcs ≠ [] → w'.p.firstEval = w.p.firstEval ∧ w'.p.weights = w.p.weights) ∧
        ((e = .valueError ∧ w' = w) ∨ (∃ w1, assignX cfg x w = .ok () w1 ∧ compute w1 = .error e w'))) := by
  rw [unweighted_eq]
  have ha := assignX_inv hn hsh h x
  cases he : assignX cfg x w with
  | error e w' =>
    rw [he] at ha
    refine ha.imp id (fun h1 => ?_)
    obtain ⟨h1, h2⟩ := h1
    subst h2
    exact ⟨h, Same.refl _, fun hc => ⟨rfl, hc⟩, fun _ => ⟨rfl, rfl⟩, Or.inl ⟨h1, rfl⟩⟩
  | ok u w1 =>
    rw [he] at ha
    obtain ⟨a1, a2, a3, a4, a5⟩ := ha
    have hc := compute_inv hn hsh a1
    have hnv := compute_nvals a1
    have sm : Same w w1 := ⟨by rw [a2], by rw [a2], by rw [a2], by rw [a2], by rw [a2]⟩
    simp only
    cases he2 : compute w1 with
    | ok r w2 =>
      rw [he2] at hc hnv
      obtain ⟨c1, c2, c3, c4, c5, c6, c7, c8, c9, c10, c11, c12, c13⟩ := hc
      refine ⟨c1, sm.trans ⟨c2, c3, c4, c5, c6⟩, c7, by rw [hnv, a2], ?_, ?_, ?_⟩
      · rcases c13 with ⟨ws, d1, d2, d3⟩ | ⟨d1, d2, d3, d4, v, d5, d6⟩
        · left
          obtain ⟨outs, e1, e2, e3, e4, e5, _⟩ := loop_done d1
          rw [c4, a2] at e1 e2 e3 d3
          rw [c2, a2] at e2 e4
          rw [c3, a2] at e3 e5
          exact ⟨outs, e1, d3, e2, e3, e4, by rw [d2, e5]⟩
        · right
          refine ⟨?_, by rw [← a2]; exact d2, by rw [d3, a2], by rw [d4, a2], v, by rw [← a2]; exact d5, by rw [d6, a2]⟩
          have := loop_failed d1
          rw [c4, a2] at this
          exact this
      · intro v hv
        have := a5 v hv
        unfold Graph.getX at this ⊢
        rw [(c10 _).1, c9]
        simp only [(c10 _).2]
        exact this
      · intro hx
        have := a4 hx
        subst this
        exact ⟨c8, c9⟩
    | error e w2 =>
      rw [he2] at hc hnv
      obtain ⟨c1, c2, c3, c4, c5, c6, c7, _⟩ := hc
      refine Or.inr ⟨c1, sm.trans ⟨c3, c4, c5, c6, c7⟩, ?_, ?_, Or.inr ⟨w1, rfl, he2⟩⟩
      · rw [← a2]; exact hnv.1
      · rw [← a2]; exact hnv.2

/-! ### numeric identities -/

theorem residualVector_length (goals : List R) : ∀ (outs : List (List R)), outs.length ≤ goals.length →
    (residualVector goals outs).length = (outs.map List.length).sum := by
  intro outs
  induction outs generalizing goals with
  | nil => intro _; rfl
  | cons o outs ih =>
    intro h
    cases goals with
    | nil => cases h
    | cons g goals =>
      have := ih goals (by simpa using h)
      unfold residualVector at this ⊢
      simp [List.zip_cons_cons, this]

theorem expand_length (weights : List R) : ∀ (outs : List (List R)), outs.length ≤ weights.length →
    (expand weights outs).length = (outs.map List.length).sum := by
  intro outs
  induction outs generalizing weights with
  | nil => intro _; rfl
  | cons o outs ih =>
    intro h
    cases weights with
    | nil => cases h
    | cons g weights =>
      have := ih weights (by simpa using h)
      unfold expand at this ⊢
      simp [List.zip_cons_cons, this]

theorem accum_eq (ws : List R) : ∀ (u : List R) (i : Nat) (s : R), u.length ≤ (ws.drop i).length →
    accum ws i s u = .ok (s + (List.zipWith (fun v w => v * v * w) u (ws.drop i)).sum)
  | [], i, s, _ => by simp [accum]
  | v :: u, i, s, h => by
    have hi : i < ws.length := by simp only [List.length_cons, List.length_drop] at h; omega
    have hd : ws.drop i = ws[i] :: ws.drop (i + 1) := List.drop_eq_getElem_cons hi
    unfold accum
    rw [List.getElem?_eq_getElem hi]
    simp only
    rw [accum_eq ws u (i + 1) _ (by simp only [List.length_cons, List.length_drop] at h ⊢; omega), hd]
    simp only [List.zipWith_cons_cons, List.sum_cons, add_assoc]

theorem accum_short (ws : List R) : ∀ (u : List R) (i : Nat) (s : R) {v : R}, accum ws i s u = .ok v → u.length ≤ (ws.drop i).length
  | [], i, s, _, _ => Nat.zero_le _
  | a :: u, i, s, v, h => by
    unfold accum at h
    cases hi : ws[i]? with
    | none => rw [hi] at h; cases h
    | some wt =>
      rw [hi] at h
      have hlt := (List.getElem?_eq_some_iff.mp hi).1
      have := accum_short ws u (i + 1) _ h
      simp only [List.length_cons, List.length_drop] at this ⊢
      omega

theorem squares_eq (goals weights : List R) : ∀ (outs : List (List R)), outs.length ≤ goals.length → outs.length ≤ weights.length →
    (List.zipWith (fun v w => v * v * w) (residualVector goals outs) (expand weights outs)).sum = weightedSquares goals weights outs := by
  intro outs
  induction outs generalizing goals weights with
  | nil => intro _ _; rfl
  | cons o outs ih =>
    intro hg hw
    cases goals with
    | nil => cases hg
    | cons g goals =>
      cases weights with
      | nil => cases hw
      | cons w weights =>
        have := ih goals weights (by simpa using hg) (by simpa using hw)
        have e1 : residualVector (g :: goals) (o :: outs) = o.map (fun f => f - g) ++ residualVector goals outs := by simp [residualVector]
        have e2 : expand (w :: weights) (o :: outs) = List.replicate o.length w ++ expand weights outs := by simp [expand]
        have e3 : weightedSquares (g :: goals) (w :: weights) (o :: outs) = w * (o.map fun f => (f - g) ^ 2).sum + weightedSquares goals weights outs := by
          simp [weightedSquares]
        have e4 : (List.zipWith (fun v w => v * v * w) (o.map (fun f => f - g)) (List.replicate o.length w)).sum = w * (o.map fun f => (f - g) ^ 2).sum := by
          clear e1 e2 e3 hg hw
          induction o with
          | nil => simp
          | cons a o iho =>
            simp only [List.map_cons, List.length_cons, List.replicate_succ, List.zipWith_cons_cons, List.sum_cons, iho]
            ring
        rw [e1, e2, e3, List.zipWith_append (by simp), List.sum_append, this, e4]

theorem residual_squares (sqrt : R → R) : ∀ (u ws : List R), (∀ v ∈ ws, sqrt v * sqrt v = v) → u.length = ws.length →
    ((List.zipWith (· * ·) u (ws.map sqrt)).map (fun r => r ^ 2)).sum = (List.zipWith (fun v w => v * v * w) u ws).sum
  | [], [], _, _ => rfl
  | v :: u, w :: ws, h, hl => by
    have ih := residual_squares sqrt u ws (fun a ha => h a (List.mem_cons_of_mem _ ha)) (by simpa using hl)
    have hw := h w List.mem_cons_self
    simp only [List.map_cons, List.zipWith_cons_cons, List.sum_cons, ih]
    congr 1
    calc (v * sqrt w) ^ 2 = v * v * (sqrt w * sqrt w) := by ring
      _ = v * v * w := by rw [hw]
  | [], _ :: _, _, hl => by cases hl
  | _ :: _, [], _, hl => by cases hl

theorem Returns.length {fs : List (Bound V R)} {g : State V} {outs : List (List R)} (h : Returns fs g outs) : outs.length = fs.length :=
  (List.Forall₂.length_eq h).symm

/-! ### histories -/

structure HInv (cfg : Cfg V) (early : Prop) (w0 w : World V R) (b : Bool) : Prop where
  inv : WInv cfg w
  same : Same w0 w
  succ : b = true → w.p.firstEval = false ∧ w.p.funcs ≠ [] ∧ w.p.funcs.length ≤ w.p.goals.length ∧ w.p.funcs.length ≤ w.p.inpWeights.length
  none : b = false → w.p.funcs ≠ [] → w.p.firstEval = true
  len : ∀ lens, FixedLengths w.p.funcs lens → ¬ early →
    (b = false → w.p.nvals = 0) ∧ (b = true → w.p.nvals = lens.sum ∧ ∃ ws, w.p.weights = some ws ∧ ws.length = lens.sum)

theorem npMul_same {a b : List R} (h : a.length = b.length) : npMul a b = .ok (List.zipWith (· * ·) a b) := by
  unfold npMul; rw [if_pos h]

/-- the effect of any of the three calls is that of `unweighted_residuals`, and they return whenever the vector is as long as the weights -/
theorem call_unweighted (sqrt : R → R) (cfg : Cfg V) (c : Call V) (w : World V R) :
    ∃ x, (∀ w', c.run sqrt cfg w = .ok () w' → ∃ r, LSq.unweighted cfg x w = .ok r w') ∧
      (∀ e w', c.run sqrt cfg w = .error e w' → LSq.unweighted cfg x w = .error e w' ∨ ∃ r, LSq.unweighted cfg x w = .ok r w' ∧
        ¬ (∃ ws, w'.p.weights = some ws ∧ ws.length = r.length)) := by
  cases c with
  | unweighted x =>
    refine ⟨x, ?_, ?_⟩
    · intro w' he
      have he : (do discard (LSq.unweighted cfg x) : M V R Unit) w = _ := he
      rw [rd] at he
      cases hu : LSq.unweighted cfg x w <;> rw [hu] at he <;> cases he
      exact ⟨_, rfl⟩
    · intro e w' he
      have he : (do discard (LSq.unweighted cfg x) : M V R Unit) w = _ := he
      rw [rd] at he
      cases hu : LSq.unweighted cfg x w <;> rw [hu] at he <;> cases he
      exact Or.inl rfl
  | residuals x =>
    have e0 : Call.run sqrt cfg (.residuals x) w = (do discard (LSq.residuals sqrt cfg x) : M V R Unit) w := rfl
    rw [e0, rd, residuals_eq]
    refine ⟨x, ?_, ?_⟩
    · intro w' he
      cases hu : LSq.unweighted cfg x w with
      | error e w1 => rw [hu] at he; cases he
      | ok r w1 =>
        rw [hu] at he
        simp only at he
        cases hw : w1.p.weights with
        | none => rw [hw] at he; cases he
        | some ws =>
          rw [hw] at he
          simp only at he
          cases hm : npMul r (ws.map sqrt) with
          | error e => rw [hm] at he; cases he
          | ok v => rw [hm] at he; cases he; exact ⟨r, rfl⟩
    · intro e w' he
      cases hu : LSq.unweighted cfg x w with
      | error e w1 => rw [hu] at he; cases he; exact Or.inl rfl
      | ok r w1 =>
        rw [hu] at he
        simp only at he
        cases hw : w1.p.weights with
        | none =>
          rw [hw] at he; cases he
          exact Or.inr ⟨r, rfl, by rintro ⟨ws, h1, _⟩; rw [hw] at h1; cases h1⟩
        | some ws =>
          rw [hw] at he
          simp only at he
          cases hm : npMul r (ws.map sqrt) with
          | error e =>
            rw [hm] at he; cases he
            refine Or.inr ⟨r, rfl, ?_⟩
            rintro ⟨ws', h1, h2⟩
            rw [hw] at h1; injection h1 with h1; subst h1
            rw [npMul_same (by simpa using h2.symm)] at hm; cases hm
          | ok v => rw [hm] at he; cases he
  | objective x =>
    have e0 : Call.run sqrt cfg (.objective x) w = (do discard (LSq.objective cfg x) : M V R Unit) w := rfl
    rw [e0, rd, objective_eq]
    refine ⟨x, ?_, ?_⟩
    · intro w' he
      cases hu : LSq.unweighted cfg x w with
      | error e w1 => rw [hu] at he; cases he
      | ok r w1 =>
        rw [hu] at he
        simp only at he
        cases hw : w1.p.weights with
        | none => rw [hw] at he; cases r <;> cases he; exact ⟨[], rfl⟩
        | some ws =>
          rw [hw] at he
          simp only at he
          cases hm : accum ws 0 0 r with
          | error e => rw [hm] at he; cases he
          | ok v => rw [hm] at he; cases he; exact ⟨r, rfl⟩
    · intro e w' he
      cases hu : LSq.unweighted cfg x w with
      | error e w1 => rw [hu] at he; cases he; exact Or.inl rfl
      | ok r w1 =>
        rw [hu] at he
        simp only at he
        cases hw : w1.p.weights with
        | none =>
          rw [hw] at he; cases r <;> cases he
          exact Or.inr ⟨_, rfl, by rintro ⟨ws, h1, _⟩; rw [hw] at h1; cases h1⟩
        | some ws =>
          rw [hw] at he
          simp only at he
          cases hm : accum ws 0 0 r with
          | error e =>
            rw [hm] at he; cases he
            refine Or.inr ⟨r, rfl, ?_⟩
            rintro ⟨ws', h1, h2⟩
            rw [hw] at h1; injection h1 with h1; subst h1
            rw [accum_eq ws r 0 0 (by simp [h2])] at hm; cases hm
          | ok v => rw [hm] at he; cases he

theorem Hist.inv (hn : NameInj cfg) (hsh : ShuffleOK cfg) {sqrt : R → R} {early : Prop} {w0 w : World V R} {b : Bool} (hc : Created cfg w0)
    (h : Hist cfg sqrt early w0 w b) : HInv cfg early w0 w b := by
  induction h with
  | start =>
    obtain ⟨h1, h2, h3⟩ := hc.inv hn hsh
    exact ⟨h1, Same.refl _, (fun h => by cases h), fun _ _ => h3, fun _ _ _ => ⟨fun _ => h2, (fun h => by cases h)⟩⟩
  | graph _ hsafe hne hst ha hatt ih =>
    exact ⟨ih.inv.graph hn hsh hsafe hne hst ha hatt, ih.same, ih.succ, ih.none, ih.len⟩
  | @returned w w' b c _ he ih =>
    obtain ⟨x, h1, _⟩ := call_unweighted sqrt cfg c w
    obtain ⟨r, hu⟩ := h1 w' he
    have ho := unweighted_out hn hsh ih.inv x
    rw [hu] at ho
    obtain ⟨o1, o2, o3, o4, o5, _⟩ := ho
    have hfun : w'.p.funcs = w.p.funcs := o2.2.2.1
    have facts : w.p.funcs ≠ [] ∧ w.p.funcs.length ≤ w.p.goals.length ∧ w.p.funcs.length ≤ w.p.inpWeights.length := by
      rcases o5 with ⟨outs, d1, d2, d3, d4, _⟩ | ⟨d1, d2, _⟩
      · exact ⟨d2, d3, d4⟩
      · have hne : w.p.funcs ≠ [] := by
          rintro h0
          obtain ⟨pre, k, post, _, he, _⟩ := d1
          rw [h0] at he; cases pre <;> cases he
        cases b with
        | false => have := ih.none rfl hne; rw [d2] at this; cases this
        | true => exact (ih.succ rfl).2
    refine ⟨o1, ih.same.trans o2, fun _ => ⟨o3, ?_⟩, (fun h => by cases h), fun lens hl he => ⟨(fun h => by cases h), fun _ => ?_⟩⟩
    · rw [hfun, o2.1, o2.2.1]; exact facts
    · rw [hfun] at hl
      obtain ⟨l1, l2⟩ := ih.len lens hl he
      rcases o5 with ⟨outs, d1, d2, d3, d4, d5, d6⟩ | ⟨d1, d2, d3, d4, _⟩
      · have hlen := hl _ _ d1
        have e1 : r.length = lens.sum := by rw [d5, residualVector_length _ _ (by rw [d1.length]; exact d3), hlen]
        refine ⟨?_, _, d6, by rw [expand_length _ _ (by rw [d1.length]; exact d4), hlen]⟩
        rw [o4]
        cases b with
        | false => rw [if_pos (ih.none rfl d2), l1 rfl, e1, Nat.zero_add]
        | true => rw [if_neg (by rw [(ih.succ rfl).1]; simp)]; exact (l2 rfl).1
      · cases b with
        | false => have := ih.none rfl facts.1; rw [d2] at this; cases this
        | true => rw [d3, d4]; exact l2 rfl
  | @raised w w' b c e _ hb he hne ih =>
    obtain ⟨x, _, h1⟩ := call_unweighted sqrt cfg c w
    have ho := unweighted_out hn hsh ih.inv x
    rcases h1 e w' he with hu | ⟨r, hu, hbad⟩
    · rw [hu] at ho
      obtain ⟨o1, o2, o3, o4, _⟩ := ho.resolve_left hne
      have hfun : w'.p.funcs = w.p.funcs := o2.2.2.1
      refine ⟨o1, ih.same.trans o2, fun h => ?_, fun h hf => ?_, fun lens hl he => ?_⟩
      · obtain ⟨s1, s2, s3, s4⟩ := ih.succ h
        rw [hfun, o2.1, o2.2.1]
        exact ⟨(o3 s1).2, s2, s3, s4⟩
      · rw [hfun] at hf
        rw [(o4 hf).1]; exact ih.none h hf
      · rw [hfun] at hl
        have hbt : b = true := hb.resolve_right he
        subst hbt
        obtain ⟨s1, s2, _⟩ := ih.succ rfl
        refine ⟨(fun h => by cases h), fun _ => ?_⟩
        rw [(o3 s1).1, (o4 s2).2]
        exact (ih.len lens hl he).2 rfl
    · rw [hu] at ho
      obtain ⟨o1, o2, o3, o4, o5, _⟩ := ho
      have hfun : w'.p.funcs = w.p.funcs := o2.2.2.1
      rcases o5 with ⟨outs, d1, d2, d3, d4, d5, d6⟩ | ⟨d1, d2, d3, d4, _⟩
      · refine absurd ⟨_, d6, ?_⟩ hbad
        rw [expand_length _ _ (by rw [d1.length]; exact d4), d5, residualVector_length _ _ (by rw [d1.length]; exact d3)]
      · have hne : w.p.funcs ≠ [] := by
          rintro h0
          obtain ⟨pre, k, post, _, he, _⟩ := d1
          rw [h0] at he; cases pre <;> cases he
        refine ⟨o1, ih.same.trans o2, fun h => ?_, fun h hf => ?_, fun lens hl he => ?_⟩
        · obtain ⟨_, s2, s3, s4⟩ := ih.succ h
          rw [hfun, o2.1, o2.2.1]
          exact ⟨o3, s2, s3, s4⟩
        · have := ih.none h hne; rw [d2] at this; cases this
        · rw [hfun] at hl
          rw [d3, d4]
          exact ih.len lens hl he

end
end Simsopt.LSq
