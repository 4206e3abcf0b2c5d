import Verif.Solve.Model
import Verif.LeastSquares.Witness
import Verif.Constrained.Lengths
/-!
# C131: `least_squares_serial_solve`
-/
namespace Simsopt.Solve
open Simsopt Simsopt.LSq
open Simsopt.Graph (State Cfg Op Reachable NameInj ShuffleOK cfg0 cfg0_names cfg0_shuffle)
variable {V R : Type} {cfg : Cfg V}

/-- `sqrt(w_i) (f_ik - goal_i)`, one after the other. -/
def weightedResiduals [Field R] (sqrt : R → R) (goals weights : List R) (outs : List (List R)) : List R :=
  ((outs.zip (goals.zip weights)).map fun e => e.1.map fun f => (f - e.2.1) * sqrt e.2.2).flatten

/-- SciPy asks only for vectors as long as the start vector. -/
def SameLength (opt : Optimizer V R) : Prop := ∀ x0 tr x, (opt x0 tr = .fn x ∨ opt x0 tr = .jac x ∨ opt x0 tr = .done x) → x.length = x0.length

/-- The line `row` describes an evaluation at `row.x` of a problem with these functions, goals, weights and failure value: in some state `g` in
    which the free dofs of the problem are `row.x`, either all functions return and the line holds their weighted residuals and the weighted sum of
    squares, or a function fails and the line holds the failure vector and the sum of its squares. -/
def RowOK [Field R] [LinearOrder R] (sqrt : R → R) (w0 : World V R) (n : Nat) (row : Row V R) : Prop :=
  ∃ g : State V, Graph.getX g w0.p.self = row.x ∧
    ((∃ outs, LSq.Returns w0.p.funcs g outs ∧ row.res = weightedResiduals sqrt w0.p.goals w0.p.inpWeights outs ∧
        row.obj = weightedSquares w0.p.goals w0.p.inpWeights outs) ∨
     (Fails w0.p.funcs g ∧ ∃ (v : R) (ws : List R), w0.p.fail = some v ∧ row.res = ws.map (fun a => v * sqrt a))) ∧
    row.res.length = n ∧ ((∀ a : R, 0 ≤ a → sqrt a * sqrt a = a) → row.obj = (row.res.map fun a => a ^ 2).sum)

section
variable [Field R] [LinearOrder R]

theorem weightedResiduals_eq (sqrt : R → R) : ∀ (goals weights : List R) (outs : List (List R)),
    outs.length ≤ goals.length → outs.length ≤ weights.length →
    List.zipWith (· * ·) (residualVector goals outs) ((expand weights outs).map sqrt) = weightedResiduals sqrt goals weights outs := by
  intro goals weights outs
  induction outs generalizing goals weights with
  | nil => intro _ _; rfl
  | cons o outs ih =>
    intro hg hw
    cases goals with
    | nil => cases hg
    | cons g goals =>
      cases weights with
      | nil => cases hw
      | cons w weights =>
        have := ih goals weights (by simpa using hg) (by simpa using hw)
        have e1 : residualVector (g :: goals) (o :: outs) = o.map (fun f => f - g) ++ residualVector goals outs := by simp [residualVector]
        have e2 : expand (w :: weights) (o :: outs) = List.replicate o.length w ++ expand weights outs := by simp [expand]
        have e3 : weightedResiduals sqrt (g :: goals) (w :: weights) (o :: outs) =
            o.map (fun f => (f - g) * sqrt w) ++ weightedResiduals sqrt goals weights outs := by simp [weightedResiduals]
        rw [e1, e2, e3, List.map_append, List.zipWith_append (by simp), this]
        congr 1
        clear e1 e2 e3 hg hw this
        induction o with
        | nil => rfl
        | cons a o iho =>
          simp only [List.map_cons, List.length_cons, List.replicate_succ, List.zipWith_cons_cons, iho]

/-- an evaluation that raised raises again -/
theorem compute_again {w w1 : World V R} {e : Err} (h : compute w = .error e w1) : ∃ w2, compute w1 = .error e w2 := by
  by_cases hx : (w.g.obj w.p.self).newX = true
  · rw [compute_fresh hx] at h
    have b1 : (bump w).goals = w.p.goals := by unfold bump; split <;> rfl
    have b2 : (bump w).inpWeights = w.p.inpWeights := by unfold bump; split <;> rfl
    have b3 : (bump w).funcs = w.p.funcs := by unfold bump; split <;> rfl
    have b4 : (bump w).fail = w.p.fail := by unfold bump; split <;> rfl
    have b5 : (bump w).self = w.p.self := by unfold bump; split <;> rfl
    have b6 : (bump w).firstEval = w.p.firstEval := by unfold bump; split <;> rfl
    cases hl : (loop w).1 with
    | raised e' =>
      rw [hl] at h
      injection h with h1 h2
      subst h2; subst h1
      have hl' : (loop { w with p := bump w }).1 = .raised e' := by unfold loop at hl ⊢; simp only [b1, b2, b3]; exact hl
      have hx' : (({ w with p := bump w } : World V R).g.obj (bump w).self).newX = true := by rw [b5]; exact hx
      rw [compute_fresh hx', hl']
      exact ⟨_, rfl⟩
    | failed =>
      rw [hl] at h
      simp only at h
      have hl' : (loop { w with p := bump w }).1 = .failed := by unfold loop at hl ⊢; simp only [b1, b2, b3]; exact hl
      have hx' : (({ w with p := bump w } : World V R).g.obj (bump w).self).newX = true := by rw [b5]; exact hx
      by_cases hf : w.p.firstEval = true
      · rw [if_pos hf] at h
        injection h with h1 h2
        subst h2; subst h1
        rw [compute_fresh hx', hl']
        simp only [b6, hf, if_true]
        exact ⟨_, rfl⟩
      · rw [if_neg hf] at h
        cases hfl : w.p.fail with
        | some v => rw [hfl] at h; cases h
        | none =>
          rw [hfl] at h
          injection h with h1 h2
          subst h2; subst h1
          rw [hfl] at b4
          rw [compute_fresh hx', hl']
          simp only [b6, hf, b4]
          exact ⟨_, rfl⟩
    | done ws os =>
      rw [hl] at h
      simp only at h
      by_cases hE : w.p.funcs.isEmpty = true
      · rw [if_pos hE] at h
        injection h with h1 h2
        subst h2; subst h1
        generalize hp : ({ bump w with firstEval := false, weights := some ws } : Prob V R) = p'
        have c1 : p'.goals = w.p.goals := by rw [← hp]; exact b1
        have c2 : p'.inpWeights = w.p.inpWeights := by rw [← hp]; exact b2
        have c3 : p'.funcs = w.p.funcs := by rw [← hp]; exact b3
        have c5 : p'.self = w.p.self := by rw [← hp]; exact b5
        have hl' : (loop { w with p := p' }).1 = .done ws os := by unfold loop at hl ⊢; simp only [c1, c2, c3]; exact hl
        have hx' : (({ w with p := p' } : World V R).g.obj p'.self).newX = true := by rw [c5]; exact hx
        rw [compute_fresh hx', hl']
        simp only [c3, hE, if_true]
        exact ⟨_, rfl⟩
      · rw [if_neg hE] at h; cases h
  · have hx : (w.g.obj w.p.self).newX = false := by simpa using hx
    have h0 := h
    rw [compute_cached hx] at h
    cases hc : w.p.cache with
    | some c => rw [hc] at h; cases h
    | none => rw [hc] at h; injection h with _ h2; subst h2; exact ⟨_, h0⟩

/-- evaluating once more without changing `x` gives the same residuals and changes nothing -/
theorem unweighted_again (hn : NameInj cfg) (hsh : ShuffleOK cfg) {w w1 : World V R} (h : WInv cfg w) {x : Option (List V)} {u : List R}
    (he : unweighted cfg x w = .ok u w1) : unweighted cfg none w1 = .ok u w1 := by
  rw [unweighted_eq] at he
  have ha := assignX_inv hn hsh h x
  cases hq : assignX cfg x w with
  | error e w' => rw [hq] at he; cases he
  | ok a w' =>
    rw [hq] at he ha
    simp only at he
    have hc := compute_inv hn hsh ha.1
    rw [he] at hc
    obtain ⟨_, _, _, _, _, c6, _, _, _, _, c11, c12, _⟩ := hc
    rw [unweighted_eq]
    show compute w1 = _
    rw [compute_cached (by rw [c6]; exact c11), c12]

/-- assigning a vector of the right length returns, or exhausts the recursion limit -/
theorem assignX_right (hn : NameInj cfg) (hsh : ShuffleOK cfg) {w : World V R} (h : WInv cfg w) {x : List V}
    (hx : x.length = (Graph.getX w.g w.p.self).length) :
    (∃ w', assignX cfg (some x) w = .ok () w') ∨ ∃ w', assignX cfg (some x) w = .error .recursionError w' := by
  have e0 : assignX cfg (some x) w = liftG (Graph.setX cfg w.p.self x) w := rfl
  rw [e0]
  unfold liftG
  rw [(Graph.C06_lengths hn hsh h.reach _ h.alive).1] at hx
  have hex : Graph.exec cfg (.setX w.p.self x) w.g = Graph.setX cfg w.p.self x w.g := rfl
  rcases Graph.setX_outcome hn hsh h.reach w.p.self h.alive x with ⟨hbad, _⟩ | ⟨_, ⟨s1, e', _⟩ | ⟨g1, e', hrest⟩⟩
  · exact absurd hx.symm hbad
  · rw [hex] at e'; rw [e']; exact Or.inr ⟨_, rfl⟩
  · rw [hex] at e'; rw [e']; exact Or.inl ⟨_, rfl⟩

/-- one evaluation of the driver -/
theorem evalObj_spec (hn : NameInj cfg) (hsh : ShuffleOK cfg) {sqrt : R → R}
    {w0 : World V R} {b : Bool} {st : St V R} (hc : LSq.Created cfg w0)
    (hh : Hist cfg sqrt False w0 st.w b) {lens : List Nat} (hl : FixedLengths w0.p.funcs lens) {nfns : Nat} {big : R} {x : List V}
    (hx : x.length = (Graph.getX st.w.g w0.p.self).length)
    (hrec : ∀ e w', LSq.residuals sqrt cfg (some x) st.w = .error e w' → e ≠ .recursionError) :
    match evalObj sqrt cfg nfns big x st with
    | .ok r st' => LSq.residuals sqrt cfg (some x) st.w = .ok r st'.w ∧ Hist cfg sqrt False w0 st'.w true ∧ Graph.getX st'.w.g w0.p.self = x ∧
        ∃ v, st'.rows = st.rows ++ [⟨st.nevals, x, v, r⟩] ∧ st'.nevals = st.nevals + 1 ∧ RowOK sqrt w0 lens.sum ⟨st.nevals, x, v, r⟩
    | .error e _ => ∃ w', LSq.residuals sqrt cfg (some x) st.w = .error e w' := by
  have hi := hh.inv hn hsh hc
  obtain ⟨s1, s2, s3, s4, s5⟩ := hi.same
  have ho := unweighted_out hn hsh hi.inv (some x)
  have hl' : FixedLengths st.w.p.funcs lens := by rw [s3]; exact hl
  obtain ⟨l1, l2⟩ := hi.len lens hl' id
  unfold evalObj
  have hres := residuals_eq sqrt cfg (some x) st.w
  cases hu : unweighted cfg (some x) st.w with
  | error e w1 =>
    rw [hu] at hres ho
    simp only at hres
    rw [hres]
    have hne := hrec e w1 hres
    have hagain : ∃ w2, unweighted cfg none w1 = .error e w2 := by
      rw [unweighted_eq] at hu
      rcases assignX_right (x := x) hn hsh hi.inv (by rw [s5]; exact hx) with ⟨w', ha⟩ | ⟨w', ha⟩
      · rw [ha] at hu
        rw [unweighted_eq]
        exact compute_again hu
      · rw [ha] at hu
        injection hu with hu _
        exact absurd hu.symm hne
    obtain ⟨w2, hag⟩ := hagain
    simp only
    unfold record
    rw [objective_eq, hag]
    exact ⟨w1, rfl⟩
  | ok u w1 =>
    rw [hu] at hres ho
    obtain ⟨o1, o2, o3, o4, o5, o6, _⟩ := ho
    obtain ⟨ws, hws, hnn⟩ := o1.wts o3
    have hx' : Graph.getX w1.g w0.p.self = x := by rw [← s5]; exact o6 x rfl
    -- the residual vector is as long as the weights
    have key : u.length = ws.length ∧ u.length = lens.sum ∧
        ((∃ outs, LSq.Returns w0.p.funcs w1.g outs ∧ List.zipWith (· * ·) u (ws.map sqrt) = weightedResiduals sqrt w0.p.goals w0.p.inpWeights outs ∧
          (List.zipWith (fun v w => v * v * w) u ws).sum = weightedSquares w0.p.goals w0.p.inpWeights outs) ∨
        (Fails w0.p.funcs w1.g ∧ ∃ v, w0.p.fail = some v ∧ List.zipWith (· * ·) u (ws.map sqrt) = ws.map (fun a => v * sqrt a))) := by
      rcases o5 with ⟨outs, d1, d2, d3, d4, d5, d6⟩ | ⟨d1, d2, d3, d4, v, d5, d6⟩
      · rw [d6] at hws; injection hws with hws
        have h1 : outs.length ≤ st.w.p.goals.length := by rw [d1.length]; exact d3
        have h2 : outs.length ≤ st.w.p.inpWeights.length := by rw [d1.length]; exact d4
        refine ⟨?_, ?_, Or.inl ⟨outs, by rw [← s3]; exact d1, ?_, ?_⟩⟩
        · rw [← hws, d5, residualVector_length _ _ h1, expand_length _ _ h2]
        · rw [d5, residualVector_length _ _ h1, hl' _ _ d1]
        · rw [← hws, d5, weightedResiduals_eq sqrt _ _ _ h1 h2, s1, s2]
        · rw [← hws, d5, squares_eq _ _ _ h1 h2, s1, s2]
      · have hne : st.w.p.funcs ≠ [] := by
          rintro h0
          obtain ⟨pre, k, post, _, he, _⟩ := d1
          rw [h0] at he; cases pre <;> cases he
        cases b with
        | false => have := hi.none rfl hne; rw [d2] at this; cases this
        | true =>
          obtain ⟨n1, ws', e1, e2⟩ := l2 rfl
          rw [d3, e1] at hws; injection hws with hws
          subst hws
          have hlen : u.length = ws'.length := by rw [d6, List.length_replicate, n1, e2]
          refine ⟨hlen, by rw [hlen, e2], Or.inr ⟨by rw [← s3]; exact d1, v, by rw [← s4]; exact d5, ?_⟩⟩
          rw [d6, n1, ← e2]
          clear * -
          induction ws' with
          | nil => rfl
          | cons a l ih => simp only [List.length_cons, List.replicate_succ, List.map_cons, List.zipWith_cons_cons, ih]
    obtain ⟨hlen, hlsum, hkey⟩ := key
    simp only [hws] at hres
    rw [npMul_same (by simpa using hlen)] at hres
    simp only at hres
    rw [hres]
    have hag := unweighted_again hn hsh hi.inv hu
    have hobj : LSq.objective cfg none w1 = .ok ((List.zipWith (fun v w => v * v * w) u ws).sum) w1 := by
      rw [objective_eq, hag]
      simp only [hws]
      rw [accum_eq _ _ _ _ (by rw [List.drop_zero, hlen]), zero_add, List.drop_zero]
    simp only
    unfold record
    rw [hobj]
    refine ⟨rfl, ?_, hx', _, rfl, rfl, w1.g, hx', ?_, ?_, ?_⟩
    · refine Hist.returned (c := .residuals (some x)) hh ?_
      show (do discard (LSq.residuals sqrt cfg (some x)) : M V R Unit) st.w = _
      rw [rd, hres]
    · rcases hkey with ⟨outs, k1, k2, k3⟩ | ⟨k1, v, k2, k3⟩
      · exact Or.inl ⟨outs, k1, k2, k3⟩
      · exact Or.inr ⟨k1, v, ws, k2, k3⟩
    · simp [hlen, ← hlsum]
    · exact fun hsq => (residual_squares sqrt u ws (fun a ha => hsq a (hnn a ha)) hlen).symm

theorem probes_hist {sqrt : R → R} {w0 w w' : World V R} {b : Bool} {early : Prop} (h : Probes sqrt cfg w w') :
    Hist cfg sqrt early w0 w b → ∃ b', (b = true → b' = true) ∧ Hist cfg sqrt early w0 w' b' := by
  induction h generalizing b with
  | nil => exact fun h => ⟨b, id, h⟩
  | @cons w w1 w2 y r he _ ih =>
    intro hh
    have : Hist cfg sqrt early w0 w1 true := by
      refine Hist.returned (c := .residuals (some y)) hh ?_
      show (do discard (LSq.residuals sqrt cfg (some y)) : M V R Unit) w = _
      rw [rd, he]
    obtain ⟨b', h1, h2⟩ := ih this
    exact ⟨b', fun _ => h1 rfl, h2⟩

theorem probes_length (hn : NameInj cfg) (hsh : ShuffleOK cfg) {sqrt : R → R} {w0 w w' : World V R} {b : Bool} (hc : Created cfg w0)
    (h : Probes sqrt cfg w w') : Hist cfg sqrt False w0 w b → (Graph.getX w'.g w0.p.self).length = (Graph.getX w.g w0.p.self).length := by
  induction h generalizing b with
  | nil => exact fun _ => rfl
  | @cons w w1 w2 y r he _ ih =>
    intro hh
    have h1 : Hist cfg sqrt False w0 w1 true := by
      refine Hist.returned (c := .residuals (some y)) hh ?_
      show (do discard (LSq.residuals sqrt cfg (some y)) : M V R Unit) w = _
      rw [rd, he]
    rw [ih h1]
    have hy : y.length = (Graph.getX w.g w0.p.self).length := by
      by_contra hne
      have hi := hh.inv hn hsh hc
      rw [← hi.same.2.2.2.2] at hne
      have hsx := setX_wrong_length hn hsh hi.inv.reach hi.inv.alive hne
      have ea : assignX cfg (some y) w = .error .valueError w := by
        show liftG (Graph.setX cfg w.p.self y) w = _
        unfold liftG; rw [hsx]
      rw [residuals_eq, unweighted_eq, ea] at he
      cases he
    have hi := hh.inv hn hsh hc
    have ho := unweighted_out hn hsh hi.inv (some y)
    rw [residuals_eq] at he
    cases hu : unweighted cfg (some y) w with
    | error e w' => rw [hu] at he; cases he
    | ok u w' =>
      rw [hu] at ho he
      simp only at he
      have : w' = w1 := by
        split at he
        · cases he
        · split at he <;> cases he; rfl
      subst this
      rw [← hy, ← ho.2.2.2.2.2.1 y rfl, hi.same.2.2.2.2]

/-- everything about a solve, up to any point -/
theorem run_inv (hn : NameInj cfg) (hsh : ShuffleOK cfg) {sqrt : R → R}
    {w0 w : World V R} {b : Bool} (hc : Created cfg w0) (hh : Hist cfg sqrt False w0 w b) {lens : List Nat} (hl : FixedLengths w0.p.funcs lens)
    {nfns : Nat} {big : R} {opt : Optimizer V R} (hopt : SameLength opt) {tr : List (Told V R)} {st : St V R}
    (hr : Run sqrt cfg nfns big opt w tr st) :
    (∃ b', Hist cfg sqrt False w0 st.w b') ∧ (Graph.getX st.w.g w0.p.self).length = (Graph.getX w.g w0.p.self).length ∧
    st.nevals = st.rows.length ∧ st.rows.map Row.idx = List.range st.rows.length ∧
    st.rows.map (fun row => Told.value row.x row.res) = tr.filter (fun t => match t with | .value _ _ => true | .jac _ _ => false) ∧
    ∀ row ∈ st.rows, RowOK sqrt w0 lens.sum row := by
  have hs : w.p.self = w0.p.self := (hh.inv hn hsh hc).same.2.2.2.2
  induction hr with
  | start => exact ⟨⟨b, hh⟩, rfl, rfl, rfl, rfl, fun _ h => by cases h⟩
  | @fn tr st st' x r _ hask hrec he ih =>
    obtain ⟨⟨b', h1⟩, h2, h3, h4, h5, h6⟩ := ih
    have hx : x.length = (Graph.getX st.w.g w0.p.self).length := by
      rw [h2, hopt _ _ _ (Or.inl hask), hs]
    have := evalObj_spec hn hsh hc h1 hl (nfns := nfns) (big := big) hx hrec
    rw [he] at this
    obtain ⟨_, e2, e3, v, e4, e5, e6⟩ := this
    refine ⟨⟨true, e2⟩, by rw [e3, hx, h2], ?_, ?_, ?_, ?_⟩
    · rw [e5, e4, h3]; simp
    · rw [e4, List.map_append, h4, List.length_append, List.length_singleton, List.range_succ, h3]; rfl
    · rw [e4, List.map_append, h5, List.filter_append]; rfl
    · intro row hrow
      rw [e4] at hrow
      rcases List.mem_append.mp hrow with h | h
      · exact h6 row h
      · rw [List.mem_singleton.mp h]; exact e6
  | @jac tr st w' x j _ hask hp ih =>
    obtain ⟨⟨b', h1⟩, h2, h3, h4, h5, h6⟩ := ih
    obtain ⟨b'', _, h7⟩ := probes_hist hp h1
    refine ⟨⟨b'', h7⟩, ?_, h3, h4, ?_, h6⟩
    · show (Graph.getX w'.g _).length = _
      rw [probes_length hn hsh hc hp h1, h2]
    · rw [h5, List.filter_append]; simp

/-- C131: whatever SciPy does, the log has one line for every evaluation it has asked for, numbered from 0 in the order of the evaluations and with
    the points and residuals exchanged with SciPy; every line is a correct evaluation of the problem at its point. -/
theorem C131_log (hn : NameInj cfg) (hsh : ShuffleOK cfg) {sqrt : R → R}
    {w0 w : World V R} {b : Bool} (hc : Created cfg w0) (hh : Hist cfg sqrt False w0 w b) {lens : List Nat} (hl : FixedLengths w0.p.funcs lens)
    {nfns : Nat} {big : R} {opt : Optimizer V R} (hopt : SameLength opt) {tr : List (Told V R)} {st : St V R}
    (hr : Run sqrt cfg nfns big opt w tr st) :
    st.rows.map Row.idx = List.range st.rows.length ∧
    st.rows.map (fun row => Told.value row.x row.res) = tr.filter (fun t => match t with | .value _ _ => true | .jac _ _ => false) ∧
    ∀ row ∈ st.rows, RowOK sqrt w0 lens.sum row := by
  obtain ⟨_, _, _, h4, h5, h6⟩ := run_inv hn hsh hc hh hl hopt hr
  exact ⟨h4, h5, h6⟩

/-- C131: everything SciPy is told about function values is the vector of weighted residuals there, or the failure vector; never anything else. -/
theorem C131_told (hn : NameInj cfg) (hsh : ShuffleOK cfg) {sqrt : R → R}
    {w0 w : World V R} {b : Bool} (hc : Created cfg w0) (hh : Hist cfg sqrt False w0 w b) {lens : List Nat} (hl : FixedLengths w0.p.funcs lens)
    {nfns : Nat} {big : R} {opt : Optimizer V R} (hopt : SameLength opt) {tr : List (Told V R)} {st : St V R}
    (hr : Run sqrt cfg nfns big opt w tr st) {x : List V} {r : List R} (ht : Told.value x r ∈ tr) :
    r.length = lens.sum ∧ ∃ g : State V, Graph.getX g w0.p.self = x ∧
      ((∃ outs, LSq.Returns w0.p.funcs g outs ∧ r = weightedResiduals sqrt w0.p.goals w0.p.inpWeights outs) ∨
       (Fails w0.p.funcs g ∧ ∃ (v : R) (ws : List R), w0.p.fail = some v ∧ r = ws.map (fun a => v * sqrt a))) := by
  obtain ⟨_, _, _, _, h5, h6⟩ := run_inv hn hsh hc hh hl hopt hr
  have : Told.value x r ∈ tr.filter (fun t => match t with | .value _ _ => true | .jac _ _ => false) := List.mem_filter.mpr ⟨ht, rfl⟩
  rw [← h5] at this
  obtain ⟨row, hrow, he⟩ := List.mem_map.mp this
  injection he with e1 e2
  obtain ⟨g, g1, g2, g3, _⟩ := h6 row hrow
  rw [← e2, ← e1]
  refine ⟨g3, g, g1, ?_⟩
  rcases g2 with ⟨outs, k1, k2, _⟩ | k
  · exact Or.inl ⟨outs, k1, k2⟩
  · exact Or.inr k

/-- C131: when the solve returns, `prob.x` is the point SciPy returned, and the problem is in a state reached by evaluations and assignments, so
    everything proved about such states (C26-C28) holds of it. -/
theorem C131_result (hn : NameInj cfg) (hsh : ShuffleOK cfg) {sqrt : R → R}
    {w0 w w' : World V R} {b : Bool} (hc : Created cfg w0) (hh : Hist cfg sqrt False w0 w b) {lens : List Nat} (hl : FixedLengths w0.p.funcs lens)
    {nfns : Nat} {big : R} {opt : Optimizer V R} (hopt : SameLength opt) {rows : List (Row V R)}
    (hr : Returns sqrt cfg nfns big opt w w' rows) :
    ∃ tr x b', opt (Graph.getX w.g w0.p.self) tr = .done x ∧ Graph.getX w'.g w0.p.self = x ∧
      rows.map (fun row => Told.value row.x row.res) = tr.filter (fun t => match t with | .value _ _ => true | .jac _ _ => false) ∧
      Hist cfg sqrt False w0 w' b' := by
  obtain ⟨tr, st, x, g', h1, h2, h3, h4, h5⟩ := hr
  obtain ⟨⟨b', i1⟩, _, _, _, i5, _⟩ := run_inv hn hsh hc hh hl hopt h1
  have hi := i1.inv hn hsh hc
  have hs : w.p.self = w0.p.self := (hh.inv hn hsh hc).same.2.2.2.2
  have hs' : st.w.p.self = w0.p.self := hi.same.2.2.2.2
  have ha := assignX_inv hn hsh hi.inv (some x)
  have e : assignX cfg (some x) st.w = .ok () w' := by
    show liftG (Graph.setX cfg st.w.p.self x) st.w = _
    unfold liftG; rw [h3, h4]
  rw [e] at ha
  refine ⟨tr, x, b', by rw [← hs]; exact h2, by rw [← hs']; exact ha.2.2.2.2 x rfl, by rw [h5]; exact i5, ?_⟩
  rw [h4]
  have hst : Graph.exec cfg (.setX st.w.p.self x) st.w.g = .ok () g' := h3
  have hp' : w'.p = st.w.p := ha.2.1
  refine .graph (op := .setX st.w.p.self x) i1 hi.inv.alive (by intro hc; cases hc) (Or.inl hst) ?_ ?_
  · have := ha.1.alive
    rw [hp'] at this
    rw [h4] at this
    exact this
  · have := ha.1.att
    rw [hp'] at this
    rw [h4] at this
    exact this

/-- C131: an evaluation in which `prob.residuals(x)` raises is not answered with residuals of 1e12, as the `except` branch intends: `prob.objective()`
    raises the same exception again, outside the `try`, and the solve ends with it. -/
theorem C131_exception_aborts (hn : NameInj cfg) (hsh : ShuffleOK cfg) {sqrt : R → R}
    {w0 w : World V R} {b : Bool} (hc : Created cfg w0) (hh : Hist cfg sqrt False w0 w b) {lens : List Nat} (hl : FixedLengths w0.p.funcs lens)
    {nfns : Nat} {big : R} {opt : Optimizer V R} (hopt : SameLength opt) {tr : List (Told V R)} {st : St V R}
    (hr : Run sqrt cfg nfns big opt w tr st) {x : List V} (hask : opt (Graph.getX w.g w0.p.self) tr = .fn x) {e : Err} {w' : World V R}
    (he : LSq.residuals sqrt cfg (some x) st.w = .error e w') (hne : e ≠ .recursionError) :
    Raises sqrt cfg nfns big opt w e := by
  obtain ⟨⟨b', i1⟩, i2, _⟩ := run_inv hn hsh hc hh hl hopt hr
  have hs : w.p.self = w0.p.self := (hh.inv hn hsh hc).same.2.2.2.2
  have hx : x.length = (Graph.getX st.w.g w0.p.self).length := by rw [i2, hopt _ _ _ (Or.inl hask)]
  have := evalObj_spec hn hsh hc i1 hl (nfns := nfns) (big := big) hx (fun e' w'' h => by
    rw [he] at h; injection h with h _; rw [← h]; exact hne)
  cases hq : evalObj sqrt cfg nfns big x st with
  | ok r st' =>
    rw [hq] at this
    rw [he] at this
    cases this.1
  | error e' st' =>
    rw [hq] at this
    obtain ⟨w'', h1⟩ := this
    rw [he] at h1
    injection h1 with h1 _
    exact ⟨tr, st, x, st', hr, by rw [hs]; exact hask, by rw [hq, h1]⟩

/-- C131: conversely, an evaluation in which `prob.residuals(x)` returns is answered with these residuals. -/
theorem C131_evaluation_returns (hn : NameInj cfg) (hsh : ShuffleOK cfg) {sqrt : R → R}
    {w0 w : World V R} {b : Bool} (hc : Created cfg w0) (hh : Hist cfg sqrt False w0 w b) {lens : List Nat} (hl : FixedLengths w0.p.funcs lens)
    {nfns : Nat} {big : R} {opt : Optimizer V R} (hopt : SameLength opt) {tr : List (Told V R)} {st : St V R}
    (hr : Run sqrt cfg nfns big opt w tr st) {x : List V} (hask : opt (Graph.getX w.g w0.p.self) tr = .fn x) {r : List R} {w' : World V R}
    (he : LSq.residuals sqrt cfg (some x) st.w = .ok r w') :
    ∃ st', Run sqrt cfg nfns big opt w (tr ++ [.value x r]) st' ∧ Graph.getX st'.w.g w0.p.self = x := by
  obtain ⟨⟨b', i1⟩, i2, _⟩ := run_inv hn hsh hc hh hl hopt hr
  have hs : w.p.self = w0.p.self := (hh.inv hn hsh hc).same.2.2.2.2
  have hx : x.length = (Graph.getX st.w.g w0.p.self).length := by rw [i2, hopt _ _ _ (Or.inl hask)]
  have hrec : ∀ e w', LSq.residuals sqrt cfg (some x) st.w = .error e w' → e ≠ .recursionError := by
    intro e' w'' h; rw [he] at h; cases h
  have := evalObj_spec hn hsh hc i1 hl (nfns := nfns) (big := big) hx hrec
  cases hq : evalObj sqrt cfg nfns big x st with
  | ok r' st' =>
    rw [hq] at this
    obtain ⟨h1, _, h3, _⟩ := this
    rw [he] at h1
    injection h1 with h1 _
    exact ⟨st', .fn hr (by rw [hs]; exact hask) hrec (by rw [hq, h1]), h3⟩
  | error e' st' =>
    rw [hq] at this
    obtain ⟨w'', h1⟩ := this
    rw [he] at h1; cases h1

end

/-! ### a concrete solve, and the abort -/

/-- asks for the value at the start vector, a jacobian there, the value at a second point, and stops there -/
def script (y : List Int) : Optimizer Int Rat := fun x0 tr =>
  match tr with
  | [] => .fn x0
  | [_] => .jac x0
  | [_, _] => if y.length = x0.length then .fn y else .done x0
  | _ => .done (if y.length = x0.length then y else x0)

theorem script_length (y : List Int) : SameLength (script y) := by
  intro x0 tr x h
  unfold script at h
  split at h
  · simp at h; rw [← h]
  · simp at h; rw [← h]
  · split at h <;> simp at h <;> subst h <;> [assumption; rfl]
  · simp at h; rw [← h]; split <;> [assumption; rfl]

/-- a square root on the rationals as far as it goes: here of 0, 1, 4 -/
def sq (a : Rat) : Rat := if a = 4 then 2 else a

/-- the world after an evaluation by the driver, if it returns -/
def afterEval (x : List Int) (st : St Int Rat) : St Int Rat :=
  match evalObj sq cfg0 2 1000000000000 x st with
  | .ok _ st' => st'
  | .error _ st' => st'
def evalRes (x : List Int) (st : St Int Rat) : Option (List Rat) :=
  match evalObj sq cfg0 2 1000000000000 x st with
  | .ok r _ => some r
  | .error _ _ => none
def evalErr (x : List Int) (st : St Int Rat) : Option Err :=
  match evalObj sq cfg0 2 1000000000000 x st with
  | .ok _ _ => none
  | .error e _ => some e

def S0 : St Int Rat := { w := P0 }
def S1 : St Int Rat := afterEval [1, 3, 4, 5] S0
def S2 : St Int Rat := afterEval [7, 3, 4, 5] { S1 with w := S1.w }

/-- the residuals return -/
def resOk (x : List Int) (st : St Int Rat) : Bool :=
  match LSq.residuals sq cfg0 (some x) st.w with
  | .ok _ _ => true
  | .error _ _ => false

theorem step {opt : Optimizer Int Rat} {w : World Int Rat} {tr : List (Told Int Rat)} {st : St Int Rat} {x : List Int} {r : List Rat}
    (h : Run sq cfg0 2 1000000000000 opt w tr st) (hask : opt (Graph.getX w.g w.p.self) tr = .fn x) (h1 : resOk x st = true)
    (h2 : evalRes x st = some r) : Run sq cfg0 2 1000000000000 opt w (tr ++ [.value x r]) (afterEval x st) := by
  refine .fn h hask ?_ ?_
  · intro e w' he
    unfold resOk at h1
    rw [he] at h1; cases h1
  · unfold evalRes at h2
    unfold afterEval
    cases he : evalObj sq cfg0 2 1000000000000 x st with
    | ok a s' => rw [he] at h2; injection h2 with h2; rw [h2]
    | error e s' => rw [he] at h2; cases h2

example : Run sq cfg0 2 1000000000000 (script [7, 3, 4, 5]) P0 [.value [1, 3, 4, 5] [4, 1, 2, 3], .jac [1, 3, 4, 5] [], .value [7, 3, 4, 5] [16, 1, 2, 3]] S2 ∧
    S2.rows.map Row.obj = [30, 270] ∧ S2.rows.map Row.x = [[1, 3, 4, 5], [7, 3, 4, 5]] ∧ script [7, 3, 4, 5] (Graph.getX P0.g P0.p.self) [.value [1, 3, 4, 5] [4, 1, 2, 3], .jac [1, 3, 4, 5] [], .value [7, 3, 4, 5] [16, 1, 2, 3]] = .done [7, 3, 4, 5] ∧
    Created cfg0 P0 ∧ Hist cfg0 sq False P0 P0 false ∧ SameLength (script [7, 3, 4, 5]) := by
  have hx0 : Graph.getX P0.g P0.p.self = [1, 3, 4, 5] := by decide +kernel
  refine ⟨?_, by decide +kernel, by decide +kernel, by rw [hx0]; rfl, P0_created, .start, script_length _⟩
  have h1 : Run _ _ _ _ _ _ _ S1 := step (x := [1, 3, 4, 5]) (r := [4, 1, 2, 3]) (Run.start (opt := script [7, 3, 4, 5]) (w := P0)) (by rw [hx0]; rfl) (by decide +kernel) (by decide +kernel)
  have h2 : Run _ _ _ _ _ _ _ { S1 with w := S1.w } := Run.jac (x := [1, 3, 4, 5]) (j := []) h1 (by rw [hx0]; rfl) .nil
  have h3 : Run _ _ _ _ _ _ _ S2 := step (x := [7, 3, 4, 5]) (r := [16, 1, 2, 3]) h2 (by rw [hx0]; rfl) (by decide +kernel) (by decide +kernel)
  exact h3

/-- C131: the first evaluation of `least_squares_serial_solve` on a problem with `fail=1000` fails at the start vector: the solve raises
    `ObjectiveFailure`, although the driver has a branch that answers such evaluations with 1e12. -/
theorem C131_fallback_violated :
    Created cfg0 Q0 ∧ Hist cfg0 sq False Q0 { Q0 with g := Graph.next cfg0 (.setX 0 [0]) Q0.g } false ∧
    (Q0.p.fail = some 1000) ∧
    ∀ opt : Optimizer Int Rat, opt [0] [] = .fn [0] →
      Raises sq cfg0 2 1000000000000 opt { Q0 with g := Graph.next cfg0 (.setX 0 [0]) Q0.g } .objectiveFailure := by
  refine ⟨Q0_created, ?_, rfl, ?_⟩
  · exact Hist.start.op (.setX 0 [0]) (by show Q0.g.alive 0 = true; decide +kernel) (by intro h; cases h) (by decide +kernel) (by decide +kernel) (by decide +kernel)
  · intro opt h
    have hx0 : Graph.getX ({ Q0 with g := Graph.next cfg0 (.setX 0 [0]) Q0.g } : World Int Rat).g Q0.p.self = [0] := by decide +kernel
    have he : evalErr [0] { w := { Q0 with g := Graph.next cfg0 (.setX 0 [0]) Q0.g } } = some .objectiveFailure := by decide +kernel
    unfold evalErr at he
    refine ⟨[], { w := { Q0 with g := Graph.next cfg0 (.setX 0 [0]) Q0.g } }, [0], ?_⟩
    cases hq : evalObj sq cfg0 2 1000000000000 [0] { w := { Q0 with g := Graph.next cfg0 (.setX 0 [0]) Q0.g } } with
    | ok r st' => rw [hq] at he; cases he
    | error e st' =>
      rw [hq] at he
      injection he with he
      refine ⟨st', .start, ?_, by rw [he]⟩
      have : ({ Q0 with g := Graph.next cfg0 (.setX 0 [0]) Q0.g } : World Int Rat).p.self = Q0.p.self := rfl
      rw [this, hx0]; exact h

end Simsopt.Solve
