import Verif.Constrained.Lengths
/-!
# Model of `constrained_serial_solve` (simsopt/solve/serial.py L271-433), and C132

SciPy is an arbitrary strategy.  The two files are modelled by the rows written to them (number of the evaluation, `x`, values); the elapsed time, the
header and the formatting of numbers are not modelled, but that `None` and arrays cannot be formatted as numbers is.  A derivative of the
constraints (`fd_nlc.jac`, L409-412) is modelled by what `prob` notices of it: any sequence of calls `prob.nonlinear_constraints(y)` that return.
(`jac=fd_obj`, L415, is not callable and therefore not called by SciPy.)  Linear constraints are handed to SciPy unchanged and not modelled.
-/
namespace Simsopt.Solve.Con
open Simsopt Simsopt.Constrained
open Simsopt.LSq (Out Bound bd fSum fPos fArr)
open Simsopt.Graph (State Cfg Op Reachable NameInj ShuffleOK cfg0 cfg0_names cfg0_shuffle w5 w5_reach next returns)
variable {V R : Type} {cfg : Cfg V}

/-- What SciPy does next. -/
inductive Ask (V : Type) where
  | obj (x : List V)
  | con (x : List V)
  | der (x : List V)
  | done (x : List V)

/-- What SciPy has been told. -/
inductive Told (V R : Type) where
  | obj (x : List V) (v : R)
  | con (x : List V) (c : List (Ext R))
  | der (x : List V) (j : List (List R))

/-- SciPy, given the start vector and the bounds. -/
abbrev Optimizer (V R : Type) := List V → List (V × V) → List (Told V R) → Ask V

/-- A line of `simsopt_*.dat` (L337-343) and a line of `constraints_*.dat` (L376-383). -/
structure ORow (V R : Type) where
  idx : Nat
  x : List V
  val : R
structure CRow (V R : Type) where
  idx : Nat
  x : List V
  vals : List (Ext R)

/-- The variables of the driver. -/
structure St (V R : Type) where
  w : World V R
  nobj : Nat := 0
  ncon : Nat := 0
  orows : List (ORow V R) := []
  crows : List (CRow V R) := []

section
variable [DecidableEq V]

/-- L337-346: write the line, count, return. -/
def logObj (x : List V) (st : St V R) (v : R) (w : World V R) : EStateM.Result Err (St V R) R :=
  .ok v { st with w := w, nobj := st.nobj + 1, orows := st.orows ++ [⟨st.nobj, x, v⟩] }

/-- `_obj(x)` (L314-346): every exception is replaced by `prob.fail`; formatting an array or `None` as a number raises `TypeError`. -/
def objFn (cfg : Cfg V) (x : List V) (st : St V R) : EStateM.Result Err (St V R) R :=
  match Constrained.objective cfg (some x) st.w with
  | .ok (.scalar v) w => logObj x st v w
  | .ok (.array _) w => .error .typeError { st with w := w }
  | .error _ w =>
    match w.p.fail with
    | none => .error .typeError { st with w := w }
    | some v => logObj x st v w

/-- L376-386. -/
def logCon (x : List V) (st : St V R) (c : List (Ext R)) (w : World V R) : EStateM.Result Err (St V R) (List (Ext R)) :=
  .ok c { st with w := w, ncon := st.ncon + 1, crows := st.crows ++ [⟨st.ncon, x, c⟩] }

/-- `_nlc(x)` (L348-386): every exception is replaced by `np.full(prob.nvals, prob.fail)`; an array of `None` cannot be formatted unless it is
    empty. -/
def conFn [Sub R] (cfg : Cfg V) (x : List V) (st : St V R) : EStateM.Result Err (St V R) (List (Ext R)) :=
  match Constrained.constraints cfg (some x) st.w with
  | .ok c w => logCon x st c w
  | .error _ w =>
    match w.p.fail with
    | none => if w.p.nvals = 0 then logCon x st [] w else .error .typeError { st with w := w }
    | some v => logCon x st (List.replicate w.p.nvals (.fin v)) w

/-- What a derivative of the constraints does to the problem. -/
inductive Probes [Sub R] (cfg : Cfg V) : World V R → World V R → Prop
  | nil {w : World V R} : Probes cfg w w
  | cons {w w1 w2 : World V R} {y : List V} {c : List (Ext R)} : y.length = (Graph.getX w.g w.p.self).length →
      Constrained.constraints cfg (some y) w = .ok c w1 → Probes cfg w1 w2 → Probes cfg w w2

/-- `bounds = list(zip(*prob.bounds))` (L394). -/
def boundsOf (w : World V R) : List (V × V) := (Graph.getLb w.g w.p.self).zip (Graph.getUb w.g w.p.self)

/-- What SciPy does next, with the arguments it was called with (L398-426). -/
def ask (opt : Optimizer V R) (w : World V R) (tr : List (Told V R)) : Ask V := opt (Graph.getX w.g w.p.self) (boundsOf w) tr

/-- The solve up to some point.  Excluded: exhausting the recursion limit inside an evaluation. -/
inductive Run [Sub R] (cfg : Cfg V) (opt : Optimizer V R) (w : World V R) : List (Told V R) → St V R → Prop
  | start : Run cfg opt w [] { w := w }
  | obj {tr : List (Told V R)} {st st' : St V R} {x : List V} {v : R} : Run cfg opt w tr st → ask opt w tr = .obj x →
      (∀ e w', Constrained.objective cfg (some x) st.w = .error e w' → e ≠ .recursionError) → objFn cfg x st = .ok v st' →
      Run cfg opt w (tr ++ [.obj x v]) st'
  | con {tr : List (Told V R)} {st st' : St V R} {x : List V} {c : List (Ext R)} : Run cfg opt w tr st → ask opt w tr = .con x →
      (∀ e w', Constrained.constraints cfg (some x) st.w = .error e w' → e ≠ .recursionError) → conFn cfg x st = .ok c st' →
      Run cfg opt w (tr ++ [.con x c]) st'
  | der {tr : List (Told V R)} {st : St V R} {w' : World V R} {x : List V} {j : List (List R)} : Run cfg opt w tr st → ask opt w tr = .der x →
      Probes cfg st.w w' → Run cfg opt w (tr ++ [.der x j]) { st with w := w' }

/-- The solve returns: `prob.x = result.x` (L433). -/
def Returns [Sub R] (cfg : Cfg V) (opt : Optimizer V R) (w w' : World V R) (orows : List (ORow V R)) (crows : List (CRow V R)) : Prop :=
  ∃ tr st x g', Run cfg opt w tr st ∧ ask opt w tr = .done x ∧ Graph.setX cfg st.w.p.self x st.w.g = .ok () g' ∧ w' = { st.w with g := g' } ∧
    orows = st.orows ∧ crows = st.crows

/-- SciPy asks only for vectors as long as the start vector. -/
def SameLength (opt : Optimizer V R) : Prop := ∀ x0 bs tr x, (opt x0 bs tr = .obj x ∨ opt x0 bs tr = .con x ∨ opt x0 bs tr = .done x) → x.length = x0.length

/-! ### specification -/

/-- `v` is a correct answer about the objective at `x`: its value there, or `fail` where it raises. -/
def ObjAt (w0 : World V R) (x : List V) (v : R) : Prop :=
  ∃ g : State V, Graph.getX g w0.p.self = x ∧ (w0.p.obj.call g = .ok (.scalar v) ∨ ∃ e, w0.p.obj.call g = .error e ∧ w0.p.fail = some v)

/-- The constraint vector can be computed in `g`: all functions return, their values fit the bounds, and there is a finite bound. -/
def Computable [Sub R] (w0 : World V R) (g : State V) (outs : List (Out R)) : Prop :=
  Gives (w0.p.nlc.map (·.fn)) g outs ∧ (∀ e ∈ w0.p.nlc.zip outs, e.1.Fits e.2) ∧ ∃ k ∈ w0.p.nlc, k.Active

/-- `c` is an answer about the constraints at `x`: the vector `[l - c, c - u, ...]`, or, where that cannot be computed, a vector of `fail`s (empty
    if `fail` is `None`). -/
def ConAt [Sub R] (w0 : World V R) (x : List V) (c : List (Ext R)) : Prop :=
  ∃ g : State V, Graph.getX g w0.p.self = x ∧ ((∃ outs, Gives (w0.p.nlc.map (·.fn)) g outs ∧ c = constraintVector w0.p.nlc outs) ∨
    ((¬ ∃ outs, Computable w0 g outs) ∧ ((∃ v n, w0.p.fail = some v ∧ c = List.replicate n (.fin v)) ∨ (w0.p.fail = none ∧ c = []))))
end

section
variable [Sub R] [DecidableEq V]

/-- assigning a vector of the right length assigns it, or exhausts the recursion limit -/
theorem assignX_right (hn : NameInj cfg) (hsh : ShuffleOK cfg) {w0 w : World V R} (h : CInv cfg w0 w) {x : List V}
    (hx : x.length = (Graph.getX w.g w.p.self).length) :
    (∃ w', assignX cfg (some x) w = .ok () w' ∧ CInv cfg w0 w' ∧ w'.p = w.p ∧ Graph.getX w'.g w.p.self = x) ∨
    ∃ w', assignX cfg (some x) w = .error .recursionError w' := by
  have hi := assignX_inv hn hsh h (some x)
  cases he : assignX cfg (some x) w with
  | ok u w' => rw [he] at hi; exact Or.inl ⟨w', rfl, hi.1, hi.2.1, hi.2.2.2 x rfl hx⟩
  | error e w' =>
    rw [he] at hi
    rcases hi with rfl | ⟨rfl, rfl⟩
    · exact Or.inr ⟨w', rfl⟩
    · exfalso
      unfold assignX at he
      simp only at he
      cases hd : differs (Graph.getX w'.g w'.p.self) x with
      | none =>
        unfold differs at hd
        simp only [bcast] at hd
        rw [if_pos hx.symm] at hd
        cases hd
      | some b =>
        rw [hd] at he
        cases b with
        | false => cases he
        | true =>
          simp only at he
          rw [(Graph.C06_lengths hn hsh h.att.reach _ h.att.alive).1] at hx
          have hex : Graph.exec cfg (.setX w'.p.self x) w'.g = Graph.setX cfg w'.p.self x w'.g := rfl
          rcases Graph.setX_outcome hn hsh h.att.reach w'.p.self h.att.alive x with ⟨hbad, _⟩ | ⟨_, ⟨s1, e', _⟩ | ⟨g1, e', hrest⟩⟩
          · exact hbad hx.symm
          · rw [hex] at e'; rw [e'] at he; injection he with he _; cases he
          · rw [hex] at e'; rw [e'] at he; cases he

/-- one evaluation of the objective by the driver -/
theorem objFn_spec (hn : NameInj cfg) (hsh : ShuffleOK cfg) {w0 : World V R} {st : St V R} (hc : Created cfg w0) (hh : Hist cfg w0 st.w)
    {x : List V} (hx : x.length = (Graph.getX st.w.g w0.p.self).length)
    (hrec : ∀ e w', Constrained.objective cfg (some x) st.w = .error e w' → e ≠ .recursionError) :
    match objFn cfg x st with
    | .ok v st' => Hist cfg w0 st'.w ∧ Graph.getX st'.w.g w0.p.self = x ∧ ObjAt w0 x v ∧
        st' = { st with w := st'.w, nobj := st.nobj + 1, orows := st.orows ++ [⟨st.nobj, x, v⟩] }
    | .error e st' => e = .typeError ∧ ∃ g, Graph.getX g w0.p.self = x ∧
        ((∃ l, w0.p.obj.call g = .ok (.array l)) ∨ ((∃ e', w0.p.obj.call g = .error e') ∧ w0.p.fail = none)) := by
  have hi := hh.inv hn hsh hc
  have hs : st.w.p.self = w0.p.self := hi.same.1
  have hhist : (Call.run cfg (.objective (some x)) st.w).2 ≠ some .recursionError → Hist cfg w0 (Call.run cfg (.objective (some x)) st.w).1 :=
    fun h => .call _ hh h
  have ho := objective_out hn hsh hi (some x)
  unfold objFn
  cases he : Constrained.objective cfg (some x) st.w with
  | ok o w1 =>
    rw [he] at ho
    have hH : Hist cfg w0 w1 := by
      have e : Call.run cfg (.objective (some x)) st.w = (w1, none) := by simp only [Call.run, he]
      rw [e] at hhist; exact hhist (by simp)
    obtain ⟨o1, o2, _, o4, _⟩ := ho
    have hg : Graph.getX w1.g w0.p.self = x := by rw [← hs]; exact o4 x rfl (by rw [hs]; exact hx)
    unfold ObjOK at o2
    rw [o1.same.2.2.1, o1.same.2.1] at o2
    cases o with
    | scalar v =>
      refine ⟨hH, hg, ⟨w1.g, hg, ?_⟩, rfl⟩
      rcases o2 with h | ⟨h, v', h1, h2⟩
      · exact Or.inl h
      · injection h2 with h2; subst h2; exact Or.inr ⟨_, h, h1⟩
    | array l =>
      refine ⟨rfl, w1.g, hg, Or.inl ⟨l, ?_⟩⟩
      rcases o2 with h | ⟨_, _, _, h⟩
      · exact h
      · cases h
  | error e w1 =>
    have hne := hrec e w1 he
    have hH : Hist cfg w0 w1 := by
      have e' : Call.run cfg (.objective (some x)) st.w = (w1, some e) := by simp only [Call.run, he]
      rw [e'] at hhist; exact hhist (by simpa using hne)
    -- the state after the exception
    have hst : ∃ w2, assignX cfg (some x) st.w = .ok () w2 ∧ w1 = empty w2 ∧ (empty w2).p.obj.call (empty w2).g = .error e ∧ (empty w2).p.self = st.w.p.self ∧
        Graph.getX w2.g st.w.p.self = x ∧ (empty w2).g = w2.g := by
      rcases assignX_right hn hsh hi (x := x) (by rw [hs]; exact hx) with ⟨w2, a1, a2, a3, a4⟩ | ⟨w2, a1⟩
      · unfold Constrained.objective at he
        rw [a1] at he
        simp only at he
        obtain ⟨e1, e2, e3, e4, e5, e6, e7, e8, e9, e10, e11⟩ := empty_inv a2
        have := evalObj_inv hn hsh e1 e10 e11
        rw [he] at this
        exact ⟨w2, a1, this.1, this.2.1, by rw [e3, a3], a4, e2⟩
      · unfold Constrained.objective at he
        rw [a1] at he
        injection he with he _
        exact absurd he.symm hne
    obtain ⟨w2, _, rfl, c1, c2, c3, c4⟩ := hst
    have hci := hH.inv hn hsh hc
    rw [hci.same.2.2.1] at c1
    have hg : Graph.getX (empty w2).g w0.p.self = x := by rw [c4, ← hs]; exact c3
    simp only
    cases hf : (empty w2).p.fail with
    | none => exact ⟨rfl, (empty w2).g, hg, Or.inr ⟨⟨e, c1⟩, by rw [← hci.same.2.1]; exact hf⟩⟩
    | some v => exact ⟨hH, hg, ⟨(empty w2).g, hg, Or.inr ⟨e, c1, by rw [← hci.same.2.1]; exact hf⟩⟩, rfl⟩

/-- one evaluation of the constraints by the driver -/
theorem conFn_spec (hn : NameInj cfg) (hsh : ShuffleOK cfg) {w0 : World V R} {st : St V R} (hc : Created cfg w0) (hh : Hist cfg w0 st.w)
    {x : List V} (hx : x.length = (Graph.getX st.w.g w0.p.self).length)
    (hrec : ∀ e w', Constrained.constraints cfg (some x) st.w = .error e w' → e ≠ .recursionError) :
    match conFn cfg x st with
    | .ok c st' => Hist cfg w0 st'.w ∧ Graph.getX st'.w.g w0.p.self = x ∧ ConAt w0 x c ∧
        st' = { st with w := st'.w, ncon := st.ncon + 1, crows := st.crows ++ [⟨st.ncon, x, c⟩] }
    | .error e st' => e = .typeError ∧ w0.p.fail = none ∧ ∃ g, Graph.getX g w0.p.self = x ∧ ¬ ∃ outs, Computable w0 g outs := by
  have hi := hh.inv hn hsh hc
  have hs : st.w.p.self = w0.p.self := hi.same.1
  have hhist : (Call.run cfg (.constraints (some x)) st.w).2 ≠ some .recursionError → Hist cfg w0 (Call.run cfg (.constraints (some x)) st.w).1 :=
    fun h => .call _ hh h
  unfold conFn
  cases he : Constrained.constraints cfg (some x) st.w with
  | ok c w1 =>
    have hf := C32_constraints_fresh hn hsh hc hh he
    have hH : Hist cfg w0 w1 := by
      have e : Call.run cfg (.constraints (some x)) st.w = (w1, none) := by simp only [Call.run, he]
      rw [e] at hhist; exact hhist (by simp)
    have hg : Graph.getX w1.g w0.p.self = x := hf.2.1 x rfl hx
    refine ⟨hH, hg, ⟨w1.g, hg, ?_⟩, rfl⟩
    rcases hf.1 with h | ⟨h1, v, h2, n, h3⟩
    · exact Or.inl h
    · exact Or.inr ⟨fun ⟨outs, h⟩ => h.1.not_breaks h1, Or.inl ⟨v, n, h2, h3⟩⟩
  | error e w1 =>
    have hne := hrec e w1 he
    have hH : Hist cfg w0 w1 := by
      have e' : Call.run cfg (.constraints (some x)) st.w = (w1, some e) := by simp only [Call.run, he]
      rw [e'] at hhist; exact hhist (by simpa using hne)
    have hci := hH.inv hn hsh hc
    have hst : Graph.getX w1.g w0.p.self = x ∧ ¬ ∃ outs, Computable w0 w1.g outs := by
      rcases assignX_right hn hsh hi (x := x) (by rw [hs]; exact hx) with ⟨w2, a1, a2, a3, a4⟩ | ⟨w2, a1⟩
      · unfold Constrained.constraints at he
        rw [a1] at he
        simp only at he
        obtain ⟨e1, e2, e3, e4, e5, e6, e7, e8, e9, e10, e11⟩ := empty_inv a2
        have hv := evalCon_inv hn hsh e1 e10 e11
        rw [he] at hv
        obtain ⟨_, hg, hv⟩ := hv
        have hnlc : (empty w2).p.nlc = w0.p.nlc := by unfold Prob.nlc; rw [e5, a2.same.2.2.2]
        rw [hg, e2]
        refine ⟨by rw [← hs]; exact a4, ?_⟩
        rintro ⟨outs, h1, h2, h3⟩
        have hsp := conLoop_spec w2.g w0.p.nlc
        rw [hnlc, e2] at hv
        rcases hv with ⟨h, _⟩ | ⟨_, h | ⟨h, _⟩ | ⟨h, _⟩⟩
        · obtain ⟨k, hk, _⟩ := h3
          rw [← hnlc] at hk
          unfold Prob.nlc at hk
          rw [h] at hk; cases hk
        · have e' : conLoop w2.g w0.p.nlc = (.raised e, (conLoop w2.g w0.p.nlc).2) := by rw [← h]
          rw [e'] at hsp
          exact hsp ⟨outs, h1, fun e he => ⟨fun _ => (h2 e he).1, fun _ => (h2 e he).2⟩⟩
        · have e' : conLoop w2.g w0.p.nlc = (.failed, (conLoop w2.g w0.p.nlc).2) := by rw [← h]
          rw [e'] at hsp
          exact h1.not_breaks hsp
        · have e' : conLoop w2.g w0.p.nlc = (.done [], (conLoop w2.g w0.p.nlc).2) := by rw [← h]
          rw [e'] at hsp
          obtain ⟨_, _, _, _, h4, _⟩ := hsp
          obtain ⟨k, hk, ha⟩ := h3
          exact h4.mp rfl k hk ha
      · unfold Constrained.constraints at he
        rw [a1] at he
        injection he with he _
        exact absurd he.symm hne
    obtain ⟨hg, hnc⟩ := hst
    simp only
    cases hf : w1.p.fail with
    | none =>
      have hf0 : w0.p.fail = none := by rw [← hci.same.2.1]; exact hf
      simp only
      by_cases h0 : w1.p.nvals = 0
      · rw [if_pos h0]
        exact ⟨hH, hg, ⟨w1.g, hg, Or.inr ⟨hnc, Or.inr ⟨hf0, rfl⟩⟩⟩, rfl⟩
      · rw [if_neg h0]
        exact ⟨rfl, hf0, w1.g, hg, hnc⟩
    | some v =>
      have hf0 : w0.p.fail = some v := by rw [← hci.same.2.1]; exact hf
      exact ⟨hH, hg, ⟨w1.g, hg, Or.inr ⟨hnc, Or.inl ⟨v, _, hf0, rfl⟩⟩⟩, rfl⟩

theorem probes_hist (hn : NameInj cfg) (hsh : ShuffleOK cfg) {w0 w w' : World V R} (hc : Created cfg w0) (h : Probes cfg w w') :
    Hist cfg w0 w → Hist cfg w0 w' ∧ (Graph.getX w'.g w0.p.self).length = (Graph.getX w.g w0.p.self).length := by
  induction h with
  | nil => exact fun h => ⟨h, rfl⟩
  | @cons w w1 w2 y c hy he _ ih =>
    intro hh
    have hs := (hh.inv hn hsh hc).same.1
    have hf := C32_constraints_fresh hn hsh hc hh he
    have hH : Hist cfg w0 w1 := by
      have e : Call.run cfg (.constraints (some y)) w = (w1, none) := by simp only [Call.run, he]
      have := Hist.call (.constraints (some y)) hh (by rw [e]; simp)
      rw [e] at this; exact this
    obtain ⟨i1, i2⟩ := ih hH
    rw [hs] at hy
    exact ⟨i1, by rw [i2, hf.2.1 y rfl hy, hy]⟩

/-- everything about a solve, up to any point -/
theorem run_inv (hn : NameInj cfg) (hsh : ShuffleOK cfg) {w0 w : World V R} (hc : Created cfg w0) (hh : Hist cfg w0 w)
    {opt : Optimizer V R} (hopt : SameLength opt) {tr : List (Told V R)} {st : St V R} (hr : Run cfg opt w tr st) :
    Hist cfg w0 st.w ∧ (Graph.getX st.w.g w0.p.self).length = (Graph.getX w.g w0.p.self).length ∧
    st.nobj = st.orows.length ∧ st.ncon = st.crows.length ∧
    st.orows.map ORow.idx = List.range st.orows.length ∧ st.crows.map CRow.idx = List.range st.crows.length ∧
    st.orows.map (fun row => (row.x, row.val)) = tr.filterMap (fun t => match t with | .obj x v => some (x, v) | _ => none) ∧
    st.crows.map (fun row => (row.x, row.vals)) = tr.filterMap (fun t => match t with | .con x c => some (x, c) | _ => none) ∧
    (∀ x v, Told.obj x v ∈ tr → ObjAt w0 x v) ∧ (∀ x c, Told.con x c ∈ tr → ConAt w0 x c) := by
  have hs : w.p.self = w0.p.self := (hh.inv hn hsh hc).same.1
  have hlen : ∀ tr x, (ask opt w tr = .obj x ∨ ask opt w tr = .con x ∨ ask opt w tr = .done x) → x.length = (Graph.getX w.g w0.p.self).length := by
    intro tr x h; rw [← hs]; exact hopt _ _ tr x h
  induction hr with
  | start => exact ⟨hh, rfl, rfl, rfl, rfl, rfl, rfl, rfl, (fun _ _ h => by cases h), (fun _ _ h => by cases h)⟩
  | @obj tr st st' x v _ hask hrec he ih =>
    obtain ⟨h1, h2, h3, h4, h5, h6, h7, h8, h9, h10⟩ := ih
    have hsp := objFn_spec hn hsh hc h1 (x := x) (by rw [h2]; exact hlen tr x (Or.inl hask)) hrec
    rw [he] at hsp
    obtain ⟨e1, e2, e3, e4⟩ := hsp
    have r1 : st'.nobj = st.nobj + 1 := by rw [e4]
    have r2 : st'.orows = st.orows ++ [⟨st.nobj, x, v⟩] := by rw [e4]
    have r3 : st'.ncon = st.ncon := by rw [e4]
    have r4 : st'.crows = st.crows := by rw [e4]
    refine ⟨e1, by rw [e2]; exact hlen tr x (Or.inl hask), ?_, by rw [r3, r4, h4], ?_, by rw [r4, h6], ?_, ?_, ?_, ?_⟩
    · rw [r1, r2, h3]; simp
    · rw [r2, List.map_append, h5, List.length_append, List.length_singleton, List.range_succ, h3]; rfl
    · rw [r2, List.map_append, h7, List.filterMap_append]; rfl
    · rw [r4, h8, List.filterMap_append]; simp
    · intro y u hu
      rcases List.mem_append.mp hu with h | h
      · exact h9 y u h
      · have := List.mem_singleton.mp h; injection this with a1 a2; subst a1; subst a2; exact e3
    · intro y u hu
      rcases List.mem_append.mp hu with h | h
      · exact h10 y u h
      · have := List.mem_singleton.mp h; cases this
  | @con tr st st' x c _ hask hrec he ih =>
    obtain ⟨h1, h2, h3, h4, h5, h6, h7, h8, h9, h10⟩ := ih
    have hsp := conFn_spec hn hsh hc h1 (x := x) (by rw [h2]; exact hlen tr x (Or.inr (Or.inl hask))) hrec
    rw [he] at hsp
    obtain ⟨e1, e2, e3, e4⟩ := hsp
    have r1 : st'.ncon = st.ncon + 1 := by rw [e4]
    have r2 : st'.crows = st.crows ++ [⟨st.ncon, x, c⟩] := by rw [e4]
    have r3 : st'.nobj = st.nobj := by rw [e4]
    have r4 : st'.orows = st.orows := by rw [e4]
    refine ⟨e1, by rw [e2]; exact hlen tr x (Or.inr (Or.inl hask)), by rw [r3, r4, h3], ?_, by rw [r4, h5], ?_, ?_, ?_, ?_, ?_⟩
    · rw [r1, r2, h4]; simp
    · rw [r2, List.map_append, h6, List.length_append, List.length_singleton, List.range_succ, h4]; rfl
    · rw [r4, h7, List.filterMap_append]; simp
    · rw [r2, List.map_append, h8, List.filterMap_append]; rfl
    · intro y u hu
      rcases List.mem_append.mp hu with h | h
      · exact h9 y u h
      · have := List.mem_singleton.mp h; cases this
    · intro y u hu
      rcases List.mem_append.mp hu with h | h
      · exact h10 y u h
      · have := List.mem_singleton.mp h; injection this with a1 a2; subst a1; subst a2; exact e3
  | @der tr st w' x j _ hask hp ih =>
    obtain ⟨h1, h2, h3, h4, h5, h6, h7, h8, h9, h10⟩ := ih
    obtain ⟨p1, p2⟩ := probes_hist hn hsh hc hp h1
    refine ⟨p1, by rw [← h2]; exact p2, h3, h4, h5, h6, ?_, ?_, ?_, ?_⟩
    · rw [h7, List.filterMap_append]; simp
    · rw [h8, List.filterMap_append]; simp
    · intro y u hu
      rcases List.mem_append.mp hu with h | h
      · exact h9 y u h
      · have := List.mem_singleton.mp h; cases this
    · intro y u hu
      rcases List.mem_append.mp hu with h | h
      · exact h10 y u h
      · have := List.mem_singleton.mp h; cases this

/-- C132: everything SciPy is told is right: objective values are the value of the objective function at the point asked for, or `fail` where that
    function raises; constraint vectors are `[l - c, c - u, ...]` there, or `fail`s where they cannot be computed. -/
theorem C132_told (hn : NameInj cfg) (hsh : ShuffleOK cfg) {w0 w : World V R} (hc : Created cfg w0) (hh : Hist cfg w0 w)
    {opt : Optimizer V R} (hopt : SameLength opt) {tr : List (Told V R)} {st : St V R} (hr : Run cfg opt w tr st) :
    (∀ x v, Told.obj x v ∈ tr → ObjAt w0 x v) ∧ (∀ x c, Told.con x c ∈ tr → ConAt w0 x c) := by
  obtain ⟨_, _, _, _, _, _, _, _, h9, h10⟩ := run_inv hn hsh hc hh hopt hr
  exact ⟨h9, h10⟩

/-- C132: the two files contain exactly what was exchanged with SciPy, in order, the lines numbered from 0. -/
theorem C132_log (hn : NameInj cfg) (hsh : ShuffleOK cfg) {w0 w : World V R} (hc : Created cfg w0) (hh : Hist cfg w0 w)
    {opt : Optimizer V R} (hopt : SameLength opt) {tr : List (Told V R)} {st : St V R} (hr : Run cfg opt w tr st) :
    st.orows.map ORow.idx = List.range st.orows.length ∧ st.crows.map CRow.idx = List.range st.crows.length ∧
    st.orows.map (fun row => (row.x, row.val)) = tr.filterMap (fun t => match t with | .obj x v => some (x, v) | _ => none) ∧
    st.crows.map (fun row => (row.x, row.vals)) = tr.filterMap (fun t => match t with | .con x c => some (x, c) | _ => none) := by
  obtain ⟨_, _, _, _, h5, h6, h7, h8, _⟩ := run_inv hn hsh hc hh hopt hr
  exact ⟨h5, h6, h7, h8⟩

/-- C132: SciPy is given the free dofs as start vector and for each of them its lower and upper bound, in the same order. -/
theorem C132_bounds (hn : NameInj cfg) (hsh : ShuffleOK cfg) {w0 w : World V R} (hc : Created cfg w0) (hh : Hist cfg w0 w) :
    (boundsOf w).map Prod.fst = Graph.getLb w.g w0.p.self ∧ (boundsOf w).map Prod.snd = Graph.getUb w.g w0.p.self ∧
    (boundsOf w).length = (Graph.getX w.g w0.p.self).length := by
  have hi := hh.inv hn hsh hc
  obtain ⟨l1, _, l3, l4, _⟩ := Graph.C06_lengths hn hsh hi.att.reach _ hi.att.alive
  unfold boundsOf
  rw [← hi.same.1]
  refine ⟨List.map_fst_zip (by rw [l3, l4]), List.map_snd_zip (by rw [l3, l4]), ?_⟩
  rw [List.length_zip, l1, l3, l4, Nat.min_self]

/-- C132: when the solve returns, `prob.x` is the point SciPy returned, and the problem is in a state that C31 and C32 speak about. -/
theorem C132_result (hn : NameInj cfg) (hsh : ShuffleOK cfg) {w0 w w' : World V R} (hc : Created cfg w0) (hh : Hist cfg w0 w)
    {opt : Optimizer V R} (hopt : SameLength opt) {orows : List (ORow V R)} {crows : List (CRow V R)} (hr : Returns cfg opt w w' orows crows) :
    ∃ tr x, ask opt w tr = .done x ∧ Graph.getX w'.g w0.p.self = x ∧ Hist cfg w0 w' ∧
      orows.map (fun row => (row.x, row.val)) = tr.filterMap (fun t => match t with | .obj x v => some (x, v) | _ => none) ∧
      crows.map (fun row => (row.x, row.vals)) = tr.filterMap (fun t => match t with | .con x c => some (x, c) | _ => none) := by
  obtain ⟨tr, st, x, g', h1, h2, h3, h4, h5, h6⟩ := hr
  obtain ⟨i1, _, _, _, _, _, i7, i8, _⟩ := run_inv hn hsh hc hh hopt h1
  have hi := i1.inv hn hsh hc
  have hst : Graph.exec cfg (.setX st.w.p.self x) st.w.g = .ok () g' := h3
  rcases Graph.setX_outcome hn hsh hi.att.reach st.w.p.self hi.att.alive x with ⟨_, e⟩ | ⟨_, ⟨s1, e, _⟩ | ⟨s1, e, hi1, vr, hv, _⟩⟩
  · rw [hst] at e; cases e
  · rw [hst] at e; cases e
  · rw [hst] at e
    injection e with _ e
    subst e
    have stt := vr.flag.static
    refine ⟨tr, x, h2, ?_, ?_, by rw [h5]; exact i7, by rw [h6]; exact i8⟩
    · rw [h4, ← hi.same.1]
      unfold Graph.getX
      rw [(vr.flag.fields _).2.1]
      simp only [stt.dofs]
      exact hv
    · rw [h4]
      refine .graph (op := .setX st.w.p.self x) i1 hi.att.alive (by intro hc; cases hc) (Or.inl hst) ?_ ?_
      · rw [vr.alive]; exact hi.att.alive
      · intro f hf; rw [stt.parents]; exact hi.att.att f hf

/-- C132: an evaluation of the objective is aborted with an exception only when the objective function returns an array, or raises and `fail` is
    `None`; it is then a `TypeError`, whatever the function raised. -/
theorem C132_objective_abort (hn : NameInj cfg) (hsh : ShuffleOK cfg) {w0 w : World V R} (hc : Created cfg w0) (hh : Hist cfg w0 w)
    {opt : Optimizer V R} (hopt : SameLength opt) {tr : List (Told V R)} {st st' : St V R} (hr : Run cfg opt w tr st) {x : List V}
    (hask : ask opt w tr = .obj x) (hrec : ∀ e w', Constrained.objective cfg (some x) st.w = .error e w' → e ≠ .recursionError) {e : Err}
    (he : objFn cfg x st = .error e st') :
    e = .typeError ∧ ∃ g, Graph.getX g w0.p.self = x ∧
        ((∃ l, w0.p.obj.call g = .ok (.array l)) ∨ ((∃ e', w0.p.obj.call g = .error e') ∧ w0.p.fail = none)) := by
  obtain ⟨h1, h2, _⟩ := run_inv hn hsh hc hh hopt hr
  have hs : w.p.self = w0.p.self := (hh.inv hn hsh hc).same.1
  have hx : x.length = (Graph.getX st.w.g w0.p.self).length := by rw [h2, ← hs]; exact hopt _ _ tr x (Or.inl hask)
  have := objFn_spec hn hsh hc h1 hx hrec
  rw [he] at this
  exact this

/-- and the constraints only when they cannot be computed and `fail` is `None`. -/
theorem C132_constraint_abort (hn : NameInj cfg) (hsh : ShuffleOK cfg) {w0 w : World V R} (hc : Created cfg w0) (hh : Hist cfg w0 w)
    {opt : Optimizer V R} (hopt : SameLength opt) {tr : List (Told V R)} {st st' : St V R} (hr : Run cfg opt w tr st) {x : List V}
    (hask : ask opt w tr = .con x) (hrec : ∀ e w', Constrained.constraints cfg (some x) st.w = .error e w' → e ≠ .recursionError) {e : Err}
    (he : conFn cfg x st = .error e st') :
    e = .typeError ∧ w0.p.fail = none ∧ ∃ g, Graph.getX g w0.p.self = x ∧ ¬ ∃ outs, Computable w0 g outs := by
  obtain ⟨h1, h2, _⟩ := run_inv hn hsh hc hh hopt hr
  have hs : w.p.self = w0.p.self := (hh.inv hn hsh hc).same.1
  have hx : x.length = (Graph.getX st.w.g w0.p.self).length := by rw [h2, ← hs]; exact hopt _ _ tr x (Or.inr (Or.inl hask))
  have := conFn_spec hn hsh hc h1 hx hrec
  rw [he] at this
  exact this

end

/-! ### concrete solves -/

def objRes (x : List Int) (st : St Int Rat) : Option Rat × St Int Rat :=
  match objFn cfg0 x st with
  | .ok v st' => (some v, st')
  | .error _ st' => (none, st')
def conRes (x : List Int) (st : St Int Rat) : Option (List (Ext Rat)) × St Int Rat :=
  match conFn cfg0 x st with
  | .ok v st' => (some v, st')
  | .error _ st' => (none, st')
def noRecObj (x : List Int) (st : St Int Rat) : Bool :=
  match Constrained.objective cfg0 (some x) st.w with
  | .ok _ _ => true
  | .error e _ => decide (e ≠ .recursionError)
def noRecCon (x : List Int) (st : St Int Rat) : Bool :=
  match Constrained.constraints cfg0 (some x) st.w with
  | .ok _ _ => true
  | .error e _ => decide (e ≠ .recursionError)

theorem stepObj {opt : Optimizer Int Rat} {w : World Int Rat} {tr : List (Told Int Rat)} {st : St Int Rat} {x : List Int} {v : Rat}
    (h : Run cfg0 opt w tr st) (hask : ask opt w tr = .obj x) (h1 : noRecObj x st = true) (h2 : (objRes x st).1 = some v) :
    Run cfg0 opt w (tr ++ [.obj x v]) (objRes x st).2 := by
  refine .obj h hask ?_ ?_
  · intro e w' he
    unfold noRecObj at h1
    rw [he] at h1; exact of_decide_eq_true h1
  · unfold objRes at h2 ⊢
    cases he : objFn cfg0 x st with
    | ok a s' => rw [he] at h2; injection h2 with h2; rw [h2]
    | error e s' => rw [he] at h2; cases h2

theorem stepCon {opt : Optimizer Int Rat} {w : World Int Rat} {tr : List (Told Int Rat)} {st : St Int Rat} {x : List Int} {c : List (Ext Rat)}
    (h : Run cfg0 opt w tr st) (hask : ask opt w tr = .con x) (h1 : noRecCon x st = true) (h2 : (conRes x st).1 = some c) :
    Run cfg0 opt w (tr ++ [.con x c]) (conRes x st).2 := by
  refine .con h hask ?_ ?_
  · intro e w' he
    unfold noRecCon at h1
    rw [he] at h1; exact of_decide_eq_true h1
  · unfold conRes at h2 ⊢
    cases he : conFn cfg0 x st with
    | ok a s' => rw [he] at h2; injection h2 with h2; rw [h2]
    | error e s' => rw [he] at h2; cases h2

/-- asks for these points in turn -/
def script (l : List (Ask Int)) (z : List Int) : Optimizer Int Rat := fun x0 _ tr =>
  match l[tr.length]? with
  | some (.obj x) => if x.length = x0.length then .obj x else .done x0
  | some (.con x) => if x.length = x0.length then .con x else .done x0
  | some (.der x) => .der x
  | _ => .done (if z.length = x0.length then z else x0)

theorem script_length (l : List (Ask Int)) (z : List Int) : SameLength (script l z) := by
  intro x0 bs tr x h
  unfold script at h
  split at h
  · split at h <;> simp at h <;> subst h <;> [assumption; rfl]
  · split at h <;> simp at h <;> subst h <;> [assumption; rfl]
  · simp at h
  · simp at h; rw [← h]; split <;> [assumption; rfl]

/-- a problem with a failing objective function: at `[0]` the objective fails -/
def F0 : World Int Rat := mkc w5 (bd 0 fPos) (some [⟨bd 0 fSum, .scalar .ninf, .scalar (.fin 0)⟩, ⟨bd 0 fPos, .scalar .ninf, .scalar (.fin 0)⟩]) (some 1000)

theorem F0_created : Created cfg0 F0 := by
  refine mkc_created w5_reach ?_ (by decide +kernel)
  intro f hf
  simp only [Option.getD_some, List.map_cons, List.map_nil, List.mem_cons, List.not_mem_nil, or_false] at hf
  rcases hf with rfl | rfl | rfl
  · exact ⟨by decide +kernel, _, rfl⟩
  · exact ⟨by decide +kernel, _, rfl⟩
  · exact ⟨by decide +kernel, _, rfl⟩

def G1 : St Int Rat := (objRes [0] { w := F0 }).2
def G2 : St Int Rat := (conRes [0] G1).2
def G3 : St Int Rat := (objRes [1] G2).2
def G4 : St Int Rat := (conRes [1] G3).2
def G5 : St Int Rat := (conRes [0] G4).2

def tr5 : List (Told Int Rat) := [.obj [0] 1000, .con [0] [.fin 1000], .obj [1] 1, .con [1] [.fin 3, .fin 1], .con [0] [.fin 1000, .fin 1000, .fin 1000]]
def opt5 : Optimizer Int Rat := script [.obj [0], .con [0], .obj [1], .con [1], .con [0]] [1]

theorem run5 : Run cfg0 opt5 F0 tr5 G5 := by
  have hx0 : (Graph.getX F0.g F0.p.self).length = 1 := by decide +kernel
  have ha : ∀ tr, ask opt5 F0 tr = opt5 (Graph.getX F0.g F0.p.self) (boundsOf F0) tr := fun _ => rfl
  have hs : ∀ tr a, ([Ask.obj [0], .con [0], .obj [1], .con [1], .con [0]] : List (Ask Int))[tr.length]? = some a →
      (match a with | .obj x => x.length = 1 | .con x => x.length = 1 | _ => False) → ask opt5 F0 tr = a := by
    intro tr a h1 h2
    rw [ha]
    unfold opt5 script
    rw [h1]
    cases a with
    | obj x => simp only at h2 ⊢; rw [if_pos (by rw [h2, hx0])]
    | con x => simp only at h2 ⊢; rw [if_pos (by rw [h2, hx0])]
    | der x => exact h2.elim
    | done x => exact h2.elim
  have h1 : Run cfg0 opt5 F0 _ G1 := stepObj (x := [0]) (v := 1000) .start (hs _ _ rfl rfl) (by decide +kernel) (by decide +kernel)
  have h2 : Run cfg0 opt5 F0 _ G2 := stepCon (x := [0]) (c := [.fin 1000]) h1 (hs _ _ rfl rfl) (by decide +kernel) (by decide +kernel)
  have h3 : Run cfg0 opt5 F0 _ G3 := stepObj (x := [1]) (v := 1) h2 (hs _ _ rfl rfl) (by decide +kernel) (by decide +kernel)
  have h4 : Run cfg0 opt5 F0 _ G4 := stepCon (x := [1]) (c := [.fin 3, .fin 1]) h3 (hs _ _ rfl rfl) (by decide +kernel) (by decide +kernel)
  exact stepCon (x := [0]) (c := [.fin 1000, .fin 1000, .fin 1000]) h4 (hs _ _ rfl rfl) (by decide +kernel) (by decide +kernel)

example : Created cfg0 F0 ∧ Hist cfg0 F0 F0 ∧ SameLength opt5 ∧ Run cfg0 opt5 F0 tr5 G5 ∧ G5.orows.map ORow.val = [1000, 1] ∧
    G5.crows.map CRow.vals = [[.fin 1000], [.fin 3, .fin 1], [.fin 1000, .fin 1000, .fin 1000]] :=
  ⟨F0_created, .start, script_length _ _, run5, by decide +kernel, by decide +kernel⟩

/-- C132: SciPy is told constraint vectors of different lengths when the first evaluation of the constraints fails: here one, two and three entries. -/
theorem C132_lengths_violated : Created cfg0 F0 ∧ Run cfg0 opt5 F0 tr5 G5 ∧ Told.con [0] [.fin 1000] ∈ tr5 ∧ Told.con [1] [.fin 3, .fin 1] ∈ tr5 ∧
    Told.con [0] [.fin 1000, .fin 1000, .fin 1000] ∈ tr5 := by
  refine ⟨F0_created, run5, ?_, ?_, ?_⟩ <;> simp [tr5]

end Simsopt.Solve.Con
