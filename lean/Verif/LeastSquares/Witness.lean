import Verif.LeastSquares.Sum
import Verif.Graph.Witness
import Mathlib.Data.Rat.Defs
import Mathlib.Algebra.Field.Rat
import Mathlib.Algebra.Order.Ring.Rat
/-!
# Least-squares problems: concrete executions meeting the hypotheses, and counterexamples to the violated claims
-/
namespace Simsopt.LSq
open Simsopt
open Simsopt.Graph (State Cfg Op Reachable SameInputs Step NameInj ShuffleOK cfg0 cfg0_names cfg0_shuffle w5 w5_reach next returns next_step)

/-- A method that computes its result from `self.full_x`. -/
def ofFullX (F : List Int → Except Err (Out Rat)) : Method Int Rat := fun o s => F (Graph.getFullX s o)

theorem ofFullX_reads (F : List Int → Except Err (Out Rat)) (a : Nat) : ReadsInputs cfg0 ⟨a, .fn (ofFullX F)⟩ := by
  intro s s' hr hr' ha ha' hs
  show F _ = F _
  rw [hs.fullX cfg0_names (hr.inv cfg0_names cfg0_shuffle) (hr'.inv cfg0_names cfg0_shuffle) ha ha']

/-- `sum(self.full_x)` -/
def fSum : Method Int Rat := ofFullX fun x => .ok (.scalar (x.sum : Int))
/-- `self.full_x` as an array -/
def fArr : Method Int Rat := ofFullX fun x => .ok (.array (x.map fun v => ((v : Int) : Rat)))
/-- `self.full_x[0]`; fails where that is zero -/
def fPos : Method Int Rat := ofFullX fun x => match x with
  | [] => .error .indexError
  | v :: _ => if v = 0 then .error .objectiveFailure else .ok (.scalar (v : Int))
/-- `10 * self.full_x[0]` -/
def fTen : Method Int Rat := ofFullX fun x => match x with
  | [] => .error .indexError
  | v :: _ => .ok (.scalar (10 * v : Int))

def bd (a : Nat) (m : Method Int Rat) : Bound Int Rat := ⟨a, .fn m⟩
def fm0 : FnMap Int Rat := fun _ => [("sum", fSum), ("arr", fArr)]
def reg0 : Registry Int Rat := fun _ _ => []

/-- the constructor in store `g`, which must return -/
def mk (g : State Int) (reg : Registry Int Rat) (goals weights : List Rat) (src : Source Int Rat) (fail : Option Rat) : World Int Rat × Registry Int Rat :=
  match create cfg0 7 fm0 reg g (.seq goals) (.seq weights) src fail with
  | .ok r => r
  | .error _ => (⟨g, { self := 0, goals := [], inpWeights := [], fail := none, funcs := [] }⟩, reg)

def mkOk (g : State Int) (reg : Registry Int Rat) (goals weights : List Rat) (src : Source Int Rat) (fail : Option Rat) : Bool :=
  match create cfg0 7 fm0 reg g (.seq goals) (.seq weights) src fail with
  | .ok _ => true
  | .error _ => false

theorem mk_create {g : State Int} {reg : Registry Int Rat} {goals weights : List Rat} {src : Source Int Rat} {fail : Option Rat}
    (h : mkOk g reg goals weights src fail = true) :
    create cfg0 7 fm0 reg g (.seq goals) (.seq weights) src fail = .ok (mk g reg goals weights src fail) := by
  unfold mkOk at h; unfold mk
  cases he : create cfg0 7 fm0 reg g (.seq goals) (.seq weights) src fail with
  | ok r => rfl
  | error e => rw [he] at h; cases h

def evalState (x : Option (List Int)) (w : World Int Rat) : World Int Rat :=
  match unweighted cfg0 x w with
  | .ok _ w' => w'
  | .error _ w' => w'

def evalVal (x : Option (List Int)) (w : World Int Rat) : Option (List Rat) :=
  match unweighted cfg0 x w with
  | .ok r _ => some r
  | .error _ _ => none

def evalErr (x : Option (List Int)) (w : World Int Rat) : Option Err :=
  match unweighted cfg0 x w with
  | .ok _ _ => none
  | .error e _ => some e

theorem evalVal_ok {x : Option (List Int)} {w : World Int Rat} {r : List Rat} (h : evalVal x w = some r) : unweighted cfg0 x w = .ok r (evalState x w) := by
  unfold evalVal at h; unfold evalState
  cases he : unweighted cfg0 x w with
  | ok a s => rw [he] at h; injection h with h; rw [h]
  | error e s => rw [he] at h; cases h

theorem evalErr_ok {x : Option (List Int)} {w : World Int Rat} {e : Err} (h : evalErr x w = some e) : unweighted cfg0 x w = .error e (evalState x w) := by
  unfold evalErr at h; unfold evalState
  cases he : unweighted cfg0 x w with
  | ok a s => rw [he] at h; cases h
  | error e s => rw [he] at h; injection h with h; rw [h]

def objVal (w : World Int Rat) : Option Rat :=
  match objective cfg0 none w with
  | .ok r _ => some r
  | .error _ _ => none

def objState (w : World Int Rat) : World Int Rat :=
  match objective cfg0 none w with
  | .ok _ w' => w'
  | .error _ w' => w'

theorem objVal_ok {w : World Int Rat} {r : Rat} (h : objVal w = some r) : objective cfg0 none w = .ok r (objState w) := by
  unfold objVal at h; unfold objState
  cases he : objective cfg0 none w with
  | ok a s => rw [he] at h; injection h with h; rw [h]
  | error e s => rw [he] at h; cases h

section
variable {sq : Rat → Rat} {early : Prop} {w0 w : World Int Rat} {b : Bool}
theorem Hist.eval (h : Hist cfg0 sq early w0 w b) (x : Option (List Int)) {r : List Rat} (hv : evalVal x w = some r) :
    Hist cfg0 sq early w0 (evalState x w) true := by
  refine .returned (c := .unweighted x) h ?_
  show (do discard (unweighted cfg0 x) : M Int Rat Unit) w = _
  rw [rd, evalVal_ok hv]

theorem Hist.evalRaise (h : Hist cfg0 sq early w0 w b) (hb : b = true ∨ early) (x : Option (List Int)) {e : Err} (hv : evalErr x w = some e)
    (hne : e ≠ .recursionError) : Hist cfg0 sq early w0 (evalState x w) b := by
  refine .raised (c := .unweighted x) h hb ?_ hne
  show (do discard (unweighted cfg0 x) : M Int Rat Unit) w = _
  rw [rd, evalErr_ok hv]

theorem Hist.op (h : Hist cfg0 sq early w0 w b) (op : Op Int) (hs : op.Safe w.g) (hne : op ≠ .clearNewX w.p.self) (hr : returns cfg0 op w.g = true)
    (ha : (next cfg0 op w.g).alive w.p.self = true) (hp : ∀ f ∈ w.p.funcs, f.owner ∈ ((next cfg0 op w.g).obj w.p.self).parents) :
    Hist cfg0 sq early w0 { w with g := next cfg0 op w.g } b := .graph h hs hne (Or.inl (next_step hr)) ha hp
end

/-! ### an ordinary problem: `LeastSquaresProblem.from_tuples([(a.fSum, 1, 4), (b.fArr, 2, 1)])` -/

/-- problems built from functions of the above kind -/
theorem mk_created {g : State Int} (hr : Reachable cfg0 g) {reg : Registry Int Rat} {goals weights : List Rat} {l : List (Nat × (List Int → Except Err (Out Rat)))}
    {fail : Option Rat} (ha : (l.all fun e => g.alive e.1) = true)
    (h : mkOk g reg goals weights (.funcs (l.map fun e => bd e.1 (ofFullX e.2))) fail = true) :
    Created cfg0 (mk g reg goals weights (.funcs (l.map fun e => bd e.1 (ofFullX e.2))) fail).1 := by
  generalize hL : l.map (fun e => bd e.1 (ofFullX e.2)) = L at h ⊢
  have hs : ∀ f ∈ L, g.alive f.owner = true := by
    intro f hf
    rw [← hL] at hf
    obtain ⟨e, he, rfl⟩ := List.mem_map.mp hf
    exact List.all_eq_true.mp ha e he
  have hc := mk_create h
  refine ⟨g, 7, fm0, reg, .seq goals, .seq weights, .funcs L, fail, (mk g reg goals weights (.funcs L) fail).2, hr, hs, hc, ?_⟩
  intro f hf
  have e := (C27_funcs_in_are_evaluated (w0 := (mk g reg goals weights (.funcs L) fail).1) cfg0_names cfg0_shuffle hr hs hc).1
  rw [e, ← hL] at hf
  obtain ⟨e, _, rfl⟩ := List.mem_map.mp hf
  exact ofFullX_reads _ _

def P0 : World Int Rat := (mk w5 reg0 [1, 2] [4, 1] (.funcs [bd 0 fSum, bd 1 fArr]) (some 1000)).1

theorem P0_created : Created cfg0 P0 :=
  mk_created (l := [(0, _), (1, _)]) w5_reach (by decide +kernel) (by decide +kernel)

/-- evaluate, then `a.x = [7]` -/
def P1 : World Int Rat := evalState none P0
def P2 : World Int Rat := { P1 with g := next cfg0 (.setX 0 [7]) P1.g }

example (sq : Rat → Rat) : Hist cfg0 sq False P0 P2 true ∧ evalVal none P2 = some [8, 1, 2, 3] ∧ objVal P2 = some 270 ∧ evalVal none P1 = some [2, 1, 2, 3] ∧
    Returns P0.p.funcs (objState P2).g [[9], [3, 4, 5]] := by
  refine ⟨?_, by decide +kernel, by decide +kernel, by decide +kernel, ?_⟩
  · have h1 : Hist cfg0 sq False P0 P1 true := Hist.start.eval none (r := [2, 1, 2, 3]) (by decide +kernel)
    exact h1.op (.setX 0 [7]) (by show P1.g.alive 0 = true; decide +kernel) (by intro h; cases h) (by decide +kernel) (by decide +kernel) (by decide +kernel)
  · exact .cons ⟨.scalar 9, by rfl, rfl⟩ (.cons ⟨.array [3, 4, 5], by rfl, rfl⟩ .nil)

/-! ### C28: the failure vector can have the wrong length

`[(a.fSum, 0, 1), (a.fPos, 0, 1)]` where `a.x = [0]` at first: the first evaluation raises after one value has been counted; later `a.x = [1]` is
evaluated successfully, and `a.x = [0]` fails. -/

def Q0 : World Int Rat := (mk w5 reg0 [0, 0] [1, 1] (.funcs [bd 0 fSum, bd 0 fPos]) (some 1000)).1
def Q1 : World Int Rat := evalState (some [0]) Q0
def Q2 : World Int Rat := evalState (some [1]) Q1
def Q3 : World Int Rat := { Q2 with g := next cfg0 (.setX 0 [0]) Q2.g }

theorem Q0_created : Created cfg0 Q0 :=
  mk_created (l := [(0, _), (0, _)]) w5_reach (by decide +kernel) (by decide +kernel)

theorem Q0_lengths : FixedLengths Q0.p.funcs [1, 1] := by
  have e : Q0.p.funcs = [bd 0 fSum, bd 0 fPos] := by rfl
  rw [e]
  intro g outs h
  have h2 : ∀ o, (∃ out, Bound.call (bd 0 fPos) g = .ok out ∧ out.toArray = o) → o.length = 1 := by
    rintro o ⟨out, h1, rfl⟩
    unfold bd fPos Bound.call ofFullX at h1
    simp only at h1
    split at h1
    · cases h1
    · split at h1
      · cases h1
      · injection h1 with h1; rw [← h1]; rfl
  have h1 : ∀ o, (∃ out, Bound.call (bd 0 fSum) g = .ok out ∧ out.toArray = o) → o.length = 1 := by
    rintro o ⟨out, h1, rfl⟩
    unfold bd fSum Bound.call ofFullX at h1
    simp only at h1
    injection h1 with h1; rw [← h1]; rfl
  cases h with
  | cons a1 a2 =>
    cases a2 with
    | cons b1 b2 => cases b2; simp [h1 _ a1, h2 _ b1]

/-- All evaluations that succeed return two numbers; the failure vector has three. -/
theorem C28_length_violated (sq : Rat → Rat) : Created cfg0 Q0 ∧ FixedLengths Q0.p.funcs [1, 1] ∧ Hist cfg0 sq True Q0 Q3 true ∧
    unweighted cfg0 none Q3 = .ok [1000, 1000, 1000] (evalState none Q3) := by
  refine ⟨Q0_created, Q0_lengths, ?_, evalVal_ok (by decide +kernel)⟩
  have h1 : Hist cfg0 sq True Q0 Q1 false := Hist.start.evalRaise (Or.inr trivial) (some [0]) (e := .objectiveFailure) (by decide +kernel) (by intro h; cases h)
  have h2 : Hist cfg0 sq True Q0 Q2 true := h1.eval (some [1]) (r := [3, 1]) (by decide +kernel)
  exact h2.op (.setX 0 [0]) (by show Q2.g.alive 0 = true; decide +kernel) (by intro h; cases h) (by decide +kernel) (by decide +kernel) (by decide +kernel)

/-- Without the early failure the vector is right, so the hypotheses of the partial theorem are met. -/
example (sq : Rat → Rat) : ∃ w, Hist cfg0 sq False Q0 w true ∧ evalVal (some [0]) w = some [1000, 1000] :=
  ⟨evalState (some [1]) Q0, Hist.start.eval (some [1]) (r := [3, 1]) (by decide +kernel), by decide +kernel⟩

/-! ### C27: a problem detached from the owner of one of its functions is stale -/

def D1 : World Int Rat := { P0 with g := next cfg0 (.removeParent P0.p.self 0) P0.g }
def D2 : World Int Rat := evalState none D1
def D3 : World Int Rat := { D2 with g := next cfg0 (.setX 0 [7]) D2.g }

/-- `p.remove_parent(a)`, evaluate, `a.x = [7]`: the functions of `p` now give other residuals than `p` returns. -/
theorem C27_detached_violated : returns cfg0 (.removeParent P0.p.self 0) P0.g = true ∧ returns cfg0 (.setX 0 [7]) D2.g = true ∧
    evalVal none D3 = some [2, 1, 2, 3] ∧
    Returns D3.p.funcs D3.g [[9], [3, 4, 5]] ∧ residualVector D3.p.goals [[9], [3, 4, 5]] = [8, 1, 2, 3] := by
  refine ⟨by decide +kernel, by decide +kernel, by decide +kernel, ?_, by decide +kernel⟩
  exact .cons ⟨.scalar 9, by rfl, rfl⟩ (.cons ⟨.array [3, 4, 5], by rfl, rfl⟩ .nil)

/-! ### C30 -/

def addW (reg : Registry Int Rat) (g : State Int) (p q : Prob Int Rat) : World Int Rat × Registry Int Rat :=
  match add cfg0 7 fm0 reg g p q with
  | .ok r => r
  | .error _ => (⟨g, p⟩, reg)

def addOk (reg : Registry Int Rat) (g : State Int) (p q : Prob Int Rat) : Bool :=
  match add cfg0 7 fm0 reg g p q with
  | .ok _ => true
  | .error _ => false

theorem addW_ok {reg : Registry Int Rat} {g : State Int} {p q : Prob Int Rat} (h : addOk reg g p q = true) :
    add cfg0 7 fm0 reg g p q = .ok (addW reg g p q) := by
  unfold addOk at h; unfold addW
  cases he : add cfg0 7 fm0 reg g p q with
  | ok r => rfl
  | error e => rw [he] at h; cases h

/-- two ordinary problems in one store, and their sum -/
def A0 := mk w5 reg0 [1, 2] [4, 1] (.funcs (flat [(0, [fSum]), (1, [fArr])])) (some 1000)
def B0 := mk A0.1.g A0.2 [3, 0] [2, 5] (.funcs (flat [(1, [fSum, fTen])])) (some 50)
def S0 := addW B0.2 B0.1.g A0.1.p B0.1.p

example : Blocks B0.2 B0.1.g A0.1.p [(0, [fSum]), (1, [fArr])] ∧ Blocks B0.2 B0.1.g B0.1.p [(1, [fSum, fTen])] ∧
    addOk B0.2 B0.1.g A0.1.p B0.1.p = true ∧ objVal ⟨S0.1.g, A0.1.p⟩ = some 30 ∧ objVal ⟨S0.1.g, B0.1.p⟩ = some 4662 ∧ objVal S0.1 = some 4692 := by
  refine ⟨⟨rfl, by decide +kernel, ?_⟩, ⟨rfl, by decide +kernel, ?_⟩, by decide +kernel, by decide +kernel, by decide +kernel, by decide +kernel⟩
  · intro b hb
    rcases List.mem_cons.mp hb with rfl | hb
    · exact ⟨rfl, by simp⟩
    · rcases List.mem_cons.mp hb with rfl | hb
      · exact ⟨rfl, by simp⟩
      · cases hb
  · intro b hb
    rcases List.mem_cons.mp hb with rfl | hb
    · exact ⟨rfl, by simp⟩
    · cases hb

/-- `p` lists a function of `a`, one of `b`, and another of `a`; `q` one of `b` -/
def I1 := mk w5 reg0 [1, 2, 0] [4, 1, 1] (.funcs [bd 0 fSum, bd 1 fSum, bd 0 fTen]) (some 1000)
def I2 := mk I1.1.g I1.2 [0] [1] (.funcs [bd 1 fTen]) (some 1000)
def I3 := addW I2.2 I2.1.g I1.1.p I2.1.p

/-- The sum regroups the functions by parent but not the goals and weights: its objective is not the sum. -/
theorem C30_interleaved_violated : Created cfg0 I1.1 ∧ Created cfg0 I2.1 ∧ add cfg0 7 fm0 I2.2 I2.1.g I1.1.p I2.1.p = .ok I3 ∧
    objVal ⟨I3.1.g, I1.1.p⟩ = some 216 ∧ objVal ⟨I3.1.g, I2.1.p⟩ = some 900 ∧ objVal I3.1 = some 1124 ∧ (1124 : Rat) ≠ 216 + 900 := by
  have c1 : Created cfg0 I1.1 := mk_created (l := [(0, _), (1, _), (0, _)]) w5_reach (by decide +kernel) (by decide +kernel)
  refine ⟨c1, mk_created (l := [(1, _)]) (c1.inv cfg0_names cfg0_shuffle).1.reach (by decide +kernel) (by decide +kernel),
    addW_ok (by decide +kernel), by decide +kernel, by decide +kernel, by decide +kernel, by decide +kernel⟩

/-- `p`, `q` use different functions of `a`, `r` one of `b` -/
def N1 := mk w5 reg0 [1] [1] (.funcs [bd 0 fSum]) (some 1000)
def N2 := mk N1.1.g N1.2 [2] [1] (.funcs [bd 0 fTen]) (some 1000)
def N3 := mk N2.1.g N2.2 [0] [1] (.funcs [bd 1 fTen]) (some 1000)
def N4 := addW N3.2 N3.1.g N1.1.p N2.1.p
def N5 := addW N4.2 N4.1.g N4.1.p N3.1.p

/-- `p + q` is right but `(p + q) + r` cannot be evaluated: it has each function of `a` twice. -/
theorem C30_repeated_parent_violated : addOk N3.2 N3.1.g N1.1.p N2.1.p = true ∧ addOk N4.2 N4.1.g N4.1.p N3.1.p = true ∧
    objVal N4.1 = some 68 ∧ objVal ⟨N5.1.g, N3.1.p⟩ = some 900 ∧ evalErr none N5.1 = some .indexError ∧
    N5.1.p.funcs.length = 5 ∧ N5.1.p.goals.length = 3 := by
  refine ⟨by decide +kernel, by decide +kernel, by decide +kernel, by decide +kernel, by decide +kernel, by decide +kernel, by decide +kernel⟩

/-- Problems with `fail=None` cannot be added. -/
theorem C30_fail_none_violated {V R : Type} [Field R] [LinearOrder R] (cfg : Cfg V) (cls : Nat) (fm : FnMap V R) (reg : Registry V R) (g : State V)
    (p q : Prob V R) (h : p.fail = none ∨ q.fail = none) : add cfg cls fm reg g p q = .error .typeError := by
  unfold add
  cases hp : p.fail with
  | none => rfl
  | some a =>
    cases hq : q.fail with
    | none => rfl
    | some b => rw [hp, hq] at h; rcases h with h | h <;> cases h

/-! ### C47 -/

/-- `depends_on=[a], opt_return_fns=[["sum"]]` builds a problem that raises `TypeError` when evaluated, although the same function given as a
    callable works. -/
theorem C47_names_violated :
    mkOk w5 reg0 [0] [1] (.depends [0] [[.name "sum"]]) none = true ∧
    evalErr none (mk w5 reg0 [0] [1] (.depends [0] [[.name "sum"]]) none).1 = some .typeError ∧
    evalVal none (mk w5 reg0 [0] [1] (.depends [0] [[.fn fSum]]) none).1 = some [3] := by
  refine ⟨by decide +kernel, by decide +kernel, by decide +kernel⟩

end Simsopt.LSq
