import Verif.Constrained.Props
import Verif.LeastSquares.Witness
/-!
# Constrained problems: concrete executions meeting the hypotheses, and counterexamples
-/
namespace Simsopt.Constrained
open Simsopt Simsopt.LSq
open Simsopt.Graph (State Cfg Op Reachable Step NameInj ShuffleOK cfg0 cfg0_names cfg0_shuffle w5 w5_reach next returns next_step)

def mkc (g : State Int) (obj : Bound Int Rat) (nlc : Option (List (Con Int Rat))) (fail : Option Rat) : World Int Rat :=
  match create cfg0 7 g obj nlc fail with
  | .ok w => w
  | .error _ => ⟨g, { self := 0, fail := none, obj := obj, cons := none }⟩

def mkcOk (g : State Int) (obj : Bound Int Rat) (nlc : Option (List (Con Int Rat))) (fail : Option Rat) : Bool :=
  match create cfg0 7 g obj nlc fail with
  | .ok _ => true
  | .error _ => false

theorem mkc_create {g : State Int} {obj : Bound Int Rat} {nlc : Option (List (Con Int Rat))} {fail : Option Rat} (h : mkcOk g obj nlc fail = true) :
    create cfg0 7 g obj nlc fail = .ok (mkc g obj nlc fail) := by
  unfold mkcOk at h; unfold mkc
  cases he : create cfg0 7 g obj nlc fail with
  | ok r => rfl
  | error e => rw [he] at h; cases h

theorem mkc_created {g : State Int} (hr : Reachable cfg0 g) {obj : Bound Int Rat} {nlc : Option (List (Con Int Rat))} {fail : Option Rat}
    (ha : ∀ f ∈ obj :: (nlc.getD []).map (·.fn), g.alive f.owner = true ∧ ∃ F, f.fn = RetFn.fn (ofFullX F)) (h : mkcOk g obj nlc fail = true) :
    Created cfg0 (mkc g obj nlc fail) := by
  refine ⟨g, 7, obj, nlc, fail, hr, fun f hf => (ha f hf).1, mkc_create h, fun f hf => ?_⟩
  obtain ⟨_, F, hF⟩ := ha f hf
  obtain ⟨a, r⟩ := f
  subst hF
  exact ofFullX_reads F a

def conState (x : Option (List Int)) (w : World Int Rat) : World Int Rat := ((Call.constraints x).run cfg0 w).1
def objState (x : Option (List Int)) (w : World Int Rat) : World Int Rat := ((Call.objective x).run cfg0 w).1

def conVal (x : Option (List Int)) (w : World Int Rat) : Except Err (List (Ext Rat)) :=
  match constraints cfg0 x w with
  | .ok r _ => .ok r
  | .error e _ => .error e

def objVal (x : Option (List Int)) (w : World Int Rat) : Except Err (Out Rat) :=
  match objective cfg0 x w with
  | .ok r _ => .ok r
  | .error e _ => .error e

def allVal (x : Option (List Int)) (w : World Int Rat) : Except Err (List (Ext Rat)) :=
  match allFuncs cfg0 x w with
  | .ok r _ => .ok r
  | .error e _ => .error e

instance : DecidableEq (Except Err (List (Ext Rat))) := fun a b => match a, b with
  | .ok x, .ok y => if h : x = y then .isTrue (by rw [h]) else .isFalse (by simpa using h)
  | .error x, .error y => if h : x = y then .isTrue (by rw [h]) else .isFalse (by simpa using h)
  | .ok _, .error _ => .isFalse (by simp)
  | .error _, .ok _ => .isFalse (by simp)

theorem conVal_ok {x : Option (List Int)} {w : World Int Rat} {r : List (Ext Rat)} (h : conVal x w = .ok r) :
    constraints cfg0 x w = .ok r (conState x w) := by
  unfold conVal at h; unfold conState; simp only [Call.run]
  cases he : constraints cfg0 x w with
  | ok a s => rw [he] at h; injection h with h; rw [h]
  | error e s => rw [he] at h; cases h

theorem Hist.op {w0 w : World Int Rat} (h : Hist cfg0 w0 w) (op : Op Int) (hs : op.Safe w.g) (hne : op ≠ .clearNewX w.p.self) (hr : returns cfg0 op w.g = true)
    (ha : (next cfg0 op w.g).alive w.p.self = true) (hp : ∀ f ∈ w.p.funcs, f.owner ∈ ((next cfg0 op w.g).obj w.p.self).parents) :
    Hist cfg0 w0 { w with g := next cfg0 op w.g } := .graph h hs hne (Or.inl (next_step hr)) ha hp

/-! ### an ordinary problem

objective `a.fSum`, constraints `(b.fArr, [0, -inf, 5], [4, 3, inf])` and `(a.fPos, -1, inf)` -/

def cons0 : List (Con Int Rat) :=
  [⟨bd 1 fArr, .array [.fin 0, .ninf, .fin 5], .array [.fin 4, .fin 3, .pinf]⟩, ⟨bd 0 fPos, .scalar (.fin (-1)), .scalar .pinf⟩]

def P0 : World Int Rat := mkc w5 (bd 0 fSum) (some cons0) (some 1000)

theorem P0_created : Created cfg0 P0 := by
  refine mkc_created w5_reach ?_ (by decide +kernel)
  intro f hf
  simp only [cons0, Option.getD_some, List.map_cons, List.map_nil, List.mem_cons, List.not_mem_nil, or_false] at hf
  rcases hf with rfl | rfl | rfl
  · exact ⟨by decide +kernel, _, rfl⟩
  · exact ⟨by decide +kernel, _, rfl⟩
  · exact ⟨by decide +kernel, _, rfl⟩

theorem P0_proper : ∀ k ∈ P0.p.nlc, k.Proper := by
  have e : P0.p.nlc = cons0 := by rfl
  rw [e]
  intro k hk
  simp only [cons0, List.mem_cons, List.not_mem_nil, or_false] at hk
  rcases hk with rfl | rfl <;> exact ⟨by decide, by decide⟩

/-- objective, then `a.x = [7]`, then the constraints -/
def P1 : World Int Rat := objState none P0
def P2 : World Int Rat := { P1 with g := next cfg0 (.setX 0 [7]) P1.g }
def P3 : World Int Rat := conState none P2
def P4 : World Int Rat := { P3 with g := next cfg0 (.setX 0 [0]) P3.g }

theorem P2_hist : Hist cfg0 P0 P2 := by
  have h1 : Hist cfg0 P0 P1 := .call (.objective none) .start (by decide +kernel)
  exact h1.op (.setX 0 [7]) (by show P1.g.alive 0 = true; decide +kernel) (by intro h; cases h) (by decide +kernel) (by decide +kernel) (by decide +kernel)

theorem P4_hist : Hist cfg0 P0 P4 := by
  have h1 : Hist cfg0 P0 P3 := .call (.constraints none) P2_hist (by decide +kernel)
  exact h1.op (.setX 0 [0]) (by show P3.g.alive 0 = true; decide +kernel) (by intro h; cases h) (by decide +kernel) (by decide +kernel) (by decide +kernel)

/-- The theorems of Props.lean apply to this history: values follow the dofs, and a failing constraint function gives the failure vector. -/
example : Created cfg0 P0 ∧ Hist cfg0 P0 P2 ∧ (∀ k ∈ P0.p.nlc, k.Proper) ∧
    constraints cfg0 none P2 = .ok [.fin (-3), .ninf, .fin 0, .fin (-1), .fin 1, .ninf, .fin (-8)] P3 ∧
    Gives (P0.p.nlc.map (·.fn)) P3.g [.array [3, 4, 5], .scalar 7] ∧
    Hist cfg0 P0 P4 ∧ conVal none P4 = .ok (List.replicate 7 (.fin 1000)) ∧
    allVal none P2 = .ok [.fin 9, .fin (-3), .ninf, .fin 0, .fin (-1), .fin 1, .ninf, .fin (-8)] := by
  refine ⟨P0_created, P2_hist, P0_proper, conVal_ok (by decide +kernel), ?_, P4_hist, by decide +kernel, by decide +kernel⟩
  exact .cons rfl (.cons rfl .nil)

/-! ### C31: constraints without any finite bound -/

def U0 : World Int Rat := mkc w5 (bd 0 fSum) (some [⟨bd 1 fSum, .scalar .ninf, .scalar .pinf⟩]) (some 1000)

example : Created cfg0 U0 ∧ Gives (U0.p.nlc.map (·.fn)) U0.g [.scalar 12] ∧ (∀ k ∈ U0.p.nlc, ¬ k.Active) ∧ U0.p.cons ≠ none ∧
    conVal none U0 = .error .valueError := by
  refine ⟨mkc_created w5_reach ?_ (by decide +kernel), .cons rfl .nil, ?_, by simp [U0, mkc, create]; decide +kernel, by decide +kernel⟩
  · intro f hf
    simp only [Option.getD_some, List.map_cons, List.map_nil, List.mem_cons, List.not_mem_nil, or_false] at hf
    rcases hf with rfl | rfl
    · exact ⟨by decide +kernel, _, rfl⟩
    · exact ⟨by decide +kernel, _, rfl⟩
  · have e : U0.p.nlc = [⟨bd 1 fSum, .scalar .ninf, .scalar .pinf⟩] := by rfl
    rw [e]
    intro k hk
    rw [List.mem_singleton] at hk
    subst hk
    intro h
    rcases h with h | h <;> simp [Out.toArray, Ext.isFinite] at h

end Simsopt.Constrained
