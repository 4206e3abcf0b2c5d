import Verif.Graph.Props2
import Mathlib.Data.Finset.Card
import Mathlib.Data.Finset.Range
/-!
# Concrete executions: the hypotheses of the graph theorems are met, and the violated claims are violated
-/
namespace Simsopt.Graph
open Dofs
variable {V : Type}

/-- A runtime with integer dofs, recursion limit 1000, classes `A`, `AA`, `AAA`, ... and sets in insertion order. -/
def cfg0 : Cfg Int :=
  { limit := 1000, shuffle := fun _ l => l, cname := fun c => String.ofList (List.replicate (c + 1) 'A'),
    ninf := -1000, pinf := 1000 }

theorem cfg0_names : NameInj cfg0 := by
  apply C11_names_injective
  · intro c c' h
    have := congrArg (fun s => s.toList.length) h
    simp [cfg0] at this
    exact this
  · intro c ch h
    simp [cfg0, List.getLast?_replicate] at h
    subst h; decide

theorem cfg0_shuffle : ShuffleOK cfg0 := fun _ l => List.Perm.refl l

/-- run the calls one after the other; every one of them must return -/
def run (cfg : Cfg V) : List (Op V) → State V → Option (State V)
  | [], s => some s
  | op :: ops, s => match exec cfg op s with
    | .ok _ s' => run cfg ops s'
    | .error _ _ => none

/-- decidable version of `Op.Safe` for the calls used in the examples -/
theorem reach_run {cfg : Cfg V} {s : State V} (hr : Reachable cfg s) (op : Op V) (hs : op.Safe s) {s' : State V}
    (h : exec cfg op s = .ok () s') : Reachable cfg s' := .step hr hs (Or.inl h)

/-- the store after a call that is known to return -/
def next (cfg : Cfg V) (op : Op V) (s : State V) : State V :=
  match exec cfg op s with
  | .ok _ s' => s'
  | .error _ s' => s'

/-- did the call return? -/
def returns (cfg : Cfg V) (op : Op V) (s : State V) : Bool :=
  match exec cfg op s with
  | .ok _ _ => true
  | .error _ _ => false

theorem next_step {cfg : Cfg V} {op : Op V} {s : State V} (h : returns cfg op s = true) :
    exec cfg op s = .ok () (next cfg op s) := by
  unfold returns at h; unfold next
  cases he : exec cfg op s with
  | ok a s' => rfl
  | error e s' => rw [he] at h; cases h

theorem reach_next {cfg : Cfg V} {op : Op V} {s : State V} (hr : Reachable cfg s) (hs : op.Safe s)
    (h : returns cfg op s = true) : Reachable cfg (next cfg op s) := .step hr hs (Or.inl (next_step h))

/-- `a = A(x0=[1,2]); b = A(x0=[3,4,5], external setter); c = AA(depends_on=[a,b]); d = A(dofs=a.dofs, depends_on=[c]); a.fix(-1)` -/
def w1 : State Int := next cfg0 (.new 0 (.fresh { x := some [1, 2] }) false [] false) State.empty
def w2 : State Int := next cfg0 (.new 0 (.fresh { x := some [3, 4, 5] }) true [] false) w1
def w3 : State Int := next cfg0 (.new 1 (.fresh {}) false [0, 1] true) w2
def w4 : State Int := next cfg0 (.new 0 (.shared 0) false [2] false) w3
def w5 : State Int := next cfg0 (.fix 0 (.idx (-1))) w4

theorem w1_reach : Reachable cfg0 w1 := reach_next .init ⟨by simp, trivial⟩ (by decide +kernel)
theorem w2_reach : Reachable cfg0 w2 := reach_next w1_reach ⟨by simp, trivial⟩ (by decide +kernel)
theorem w3_reach : Reachable cfg0 w3 := reach_next w2_reach ⟨by decide +kernel, trivial⟩ (by decide +kernel)
theorem w4_reach : Reachable cfg0 w4 := reach_next w3_reach ⟨by decide +kernel, by decide +kernel⟩ (by decide +kernel)
theorem w5_reach : Reachable cfg0 w5 := reach_next w4_reach (by show w4.alive 0 = true; decide +kernel) (by decide +kernel)

/-- The lineage of `d` contains `a`'s DOFs once although two objects use it. -/
theorem w5_views : getX w5 3 = [1, 3, 4, 5] ∧ getFullX w5 3 = [1, 2, 3, 4, 5] ∧ (w5.obj 3).anc = [0, 1, 2] ∧
    (w5.obj 3).uniq = [0, 1, 2] ∧ (w5.obj 3).freeSize = 4 ∧ w5.alive 3 = true ∧
    dofNames w5 3 = ["A1:x0", "A2:x0", "A2:x1", "A2:x2"] := by
  decide +kernel

/-- with at most `limit` live objects no chain of distinct objects is too long -/
theorem noDeep_of_card {cfg : Cfg V} (hn : NameInj cfg) (hsh : ShuffleOK cfg) {s : State V} (hr : Reachable cfg s) (h : s.nobj ≤ cfg.limit) : NoDeepChain cfg s := by
  have hi := hr.inv hn hsh
  intro l hal hch
  have hnd : l.Nodup := by
    have hp : l.Pairwise (Ancestor s) := by
      have : l.IsChain (Ancestor s) := hch.imp (fun a b hab => Relation.TransGen.single hab)
      have tr : IsTrans Nat (Ancestor s) := ⟨fun _ _ _ h1 h2 => h1.trans h2⟩
      exact this.pairwise
    exact hp.imp (fun {a b} hab (e : a = b) => hi.not_ancestor_self a (by rw [← e] at hab; exact hab))
  have hsub : l.toFinset ⊆ Finset.range s.nobj := by
    intro a ha
    rw [Finset.mem_range]
    exact hi.graph.lt a (hal a (List.mem_toFinset.mp ha))
  have := Finset.card_le_card hsub
  rw [List.toFinset_card_of_nodup hnd, Finset.card_range] at this
  exact this.trans h

theorem w5_noDeep : NoDeepChain cfg0 w5 :=
  noDeep_of_card cfg0_names cfg0_shuffle w5_reach (by decide +kernel)

/-! #### the hypotheses of the theorems hold here, with non-trivial conclusions -/

example : ∃ s', exec cfg0 (.setX 3 [7, 8, 9, 10]) w5 = .ok () s' ∧ getX s' 3 = [7, 8, 9, 10] := by
  obtain ⟨s', h⟩ := (C04_x_length cfg0_names cfg0_shuffle w5_reach 3 (by decide +kernel) [7, 8, 9, 10] w5_noDeep).1 (by decide +kernel)
  exact ⟨s', h, C04_x_round_trip cfg0_names cfg0_shuffle w5_reach 3 (by decide +kernel) _ h⟩

example : exec cfg0 (.setX 3 [7]) w5 = .error .valueError w5 :=
  (C04_x_length cfg0_names cfg0_shuffle w5_reach 3 (by decide +kernel) [7] w5_noDeep).2 (by decide +kernel)

example : getX (next cfg0 (.setX 3 [7, 8, 9, 10]) w5) 0 = [7] ∧ getFullX (next cfg0 (.setX 3 [7, 8, 9, 10]) w5) 0 = [7, 2] := by
  decide +kernel

example : Notified w5 (next cfg0 (.setX 0 [7]) w5) 3 ∧ Notified w5 (next cfg0 (.setX 0 [7]) w5) 2 ∧
    ¬ Notified w5 (next cfg0 (.setX 0 [7]) w5) 1 := by
  unfold Notified; decide +kernel

example : ∃ t, exec cfg0 (.fullFix 2 [true, false, false, true, false]) w5 = .ok () t ∧ freeStatus t 2 = [false, true, true, false, true] := by
  obtain ⟨t, h, e, _⟩ := (C44_full_fix cfg0_names cfg0_shuffle w5_reach 2 (by decide +kernel) w5_noDeep
    [true, false, false, true, false] (by decide +kernel)).1
  exact ⟨t, h, e⟩

example : ∃ t, exec cfg0 (.bounds 2 (.lb [-1, -2, -3, -4])) w5 = .ok () t ∧ getLb t 2 = [-1, -2, -3, -4] := by
  obtain ⟨t, h, e, _⟩ := ((C12_lineage_bounds cfg0_names cfg0_shuffle w5_reach 2 (by decide +kernel) [-1, -2, -3, -4]).2 (by decide +kernel)).1
  exact ⟨t, h, e⟩

/-! #### violations -/

/-- C43: an over-long array is accepted; the excess is silently dropped. -/
theorem C43_overlong_violated : ∃ (cfg : Cfg Int) (s : State Int), NameInj cfg ∧ ShuffleOK cfg ∧ Reachable cfg s ∧
    ∃ i v t, s.alive i = true ∧ v.length ≠ (s.obj i).fullSize ∧ exec cfg (.setFullX i v) s = .ok () t ∧ getFullX t i ≠ v := by
  refine ⟨cfg0, w5, cfg0_names, cfg0_shuffle, w5_reach, 3, [1, 2, 3, 4, 5, 6], next cfg0 (.setFullX 3 [1, 2, 3, 4, 5, 6]) w5, ?_, ?_, next_step ?_, ?_⟩ <;>
    decide +kernel

/-- C43: an array that is too short raises only after the first objects of the lineage have been overwritten. -/
theorem C43_short_partial_update_violated : ∃ (cfg : Cfg Int) (s : State Int), NameInj cfg ∧ ShuffleOK cfg ∧ Reachable cfg s ∧
    ∃ i v e t, s.alive i = true ∧ exec cfg (.setFullX i v) s = .error e t ∧ getFullX t i ≠ getFullX s i := by
  refine ⟨cfg0, w5, cfg0_names, cfg0_shuffle, w5_reach, 3, [7, 8, 9], .dofLengthMismatch, next cfg0 (.setFullX 3 [7, 8, 9]) w5, by decide +kernel, ?_, by decide +kernel⟩
  have h : (match exec cfg0 (.setFullX 3 [7, 8, 9]) w5 with | .ok _ _ => false | .error e _ => decide (e = .dofLengthMismatch)) = true := by decide +kernel
  unfold next
  cases he : exec cfg0 (.setFullX 3 [7, 8, 9]) w5 with
  | ok a t => rw [he] at h; cases h
  | error e t => rw [he] at h; simp only [decide_eq_true_eq] at h; rw [h]

/-- C42: after `replace_dofs` on an object with an external setter the C++ side keeps the old values. -/
theorem C42_replace_dofs_violated : ∃ (cfg : Cfg Int) (s : State Int), NameInj cfg ∧ ShuffleOK cfg ∧ Reachable cfg s ∧ ¬ MirrorInSync s := by
  refine ⟨cfg0, next cfg0 (.replaceDofs 1 0) w5, cfg0_names, cfg0_shuffle,
    reach_next w5_reach ⟨by decide +kernel, by decide +kernel⟩ (by decide +kernel), ?_⟩
  intro h
  exact absurd (h 1 (by decide +kernel) (by decide +kernel)) (by decide +kernel)

/-- C44: `full_fix` accepts a flag array of the wrong length, broadcasting a single flag. -/
theorem C44_broadcast_violated : ∃ (cfg : Cfg Int) (s : State Int), NameInj cfg ∧ ShuffleOK cfg ∧ Reachable cfg s ∧
    ∃ i arr t, s.alive i = true ∧ arr.length ≠ (s.obj i).fullSize ∧ exec cfg (.fullFix i arr) s = .ok () t ∧
      freeStatus t i ≠ arr.map (fun b => !b) := by
  refine ⟨cfg0, w5, cfg0_names, cfg0_shuffle, w5_reach, 1, [true], next cfg0 (.fullFix 1 [true]) w5, ?_, ?_, next_step ?_, ?_⟩ <;>
    decide +kernel

/-- C12: `full_lower_bounds = v` on an object raises even for the right number of entries. -/
theorem C12_full_bounds_lineage_violated : ∃ (cfg : Cfg Int) (s : State Int), NameInj cfg ∧ ShuffleOK cfg ∧ Reachable cfg s ∧
    ∃ i, s.alive i = true ∧ 0 < (s.obj i).fullSize ∧ ∀ v, returns cfg (.bounds i (.fullLb v)) s = false := by
  refine ⟨cfg0, w1, cfg0_names, cfg0_shuffle, w1_reach, 0, by decide +kernel, by decide +kernel, ?_⟩
  intro v
  have hli : lastIndex (w1.obj 0).freeIdx = .ok 2 := by rfl
  have hidx : (w1.obj 0).freeIdx = [(0, (0, 2))] := by decide +kernel
  unfold returns
  have he : exec cfg0 (.bounds 0 (.fullLb v)) w1 = setBoundsWith Dofs.setFullLb 0 v w1 := rfl
  rw [he, setBoundsWith_eq, hli]
  simp only
  by_cases hl : 2 = v.length
  · simp only [← hl, ne_eq, not_true_eq_false, if_false, hidx]
    rfl
  · simp only [ne_eq, hl, not_false_eq_true, if_true]

/-- `a = A(x0=[1]); b = A(depends_on=[a, a])`: the same parent listed twice. -/
def dup1 : State Int := next cfg0 (.new 0 (.fresh { x := some [1] }) false [] false) State.empty
def dup2 : State Int := next cfg0 (.new 0 (.fresh { x := some [2] }) false [0, 0] false) dup1
def dup3 : State Int := next cfg0 (.removeParent 1 0) dup2

/-- C10: a parent given twice in `depends_on` is kept twice; after `remove_parent` it is still a parent but has forgotten its child,
    so later changes of its dofs no longer notify the child. -/
theorem C10_duplicate_parent_violated : Reachable cfg0 dup2 ∧ dup2.alive 1 = true ∧ dup2.alive 0 = true ∧
    exec cfg0 (.removeParent 1 0) dup2 = .ok () dup3 ∧
    0 ∈ (dup3.obj 1).parents ∧ 1 ∉ (dup3.obj 0).children ∧
    ¬ Notified dup3 (next cfg0 (.setX 0 [5]) dup3) 1 ∧ getX (next cfg0 (.setX 0 [5]) dup3) 1 ≠ getX dup3 1 := by
  refine ⟨reach_next (reach_next .init ⟨by simp, trivial⟩ (by decide +kernel)) ⟨by decide +kernel, trivial⟩ (by decide +kernel),
    ?_, ?_, next_step ?_, ?_, ?_, ?_, ?_⟩ <;> (try unfold Notified) <;> decide +kernel

/-- A class table in which two classes have the same name, as produced by two `make_optimizable` calls. -/
def cfgT : Cfg Int :=
  { limit := 1000, shuffle := fun _ l => l, cname := fun _ => "TempOptimizable", ninf := -1000, pinf := 1000 }

/-- `f = make_optimizable(..., 1.0); g = make_optimizable(..., 2.0); h = Optimizable(funcs_in=[f.J, g.J])` -/
def mo1 : State Int := next cfgT (.new 1 (.fresh { x := some [1] }) false [] false) State.empty
def mo2 : State Int := next cfgT (.new 2 (.fresh { x := some [2] }) false [] false) mo1
def mo3 : State Int := next cfgT (.new 3 (.fresh {}) false [0, 1] true) mo2

/-- C11: two objects made by `make_optimizable` compare equal, and an object depending on both loses one of them. -/
theorem C11_make_optimizable_violated : Reachable cfgT mo3 ∧ mo3.eqv 0 1 = true ∧ (mo3.obj 0).dofs ≠ (mo3.obj 1).dofs ∧
    (mo3.obj 2).parents = [0] ∧ getX mo3 2 = [1] ∧ getX mo3 1 = [2] := by
  refine ⟨reach_next (reach_next (reach_next .init ⟨by simp, trivial⟩ (by decide +kernel)) ⟨by simp, trivial⟩ (by decide +kernel))
    ⟨by decide +kernel, trivial⟩ (by decide +kernel), ?_, ?_, ?_, ?_, ?_⟩ <;> decide +kernel

end Simsopt.Graph
