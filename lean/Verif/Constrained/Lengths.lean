import Verif.Constrained.Witness
/-!
# C48: vectors of the wrong length passed to an evaluation
-/
namespace Simsopt
open Simsopt.LSq
open Simsopt.Graph (State Cfg Op Reachable Step NameInj ShuffleOK cfg0 cfg0_names cfg0_shuffle w5 w5_reach next returns next_step)
variable {V R : Type} {cfg : Cfg V}

theorem setX_wrong_length (hn : NameInj cfg) (hsh : ShuffleOK cfg) {g : State V} (hr : Reachable cfg g) {i : Nat} (hi : g.alive i = true) {v : List V}
    (hl : v.length ≠ (Graph.getX g i).length) : Graph.setX cfg i v g = .error .valueError g := by
  rw [(Graph.C06_lengths hn hsh hr i hi).1] at hl
  rcases Graph.setX_outcome hn hsh hr i hi v with ⟨_, e⟩ | ⟨h, _⟩
  · exact e
  · exact absurd h.symm hl

namespace LSq
variable [Field R] [LinearOrder R] [IsStrictOrderedRing R]

/-- C48: a least-squares problem rejects a vector whose length is not the number of free dofs, and nothing changes. -/
theorem C48_least_squares_length (hn : NameInj cfg) (hsh : ShuffleOK cfg) {sqrt : R → R} {early : Prop} {w0 w : World V R} {b : Bool} (hc : Created cfg w0)
    (hh : Hist cfg sqrt early w0 w b) {v : List V} (hl : v.length ≠ (Graph.getX w.g w0.p.self).length) :
    unweighted cfg (some v) w = .error .valueError w ∧ residuals sqrt cfg (some v) w = .error .valueError w ∧
    objective cfg (some v) w = .error .valueError w := by
  have hi := hh.inv hn hsh hc
  have hs : w.p.self = w0.p.self := hi.same.2.2.2.2
  rw [← hs] at hl
  have he := setX_wrong_length hn hsh hi.inv.reach hi.inv.alive hl
  have h1 : unweighted cfg (some v) w = .error .valueError w := by
    have e : assignX cfg (some v) w = liftG (Graph.setX cfg w.p.self v) w := rfl
    unfold unweighted
    rw [rb, e]
    unfold liftG
    rw [he]
  refine ⟨h1, ?_, ?_⟩
  · unfold residuals; rw [rb, h1]
  · unfold objective; rw [rb, h1]

example (sq : Rat → Rat) : Created cfg0 P0 ∧ Hist cfg0 sq False P0 P1 true ∧ [1, 2, 3].length ≠ (Graph.getX P1.g P0.p.self).length :=
  ⟨P0_created, Hist.start.eval none (r := [2, 1, 2, 3]) (by decide +kernel), by decide +kernel⟩
end LSq

namespace Constrained
variable [Sub R] [DecidableEq V]

theorem differs_wrong {cur v : List V} (h : v.length ≠ cur.length) (h1 : v.length ≠ 1) (h2 : cur.length ≠ 1) : differs cur v = none := by
  unfold differs
  have : bcast (.array cur) (.array v) = none := by
    simp only [bcast, if_neg (Ne.symm h)]
    split
    · exact absurd rfl h2
    · exact absurd rfl h1
    · rfl
  rw [this]; rfl

/-- C48 for constrained problems.  Missing: vectors of length one, and problems with one free dof (see the violation below). -/
theorem C48_constrained_length (hn : NameInj cfg) (hsh : ShuffleOK cfg) {w0 w : World V R} (hc : Created cfg w0) (hh : Hist cfg w0 w) {v : List V}
    (hl : v.length ≠ (Graph.getX w.g w0.p.self).length) (h1 : v.length ≠ 1) (h2 : (Graph.getX w.g w0.p.self).length ≠ 1) :
    objective cfg (some v) w = .error .valueError w ∧ constraints cfg (some v) w = .error .valueError w ∧
    allFuncs cfg (some v) w = .error .valueError w := by
  have hi := hh.inv hn hsh hc
  rw [← hi.same.1] at hl h2
  have ha : assignX cfg (some v) w = .error .valueError w := by
    unfold assignX
    simp only [differs_wrong hl h1 h2]
  have ho : objective cfg (some v) w = .error .valueError w := by unfold objective; rw [ha]
  refine ⟨ho, ?_, ?_⟩
  · unfold constraints; rw [ha]
  · unfold allFuncs; rw [ho]

/-- A vector of the wrong length is rejected or, compared by broadcasting, agrees with every free dof; it never changes any dof. -/
theorem C48_constrained_wrong_length_harmless (hn : NameInj cfg) (hsh : ShuffleOK cfg) {w0 w : World V R} (hc : Created cfg w0) (hh : Hist cfg w0 w)
    {v : List V} (hl : v.length ≠ (Graph.getX w.g w0.p.self).length) :
    assignX cfg (some v) w = .error .valueError w ∨ assignX cfg (some v) w = .ok () w := by
  have hi := hh.inv hn hsh hc
  rw [← hi.same.1] at hl
  unfold assignX
  simp only
  cases hd : differs (Graph.getX w.g w.p.self) v with
  | none => exact Or.inl rfl
  | some b =>
    cases b with
    | false => exact Or.inr rfl
    | true =>
      simp only [setX_wrong_length hn hsh hi.att.reach hi.att.alive hl]
      exact Or.inl trivial

example : Created cfg0 P0 ∧ Hist cfg0 P0 P2 ∧ [1, 2, 3].length ≠ (Graph.getX P2.g P0.p.self).length ∧ (Graph.getX P2.g P0.p.self).length ≠ 1 :=
  ⟨P0_created, P2_hist, by decide +kernel, by decide +kernel⟩

/-- `b.x = [1, 1, 1]`: all four free dofs of the problem are 1 -/
def B0 : World Int Rat := { P0 with g := next cfg0 (.setX 1 [1, 1, 1]) P0.g }

/-- The problem has four free dofs, all equal to 1; it evaluates at the one-element vector `[1]` without complaint. -/
theorem C48_constrained_violated : Created cfg0 P0 ∧ Hist cfg0 P0 B0 ∧ Graph.getX B0.g P0.p.self = [1, 1, 1, 1] ∧
    conVal (some [1]) B0 = .ok [.fin (-1), .ninf, .fin 4, .fin (-3), .fin (-2), .ninf, .fin (-2)] := by
  refine ⟨P0_created, ?_, by decide +kernel, by decide +kernel⟩
  exact Hist.start.op (.setX 1 [1, 1, 1]) (by show P0.g.alive 1 = true; decide +kernel) (by intro h; cases h) (by decide +kernel) (by decide +kernel) (by decide +kernel)

/-! ### C32: the length of the failure vector

`(a.fSum, -inf, 0), (a.fPos, -inf, 0)` where `a.x = [0]` at first: as for least-squares problems one value has been counted before the
first evaluation raises. -/

def Q0 : World Int Rat := mkc w5 (bd 0 fSum) (some [⟨bd 0 fSum, .scalar .ninf, .scalar (.fin 0)⟩, ⟨bd 0 fPos, .scalar .ninf, .scalar (.fin 0)⟩]) (some 1000)
def Q1 : World Int Rat := conState (some [0]) Q0
def Q2 : World Int Rat := conState (some [1]) Q1

/-- Evaluations that succeed return two numbers; the failure vector has three. -/
theorem C32_failure_length_violated : Created cfg0 Q0 ∧ Hist cfg0 Q0 Q2 ∧ conVal (some [0]) Q0 = .error .objectiveFailure ∧
    conVal (some [1]) Q1 = .ok [.fin 3, .fin 1] ∧ conVal (some [0]) Q2 = .ok [.fin 1000, .fin 1000, .fin 1000] := by
  refine ⟨mkc_created w5_reach ?_ (by decide +kernel), ?_, by decide +kernel, by decide +kernel, by decide +kernel⟩
  · intro f hf
    simp only [Option.getD_some, List.map_cons, List.map_nil, List.mem_cons, List.not_mem_nil, or_false] at hf
    rcases hf with rfl | rfl | rfl
    · exact ⟨by decide +kernel, _, rfl⟩
    · exact ⟨by decide +kernel, _, rfl⟩
    · exact ⟨by decide +kernel, _, rfl⟩
  · exact .call (.constraints (some [1])) (.call (.constraints (some [0])) .start (by decide +kernel)) (by decide +kernel)

end Constrained
end Simsopt
