import Verif.Objectives.Tree
/-!
# From total derivatives to the gradient vector of an object of the graph
-/
set_option linter.unusedSectionVars false
set_option linter.unusedSimpArgs false
namespace Simsopt.Objectives
open Simsopt Deriv Graph

/-- `local_full_x` of every object. -/
def stateX (s : State ℝ) (k : Nat) : List ℝ := (s.dof (s.obj k).dofs).x

/-- the live objects -/
def liveObjs (s : State ℝ) : List Nat := (List.range s.nobj).filter (fun o => s.alive o)

/-- `g` is the gradient of `φ` with respect to `obj.x` (`obj` is object `i`): it has one entry per entry of `obj.x`, and entry `m` is the
    derivative at `t = 0` of the value of `φ` after the assignment `obj.x = x + t*e_m`. -/
def IsGradient (cfg : Cfg ℝ) (s : State ℝ) (i : Nat) (φ : (Nat → List ℝ) → ℝ) (g : List ℝ) : Prop :=
  g.length = (getX s i).length ∧
  ∀ (m : Nat) (S : ℝ → State ℝ), m < g.length →
    (∀ t, Graph.exec cfg (.setX i ((getX s i).set m ((getX s i).getD m 0 + t))) s = .ok () (S t)) →
    HasDerivAt (fun t => φ (stateX (S t))) (g.getD m 0) 0

/-- the `q`-th unit vector of length `n` -/
def unitVec (n q : Nat) : List ℝ := (List.replicate n 0).set q 1

theorem dot_unit : ∀ (a : List ℝ) (q : Nat), dot a (unitVec a.length q) = a.getD q 0
  | [], q => by simp [dot, unitVec]
  | x :: a, 0 => by
    have : ∀ l : List ℝ, dot l (List.replicate l.length 0) = 0 := by
      intro l
      induction l with
      | nil => simp [dot]
      | cons y l ih => simp only [dot] at ih; simp [dot, List.replicate_succ, ih]
    have h := this a
    simp only [dot] at h
    simp [dot, unitVec, List.replicate_succ, h]
  | x :: a, q + 1 => by
    have ih := dot_unit a q
    simp only [dot, unitVec] at ih
    simp [dot, unitVec, List.replicate_succ, ih]

theorem dot_zeros_right : ∀ (a : List ℝ) (n : Nat), dot a (List.replicate n 0) = 0
  | [], n => by simp [dot]
  | x :: a, 0 => by simp [dot]
  | x :: a, n + 1 => by
    have ih := dot_zeros_right a n
    simp only [dot] at ih
    simp [dot, List.replicate_succ, ih]

section
variable {cfg : Cfg ℝ} {s : State ℝ} (hn : NameInj cfg) (hsh : ShuffleOK cfg) (hr : Graph.Reachable cfg s)
include hn hsh hr

theorem stateX_shaped : Shaped (localFullSize s) (stateX s) := by
  intro k
  have hw := (hr.inv hn hsh).dofs.wf (s.obj k).dofs
  unfold stateX localFullSize
  rw [← hw.free_len]; rfl

/-- If the derivative of `φ` in every direction is given by Derivative `j`, then `D(obj)` is the gradient of `φ`. -/
theorem gradient_entries {h : Heap Nat ℝ} (hk : HeapOK (localFullSize s) h) (j : Nat) (hj : j < h.nder) (i : Nat) (hi : s.alive i = true)
    (hfree : 0 < (s.obj i).freeSize) (φ : (Nat → List ℝ) → ℝ)
    (hd : ∀ v, Shaped (localFullSize s) v →
      HasDerivAt (fun t => φ (move (stateX s) v t)) (pair (liveObjs s) (partialD (localFullSize s) h j) v) 0) :
    ∃ g, Gradient (localFullSize s) h j (blocksOf s i) g ∧ IsGradient cfg s i φ g := by
  have hI := hr.inv hn hsh
  obtain ⟨pos, hnd, hlen, hmem, hval, g, hg, hge⟩ := gradient_aligned hn hsh hr hk j hj i hi hfree
  have hx0 : (getX s i).map some = pos.map (fun p => (s.dof p.1).x[p.2]?) := hval s.dof (fun _ => ⟨rfl, rfl⟩)
  have hxl : (getX s i).length = pos.length := by simpa using congrArg List.length hx0
  refine ⟨g, hg, by rw [hge, List.length_map, hxl], ?_⟩
  intro m S hm hS
  rw [hge, List.length_map] at hm
  obtain ⟨⟨d, q⟩, hp⟩ : ∃ p : Nat × Nat, pos[m] = p := ⟨_, rfl⟩
  -- the direction
  let v : Nat → List ℝ := fun k => if (s.obj k).dofs = d then unitVec (localFullSize s k) q else List.replicate (localFullSize s k) 0
  have hv : Shaped (localFullSize s) v := by
    intro k
    show (if _ then _ else _ : List ℝ).length = _
    split <;> simp [unitVec]
  have hmove : ∀ t, stateX (S t) = move (stateX s) v t := by
    intro t
    have hSt := hS t
    rcases setX_outcome hn hsh hr i hi ((getX s i).set m ((getX s i).getD m 0 + t)) with ⟨_, e⟩ | ⟨_, ⟨s1, e, _⟩ | ⟨s1, e, _, vr, hvv, fr, sm, _⟩⟩
    · rw [e] at hSt; cases hSt
    · rw [e] at hSt; cases hSt
    rw [e] at hSt
    have hs1 : s1 = S t := by cases hSt; rfl
    subst hs1
    have hv' := hval (S t).dof (fun d => ⟨(sm d).1.2.1, (sm d).2.1⟩)
    rw [hvv] at hv'
    funext k
    unfold stateX move
    rw [vr.dofs k]
    generalize hdk : (s.obj k).dofs = dk
    have hll : localFullSize s k = (s.dof dk).x.length := by
      have := stateX_shaped hn hsh hr k; unfold stateX at this; rw [hdk] at this; exact this.symm
    have hvk : v k = if dk = d then unitVec (s.dof dk).x.length q else List.replicate (s.dof dk).x.length 0 := by
      show (if (s.obj k).dofs = d then _ else _) = _
      rw [hdk, hll]
    have hvl : (v k).length = (s.dof dk).x.length := by rw [hv k, hll]
    simp only [hdk]
    have hvq : ∀ a : Nat, a < (s.dof dk).x.length → (v k)[a]? = some (if dk = d ∧ a = q then 1 else 0) := by
      intro a ha
      rw [hvk]
      by_cases hdd : dk = d
      · simp only [hdd, if_true, true_and, unitVec]
        rw [hdd] at ha
        by_cases haq : a = q
        · subst haq; simp [ha]
        · rw [List.getElem?_set_ne (by omega)]; simp [ha, haq]
      · simp [hdd, ha]
    apply List.ext_getElem?
    intro a
    by_cases ha : a < (s.dof dk).x.length
    · rw [List.getElem?_zipWith, hvq a ha]
      have hxa : (s.dof dk).x[a]? = some ((s.dof dk).x[a]) := List.getElem?_eq_getElem ha
      rw [hxa]
      simp only
      by_cases hin : (dk, a) ∈ pos
      · obtain ⟨m', hm', he'⟩ := List.getElem_of_mem hin
        have e1 := congrArg (fun l => l[m']?) hv'
        have e2 := congrArg (fun l => l[m']?) hx0
        simp only [List.getElem?_map, List.getElem?_eq_getElem hm', Option.map_some, he'] at e1 e2
        rw [hxa] at e2
        have e2' : (getX s i)[m']? = some ((s.dof dk).x[a]) := by
          cases hq : (getX s i)[m']? with
          | none => rw [hq] at e2; cases e2
          | some y => rw [hq] at e2; simp only [Option.map_some, Option.some.injEq] at e2; rw [e2]
        by_cases hmm : m' = m
        · subst hmm
          have hdq : dk = d ∧ a = q := by
            have : (dk, a) = (d, q) := by rw [← he', ← hp]
            exact Prod.mk.injEq .. ▸ this
          rw [List.getElem?_set_self (by rw [hxl]; exact hm')] at e1
          simp only [Option.map_some, Option.some.injEq] at e1
          rw [← e1, if_pos hdq]
          congr 1
          rw [List.getD_eq_getElem?_getD, e2']
          simp
        · have hdq : ¬ (dk = d ∧ a = q) := by
            rintro ⟨rfl, rfl⟩
            exact hmm ((List.Nodup.getElem_inj_iff hnd).mp (he'.trans hp.symm))
          rw [List.getElem?_set_ne (by omega), e2'] at e1
          simp only [Option.map_some, Option.some.injEq] at e1
          rw [← e1, if_neg hdq]; simp
      · have hdq : ¬ (dk = d ∧ a = q) := by
          rintro ⟨rfl, rfl⟩
          exact hin (hp ▸ List.getElem_mem hm)
        rw [if_neg hdq]
        simp only [mul_zero, add_zero]
        rw [← hxa]
        rw [hmem] at hin
        by_cases hlin : ∃ o, DependsOn s i o ∧ (s.obj o).dofs = dk
        · have hf : ¬ (s.dof dk).free[a]? = some true := fun hc => hin ⟨hlin, hc⟩
          have hfl : a < (s.dof dk).free.length := by rw [(hI.dofs.wf dk).free_len]; exact ha
          apply (sm dk).2.2 a
          rw [List.getElem?_eq_getElem hfl] at hf ⊢
          simpa using hf
        · rw [fr dk]
          intro hc
          obtain ⟨o, ho, e⟩ := List.mem_map.mp hc
          exact hlin ⟨o, (hI.uniq_mem hn hi ho).1, e⟩
    · rw [List.getElem?_eq_none (by rw [(sm dk).2.1]; omega), List.getElem?_eq_none (by simp only [List.length_zipWith]; omega)]
  have hfun : (fun t => φ (stateX (S t))) = fun t => φ (move (stateX s) v t) := by
    funext t; rw [hmove t]
  rw [hfun]
  refine (hd v hv).congr_deriv ?_
  rw [hge, List.getD_eq_getElem?_getD, List.getElem?_map, List.getElem?_eq_getElem hm, hp]
  simp only [Option.map_some, Option.getD_some]
  unfold pair dofDerivative liveObjs
  have hterm : ∀ k, dot (partialD (localFullSize s) h j k) (v k) =
      if (s.obj k).dofs = d then (partialD (localFullSize s) h j k).getD q 0 else 0 := by
    intro k
    show dot _ (if _ then _ else _) = _
    by_cases hkd : (s.obj k).dofs = d
    · rw [if_pos hkd, if_pos hkd]
      have hlk := hk.len hj k
      rw [← hlk]
      exact dot_unit _ _
    · rw [if_neg hkd, if_neg hkd, dot_zeros_right]
  have hcomb : (List.range s.nobj).filter (fun o => decide (s.alive o = true ∧ (s.obj o).dofs = d)) =
      ((List.range s.nobj).filter (fun o => s.alive o)).filter (fun o => decide ((s.obj o).dofs = d)) := by
    rw [List.filter_filter]
    congr 1
    funext o
    simp [Bool.and_comm]
  rw [hcomb]
  generalize (List.range s.nobj).filter (fun o => s.alive o) = W
  induction W with
  | nil => rfl
  | cons k W ih =>
    rw [List.map_cons, List.sum_cons, hterm k, ih, List.filter_cons]
    by_cases hkd : (s.obj k).dofs = d
    · simp [hkd]
    · simp [hkd]

end
end Simsopt.Objectives
