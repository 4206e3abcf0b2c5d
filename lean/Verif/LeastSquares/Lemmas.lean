import Verif.LeastSquares.Spec
import Mathlib.Tactic.Ring
import Mathlib.Tactic.Linarith
/-! Helper lemmas for least-squares problems. -/
namespace Simsopt.LSq
open Simsopt
open Simsopt.Graph (State Cfg Op Reachable SameInputs Step Inv NameInj ShuffleOK DependsOn Notified)
variable {V R : Type} {cfg : Cfg V}

theorem rb {ε σ α β : Type} (m : EStateM ε σ α) (f : α → EStateM ε σ β) (s : σ) :
    (m >>= f) s = match m s with | .ok a s' => f a s' | .error e s' => .error e s' := by
  show EStateM.bind m f s = _
  unfold EStateM.bind; cases m s <;> rfl
theorem rp {ε σ α : Type} (a : α) (s : σ) : (pure a : EStateM ε σ α) s = .ok a s := rfl
theorem rg {ε σ : Type} (s : σ) : (get : EStateM ε σ σ) s = .ok s s := rfl
theorem rm (f : Prob V R → Prob V R) (w : World V R) : modifyP f w = .ok () { w with p := f w.p } := rfl
theorem rt {ε σ α : Type} (e : ε) (s : σ) : (throw e : EStateM ε σ α) s = .error e s := rfl
theorem rclear (i : Nat) (w : World V R) : (liftG (Graph.clearNewX i) : M V R Unit) w =
    .ok () { w with g := w.g.setObj i { w.g.obj i with newX := false } } := rfl

theorem rd {ε σ α : Type} (m : EStateM ε σ α) (s : σ) : (do discard m : EStateM ε σ Unit) s =
    (match m s with | .ok _ s' => .ok () s' | .error e s' => .error e s') := by
  show EStateM.map (fun _ => ()) m s = _
  unfold EStateM.map; cases m s <;> rfl

section
variable [Sub R]

/-- the loop result for the whole problem -/
def loop (w : World V R) : LoopRes R × Nat := evalLoop w.g w.p.goals w.p.inpWeights 0 w.p.funcs

/-- nvals after an attempt -/
def bump (w : World V R) : Prob V R := if w.p.firstEval then { w.p with nvals := w.p.nvals + (loop w).2 } else w.p

def cleared (w : World V R) : State V := w.g.setObj w.p.self { w.g.obj w.p.self with newX := false }

theorem compute_cached {w : World V R} (h : (w.g.obj w.p.self).newX = false) :
    compute w = match w.p.cache with | some c => .ok c w | none => .error .attributeError w := by
  unfold compute
  simp only [rb, rg, h]
  cases w.p.cache <;> rfl

theorem compute_fresh {w : World V R} (h : (w.g.obj w.p.self).newX = true) :
    compute w = match (loop w).1 with
      | .raised e => .error e { w with p := bump w }
      | .failed =>
        if w.p.firstEval then .error .objectiveFailure { w with p := bump w }
        else match w.p.fail with
          | none => .error .objectiveFailure { w with p := bump w }
          | some v => .ok (List.replicate w.p.nvals v)
              { g := cleared w, p := { w.p with cache := some (List.replicate w.p.nvals v) } }
      | .done ws os =>
        if w.p.funcs.isEmpty then .error .valueError { w with p := { bump w with firstEval := false, weights := some ws } }
        else .ok os { g := cleared w, p := { bump w with firstEval := false, weights := some ws, cache := some os } } := by
  obtain ⟨g, ⟨self, goals, iw, fail, funcs, nvals, fe, ws, cache⟩⟩ := w
  simp only at h
  unfold compute bump cleared loop
  simp only [rb, rg, h, if_true]
  generalize evalLoop g goals iw 0 funcs = r
  obtain ⟨r, n⟩ := r
  cases fe <;> cases r <;> cases fail <;>
    simp only [if_true, if_false, Bool.false_eq_true, rb, rp, rm, rt, rclear, Option.isNone_some, Option.isNone_none, Bool.or_false,
      Bool.or_true, Bool.true_or, Bool.false_or] <;>
    cases hE : funcs.isEmpty <;>
    simp only [if_true, if_false, Bool.false_eq_true, rb, rp, rm, rt, rclear]

/-! ### the loop -/

/-- `[w_i] * len(output_i)` for all components (L169). -/
def expand (weights : List R) (outs : List (List R)) : List R :=
  ((outs.zip weights).map fun e => List.replicate e.1.length e.2).flatten

theorem evalLoop_spec (g : State V) (goals weights : List R) : ∀ (fs : List (Bound V R)) (i : Nat),
    match evalLoop g goals weights i fs with
    | (.done ws os, n) => ∃ outs, Returns fs g outs ∧ fs.length ≤ (goals.drop i).length ∧ fs.length ≤ (weights.drop i).length ∧
        os = residualVector (goals.drop i) outs ∧ ws = expand (weights.drop i) outs ∧ n = os.length
    | (.failed, _) => Fails fs g
    | (.raised _, _) => ¬ ((∃ outs, Returns fs g outs) ∧ fs.length ≤ (goals.drop i).length ∧ fs.length ≤ (weights.drop i).length) ∧
        ¬ (Fails fs g ∧ fs.length ≤ (goals.drop i).length ∧ fs.length ≤ (weights.drop i).length)
  | [], i => ⟨[], List.Forall₂.nil, Nat.zero_le _, Nat.zero_le _, rfl, rfl, rfl⟩
  | f :: l, i => by
    have ih := evalLoop_spec g goals weights l (i + 1)
    have inv : ∀ {outs}, Returns (f :: l) g outs → ∃ o outs', f.call g = .ok o ∧ Returns l g outs' := by
      intro outs h
      cases h with
      | cons h1 h2 => obtain ⟨o, h3, _⟩ := h1; exact ⟨o, _, h3, h2⟩
    have invF : Fails (f :: l) g → f.call g = .error .objectiveFailure ∨ ((∃ o, f.call g = .ok o) ∧ Fails l g) := by
      rintro ⟨pre, k, post, outs, he, hr, hk⟩
      cases hr with
      | nil => simp only [List.nil_append, List.cons.injEq] at he; left; rw [he.1]; exact hk
      | @cons a b pre' outs' h1 h2 =>
        simp only [List.cons_append, List.cons.injEq] at he
        obtain ⟨o, h3, _⟩ := h1
        right; exact ⟨⟨o, by rw [he.1]; exact h3⟩, pre', k, post, outs', he.2, h2, hk⟩
    unfold evalLoop
    cases hc : f.call g with
    | error e =>
      have hnr : ¬ ∃ outs, Returns (f :: l) g outs := by
        rintro ⟨outs, h⟩; obtain ⟨o, _, h1, _⟩ := inv h; rw [hc] at h1; cases h1
      by_cases he : e = .objectiveFailure
      · subst he; exact ⟨[], f, l, [], rfl, List.Forall₂.nil, hc⟩
      · have hnf : ¬ Fails (f :: l) g := by
          intro hF
          rcases invF hF with h | ⟨⟨o, h⟩, _⟩
          · rw [hc] at h; injection h with h; exact he h
          · rw [hc] at h; cases h
        cases e <;> first | exact absurd rfl he | exact ⟨fun h => hnr h.1, fun h => hnf h.1⟩
    | ok out =>
      simp only
      cases hg : goals[i]? with
      | none =>
        have hlen := List.getElem?_eq_none_iff.mp hg
        refine ⟨fun h => ?_, fun h => ?_⟩ <;>
        · have := h.2.1; simp at this; omega
      | some goal =>
        simp only
        cases hw : weights[i]? with
        | none =>
          have hlen := List.getElem?_eq_none_iff.mp hw
          refine ⟨fun h => ?_, fun h => ?_⟩ <;>
          · have := h.2.2; simp at this; omega
        | some wt =>
          simp only
          have hgl := (List.getElem?_eq_some_iff.mp hg).1
          have hwl := (List.getElem?_eq_some_iff.mp hw).1
          have dg : goals.drop i = goal :: goals.drop (i + 1) := by
            rw [List.drop_eq_getElem_cons hgl]; rw [List.getElem?_eq_getElem hgl] at hg; injection hg with hg; rw [hg]
          have dw : weights.drop i = wt :: weights.drop (i + 1) := by
            rw [List.drop_eq_getElem_cons hwl]; rw [List.getElem?_eq_getElem hwl] at hw; injection hw with hw; rw [hw]
          generalize hr : evalLoop g goals weights (i + 1) l = r at ih
          obtain ⟨r, n⟩ := r
          cases r with
          | done ws os =>
            obtain ⟨outs, h1, h2, h3, h4, h5, h6⟩ := ih
            refine ⟨out.toArray :: outs, List.Forall₂.cons ⟨out, hc, rfl⟩ h1, ?_, ?_, ?_, ?_, ?_⟩
            · rw [dg]; simp only [List.length_cons]; omega
            · rw [dw]; simp only [List.length_cons]; omega
            · rw [dg, h4]; simp [residualVector]
            · rw [dw, h5]; simp [expand]
            · simp [h6]
          | failed =>
            obtain ⟨pre, k, post, outs, he, h1, h2⟩ := ih
            exact ⟨f :: pre, k, post, out.toArray :: outs, by rw [he]; rfl, List.Forall₂.cons ⟨out, hc, rfl⟩ h1, h2⟩
          | raised e =>
            refine ⟨fun h => ih.1 ?_, fun h => ih.2 ?_⟩
            · obtain ⟨⟨outs, h1⟩, h2, h3⟩ := h
              obtain ⟨_, outs', _, h4⟩ := inv h1
              rw [dg] at h2; rw [dw] at h3
              simp only [List.length_cons] at h2 h3
              exact ⟨⟨outs', h4⟩, by omega, by omega⟩
            · obtain ⟨h1, h2, h3⟩ := h
              rw [dg] at h2; rw [dw] at h3
              simp only [List.length_cons] at h2 h3
              rcases invF h1 with h | ⟨_, h⟩
              · rw [hc] at h; cases h
              · exact ⟨h, by omega, by omega⟩

theorem evalLoop_congr {g g' : State V} (goals weights : List R) : ∀ (fs : List (Bound V R)) (i : Nat),
    (∀ f ∈ fs, f.call g' = f.call g) → evalLoop g' goals weights i fs = evalLoop g goals weights i fs
  | [], _, _ => rfl
  | f :: l, i, h => by
    have ih := evalLoop_congr goals weights l (i + 1) (fun f hf => h f (List.mem_cons_of_mem _ hf))
    unfold evalLoop
    rw [h f List.mem_cons_self, ih]

end

theorem Returns.congr {fs : List (Bound V R)} {g g' : State V} {outs : List (List R)} (h : Returns fs g outs)
    (hc : ∀ f ∈ fs, f.call g' = f.call g) : Returns fs g' outs := by
  induction h with
  | nil => exact List.Forall₂.nil
  | cons h1 h2 ih =>
    refine List.Forall₂.cons ?_ (ih (fun f hf => hc f (List.mem_cons_of_mem _ hf)))
    rw [hc _ List.mem_cons_self]; exact h1

theorem Returns.unique {fs : List (Bound V R)} {g : State V} {outs outs' : List (List R)} (h : Returns fs g outs)
    (h' : Returns fs g outs') : outs = outs' := by
  induction h generalizing outs' with
  | nil => cases h'; rfl
  | cons h1 h2 ih =>
    cases h' with
    | cons h3 h4 =>
      obtain ⟨o, e, r⟩ := h1; obtain ⟨o', e', r'⟩ := h3
      rw [e] at e'; injection e' with e'; subst e'
      rw [← r, ← r', ih h4]

theorem Returns.append {fs fs' : List (Bound V R)} {g : State V} {outs outs' : List (List R)} (h : Returns fs g outs)
    (h' : Returns fs' g outs') : Returns (fs ++ fs') g (outs ++ outs') := List.rel_append h h'

theorem Fails.congr {fs : List (Bound V R)} {g g' : State V} (h : Fails fs g) (hc : ∀ f ∈ fs, f.call g' = f.call g) : Fails fs g' := by
  obtain ⟨pre, k, post, outs, he, h1, h2⟩ := h
  subst he
  refine ⟨pre, k, post, outs, rfl, h1.congr (fun f hf => hc f (by simp [hf])), ?_⟩
  rw [hc k (by simp)]; exact h2

theorem Returns.not_fails {fs : List (Bound V R)} {g : State V} {outs : List (List R)} (h : Returns fs g outs) : ¬ Fails fs g := by
  rintro ⟨pre, k, post, outs', he, _, h2⟩
  subst he
  have : ∀ {fs outs}, Returns fs g outs → ∀ f ∈ fs, ∃ o, (f : Bound V R).call g = .ok o := by
    intro fs outs h
    induction h with
    | nil => intro f hf; cases hf
    | cons h1 _ ih =>
      intro f hf
      rcases List.mem_cons.mp hf with rfl | hf
      · obtain ⟨o, e, _⟩ := h1; exact ⟨o, e⟩
      · exact ih f hf
  obtain ⟨o, e⟩ := this h k (by simp)
  rw [h2] at e; cases e

end Simsopt.LSq
