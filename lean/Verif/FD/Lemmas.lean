import Verif.FD.Model
import Mathlib.Tactic.Ring
import Mathlib.Tactic.Linarith
/-!
# Lemmas about the finite-difference model
-/
namespace Simsopt.FD
open Simsopt Simsopt.Util

@[simp] theorem bind_def {α β : Type} (m : M α) (f : α → M β) (s : St) :
    (m >>= f) s = match m s with | (.ok a, s') => f a s' | (.error e, s') => (.error e, s') := rfl
@[simp] theorem pure_def {α : Type} (a : α) (s : St) : (pure a : M α) s = (.ok a, s) := rfl
@[simp] theorem lift_def {α : Type} (r : Except Err α) (s : St) : lift r s = (r, s) := rfl

/-- the point `x + t e_j` -/
noncomputable def shift (x : List ℝ) (j : Nat) (t : ℝ) : List ℝ := x.set j (x.getD j 0 + t)

@[simp] theorem shift_length (x : List ℝ) (j : Nat) (t : ℝ) : (shift x j t).length = x.length := by simp [shift]

theorem shift_zero (x : List ℝ) (j : Nat) : shift x j 0 = x := by
  unfold shift
  apply List.ext_getElem?
  intro i
  by_cases h : j = i
  · subst h
    by_cases hj : j < x.length <;> simp [hj]
  · rw [List.getElem?_set_ne h]

theorem setOptX_ok {x : List ℝ} {s : St} (h : x.length = s.optX.length) : setOptX x s = (.ok (), { s with optX := x }) := by
  simp [setOptX, h]

theorem npSub_ok {a b : List ℝ} (h : a.length = b.length) : npSub a b = .ok (List.zipWith (· - ·) a b) := by simp [npSub, h]

theorem setCol_ok {m : Nat} {J : List (List ℝ)} {j : Nat} {v : List ℝ} (hj : j < J.length) (hv : v.length = m) :
    setCol m J j v = .ok (J.set j v) := by
  simp [setCol, hv]; omega

theorem getD_lt {l : List ℝ} {i : Nat} (h : i < l.length) : l.getD i 0 = l[i] := by simp [h]

theorem quot_getD {a b : List ℝ} {m i : Nat} (ha : a.length = m) (hb : b.length = m) (hi : i < m) (c : ℝ) :
    ((List.zipWith (· - ·) a b).map (· / c)).getD i 0 = (a.getD i 0 - b.getD i 0) / c := by
  rw [getD_lt (l := a) (by omega), getD_lt (l := b) (by omega), getD_lt (by simp [ha, hb, hi])]
  simp

/-- centered quotient column -/
noncomputable def centCol (F : List ℝ → List ℝ) (x0 h : List ℝ) (j : Nat) : List ℝ :=
  (List.zipWith (· - ·) (F (shift x0 j (h.getD j 0))) (F (shift x0 j (-h.getD j 0)))).map (· / (2 * h.getD j 0))

/-- forward quotient column -/
noncomputable def fwdCol (F : List ℝ → List ℝ) (x0 h : List ℝ) (j : Nat) : List ℝ :=
  (List.zipWith (· - ·) (F (shift x0 j (h.getD j 0))) (F x0)).map (· / h.getD j 0)

theorem centeredStep_ok {fn : List ℝ → Except Err (List ℝ)} {F : List ℝ → List ℝ} {m : Nat} {x0 h : List ℝ} {J : List (List ℝ)} {j : Nat} {s : St}
    (hlen : x0.length = s.optX.length) (hj : j < J.length)
    (hp : fn (shift x0 j (h.getD j 0)) = .ok (F (shift x0 j (h.getD j 0))) ∧ (F (shift x0 j (h.getD j 0))).length = m)
    (hm : fn (shift x0 j (-h.getD j 0)) = .ok (F (shift x0 j (-h.getD j 0))) ∧ (F (shift x0 j (-h.getD j 0))).length = m) :
    centeredStep fn m ⟨false, x0⟩ h J j s = (.ok (J.set j (centCol F x0 h j)),
      { s with optX := shift x0 j (-h.getD j 0), evals := s.evals ++ [shift x0 j (h.getD j 0), shift x0 j (-h.getD j 0)] }) := by
  have e1 : storeAt ⟨false, x0⟩ j (x0.getD j 0 + h.getD j 0) = shift x0 j (h.getD j 0) := rfl
  have e2 : storeAt ⟨false, x0⟩ j (x0.getD j 0 - h.getD j 0) = shift x0 j (-h.getD j 0) := by
    simp [storeAt, shift, sub_eq_add_neg]
  unfold centeredStep
  simp only [bind_def, e1, e2]
  rw [setOptX_ok (by simpa using hlen)]
  simp only [callFn, hp.1]
  rw [setOptX_ok (by simp)]
  simp only [hm.1, lift_def, npSub_ok (hp.2.trans hm.2.symm)]
  rw [setCol_ok hj (by simp only [List.length_map, List.length_zipWith, hp.2, hm.2, min_self])]
  simp [centCol]

theorem forwardStep_ok {fn : List ℝ → Except Err (List ℝ)} {F : List ℝ → List ℝ} {m : Nat} {x0 h : List ℝ} {J : List (List ℝ)} {j : Nat} {s : St}
    (hlen : x0.length = s.optX.length) (hj : j < J.length)
    (hp : fn (shift x0 j (h.getD j 0)) = .ok (F (shift x0 j (h.getD j 0))) ∧ (F (shift x0 j (h.getD j 0))).length = m)
    (h0 : (F x0).length = m) :
    forwardStep fn m ⟨false, x0⟩ h (F x0) J j s = (.ok (J.set j (fwdCol F x0 h j)),
      { s with optX := shift x0 j (h.getD j 0), evals := s.evals ++ [shift x0 j (h.getD j 0)] }) := by
  have e1 : storeAt ⟨false, x0⟩ j (x0.getD j 0 + h.getD j 0) = shift x0 j (h.getD j 0) := rfl
  unfold forwardStep
  simp only [bind_def, e1]
  rw [setOptX_ok (by simpa using hlen)]
  simp only [callFn, hp.1, lift_def, npSub_ok (hp.2.trans h0.symm)]
  rw [setCol_ok hj (by simp only [List.length_map, List.length_zipWith, hp.2, h0, min_self])]
  rfl

/-- A loop that fills column `j` with `c j`, leaves `opt.x` of the right length and logs `e j`. -/
theorem forLoop_ok {n : Nat} {body : List (List ℝ) → Nat → M (List (List ℝ))} {c : Nat → List ℝ} {p : Nat → List ℝ} {e : Nat → List (List ℝ)} :
    ∀ (js : List Nat) (J : List (List ℝ)) (s : St), s.optX.length = n → J.length = n → (∀ j ∈ js, j < n) → (∀ j, (p j).length = n) →
      (∀ j ∈ js, ∀ (J : List (List ℝ)) (s : St), s.optX.length = n → J.length = n →
        body J j s = (.ok (J.set j (c j)), { s with optX := p j, evals := s.evals ++ e j })) →
      ∃ x, x.length = n ∧ forLoop body js J s = (.ok (js.foldl (fun J j => J.set j (c j)) J),
        { s with optX := x, evals := s.evals ++ js.flatMap e })
  | [], J, s, h1, h2, _, _, _ => ⟨s.optX, h1, by simp [forLoop]⟩
  | j :: js, J, s, h1, h2, h3, h4, h5 => by
    obtain ⟨x, hx, hl⟩ := forLoop_ok js (J.set j (c j)) { s with optX := p j, evals := s.evals ++ e j } (h4 j) (by simpa using h2)
      (fun k hk => h3 k (by simp [hk])) h4 (fun k hk => h5 k (by simp [hk]))
    refine ⟨x, hx, ?_⟩
    unfold forLoop
    rw [bind_def, h5 j (by simp) J s h1 h2]
    simp only [hl, List.foldl_cons, List.flatMap_cons, List.append_assoc]

theorem foldl_set_length {α : Type} (c : Nat → α) (js : List Nat) (J : List α) :
    (js.foldl (fun J j => J.set j (c j)) J).length = J.length := by
  induction js generalizing J with
  | nil => rfl
  | cons j js ih => simp [ih]

theorem foldl_set_get {α : Type} (c : Nat → α) (js : List Nat) (J : List α) (i : Nat) (hi : i < J.length) :
    (js.foldl (fun J j => J.set j (c j)) J)[i]? = if i ∈ js then some (c i) else J[i]? := by
  induction js generalizing J with
  | nil => simp
  | cons j js ih =>
    rw [List.foldl_cons, ih _ (by simpa using hi)]
    by_cases h : i ∈ js
    · simp [h]
    · by_cases hij : j = i
      · subst hij; simp [h, hi]
      · have : ¬ i = j := fun h => hij h.symm
        simp [h, this, List.getElem?_set_ne hij]

theorem foldl_set_range {α : Type} (c : Nat → α) (n : Nat) (J : List α) (hJ : J.length = n) :
    (List.range n).foldl (fun J j => J.set j (c j)) J = (List.range n).map c := by
  apply List.ext_getElem?
  intro i
  by_cases hi : i < n
  · rw [foldl_set_get c _ _ i (by omega)]
    simp [hi]
  · rw [List.getElem?_eq_none (by rw [foldl_set_length]; omega), List.getElem?_eq_none (by simp; omega)]

theorem steps_length {rnd : ℝ → ℝ} {x : List ℝ} {a r : ℝ} {h : List ℝ} (e : finiteDifferenceSteps rnd x a r = .ok h) : h.length = x.length := by
  unfold finiteDifferenceSteps at e
  split at e
  · cases e
  split at e
  · cases e
  simp only at e
  split at e
  · cases e
  · cases e; simp

theorem steps_pos {rnd : ℝ → ℝ} {x : List ℝ} {a r : ℝ} {h : List ℝ} (e : finiteDifferenceSteps rnd x a r = .ok h) : ∀ s ∈ h, 0 < s := by
  unfold finiteDifferenceSteps at e
  split at e
  · cases e
  rename_i ha
  split at e
  · cases e
  simp only at e
  split at e
  · cases e
  · rename_i hz
    cases e
    intro s hs
    obtain ⟨xj, _, rfl⟩ := List.mem_map.mp hs
    have h0 : (0:ℝ) ≤ max (rnd (|xj| * r)) a := le_trans (not_lt.mp ha) (le_max_right _ _)
    rcases lt_or_eq_of_le h0 with h | h
    · exact h
    · exfalso; apply hz
      rw [List.any_eq_true]
      exact ⟨_, hs, by simp [← h]⟩

end Simsopt.FD
