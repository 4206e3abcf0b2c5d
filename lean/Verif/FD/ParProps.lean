import Verif.FD.Par
import Verif.FD.Props
import Verif.Dofs.Lemmas
/-!
# C24: the parallel finite-difference Jacobian equals the serial one
-/
namespace Simsopt.FD
open Simsopt Simsopt.Util

/-- Two full vectors agree on the fixed dofs (and have the same length). -/
def SameFixed (mask : List Bool) (a b : List ℝ) : Prop := a.length = b.length ∧ ∀ i : Nat, mask[i]? = some false → a[i]? = b[i]?

theorem countTrue_eq (m : List Bool) : countTrue m = m.count true := by
  induction m with
  | nil => rfl
  | cons b m ih => cases b <;> simp [countTrue, ih]

theorem scatter_sameFixed {mask : List Bool} {a b x : List ℝ} (hm : mask.length = b.length) (h : SameFixed mask a b) (hx : x.length = mask.count true) :
    scatter mask a x = scatter mask b x := by
  induction mask generalizing a b x with
  | nil => cases b with
    | nil => cases a with
      | nil => rfl
      | cons _ _ => simp [SameFixed] at h
    | cons _ _ => simp at hm
  | cons c mask ih =>
    obtain ⟨hl, hf⟩ := h
    cases a with
    | nil => cases b with
      | nil => rfl
      | cons _ _ => simp at hl
    | cons a0 as =>
      cases b with
      | nil => simp at hl
      | cons b0 bs =>
        have hrec : SameFixed mask as bs := ⟨by simpa using hl, fun i hi => by simpa using hf (i + 1) (by simpa using hi)⟩
        have hml : mask.length = bs.length := by simpa using hm
        cases c with
        | true => cases x with
          | nil => simp at hx
          | cons v vs => simp only [scatter]; rw [ih hml hrec (by simpa using hx)]
        | false =>
          have : a0 = b0 := by simpa using hf 0 (by simp)
          simp only [scatter]; rw [ih hml hrec (by simpa using hx), this]

theorem sameFixed_scatter {mask : List Bool} {a b x : List ℝ} (h : SameFixed mask a b) : SameFixed mask (scatter mask a x) b :=
  ⟨by rw [scatter_length]; exact h.1, fun i hi => by rw [scatter_fixed _ _ _ _ hi]; exact h.2 i hi⟩

section
variable {f : Group → List ℝ} {F : List ℝ → List ℝ} {mask : List Bool} {full : List ℝ} {m ng : Nat}

/-- The columns that the leader of group `g` computes: the value at point `j` when it is its turn, zeros otherwise. -/
theorem runGroup_ok (ok : Group → Prop) (hstep : ∀ grp x, ok grp → x.length = mask.count true → f (grp.map (setFree mask x)) = F (scatter mask full x) ∧ ok (grp.map (setFree mask x)))
    (g : Nat) : ∀ (pts : List (List ℝ)) (j : Nat) (grp : Group), ok grp → (∀ p ∈ pts, p.length = mask.count true ∧ (F (scatter mask full p)).length = m) →
      runGroup f mask m ng g j pts grp = .ok ((List.range pts.length).map (fun i => if (j + i) % ng = g then F (scatter mask full (pts.getD i [])) else List.replicate m 0))
  | [], _, _, _, _ => by simp [runGroup]
  | p :: ps, j, grp, hg, hp => by
    obtain ⟨e1, e2⟩ := hstep grp p hg (hp p (by simp)).1
    have hl := (hp p (by simp)).2
    have hsucc : ∀ i, j + 1 + i = j + (i + 1) := by intro i; omega
    by_cases h : j % ng = g
    · rw [runGroup, if_pos h]
      have ih := runGroup_ok ok hstep g ps (j + 1) (grp.map (setFree mask p)) e2 (fun q hq => hp q (by simp [hq]))
      simp only [groupEval, e1, hl, if_true, ih]
      simp only [List.length_cons, List.range_succ_eq_map, List.map_cons, List.map_map, Nat.add_zero, h, if_true]
      simp [bind, Except.bind, Function.comp_def, hsucc]
    · rw [runGroup, if_neg h]
      have ih := runGroup_ok ok hstep g ps (j + 1) grp hg (fun q hq => hp q (by simp [hq]))
      simp only [ih]
      simp only [List.length_cons, List.range_succ_eq_map, List.map_cons, List.map_map, Nat.add_zero, h, if_false]
      simp [bind, Except.bind, Function.comp_def, hsucc]

theorem zip_zero_left (v : List ℝ) : List.zipWith (· + ·) (List.replicate v.length 0) v = v := by
  apply List.ext_getElem
  · simp
  · intro i h1 h2; simp

theorem zip_zero_right (v : List ℝ) : List.zipWith (· + ·) v (List.replicate v.length 0) = v := by
  apply List.ext_getElem
  · simp
  · intro i h1 h2; simp

theorem addMat_map (N : Nat) (a b : Nat → List ℝ) : addMat ((List.range N).map a) ((List.range N).map b) = (List.range N).map (fun i => List.zipWith (· + ·) (a i) (b i)) := by
  unfold addMat
  apply List.ext_getElem
  · simp
  · intro i h1 h2; simp

/-- Sum of the contributions of the groups `a, a+1, ..., a+k` : the value where it is the turn of one of them. -/
theorem runAll_ok (ok : Group → Prop) (hstep : ∀ grp x, ok grp → x.length = mask.count true → f (grp.map (setFree mask x)) = F (scatter mask full x) ∧ ok (grp.map (setFree mask x)))
    (pts : List (List ℝ)) (hp : ∀ p ∈ pts, p.length = mask.count true ∧ (F (scatter mask full p)).length = m) :
    ∀ (groups : List Group) (a : Nat), groups ≠ [] → (∀ grp ∈ groups, ok grp) →
      ∃ ev, runAll f mask m ng pts a groups = .ok ev ∧ ev ≠ [] ∧
        reduceSum ev = (List.range pts.length).map (fun i => if a ≤ i % ng ∧ i % ng < a + groups.length then F (scatter mask full (pts.getD i [])) else List.replicate m 0)
  | [], _, h, _ => absurd rfl h
  | [grp], a, _, hok => by
    have e := runGroup_ok (m := m) (ng := ng) ok hstep a pts 0 grp (hok grp (by simp)) hp
    refine ⟨_, by simp only [runAll, e, bind, Except.bind]; rfl, by simp, ?_⟩
    simp only [reduceSum]
    apply List.map_congr_left
    intro i _
    have : (a ≤ i % ng ∧ i % ng < a + [grp].length) ↔ i % ng = a := by simp only [List.length_singleton]; omega
    simp only [this, Nat.zero_add]
  | grp :: grp2 :: rest, a, _, hok => by
    have e := runGroup_ok (m := m) (ng := ng) ok hstep a pts 0 grp (hok grp (by simp)) hp
    obtain ⟨ev, h1, h2, h3⟩ := runAll_ok ok hstep pts hp (grp2 :: rest) (a + 1) (by simp) (fun g hg => hok g (by simp only [List.mem_cons] at hg ⊢; exact Or.inr hg))
    refine ⟨_, by rw [runAll, e, h1]; rfl, by simp, ?_⟩
    obtain ⟨b, l, rfl⟩ := List.exists_cons_of_ne_nil h2
    rw [reduceSum, h3, addMat_map]
    · apply List.map_congr_left
      intro i hi
      rw [List.mem_range] at hi
      have hlen : (F (scatter mask full (pts.getD i []))).length = m := by
        apply (hp _ _).2
        simp [hi]
      simp only [List.length_cons, Nat.zero_add]
      by_cases c1 : i % ng = a
      · have n1 : ¬ (a + 1 ≤ i % ng ∧ i % ng < a + 1 + (rest.length + 1)) := by omega
        have n2 : a ≤ i % ng ∧ i % ng < a + (rest.length + 1 + 1) := by omega
        rw [if_pos c1, if_neg n1, if_pos n2]
        conv_lhs => rw [← hlen]
        exact zip_zero_right _
      · by_cases c2 : a + 1 ≤ i % ng ∧ i % ng < a + 1 + (rest.length + 1)
        · have n2 : a ≤ i % ng ∧ i % ng < a + (rest.length + 1 + 1) := by omega
          rw [if_neg c1, if_pos c2, if_pos n2]
          conv_lhs => rw [← hlen]
          exact zip_zero_left _
        · have n2 : ¬ (a ≤ i % ng ∧ i % ng < a + (rest.length + 1 + 1)) := by omega
          rw [if_neg c1, if_neg c2, if_neg n2]
          have := zip_zero_left (List.replicate m 0)
          simpa using this
    · simp
end


theorem trialPoints_eq (centered : Bool) (x0 h : List ℝ) :
    trialPoints centered x0 h = if centered then centeredPoints x0 h else forwardPoints x0 h := by
  unfold trialPoints centeredPoints forwardPoints shift
  simp only [sub_eq_add_neg]

theorem flatMap_pair {α : Type} (n : Nat) (a b : Nat → α) (j : Nat) (hj : j < n) :
    ((List.range n).flatMap (fun j => [a j, b j]))[2 * j]? = some (a j) ∧ ((List.range n).flatMap (fun j => [a j, b j]))[2 * j + 1]? = some (b j) ∧
    ((List.range n).flatMap (fun j => [a j, b j])).length = 2 * n := by
  induction n with
  | zero => omega
  | succ n ih =>
    have hl : ∀ k, ((List.range k).flatMap (fun j => [a j, b j])).length = 2 * k := by
      intro k
      induction k with
      | zero => rfl
      | succ k ih => rw [List.range_succ, List.flatMap_append, List.length_append, ih]; simp; omega
    refine ⟨?_, ?_, hl _⟩
    · rw [List.range_succ, List.flatMap_append]
      by_cases h : j < n
      · rw [List.getElem?_append_left (by rw [hl]; omega)]; exact (ih h).1
      · have : j = n := by omega
        subst this
        rw [List.getElem?_append_right (by rw [hl])]; simp [hl]
    · rw [List.range_succ, List.flatMap_append]
      by_cases h : j < n
      · rw [List.getElem?_append_left (by rw [hl]; omega)]; exact (ih h).2.1
      · have : j = n := by omega
        subst this
        rw [List.getElem?_append_right (by rw [hl]; omega)]; simp [hl]

theorem cent_len (x0 h : List ℝ) : (centeredPoints x0 h).length = 2 * x0.length := by
  unfold centeredPoints
  generalize x0.length = n
  induction n with
  | zero => rfl
  | succ k ih => rw [List.range_succ, List.flatMap_append, List.length_append, ih]; simp; omega

/-- The result of the serial `jac`, in closed form. -/
theorem serial_eq (G : List ℝ → List ℝ) (m n : Nat) (absStep relStep : ℝ) (centered : Bool) (x0 : List ℝ) (s : St) (hn : x0.length = n) (hn' : s.optX.length = n)
    (hsz : s.jacSize = some (m, n) ∨ s.jacSize = none) (hG : ∀ p : List ℝ, p.length = n → (G p).length = m) :
    (jac (fun p => .ok (G p)) absStep relStep centered (some ⟨false, x0⟩) s).1 =
      match finiteDifferenceSteps id x0 absStep relStep with
      | .error e => .error e
      | .ok h => .ok ((List.range n).map fun j => if centered then centCol G x0 h j else fwdCol G x0 h j) := by
  have hsz' : s.jacSize = some (m, n) ∨ (s.jacSize = none ∧ ∃ v, (fun p => Except.ok (G p) : List ℝ → Except Err (List ℝ)) s.optX = .ok v ∧ v.length = m) :=
    hsz.imp id (fun h => ⟨h, _, rfl, hG _ hn'⟩)
  obtain ⟨a, e1, e2⟩ := pickX0_after (some ⟨false, x0⟩) s
  have e3 := ensureSize_ok (fn := fun p => .ok (G p)) (s := { s with x0 := a }) hn' hsz'
  cases hs : finiteDifferenceSteps id x0 absStep relStep with
  | error e =>
    simp only
    unfold jac
    simp only [bind_def, e1, e2, getOptX, e3, lift_def, pointOf, hs]
  | ok h =>
    have hlp : ∀ p ∈ forwardPoints x0 h, p.length = n := by
      intro p hp
      simp only [forwardPoints, List.mem_cons, List.mem_map] at hp
      rcases hp with rfl | ⟨j, _, rfl⟩ <;> simp [hn]
    have hlc : ∀ p ∈ centeredPoints x0 h, p.length = n := by
      intro p hp
      simp only [centeredPoints, List.mem_flatMap, List.mem_cons, List.not_mem_nil, or_false] at hp
      obtain ⟨j, _, rfl | rfl⟩ := hp <;> simp [hn]
    cases centered with
    | true =>
      obtain ⟨J, s', e, hl, hc, _⟩ := C23_centered (fun p => .ok (G p)) G m n absStep relStep (some ⟨false, x0⟩) s x0 h rfl hn hn' hs hsz' (fun p hp => ⟨rfl, hG p (hlc p hp)⟩)
      rw [e]
      simp only [if_true]
      congr 1
      apply List.ext_getElem?
      intro j
      by_cases hj : j < n
      · obtain ⟨col, h1, h2, h3⟩ := hc j hj
        rw [h1]
        simp only [List.getElem?_map, List.getElem?_range hj, Option.map_some, Option.some.injEq]
        have l1 := hG (shift x0 j (h.getD j 0)) (by simp [hn])
        have l2 := hG (shift x0 j (-h.getD j 0)) (by simp [hn])
        apply List.ext_getElem
        · simp only [centCol, List.length_map, List.length_zipWith, l1, l2, min_self]; exact h2
        · intro i hi1 hi2
          rw [← getD_lt hi1, ← getD_lt hi2, h3 i (by omega)]
          exact (quot_getD l1 l2 (by omega) _).symm
      · rw [List.getElem?_eq_none (by omega), List.getElem?_eq_none (by simp; omega)]
    | false =>
      obtain ⟨J, s', e, hl, hc, _⟩ := C23_forward (fun p => .ok (G p)) G m n absStep relStep (some ⟨false, x0⟩) s x0 h rfl hn hn' hs hsz' (fun p hp => ⟨rfl, hG p (hlp p hp)⟩)
      rw [e]
      simp only [Bool.false_eq_true, if_false]
      congr 1
      apply List.ext_getElem?
      intro j
      by_cases hj : j < n
      · obtain ⟨col, h1, h2, h3⟩ := hc j hj
        rw [h1]
        simp only [List.getElem?_map, List.getElem?_range hj, Option.map_some, Option.some.injEq]
        have l1 := hG (shift x0 j (h.getD j 0)) (by simp [hn])
        have l2 := hG x0 hn
        apply List.ext_getElem
        · simp only [fwdCol, List.length_map, List.length_zipWith, l1, l2, min_self]; exact h2
        · intro i hi1 hi2
          rw [← getD_lt hi1, ← getD_lt hi2, h3 i (by omega)]
          exact (quot_getD l1 l2 (by omega) _).symm
      · rw [List.getElem?_eq_none (by omega), List.getElem?_eq_none (by simp; omega)]

/-- The matrix assembled from the values at the trial points is the matrix of difference quotients. -/
theorem assemble_eq (G : List ℝ → List ℝ) (centered : Bool) (x0 h : List ℝ) (n : Nat) (hn : x0.length = n) :
    assemble centered n h ((trialPoints centered x0 h).map G) = (List.range n).map fun j => if centered then centCol G x0 h j else fwdCol G x0 h j := by
  unfold assemble
  rw [trialPoints_eq]
  apply List.map_congr_left
  intro j hj
  rw [List.mem_range] at hj
  cases centered with
  | true =>
    simp only [if_true]
    have hp := flatMap_pair x0.length (fun j => shift x0 j (h.getD j 0)) (fun j => shift x0 j (-h.getD j 0)) j (by omega)
    unfold centeredPoints centCol
    rw [List.getD_eq_getElem?_getD (i := 2 * j), List.getD_eq_getElem?_getD (i := 2 * j + 1), List.getElem?_map, List.getElem?_map, hp.1, hp.2.1]
    rfl
  | false =>
    simp only [Bool.false_eq_true, if_false]
    unfold forwardPoints fwdCol
    rw [List.getD_eq_getElem?_getD (i := j + 1)]
    simp [hn, hj]

/-- Core of C24, for any notion `ok` of "the group's states are such that the group evaluates `F`". -/
theorem parJac_core {f : Group → List ℝ} {F : List ℝ → List ℝ} {mask : List Bool} {full : List ℝ} {m : Nat} (ok : Group → Prop)
    (hstep : ∀ grp x, ok grp → x.length = mask.count true → f (grp.map (setFree mask x)) = F (scatter mask full x) ∧ ok (grp.map (setFree mask x)))
    (hlead : ∀ grp v, ok grp → SameFixed mask v full → ok (setLeader v grp))
    (absStep relStep : ℝ) (centered : Bool) (jacSize : Option (Nat × Nat)) (x : List ℝ) (ws : List (List ℝ)) (others : List Group)
    (hmask : mask.length = full.length) (hx : x.length = mask.count true) (hok0 : ok (full :: ws)) (hok : ∀ grp ∈ others, ok (setLeader full grp) ∧ ok (setLeader (scatter mask full x) grp))
    (hF : ∀ p : List ℝ, p.length = mask.count true → (F (scatter mask full p)).length = m)
    (hsz : jacSize = none ∨ jacSize = some (m, mask.count true)) :
    parJac f mask absStep relStep centered jacSize x ((full :: ws) :: others) =
      match finiteDifferenceSteps id x absStep relStep with
      | .error e => .error e
      | .ok h => .ok ((List.range (mask.count true)).map fun j =>
          if centered then centCol (fun p => F (scatter mask full p)) x h j else fwdCol (fun p => F (scatter mask full p)) x h j) := by
  have hg : gather mask (scatter mask full x) = x := gather_scatter _ _ _ hmask hx
  have hss : SameFixed mask (scatter mask full x) full := sameFixed_scatter ⟨rfl, fun _ _ => rfl⟩
  have hidem : scatter mask (scatter mask full x) x = scatter mask full x := scatter_sameFixed hmask hss hx
  have key : ∀ (g0 : Group) (fl : List ℝ), ok (setLeader (scatter mask full x) g0) → (∃ a l, g0 = a :: l) → (fl = full ∨ fl = scatter mask full x) →
      (match finiteDifferenceSteps id (gather mask ((setLeader (scatter mask fl x) g0).headD [])) absStep relStep with
        | .error e => .error e
        | .ok steps =>
          match runAll f mask m ((others.map (setLeader fl)).length + 1) (trialPoints centered (gather mask ((setLeader (scatter mask fl x) g0).headD [])) steps) 0
              (setLeader (scatter mask fl x) g0 :: others.map (setLeader fl)) with
          | .error e => .error e
          | .ok evals => .ok (assemble centered (mask.count true) steps (reduceSum evals)) : Except Err (List (List ℝ))) =
      match finiteDifferenceSteps id x absStep relStep with
      | .error e => .error e
      | .ok h => .ok ((List.range (mask.count true)).map fun j =>
          if centered then centCol (fun p => F (scatter mask full p)) x h j else fwdCol (fun p => F (scatter mask full p)) x h j) := by
    rintro g0 fl hok1 ⟨a, l, rfl⟩ hfl
    have hfx : scatter mask fl x = scatter mask full x := by rcases hfl with rfl | rfl; exacts [rfl, hidem]
    have hx0 : gather mask ((setLeader (scatter mask fl x) (a :: l)).headD []) = x := by simp [setLeader, hfx, hg]
    rw [hx0]
    cases hs : finiteDifferenceSteps id x absStep relStep with
    | error e => rfl
    | ok h =>
      simp only
      have hpts : ∀ p ∈ trialPoints centered x h, p.length = mask.count true := by
        intro p hp
        rw [trialPoints_eq] at hp
        cases centered with
        | true =>
          simp only [if_true, centeredPoints, List.mem_flatMap, List.mem_cons, List.not_mem_nil, or_false] at hp
          obtain ⟨j, _, rfl | rfl⟩ := hp <;> simp [hx]
        | false =>
          simp only [Bool.false_eq_true, if_false, forwardPoints, List.mem_cons, List.mem_map] at hp
          rcases hp with rfl | ⟨j, _, rfl⟩ <;> simp [hx]
      obtain ⟨ev, e1, _, e3⟩ := runAll_ok (m := m) (ng := (others.map (setLeader fl)).length + 1) ok hstep (trialPoints centered x h)
        (fun p hp => ⟨hpts p hp, hF p (hpts p hp)⟩) (setLeader (scatter mask fl x) (a :: l) :: others.map (setLeader fl)) 0 (by simp) (by
          intro grp hgrp
          simp only [List.mem_cons, List.mem_map] at hgrp
          rcases hgrp with rfl | ⟨g', hg', rfl⟩
          · rw [hfx]; exact hok1
          · rcases hfl with rfl | rfl
            exacts [(hok g' hg').1, (hok g' hg').2])
      rw [e1]
      simp only [e3]
      rw [← assemble_eq _ _ _ _ _ hx]
      congr 2
      apply List.ext_getElem?
      intro i
      by_cases hi : i < (trialPoints centered x h).length
      · have hmod : i % ((others.map (setLeader fl)).length + 1) < (others.map (setLeader fl)).length + 1 := Nat.mod_lt _ (by omega)
        simp only [List.getElem?_map, List.getElem?_range hi, Option.map_some, List.length_cons, Nat.zero_le, Nat.zero_add, true_and, hmod, if_true]
        simp [hi]
      · rw [List.getElem?_eq_none (by simp; omega), List.getElem?_eq_none (by simp; omega)]
  unfold parJac
  have hc : ¬ x.length ≠ countTrue mask := by rw [countTrue_eq]; simp [hx]
  simp only [if_neg hc]
  rcases hsz with rfl | rfl
  · obtain ⟨e1, e2⟩ := hstep (full :: ws) x hok0 hx
    have e1' : (f (scatter mask full x :: ws.map (setFree mask x))).length = m := by
      have := hF x hx
      rw [← e1] at this
      simpa [setFree] using this
    simp only [groupEval, List.map_cons, List.headD_cons, hx]
    simp only [setFree] at e1' ⊢
    rw [e1']
    exact key _ _ (by
      rw [List.map_cons] at e2
      have := hlead _ (scatter mask full x) e2 hss
      simpa [setLeader, setFree] using this) ⟨_, _, rfl⟩ (Or.inr rfl)
  · simp only [List.headD_cons, setFree]
    exact key _ _ (hlead _ _ hok0 hss) ⟨_, _, rfl⟩ (Or.inl rfl)

theorem sameFixed_map {mask : List Bool} {full x : List ℝ} {grp : Group} (h : ∀ v ∈ grp, SameFixed mask v full) (hmask : mask.length = full.length)
    (hx : x.length = mask.count true) : grp.map (setFree mask x) = List.replicate grp.length (scatter mask full x) := by
  apply List.ext_getElem
  · simp
  · intro i h1 h2
    simp only [List.getElem_map, List.getElem_replicate, setFree]
    exact scatter_sameFixed hmask (h _ (List.getElem_mem _)) hx

theorem mem_setLeader {v w : List ℝ} {grp : Group} (h : w ∈ setLeader v grp) : w = v ∨ w ∈ grp.tail := by
  cases grp with
  | nil => simp [setLeader] at h
  | cons a l => simpa [setLeader] using h

/-- **C24.**  For any partition into groups (any number of groups, any sizes), any function that a group evaluates to `F full_x` when its members hold the
    same `full_x`, any steps and either scheme: if the workers' fixed dofs agree with those of proc 0, `MPIFiniteDifference.jac(x)` returns on proc 0 exactly
    what `FiniteDifference.jac(x)` returns (a matrix, or the same exception).  Nothing is assumed about the free dofs of any process nor about the other
    leaders. -/
theorem C24_equals_serial (f : Group → List ℝ) (F : List ℝ → List ℝ) (hf : ∀ k v, f (List.replicate (k + 1) v) = F v)
    (mask : List Bool) (full : List ℝ) (m : Nat) (absStep relStep : ℝ) (centered : Bool) (jacSize : Option (Nat × Nat)) (x : List ℝ)
    (workers0 : List (List ℝ)) (others : List Group) (s : St)
    (hmask : mask.length = full.length) (hx : x.length = mask.count true)
    (hw0 : ∀ w ∈ workers0, SameFixed mask w full) (hne : ∀ grp ∈ others, grp ≠ []) (hw : ∀ grp ∈ others, ∀ w ∈ grp.tail, SameFixed mask w full)
    (hF : ∀ p : List ℝ, p.length = mask.count true → (F (scatter mask full p)).length = m)
    (hsz : jacSize = none ∨ jacSize = some (m, mask.count true))
    (hs1 : s.optX.length = mask.count true) (hs2 : s.jacSize = some (m, mask.count true) ∨ s.jacSize = none) :
    parJac f mask absStep relStep centered jacSize x ((full :: workers0) :: others) =
      (jac (fun p => .ok (F (scatter mask full p))) absStep relStep centered (some ⟨false, x⟩) s).1 := by
  rw [serial_eq (fun p => F (scatter mask full p)) m _ absStep relStep centered x s hx hs1 hs2 hF]
  have hself : SameFixed mask full full := ⟨rfl, fun _ _ => rfl⟩
  refine parJac_core (fun grp => grp ≠ [] ∧ ∀ v ∈ grp, SameFixed mask v full) ?_ ?_ absStep relStep centered jacSize x workers0 others hmask hx ?_ ?_ hF hsz
  · rintro grp y ⟨h1, h2⟩ hy
    constructor
    · rw [sameFixed_map h2 hmask hy]
      obtain ⟨a, l, rfl⟩ := List.exists_cons_of_ne_nil h1
      exact hf _ _
    · refine ⟨by simpa using h1, ?_⟩
      intro v hv
      obtain ⟨w, hw, rfl⟩ := List.mem_map.mp hv
      exact sameFixed_scatter (h2 w hw)
  · rintro grp v ⟨h1, h2⟩ hv
    refine ⟨by cases grp <;> simp_all [setLeader], fun w hw => ?_⟩
    rcases mem_setLeader hw with rfl | h
    · exact hv
    · exact h2 w (List.mem_of_mem_tail h)
  · exact ⟨by simp, by simpa using ⟨hself, hw0⟩⟩
  · intro grp hg
    constructor <;>
    · refine ⟨by have := hne grp hg; cases grp <;> simp_all [setLeader], fun w hw' => ?_⟩
      rcases mem_setLeader hw' with rfl | h
      · first | exact hself | exact sameFixed_scatter hself
      · exact hw grp hg w h

/-- The same for a function whose value on the leader depends on the leader's state only (no use of the group's communicator): then nothing at all is
    assumed about the workers. -/
theorem C24_leader_only (F : List ℝ → List ℝ) (mask : List Bool) (full : List ℝ) (m : Nat) (absStep relStep : ℝ) (centered : Bool)
    (jacSize : Option (Nat × Nat)) (x : List ℝ) (workers0 : List (List ℝ)) (others : List Group) (s : St)
    (hmask : mask.length = full.length) (hx : x.length = mask.count true) (hne : ∀ grp ∈ others, grp ≠ [])
    (hF : ∀ p : List ℝ, p.length = mask.count true → (F (scatter mask full p)).length = m)
    (hsz : jacSize = none ∨ jacSize = some (m, mask.count true))
    (hs1 : s.optX.length = mask.count true) (hs2 : s.jacSize = some (m, mask.count true) ∨ s.jacSize = none) :
    parJac (fun grp => F (grp.headD [])) mask absStep relStep centered jacSize x ((full :: workers0) :: others) =
      (jac (fun p => .ok (F (scatter mask full p))) absStep relStep centered (some ⟨false, x⟩) s).1 := by
  rw [serial_eq (fun p => F (scatter mask full p)) m _ absStep relStep centered x s hx hs1 hs2 hF]
  have hself : SameFixed mask full full := ⟨rfl, fun _ _ => rfl⟩
  refine parJac_core (fun grp => ∃ v ws, grp = v :: ws ∧ SameFixed mask v full) ?_ ?_ absStep relStep centered jacSize x workers0 others hmask hx ?_ ?_ hF hsz
  · rintro grp y ⟨v, ws, rfl, h2⟩ hy
    refine ⟨?_, _, _, rfl, sameFixed_scatter h2⟩
    simp only [List.map_cons, List.headD_cons, setFree]
    rw [scatter_sameFixed hmask h2 hy]
  · rintro grp v ⟨w, ws, rfl, h2⟩ hv
    exact ⟨v, ws, rfl, hv⟩
  · exact ⟨full, workers0, rfl, hself⟩
  · intro grp hg
    obtain ⟨a, l, rfl⟩ := List.exists_cons_of_ne_nil (hne grp hg)
    exact ⟨⟨_, _, rfl, hself⟩, ⟨_, _, rfl, sameFixed_scatter hself⟩⟩

/-- Non-vacuity: 3 groups of sizes 2, 1, 2; one fixed dof; the free dofs of all processes and the other leaders' states are arbitrary. -/
example : parJac (fun grp => (grp.headD []).map (2 * ·)) [true, false, true] 1 0 true none [1, 2] [[[0, 9, 0], [5, 9, 5]], [[7, 7, 7]], [[3, 3, 3], [1, 9, 1]]] =
    (jac (fun p => .ok ((scatter [true, false, true] [0, 9, 0] p).map (2 * ·))) 1 0 true (some ⟨false, [1, 2]⟩) ⟨[0, 0], none, none, []⟩).1 :=
  C24_leader_only (fun v => v.map (2 * ·)) [true, false, true] [0, 9, 0] 3 1 0 true none [1, 2] [[5, 9, 5]] [[[7, 7, 7]], [[3, 3, 3], [1, 9, 1]]] _ rfl rfl (by simp)
    (fun p _ => by simp [scatter_length]) (Or.inl rfl) rfl (Or.inr rfl)

/-- Only the leaders are sent `full_x`; workers are sent the free dofs only.  If proc 0 has changed a fixed dof since the processes separated, a function
    that uses the whole group gives a Jacobian different from the serial one. -/
theorem C24_worker_fixed_dofs_violated : ∃ (f : Group → List ℝ) (F : List ℝ → List ℝ), (∀ k v, f (List.replicate (k + 1) v) = F v) ∧
    parJac f [true, false] 1 0 false (some (1, 1)) [0] [[[0, 2], [0, 3]]] = .ok [[3]] ∧
    (jac (fun p => .ok (F (scatter [true, false] [0, 2] p))) 1 0 false (some ⟨false, [0]⟩) ⟨[0], none, some (1, 1), []⟩).1 = .ok [[2]] := by
  refine ⟨fun grp => [(grp.getLastD []).getD 1 0 * (grp.headD []).getD 0 0], fun v => [v.getD 1 0 * v.getD 0 0], ?_, ?_, ?_⟩
  · intro k v
    have h1 : (List.replicate (k + 1) v).getLastD [] = v := by rw [List.replicate_succ']; simp [List.getLastD_eq_getLast?]
    have h2 : (List.replicate (k + 1) v).headD [] = v := by simp [List.replicate_succ]
    simp only [h1, h2]
  · simp [parJac, countTrue, setLeader, setFree, scatter, gather, steps_one, trialPoints, runAll, runGroup, groupEval, List.range_succ, reduceSum, assemble, bind, Except.bind]
  · simp [jac, storeX0, pickX0, getOptX, ensureSize, callFn, steps_one, setOptX, List.range_succ, forLoop, forwardStep, storeAt, npSub, setCol, scatter]

/-! ### C46: the cache of the parallel Jacobian -/

/-- **C46.**  With explicit points held in arrays that the caller does not modify afterwards, and a Jacobian that depends on the point only, every call of every
    sequence returns the Jacobian at its own argument. -/
theorem C46_cache_transparent (compute : List ℝ → List (List ℝ)) (heap : Nat → List ℝ) (selfX0 : Nat) (calls : List Nat) :
    jacSeq (fun o => compute (o.getD [])) heap selfX0 ⟨none, none, false⟩ calls = calls.map (fun r => compute (heap r)) := by
  -- invariant: a stored Jacobian is that of the stored point
  let Inv : JCache → Prop := fun c => c.jacCache = none ∨ ∃ r, c.xCache = some r ∧ c.jacCache = some (compute (heap r))
  have step : ∀ c r, Inv c → (jacCached (fun o => compute (o.getD [])) heap selfX0 (some r) c).1 = compute (heap r) ∧
      Inv (jacCached (fun o => compute (o.getD [])) heap selfX0 (some r) c).2 := by
    intro c r hc
    rcases c with ⟨xc, jc, k⟩
    have fresh : Inv { xCache := some r, jacCache := some (compute (heap r)), sizeKnown := true } := Or.inr ⟨r, rfl, rfl⟩
    rcases hc with h | ⟨r', h1, h2⟩
    · simp only at h; subst h
      cases k <;> (unfold jacCached; cases cacheHit heap (some r) xc <;> exact ⟨rfl, fresh⟩)
    · simp only at h1 h2; subst h1 h2
      by_cases e : heap r = heap r'
      · have hh : cacheHit heap (some r) (some r') = true := by simp [cacheHit, e]
        unfold jacCached; simp only [hh]
        exact ⟨by rw [e], Or.inr ⟨r', rfl, rfl⟩⟩
      · have hh : cacheHit heap (some r) (some r') = false := by simp [cacheHit, e]
        unfold jacCached; simp only [hh]
        cases k <;> exact ⟨rfl, fresh⟩
  have gen : ∀ (l : List Nat) (c : JCache), Inv c → jacSeq (fun o => compute (o.getD [])) heap selfX0 c l = l.map (fun r => compute (heap r)) := by
    intro l
    induction l with
    | nil => intro c h; rfl
    | cons r l ih =>
      intro c h
      obtain ⟨h1, h2⟩ := step c r h
      rw [jacSeq, h1, ih _ h2]; rfl
  exact gen calls _ (Or.inl rfl)

/-- The cache keeps the caller's array: if the caller changes it in place and calls `jac` with it again, the old Jacobian comes back. -/
theorem C46_in_place_violated (compute : List ℝ → List (List ℝ)) (u v : List ℝ) (h : compute u ≠ compute v) :
    ∃ c : JCache, c = (jacCached (fun o => compute (o.getD [])) (fun _ => u) 1 (some 0) ⟨none, none, false⟩).2 ∧
      (jacCached (fun o => compute (o.getD [])) (fun r => if r = 0 then v else u) 1 (some 0) c).1 ≠ compute v := by
  refine ⟨_, rfl, ?_⟩
  simpa [jacCached, cacheHit] using h

/-- Calls without argument are cached under `None`: from the second such call on, the stored matrix is returned wherever the object has moved to. -/
theorem C46_no_argument_violated (jacAt : List ℝ → List (List ℝ)) (x0 y z : List ℝ) (h : jacAt y ≠ jacAt z) :
    ∃ c1 c2 : JCache, c1 = (jacCached (fun o => jacAt (o.getD x0)) (fun _ => x0) 0 none ⟨none, none, false⟩).2 ∧
      c2 = (jacCached (fun o => jacAt (o.getD y)) (fun _ => x0) 0 none c1).2 ∧
      (jacCached (fun o => jacAt (o.getD z)) (fun _ => x0) 0 none c2).1 ≠ jacAt z := by
  refine ⟨_, _, rfl, rfl, ?_⟩
  simpa [jacCached, cacheHit] using h

/-- The key is `x` only: a change of a fixed dof between two calls at the same `x` is not seen. -/
theorem C46_fixed_dof_violated (J : List ℝ → List ℝ → List (List ℝ)) (x a b : List ℝ) (h : J a x ≠ J b x) :
    ∃ c : JCache, c = (jacCached (fun o => J a (o.getD [])) (fun _ => x) 1 (some 0) ⟨none, none, false⟩).2 ∧
      (jacCached (fun o => J b (o.getD [])) (fun _ => x) 1 (some 0) c).1 ≠ J b x := by
  refine ⟨_, rfl, ?_⟩
  simpa [jacCached, cacheHit] using h

end Simsopt.FD
