import Verif.Sampling.Basic
import Mathlib.Data.Fin.Tuple.Basic
import Mathlib.Algebra.BigOperators.Fin
/-!
# C160: the law of the drawn points
-/
namespace Simsopt.Sampling
open MeasureTheory

variable {N : ℕ}

/-- What an attempt yields. -/
noncomputable def out [NeZero N] (w : Fin N → ℝ) (a : Fin N × ℝ) : Option (Fin N) := if accepts w a then some a.1 else none

theorem filter_out [NeZero N] (w : Fin N → ℝ) (l : List (Fin N × ℝ)) : (l.filter (accepts w)).map Prod.fst = (l.map (out w)).filterMap id := by
  induction l with
  | nil => rfl
  | cons a l ih =>
    rw [List.filter_cons, List.map_cons, List.filterMap_cons]
    by_cases h : accepts w a = true
    · simp only [h, if_true, out, List.map_cons, id]; rw [ih]; rfl
    · simp only [h, out, id]; exact ih

/-- The accepted entries of a pattern. -/
def hits {α : Type} {m : ℕ} (s : Fin m → Option α) : List α := (List.ofFn s).filterMap id

theorem hits_succ {α : Type} {m : ℕ} (o : Option α) (s : Fin m → Option α) : hits (Fin.cons o s : Fin (m + 1) → Option α) = o.toList ++ hits s := by
  unfold hits
  rw [List.ofFn_succ, List.filterMap_cons]
  cases o <;> simp

theorem chosen_hits [NeZero N] (w : Fin N → ℝ) (n m : ℕ) (ω : Fin m → Fin N × ℝ) :
    chosen w n (List.ofFn ω) = if n < (hits fun i => out w (ω i)).length then .ok ((hits fun i => out w (ω i)).take n) else .error .assertionError := by
  have e : ((List.ofFn ω).filter (accepts w)).map Prod.fst = hits fun i => out w (ω i) := by
    rw [filter_out, List.map_ofFn]; rfl
  unfold chosen
  rw [List.map_take, e, ← e, List.length_map]

theorem sum_pattern {α : Type} [Fintype α] {m : ℕ} (F : (Fin (m + 1) → Option α) → ENNReal) :
    ∑ s, F s = (∑ s : Fin m → Option α, F (Fin.cons none s)) + ∑ j : α, ∑ s : Fin m → Option α, F (Fin.cons (some j) s) := by
  rw [← (Fin.consEquiv fun _ => Option α).sum_comp F, Fintype.sum_prod_type, Fintype.sum_option]
  rfl

open Classical in
/-- The finite identity behind the theorem. -/
theorem pattern_law {α : Type} [Fintype α] (q : Option α → ENNReal) (p : α → ENNReal) (hq : ∀ a, q (some a) = p a * ∑ j, q (some j)) (m : ℕ) : ∀ (n : ℕ) (k : List α), k.length = n →
    (∑ s : Fin m → Option α, if n < (hits s).length ∧ (hits s).take n = k then ∏ i, q (s i) else 0) = (k.map p).prod * ∑ s : Fin m → Option α, if n < (hits s).length then ∏ i, q (s i) else 0 := by
  induction m with
  | zero =>
    intro n k _
    simp [hits]
  | succ m ih =>
    intro n k hk
    rw [sum_pattern, sum_pattern]
    simp only [hits_succ, Fin.prod_univ_succ, Fin.cons_zero, Fin.cons_succ, Option.toList_none, Option.toList_some, List.nil_append, List.singleton_append]
    have pull : ∀ (P : (Fin m → Option α) → Prop) [DecidablePred P] (c : ENNReal), (∑ s, if P s then c * ∏ i, q (s i) else 0) = c * ∑ s, if P s then ∏ i, q (s i) else 0 := by
      intro P _ c
      rw [Finset.mul_sum]
      refine Finset.sum_congr rfl fun s _ => ?_
      by_cases h : P s
      · rw [if_pos h, if_pos h]
      · rw [if_neg h, if_neg h, mul_zero]
    simp only [pull]
    rw [ih n k hk]
    cases k with
    | nil =>
      obtain rfl : n = 0 := hk.symm
      simp
    | cons a k =>
      obtain ⟨n, rfl⟩ : ∃ r, n = r + 1 := ⟨k.length, hk.symm⟩
      have hk' : k.length = n := by simpa using hk
      simp only [List.length_cons, Nat.add_lt_add_iff_right, List.take_succ_cons, List.cons.injEq]
      rw [Finset.sum_eq_single a]
      · simp only [true_and]
        rw [ih n k hk', List.map_cons, List.prod_cons, ← Finset.sum_mul, hq a]
        ring
      · intro b _ hb
        simp [hb]
      · simp

theorem measurable_hit [NeZero N] (w : Fin N → ℝ) (k : Fin N) : MeasurableSet (hit w k) := by
  have e : hit w k = {k} ×ˢ Set.Iio (w k / maximum w) := by
    ext a
    simp only [hit, accepts, Set.mem_ofPred_eq, decide_eq_true_eq, Set.mem_prod, Set.mem_singleton_iff, Set.mem_Iio]
    constructor
    · rintro ⟨h1, h2⟩; rw [h2] at h1; exact ⟨h2, h1⟩
    · rintro ⟨h1, h2⟩; rw [h1]; exact ⟨h2, rfl⟩
  rw [e]
  exact (measurableSet_singleton k).prod measurableSet_Iio

/-- The attempts with a given yield. -/
def yields [NeZero N] (w : Fin N → ℝ) (o : Option (Fin N)) : Set (Fin N × ℝ) := {a | out w a = o}

theorem yields_some [NeZero N] (w : Fin N → ℝ) (k : Fin N) : yields w (some k) = hit w k := by
  ext a
  unfold yields hit out
  by_cases h : accepts w a = true
  · simp [h]
  · simp [h]

theorem yields_none [NeZero N] (w : Fin N → ℝ) : yields w none = (⋃ k, hit w k)ᶜ := by
  ext a
  unfold yields hit out
  by_cases h : accepts w a = true
  · simp [h]
  · simp [h]

theorem measurable_yields [NeZero N] (w : Fin N → ℝ) (o : Option (Fin N)) : MeasurableSet (yields w o) := by
  cases o with
  | none => rw [yields_none]; exact (MeasurableSet.iUnion fun k => measurable_hit w k).compl
  | some k => rw [yields_some]; exact measurable_hit w k

open Classical in
/-- The probability of an event that depends on the yields alone. -/
theorem measure_pattern [NeZero N] (w : Fin N → ℝ) (m : ℕ) (P : (Fin m → Option (Fin N)) → Prop) :
    attempts N m {ω | P fun i => out w (ω i)} = ∑ s : Fin m → Option (Fin N), if P s then ∏ i, law N (yields w (s i)) else 0 := by
  have e : {ω : Fin m → Fin N × ℝ | P fun i => out w (ω i)} = ⋃ s ∈ Finset.univ.filter P, Set.univ.pi fun i => yields w (s i) := by
    ext ω
    simp only [Set.mem_ofPred_eq, Set.mem_iUnion, Finset.mem_filter, Finset.mem_univ, true_and, Set.mem_pi, Set.mem_univ, forall_true_left, exists_prop, yields]
    constructor
    · intro h; exact ⟨_, h, fun i => rfl⟩
    · rintro ⟨s, hs, h⟩
      have : (fun i => out w (ω i)) = s := funext h
      rw [this]; exact hs
  rw [e, measure_biUnion_finset]
  · rw [Finset.sum_filter]
    refine Finset.sum_congr rfl fun s _ => ?_
    rw [attempts, Measure.pi_pi]
  · intro s _ t _ hst
    rw [Function.onFun, Set.disjoint_left]
    intro ω h1 h2
    apply hst
    funext i
    have a := h1 i (Set.mem_univ i)
    have b := h2 i (Set.mem_univ i)
    unfold yields at a b
    exact (show out w (ω i) = s i from a).symm.trans b
  · intro s _
    exact MeasurableSet.univ_pi fun i => measurable_yields w (s i)

/-- **C160**: before the sort the drawn grid points are independent, each with probability proportional to its arclength (area) element: for every list of `n` grid points, the probability that
the draw succeeds and takes exactly these, in this order, is the probability of success times the product of their weights.  `m` is the number of attempts. -/
theorem C160_law [NeZero N] (w : Fin N → ℝ) (hw : ∀ k, 0 ≤ w k) (hs : 0 < ∑ k, w k) (n m : ℕ) (k : List (Fin N)) (hk : k.length = n) :
    attempts N m {ω | chosen w n (List.ofFn ω) = .ok k} = (k.map fun j => ENNReal.ofReal (weight w j)).prod * attempts N m {ω | ∃ l, chosen w n (List.ofFn ω) = .ok l} := by
  classical
  have hM := maximum_pos w hs
  have e1 : {ω : Fin m → Fin N × ℝ | chosen w n (List.ofFn ω) = .ok k} = {ω | (fun s => n < (hits s).length ∧ (hits s).take n = k) fun i => out w (ω i)} := by
    ext ω
    simp only [Set.mem_ofPred_eq]
    rw [chosen_hits]
    by_cases h : n < (hits fun i => out w (ω i)).length
    · rw [if_pos h]; simp [h]
    · rw [if_neg h]; simp [h]
  have e2 : {ω : Fin m → Fin N × ℝ | ∃ l, chosen w n (List.ofFn ω) = .ok l} = {ω | (fun s => n < (hits s).length) fun i => out w (ω i)} := by
    ext ω
    simp only [Set.mem_ofPred_eq]
    rw [chosen_hits]
    by_cases h : n < (hits fun i => out w (ω i)).length
    · rw [if_pos h]; simp [h]
    · rw [if_neg h]; simp [h]
  rw [e1, e2, measure_pattern w m (fun s => n < (hits s).length ∧ (hits s).take n = k), measure_pattern w m (fun s => n < (hits s).length)]
  have hq : ∀ a, law N (yields w (some a)) = ENNReal.ofReal (weight w a) * ∑ j, law N (yields w (some j)) := ?_
  · have key := pattern_law (fun o => law N (yields w o)) (fun j => ENNReal.ofReal (weight w j)) hq m n k hk
    have swap : ∀ (P : (Fin m → Option (Fin N)) → Prop) (d d' : DecidablePred P) (f : (Fin m → Option (Fin N)) → ENNReal), (∑ s, @ite _ (P s) (d s) (f s) 0) = ∑ s, @ite _ (P s) (d' s) (f s) 0 := by
      intro P d d' f
      refine Finset.sum_congr rfl fun s _ => ?_
      by_cases h : P s
      · rw [if_pos h, if_pos h]
      · rw [if_neg h, if_neg h]
    refine (swap _ _ _ _).trans (key.trans (congrArg _ (swap _ _ _ _)))
  intro a
  simp only [yields_some, law_hit w hw hs]
  have hN : (0 : ℝ) < N := by exact_mod_cast NeZero.pos N
  rw [← ENNReal.ofReal_sum_of_nonneg (fun j _ => by have := hw j; positivity), ← Finset.sum_div, ← ENNReal.ofReal_mul (by unfold weight; have := hw a; positivity)]
  congr 1
  unfold weight
  field_simp

open Classical in
/-- **C160**: the returned indices are distributed like the sorted list of `n` independent grid points with these weights, given that the draw succeeds. -/
theorem C160_sorted [NeZero N] (w : Fin N → ℝ) (hw : ∀ k, 0 ≤ w k) (hs : 0 < ∑ k, w k) (n m : ℕ) (l : List (Fin N)) :
    attempts N m {ω | draw w n (List.ofFn ω) = .ok l} =
      (∑ k : Fin n → Fin N, if l.Pairwise (· ≤ ·) ∧ List.Perm (List.ofFn k) l then ∏ j, ENNReal.ofReal (weight w (k j)) else 0) * attempts N m {ω | ∃ l, draw w n (List.ofFn ω) = .ok l} := by
  have hsort : ∀ k : List (Fin N), (k.mergeSort (fun a b => decide (a ≤ b)) = l) ↔ (l.Pairwise (· ≤ ·) ∧ List.Perm k l) := by
    intro k
    constructor
    · intro h
      subst h
      refine ⟨?_, (List.mergeSort_perm k _).symm⟩
      have := List.pairwise_mergeSort (le := fun a b : Fin N => decide (a ≤ b)) (by intro a b c h1 h2; simp at *; exact h1.trans h2) (by intro a b; simp; exact le_total a b) k
      simpa using this
    · rintro ⟨h1, h2⟩
      refine List.Perm.eq_of_pairwise (le := (· ≤ ·)) (fun a b _ _ h1 h2 => le_antisymm h1 h2) ?_ h1 ((List.mergeSort_perm k _).trans h2)
      have := List.pairwise_mergeSort (le := fun a b : Fin N => decide (a ≤ b)) (by intro a b c h1 h2; simp at *; exact h1.trans h2) (by intro a b; simp; exact le_total a b) k
      simpa using this
  have es : {ω : Fin m → Fin N × ℝ | ∃ l, draw w n (List.ofFn ω) = .ok l} = {ω | ∃ l, chosen w n (List.ofFn ω) = .ok l} := by
    ext ω
    simp only [Set.mem_ofPred_eq, draw]
    cases chosen w n (List.ofFn ω) with
    | error e => simp [Except.map]
    | ok k => simp [Except.map]
  have ed : {ω : Fin m → Fin N × ℝ | draw w n (List.ofFn ω) = .ok l} =
      ⋃ k ∈ Finset.univ.filter (fun k : Fin n → Fin N => l.Pairwise (· ≤ ·) ∧ List.Perm (List.ofFn k) l), {ω | chosen w n (List.ofFn ω) = .ok (List.ofFn k)} := by
    ext ω
    simp only [Set.mem_ofPred_eq, Set.mem_iUnion, Finset.mem_filter, Finset.mem_univ, true_and, exists_prop, draw]
    constructor
    · intro h
      cases e : chosen w n (List.ofFn ω) with
      | error e' => rw [e] at h; cases h
      | ok k =>
        rw [e] at h
        have hl : k.length = n := by
          rw [chosen_hits] at e
          by_cases hh : n < (hits fun i => out w (ω i)).length
          · rw [if_pos hh] at e
            cases e
            rw [List.length_take]; omega
          · rw [if_neg hh] at e; cases e
        subst hl
        refine ⟨k.get, ?_, ?_⟩
        · rw [List.ofFn_get]
          exact (hsort k).1 (by simpa [Except.map] using h)
        · rw [List.ofFn_get]
    · rintro ⟨k, h1, h2⟩
      rw [h2]
      simp only [Except.map]
      rw [(hsort _).2 h1]
  rw [ed, measure_biUnion_finset, es]
  · rw [Finset.sum_filter, Finset.sum_mul]
    refine Finset.sum_congr rfl fun k _ => ?_
    by_cases h : l.Pairwise (· ≤ ·) ∧ List.Perm (List.ofFn k) l
    · rw [if_pos h, if_pos h, C160_law w hw hs n m _ (by simp), List.map_ofFn, List.prod_ofFn]
      rfl
    · rw [if_neg h, if_neg h, zero_mul]
  · intro s _ t _ hst
    rw [Function.onFun, Set.disjoint_left]
    intro ω h1 h2
    apply hst
    simp only [Set.mem_ofPred_eq] at h1 h2
    rw [h1] at h2
    exact List.ofFn_injective (by simpa using h2)
  · intro s _
    have e1 : {ω : Fin m → Fin N × ℝ | chosen w n (List.ofFn ω) = .ok (List.ofFn s)} = ⋃ p ∈ Finset.univ.filter (fun p : Fin m → Option (Fin N) => n < (hits p).length ∧ (hits p).take n = List.ofFn s),
        Set.univ.pi fun i => yields w (p i) := by
      ext ω
      simp only [Set.mem_ofPred_eq, Set.mem_iUnion, Finset.mem_filter, Finset.mem_univ, true_and, Set.mem_pi, Set.mem_univ, forall_true_left, exists_prop, yields]
      rw [chosen_hits]
      constructor
      · intro h
        refine ⟨_, ?_, fun i => rfl⟩
        by_cases hh : n < (hits fun i => out w (ω i)).length
        · rw [if_pos hh] at h; exact ⟨hh, by simpa using h⟩
        · rw [if_neg hh] at h; cases h
      · rintro ⟨p, hp, h⟩
        have : (fun i => out w (ω i)) = p := funext h
        rw [this, if_pos hp.1, hp.2]
    rw [e1]
    exact Finset.measurableSet_biUnion _ fun p _ => MeasurableSet.univ_pi fun i => measurable_yields w (p i)

/-- **C160**: what a successful draw returns: exactly `n` grid points, sorted, each of positive weight and each drawn by an accepted attempt; the points are the entries of `gamma` at the returned
indices, for a curve and for a surface. -/
theorem C160_output [NeZero N] {P : Type} (w : Fin N → ℝ) (gamma : Fin N → P) (n : ℕ) (att : List (Fin N × ℝ)) (hu : ∀ a ∈ att, 0 ≤ a.2) (hs : 0 < ∑ k, w k) (pts : List P) (idxs : List (Fin N))
    (h : drawCurve w gamma n att = .ok (pts, idxs)) : idxs.length = n ∧ idxs.Pairwise (· ≤ ·) ∧ (∀ k ∈ idxs, 0 < w k) ∧ pts = idxs.map gamma := by
  have hM := maximum_pos w hs
  unfold drawCurve draw chosen at h
  by_cases hh : n < (att.filter (accepts w)).length
  · rw [if_pos hh] at h
    simp only [Except.map, bind, Except.bind, pure, Except.pure, Except.ok.injEq, Prod.mk.injEq] at h
    obtain ⟨rfl, rfl⟩ := h
    refine ⟨?_, ?_, ?_, rfl⟩
    · rw [List.length_mergeSort, List.length_map, List.length_take]; omega
    · have := List.pairwise_mergeSort (le := fun a b : Fin N => decide (a ≤ b)) (by intro a b c h1 h2; simp at *; exact h1.trans h2) (by intro a b; simp; exact le_total a b)
        (((att.filter (accepts w)).take n).map Prod.fst)
      simpa using this
    · intro k hk
      rw [List.mem_mergeSort, List.mem_map] at hk
      obtain ⟨a, ha, rfl⟩ := hk
      have ha' := List.mem_filter.1 (List.mem_of_mem_take ha)
      have h1 : a.2 < w a.1 / maximum w := by simpa [accepts] using ha'.2
      have h2 := hu a ha'.1
      by_contra hc
      have : w a.1 / maximum w ≤ 0 := div_nonpos_of_nonpos_of_nonneg (not_lt.1 hc) hM.le
      linarith
  · rw [if_neg hh] at h
    cases h

/-- **C160**: the same for a surface: the pair of index lists is the flattened index split in C order, and the points are `gamma` at these pairs. -/
theorem C160_surface {np nt : ℕ} [NeZero (np * nt)] {P : Type} (norm : Fin np → Fin nt → ℝ) (gamma : Fin np → Fin nt → P) (n : ℕ) (att : List (Fin (np * nt) × ℝ)) (hu : ∀ a ∈ att, 0 ≤ a.2)
    (hs : 0 < ∑ i, ∑ j, norm i j) (pts : List P) (is : List (Fin np)) (js : List (Fin nt)) (h : drawSurface norm gamma n att = .ok (pts, is, js)) :
    is.length = n ∧ js.length = n ∧ pts = List.zipWith gamma is js ∧ (∀ q ∈ List.zip is js, 0 < norm q.1 q.2) ∧ (List.zip is js).Pairwise (fun a b => a.1 < b.1 ∨ (a.1 = b.1 ∧ a.2 ≤ b.2)) := by
  have hs' : 0 < ∑ k : Fin (np * nt), norm k.divNat k.modNat := by
    rw [← finProdFinEquiv.sum_comp, Fintype.sum_prod_type]
    refine lt_of_lt_of_eq hs (Finset.sum_congr rfl fun i _ => Finset.sum_congr rfl fun j _ => ?_)
    have := finProdFinEquiv.symm_apply_apply (i, j)
    rw [finProdFinEquiv_symm_apply, Prod.mk.injEq] at this
    rw [this.1, this.2]
  unfold drawSurface at h
  cases e : draw (fun k : Fin (np * nt) => norm k.divNat k.modNat) n att with
  | error x => rw [e] at h; cases h
  | ok idxs =>
    rw [e] at h
    have hc : drawCurve (fun k : Fin (np * nt) => norm k.divNat k.modNat) id n att = .ok (idxs, idxs) := by
      unfold drawCurve; rw [e]; simp [bind, Except.bind, pure, Except.pure]
    obtain ⟨h1, h2, h3, -⟩ := C160_output _ _ n att hu hs' _ _ hc
    simp only [bind, Except.bind, pure, Except.pure, Except.ok.injEq, Prod.mk.injEq] at h
    obtain ⟨rfl, rfl, rfl⟩ := h
    have hz : List.zip (idxs.map Fin.divNat) (idxs.map Fin.modNat) = idxs.map fun k : Fin (np * nt) => (k.divNat, k.modNat) := by
      rw [List.zip_map', ]
    refine ⟨by rw [List.length_map, h1], by rw [List.length_map, h1], ?_, ?_, ?_⟩
    · rw [List.zipWith_map, List.zipWith_self]
    · rw [hz]
      intro q hq
      obtain ⟨k, hk, rfl⟩ := List.mem_map.1 hq
      exact h3 k hk
    · rw [hz, List.pairwise_map]
      refine h2.imp ?_
      intro a b hab
      have hab' : (a : ℕ) ≤ b := hab
      have hd : (a : ℕ) / nt ≤ (b : ℕ) / nt := Nat.div_le_div_right hab'
      rcases Nat.lt_or_eq_of_le hd with hlt | heq
      · exact Or.inl hlt
      · refine Or.inr ⟨Fin.ext heq, ?_⟩
        show (a : ℕ) % nt ≤ (b : ℕ) % nt
        have ha := Nat.div_add_mod (a : ℕ) nt
        have hb := Nat.div_add_mod (b : ℕ) nt
        rw [heq] at ha
        omega

/-- **C160**: the probability that an attempt is accepted is the mean weight over the largest weight. -/
theorem C160_acceptance [NeZero N] (w : Fin N → ℝ) (hw : ∀ k, 0 ≤ w k) (hs : 0 < ∑ k, w k) :
    law N {a | accepts w a = true} = ENNReal.ofReal (((∑ k, w k) / N) / maximum w) := by
  have hM := maximum_pos w hs
  have hN : (0 : ℝ) < N := by exact_mod_cast NeZero.pos N
  have e : {a : Fin N × ℝ | accepts w a = true} = ⋃ k ∈ (Finset.univ : Finset (Fin N)), hit w k := by
    ext a
    simp only [hit, Set.mem_ofPred_eq, Set.mem_iUnion, Finset.mem_univ, exists_prop, true_and]
    exact ⟨fun h => ⟨_, h, rfl⟩, fun ⟨_, h, _⟩ => h⟩
  rw [e, measure_biUnion_finset]
  · simp only [law_hit w hw hs]
    rw [← ENNReal.ofReal_sum_of_nonneg (fun j _ => by have := hw j; positivity), ← Finset.sum_div, div_div]
  · intro s _ t _ hst
    rw [Function.onFun, Set.disjoint_left]
    intro ω h1 h2
    exact hst (h1.2.symm.trans h2.2)
  · intro s _
    exact measurable_hit w s

/-- **C160**: a draw of at least one sample succeeds with positive probability, whatever the curve or surface. -/
theorem C160_success [NeZero N] (w : Fin N → ℝ) (hw : ∀ k, 0 ≤ w k) (hs : 0 < ∑ k, w k) (n s : ℕ) (hn : 0 < n) : 0 < attempts N (nattempts n s) {ω | ∃ l, draw w n (List.ofFn ω) = .ok l} := by
  have hM := maximum_pos w hs
  have hN : (0 : ℝ) < N := by exact_mod_cast NeZero.pos N
  obtain ⟨k, -, hk⟩ := Finset.exists_mem_eq_sup' (⟨0, Finset.mem_univ _⟩ : (Finset.univ : Finset (Fin N)).Nonempty) w
  have hk' : w k = maximum w := hk.symm
  have hsub : (Set.univ.pi fun _ : Fin (nattempts n s) => hit w k) ⊆ {ω | ∃ l, draw w n (List.ofFn ω) = .ok l} := by
    intro ω h
    have hall : (List.ofFn ω).filter (accepts w) = List.ofFn ω := by
      rw [List.filter_eq_self]
      intro a ha
      obtain ⟨i, rfl⟩ := List.mem_ofFn.1 ha
      exact (h i (Set.mem_univ i)).1
    simp only [Set.mem_ofPred_eq]
    unfold draw chosen
    rw [hall, if_pos (by rw [List.length_ofFn]; unfold nattempts; omega)]
    exact ⟨_, rfl⟩
  refine lt_of_lt_of_le ?_ (measure_mono hsub)
  rw [attempts, Measure.pi_pi, Finset.prod_const]
  refine ENNReal.pow_pos ?_ _
  rw [law_hit w hw hs, hk', ENNReal.ofReal_pos]
  positivity

/-- **C160** (violated): the draw raises AssertionError when exactly as many attempts are accepted as samples are wanted. -/
theorem C160_exact_violated [NeZero N] (w : Fin N → ℝ) (n : ℕ) (att : List (Fin N × ℝ)) (h : (att.filter (accepts w)).length = n) : draw w n att = .error .assertionError := by
  unfold draw chosen
  rw [if_neg (by omega)]
  rfl

/-- **C160** (violated): the number of attempts does not depend on `safetyfactor`; in particular no draw of zero samples succeeds, whatever the safety factor. -/
theorem C160_safety_violated [NeZero N] (w : Fin N → ℝ) (n a b : ℕ) : nattempts n a = nattempts n b ∧ ∀ att : List (Fin N × ℝ), att.length = nattempts 0 a → draw w 0 att = .error .assertionError := by
  refine ⟨rfl, fun att h => ?_⟩
  have : att = [] := List.eq_nil_of_length_eq_zero (by simpa [nattempts] using h)
  subst this
  exact C160_exact_violated w 0 [] rfl

end Simsopt.Sampling
