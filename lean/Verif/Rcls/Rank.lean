import Verif.Rcls.Wire
import Verif.Rcls.Dual
/-! # C93: when the constraints of a wireframe are independent -/
namespace Simsopt.Rcls
open Matrix Simsopt.Wireframe

variable {μ : Type} [Fintype μ] {g : Grid}

/-- The constraints behind the rows. -/
def kept (g : Grid) (w : Wf) : List Constraint :=
  (g.fresh w).cons.filter fun c => !((true && (g.nodes.filter fun v => decide (g.nodeSum (g.freeSegs (g.fresh w)) v = 0)).any fun v => decide (c.name = .cont (g.node v.1 v.2))) || (true && c.type.isSeg))

theorem matrices_eq (w : Wf) : g.matrices true true w = ((kept g w).map fun c => (c.row, c.const), g.freeSegs (g.fresh w)) := rfl

/-- What a kept constraint can be. -/
theorem kind (h2 : 2 ≤ g.N) (h1 : 1 ≤ g.h) {w : Wf} (hr : g.Reach w) (hu : ∀ c ∈ w.cons, c.type ≠ .other) (c : Constraint) (hc : c ∈ kept g w) :
    (∃ i j, i ≤ g.N ∧ j < g.n ∧ g.hasContinuity i j = true ∧ c.name = .cont (g.node i j) ∧ c.row = contRow (g.connected i j)) ∨ (c.name = .pol ∧ c.row = g.polRow) ∨ (c.name = .tor ∧ c.row = g.torRow) := by
  obtain ⟨⟨hb, -⟩, -, hs⟩ := (hr.inv h2 h1).fresh h2 h1
  obtain ⟨hm, hk⟩ := List.mem_filter.mp hc
  have hseg : c.type.isSeg = false := by
    cases h : c.type.isSeg with
    | false => rfl
    | true => rw [h] at hk; simp at hk
  have hwf := hb.wf c hm
  unfold Grid.WellFormed at hwf
  cases hn : c.name with
  | seg s => rw [hn] at hwf; rw [hwf.1] at hseg; cases hseg
  | impl s => rw [hn] at hwf; rw [hwf.1] at hseg; cases hseg
  | cont v =>
    rw [hn] at hwf
    obtain ⟨-, i, j, hi, hj, hc, hv, hrow, -⟩ := hwf
    exact Or.inl ⟨i, j, hi, hj, hc, by rw [hv], hrow⟩
  | pol => rw [hn] at hwf; exact Or.inr (Or.inl ⟨rfl, hwf.2⟩)
  | tor => rw [hn] at hwf; exact Or.inr (Or.inr ⟨rfl, hwf.2⟩)
  | user s =>
    rw [hn] at hwf
    have hwf' : c.type = .other := hwf
    exact absurd hwf' (hu c ((hs c (by rw [hwf']; decide)).mp hm))

/-- For the constraints of a wireframe without constrained segments: currents that violate just one of them. -/
theorem dual (h2 : 2 ≤ g.N) (h1 : 1 ≤ g.h) {w : Wf} (hr : g.Reach w) (hu : ∀ c ∈ w.cons, c.type ≠ .other) (c : Constraint) (hc : c ∈ kept g w) :
    ∃ y, g.apply c.row y = 1 ∧ ∀ c' ∈ kept g w, c'.name ≠ c.name → g.apply c'.row y = 0 := by
  replace kind := kind h2 h1 hr hu
  have hn0 : (g.n : ℝ) ≠ 0 := by
    have : g.n = 2 * g.h := rfl
    have : g.n ≠ 0 := by omega
    exact_mod_cast this
  have hN0 : (g.N : ℝ) ≠ 0 := by
    have : g.N ≠ 0 := by omega
    exact_mod_cast this
  rcases kind c hc with ⟨a, b, ha, hb', hcc, hname, hrow⟩ | ⟨hname, hrow⟩ | ⟨hname, hrow⟩
  · obtain ⟨y, hy, ht, hp⟩ := Grid.dual_node h2 h1 a b ha hb' hcc
    refine ⟨y, by rw [hrow, hy a ha b hb' hcc]; exact if_pos ⟨rfl, rfl⟩, fun c' hc' hne => ?_⟩
    rcases kind c' hc' with ⟨i, j, hi, hj, hcj, hname', hrow'⟩ | ⟨-, hrow'⟩ | ⟨-, hrow'⟩
    · rw [hrow', hy i hi j hj hcj]
      refine if_neg ?_
      rintro ⟨rfl, rfl⟩
      exact hne (hname'.trans hname.symm)
    · rw [hrow', hp]
    · rw [hrow', ht]
  · obtain ⟨u1, u2, u3⟩ := Grid.uniform_spec h2 h1 0 (1 / (2 * g.N))
    refine ⟨_, by rw [hrow, u3]; field_simp, fun c' hc' hne => ?_⟩
    rcases kind c' hc' with ⟨i, j, hi, hj, hcj, -, hrow'⟩ | ⟨hname', -⟩ | ⟨-, hrow'⟩
    · rw [hrow', u1 i hi j hj hcj]
    · exact absurd (hname'.trans hname.symm) hne
    · rw [hrow', u2, mul_zero]
  · obtain ⟨u1, u2, u3⟩ := Grid.uniform_spec h2 h1 (1 / g.n) 0
    refine ⟨_, by rw [hrow, u2]; field_simp, fun c' hc' hne => ?_⟩
    rcases kind c' hc' with ⟨i, j, hi, hj, hcj, -, hrow'⟩ | ⟨-, hrow'⟩ | ⟨hname', -⟩
    · rw [hrow', u1 i hi j hj hcj]
    · rw [hrow', u3, mul_zero]
    · exact absurd (hname'.trans hname.symm) hne

/-- A row of the reduced matrix, applied to currents on all the segments. -/
theorem row_apply (h2 : 2 ≤ g.N) (h1 : 1 ≤ g.h) {w : Wf} (hr : g.Reach w) (he : ∀ s, s ∉ w.explicit) (i : Fin (g.matrices true true w).1.length) (y : Int → ℝ) :
    ∑ k, consMat (g.matrices true true w) i k * y ((g.matrices true true w).2[k] : Nat) = g.apply (g.matrices true true w).1[i].1 y := by
  rw [Grid.apply, sum_free g (g.fresh w) (fun (s : Nat) => (g.matrices true true w).1[i].1 s * y s) fun s hs hf => absurd (Grid.all_free h2 h1 hr he s hs) hf]
  rfl

/-- **C93** The constraint matrix of a wireframe in which no segment is constrained and the user has added no constraints of his own has independent rows, whether or not the total currents are constrained. -/
theorem C93_independent (h2 : 2 ≤ g.N) (h1 : 1 ≤ g.h) {w : Wf} (hr : g.Reach w) (he : ∀ s, s ∉ w.explicit) (hu : ∀ c ∈ w.cons, c.type ≠ .other) : FullRank (consMat (g.matrices true true w)) := by
  intro z hz
  obtain ⟨⟨hb, -⟩, -, -⟩ := (hr.inv h2 h1).fresh h2 h1
  have key : ∀ y, ∑ i, z i * g.apply (g.matrices true true w).1[i].1 y = 0 := by
    intro y
    have : ∀ i, z i * g.apply (g.matrices true true w).1[i].1 y = ∑ k, z i * consMat (g.matrices true true w) i k * y ((g.matrices true true w).2[k] : Nat) := by
      intro i
      rw [← row_apply h2 h1 hr he i y, Finset.mul_sum]
      exact Finset.sum_congr rfl fun k _ => by ring
    rw [Finset.sum_congr rfl fun i _ => this i, Finset.sum_comm]
    refine Finset.sum_eq_zero fun k _ => ?_
    rw [← Finset.sum_mul, hz k, zero_mul]
  have hlen : (g.matrices true true w).1.length = (kept g w).length := by rw [matrices_eq]; exact List.length_map ..
  have hget : ∀ i : Fin (g.matrices true true w).1.length, (g.matrices true true w).1[i].1 = ((kept g w)[i.1]'(hlen ▸ i.2)).row := by
    intro i
    show ((kept g w).map fun c => (c.row, c.const))[i.1].1 = _
    rw [List.getElem_map]
  have hnd : ((kept g w).map (·.name)).Nodup := hb.nodup.sublist (List.Sublist.map _ List.filter_sublist)
  funext i0
  obtain ⟨y, h1', h0⟩ := dual h2 h1 hr hu ((kept g w)[i0.1]'(hlen ▸ i0.2)) (List.getElem_mem _)
  have := key y
  rw [Finset.sum_eq_single i0] at this
  · rw [hget, h1', mul_one] at this
    exact this
  · intro i _ hi
    rw [hget, h0 _ (List.getElem_mem _), mul_zero]
    intro hne
    apply hi
    have e : ((kept g w).map (·.name))[i.1]'(by rw [List.length_map]; exact hlen ▸ i.2) = ((kept g w).map (·.name))[i0.1]'(by rw [List.length_map]; exact hlen ▸ i0.2) := by
      simpa using hne
    exact Fin.ext ((List.Nodup.getElem_inj_iff hnd).mp e)
  · intro h; exact absurd (Finset.mem_univ _) h

/-- More columns than rows, if the rows are independent and the columns are not. -/
theorem more_columns {π κ : Type} [Fintype π] [Fintype κ] {C : Matrix π κ ℝ} (hC : FullRank C) {y : κ → ℝ} (hy : C *ᵥ y = 0) (h0 : y ≠ 0) : Fintype.card π < Fintype.card κ := by
  have hinj : Function.Injective (Cᵀ.mulVecLin) := by
    rw [← LinearMap.ker_eq_bot, LinearMap.ker_eq_bot']
    intro z hz
    refine hC z fun k => ?_
    have := congrFun hz k
    rw [mulVecLin_apply] at this
    rw [← show (Cᵀ *ᵥ z) k = 0 from this]
    simp only [mulVec, dotProduct, transpose_apply]
    exact Finset.sum_congr rfl fun i _ => mul_comm _ _
  have hle := LinearMap.finrank_le_finrank_of_injective hinj
  rw [Module.finrank_fintype_fun_eq_card, Module.finrank_fintype_fun_eq_card] at hle
  refine lt_of_le_of_ne hle fun heq => h0 ?_
  have hsurj : Function.Surjective (Cᵀ.mulVecLin) := by
    rwa [← LinearMap.injective_iff_surjective_of_finrank_eq_finrank]
    rw [Module.finrank_fintype_fun_eq_card, Module.finrank_fintype_fun_eq_card, heq]
  obtain ⟨z, hz⟩ := hsurj y
  rw [mulVecLin_apply] at hz
  apply sq_zero
  have : z ⬝ᵥ (C *ᵥ y) = 0 := by rw [hy, dotProduct_zero]
  rw [dotProduct_mulVec, ← mulVec_transpose, hz] at this
  exact this

/-- **C93** For such a wireframe `rcls_wireframe` does not raise: there are fewer constraints than segments, and the linear systems have solutions. -/
theorem C93_returns (h2 : 2 ≤ g.N) (h1 : 1 ≤ g.h) {w : Wf} (hr : g.Reach w) (he : ∀ s, s ∉ w.explicit) (hu : ∀ c ∈ w.cons, c.type ≠ .other) (A : μ → Nat → ℝ) (b : μ → ℝ) (W : SegReg) : ∃ o, Returns g A b W w o := by
  have hn : g.n = 2 * g.h := rfl
  have hC := C93_independent h2 h1 hr he hu
  obtain ⟨q, u, v, hs⟩ := C91_exists (freeCols A (g.matrices true true w).2) b (W.free (g.matrices true true w).2) _ (consVec (g.matrices true true w)) hC
  have hlt : (g.matrices true true w).1.length < (g.matrices true true w).2.length := by
    have h0N : 0 < g.N := by omega
    have h0n : 0 < g.n := by omega
    set y := addLoop 1 (g.cell 0 0) fun _ => 0 with hy
    have := more_columns hC (y := fun k => y ((g.matrices true true w).2[k] : Nat)) ?_ ?_
    · simpa using this
    · funext i
      have hra := row_apply h2 h1 hr he i y
      show ∑ k, consMat (g.matrices true true w) i k * y ((g.matrices true true w).2[k] : Nat) = 0
      rw [hra]
      have hmem : (g.matrices true true w).1[i] ∈ (g.matrices true true w).1 := List.getElem_mem _
      obtain ⟨c, hc, hce⟩ := List.mem_map.mp hmem
      have hrow : (g.matrices true true w).1[i].1 = c.row := by rw [← hce]
      rw [hrow]
      rcases kind h2 h1 hr hu c hc with ⟨i, j, hi, hj, hcj, -, e⟩ | ⟨-, e⟩ | ⟨-, e⟩
      · rw [e]; exact Grid.loop_continuous h2 h1 h0N h0n 1 i hi j hj hcj
      · rw [e]; exact (Grid.loop_totals h2 h1 h0N h0n 1).1
      · rw [e]; exact (Grid.loop_totals h2 h1 h0N h0n 1).2
    · intro h0
      obtain ⟨hnd, hrg⟩ := Grid.cell_valid h2 h1 0 0 h0N h0n
      have h1' := (addLoop_vals hnd 1 fun _ => 0).1
      have hrg' := hrg ((g.cell 0 0).tor1, 1) (by simp [Cell.segs])
      have hmem := Grid.all_free h2 h1 hr he (g.cell 0 0).tor1.toNat (by omega)
      obtain ⟨k, hk, hke⟩ := List.mem_iff_getElem.mp hmem
      have := congrFun h0 ⟨k, hk⟩
      have e : (((g.matrices true true w).2[k]'hk : Nat) : Int) = (g.cell 0 0).tor1 := by
        have : (g.matrices true true w).2[k]'hk = (g.cell 0 0).tor1.toNat := hke
        rw [this]; omega
      have this' : y (((g.matrices true true w).2[k]'hk : Nat) : Int) = 0 := this
      rw [e, hy, h1'] at this'
      norm_num at this'
  let x := scatter (g.matrices true true w).2 (answer q u v)
  exact ⟨⟨x, fieldObj g A b x, regObj g W x, fieldObj g A b x + regObj g W x⟩, hlt, q, u, v, hs, rfl, rfl, rfl, rfl⟩

/-- **C92, violated.** With a 2d array as regularization the currents need not minimize the documented objective: for every wireframe without constrained segments that admits zero currents there are a matrix, a target and a 2d
regularization for which `rcls_wireframe` returns, and all that it can return has an objective of at least 2 while zero currents have 1/2. -/
theorem C92_matrix_violated (h2 : 2 ≤ g.N) (h1 : 1 ≤ g.h) {w : Wf} (hr : g.Reach w) (he : ∀ s, s ∉ w.explicit) (hu : ∀ c ∈ w.cons, c.type ≠ .other) (h0 : w.Meets g fun _ => 0) :
    ∃ (A : Unit → Nat → ℝ) (b : Unit → ℝ) (V : Nat → Nat → ℝ), (∃ o, Returns g A b (.mat V) w o) ∧ ∀ o, Returns g A b (.mat V) w o → 2 ≤ o.f ∧ total g A b V (fun _ => 0) = 1 / 2 := by
  have hn : g.n = 2 * g.h := rfl
  have h0N : 0 < g.N := by omega
  have h0n : 0 < g.n := by omega
  obtain ⟨hnd, hrg⟩ := Grid.cell_valid h2 h1 0 0 h0N h0n
  obtain ⟨v1, v2, -⟩ := addLoop_vals hnd 1 fun _ => 0
  have hr1 := hrg ((g.cell 0 0).tor1, 1) (by simp [Cell.segs])
  have hr2 := hrg ((g.cell 0 0).pol2, 1) (by simp [Cell.segs])
  obtain ⟨t, ht⟩ := Int.eq_ofNat_of_zero_le hr1.1
  obtain ⟨s, hs⟩ := Int.eq_ofNat_of_zero_le hr2.1
  have hne : s ≠ t := by
    intro e
    have h3 : (g.cell 0 0).tor1 ≠ (g.cell 0 0).pol2 := (Cell.nodup_iff hnd).1
    have h4 : (g.cell 0 0).tor1 = t := ht
    have h5 : (g.cell 0 0).pol2 = s := hs
    exact h3 (by omega)
  have htm : t ∈ Finset.range g.nSeg := Finset.mem_range.mpr (by have h4 : (g.cell 0 0).tor1 = t := ht; have := hr1.2; simp only at this; omega)
  have hsm : s ∈ Finset.range g.nSeg := Finset.mem_range.mpr (by have h4 : (g.cell 0 0).pol2 = s := hs; have := hr2.2; simp only at this; omega)
  set A : Unit → Nat → ℝ := fun _ k => if k = t then 1 else 0 with hA
  set V : Nat → Nat → ℝ := fun i k => if i = s ∧ k = t then 2 else 0 with hV
  refine ⟨A, fun _ => 1, V, C93_returns h2 h1 hr he hu _ _ _, fun o ho => ?_⟩
  have hsum : ∀ x : Int → ℝ, ∑ k ∈ Finset.range g.nSeg, A () k * x k = x t := by
    intro x
    rw [Finset.sum_eq_single t (fun k _ hk => by rw [hA]; simp [hk]) (fun h => absurd htm h), hA]; simp
  have hVs : ∀ (x : Int → ℝ) (i : Nat), ∑ k ∈ Finset.range g.nSeg, V i k * x k = if i = s then 2 * x t else 0 := by
    intro x i
    by_cases hi : i = s
    · rw [if_pos hi, Finset.sum_eq_single t (fun k _ hk => by rw [hV]; simp [hk]) (fun h => absurd htm h), hV]; simp [hi]
    · rw [if_neg hi]; exact Finset.sum_eq_zero fun k _ => by rw [hV]; simp [hi]
  have hVt : ∀ x : Int → ℝ, total g A (fun _ => 1) V x = 1 / 2 * ((x t - 1) ^ 2 + (2 * x t) ^ 2) := by
    intro x
    rw [total]
    congr 1
    rw [Finset.sum_eq_single s (fun i _ hi => by rw [hVs, if_neg hi]; ring) (fun h => absurd hsm h), hVs, if_pos rfl]
    congr 1
    have : ∑ i : Unit, (∑ k ∈ Finset.range g.nSeg, A i k * x k - 1) ^ 2 = (∑ k ∈ Finset.range g.nSeg, A () k * x k - 1) ^ 2 := by simp
    rw [this, hsum]
  obtain ⟨-, hf, -, hmin⟩ := C92_diagonal h2 h1 hr A (fun _ => 1) (.mat V) o ho
  have hdiag : (SegReg.mat V).diag = fun _ => 0 := by
    funext i
    show V i i = 0
    rw [hV]
    exact if_neg fun h => hne (h.1.symm.trans h.2)
  have hD : ∀ x : Int → ℝ, total g A (fun _ => 1) (fun i k => if i = k then (SegReg.mat V).diag i else 0) x = 1 / 2 * (x t - 1) ^ 2 := by
    intro x
    rw [total, hdiag]
    have : ∑ i : Unit, (∑ k ∈ Finset.range g.nSeg, A i k * x k - 1) ^ 2 = (∑ k ∈ Finset.range g.nSeg, A () k * x k - 1) ^ 2 := by simp
    rw [this, hsum]
    simp
  have hloop : w.Meets g (addLoop 1 (g.cell 0 0) fun _ => 0) := by
    intro c hc ht
    rw [← h0 c hc ht]
    have hwf := (hr.inv h2 h1).1.wf c hc
    have hz : ∀ r, g.apply r (fun _ => 0) = 0 := fun r => by simp [Grid.apply]
    unfold Grid.WellFormed at hwf
    cases hn : c.name with
    | seg i =>
      exact absurd (((hr.inv h2 h1).1.explicit i).mpr (by rw [Wf.has_iff]; exact ⟨c, hc, hn⟩)) (he i)
    | impl i => rw [hn] at hwf; exact absurd hwf.1 ht
    | cont v =>
      rw [hn] at hwf
      obtain ⟨-, i, j, hi, hj, hcj, -, e, -⟩ := hwf
      rw [e, hz]; exact Grid.loop_continuous h2 h1 h0N h0n 1 i hi j hj hcj
    | pol => rw [hn] at hwf; rw [hwf.2, hz]; exact (Grid.loop_totals h2 h1 h0N h0n 1).1
    | tor => rw [hn] at hwf; rw [hwf.2, hz]; exact (Grid.loop_totals h2 h1 h0N h0n 1).2
    | user i => rw [hn] at hwf; exact absurd hwf (hu c hc)
  have h3 := (hmin _ hloop).1
  rw [hD, hD] at h3
  have h4 : addLoop 1 (g.cell 0 0) (fun _ => 0) (t : Int) = 1 := by
    have : (g.cell 0 0).tor1 = (t : Int) := ht
    rw [← this, v1]; norm_num
  rw [h4] at h3
  have hx1 : o.x t = 1 := by nlinarith
  refine ⟨?_, by rw [hVt]; norm_num⟩
  rw [hf]
  show 2 ≤ total g A (fun _ => 1) V o.x
  rw [hVt, hx1]; norm_num

/-- The constructor's wireframe meets the hypotheses. -/
example : ∃ (A : Unit → Nat → ℝ) (b : Unit → ℝ) (V : Nat → Nat → ℝ), (∃ o, Returns ⟨2, 2⟩ A b (.mat V) (Grid.init ⟨2, 2⟩) o) ∧ ∀ o, Returns ⟨2, 2⟩ A b (.mat V) (Grid.init ⟨2, 2⟩) o → 2 ≤ o.f ∧ total ⟨2, 2⟩ A b V (fun _ => 0) = 1 / 2 := by
  have h2 : 2 ≤ (Grid.mk 2 2).N := by decide
  have h1 : 1 ≤ (Grid.mk 2 2).h := by decide
  have hb := (Grid.Reach.init (g := ⟨2, 2⟩)).inv h2 h1
  refine C92_matrix_violated h2 h1 Grid.Reach.init (Grid.init_explicit h2 h1) (fun c hc => ?_) (fun c hc _ => ?_)
  · rw [init_spec.2] at hc
    obtain ⟨v, -, rfl⟩ := List.mem_map.mp hc
    simp [Grid.contConstraint]
  · rw [init_spec.2] at hc
    obtain ⟨v, -, rfl⟩ := List.mem_map.mp hc
    simp [Grid.contConstraint, Grid.apply]

end Simsopt.Rcls
