import Verif.Adjoint.Metrics
/-!
# Adjoint metrics: theorems (C189)
-/
namespace Simsopt.Adjoint
open Simsopt
open Simsopt.Geometry (inner)
open Simsopt.Coils

variable {Rest P : Type}

/-! ### Specification -/

/-- The output that is in memory belongs to the inputs, unless the flag says that VMEC has to run. -/
def Valid (E : Env Rest P) (w : State Rest P) : Prop := w.need = false → setIndata E w.inp = .ok w.inp ∧ ∃ o, E.solve w.inp = some o ∧ w.wout = some o

/-- The midpoints of the `ns - 1` radial cells. -/
noncomputable def mid (ns j : ℕ) : ℝ := ((j : ℝ) + 1 / 2) / ((ns : ℝ) - 1)

/-! ### Running VMEC -/

theorem pad_length (cap : ℕ) (fill : ℝ) (l : List ℝ) : (pad cap fill l).length = cap := by simp [pad]; omega

theorem setIndata_idem (E : Env Rest P) {i j : Inp Rest} (h : setIndata E i = .ok j) : setIndata E j = .ok j := by
  unfold setIndata at h
  split at h
  · rename_i hp
    simp [setIndata, hp]
  · rename_i f hp
    split at h <;> rename_i hk
    · cases h
      simp [setIndata, hp, hk, pad_length]
    · cases h
      simp [setIndata, hp, hk, pad_length]
    · cases h
      simp [setIndata, hp, hk, pad_length]
    · cases h

theorem run_ok (E : Env Rest P) {w w1 : State Rest P} (hv : Valid E w) (h : run E w = (w1, .ok ())) :
    w1.need = false ∧ setIndata E w.inp = .ok w1.inp ∧ setIndata E w1.inp = .ok w1.inp ∧ ∃ o, E.solve w1.inp = some o ∧ w1.wout = some o := by
  unfold run at h
  split at h
  · rename_i hn
    have hn : w.need = false := by simpa using hn
    cases h
    exact ⟨hn, (hv hn).1, (hv hn).1, (hv hn).2⟩
  · split at h
    · cases h
    · rename_i i hi
      split at h
      · cases h
      · rename_i o ho
        cases h
        exact ⟨rfl, hi, setIndata_idem E hi, o, ho, rfl⟩

/-- The run of a state that has to be run. -/
theorem run_need (E : Env Rest P) {w : State Rest P} (hn : w.need = true) {i : Inp Rest} (hi : setIndata E w.inp = .ok i) {o : Out P} (ho : E.solve i = some o) :
    run E w = ({ inp := i, need := false, wout := some o }, .ok ()) := by
  simp [run, hn, hi, ho]

theorem shapeGradient_ok (E : Env Rest P) (m : Metric P) (eps : ℝ) {w w' : State Rest P} {G : P → ℝ} (hv : Valid E w) (h : shapeGradient E m eps w = (w', .ok G)) :
    ∃ (i g : Inp Rest) (tot : ℝ) (o o1 : Out P) (B0 B1 : P → V3), setIndata E w.inp = .ok i ∧ setIndata E i = .ok i ∧ E.solve i = some o ∧ o.field = some B0 ∧
      run E w = ({ inp := i, need := false, wout := some o }, .ok ()) ∧
      (newProfile m eps o).length ≤ i.auxF.length ∧ (newProfile m eps o).length ≤ i.auxS.length ∧
      (if m.setsTot then newTot (newProfile m eps o) else .ok i.tot) = .ok tot ∧
      setIndata E { i with auxF := pad i.auxF.length (-1) (newProfile m eps o), auxS := pad i.auxS.length (-1) (sHalf o.ns), tot := tot, kind := m.newKind } = .ok g ∧
      E.solve g = some o1 ∧ o1.field = some B1 ∧
      w' = { inp := { g with auxF := i.auxF, auxS := i.auxS, kind := i.kind, tot := if m.setsTot then i.tot else g.tot }, need := true, wout := some o1 } ∧
      G = fun p => m.finish o o1 (inner (B1 p - B0 p) (B0 p) / eps) := by
  unfold shapeGradient at h
  split at h
  · cases h
  · rename_i w1 hr
    obtain ⟨r1, r2, r3, o, ro, rw⟩ := run_ok E hv hr
    simp only [rw] at h
    split at h
    · cases h
    · rename_i B0 hB
      split at h
      · cases h
      · rename_i tot ht
        split at h
        · cases h
        · rename_i hlen
          split at h
          · cases h
          · rename_i w2 hr2
            have hv2 : ∀ x : State Rest P, x.need = true → Valid E x := fun x hx hc => by rw [hx] at hc; cases hc
            obtain ⟨q1, q2, q3, o1, qo, qw⟩ := run_ok E (hv2 _ rfl) hr2
            simp only [qw] at h
            split at h
            · cases h
            · rename_i B1 hB1
              cases h
              rw [not_or, not_lt, not_lt] at hlen
              obtain ⟨i1, n1, u1⟩ := w1
              obtain ⟨i2, n2, u2⟩ := w2
              simp only at *
              subst r1 rw q1 qw
              exact ⟨i1, i2, tot, o, o1, B0, B1, r2, r3, ro, hB, hr, hlen.1, hlen.2, ht, q2, qo, hB1, rfl, rfl⟩

/-! ### Theorems -/

/-- `J` after a run gives the value at the output for the present inputs, and a second `J` gives it again without running VMEC. -/
theorem evalJ_ok (E : Env Rest P) (m : Metric P) {w : State Rest P} {i : Inp Rest} {o : Out P} (h : run E w = ({ inp := i, need := false, wout := some o }, .ok ())) :
    evalJ E m w = ({ inp := i, need := false, wout := some o }, .ok (m.value o)) := by
  simp [evalJ, h]

/-- **C189**: after a `shape_gradient` (or `dJ`) that returns, the inputs of VMEC are what the first run had made them, VMEC is marked to run again, and `J` gives the value (and leaves the state) that it would have given before: the
perturbed equilibrium is not seen from outside. -/
theorem C189_restored (E : Env Rest P) (m mq : Metric P) (eps : ℝ) {w w' : State Rest P} {G : P → ℝ} (hv : Valid E w) (h : shapeGradient E m eps w = (w', .ok G))
    (hm : (∃ t, m = iotaTarget P t ∨ m = iotaWeighted P t) ∨ ((∃ t u, m = wellWeighted P t u) ∧ ∀ k k' f, E.total k f = E.total k' f)) :
    setIndata E w.inp = .ok w'.inp ∧ w'.need = true ∧ evalJ E mq w' = evalJ E mq w := by
  obtain ⟨i, g, tot, o, o1, B0, B1, h1, h2, h3, h4, h5, h6, h7, h8, h9, h10, h11, h12, h13⟩ := shapeGradient_ok E m eps hv h
  have hi : w'.inp = i := by
    rw [h12]
    simp only
    unfold setIndata at h9
    split at h9
    · cases h9
      rcases hm with ⟨t, rfl | rfl⟩ | ⟨⟨t, u, rfl⟩, -⟩
      · rfl
      · rfl
      · simp [wellWeighted] at h8 ⊢
        rw [← h8]
    · rename_i f hp
      rcases hm with ⟨t, rfl | rfl⟩ | ⟨⟨t, u, rfl⟩, ht⟩
      · simp [iotaTarget] at h9 ⊢
        rw [← h9]
      · simp [iotaWeighted] at h9 ⊢
        rw [← h9]
      · simp [wellWeighted] at h9 ⊢
        rw [← h9]
        simp only
        have hit : E.total .cubicSpline f = i.tot := by
          unfold setIndata at h2
          rw [hp] at h2
          simp only at h2
          split at h2
          · rename_i hk
            have h2 := congrArg Inp.tot (Except.ok.inj h2)
            simp only at h2
            rw [← h2, ht]
          · rename_i hk
            have h2 := congrArg Inp.tot (Except.ok.inj h2)
            simp only at h2
            rw [← h2, ht]
          · rename_i hk
            have h2 := congrArg Inp.tot (Except.ok.inj h2)
            simp only at h2
            rw [← h2, ht]
          · cases h2
        rw [hit]
  have hn : w'.need = true := by rw [h12]
  refine ⟨hi ▸ h1, hn, ?_⟩
  rw [evalJ_ok E mq h5, evalJ_ok E mq (run_need E hn (i := i) (by rw [hi]; exact h2) h3)]

/-- **C189**: without a prescribed current (`ncurr = 1`) the derivatives of the two metrics of the rotational transform are refused, and nothing is run. -/
theorem C189_refused (E : Env Rest P) (t : ℝ → ℝ) (eps : ℝ) (grad : (P → ℝ) → List ℝ) (w : State Rest P) (h : w.inp.ncurr ≠ 1) :
    evalDJ E (iotaTarget P t) eps grad w = (w, .error .runtimeError) ∧ evalDJ E (iotaWeighted P t) eps grad w = (w, .error .runtimeError) := by
  simp [evalDJ, iotaTarget, iotaWeighted, h]

/-! ### The values -/

theorem sHalf_length (ns : ℕ) : (sHalf ns).length = ns - 1 := by simp [sHalf]

theorem sHalf_get (ns j : ℕ) (h : j < ns - 1) : (sHalf ns)[j]? = some (mid ns j) := by
  have hns : (1 : ℝ) < ns := by exact_mod_cast (by omega : 1 < ns)
  have : (ns : ℝ) - 1 ≠ 0 := by linarith
  simp only [sHalf, List.getElem?_map, List.getElem?_range h, Option.map_some, ds, mid]
  congr 1
  field_simp
  ring

/-- The samples on the half grid. -/
theorem sHalf_map (ns : ℕ) (f : ℝ → ℝ) : (sHalf ns).map f = (List.range (ns - 1)).map fun j => f (mid ns j) := by
  apply List.ext_getElem?
  intro j
  by_cases h : j < ns - 1
  · rw [List.getElem?_map, sHalf_get ns j h, List.getElem?_map, List.getElem?_range h]; rfl
  · have h1 : ((sHalf ns).map f)[j]? = none := by rw [List.getElem?_eq_none_iff, List.length_map, sHalf_length]; omega
    have h2 : ((List.range (ns - 1)).map fun j => f (mid ns j))[j]? = none := by rw [List.getElem?_eq_none_iff, List.length_map, List.length_range]; omega
    rw [h1, h2]

theorem drop_map (l : List ℝ) (ns : ℕ) (h : l.length = ns) : l.drop 1 = (List.range (ns - 1)).map fun j => l.getD (j + 1) 0 := by
  apply List.ext_getElem
  · simp [h]
  · intro j h1 h2
    simp only [List.length_drop] at h1
    rw [List.getElem_drop, List.getElem_map, List.getElem_range, List.getD_eq_getElem _ _ (by omega)]
    congr 1
    omega

theorem zip_map (f : ℝ → ℝ → ℝ) (n : ℕ) (a b : ℕ → ℝ) : List.zipWith f ((List.range n).map a) ((List.range n).map b) = (List.range n).map fun j => f (a j) (b j) := by
  rw [List.zipWith_map, List.zipWith_self]

theorem range_sum (n : ℕ) (a : ℕ → ℝ) : ((List.range n).map a).sum = ∑ j ∈ Finset.range n, a j := by
  induction n with
  | zero => simp
  | succ n ih => rw [List.range_succ, List.map_append, List.sum_append, ih, Finset.sum_range_succ]; simp

/-- **C189**: the value of `IotaTargetMetric` is the midpoint rule for half the integral of the squared difference of the rotational transform from its target: it is not negative, zero exactly if all half-grid values agree with the
target, and `c ^ 2 / 2` for a constant difference `c`. -/
theorem C189_target (t : ℝ → ℝ) (o : Out P) (hns : 2 ≤ o.ns) (hl : o.iotas.length = o.ns) :
    (iotaTarget P t).value o = 1 / 2 * ∑ j ∈ Finset.range (o.ns - 1), (o.iotas.getD (j + 1) 0 - t (mid o.ns j)) ^ 2 * (1 / ((o.ns : ℝ) - 1)) ∧
    0 ≤ (iotaTarget P t).value o ∧
    ((iotaTarget P t).value o = 0 ↔ ∀ j < o.ns - 1, o.iotas.getD (j + 1) 0 = t (mid o.ns j)) ∧
    ∀ c, (∀ j < o.ns - 1, o.iotas.getD (j + 1) 0 = t (mid o.ns j) + c) → (iotaTarget P t).value o = c ^ 2 / 2 := by
  have hp : (0 : ℝ) < (o.ns : ℝ) - 1 := by
    have : (2 : ℝ) ≤ o.ns := by exact_mod_cast hns
    linarith
  have hf : (iotaTarget P t).value o = 1 / 2 * ∑ j ∈ Finset.range (o.ns - 1), (o.iotas.getD (j + 1) 0 - t (mid o.ns j)) ^ 2 * (1 / ((o.ns : ℝ) - 1)) := by
    simp only [iotaTarget, sHalf_map, drop_map _ _ hl, zip_map, List.map_map, Function.comp_def, range_sum, ds, ← Finset.sum_mul]
    norm_num
    ring
  refine ⟨hf, ?_, ?_, ?_⟩
  · rw [hf]
    exact mul_nonneg (by norm_num) (Finset.sum_nonneg fun j _ => by positivity)
  · rw [hf, mul_eq_zero, or_iff_right (by norm_num), Finset.sum_eq_zero_iff_of_nonneg (fun j _ => by positivity)]
    simp only [Finset.mem_range]
    refine forall₂_congr fun j _ => ?_
    rw [mul_eq_zero, or_iff_left (by positivity), pow_eq_zero_iff (by norm_num), sub_eq_zero]
  · intro c hc
    rw [hf, Finset.sum_congr rfl (fun j hj => by rw [hc j (Finset.mem_range.mp hj), add_sub_cancel_left]), Finset.sum_const, Finset.card_range, nsmul_eq_mul]
    rw [Nat.cast_sub (by omega), Nat.cast_one]
    field_simp

/-- **C189**: the value of `IotaWeighted` is the weighted mean of the rotational transform over the half grid: for weights that are not negative and not all zero it lies between any bounds of the rotational transform, a constant rotational
transform is returned, and a factor in the weights does not matter. -/
theorem C189_weighted (wt : ℝ → ℝ) (o : Out P) (hl : o.iotas.length = o.ns) :
    (iotaWeighted P wt).value o = (∑ j ∈ Finset.range (o.ns - 1), wt (mid o.ns j) * o.iotas.getD (j + 1) 0) / ∑ j ∈ Finset.range (o.ns - 1), wt (mid o.ns j) ∧
    ((∀ j < o.ns - 1, 0 ≤ wt (mid o.ns j)) → (∃ j < o.ns - 1, 0 < wt (mid o.ns j)) → ∀ a b, (∀ j < o.ns - 1, a ≤ o.iotas.getD (j + 1) 0 ∧ o.iotas.getD (j + 1) 0 ≤ b) →
      a ≤ (iotaWeighted P wt).value o ∧ (iotaWeighted P wt).value o ≤ b) ∧
    ∀ c, c ≠ 0 → (iotaWeighted P fun s => c * wt s).value o = (iotaWeighted P wt).value o := by
  have hf : ∀ wt : ℝ → ℝ, (iotaWeighted P wt).value o = (∑ j ∈ Finset.range (o.ns - 1), wt (mid o.ns j) * o.iotas.getD (j + 1) 0) / ∑ j ∈ Finset.range (o.ns - 1), wt (mid o.ns j) := by
    intro wt
    simp only [iotaWeighted, sHalf_map, drop_map _ _ hl, zip_map, range_sum]
  refine ⟨hf wt, ?_, ?_⟩
  · intro h0 ⟨k, hk, hk0⟩ a b hab
    have hpos : 0 < ∑ j ∈ Finset.range (o.ns - 1), wt (mid o.ns j) :=
      lt_of_lt_of_le hk0 (Finset.single_le_sum (f := fun j => wt (mid o.ns j)) (fun j hj => h0 j (Finset.mem_range.mp hj)) (Finset.mem_range.mpr hk))
    rw [hf, le_div_iff₀ hpos, div_le_iff₀ hpos, Finset.mul_sum, Finset.mul_sum]
    constructor <;> refine Finset.sum_le_sum fun j hj => ?_
    · have := mul_le_mul_of_nonneg_left (hab j (Finset.mem_range.mp hj)).1 (h0 j (Finset.mem_range.mp hj))
      linarith
    · have := mul_le_mul_of_nonneg_left (hab j (Finset.mem_range.mp hj)).2 (h0 j (Finset.mem_range.mp hj))
      linarith
  · intro c hc
    rw [hf, hf]
    simp only [mul_assoc, ← Finset.mul_sum]
    rw [mul_div_mul_left _ _ hc]

theorem well_value (w1 w2 : ℝ → ℝ) (o : Out P) (hl : o.vp.length = o.ns) :
    wellNum w1 w2 o = ∑ j ∈ Finset.range (o.ns - 1), (w1 (mid o.ns j) - w2 (mid o.ns j)) * o.vp.getD (j + 1) 0 ∧
    wellDen w1 w2 o = ∑ j ∈ Finset.range (o.ns - 1), (w1 (mid o.ns j) + w2 (mid o.ns j)) * o.vp.getD (j + 1) 0 := by
  constructor
  · simp only [wellNum, sHalf_map, drop_map _ _ hl, zip_map, range_sum]
  · simp only [wellDen, sHalf_map, drop_map _ _ hl, zip_map, range_sum]

/-- **C189**: the value of `WellWeighted` is the documented quotient; with weights and `V'` that are not negative it lies in `[-1, 1]`; it changes its sign when the two weights are swapped. -/
theorem C189_well (w1 w2 : ℝ → ℝ) (o : Out P) (hl : o.vp.length = o.ns) :
    (wellWeighted P w1 w2).value o = (∑ j ∈ Finset.range (o.ns - 1), (w1 (mid o.ns j) - w2 (mid o.ns j)) * o.vp.getD (j + 1) 0) / (∑ j ∈ Finset.range (o.ns - 1), (w1 (mid o.ns j) + w2 (mid o.ns j)) * o.vp.getD (j + 1) 0) ∧
    ((∀ s, 0 ≤ w1 s ∧ 0 ≤ w2 s) → (∀ j < o.ns - 1, 0 ≤ o.vp.getD (j + 1) 0) → |(wellWeighted P w1 w2).value o| ≤ 1) ∧
    (wellWeighted P w2 w1).value o = -(wellWeighted P w1 w2).value o := by
  have hv : ∀ w1 w2 : ℝ → ℝ, (wellWeighted P w1 w2).value o = wellNum w1 w2 o / wellDen w1 w2 o := fun _ _ => rfl
  refine ⟨by rw [hv, (well_value w1 w2 o hl).1, (well_value w1 w2 o hl).2], ?_, ?_⟩
  · intro h0 h1
    have hd : 0 ≤ wellDen w1 w2 o := by
      rw [(well_value w1 w2 o hl).2]
      exact Finset.sum_nonneg fun j hj => mul_nonneg (add_nonneg (h0 _).1 (h0 _).2) (h1 j (Finset.mem_range.mp hj))
    rw [hv, abs_div, abs_of_nonneg hd]
    refine div_le_one_of_le₀ ?_ hd
    rw [(well_value w1 w2 o hl).1, (well_value w1 w2 o hl).2]
    refine (Finset.abs_sum_le_sum_abs _ _).trans (Finset.sum_le_sum fun j hj => ?_)
    rw [abs_mul, abs_of_nonneg (h1 j (Finset.mem_range.mp hj))]
    refine mul_le_mul_of_nonneg_right ?_ (h1 j (Finset.mem_range.mp hj))
    rw [abs_le]
    constructor <;> linarith [(h0 (mid o.ns j)).1, (h0 (mid o.ns j)).2]
  · rw [hv, hv, (well_value w1 w2 o hl).1, (well_value w1 w2 o hl).2, (well_value w2 w1 o hl).1, (well_value w2 w1 o hl).2, ← neg_div, ← Finset.sum_neg_distrib]
    congr 1
    · exact Finset.sum_congr rfl fun j _ => by ring
    · exact Finset.sum_congr rfl fun j _ => by ring

/-! ### The shape gradient -/

theorem pad_get (cap : ℕ) (fill : ℝ) (l : List ℝ) (h : l.length ≤ cap) (j : ℕ) : (pad cap fill l)[j]? = if j < l.length then l[j]? else if j < cap then some fill else none := by
  unfold pad
  rw [List.take_of_length_le (by simp; omega)]
  split
  · rename_i hj
    rw [List.getElem?_append_left hj]
  · rename_i hj
    rw [List.getElem?_append_right (by omega), List.getElem?_replicate]
    split <;> split <;> first | rfl | omega

theorem inner_smul_left (e : ℝ) (a b : V3) : inner (e • a) b = e * inner a b := by
  simp only [inner, Prod.smul_fst, Prod.smul_snd, smul_eq_mul]; ring

/-- The inputs of the second run: those of the first one, with another profile. -/
structure Perturbed (i g : Inp Rest) (grid values : ℕ → ℝ) (n : ℕ) (kind : Kind) : Prop where
  rest : g.rest = i.rest ∧ g.ncurr = i.ncurr ∧ g.coef = i.coef
  kind : g.kind = kind
  length : g.auxF.length = i.auxF.length ∧ g.auxS.length = i.auxS.length
  values : ∀ j < n, g.auxF[j]? = some (values j) ∧ g.auxS[j]? = some (grid j)
  tailF : ∀ j, n ≤ j → j < i.auxF.length → g.auxF[j]? = some (-1)
  tailS : ∀ j, n ≤ j → j < i.auxS.length → g.auxS[j]? = some (-1)

theorem perturbed_of (i : Inp Rest) (new : List ℝ) (v : ℕ → ℝ) (ns : ℕ) (tot : ℝ) (kind : Kind) (hnew : new = (List.range (ns - 1)).map v) (h1 : new.length ≤ i.auxF.length) (h2 : new.length ≤ i.auxS.length) :
    Perturbed i { i with auxF := pad i.auxF.length (-1) new, auxS := pad i.auxS.length (-1) (sHalf ns), tot := tot, kind := kind } (mid ns) v (ns - 1) kind := by
  have hl : new.length = ns - 1 := by rw [hnew]; simp
  have hs : (sHalf ns).length = ns - 1 := sHalf_length ns
  refine ⟨⟨rfl, rfl, rfl⟩, rfl, ⟨pad_length _ _ _, pad_length _ _ _⟩, ?_, ?_, ?_⟩
  · intro j hj
    constructor
    · rw [pad_get _ _ _ h1, if_pos (by omega), hnew, List.getElem?_map, List.getElem?_range hj]; rfl
    · rw [pad_get _ _ _ (by omega), if_pos (by omega), sHalf_get ns j hj]
  · intro j hj hj2
    rw [pad_get _ _ _ h1, if_neg (by omega), if_pos hj2]
  · intro j hj hj2
    rw [pad_get _ _ _ (by omega), if_neg (by omega), if_pos hj2]

theorem base_map (o : Out P) (hb : o.bsubu.length = o.ns) : itHalf o = (List.range (o.ns - 1)).map fun j => o.signgs * (2 * Real.pi) * o.bsubu.getD (j + 1) 0 / mu0 := by
  rw [itHalf, drop_map _ _ hb, List.map_map]; rfl

/-- The result of `shape_gradient` without a profile object, for any of the metrics: the difference quotient of the field between the two runs. -/
theorem gradient_of (E : Env Rest P) (m : Metric P) (eps : ℝ) {w w' : State Rest P} {G : P → ℝ} (hp : E.profile = none) (hv : Valid E w) (h : shapeGradient E m eps w = (w', .ok G)) :
    ∃ (o o1 : Out P) (B0 B1 : P → V3) (g : Inp Rest), E.solve w.inp = some o ∧ o.field = some B0 ∧
      (∀ v, newProfile m eps o = (List.range (o.ns - 1)).map v → Perturbed w.inp g (mid o.ns) v (o.ns - 1) m.newKind) ∧
      (if m.setsTot then newTot (newProfile m eps o) else .ok w.inp.tot) = .ok g.tot ∧
      E.solve g = some o1 ∧ o1.field = some B1 ∧ ∀ p, G p = m.finish o o1 (inner (B1 p - B0 p) (B0 p) / eps) := by
  obtain ⟨i, g, tot, o, o1, B0, B1, h1, h2, h3, h4, h5, h6, h7, h8, h9, h10, h11, h12, h13⟩ := shapeGradient_ok E m eps hv h
  have hi : i = w.inp := by simp [setIndata, hp] at h1; exact h1.symm
  subst hi
  simp only [setIndata, hp, Except.ok.injEq] at h9
  refine ⟨o, o1, B0, B1, g, h3, h4, ?_, ?_, h10, h11, fun p => by rw [h13]⟩
  · intro v hv
    rw [← h9]
    exact perturbed_of _ _ v _ _ _ hv h6 h7
  · rw [h8, ← h9]

/-- **C189**: without a profile object, the shape gradient of `IotaTargetMetric` is `delta B . B / (2 pi mu0)`, `delta B` the change of the field per unit of `adjoint_epsilon` between VMEC at the given inputs and VMEC at the inputs with the
toroidal current `I(s) + epsilon (iota - target) 2 pi / psi` (given at the half grid, its edge value extrapolated linearly), everything else unchanged. -/
theorem C189_gradient_target (E : Env Rest P) (t : ℝ → ℝ) (eps : ℝ) {w w' : State Rest P} {G : P → ℝ} (hp : E.profile = none) (hv : Valid E w)
    (h : shapeGradient E (iotaTarget P t) eps w = (w', .ok G)) (hwf : ∀ i o, E.solve i = some o → o.iotas.length = o.ns ∧ o.bsubu.length = o.ns) :
    ∃ (o o1 : Out P) (B0 B1 : P → V3) (g : Inp Rest), E.solve w.inp = some o ∧ o.field = some B0 ∧ 3 ≤ o.ns ∧
      Perturbed w.inp g (mid o.ns) (fun j => o.signgs * (2 * Real.pi) * o.bsubu.getD (j + 1) 0 / mu0 + eps * ((o.iotas.getD (j + 1) 0 - t (mid o.ns j)) / (o.phiEdge * o.signgs / (2 * Real.pi)))) (o.ns - 1) .lineSegmentI ∧
      (∀ a b, g.auxF[o.ns - 2]? = some a → g.auxF[o.ns - 3]? = some b → g.tot = a + (a - b) / 2) ∧
      E.solve g = some o1 ∧ o1.field = some B1 ∧
      (∀ p, G p = inner (B1 p - B0 p) (B0 p) / eps / (2 * Real.pi * mu0)) ∧
      ∀ dB : P → V3, eps ≠ 0 → (∀ p, B1 p = B0 p + eps • dB p) → ∀ p, G p = inner (dB p) (B0 p) / (2 * Real.pi * mu0) := by
  obtain ⟨o, o1, B0, B1, g, h1, h2, h3, h4, h5, h6, h7⟩ := gradient_of E _ eps hp hv h
  obtain ⟨hi, hb⟩ := hwf _ _ h1
  have hnew : newProfile (iotaTarget P t) eps o = (List.range (o.ns - 1)).map fun j => o.signgs * (2 * Real.pi) * o.bsubu.getD (j + 1) 0 / mu0 + eps * ((o.iotas.getD (j + 1) 0 - t (mid o.ns j)) / (o.phiEdge * o.signgs / (2 * Real.pi))) := by
    simp only [newProfile, iotaTarget, base_map o hb, sHalf_map, drop_map _ _ hi, zip_map, List.map_map, Function.comp_def]
  have hP := h3 _ hnew
  have ht : newTot (newProfile (iotaTarget P t) eps o) = .ok g.tot := by
    have h4 := h4
    simp only [iotaTarget] at h4 ⊢
    simpa using h4
  have hns : 3 ≤ o.ns := by
    rw [hnew] at ht
    by_contra hc
    have : o.ns - 1 = 0 ∨ o.ns - 1 = 1 := by omega
    rcases this with hz | hz <;> rw [hz] at ht <;> simp [newTot] at ht
  refine ⟨o, o1, B0, B1, g, h1, h2, hns, hP, ?_, h5, h6, fun p => h7 p, ?_⟩
  · intro a b ha hb
    rw [(hP.values (o.ns - 2) (by omega)).1, Option.some.injEq] at ha
    rw [(hP.values (o.ns - 3) (by omega)).1, Option.some.injEq] at hb
    subst ha hb
    rw [hnew] at ht
    obtain ⟨k, hk⟩ : ∃ k, o.ns = k + 3 := ⟨o.ns - 3, by omega⟩
    rw [hk] at ht ⊢
    rw [show k + 3 - 1 = k + 1 + 1 from rfl, List.range_succ, List.range_succ] at ht
    simp only [List.map_append, List.map_cons, List.map_nil, List.reverse_append, List.reverse_cons, List.reverse_nil, List.nil_append, List.singleton_append, newTot, List.cons_append, Except.ok.injEq] at ht
    rw [← ht, show k + 3 - 2 = k + 1 from rfl, show k + 3 - 3 = k from rfl]
    ring
  · intro dB he hd p
    rw [h7 p]
    simp only [iotaTarget]
    rw [hd p, add_sub_cancel_left, inner_smul_left, mul_div_cancel_left₀ _ he]

/-- **C189**: the same for `IotaWeighted` (perturbation: the weight function) … -/
theorem C189_gradient_weighted (E : Env Rest P) (wt : ℝ → ℝ) (eps : ℝ) {w w' : State Rest P} {G : P → ℝ} (hp : E.profile = none) (hv : Valid E w)
    (h : shapeGradient E (iotaWeighted P wt) eps w = (w', .ok G)) (hwf : ∀ i o, E.solve i = some o → o.bsubu.length = o.ns) :
    ∃ (o o1 : Out P) (B0 B1 : P → V3) (g : Inp Rest), E.solve w.inp = some o ∧ o.field = some B0 ∧
      Perturbed w.inp g (mid o.ns) (fun j => o.signgs * (2 * Real.pi) * o.bsubu.getD (j + 1) 0 / mu0 + eps * wt (mid o.ns j)) (o.ns - 1) .lineSegmentI ∧
      E.solve g = some o1 ∧ o1.field = some B1 ∧
      (∀ p, G p = inner (B1 p - B0 p) (B0 p) / eps / (mu0 * (1 / ((o1.ns : ℝ) - 1)) * o1.phiEdge * o1.signgs * ∑ j ∈ Finset.range (o1.ns - 1), wt (mid o1.ns j))) ∧
      ∀ dB : P → V3, eps ≠ 0 → (∀ p, B1 p = B0 p + eps • dB p) → ∀ p, G p = inner (dB p) (B0 p) / (mu0 * (1 / ((o1.ns : ℝ) - 1)) * o1.phiEdge * o1.signgs * ∑ j ∈ Finset.range (o1.ns - 1), wt (mid o1.ns j)) := by
  obtain ⟨o, o1, B0, B1, g, h1, h2, h3, h4, h5, h6, h7⟩ := gradient_of E _ eps hp hv h
  have hb := hwf _ _ h1
  have hnew : newProfile (iotaWeighted P wt) eps o = (List.range (o.ns - 1)).map fun j => o.signgs * (2 * Real.pi) * o.bsubu.getD (j + 1) 0 / mu0 + eps * wt (mid o.ns j) := by
    simp only [newProfile, iotaWeighted, base_map o hb, sHalf_map, zip_map]
  have hG : ∀ p, G p = inner (B1 p - B0 p) (B0 p) / eps / (mu0 * (1 / ((o1.ns : ℝ) - 1)) * o1.phiEdge * o1.signgs * ∑ j ∈ Finset.range (o1.ns - 1), wt (mid o1.ns j)) := by
    intro p
    rw [h7 p]
    simp only [iotaWeighted, ds, sHalf_map, range_sum]
  refine ⟨o, o1, B0, B1, g, h1, h2, h3 _ hnew, h5, h6, hG, ?_⟩
  intro dB he hd p
  rw [hG p, hd p, add_sub_cancel_left, inner_smul_left, mul_div_cancel_left₀ _ he]

/-- **C189**: … and for `WellWeighted` (perturbation of the pressure: `(w1 - w2 - J (w1 + w2)) / (4 pi^2 ds sum (w1 + w2) V')`, whose edge value is added to `delta B . B / mu0`). -/
theorem C189_gradient_well (E : Env Rest P) (u1 u2 : ℝ → ℝ) (eps : ℝ) {w w' : State Rest P} {G : P → ℝ} (hp : E.profile = none) (hv : Valid E w)
    (h : shapeGradient E (wellWeighted P u1 u2) eps w = (w', .ok G)) (hwf : ∀ i o, E.solve i = some o → o.pres.length = o.ns ∧ o.vp.length = o.ns ∧ 2 ≤ o.ns) :
    ∃ (o o1 : Out P) (B0 B1 : P → V3) (g : Inp Rest) (pert : ℝ → ℝ), E.solve w.inp = some o ∧ o.field = some B0 ∧
      (∀ s, pert s = (u1 s - u2 s - (wellWeighted P u1 u2).value o * (u1 s + u2 s)) / ((∑ j ∈ Finset.range (o.ns - 1), (u1 (mid o.ns j) + u2 (mid o.ns j)) * o.vp.getD (j + 1) 0) * (1 / ((o.ns : ℝ) - 1)) * (4 * Real.pi ^ 2))) ∧
      Perturbed w.inp g (mid o.ns) (fun j => o.pres.getD (j + 1) 0 + eps * pert (mid o.ns j)) (o.ns - 1) .cubicSpline ∧ g.tot = w.inp.tot ∧
      E.solve g = some o1 ∧ o1.field = some B1 ∧
      (∀ p, G p = inner (B1 p - B0 p) (B0 p) / eps / mu0 + pert (mid o.ns (o.ns - 2))) ∧
      ∀ dB : P → V3, eps ≠ 0 → (∀ p, B1 p = B0 p + eps • dB p) → ∀ p, G p = inner (dB p) (B0 p) / mu0 + pert (mid o.ns (o.ns - 2)) := by
  obtain ⟨o, o1, B0, B1, g, h1, h2, h3, h4, h5, h6, h7⟩ := gradient_of E _ eps hp hv h
  obtain ⟨hpr, hvp, hns⟩ := hwf _ _ h1
  let pert : ℝ → ℝ := fun s => ((u1 s - u2 s) - wellNum u1 u2 o / wellDen u1 u2 o * (u1 s + u2 s)) / (wellDen u1 u2 o * ds o.ns * 4 * Real.pi * Real.pi)
  have hpert : wellPert u1 u2 o = (List.range (o.ns - 1)).map fun j => pert (mid o.ns j) := by
    simp only [wellPert, sHalf_map]; rfl
  have hnew : newProfile (wellWeighted P u1 u2) eps o = (List.range (o.ns - 1)).map fun j => o.pres.getD (j + 1) 0 + eps * pert (mid o.ns j) := by
    have : newProfile (wellWeighted P u1 u2) eps o = List.zipWith (fun b p => b + eps * p) (o.pres.drop 1) (wellPert u1 u2 o) := rfl
    rw [this, hpert, drop_map _ _ hpr, zip_map]
  have hlast : (wellPert u1 u2 o).getLastD 0 = pert (mid o.ns (o.ns - 2)) := by
    obtain ⟨k, hk⟩ : ∃ k, o.ns = k + 2 := ⟨o.ns - 2, by omega⟩
    rw [hpert, hk, show k + 2 - 1 = k + 1 from rfl, List.range_succ, List.map_append]
    simp
  have hG : ∀ p, G p = inner (B1 p - B0 p) (B0 p) / eps / mu0 + pert (mid o.ns (o.ns - 2)) := by
    intro p
    rw [h7 p, ← hlast]
    rfl
  refine ⟨o, o1, B0, B1, g, pert, h1, h2, ?_, h3 _ hnew, ?_, h5, h6, hG, ?_⟩
  · intro s
    have hv : (wellWeighted P u1 u2).value o = wellNum u1 u2 o / wellDen u1 u2 o := rfl
    rw [hv, ← (well_value u1 u2 o hvp).2]
    simp only [pert, ds]
    congr 1
    ring
  · have : (Except.ok w.inp.tot : Except Err ℝ) = .ok g.tot := h4
    exact (Except.ok.inj this).symm
  · intro dB he hd p
    rw [hG p, hd p, add_sub_cancel_left, inner_smul_left, mul_div_cancel_left₀ _ he]

/-! ### Exceptions -/

/-- **C189, violated**: with a profile object for the current, the perturbed current never reaches VMEC: `run()` writes the profile again over the perturbed arrays.  With the type that `shape_gradient` itself sets, both runs get the same
inputs and the result is zero at every point, whatever the target or the weights … -/
theorem C189_profile_violated (E : Env Rest P) (m : Metric P) (t : ℝ → ℝ) (eps : ℝ) {w w' : State Rest P} {G : P → ℝ} (f : ℝ → ℝ) (hp : E.profile = some f) (hv : Valid E w) (hk : w.inp.kind = .lineSegmentI)
    (hm : m = iotaTarget P t ∨ m = iotaWeighted P t) (h : shapeGradient E m eps w = (w', .ok G)) : ∀ p, G p = 0 := by
  obtain ⟨i, g, tot, o, o1, B0, B1, h1, h2, h3, h4, h5, h6, h7, h8, h9, h10, h11, h12, h13⟩ := shapeGradient_ok E m eps hv h
  have hkind : m.newKind = .lineSegmentI := by rcases hm with rfl | rfl <;> rfl
  have hki : i.kind = .lineSegmentI := by
    simp only [setIndata, hp, hk] at h1
    rw [← Except.ok.inj h1]
  have hg : g = i := by
    simp only [setIndata, hp, hkind, Except.ok.injEq, pad_length] at h9
    simp only [setIndata, hp, hki, Except.ok.injEq] at h2
    rw [← h9]
    nth_rw 6 [← h2]
  rw [hg, h3] at h10
  cases Option.some.inj h10
  rw [h4] at h11
  cases Option.some.inj h11
  intro p
  rw [h13]
  show m.finish o o (inner (B0 p - B0 p) (B0 p) / eps) = 0
  have h0 : inner (B0 p - B0 p) (B0 p) / eps = 0 := by rw [sub_self]; simp [inner]
  rw [h0]
  rcases hm with rfl | rfl <;> simp [iotaTarget, iotaWeighted]

/-- **C189, violated**: … and in general the second run gets the profile object's values in place of the perturbed ones, so its inputs depend on neither the target nor `adjoint_epsilon`.  For `WellWeighted` with a pressure profile object
(type `cubic_spline`) the result is the same constant at every point. -/
theorem C189_pressure_violated (E : Env Rest P) (u1 u2 : ℝ → ℝ) (eps : ℝ) {w w' : State Rest P} {G : P → ℝ} (f : ℝ → ℝ) (hp : E.profile = some f) (hv : Valid E w) (hk : w.inp.kind = .cubicSpline)
    (h : shapeGradient E (wellWeighted P u1 u2) eps w = (w', .ok G)) : ∀ p q, G p = G q := by
  obtain ⟨i, g, tot, o, o1, B0, B1, h1, h2, h3, h4, h5, h6, h7, h8, h9, h10, h11, h12, h13⟩ := shapeGradient_ok E _ eps hv h
  have hkind : (wellWeighted P u1 u2).newKind = .cubicSpline := rfl
  have hki : i.kind = .cubicSpline := by
    simp only [setIndata, hp, hk] at h1
    rw [← Except.ok.inj h1]
  have hg : g = i := by
    simp only [setIndata, hp, hkind, Except.ok.injEq, pad_length] at h9
    simp only [setIndata, hp, hki, Except.ok.injEq] at h2
    rw [← h9]
    nth_rw 6 [← h2]
  rw [hg, h3] at h10
  cases Option.some.inj h10
  rw [h4] at h11
  cases Option.some.inj h11
  intro p q
  have h0 : ∀ p, inner (B0 p - B0 p) (B0 p) / eps = 0 := by intro p; rw [sub_self]; simp [inner]
  rw [h13]
  show (wellWeighted P u1 u2).finish o o (inner (B0 p - B0 p) (B0 p) / eps) = (wellWeighted P u1 u2).finish o o (inner (B0 q - B0 q) (B0 q) / eps)
  rw [h0, h0]

/-- **C189, violated**: when VMEC does not converge for the perturbed current, `dJ` raises and the perturbed inputs stay: the profile arrays, the type and the total current are not those of the user.  From then on `J` runs VMEC with them: it
fails again, and at another boundary it is the value for the perturbed current. -/
theorem C189_failure_violated (E : Env Rest P) (t : ℝ → ℝ) (eps : ℝ) (grad : (P → ℝ) → List ℝ) {i : Inp Rest} {o : Out P} {B0 : P → V3} (tot : ℝ) (hp : E.profile = none) (hn : i.ncurr = 1)
    (h0 : E.solve i = some o) (hB : o.field = some B0) (ht : newTot (newProfile (iotaTarget P t) eps o) = .ok tot) (hl : (newProfile (iotaTarget P t) eps o).length ≤ i.auxF.length ∧ (newProfile (iotaTarget P t) eps o).length ≤ i.auxS.length)
    (hf : E.solve { i with auxF := pad i.auxF.length (-1) (newProfile (iotaTarget P t) eps o), auxS := pad i.auxS.length (-1) (sHalf o.ns), tot := tot, kind := .lineSegmentI } = none) (w : State Rest P) (hw : w.inp = i ∧ w.need = true) :
    ∃ w', evalDJ E (iotaTarget P t) eps grad w = (w', .error .runtimeError) ∧ w'.inp.kind = .lineSegmentI ∧ w'.inp.tot = tot ∧ w'.inp.auxF = pad i.auxF.length (-1) (newProfile (iotaTarget P t) eps o) ∧
      (∀ m, (evalJ E m w').2 = .error .runtimeError) ∧
      ∀ m r o', E.solve { w'.inp with rest := r } = some o' → (evalJ E m { w' with inp := { w'.inp with rest := r }, need := true }).2 = .ok (m.value o') := by
  obtain ⟨rfl, hw⟩ := hw
  obtain ⟨wi, wn, wo⟩ := w
  simp only at hw
  subst hw
  simp only at *
  have hr : run E { inp := wi, need := true, wout := wo } = ({ inp := wi, need := false, wout := some o }, .ok ()) := by simp [run, setIndata, hp, h0]
  refine ⟨{ inp := { wi with auxF := pad wi.auxF.length (-1) (newProfile (iotaTarget P t) eps o), auxS := pad wi.auxS.length (-1) (sHalf o.ns), tot := tot, kind := .lineSegmentI }, need := true, wout := some o }, ?_, rfl, rfl, rfl, ?_, ?_⟩
  · have hk : (iotaTarget P t).newKind = .lineSegmentI := rfl
    have hs : (iotaTarget P t).setsTot = true := rfl
    have hc : (iotaTarget P t).checks = true := rfl
    have hsg : shapeGradient E (iotaTarget P t) eps { inp := wi, need := true, wout := wo } =
        ({ inp := { wi with auxF := pad wi.auxF.length (-1) (newProfile (iotaTarget P t) eps o), auxS := pad wi.auxS.length (-1) (sHalf o.ns), tot := tot, kind := .lineSegmentI }, need := true, wout := some o }, .error .runtimeError) := by
      unfold shapeGradient
      simp only [hr, hB, hs, if_true, ht, hk]
      rw [if_neg (by omega)]
      simp [run, setIndata, hp, hf]
    simp [evalDJ, hc, hn, hsg]
  · intro m
    simp [evalJ, run, setIndata, hp, hf]
  · intro m r o' ho
    simp [evalJ, run, setIndata, hp, ho]

/-- **C189, violated**: with more radial points than the profile arrays have entries, the derivative raises after the arrays have been filled with `-1`, and VMEC is not marked to run: `J` still returns the old value, and the next change
runs VMEC with the spoiled arrays. -/
theorem C189_long_violated (E : Env Rest P) (m : Metric P) (eps : ℝ) {i : Inp Rest} {o : Out P} {B0 : P → V3} (tot : ℝ) (hB : o.field = some B0)
    (ht : (if m.setsTot then newTot (newProfile m eps o) else .ok i.tot) = .ok tot) (hl : i.auxF.length < (newProfile m eps o).length) :
    ∃ w', shapeGradient E m eps { inp := i, need := false, wout := some o } = (w', .error .valueError) ∧
      w'.inp.auxF = List.replicate i.auxF.length (-1) ∧ w'.inp.auxS = List.replicate i.auxS.length (-1) ∧ w'.need = false := by
  refine ⟨{ inp := { i with auxF := i.auxF.map fun _ => -1, auxS := i.auxS.map fun _ => -1 }, need := false, wout := some o }, ?_, by simp, by simp, rfl⟩
  unfold shapeGradient
  simp only [run, hB, ht, hl, true_or, if_true, Bool.not_false]

/-! ### Examples -/

/-- A solver for the examples: three half-grid surfaces, the rotational transform is the boundary parameter, the field along `z` is the first entry of the profile. -/
def toy (fail : Inp ℝ → Prop) [DecidablePred fail] (i : Inp ℝ) : Option (Out Unit) :=
  if fail i then none else some { ns := 3, iotas := [0, i.rest, i.rest], bsubu := [0, 0, 0], pres := [0, 0, 0], vp := [0, 1, 1], phiEdge := 1, signgs := 1, field := some fun _ => (0, 0, 1 + i.auxF.headD 0) }

def toyEnv (profile : Option (ℝ → ℝ)) : Env ℝ Unit := { solve := toy (fun _ => False), profile := profile, n := 2, poly := fun _ _ => [], grid := fun n => List.replicate n 0, total := fun _ _ => 1 }

def toyInp : Inp ℝ := { auxF := [0, 0, 0], auxS := [0, 0, 0], coef := [], kind := .lineSegmentI, tot := 0, ncurr := 1, rest := 2 }

/-- The hypotheses of `C189_restored`, `C189_gradient_target` and `C189_profile_violated` can be met: the derivative returns, with and without a profile object. -/
example (profile : Option (ℝ → ℝ)) : ∃ w' G, shapeGradient (toyEnv profile) (iotaTarget Unit fun _ => 1) 1 { inp := toyInp, need := true, wout := none } = (w', .ok G) := by
  let O : Option (Unit → V3) → Out Unit := fun fld => { ns := 3, iotas := [0, 2, 2], bsubu := [0, 0, 0], pres := [0, 0, 0], vp := [0, 1, 1], phiEdge := 1, signgs := 1, field := fld }
  have hn : ∃ a b, ∀ fld, newProfile (iotaTarget Unit fun _ => 1) 1 (O fld) = [a, b] := by
    have hl : (newProfile (iotaTarget Unit fun _ => 1) 1 (O none)).length = 2 := by simp [newProfile, iotaTarget, itHalf, sHalf_length, O]
    obtain ⟨a, b, h⟩ := List.length_eq_two.mp hl
    exact ⟨a, b, fun _ => h⟩
  obtain ⟨a, b, hab⟩ := hn
  rcases profile with _ | f
  · have hr : run (toyEnv none) { inp := toyInp, need := true, wout := none } = ({ inp := toyInp, need := false, wout := some (O (some fun _ => (0, 0, 1 + toyInp.auxF.headD 0))) }, .ok ()) := rfl
    unfold shapeGradient
    simp only [hr, O]
    simp only [hab, O, show (iotaTarget Unit fun _ => 1).setsTot = true from rfl, if_true, newTot, List.reverse_cons, List.reverse_nil, List.nil_append, List.cons_append]
    rw [if_neg (by simp [toyInp])]
    simp [run, setIndata, toyEnv, toy]
  · obtain ⟨j, hj, hjF⟩ : ∃ j, setIndata (toyEnv (some f)) toyInp = .ok j ∧ (j.auxF.length = 3 ∧ j.auxS.length = 3 ∧ j.rest = 2) := ⟨_, rfl, pad_length _ _ _, pad_length _ _ _, rfl⟩
    have hr : run (toyEnv (some f)) { inp := toyInp, need := true, wout := none } = ({ inp := j, need := false, wout := some (O (some fun _ => (0, 0, 1 + j.auxF.headD 0))) }, .ok ()) :=
      run_need _ rfl hj (by simp [toyEnv, toy, O, hjF.2.2])
    unfold shapeGradient
    simp only [hr, O]
    simp only [hab, O, show (iotaTarget Unit fun _ => 1).setsTot = true from rfl, if_true, newTot, List.reverse_cons, List.reverse_nil, List.nil_append, List.cons_append]
    rw [if_neg (by simp [hjF.1, hjF.2.1])]
    simp [run, setIndata, toyEnv, toy, iotaTarget]

open Classical in
/-- The hypotheses of `C189_failure_violated` can be met: a solver that only accepts the profile arrays of the user. -/
example : ∃ (o : Out Unit) (B0 : Unit → V3) (tot : ℝ), toyInp.ncurr = 1 ∧ toy (fun i => i.auxF ≠ [0, 0, 0]) toyInp = some o ∧ o.field = some B0 ∧ newTot (newProfile (iotaTarget Unit fun _ => 1) 1 o) = .ok tot ∧
    (newProfile (iotaTarget Unit fun _ => 1) 1 o).length ≤ toyInp.auxF.length ∧
    toy (fun i => i.auxF ≠ [0, 0, 0]) { toyInp with auxF := pad toyInp.auxF.length (-1) (newProfile (iotaTarget Unit fun _ => 1) 1 o), auxS := pad toyInp.auxS.length (-1) (sHalf o.ns), tot := tot, kind := .lineSegmentI } = none := by
  let o : Out Unit := { ns := 3, iotas := [0, 2, 2], bsubu := [0, 0, 0], pres := [0, 0, 0], vp := [0, 1, 1], phiEdge := 1, signgs := 1, field := some fun _ => (0, 0, 1 + 0) }
  have hl : (newProfile (iotaTarget Unit fun _ => 1) 1 o).length = 2 := by simp [newProfile, iotaTarget, itHalf, sHalf_length, o]
  obtain ⟨a, b, hab⟩ := List.length_eq_two.mp hl
  refine ⟨o, _, 1.5 * b - 0.5 * a, rfl, ?_, rfl, by rw [hab]; rfl, by rw [hab]; simp [toyInp], ?_⟩
  · simp [toy, toyInp, o]
  · have h3 : pad 3 (-1) [a, b] = [a, b, -1] := rfl
    rw [hab]
    simp [toy, toyInp, h3]

end Simsopt.Adjoint
