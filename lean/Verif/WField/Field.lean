import Verif.WField.Kernel
/-!
# Derivatives of the field of a wireframe, divergence and curl (C129)
-/
namespace Simsopt.WField
open Fields

theorem hasDerivAt_upd (p c : P3) (l i : Fin 3) : HasDerivAt (fun t => (Function.update p l t - c) i) (if i = l then 1 else 0) (p l) := by
  by_cases h : i = l
  · subst h
    simp only [Pi.sub_apply, Function.update_self, if_true]
    exact (hasDerivAt_id _).sub_const _
  · simp only [Pi.sub_apply, Function.update_of_ne h, if_neg h]
    exact hasDerivAt_const _ _

theorem upd_self (p : P3) (l : Fin 3) : Function.update p l (p l) = p := Function.update_eq_self l p

/-- **C129.** The derivatives of the field of a segment: entry `[k, l]` of the array is the derivative of component `k` of the field in direction `l`. -/
theorem C129_segment_dB (n0 n1 p : P3) (h : OffSeg n0 n1 p) : IsJacobian (segB n0 n1) p (transp2 (segDB n0 n1 p)) := by
  intro l k
  obtain ⟨h0, h1, hpos⟩ := off_pos h
  have pa := nrm_pos h0
  have pb := nrm_pos h1
  have sa := nrm_sq (p - n0)
  have sb := nrm_sq (p - n1)
  have D0 := hasDerivAt_upd p n0 l
  have D1 := hasDerivAt_upd p n1 l
  have hdot : ∀ c c' : P3, HasDerivAt (fun t => dot (Function.update p l t - c) (Function.update p l t - c')) ((p - c) l + (p - c') l) (p l) := by
    intro c c'
    have E := hasDerivAt_upd p c l
    have E' := hasDerivAt_upd p c' l
    refine (((E 0).fun_mul (E' 0)).fun_add ((E 1).fun_mul (E' 1))).fun_add ((E 2).fun_mul (E' 2)) |>.congr_deriv ?_
    simp only [upd_self]
    fin_cases l <;> simp <;> ring
  have hn : ∀ c : P3, p - c ≠ 0 → HasDerivAt (fun t => nrm (Function.update p l t - c)) ((p - c) l / nrm (p - c)) (p l) := by
    intro c hc
    have hp : dot (p - c) (p - c) ≠ 0 := fun e => hc (dot_self_eq_zero e)
    have := (hdot c c).sqrt (by rw [upd_self]; exact hp)
    refine this.congr_deriv ?_
    rw [upd_self]
    show _ / (2 * nrm (p - c)) = _
    have := (nrm_pos hc).ne'
    field_simp
    ring
  have N0 := hn n0 h0
  have N1 := hn n1 h1
  have hden0 : denom (p - n0) (p - n1) ≠ 0 := by unfold denom; positivity
  have hden : HasDerivAt (fun t => denom (Function.update p l t - n0) (Function.update p l t - n1)) _ (p l) :=
    (N0.fun_mul N1).fun_mul ((N0.fun_mul N1).fun_add (hdot n0 n1))
  have hfac : HasDerivAt (fun t => factor (Function.update p l t - n0) (Function.update p l t - n1)) (gradFactor (p - n0) (p - n1) l) (p l) := by
    refine ((N0.fun_add N1).fun_div hden (by rw [upd_self]; exact hden0)).congr_deriv ?_
    simp only [upd_self, gradFactor, factor, denom, ← sa, ← sb]
    generalize nrm (p - n0) = x at *
    generalize nrm (p - n1) = y at *
    generalize dot (p - n0) (p - n1) = s at *
    generalize (p - n0) l = a
    generalize (p - n1) l = b
    have hx : x ≠ 0 := pa.ne'
    have hy : y ≠ 0 := pb.ne'
    have h3 : x * y + s ≠ 0 := hpos.ne'
    field_simp
    ring
  have hcross : HasDerivAt (fun t => cross (Function.update p l t - n0) (Function.update p l t - n1) k)
      (cross (Pi.single l 1) (p - n1) k + cross (p - n0) (Pi.single l 1) k) (p l) := by
    fin_cases k
    · refine (((D0 1).fun_mul (D1 2)).fun_sub ((D0 2).fun_mul (D1 1))).congr_deriv ?_
      simp only [upd_self, cross, Pi.single_apply]; simp; ring
    · refine (((D0 2).fun_mul (D1 0)).fun_sub ((D0 0).fun_mul (D1 2))).congr_deriv ?_
      simp only [upd_self, cross, Pi.single_apply]; simp; ring
    · refine (((D0 0).fun_mul (D1 1)).fun_sub ((D0 1).fun_mul (D1 0))).congr_deriv ?_
      simp only [upd_self, cross, Pi.single_apply]; simp; ring
  refine ((hfac.fun_mul hcross).const_mul (1e-7 : ℝ)).congr_deriv ?_
  rw [upd_self]
  simp only [transp2, segDB]
  congr 1
  generalize factor (p - n0) (p - n1) = f
  generalize gradFactor (p - n0) (p - n1) = g
  fin_cases k <;> fin_cases l <;> simp [cross, Pi.single_apply] <;> ring

/-- **C129.** The field of a segment has no divergence. -/
theorem seg_dive (n0 n1 p : P3) : dive (transp2 (segDB n0 n1 p)) = 0 := by
  simp only [dive, transp2, segDB, gradFactor, cross, Matrix.cons_val_zero, Matrix.cons_val_one, Matrix.cons_val]
  ring

/-- The curl of the field of a segment: that of the point charges at its ends. -/
theorem seg_curl (n0 n1 p : P3) (h : OffSeg n0 n1 p) (l : Fin 3) :
    curl (transp2 (segDB n0 n1 p)) l = 1e-7 * ((p - n1) l / nrm (p - n1) ^ 3 - (p - n0) l / nrm (p - n0) ^ 3) := by
  obtain ⟨h0, h1, hpos⟩ := off_pos h
  have pa := nrm_pos h0
  have pb := nrm_pos h1
  have sa := nrm_sq (p - n0)
  have sb := nrm_sq (p - n1)
  set a := p - n0 with ha
  set b := p - n1 with hb
  have hs : dot a b = a 0 * b 0 + a 1 * b 1 + a 2 * b 2 := rfl
  have ka : nrm a ^ 2 = a 0 * a 0 + a 1 * a 1 + a 2 * a 2 := sa
  have kb : nrm b ^ 2 = b 0 * b 0 + b 1 * b 1 + b 2 * b 2 := sb
  -- coefficients of grad_factor
  obtain ⟨α, β, hg, hα, hβ⟩ : ∃ α β : ℝ, (∀ i, gradFactor a b i = α * a i + β * b i) ∧
      α * dot a b + β * nrm b ^ 2 + 2 * factor a b = -(1 / nrm a ^ 3) ∧ α * nrm a ^ 2 + β * dot a b + 2 * factor a b = -(1 / nrm b ^ 3) := by
    refine ⟨-(nrm b * (factor a b * factor a b)) - nrm b / nrm a ^ 2 / denom a b, -(nrm a * (factor a b * factor a b)) - nrm a / nrm b ^ 2 / denom a b, ?_, ?_, ?_⟩
    · intro i
      simp only [gradFactor, ← sa, ← sb]
      ring
    all_goals
      simp only [factor, denom]
      generalize nrm a = x at *
      generalize nrm b = y at *
      generalize dot a b = s at *
      have hx : x ≠ 0 := pa.ne'
      have hy : y ≠ 0 := pb.ne'
      have h3 : x * y + s ≠ 0 := hpos.ne'
      obtain ⟨w, hw⟩ : ∃ w, w = x * y + s := ⟨_, rfl⟩
      have hs' : s = w - x * y := by rw [hw]; ring
      rw [← hw] at h3 ⊢
      clear hs hpos
      subst hs'
      clear hw
      field_simp
      ring
  have ex : ∀ i : Fin 3, a i / nrm a ^ 3 = a i * (1 / nrm a ^ 3) := fun i => by ring
  have ey : ∀ i : Fin 3, b i / nrm b ^ 3 = b i * (1 / nrm b ^ 3) := fun i => by ring
  rw [ex, ey]
  have u : 1 / nrm a ^ 3 = -(α * dot a b + β * nrm b ^ 2 + 2 * factor a b) := by rw [hα]; ring
  have v : 1 / nrm b ^ 3 = -(α * nrm a ^ 2 + β * dot a b + 2 * factor a b) := by rw [hβ]; ring
  rw [u, v, hs, ka, kb]
  unfold curl transp2 segDB
  simp only [← ha, ← hb, hg]
  generalize factor a b = f
  fin_cases l <;> simp [cross] <;> ring

/-! ## The whole wireframe -/

theorem foldl_sum {α M : Type} [AddCommMonoid M] (f : α → M) (l : List α) (z : M) : l.foldl (fun B a => B + f a) z = z + (l.map f).sum := by
  induction l generalizing z with
  | nil => simp
  | cons a l ih => simp [ih, add_assoc]

theorem list_sum_apply {ι : Type} {R : ι → Type} [∀ i, AddCommMonoid (R i)] (l : List (∀ i, R i)) (i : ι) : l.sum i = (l.map fun f => f i).sum := by
  induction l with
  | nil => rfl
  | cons a l ih => simp [ih]

/-- Specification: one piece of wire for each segment and half period: its current and its end points. -/
noncomputable def Wire.pieces (w : Wire) : List (ℝ × P3 × P3) :=
  w.segments.zipIdx.flatMap fun si => w.halves.map fun h => (w.currents si.2 * h.2, h.1 si.1.1, h.1 si.1.2)

/-- Specification: `p` is not on any wire. -/
def Wire.Off (w : Wire) (p : P3) : Prop := ∀ q ∈ w.pieces, OffSeg q.2.1 q.2.2 p

theorem Wire.sum_pieces {M : Type} [AddCommGroup M] [Module ℝ M] (w : Wire) (F : P3 → P3 → M) :
    w.segments.zipIdx.foldl (fun B si => B + w.currents si.2 • w.halves.foldl (fun B h => B + h.2 • F (h.1 si.1.1) (h.1 si.1.2)) 0) 0 =
      (w.pieces.map fun q => q.1 • F q.2.1 q.2.2).sum := by
  have e : ∀ si : (ℕ × ℕ) × ℕ, w.currents si.2 • w.halves.foldl (fun B h => B + h.2 • F (h.1 si.1.1) (h.1 si.1.2)) 0 =
      (w.halves.map fun h => (w.currents si.2 * h.2) • F (h.1 si.1.1) (h.1 si.1.2)).sum := by
    intro si
    rw [foldl_sum, zero_add, List.smul_sum, List.map_map]
    congr 1
    refine List.map_congr_left fun h _ => ?_
    simp [mul_smul]
  simp only [e]
  rw [foldl_sum, zero_add, Wire.pieces, List.map_flatMap, List.flatMap_def, List.sum_flatten, List.map_map]
  congr 1
  refine List.map_congr_left fun si _ => ?_
  simp [Function.comp_def]

/-- **C129.** The field of a wireframe is the sum over all its segments and all half periods of the current, with the sign of the half period, times the field of the piece of wire. -/
theorem C129_field (w : Wire) (p : P3) : w.B p = (w.pieces.map fun q => q.1 • segB q.2.1 q.2.2 p).sum := w.sum_pieces fun n0 n1 => segB n0 n1 p

theorem dB_sum (w : Wire) (p : P3) : w.dB p = (w.pieces.map fun q => q.1 • segDB q.2.1 q.2.2 p).sum := w.sum_pieces fun n0 n1 => segDB n0 n1 p

theorem hasDerivAt_listSum {α : Type} (l : List α) (f : α → ℝ → ℝ) (f' : α → ℝ) (x : ℝ) (h : ∀ a ∈ l, HasDerivAt (f a) (f' a) x) :
    HasDerivAt (fun t => (l.map fun a => f a t).sum) (l.map f').sum x := by
  induction l with
  | nil => simpa using hasDerivAt_const x (0 : ℝ)
  | cons a l ih =>
    simp only [List.map_cons, List.sum_cons]
    exact (h a (by simp)).fun_add (ih fun b hb => h b (by simp [hb]))

/-- **C129.** The derivatives of the field of a wireframe off its wires: `dB_by_dX[p, k, l]` is the derivative of component `k` in direction `l`. -/
theorem C129_dB (w : Wire) (p : P3) (h : w.Off p) : IsJacobian w.B p (transp2 (w.dB p)) := by
  intro l k
  have e : (fun t => w.B (Function.update p l t) k) = fun t => (w.pieces.map fun q => q.1 * segB q.2.1 q.2.2 (Function.update p l t) k).sum := by
    funext t
    rw [C129_field, list_sum_apply, List.map_map]
    rfl
  have e2 : transp2 (w.dB p) l k = (w.pieces.map fun q => q.1 * segDB q.2.1 q.2.2 p k l).sum := by
    show w.dB p k l = _
    rw [dB_sum, list_sum_apply, list_sum_apply, List.map_map, List.map_map]
    rfl
  rw [e, e2]
  exact hasDerivAt_listSum _ (fun q t => q.1 * segB q.2.1 q.2.2 (Function.update p l t) k) _ _ fun q hq => (C129_segment_dB q.2.1 q.2.2 p (h q hq) l k).const_mul q.1

/-- **C129.** The field has no divergence, whatever the currents. -/
theorem C129_divergence (w : Wire) (p : P3) : dive (w.dB p) = 0 := by
  have e : ∀ k, w.dB p k k = (w.pieces.map fun q => q.1 * segDB q.2.1 q.2.2 p k k).sum := by
    intro k
    rw [dB_sum, list_sum_apply, list_sum_apply, List.map_map, List.map_map]
    rfl
  rw [dive, e, e, e]
  generalize w.pieces = L
  induction L with
  | nil => simp
  | cons q L ih =>
    simp only [List.map_cons, List.sum_cons]
    have := seg_dive q.2.1 q.2.2 p
    simp only [dive, transp2] at this
    linear_combination ih + q.1 * this

/-- Specification: the currents are closed, that is, at every place as much flows in as flows out: in the sum over all pieces of wire, current times (value at the end minus value at the start), everything cancels, for
every function of the place. -/
def Wire.Closed (w : Wire) : Prop := ∀ f : P3 → ℝ, (w.pieces.map fun q => q.1 * (f q.2.2 - f q.2.1)).sum = 0

/-- **C129.** The field of closed currents has no curl off the wires (Ampère's law for a vacuum). -/
theorem C129_curl (w : Wire) (p : P3) (h : w.Off p) (hc : w.Closed) : curl (transp2 (w.dB p)) = 0 := by
  funext l
  have hz := hc fun x => 1e-7 * ((p - x) l / nrm (p - x) ^ 3)
  have e : ∀ k l, w.dB p k l = (w.pieces.map fun q => q.1 * segDB q.2.1 q.2.2 p k l).sum := by
    intro k l
    rw [dB_sum, list_sum_apply, list_sum_apply, List.map_map, List.map_map]
    rfl
  have key : curl (transp2 (w.dB p)) l = (w.pieces.map fun q => q.1 * curl (transp2 (segDB q.2.1 q.2.2 p)) l).sum := by
    have gen : ∀ L : List (ℝ × P3 × P3), curl (transp2 fun k l => (L.map fun q => q.1 * segDB q.2.1 q.2.2 p k l).sum) l =
        (L.map fun q => q.1 * curl (transp2 (segDB q.2.1 q.2.2 p)) l).sum := by
      intro L
      induction L with
      | nil => fin_cases l <;> simp [curl, transp2]
      | cons q L ih =>
        simp only [List.map_cons, List.sum_cons, ← ih]
        fin_cases l <;> simp [curl, transp2] <;> ring
    rw [← gen]
    congr 2
    funext k l
    exact e k l
  rw [key]
  have : (w.pieces.map fun q => q.1 * curl (transp2 (segDB q.2.1 q.2.2 p)) l) =
      w.pieces.map fun q => q.1 * (1e-7 * ((p - q.2.2) l / nrm (p - q.2.2) ^ 3) - 1e-7 * ((p - q.2.1) l / nrm (p - q.2.1) ^ 3)) := by
    refine List.map_congr_left fun q hq => ?_
    rw [seg_curl _ _ _ (h q hq)]
    ring
  rw [this]
  exact hz

/-- **C129.** For closed currents the array is therefore symmetric, and has the documented meaning: `dB_by_dX[p, j, l]` is the derivative of `B_l` in direction `j`. -/
theorem C129_documented (w : Wire) (p : P3) (h : w.Off p) (hc : w.Closed) : IsJacobian w.B p (w.dB p) := by
  have hd := C129_dB w p h
  have hz := C129_curl w p h hc
  have h0 := congrFun hz 0
  have h1 := congrFun hz 1
  have h2 := congrFun hz 2
  simp [curl, transp2] at h0 h1 h2
  have e : transp2 (w.dB p) = w.dB p := by
    funext i j
    fin_cases i <;> fin_cases j <;> simp [transp2] <;> linarith
  rwa [e] at hd

/-- **C129.** `dB_by_dsegmentcurrents(0)`: entry `i` is the derivative of the field in the current of segment `i`, and the field is linear in the currents. -/
theorem C129_currents (w : Wire) (p : P3) (k : Fin 3) (i : ℕ) (b : P3) (hb : (w.dBdCurrents 0 p)[i]? = some b) :
    HasDerivAt (fun c => ({ w with currents := Function.update w.currents i c }).B p k) (b k) (w.currents i) := by
  have e : ∀ c, ({ w with currents := Function.update w.currents i c } : Wire).B p k = (w.segments.zipIdx.map fun si => Function.update w.currents i c si.2 * w.Bi si.1 p k).sum := by
    intro c
    show (w.segments.zipIdx.foldl (fun B si => B + Function.update w.currents i c si.2 • w.Bi si.1 p) 0) k = _
    rw [foldl_sum, zero_add, list_sum_apply, List.map_map]
    rfl
  simp only [e]
  have hs : ∃ s, w.segments[i]? = some s ∧ w.Bi s p = b := by
    simpa [Wire.dBdCurrents] using hb
  obtain ⟨s, hs, rfl⟩ := hs
  have gen : ∀ (L : List (ℕ × ℕ)) (n : ℕ), HasDerivAt (fun c => ((L.zipIdx n).map fun si => Function.update w.currents i c si.2 * w.Bi si.1 p k).sum)
      (if n ≤ i then ((L[i - n]?).elim 0 fun s => w.Bi s p k) else 0) (w.currents i) := by
    intro L
    induction L with
    | nil => intro n; simpa using hasDerivAt_const (w.currents i) (0 : ℝ)
    | cons a L ih =>
      intro n
      simp only [List.zipIdx_cons, List.map_cons, List.sum_cons]
      by_cases hn : n = i
      · subst hn
        have h1 : HasDerivAt (fun c => Function.update w.currents n c n * w.Bi a p k) (w.Bi a p k) (w.currents n) := by
          simpa using (hasDerivAt_id (w.currents n)).mul_const (w.Bi a p k)
        refine (h1.fun_add (ih (n + 1))).congr_deriv ?_
        simp
      · have h1 : HasDerivAt (fun c => Function.update w.currents i c n * w.Bi a p k) 0 (w.currents i) := by
          simp only [Function.update_of_ne hn]
          exact hasDerivAt_const _ _
        refine (h1.fun_add (ih (n + 1))).congr_deriv ?_
        rw [zero_add]
        by_cases h2 : n ≤ i
        · rw [if_pos h2, if_pos (by omega), show i - n = (i - (n + 1)) + 1 by omega, List.getElem?_cons_succ]
        · rw [if_neg h2, if_neg (by omega)]
  have := gen w.segments 0
  simpa [hs] using this

/-- **C129.** `dBnormal_by_dsegmentcurrents_matrix`: a row times the vector of the currents is the component of the field along the unit normal at the point, times the square root of the area of the point if requested. -/
theorem C129_normal_matrix (w : Wire) (areaWeighted : Bool) (npts : ℕ) (n p : P3) :
    ((w.normalRow areaWeighted npts n p).zipIdx.map fun ai => ai.1 * w.currents ai.2).sum =
      (if areaWeighted then √(nrm n / npts) else 1) * (dot (w.B p) n / nrm n) := by
  have hB : ∀ k, w.B p k = (w.segments.zipIdx.map fun si => w.currents si.2 * w.Bi si.1 p k).sum := by
    intro k
    show (w.segments.zipIdx.foldl (fun B si => B + w.currents si.2 • w.Bi si.1 p) 0) k = _
    rw [foldl_sum, zero_add, list_sum_apply, List.map_map]
    rfl
  simp only [Wire.normalRow, Wire.dBdCurrents, List.map_map, List.zipIdx_map]
  generalize (if areaWeighted = true then √(nrm n / npts) else 1) = c
  simp only [dot, hB]
  generalize w.segments.zipIdx = L
  induction L with
  | nil => simp
  | cons si L ih =>
    simp only [List.map_cons, List.sum_cons, ih, Function.comp, Prod.map]
    simp only [dot, Pi.smul_apply, smul_eq_mul, id]
    ring

end Simsopt.WField
