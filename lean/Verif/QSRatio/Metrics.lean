import Verif.PyList
import Mathlib.Analysis.Real.Pi.Bounds
import Mathlib.Analysis.SpecialFunctions.Trigonometric.Deriv
import Mathlib.Algebra.Module.Prod
import Mathlib.Tactic.LinearCombination
import Mathlib.Tactic.FieldSimp
/-!
# IotaTargetMetric, IotaWeighted, WellWeighted (C169)

Model of src/simsopt/mhd/vmec_diagnostics.py L371-708.  Real numbers instead of doubles; the VMEC solver is a partial function of its input (`none`: not converged, `ObjectiveFailure`).
-/
namespace Simsopt.Metrics
open Simsopt

/-! ### Values -/

/-- `IotaTargetMetric.J` (L401-409): `iotas` is `wout.iotas[1:]`, `target` the target at `s_half_grid`. -/
noncomputable def iotaTarget (iotas target : List ℝ) (ds : ℝ) : ℝ := 0.5 * ((List.zipWith (fun a b => a - b) iotas target).map fun x => x ^ 2).sum * ds

/-- `IotaWeighted.J` (L512-519). -/
noncomputable def iotaWeighted (w iotas : List ℝ) : ℝ := (List.zipWith (fun a b => a * b) w iotas).sum / w.sum

/-- `WellWeighted.J` (L632-639): `vp` is `wout.vp[1:]`. -/
noncomputable def wellWeighted (w1 w2 vp : List ℝ) : ℝ :=
  (List.zipWith (fun a b => a * b) (List.zipWith (fun a b => a - b) w1 w2) vp).sum / (List.zipWith (fun a b => a * b) (List.zipWith (fun a b => a + b) w1 w2) vp).sum

/-! ### Adjoint runs -/

/-- The profile types that matter (`pcurr_type`, `pmass_type`). -/
inductive PType where
  | powerSeries | lineSegment | cubicSpline
deriving DecidableEq

/-- `vmec.indata` for the profile that is perturbed: `aux_f`, `aux_s`, the type, `curtor`, the power series, and everything else. -/
structure Indata (R : Type) where
  auxF : List ℝ
  auxS : List ℝ
  typ : PType
  curtor : ℝ
  poly : List ℝ
  rest : R

/-- What of `wout` is used: the profile on the half grid (`signgs 2 pi bsubumnc[0, 1:] / mu0` or `pres[1:]`), the perturbation's ingredients, and `B_cartesian` on the boundary as a list of points. -/
structure Out where
  base : List ℝ
  iotas : List ℝ
  vp : List ℝ
  sHalf : List ℝ
  ds : ℝ
  phiEdge : ℝ
  signgs : ℝ
  B : List (ℝ × ℝ × ℝ)

/-- A profile object of simsopt: its values and its integral from 0 to 1 (`quad`, taken as exact). -/
structure Prof where
  f : ℝ → ℝ
  integral : ℝ

/-- A Vmec object: inputs, results, whether it must run, the profile object of simsopt for this profile (or none), the number of points for it, and whether the profile is the current (with `curtor`) or the pressure. -/
structure Vm (R : Type) where
  ind : Indata R
  wout : Option Out
  need : Bool
  profile : Option Prof
  npts : ℕ
  current : Bool

/-- The solver and the polynomial fit. -/
structure Env (R : Type) where
  solve : Indata R → Option Out
  fit : (ℝ → ℝ) → ℕ → List ℝ

/-- Assignment `a[:n] = y` after `a[:] = 0`. -/
def pad (y : List ℝ) (n : ℕ) : List ℝ := y ++ List.replicate (n - y.length) 0

/-- `set_profile` and the setting of `curtor` in `set_indata` (mhd/vmec.py L464-502, L540-555). -/
noncomputable def setIndata {R : Type} (E : Env R) (v : Vm R) : Indata R :=
  match v.profile with
  | none => v.ind
  | some p =>
    match v.ind.typ with
    | .powerSeries => { v.ind with poly := pad (E.fit p.f v.npts) v.ind.poly.length, curtor := if v.current then p.integral else v.ind.curtor }
    | _ =>
      let x := (List.range v.npts).map fun (i : ℕ) => (i : ℝ) / (v.npts - 1 : ℕ)
      { v.ind with auxS := pad x v.ind.auxS.length, auxF := pad (x.map p.f) v.ind.auxF.length, curtor := if v.current then p.f 1 else v.ind.curtor }

/-- `Vmec.run` (mhd/vmec.py L663-773): nothing to do unless `need_to_run_code`; the inputs are set; a failed run leaves the inputs and the flag. -/
noncomputable def run {R : Type} (E : Env R) (v : Vm R) : Vm R × Option Out :=
  if v.need = false then (v, v.wout)
  else
    let ind := setIndata E v
    match E.solve ind with
    | none => ({ v with ind := ind }, none)
    | some o => ({ v with ind := ind, wout := some o, need := false }, some o)

/-- The three objects: how the perturbation, the edge current, the type of the perturbed run and the result are computed. -/
inductive Kind where
  | iotaTarget (target : ℝ → ℝ)
  | iotaWeighted (w : ℝ → ℝ)
  | well (w1 w2 : ℝ → ℝ)

/-- Whether the pressure is perturbed (the current otherwise). -/
def Kind.pressure : Kind → Bool
  | .well .. => true
  | _ => false

noncomputable def mu0 : ℝ := 4 * Real.pi * 1e-7

/-- `perturbation` (L452-453, L562, L679-684). -/
noncomputable def perturbation (k : Kind) (o : Out) : List ℝ :=
  match k with
  | .iotaTarget t => List.zipWith (fun a s => (a - t s) / (o.phiEdge * o.signgs / (2 * Real.pi))) o.iotas o.sHalf
  | .iotaWeighted w => o.sHalf.map w
  | .well w1 w2 =>
    let a := o.sHalf.map fun s => w1 s - w2 s
    let b := o.sHalf.map fun s => w1 s + w2 s
    let num := (List.zipWith (fun x y => x * y) a o.vp).sum
    let den := (List.zipWith (fun x y => x * y) b o.vp).sum
    List.zipWith (fun x y => (x - num / den * y) / (den * o.ds * 4 * Real.pi * Real.pi)) a b

/-- The perturbed profile (L456, L565, L687). -/
noncomputable def perturbed (k : Kind) (eps : ℝ) (o : Out) : List ℝ := List.zipWith (fun a b => a + eps * b) o.base (perturbation k o)

/-- The inputs of the adjoint run (L457-463, L566-572, L689-693); a pressure run has no `curtor`. -/
noncomputable def adjointInput {R : Type} (k : Kind) (eps : ℝ) (o : Out) (ind : Indata R) : Indata R :=
  let new := perturbed k eps o
  { ind with
    auxF := new ++ List.replicate (ind.auxF.length - new.length) (-1)
    auxS := o.sHalf ++ List.replicate (ind.auxS.length - o.sHalf.length) (-1)
    typ := if k.pressure then .cubicSpline else .lineSegment
    curtor := if k.pressure then ind.curtor else 1.5 * new.getD (new.length - 1) 0 - 0.5 * new.getD (new.length - 2) 0 }

/-- `deltaB_dot_B` (L479, L588, L706). -/
noncomputable def deltaBB (eps : ℝ) (o o2 : Out) : List ℝ :=
  List.zipWith (fun b0 b => ((b.1 - b0.1) * b0.1 + (b.2.1 - b0.2.1) * b0.2.1 + (b.2.2 - b0.2.2) * b0.2.2) / eps) o.B o2.B

/-- The returned shape gradient (L481, L590, L708). -/
noncomputable def gradient (k : Kind) (eps : ℝ) (o o2 : Out) : List ℝ :=
  match k with
  | .iotaTarget _ => (deltaBB eps o o2).map fun x => x / (2 * Real.pi * mu0)
  | .iotaWeighted w => (deltaBB eps o o2).map fun x => x / (mu0 * o2.ds * o2.phiEdge * o2.signgs * (o2.sHalf.map w).sum)
  | .well .. => (deltaBB eps o o2).map fun x => x / mu0 + (perturbation k o).getD ((perturbation k o).length - 1) 0

/-- `shape_gradient` (L423-481, L533-590, L651-708): the first run, the perturbed run, the inputs restored. If the half grid does not fit into the auxiliary arrays, the assignment raises with these arrays already overwritten. -/
noncomputable def shapeGradient {R : Type} (E : Env R) (k : Kind) (eps : ℝ) (v : Vm R) : Vm R × Except Err (List ℝ) :=
  match run E v with
  | (v1, none) => (v1, .error .runtimeError)
  | (v1, some o) =>
    if v1.ind.auxF.length < (perturbed k eps o).length ∨ v1.ind.auxS.length < o.sHalf.length then
      ({ v1 with ind := { v1.ind with auxF := List.replicate v1.ind.auxF.length (-1), auxS := List.replicate v1.ind.auxS.length (-1) } }, .error .valueError)
    else
      match run E { v1 with ind := adjointInput k eps o v1.ind, need := true } with
      | (v2, none) => (v2, .error .runtimeError)
      | (v2, some o2) =>
        ({ v2 with ind := { v2.ind with auxF := v1.ind.auxF, auxS := v1.ind.auxS, typ := v1.ind.typ, curtor := (if k.pressure then v2.ind.curtor else v1.ind.curtor) }, need := true }, .ok (gradient k eps o o2))

/-! ### Theorems about the values -/

theorem sum_nonneg' {l : List ℝ} (h : ∀ x ∈ l, 0 ≤ x) : 0 ≤ l.sum := List.sum_nonneg h

/-- **C169**: `IotaTargetMetric.J` is not negative, and zero exactly if the rotational transform is the target at every half-grid surface. -/
theorem C169_iota_target (iotas target : List ℝ) (ds : ℝ) (hds : 0 < ds) (hl : iotas.length = target.length) : 0 ≤ iotaTarget iotas target ds ∧ (iotaTarget iotas target ds = 0 ↔ iotas = target) := by
  have key : ∀ a b : List ℝ, a.length = b.length → 0 ≤ ((List.zipWith (fun a b => a - b) a b).map fun x => x ^ 2).sum ∧ (((List.zipWith (fun a b => a - b) a b).map fun x => x ^ 2).sum = 0 ↔ a = b) := by
    intro a
    induction a with
    | nil => intro b hb; cases b with
      | nil => simp
      | cons => simp at hb
    | cons x a ih =>
      intro b hb
      cases b with
      | nil => simp at hb
      | cons y b =>
        obtain ⟨h1, h2⟩ := ih b (by simpa using hb)
        simp only [List.zipWith_cons_cons, List.map_cons, List.sum_cons, List.cons.injEq]
        have hxy := sq_nonneg (x - y)
        refine ⟨by linarith, ⟨fun h => ?_, ?_⟩⟩
        · have e1 : (x - y) ^ 2 = 0 := by linarith
          have e2 := pow_eq_zero_iff two_ne_zero |>.1 e1
          exact ⟨by linarith, h2.1 (by linarith)⟩
        · rintro ⟨rfl, h⟩
          rw [h2.2 h]; simp
  obtain ⟨h1, h2⟩ := key iotas target hl
  unfold iotaTarget
  refine ⟨mul_nonneg (mul_nonneg (by norm_num) h1) hds.le, ?_⟩
  rw [mul_eq_zero, mul_eq_zero, or_iff_left hds.ne', or_iff_right (by norm_num), h2]

/-- **C169**: `IotaWeighted.J` is an average: with weights that are not all zero and not negative it lies between any bounds of the rotational transform; the scale of the weights does not matter. -/
theorem C169_iota_weighted (w iotas : List ℝ) (hl : w.length = iotas.length) (hw : ∀ x ∈ w, 0 ≤ x) (hs : 0 < w.sum) (lo hi : ℝ) (hb : ∀ x ∈ iotas, lo ≤ x ∧ x ≤ hi) :
    lo ≤ iotaWeighted w iotas ∧ iotaWeighted w iotas ≤ hi ∧ ∀ c, c ≠ 0 → iotaWeighted (w.map fun x => c * x) iotas = iotaWeighted w iotas := by
  have key : ∀ a b : List ℝ, a.length = b.length → (∀ x ∈ a, 0 ≤ x) → (∀ x ∈ b, lo ≤ x ∧ x ≤ hi) → lo * a.sum ≤ (List.zipWith (fun a b => a * b) a b).sum ∧ (List.zipWith (fun a b => a * b) a b).sum ≤ hi * a.sum := by
    intro a
    induction a with
    | nil => intro b _ _ _; simp
    | cons x a ih =>
      intro b hb ha hbb
      cases b with
      | nil => simp at hb
      | cons y b =>
        obtain ⟨h1, h2⟩ := ih b (by simpa using hb) (fun z hz => ha z (by simp [hz])) (fun z hz => hbb z (by simp [hz]))
        simp only [List.zipWith_cons_cons, List.sum_cons]
        have hx := ha x (by simp)
        obtain ⟨y1, y2⟩ := hbb y (by simp)
        have := mul_le_mul_of_nonneg_left y1 hx
        have := mul_le_mul_of_nonneg_left y2 hx
        constructor <;> linarith
  obtain ⟨h1, h2⟩ := key w iotas hl hw hb
  unfold iotaWeighted
  refine ⟨(le_div_iff₀ hs).2 h1, (div_le_iff₀ hs).2 h2, fun c hc => ?_⟩
  have e1 : (List.zipWith (fun a b => a * b) (w.map fun x => c * x) iotas).sum = c * (List.zipWith (fun a b => a * b) w iotas).sum := by
    clear h1 h2 hl hw hs hb
    induction w generalizing iotas with
    | nil => simp
    | cons x w ih =>
      cases iotas with
      | nil => simp
      | cons y b => simp only [List.map_cons, List.zipWith_cons_cons, List.sum_cons, ih]; ring
  have e2 : (w.map fun x => c * x).sum = c * w.sum := by rw [List.sum_map_mul_left]; simp
  rw [e1, e2, mul_div_mul_left _ _ hc]

/-- **C169**: `WellWeighted.J` lies between -1 and 1 for weights and `V'` of one sign, and exchanging the weights changes its sign. -/
theorem C169_well (w1 w2 vp : List ℝ) (hl1 : w1.length = vp.length) (hl2 : w2.length = vp.length) (h1 : ∀ x ∈ w1, 0 ≤ x) (h2 : ∀ x ∈ w2, 0 ≤ x) (hv : ∀ x ∈ vp, 0 ≤ x)
    (hd : (List.zipWith (fun a b => a * b) (List.zipWith (fun a b => a + b) w1 w2) vp).sum ≠ 0) : -1 ≤ wellWeighted w1 w2 vp ∧ wellWeighted w1 w2 vp ≤ 1 ∧ wellWeighted w2 w1 vp = -wellWeighted w1 w2 vp := by
  have key : ∀ a b c : List ℝ, a.length = c.length → b.length = c.length → (∀ x ∈ a, 0 ≤ x) → (∀ x ∈ b, 0 ≤ x) → (∀ x ∈ c, 0 ≤ x) →
      |(List.zipWith (fun a b => a * b) (List.zipWith (fun a b => a - b) a b) c).sum| ≤ (List.zipWith (fun a b => a * b) (List.zipWith (fun a b => a + b) a b) c).sum := by
    intro a
    induction a with
    | nil => intro b c _ _ _ _ _; simp
    | cons x a ih =>
      intro b c ha hb h1 h2 h3
      cases c with
      | nil => simp at ha
      | cons z c =>
        cases b with
        | nil => simp at hb
        | cons y b =>
          have := ih b c (by simpa using ha) (by simpa using hb) (fun t ht => h1 t (by simp [ht])) (fun t ht => h2 t (by simp [ht])) (fun t ht => h3 t (by simp [ht]))
          simp only [List.zipWith_cons_cons, List.sum_cons]
          have hx := h1 x (by simp)
          have hy := h2 y (by simp)
          have hz := h3 z (by simp)
          refine (abs_add_le _ _).trans (add_le_add ?_ this)
          rw [abs_mul, abs_of_nonneg hz]
          exact mul_le_mul_of_nonneg_right (abs_sub_le_iff.2 ⟨by linarith, by linarith⟩) hz
  have hk := key w1 w2 vp hl1 hl2 h1 h2 hv
  have hpos : 0 < (List.zipWith (fun a b => a * b) (List.zipWith (fun a b => a + b) w1 w2) vp).sum := lt_of_le_of_ne ((abs_nonneg _).trans hk) hd.symm
  obtain ⟨k1, k2⟩ := abs_le.1 hk
  unfold wellWeighted
  refine ⟨by rw [le_div_iff₀ hpos]; linarith, by rw [div_le_iff₀ hpos]; linarith, ?_⟩
  have e1 : ∀ a b c : List ℝ, (List.zipWith (fun a b => a * b) (List.zipWith (fun a b => a - b) b a) c).sum = -(List.zipWith (fun a b => a * b) (List.zipWith (fun a b => a - b) a b) c).sum := by
    intro a
    induction a with
    | nil => intro b c; simp
    | cons x a ih =>
      intro b c
      cases b with
      | nil => simp
      | cons y b => cases c with
        | nil => simp
        | cons z c => simp only [List.zipWith_cons_cons, List.sum_cons, ih b c]; ring
  have e2 : List.zipWith (fun a b : ℝ => a + b) w2 w1 = List.zipWith (fun a b => a + b) w1 w2 := List.zipWith_comm_of_comm (fun a b => add_comm a b)
  rw [e1 w1 w2, e2, neg_div]

/-- **C169**: a magnetic well has `J ≤ 0`: if `V'` does not increase with `s`, and the first weight is larger than the second from some surface on and smaller before, with equal sums. -/
theorem C169_well_sign (w1 w2 vp : List ℝ) (hl1 : w1.length = vp.length) (hl2 : w2.length = vp.length) (h1 : ∀ x ∈ w1, 0 ≤ x) (h2 : ∀ x ∈ w2, 0 ≤ x) (hv : ∀ x ∈ vp, 0 ≤ x)
    (hdec : ∀ i j : ℕ, i ≤ j → j < vp.length → vp.getD j 0 ≤ vp.getD i 0) (k : ℕ) (hbefore : ∀ i < k, i < vp.length → w1.getD i 0 ≤ w2.getD i 0) (hafter : ∀ i, k ≤ i → i < vp.length → w2.getD i 0 ≤ w1.getD i 0)
    (hsum : w1.sum = w2.sum) : wellWeighted w1 w2 vp ≤ 0 := by
  have key : ∀ (a b c : List ℝ) (m : ℝ), a.length = c.length → b.length = c.length → (∀ i < c.length, (a.getD i 0 - b.getD i 0) * (c.getD i 0 - m) ≤ 0) →
      (List.zipWith (fun a b => a * b) (List.zipWith (fun a b => a - b) a b) c).sum ≤ m * (a.sum - b.sum) := by
    intro a
    induction a with
    | nil => intro b c m ha hb _; cases c with
      | nil => cases b with
        | nil => simp
        | cons => simp at hb
      | cons => simp at ha
    | cons x a ih =>
      intro b c m ha hb h
      cases c with
      | nil => simp at ha
      | cons z c => cases b with
        | nil => simp at hb
        | cons y b =>
          have := ih b c m (by simpa using ha) (by simpa using hb) fun i hi => by simpa using h (i + 1) (by simpa using hi)
          have h0 := h 0 (by simp)
          simp only [List.getD_cons_zero] at h0
          simp only [List.zipWith_cons_cons, List.sum_cons]
          nlinarith
  have hm := key w1 w2 vp (if k < vp.length then vp.getD k 0 else 0) hl1 hl2 fun i hi => by
    have hvi : 0 ≤ vp.getD i 0 := by rw [List.getD_eq_getElem?_getD, List.getElem?_eq_getElem hi]; exact hv _ (List.getElem_mem hi)
    by_cases hik : i < k
    · have := hbefore i hik hi
      refine mul_nonpos_of_nonpos_of_nonneg (by linarith) ?_
      split
      · have := hdec i k hik.le (by assumption); linarith
      · linarith
    · have := hafter i (by omega) hi
      refine mul_nonpos_of_nonneg_of_nonpos (by linarith) ?_
      rw [if_pos (by omega)]
      have := hdec k i (by omega) hi; linarith
  rw [hsum, sub_self, mul_zero] at hm
  unfold wellWeighted
  refine div_nonpos_of_nonpos_of_nonneg hm (List.sum_nonneg ?_)
  intro x hx
  obtain ⟨i, hi, rfl⟩ := List.mem_iff_getElem.1 hx
  rw [List.getElem_zipWith, List.getElem_zipWith]
  exact mul_nonneg (add_nonneg (h1 _ (List.getElem_mem _)) (h2 _ (List.getElem_mem _))) (hv _ (List.getElem_mem _))

/-! ### What is perturbed -/

/-- The sum of products with one entry of the second list varied. -/
theorem deriv_dot (w x : List ℝ) (i : ℕ) (hi : i < x.length) (hl : w.length = x.length) (t0 : ℝ) : HasDerivAt (fun t => (List.zipWith (fun a b => a * b) w (x.set i t)).sum) (w.getD i 0) t0 := by
  induction x generalizing w i with
  | nil => simp at hi
  | cons b x ih =>
    cases w with
    | nil => simp at hl
    | cons a w =>
      cases i with
      | zero =>
        simp only [List.set_cons_zero, List.zipWith_cons_cons, List.sum_cons, List.getD_cons_zero]
        exact (((hasDerivAt_id t0).const_mul a).add_const _).congr_deriv (by simp)
      | succ i =>
        simp only [List.set_cons_succ, List.zipWith_cons_cons, List.sum_cons, List.getD_cons_succ]
        exact (ih w i (by simpa using hi) (by simpa using hl)).const_add _

/-- The sum of squared differences with one entry of the first list varied. -/
theorem deriv_sq (x y : List ℝ) (i : ℕ) (hi : i < x.length) (hl : x.length = y.length) : HasDerivAt (fun t => ((List.zipWith (fun a b => a - b) (x.set i t) y).map fun z => z ^ 2).sum) (2 * (x.getD i 0 - y.getD i 0)) (x.getD i 0) := by
  induction x generalizing y i with
  | nil => simp at hi
  | cons b x ih =>
    cases y with
    | nil => simp at hl
    | cons a y =>
      cases i with
      | zero =>
        simp only [List.set_cons_zero, List.zipWith_cons_cons, List.map_cons, List.sum_cons, List.getD_cons_zero]
        exact ((((hasDerivAt_id b).sub_const a).fun_pow 2).add_const _).congr_deriv (by simp)
      | succ i =>
        simp only [List.set_cons_succ, List.zipWith_cons_cons, List.map_cons, List.sum_cons, List.getD_cons_succ]
        exact (ih y i (by simpa using hi) (by simpa using hl)).const_add _

theorem getD_map0 (f : ℝ → ℝ) (l : List ℝ) (i : ℕ) (h : i < l.length) : (l.map f).getD i 0 = f (l.getD i 0) := by simp [h]

theorem getD_zip0 (f : ℝ → ℝ → ℝ) (a b : List ℝ) (i : ℕ) (ha : i < a.length) (hb : i < b.length) : (List.zipWith f a b).getD i 0 = f (a.getD i 0) (b.getD i 0) := by simp [List.getElem?_zipWith, ha, hb]

/-- **C169**: the perturbation is, entry by entry, a constant multiple of the derivative of the objective with respect to the rotational transform of a surface (with respect to `V'` for the well), and the factor in the
returned gradient belongs to it: with `∂J/∂ι = κ` times the perturbation, the gradient is `δB·B κ / (mu0 ds phi signgs)` for both objectives of the rotational transform, and `δB·B / mu0` plus the perturbation at the edge for the well,
where `κ` is `4 pi^2 ds`. -/
theorem C169_perturbation (o o2 : Out) (eps : ℝ) (i : ℕ) (hi : i < o.sHalf.length) (h1 : o.iotas.length = o.sHalf.length) (h2 : o.vp.length = o.sHalf.length) (hphi : o.phiEdge ≠ 0) (hsg : o.signgs ≠ 0) (hds : o.ds ≠ 0)
    (hsame : o2.phiEdge = o.phiEdge ∧ o2.signgs = o.signgs ∧ o2.ds = o.ds ∧ o2.sHalf = o.sHalf) (t w w1 w2 : ℝ → ℝ) (hw : (o.sHalf.map w).sum ≠ 0) :
    (∃ κ, HasDerivAt (fun x => iotaTarget (o.iotas.set i x) (o.sHalf.map t) o.ds) (κ * (perturbation (.iotaTarget t) o).getD i 0) (o.iotas.getD i 0) ∧
      gradient (.iotaTarget t) eps o o2 = (deltaBB eps o o2).map fun x => x * κ / (mu0 * o.ds * o.phiEdge * o.signgs)) ∧
    (∃ κ, HasDerivAt (fun x => iotaWeighted (o.sHalf.map w) (o.iotas.set i x)) (κ * (perturbation (.iotaWeighted w) o).getD i 0) (o.iotas.getD i 0) ∧
      gradient (.iotaWeighted w) eps o o2 = (deltaBB eps o o2).map fun x => x * κ / (mu0 * o.ds * o.phiEdge * o.signgs)) ∧
    ((List.zipWith (fun a b => a * b) (List.zipWith (fun a b => a + b) (o.sHalf.map w1) (o.sHalf.map w2)) o.vp).sum ≠ 0 →
      HasDerivAt (fun x => wellWeighted (o.sHalf.map w1) (o.sHalf.map w2) (o.vp.set i x)) (4 * Real.pi ^ 2 * o.ds * (perturbation (.well w1 w2) o).getD i 0) (o.vp.getD i 0) ∧
      gradient (.well w1 w2) eps o o2 = (deltaBB eps o o2).map fun x => x / mu0 + (perturbation (.well w1 w2) o).getD (o.sHalf.length - 1) 0) := by
  obtain ⟨s1, s2, s3, s4⟩ := hsame
  have hpi := Real.pi_ne_zero
  have hmu : mu0 ≠ 0 := by unfold mu0; positivity
  refine ⟨⟨o.ds * o.phiEdge * o.signgs / (2 * Real.pi), ?_, ?_⟩, ⟨1 / (o.sHalf.map w).sum, ?_, ?_⟩, fun hd => ⟨?_, ?_⟩⟩
  · have := ((deriv_sq o.iotas (o.sHalf.map t) i (by omega) (by simpa using h1)).const_mul 0.5).mul_const o.ds
    refine this.congr_deriv ?_
    simp only [perturbation]
    rw [getD_zip0 _ _ _ _ (by omega) hi, getD_map0 _ _ _ hi]
    field_simp
    ring
  · simp only [gradient]
    refine List.map_congr_left fun x _ => ?_
    field_simp
  · have := (deriv_dot (o.sHalf.map w) o.iotas i (by omega) (by simpa using h1.symm) (o.iotas.getD i 0)).div_const (o.sHalf.map w).sum
    refine this.congr_deriv ?_
    simp only [perturbation]
    ring
  · simp only [gradient, s1, s2, s3, s4]
    refine List.map_congr_left fun x _ => ?_
    field_simp
  · have ea : List.zipWith (fun a b => a - b) (o.sHalf.map w1) (o.sHalf.map w2) = o.sHalf.map fun s => w1 s - w2 s := by simp [List.zipWith_map, List.zipWith_self]
    have eb : List.zipWith (fun a b => a + b) (o.sHalf.map w1) (o.sHalf.map w2) = o.sHalf.map fun s => w1 s + w2 s := by simp [List.zipWith_map, List.zipWith_self]
    rw [eb] at hd
    unfold wellWeighted
    simp only [ea, eb]
    have e0 : o.vp.set i (o.vp.getD i 0) = o.vp := by
      rw [List.getD_eq_getElem?_getD, List.getElem?_eq_getElem (by omega)]; simp
    have n1 := deriv_dot (o.sHalf.map fun s => w1 s - w2 s) o.vp i (by omega) (by simpa using h2.symm) (o.vp.getD i 0)
    have n2 := deriv_dot (o.sHalf.map fun s => w1 s + w2 s) o.vp i (by omega) (by simpa using h2.symm) (o.vp.getD i 0)
    refine (n1.fun_div n2 (by rw [e0]; exact hd)).congr_deriv ?_
    rw [e0]
    simp only [perturbation]
    rw [getD_zip0 _ _ _ _ (by simpa using hi) (by simpa using hi), getD_map0 _ _ _ hi, getD_map0 _ _ _ hi]
    field_simp
  · simp only [gradient]
    simp [perturbation]

/-- **C169**: if the field of the second equilibrium is that of the first plus `adjoint_epsilon` times `d` on the boundary, the difference used is `d · B` at every point. -/
theorem C169_field (eps : ℝ) (he : eps ≠ 0) (o o2 : Out) (d : List (ℝ × ℝ × ℝ)) (hd : d.length = o.B.length) (h : o2.B = List.zipWith (fun b x => b + eps • x) o.B d) :
    deltaBB eps o o2 = List.zipWith (fun b x => x.1 * b.1 + x.2.1 * b.2.1 + x.2.2 * b.2.2) o.B d := by
  unfold deltaBB
  rw [h]
  clear h
  generalize o.B = B at hd
  induction B generalizing d with
  | nil => simp
  | cons b B ih =>
    cases d with
    | nil => simp at hd
    | cons x d =>
      simp only [List.zipWith_cons_cons]
      rw [ih d (by simpa using hd)]
      congr 1
      simp only [Prod.fst_add, Prod.snd_add, Prod.smul_fst, Prod.smul_snd, smul_eq_mul]
      field_simp
      ring

/-- **C169**: the perturbed run has the half-grid values of the present profile plus `adjoint_epsilon` times the perturbation, -1 in the unused entries, as a piecewise linear current whose edge value is the linear extrapolation to
`s = 1`, or as a pressure given by a cubic spline. -/
theorem C169_input {R : Type} (k : Kind) (eps : ℝ) (o : Out) (ind : Indata R) (n : ℕ) (h2 : 2 ≤ n) (h1 : o.iotas.length = n) (hb : o.base.length = n) (hs : o.sHalf.length = n) :
    (∀ i < n, (adjointInput k eps o ind).auxF.getD i 0 = o.base.getD i 0 + eps * (perturbation k o).getD i 0) ∧ (∀ i < n, (adjointInput k eps o ind).auxS.getD i 0 = o.sHalf.getD i 0) ∧
    (∀ i, n ≤ i → i < ind.auxF.length → (adjointInput k eps o ind).auxF.getD i 0 = -1) ∧ (∀ i, n ≤ i → i < ind.auxS.length → (adjointInput k eps o ind).auxS.getD i 0 = -1) ∧
    (k.pressure = true → (adjointInput k eps o ind).typ = .cubicSpline ∧ (adjointInput k eps o ind).curtor = ind.curtor) ∧
    (k.pressure = false → (adjointInput k eps o ind).typ = .lineSegment ∧
      ∀ a b, (∀ i, n - 2 ≤ i → i < n → o.base.getD i 0 + eps * (perturbation k o).getD i 0 = a + b * ((i + 0.5 : ℝ) / n)) → (adjointInput k eps o ind).curtor = a + b) := by
  have hpl : (perturbation k o).length = n := by
    cases k <;> simp [perturbation, h1, hs]
  have hlen : (perturbed k eps o).length = n := by simp [perturbed, hb, hpl]
  have hg : ∀ i < n, (perturbed k eps o).getD i 0 = o.base.getD i 0 + eps * (perturbation k o).getD i 0 := fun i hi => getD_zip0 _ _ _ _ (by omega) (by omega)
  have left : ∀ (l m : List ℝ) (i : ℕ), i < l.length → (l ++ m).getD i 0 = l.getD i 0 := fun l m i h => by
    rw [List.getD_eq_getElem?_getD, List.getD_eq_getElem?_getD, List.getElem?_append_left h]
  have right : ∀ (l : List ℝ) (m i : ℕ), l.length ≤ i → i < m → (l ++ List.replicate (m - l.length) (-1 : ℝ)).getD i 0 = -1 := fun l m i h h' => by
    rw [List.getD_eq_getElem?_getD, List.getElem?_append_right h, List.getElem?_replicate, if_pos (by omega)]; rfl
  refine ⟨fun i hi => ?_, fun i hi => ?_, fun i hi hi' => ?_, fun i hi hi' => ?_, fun hk => ?_, fun hk => ⟨?_, fun a b hab => ?_⟩⟩
  · exact (left _ _ i (by omega)).trans (hg i hi)
  · exact left _ _ i (by omega)
  · exact right _ _ i (by omega) hi'
  · exact right _ _ i (by omega) hi'
  · simp [adjointInput, hk]
  · simp [adjointInput, hk]
  · simp only [adjointInput, hk, Bool.false_eq_true, if_false]
    rw [hlen, hg _ (by omega), hg _ (by omega), hab _ (by omega) (by omega), hab _ (by omega) (by omega), Nat.cast_sub (by omega), Nat.cast_sub h2]
    have : (n : ℝ) ≠ 0 := by norm_cast; omega
    push_cast
    field_simp
    ring

/-! ### Theorems about the adjoint runs -/

theorem run_none {R : Type} (E : Env R) (v : Vm R) (h : v.profile = none) : run E v = if v.need = false then (v, v.wout) else match E.solve v.ind with
    | none => (v, none)
    | some o => ({ v with wout := some o, need := false }, some o) := by
  have e : setIndata E v = v.ind := by unfold setIndata; rw [h]
  unfold run
  simp only [e]

theorem run_true {R : Type} (E : Env R) (v : Vm R) (h : v.need = true) : run E v = match E.solve (setIndata E v) with
    | none => ({ v with ind := setIndata E v }, none)
    | some o => ({ v with ind := setIndata E v, wout := some o, need := false }, some o) := by
  unfold run
  rw [if_neg (by simp [h])]

/-- The results are those of the present inputs (what C96 proves about `need_to_run_code`). -/
def Current {R : Type} (E : Env R) (v : Vm R) : Prop := v.need = false → v.wout = E.solve v.ind

/-- **C169**: without a profile object, `shape_gradient` uses the equilibrium of the present inputs and the one whose profile at the half grid is that of the first plus `adjoint_epsilon` times the perturbation, everything else
equal; afterwards the inputs are as before, and the next evaluation is that of the present inputs again. -/
theorem C169_adjoint {R : Type} (E : Env R) (k : Kind) (eps : ℝ) (v : Vm R) (hp : v.profile = none) (hc : Current E v) (v' : Vm R) (g : List ℝ) (h : shapeGradient E k eps v = (v', .ok g)) :
    ∃ o o2 a, E.solve v.ind = some o ∧ E.solve a = some o2 ∧ g = gradient k eps o o2 ∧
      a.auxF.take (perturbed k eps o).length = perturbed k eps o ∧ a.auxS.take o.sHalf.length = o.sHalf ∧ a.rest = v.ind.rest ∧ a.poly = v.ind.poly ∧ a.auxF.length = v.ind.auxF.length ∧
      v'.ind = v.ind ∧ v'.need = true ∧ v'.profile = none ∧ (run E v').2 = some o := by
  have hrun : ∀ v1 o, run E v = (v1, some o) → E.solve v.ind = some o ∧ v1.ind = v.ind ∧ v1.profile = none := by
    intro v1 o h1
    rw [run_none E v hp] at h1
    by_cases hn : v.need = false
    · rw [if_pos hn] at h1
      simp only [Prod.mk.injEq] at h1
      obtain ⟨rfl, h2⟩ := h1
      exact ⟨by rw [← hc hn]; exact h2, rfl, hp⟩
    · rw [if_neg hn] at h1
      cases hs : E.solve v.ind with
      | none => rw [hs] at h1; simp at h1
      | some o' => rw [hs] at h1; simp only [Prod.mk.injEq, Option.some.injEq] at h1; obtain ⟨rfl, rfl⟩ := h1; exact ⟨rfl, rfl, hp⟩
  unfold shapeGradient at h
  cases hr : run E v with
  | mk v1 r =>
    rw [hr] at h
    cases r with
    | none => simp at h
    | some o =>
      obtain ⟨hs, hi, hp1⟩ := hrun v1 o hr
      simp only at h
      by_cases hlen : v1.ind.auxF.length < (perturbed k eps o).length ∨ v1.ind.auxS.length < o.sHalf.length
      · rw [if_pos hlen] at h; simp at h
      · rw [if_neg hlen] at h
        rw [run_none E _ (show ({ v1 with ind := adjointInput k eps o v1.ind, need := true } : Vm R).profile = none from hp1), if_neg (by simp)] at h
        simp only at h
        cases hs2 : E.solve (adjointInput k eps o v1.ind) with
        | none => rw [hs2] at h; simp at h
        | some o2 =>
          rw [hs2] at h
          simp only [Prod.mk.injEq, Except.ok.injEq] at h
          obtain ⟨rfl, rfl⟩ := h
          rw [hi] at hlen hs2
          rw [not_or] at hlen
          have hind : ({ adjointInput k eps o v1.ind with auxF := v1.ind.auxF, auxS := v1.ind.auxS, typ := v1.ind.typ, curtor := (if k.pressure then (adjointInput k eps o v1.ind).curtor else v1.ind.curtor) } : Indata R) = v.ind := by
            rw [hi]
            unfold adjointInput
            cases k <;> rfl
          refine ⟨o, o2, adjointInput k eps o v.ind, hs, hs2, rfl, ?_, ?_, rfl, rfl, ?_, hind, rfl, hp1, ?_⟩
          · show List.take _ (perturbed k eps o ++ _) = _
            rw [List.take_left]
          · show List.take _ (o.sHalf ++ _) = _
            rw [List.take_left]
          · show (perturbed k eps o ++ List.replicate (v.ind.auxF.length - (perturbed k eps o).length) (-1)).length = _
            rw [List.length_append, List.length_replicate]; omega
          · rw [run_none E _ (by exact hp1), if_neg (by simp)]
            have : E.solve ({ adjointInput k eps o v1.ind with auxF := v1.ind.auxF, auxS := v1.ind.auxS, typ := v1.ind.typ, curtor := (if k.pressure then (adjointInput k eps o v1.ind).curtor else v1.ind.curtor) } : Indata R) = some o := by
              rw [hind]; exact hs
            simp only [this]

/-- **C169** (violated): there is no `try`/`finally`.  If the perturbed run does not converge, the perturbed profile stays in the inputs, and every later evaluation is made with it: it fails although it succeeded before. -/
theorem C169_failure_violated {R : Type} (E : Env R) (k : Kind) (eps : ℝ) (v : Vm R) (o : Out) (hp : v.profile = none) (hc : Current E v) (hs : E.solve v.ind = some o)
    (hl : (perturbed k eps o).length ≤ v.ind.auxF.length ∧ o.sHalf.length ≤ v.ind.auxS.length) (hf : E.solve (adjointInput k eps o v.ind) = none) :
    (run E v).2 = some o ∧ (shapeGradient E k eps v).2 = .error .runtimeError ∧ (shapeGradient E k eps v).1.ind = adjointInput k eps o v.ind ∧ (run E (shapeGradient E k eps v).1).2 = none := by
  have hr : ∃ v1, run E v = (v1, some o) ∧ v1.ind = v.ind ∧ v1.profile = none := by
    rw [run_none E v hp]
    by_cases hn : v.need = false
    · rw [if_pos hn]; exact ⟨v, by rw [hc hn, hs], rfl, hp⟩
    · rw [if_neg hn, hs]; exact ⟨_, rfl, rfl, hp⟩
  obtain ⟨v1, hr, hi, hp1⟩ := hr
  have e : shapeGradient E k eps v = ({ v1 with ind := adjointInput k eps o v1.ind, need := true }, .error .runtimeError) := by
    unfold shapeGradient
    rw [hr]
    simp only
    rw [if_neg (by rw [hi]; omega), run_none E _ (show ({ v1 with ind := adjointInput k eps o v1.ind, need := true } : Vm R).profile = none from hp1), if_neg (by simp)]
    simp only
    rw [hi, hf]
  rw [hr, e]
  refine ⟨rfl, rfl, by simp only; rw [hi], ?_⟩
  rw [run_none E _ (show ({ v1 with ind := adjointInput k eps o v1.ind, need := true } : Vm R).profile = none from hp1), if_neg (by simp)]
  simp only
  rw [hi, hf]

/-- **C169** (violated): if VMEC's radial grid has more surfaces than the auxiliary arrays have entries, the gradient raises `ValueError` and leaves the auxiliary arrays filled with -1, without asking for a new run. -/
theorem C169_size_violated {R : Type} (E : Env R) (k : Kind) (eps : ℝ) (v : Vm R) (o : Out) (hn : v.need = false) (hw : v.wout = some o) (hl : v.ind.auxS.length < o.sHalf.length) :
    (shapeGradient E k eps v).2 = .error .valueError ∧ (shapeGradient E k eps v).1.ind.auxF = List.replicate v.ind.auxF.length (-1) ∧ (shapeGradient E k eps v).1.need = false := by
  have hr : run E v = (v, some o) := by unfold run; rw [if_pos hn, hw]
  have e : shapeGradient E k eps v = ({ v with ind := { v.ind with auxF := List.replicate v.ind.auxF.length (-1), auxS := List.replicate v.ind.auxS.length (-1) } }, .error .valueError) := by
    unfold shapeGradient
    rw [hr]
    exact if_pos (Or.inr hl)
  rw [e]
  exact ⟨rfl, rfl, hn⟩

/-- **C169** (violated): with a profile object for the perturbed profile, `set_indata` overwrites the perturbation: the second equilibrium does not depend on `adjoint_epsilon` nor on the objective, so that the "gradient" is not a derivative. -/
theorem C169_profile_violated {R : Type} (E : Env R) (t t' : ℝ → ℝ) (eps eps' : ℝ) (v va vb : Vm R) (p : Prof) (hp : v.profile = some p) (hcur : v.current = true) (g g' : List ℝ)
    (h : shapeGradient E (.iotaTarget t) eps v = (va, .ok g)) (h' : shapeGradient E (.iotaTarget t') eps' v = (vb, .ok g')) :
    ∃ o o2 : Out, g = (deltaBB eps o o2).map (fun x => x / (2 * Real.pi * mu0)) ∧ g' = (deltaBB eps' o o2).map (fun x => x / (2 * Real.pi * mu0)) := by
  have hpr : ∀ v1 r, run E v = (v1, r) → v1.profile = some p ∧ v1.current = true := by
    intro v1 r h1
    unfold run at h1
    by_cases hn : v.need = false
    · rw [if_pos hn] at h1; cases h1; exact ⟨hp, hcur⟩
    · rw [if_neg hn] at h1
      simp only at h1
      cases hs : E.solve (setIndata E v) <;> rw [hs] at h1 <;> (cases h1; exact ⟨hp, hcur⟩)
  cases hr : run E v with
  | mk v1 r =>
    obtain ⟨hp1, hc1⟩ := hpr v1 r hr
    cases r with
    | none => unfold shapeGradient at h; rw [hr] at h; simp at h
    | some o =>
      have hin : ∀ (t : ℝ → ℝ) (eps : ℝ), setIndata E { v1 with ind := adjointInput (.iotaTarget t) eps o v1.ind, need := true } =
          { v1.ind with
            auxS := pad ((List.range v1.npts).map fun (i : ℕ) => (i : ℝ) / (v1.npts - 1 : ℕ)) (o.sHalf ++ List.replicate (v1.ind.auxS.length - o.sHalf.length) (-1)).length
            auxF := pad (((List.range v1.npts).map fun (i : ℕ) => (i : ℝ) / (v1.npts - 1 : ℕ)).map p.f)
              (min o.base.length (min o.iotas.length o.sHalf.length) + (v1.ind.auxF.length - min o.base.length (min o.iotas.length o.sHalf.length)))
            typ := .lineSegment
            curtor := p.f 1 } := by
        intro t eps
        unfold setIndata
        simp only [hp1, adjointInput, hc1, if_true, Kind.pressure, Bool.false_eq_true, if_false]
        congr 2
        simp [perturbed, perturbation]
      have step : ∀ (t : ℝ → ℝ) (eps : ℝ) (w : Vm R) (g : List ℝ), shapeGradient E (.iotaTarget t) eps v = (w, .ok g) → ∃ o2,
          E.solve (setIndata E { v1 with ind := adjointInput (.iotaTarget t) eps o v1.ind, need := true }) = some o2 ∧ g = gradient (.iotaTarget t) eps o o2 := by
        intro t eps w g h
        unfold shapeGradient at h
        rw [hr] at h
        simp only at h
        by_cases hlen : v1.ind.auxF.length < (perturbed (.iotaTarget t) eps o).length ∨ v1.ind.auxS.length < o.sHalf.length
        · rw [if_pos hlen] at h; simp at h
        · rw [if_neg hlen] at h
          have er := run_true E { v1 with ind := adjointInput (.iotaTarget t) eps o v1.ind, need := true } rfl
          rw [er] at h
          cases hs2 : E.solve (setIndata E { v1 with ind := adjointInput (.iotaTarget t) eps o v1.ind, need := true }) with
          | none => rw [hs2] at h; simp at h
          | some o2 =>
            rw [hs2] at h
            simp only [Prod.mk.injEq, Except.ok.injEq] at h
            exact ⟨o2, rfl, h.2.symm⟩
      obtain ⟨o2, s2, rfl⟩ := step t eps va g h
      obtain ⟨o2', s2', rfl⟩ := step t' eps' vb g' h'
      rw [hin] at s2 s2'
      rw [s2] at s2'
      cases s2'
      exact ⟨o, o2, rfl, rfl⟩

/-- The hypotheses of `C169_adjoint` are met: a solver that always converges, two half-grid surfaces. -/
example : ∃ (E : Env Unit) (v v' : Vm Unit) (g : List ℝ), v.profile = none ∧ Current E v ∧ shapeGradient E (.iotaTarget fun _ => 1) 0.1 v = (v', .ok g) := by
  let o : Out := ⟨[1, 2], [3, 4], [1, 1], [1 / 4, 3 / 4], 1 / 2, 1, 1, [(1, 0, 0)]⟩
  let E : Env Unit := ⟨fun _ => some o, fun _ _ => []⟩
  let v : Vm Unit := ⟨⟨[0, 0, 0], [0, 0, 0], .powerSeries, 0, [], ()⟩, none, true, none, 2, true⟩
  refine ⟨E, v, (shapeGradient E (.iotaTarget fun _ => 1) 0.1 v).1, gradient (.iotaTarget fun _ => 1) 0.1 o o, rfl, fun h => by simp [v] at h, ?_⟩
  have e : run E v = ({ v with wout := some o, need := false }, some o) := rfl
  unfold shapeGradient
  rw [e]
  simp only
  rw [if_neg (by simp [perturbed, perturbation, o, v])]
  rfl

end Simsopt.Metrics
