import Verif.PyList
import Mathlib.Algebra.BigOperators.Group.Finset.Basic
import Mathlib.Algebra.Order.BigOperators.Group.Finset
import Mathlib.Algebra.BigOperators.Field
import Mathlib.Analysis.SpecialFunctions.Sqrt
import Mathlib.Analysis.SpecialFunctions.Trigonometric.Basic
import Mathlib.Algebra.BigOperators.Fin
import Mathlib.Data.Fin.VecNotation
import Mathlib.Tactic.Ring
import Mathlib.Tactic.Linarith
import Mathlib.Tactic.Positivity
import Mathlib.Tactic.FieldSimp
import Mathlib.Tactic.NormNum
/-!
# The bootstrap-current mismatch (C178)

Model of `VmecRedlBootstrapMismatch` (src/simsopt/mhd/bootstrap.py L635-748), of the geometry classes `RedlGeomVmec.__call__` (L432-515) and `RedlGeomBoozer.__call__` (L544-633) as far as the surfaces and the Fourier sums go, and of scipy's linear `interp1d` (external; its documented rule).  Real numbers instead of doubles.
-/
namespace Simsopt.Bootstrap
open Real
variable {n : ℕ}

/-- `denominator` (L740). -/
noncomputable def denominator (v r : Fin n → ℝ) : ℝ := ∑ j, (v j + r j) ^ 2
/-- `residuals()` (L741), from the current `v` of VMEC and the current `r` of the Redl formulae on the surfaces. -/
noncomputable def residual (v r : Fin n → ℝ) (j : Fin n) : ℝ := (v j - r j) / √(denominator v r)
/-- `J()` (L748). -/
noncomputable def mismatch (v r : Fin n → ℝ) : ℝ := ∑ j, residual v r j ^ 2

/-- **C178** The objective times `Σ (v + r)²` is `Σ (v - r)²`: it is the ratio of the documented sums. -/
theorem C178_ratio (v r : Fin n → ℝ) (h : ∃ j, v j + r j ≠ 0) :
    0 < ∑ j, (v j + r j) ^ 2 ∧ mismatch v r = (∑ j, (v j - r j) ^ 2) / ∑ j, (v j + r j) ^ 2 := by
  have hp : 0 < denominator v r := by
    obtain ⟨j, hj⟩ := h
    exact Finset.sum_pos' (fun i _ => sq_nonneg _) ⟨j, Finset.mem_univ _, by positivity⟩
  refine ⟨hp, ?_⟩
  simp only [mismatch, residual, div_pow, sq_sqrt hp.le]
  rw [← Finset.sum_div]
  rfl

/-- **C178** The objective is never negative, is zero exactly if the two currents agree on every surface, is at most 1 if on every surface they do not have opposite signs, is symmetric in the two currents, and does not change if both are multiplied by the same non-zero number. -/
theorem C178_objective (v r : Fin n → ℝ) (h : ∃ j, v j + r j ≠ 0) :
    0 ≤ mismatch v r ∧ (mismatch v r = 0 ↔ ∀ j, v j = r j) ∧ ((∀ j, 0 ≤ v j * r j) → mismatch v r ≤ 1) ∧ mismatch r v = mismatch v r ∧
    ∀ k : ℝ, k ≠ 0 → mismatch (fun j => k * v j) (fun j => k * r j) = mismatch v r := by
  obtain ⟨hp, he⟩ := C178_ratio v r h
  refine ⟨Finset.sum_nonneg fun i _ => sq_nonneg _, ?_, ?_, ?_, ?_⟩
  · rw [he, div_eq_zero_iff, or_iff_left hp.ne', Finset.sum_eq_zero_iff_of_nonneg fun i _ => sq_nonneg _]
    simp [sub_eq_zero]
  · intro hs
    rw [he, div_le_one hp]
    exact Finset.sum_le_sum fun j _ => by nlinarith [hs j]
  · obtain ⟨j, hj⟩ := h
    rw [he, (C178_ratio r v ⟨j, by rwa [add_comm]⟩).2]
    congr 1 <;> exact Finset.sum_congr rfl fun i _ => by ring
  · intro k hk
    obtain ⟨j, hj⟩ := h
    rw [he, (C178_ratio _ _ ⟨j, by rw [← mul_add]; exact mul_ne_zero hk hj⟩).2]
    have e1 : ∑ j, (k * v j - k * r j) ^ 2 = k ^ 2 * ∑ j, (v j - r j) ^ 2 := by
      rw [Finset.mul_sum]; exact Finset.sum_congr rfl fun i _ => by ring
    have e2 : ∑ j, (k * v j + k * r j) ^ 2 = k ^ 2 * ∑ j, (v j + r j) ^ 2 := by
      rw [Finset.mul_sum]; exact Finset.sum_congr rfl fun i _ => by ring
    rw [e1, e2, mul_div_mul_left _ _ (pow_ne_zero 2 hk)]

/-- **C178** The residual of a surface is zero exactly if the currents agree there, changes sign if the currents are exchanged, and its sign is that of the excess of VMEC's current. -/
theorem C178_residual (v r : Fin n → ℝ) (h : ∃ j, v j + r j ≠ 0) (j : Fin n) :
    (residual v r j = 0 ↔ v j = r j) ∧ residual r v j = -residual v r j ∧ (0 < residual v r j ↔ r j < v j) := by
  have hp : 0 < denominator v r := (C178_ratio v r h).1
  have hq := sqrt_pos.mpr hp
  have hs : denominator r v = denominator v r := Finset.sum_congr rfl fun i _ => by ring
  refine ⟨?_, ?_, ?_⟩
  · rw [residual, div_eq_zero_iff, or_iff_left hq.ne', sub_eq_zero]
  · rw [residual, residual, hs]; ring
  · rw [residual, lt_div_iff₀ hq, zero_mul, sub_pos]

/-! ## Linear interpolation -/

/-- The upper of the two grid points between which scipy's linear `interp1d` interpolates: the number of grid points below `t`, at least 1 and at most `m - 1` for `m` grid points. -/
noncomputable def upper (m : ℕ) (x : ℕ → ℝ) (t : ℝ) : ℕ := by
  classical exact min (max ((Finset.range m).filter fun i => x i < t).card 1) (m - 1)
/-- The value of the line through the points `i - 1` and `i` at `t`. -/
noncomputable def line (x y : ℕ → ℝ) (i : ℕ) (t : ℝ) : ℝ := (y i - y (i - 1)) / (x i - x (i - 1)) * (t - x (i - 1)) + y (i - 1)
/-- `interp1d(x, y, fill_value="extrapolate")(t)` (L452-465, L567-582) for a grid of `m` points. -/
noncomputable def interpolate (m : ℕ) (x y : ℕ → ℝ) (t : ℝ) : ℝ := line x y (upper m x t) t
open Classical in
/-- `interp1d(x, y)(t)` (L717-718): outside the grid it raises. -/
noncomputable def interpolateIn (m : ℕ) (x y : ℕ → ℝ) (t : ℝ) : Except Err ℝ :=
  if t < x 0 ∨ x (m - 1) < t then .error .valueError else .ok (interpolate m x y t)

theorem upper_between (m : ℕ) (x : ℕ → ℝ) (hx : StrictMono x) (i : ℕ) (hi : i + 1 < m) (t : ℝ) (h0 : x i < t) (h1 : t ≤ x (i + 1)) : upper m x t = i + 1 := by
  classical
  have hc : (Finset.range m).filter (fun j => x j < t) = Finset.range (i + 1) := by
    ext j
    simp only [Finset.mem_filter, Finset.mem_range]
    constructor
    · intro ⟨_, hj⟩
      by_contra hn
      exact absurd (lt_of_lt_of_le hj h1) (not_lt.mpr (hx.monotone (by omega)))
    · intro hj
      exact ⟨by omega, lt_of_le_of_lt (hx.monotone (by omega)) h0⟩
  have : ((Finset.range m).filter fun j => x j < t).card = i + 1 := by rw [hc, Finset.card_range]
  unfold upper
  simp only [this]
  omega

theorem upper_range (m : ℕ) (hm : 2 ≤ m) (x : ℕ → ℝ) (t : ℝ) : 1 ≤ upper m x t ∧ upper m x t ≤ m - 1 := by
  unfold upper
  constructor <;> omega

/-- **C178** Between two neighbouring grid points (the right one included) the interpolated profile is the weighted mean of their two values, hence between them, and at a point of VMEC's half grid, midway between two points of the uniform full grid, it is their arithmetic mean. -/
theorem C178_between (m : ℕ) (x y : ℕ → ℝ) (hx : StrictMono x) (i : ℕ) (hi : i + 1 < m) (t : ℝ) (h0 : x i < t) (h1 : t ≤ x (i + 1)) :
    (∃ w : ℝ, 0 ≤ w ∧ w ≤ 1 ∧ t = (1 - w) * x i + w * x (i + 1) ∧ interpolate m x y t = (1 - w) * y i + w * y (i + 1)) ∧
    (t = (x i + x (i + 1)) / 2 → interpolate m x y t = (y i + y (i + 1)) / 2) := by
  have hd : 0 < x (i + 1) - x i := sub_pos.mpr (hx (by omega))
  have he : interpolate m x y t = (y (i + 1) - y i) / (x (i + 1) - x i) * (t - x i) + y i := by
    rw [interpolate, upper_between m x hx i hi t h0 h1]; rfl
  constructor
  · refine ⟨(t - x i) / (x (i + 1) - x i), ?_, ?_, ?_, ?_⟩
    · exact div_nonneg (by linarith) hd.le
    · rw [div_le_one hd]; linarith
    · field_simp; ring
    · rw [he]; field_simp; ring
  · intro ht
    rw [he, ht]; field_simp; ring

/-- **C178** At a grid point the interpolated profile is the value given there, including the first point. -/
theorem C178_nodes (m : ℕ) (hm : 2 ≤ m) (x y : ℕ → ℝ) (hx : StrictMono x) (i : ℕ) (hi : i < m) : interpolate m x y (x i) = y i := by
  classical
  cases i with
  | zero =>
    have hu : upper m x (x 0) = 1 := by
      have hc : (Finset.range m).filter (fun j => x j < x 0) = ∅ :=
        Finset.filter_eq_empty_iff.mpr fun j _ => not_lt.mpr (hx.monotone (Nat.zero_le j))
      have : ((Finset.range m).filter fun j => x j < x 0).card = 0 := by rw [hc, Finset.card_empty]
      unfold upper
      simp only [this]
      omega
    rw [interpolate, hu, line]; simp
  | succ i =>
    have hd : 0 < x (i + 1) - x i := sub_pos.mpr (hx (by omega))
    rw [interpolate, upper_between m x hx i hi _ (hx (by omega)) le_rfl, line, Nat.add_sub_cancel]
    field_simp; ring

/-- **C178** A profile linear in s is reproduced at every point, also beyond the grid, where the geometry extrapolates. -/
theorem C178_extrapolation (m : ℕ) (hm : 2 ≤ m) (x y : ℕ → ℝ) (hx : StrictMono x) (a b : ℝ) (hy : ∀ i < m, y i = a * x i + b) (t : ℝ) : interpolate m x y t = a * t + b := by
  obtain ⟨h1, h2⟩ := upper_range m hm x t
  rw [interpolate, line]
  generalize upper m x t = u at h1 h2
  have hd : 0 < x u - x (u - 1) := sub_pos.mpr (hx (by omega))
  rw [hy u (by omega), hy (u - 1) (by omega)]
  field_simp; ring

/-- **C178** VMEC's current is refused outside the full grid and interpolated inside. -/
theorem C178_range (m : ℕ) (x y : ℕ → ℝ) (t : ℝ) :
    (t < x 0 ∨ x (m - 1) < t → interpolateIn m x y t = .error .valueError) ∧ (x 0 ≤ t → t ≤ x (m - 1) → interpolateIn m x y t = .ok (interpolate m x y t)) := by
  refine ⟨fun h => if_pos h, fun h1 h2 => if_neg ?_⟩
  rintro (h | h) <;> linarith

/-! ## The geometry -/

/-- A call of `RedlGeomVmec` (L439-441): the attribute `surfaces` and the half grid of the VMEC run give the surfaces used and the new attribute. -/
def vmecSurfaces (attr : Option (List ℝ)) (half : List ℝ) : List ℝ × Option (List ℝ) :=
  match attr with
  | none => (half, some half)
  | some s => (s, some s)
/-- The surfaces used by successive calls, for the half grids of the successive VMEC runs. -/
def vmecCalls (attr : Option (List ℝ)) : List (List ℝ) → List (List ℝ)
  | [] => []
  | half :: rest => (vmecSurfaces attr half).1 :: vmecCalls (vmecSurfaces attr half).2 rest

theorem vmecCalls_some (s : List ℝ) (hs : List (List ℝ)) : vmecCalls (some s) hs = hs.map fun _ => s := by
  induction hs with
  | nil => rfl
  | cons h t ih => simp [vmecCalls, vmecSurfaces, ih]

/-- **C178** Surfaces given by the user are used at every call; without them the half grid of VMEC is used, as long as its resolution does not change. -/
theorem C178_surfaces (s half : List ℝ) (hs : List (List ℝ)) :
    vmecCalls (some s) hs = hs.map (fun _ => s) ∧ ((∀ h ∈ hs, h = half) → vmecCalls none hs = hs) := by
  refine ⟨vmecCalls_some s hs, ?_⟩
  intro hh
  cases hs with
  | nil => rfl
  | cons a t =>
    have ha := hh a (by simp)
    show a :: vmecCalls (some a) t = a :: t
    rw [vmecCalls_some, ha]
    congr 1
    conv_rhs => rw [← List.map_id t]
    exact List.map_congr_left fun b hb => (hh b (by simp [hb])).symm

/-- **C178, exception** Once it has been called without given surfaces, the geometry keeps the first half grid: if the resolution of VMEC changes later, the surfaces no longer are its half grid. -/
theorem C178_surfaces_violated (a b : List ℝ) (h : a ≠ b) : vmecCalls none [a, b] = [a, a] ∧ vmecCalls none [a, b] ≠ [a, b] := by
  refine ⟨rfl, ?_⟩
  intro e
  have : a = b := by
    have := congrArg (fun l => l[1]?) e
    simpa [vmecCalls, vmecSurfaces] using this
  exact h this

/-- A Fourier mode: poloidal number, toroidal number (field periods included), amplitude on a surface. -/
structure Mode where
  m : ℝ
  n : ℝ
  b : ℝ

/-- `modB` and `sqrtg` of `RedlGeomVmec` on a surface at two angles (L474-483). -/
noncomputable def vmecSum (l : List Mode) (θ φ : ℝ) : ℝ := (l.map fun q => q.b * cos (q.m * θ - q.n * φ)).sum
open Classical in
/-- `modB` and `sqrtg` of `RedlGeomBoozer` on a surface at a poloidal angle (L589-596). -/
noncomputable def boozerSum (h nfp : ℝ) (l : List Mode) (θ : ℝ) : ℝ := ((l.filter fun q => q.m * h * nfp = q.n).map fun q => cos (q.m * θ) * q.b).sum
/-- The modes which break the symmetry of helicity `h`. -/
def Breaks (h nfp : ℝ) (q : Mode) : Prop := q.m * h * nfp ≠ q.n

open Classical in
/-- **C178** The field strength of `RedlGeomBoozer`, at the helical angle `θ - h nfp φ`, is the sum over the modes which do not break the symmetry; the symmetry-breaking modes do not matter, and a quasisymmetric spectrum is reproduced exactly. -/
theorem C178_boozer (h nfp : ℝ) (l : List Mode) (θ φ : ℝ) :
    boozerSum h nfp l (θ - h * nfp * φ) = vmecSum (l.filter fun q => ¬Breaks h nfp q) θ φ ∧
    ((∀ q ∈ l, Breaks h nfp q → q.b = 0) → boozerSum h nfp l (θ - h * nfp * φ) = vmecSum l θ φ) := by
  have step : ∀ (q : Mode) (t : List Mode), vmecSum (q :: t) θ φ = q.b * cos (q.m * θ - q.n * φ) + vmecSum t θ φ := fun q t => by simp [vmecSum]
  constructor
  · induction l with
    | nil => rfl
    | cons q t ih =>
      by_cases hb : q.m * h * nfp = q.n
      · have e : boozerSum h nfp (q :: t) (θ - h * nfp * φ) = cos (q.m * (θ - h * nfp * φ)) * q.b + boozerSum h nfp t (θ - h * nfp * φ) := by
          simp [boozerSum, hb]
        have f : (q :: t).filter (fun q => ¬Breaks h nfp q) = q :: t.filter fun q => ¬Breaks h nfp q := by
          simp [Breaks, hb]
        rw [e, f, step, ih, ← hb]
        ring_nf
      · have e : boozerSum h nfp (q :: t) (θ - h * nfp * φ) = boozerSum h nfp t (θ - h * nfp * φ) := by
          simp [boozerSum, hb]
        have f : (q :: t).filter (fun q => ¬Breaks h nfp q) = t.filter fun q => ¬Breaks h nfp q := by
          simp [Breaks, hb]
        rw [e, f, ih]
  · intro hq
    induction l with
    | nil => rfl
    | cons q t ih =>
      have ih' := ih fun q hq' => hq q (by simp [hq'])
      rw [step, ← ih']
      by_cases hb : q.m * h * nfp = q.n
      · have e : boozerSum h nfp (q :: t) (θ - h * nfp * φ) = cos (q.m * (θ - h * nfp * φ)) * q.b + boozerSum h nfp t (θ - h * nfp * φ) := by
          simp [boozerSum, hb]
        rw [e, ← hb]
        ring_nf
      · have e : boozerSum h nfp (q :: t) (θ - h * nfp * φ) = boozerSum h nfp t (θ - h * nfp * φ) := by
          simp [boozerSum, hb]
        rw [e, hq q (by simp) hb]
        ring

/-! ## The log file -/

/-- A line of the log: the heading, the surfaces, the column names, or the row of an evaluation with the two profiles. -/
inductive Line where
  | heading
  | surfaces (s : List ℝ)
  | columns
  | row (k : ℕ) (redl vmec : List ℝ)

/-- The object's counter and, if `logfile` is given, the content of the file (`none`: no log file). -/
structure Log where
  iteration : ℕ
  file : Option (List Line)

/-- The part of `residuals()` which writes (L720-739): at the first evaluation the file is truncated and the head written. -/
def Log.evaluate (g : Log) (s redl vmec : List ℝ) : Log where
  iteration := g.iteration + 1
  file := g.file.map fun f => (if g.iteration = 0 then [.heading, .surfaces s, .columns] else f) ++ [.row g.iteration redl vmec]
/-- Successive evaluations, of the residuals or of `J`, with the profiles of each. -/
def Log.run (g : Log) (s : List ℝ) : List (List ℝ × List ℝ) → Log
  | [] => g
  | q :: rest => Log.run (g.evaluate s q.1 q.2) s rest
/-- The rows of evaluations numbered from `k`. -/
def rows (k : ℕ) : List (List ℝ × List ℝ) → List Line
  | [] => []
  | q :: rest => .row k q.1 q.2 :: rows (k + 1) rest

theorem run_pos (s : List ℝ) (l : List (List ℝ × List ℝ)) : ∀ g : Log, 0 < g.iteration →
    (g.run s l).iteration = g.iteration + l.length ∧ (g.run s l).file = g.file.map (· ++ rows g.iteration l) := by
  induction l with
  | nil => intro g _; simp [Log.run, rows]
  | cons q t ih =>
    intro g hg
    obtain ⟨h1, h2⟩ := ih (g.evaluate s q.1 q.2) (Nat.succ_pos _)
    refine ⟨?_, ?_⟩
    · show ((g.evaluate s q.1 q.2).run s t).iteration = _
      rw [h1]; simp [Log.evaluate]; omega
    · show ((g.evaluate s q.1 q.2).run s t).file = _
      rw [h2]
      cases hf : g.file with
      | none => simp [Log.evaluate, hf]
      | some f => simp [Log.evaluate, hf, rows, hg.ne']

/-- **C178** After any positive number of evaluations the log file, whatever it contained before, has the head once and one row per evaluation, numbered from 0 in order, with the two profiles of that evaluation; without evaluation it is untouched, and without `logfile` nothing is written. -/
theorem C178_log (s : List ℝ) (l : List (List ℝ × List ℝ)) (old : List Line) :
    (Log.run ⟨0, some old⟩ s l).iteration = l.length ∧
    (Log.run ⟨0, some old⟩ s l).file = (if l = [] then some old else some ([.heading, .surfaces s, .columns] ++ rows 0 l)) ∧
    (Log.run ⟨0, none⟩ s l).file = none := by
  cases l with
  | nil => exact ⟨rfl, rfl, rfl⟩
  | cons q t =>
    obtain ⟨h1, h2⟩ := run_pos s t (Log.evaluate ⟨0, some old⟩ s q.1 q.2) (Nat.succ_pos _)
    obtain ⟨_, h3⟩ := run_pos s t (Log.evaluate ⟨0, none⟩ s q.1 q.2) (Nat.succ_pos _)
    refine ⟨?_, ?_, ?_⟩
    · show ((Log.evaluate ⟨0, some old⟩ s q.1 q.2).run s t).iteration = _
      rw [h1]; simp [Log.evaluate]; omega
    · show ((Log.evaluate ⟨0, some old⟩ s q.1 q.2).run s t).file = _
      rw [h2]; simp [Log.evaluate, rows]
    · show ((Log.evaluate ⟨0, none⟩ s q.1 q.2).run s t).file = _
      rw [h3]; simp [Log.evaluate]

/-- The hypotheses hold in a concrete case: currents 3 and 1 on two surfaces give the value (4 + 0) / (16 + 4) = 1/5, and the currents agree on the second surface. -/
example : mismatch ![3, 1] ![1, 1] = 1 / 5 ∧ residual ![3, 1] ![1, 1] (1 : Fin 2) = 0 := by
  have h : ∃ j : Fin 2, (![3, 1] : Fin 2 → ℝ) j + (![1, 1] : Fin 2 → ℝ) j ≠ 0 := ⟨0, by norm_num⟩
  refine ⟨?_, (C178_residual _ _ h 1).1.mpr rfl⟩
  rw [(C178_ratio _ _ h).2]
  norm_num [Fin.sum_univ_two]
end Simsopt.Bootstrap
