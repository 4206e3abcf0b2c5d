import Verif.Interp.Props
import Mathlib.Data.List.GetD
/-!
# The interpolant at the edge of the domain and outside, and in skipped cells
-/
namespace Simsopt.Interp
open Finset

/-! ## Specification -/

/-- A user's function that evaluates `F` at each of its points. -/
noncomputable def ofFun (vs : ℕ) (F : ℝ → ℝ → ℝ → ℕ → ℝ) : Fun := fun xs ys zs m => F (xs.getD (m / vs) 0) (ys.getD (m / vs) 0) (zs.getD (m / vs) 0) (m % vs)

theorem ofFun_pointwise {vs : ℕ} (F : ℝ → ℝ → ℝ → ℕ → ℝ) : Pointwise vs (ofFun vs F) F := by
  intro ps j l hj hl
  have h0 : 0 < vs := by omega
  have e1 : (j * vs + l) / vs = j := by rw [mul_comm, Nat.mul_add_div h0, Nat.div_eq_of_lt hl, Nat.add_zero]
  have e2 : (j * vs + l) % vs = l := by rw [Nat.mul_comm, Nat.mul_add_mod, Nat.mod_eq_of_lt hl]
  unfold ofFun
  rw [e1, e2]
  simp [List.getD_eq_getElem?_getD, hj]

/-- The coordinate is so far outside the range that it is refused: 1e-13 or more above it, or a whole cell and 1e-13 or more below it. -/
def Refused (a : Axis) (x : ℝ) : Prop := a.hi + eps ≤ x ∨ x ≤ a.lo - a.h - eps

/-- The coordinate is in the cell `i` of an axis, or below the range and the cell is the first. -/
def Near (a : Axis) (i : ℕ) (x : ℝ) : Prop := i < a.n ∧ (a.mesh i ≤ x ∨ i = 0) ∧ x < a.mesh (i + 1)

/-! ## Proofs -/

theorem Axis.idx_eq {a : Axis} (h : a.lo < a.hi ∧ 0 < a.n) (x : ℝ) : a.idx x = trunc ((x - a.lo) / a.h) := by
  have hq : a.n * (x - a.lo) / (a.hi - a.lo) = (x - a.lo) / a.h := by
    have : a.hi - a.lo ≠ 0 := by linarith [h.1]
    have hn : (0 : ℝ) < a.n := by exact_mod_cast h.2
    unfold Axis.h
    field_simp
  unfold Axis.idx
  rw [hq]

/-- The truncation takes everything within one cell below the range to the first cell. -/
theorem Axis.idx_near {a : Axis} (h : a.lo < a.hi ∧ 0 < a.n) {x : ℝ} {i : ℕ} (hn : Near a i x) (hb : a.lo - a.h < x) : a.idx x = i := by
  have hh := Axis.h_pos h
  obtain ⟨hi, h1, h2⟩ := hn
  rcases lt_or_ge x a.lo with hx | hx
  · have hi0 : i = 0 := by
      rcases h1 with h1 | h1
      · rw [a.mesh_eq] at h1
        nlinarith [Nat.cast_nonneg (α := ℝ) i]
      · exact h1
    subst hi0
    rw [Axis.idx_eq h]
    have hneg : (x - a.lo) / a.h < 0 := div_neg_of_neg_of_pos (by linarith) hh
    unfold trunc
    rw [if_neg (by linarith), Int.ceil_eq_iff]
    constructor
    · rw [lt_div_iff₀ hh]; push_cast; linarith
    · push_cast; exact hneg.le
  · refine Axis.idx_of_mem h hi ?_ h2
    rcases h1 with h1 | h1
    · exact h1
    · subst h1; rw [a.mesh_eq]; simpa using hx

theorem Axis.idx_high {a : Axis} (h : a.lo < a.hi ∧ 0 < a.n) {x : ℝ} (hx : a.hi ≤ x) : (a.n : ℤ) ≤ a.idx x := by
  have hh := Axis.h_pos h
  rw [Axis.idx_eq h, trunc_of_nonneg (div_nonneg (by linarith [h.1]) hh.le), Int.le_floor, le_div_iff₀ hh]
  have := Axis.top h.2
  push_cast
  linarith

theorem Axis.idx_low {a : Axis} (h : a.lo < a.hi ∧ 0 < a.n) {x : ℝ} (hx : x ≤ a.lo - a.h) : a.idx x < 0 := by
  have hh := Axis.h_pos h
  have hle : (x - a.lo) / a.h ≤ -1 := by rw [div_le_iff₀ hh]; linarith
  rw [Axis.idx_eq h]
  unfold trunc
  rw [if_neg (by linarith)]
  have : ⌈(x - a.lo) / a.h⌉ ≤ -1 := Int.ceil_le.mpr (by push_cast; exact hle)
  omega

theorem eps_pos : 0 < eps := by unfold eps; norm_num

theorem Axis.mesh_top {a : Axis} (h : 0 < a.n) : a.mesh (a.n - 1 + 1) = a.hi := by
  rw [a.mesh_eq, Nat.sub_add_cancel h, Axis.top h]

/-- A coordinate that is not refused is taken to a cell. -/
theorem Axis.near_of {a : Axis} (h : a.lo < a.hi ∧ 0 < a.n) (he : eps < a.h) {x : ℝ} (hr : ¬ Refused a x) : ∃ i, Near a i (a.shift x) ∧ a.lo - a.h < a.shift x := by
  have e0 := eps_pos
  have hh := Axis.h_pos h
  unfold Refused at hr
  push Not at hr
  obtain ⟨h1, h2⟩ := hr
  unfold Axis.shift
  rcases le_or_gt a.hi x with hx | hx
  · rw [if_pos hx]
    have := Axis.top h.2
    refine ⟨a.n - 1, ⟨by omega, Or.inl ?_, ?_⟩, by nlinarith [h.1]⟩
    · rw [a.mesh_eq, Nat.cast_sub h.2]; push_cast; linarith
    · rw [Axis.mesh_top h.2]; linarith
  · rw [if_neg (by linarith)]
    rcases le_or_gt x a.lo with hx' | hx'
    · rw [if_pos hx']
      refine ⟨0, ⟨h.2, Or.inr rfl, ?_⟩, by linarith⟩
      rw [a.mesh_eq]; push_cast; linarith
    · rw [if_neg (by linarith)]
      obtain ⟨_, i, hi, _, x1, x2⟩ := Axis.idx_interior h hx' hx
      exact ⟨i, ⟨hi, Or.inl x1, x2⟩, by linarith⟩

theorem Axis.bad_of {a : Axis} (h : a.lo < a.hi ∧ 0 < a.n) {x : ℝ} (hr : Refused a x) : a.idx (a.shift x) < 0 ∨ a.idx (a.shift x) ≥ a.n := by
  have e0 := eps_pos
  have hh := Axis.h_pos h
  unfold Axis.shift
  rcases hr with hr | hr
  · rw [if_pos (by linarith)]
    exact Or.inr (Axis.idx_high h (by linarith))
  · rw [if_neg (by linarith [h.1]), if_pos (by linarith)]
    exact Or.inl (Axis.idx_low h (by linarith))

theorem eval_near {c : Cfg} {f : Fun} (hc : c.OK) {i j k : ℕ} {x y z : ℝ} (hx : Near c.x i (c.x.shift x)) (hx' : c.x.lo - c.x.h < c.x.shift x) (hy : Near c.y j (c.y.shift y)) (hy' : c.y.lo - c.y.h < c.y.shift y)
    (hz : Near c.z k (c.z.shift z)) (hz' : c.z.lo - c.z.h < c.z.shift z) :
    c.eval f x y z = if c.skipCell i j k then (if c.oob then .untouched else .error)
      else .written (c.sum f i j k ((c.x.shift x - c.x.mesh i) / c.x.h) ((c.y.shift y - c.y.mesh j) / c.y.h) ((c.z.shift z - c.z.mesh k) / c.z.h)) := by
  have e1 := Axis.idx_near hc.x hx hx'
  have e2 := Axis.idx_near hc.y hy hy'
  have e3 := Axis.idx_near hc.z hz hz'
  have hi := hx.1
  have hj := hy.1
  have hk := hz.1
  unfold Cfg.eval
  simp only [e1, e2, e3]
  have h1 : ¬ ((i : ℤ) < 0 ∨ (i : ℤ) ≥ c.x.n) := by omega
  have h2 : ¬ ((j : ℤ) < 0 ∨ (j : ℤ) ≥ c.y.n) := by omega
  have h3 : ¬ ((k : ℤ) < 0 ∨ (k : ℤ) ≥ c.z.n) := by omega
  rw [decide_eq_false h1, decide_eq_false h2, decide_eq_false h3]
  simp only [Bool.or_false, Bool.and_false, Bool.false_eq_true, if_false]
  rw [Axis.meshAt_nat _ hi.le, Axis.meshAt_nat _ hj.le, Axis.meshAt_nat _ hk.le]
  simp only
  unfold Cfg.evalLocal
  rw [find_eq hi hj hk]
  by_cases hs : c.skipCell i j k = true
  · rw [if_pos hs, if_pos hs]
  · rw [if_neg hs, if_neg hs]

/-- **C110.** With `extrapolate=False` and no skipped cells, a point raises the error exactly when one of its coordinates is at least 1e-13 above its range or at least a whole cell (and 1e-13) below it; at every other point the value is the polynomial of a cell that contains the point (after the 1e-13 shift of a coordinate on or beyond the edge), or of the first cell for a coordinate below the range. -/
theorem C110_error_iff (c : Cfg) (hc : c.OK) (hoob : c.oob = false) (hskip : ∀ i j k, c.skipMesh i j k = false) (he : eps < c.x.h ∧ eps < c.y.h ∧ eps < c.z.h)
    (f : Fun) (F : ℝ → ℝ → ℝ → ℕ → ℝ) (hf : Pointwise c.vs f F) (x y z : ℝ) :
    (c.eval f x y z = .error ↔ Refused c.x x ∨ Refused c.y y ∨ Refused c.z z) ∧
    (¬ (Refused c.x x ∨ Refused c.y y ∨ Refused c.z z) → ∃ i j k v, Near c.x i (c.x.shift x) ∧ Near c.y j (c.y.shift y) ∧ Near c.z k (c.z.shift z) ∧
      c.eval f x y z = .written v ∧ ∀ l < c.vs, v l = lag3 c i j k (fun X Y Z => F X Y Z l) (c.x.shift x) (c.y.shift y) (c.z.shift z)) := by
  have key : ¬ (Refused c.x x ∨ Refused c.y y ∨ Refused c.z z) → ∃ i j k v, Near c.x i (c.x.shift x) ∧ Near c.y j (c.y.shift y) ∧ Near c.z k (c.z.shift z) ∧
      c.eval f x y z = .written v ∧ ∀ l < c.vs, v l = lag3 c i j k (fun X Y Z => F X Y Z l) (c.x.shift x) (c.y.shift y) (c.z.shift z) := by
    intro hr
    push Not at hr
    obtain ⟨i, hi, hi'⟩ := Axis.near_of hc.x he.1 hr.1
    obtain ⟨j, hj, hj'⟩ := Axis.near_of hc.y he.2.1 hr.2.1
    obtain ⟨k, hk, hk'⟩ := Axis.near_of hc.z he.2.2 hr.2.2
    have hs : c.skipCell i j k = false := (corner_iff c i j k).mp ⟨0, by omega, 0, by omega, 0, by omega, hskip _ _ _⟩
    refine ⟨i, j, k, c.sum f i j k ((c.x.shift x - c.x.mesh i) / c.x.h) ((c.y.shift y - c.y.mesh j) / c.y.h) ((c.z.shift z - c.z.mesh k) / c.z.h), hi, hj, hk, ?_, fun l hl => sum_eq hc hf hi.1 hj.1 hk.1 hs hl _ _ _⟩
    rw [eval_near hc hi hi' hj hj' hk hk', if_neg (by rw [hs]; exact Bool.false_ne_true)]
  refine ⟨⟨fun herr => ?_, fun hr => ?_⟩, key⟩
  · by_contra hn
    obtain ⟨i, j, k, v, _, _, _, hv, _⟩ := key hn
    rw [hv] at herr
    cases herr
  · unfold Cfg.eval
    simp only [hoob]
    rcases hr with hr | hr | hr
    · rw [decide_eq_true (Axis.bad_of hc.x hr)]; simp
    · rw [decide_eq_true (Axis.bad_of hc.y hr)]; simp
    · rw [decide_eq_true (Axis.bad_of hc.z hr)]; simp

/-- **C110.** In a cell all of whose corners `skip` rejected, a point inside the domain is an error with `extrapolate=False`, and with `extrapolate=True` nothing is written: `evaluate` returns zeros. -/
theorem C110_skipped (c : Cfg) (hc : c.OK) (f : Fun) (x y z : ℝ) (h : Inside c x y z) (i j k : ℕ) (hcell : InCell c i j k x y z) (hno : ¬ Corner c i j k) :
    c.eval f x y z = if c.oob then .untouched else .error := by
  have hs : c.skipCell i j k = true := by
    by_contra hn
    exact hno ((corner_iff c i j k).mpr (by simpa using hn))
  rw [eval_cell hc (Axis.shift_interior h.x) (Axis.shift_interior h.y) (Axis.shift_interior h.z) hcell, if_pos hs]

/-- **C110.** What `extrapolate=True` does above the range of the last coordinate: the cell index one past the end is the first cell of the next row, so the value comes from the bottom of the domain and one cell further in the second coordinate. -/
theorem C110_wraps (c : Cfg) (hc : c.OK) (hoob : c.oob = true) (hskip : ∀ i j k, c.skipMesh i j k = false) (f : Fun) (F : ℝ → ℝ → ℝ → ℕ → ℝ) (hf : Pointwise c.vs f F)
    (x y z : ℝ) (i j : ℕ) (hx : c.x.lo < x ∧ x < c.x.hi) (hy : c.y.lo < y ∧ y < c.y.hi) (hi : i < c.x.n ∧ c.x.mesh i ≤ x ∧ x < c.x.mesh (i + 1)) (hj : j + 1 < c.y.n ∧ c.y.mesh j ≤ y ∧ y < c.y.mesh (j + 1))
    (hz : c.z.hi ≤ z - eps ∧ z - eps < c.z.hi + c.z.h) :
    ∃ v, c.eval f x y z = .written v ∧ ∀ l < c.vs, v l = lag3 c i (j + 1) 0 (fun X Y Z => F X Y Z l) x (y + c.y.h) (z - eps - (c.z.hi - c.z.lo)) := by
  have e0 := eps_pos
  have hh := Axis.h_pos hc.z
  have e1 := Axis.idx_of_mem hc.x hi.1 hi.2.1 hi.2.2
  have e2 := Axis.idx_of_mem hc.y (by omega : j < c.y.n) hj.2.1 hj.2.2
  have hs3 : c.z.shift z = z - eps := by unfold Axis.shift; rw [if_pos (by linarith)]
  have e3 : c.z.idx (z - eps) = (c.z.n : ℤ) := by
    rw [Axis.idx_eq hc.z, trunc_of_nonneg (div_nonneg (by linarith [hc.z.1]) hh.le), Int.floor_eq_iff]
    have := Axis.top hc.z.2
    push_cast
    constructor
    · rw [le_div_iff₀ hh]; linarith
    · rw [div_lt_iff₀ hh]; linarith
  have hidx : c.idxCell i j (c.z.n : ℤ) = c.idxCell (i : ℕ) ((j + 1 : ℕ) : ℤ) ((0 : ℕ) : ℤ) := by unfold Cfg.idxCell; push_cast; ring
  have hs : c.skipCell i (j + 1) 0 = false := (corner_iff c i (j + 1) 0).mp ⟨0, by omega, 0, by omega, 0, by omega, hskip _ _ _⟩
  refine ⟨c.sum f i (j + 1) 0 ((x - c.x.mesh i) / c.x.h) ((y - c.y.mesh j) / c.y.h) ((z - eps - c.z.mesh c.z.n) / c.z.h), ?_, fun l hl => ?_⟩
  · unfold Cfg.eval
    simp only [Axis.shift_interior hx, Axis.shift_interior hy, hs3, e1, e2, e3, hoob, Bool.not_true, Bool.false_and, Bool.false_eq_true, if_false]
    rw [Axis.meshAt_nat _ hi.1.le, Axis.meshAt_nat _ (by omega : j ≤ c.y.n), Axis.meshAt_nat _ le_rfl]
    simp only
    unfold Cfg.evalLocal
    rw [hidx, find_eq hi.1 hj.1 hc.z.2, if_neg (by rw [hs]; exact Bool.false_ne_true)]
  · rw [← sum_eq hc hf hi.1 hj.1 hc.z.2 hs hl]
    have t1 : (y - c.y.mesh j) / c.y.h = (y + c.y.h - c.y.mesh (j + 1)) / c.y.h := by
      congr 1; rw [c.y.mesh_eq, c.y.mesh_eq]; push_cast; ring
    have t2 : (z - eps - c.z.mesh c.z.n) / c.z.h = (z - eps - (c.z.hi - c.z.lo) - c.z.mesh 0) / c.z.h := by
      congr 1; rw [c.z.mesh_eq, c.z.mesh_eq, Axis.top hc.z.2]; push_cast; ring
    rw [t1, t2]

/-! ## Witnesses -/

/-- Linear interpolation on two cells each way over `[0,2]³`. -/
noncomputable def demo (oob : Bool) : Cfg := ⟨uniform 1, ⟨0, 2, 2⟩, ⟨0, 2, 2⟩, ⟨0, 2, 2⟩, 1, oob, 4, fun _ _ _ => false⟩

theorem demo_ok (b : Bool) : (demo b).OK := ⟨uniform_ok one_pos, ⟨by simp [demo], by simp [demo]⟩, ⟨by simp [demo], by simp [demo]⟩, ⟨by simp [demo], by simp [demo]⟩, by simp [demo]⟩

/-- The height, as the function to interpolate. -/
def height : ℝ → ℝ → ℝ → ℕ → ℝ := fun _ _ Z _ => Z

theorem lag3_height (b : Bool) (i j k : ℕ) (x y z : ℝ) : lag3 (demo b) i j k (fun X Y Z => height X Y Z 0) x y z = z := by
  have := lag3_poly (demo_ok b) (Finset.range 1) (fun _ => 1) (fun _ => 1) (fun _ => Polynomial.X) (by simp) (by simp) (by intro s _; exact Polynomial.natDegree_X_le) i j k x y z
  simpa [height] using this

theorem demo_h (b : Bool) : (demo b).x.h = 1 ∧ (demo b).y.h = 1 ∧ (demo b).z.h = 1 := by simp [demo, Axis.h]

/-- **C110.** Documented: with `extrapolate=False` a point outside the domain is an error.  Violated: half a cell below the domain a value is returned. -/
theorem C110_below_violated :
    ¬ ∀ (c : Cfg), c.OK → c.oob = false → ∀ (f : Fun) (F : ℝ → ℝ → ℝ → ℕ → ℝ), Pointwise c.vs f F → ∀ x y z, z ≤ c.z.lo - c.z.h / 2 → c.eval f x y z = .error := by
  intro hall
  have h := hall (demo false) (demo_ok false) rfl (ofFun 1 height) height (ofFun_pointwise height) 1 1 (-1 / 2) (by rw [(demo_h false).2.2]; norm_num [demo])
  have he : eps < 1 / 4 := by unfold eps; norm_num
  have e0 := eps_pos
  have hd := demo_h false
  rw [(C110_error_iff (demo false) (demo_ok false) rfl (fun _ _ _ => rfl) (by rw [hd.1, hd.2.1, hd.2.2]; exact ⟨by linarith, by linarith, by linarith⟩) (ofFun 1 height) height (ofFun_pointwise height) _ _ _).1] at h
  unfold Refused at h
  rw [hd.1, hd.2.1, hd.2.2] at h
  simp only [demo] at h
  rcases h with (h | h) | (h | h) | (h | h) <;> linarith

/-- **C110.** Documented: with `extrapolate=True` the field is extrapolated outside the domain.  Violated: a quarter of the domain's height above it, the linear interpolant of the height `Z` is within 1e-13 of 1/2 instead of 5/2 (or, clamped to the domain, 2). -/
theorem C110_extrapolate_violated :
    ∃ v, (demo true).eval (ofFun 1 height) (1 / 2) (1 / 2) (5 / 2) = .written v ∧ v 0 = 1 / 2 - eps ∧ ¬ 3 / 2 ≤ v 0 := by
  have he : eps < 1 / 4 := by unfold eps; norm_num
  have e0 := eps_pos
  have hd := demo_h true
  obtain ⟨v, hv, hl⟩ := C110_wraps (demo true) (demo_ok true) rfl (fun _ _ _ => rfl) (ofFun 1 height) height (ofFun_pointwise height) (1 / 2) (1 / 2) (5 / 2) 0 0
    ⟨by norm_num [demo], by norm_num [demo]⟩ ⟨by norm_num [demo], by norm_num [demo]⟩ ⟨by norm_num [demo], by norm_num [demo, Axis.mesh], by norm_num [demo, Axis.mesh]⟩ ⟨by norm_num [demo], by norm_num [demo, Axis.mesh], by norm_num [demo, Axis.mesh]⟩
    ⟨by simp only [demo]; linarith, by rw [hd.2.2]; simp only [demo]; linarith⟩
  have h0 := hl 0 (by norm_num [demo])
  rw [lag3_height] at h0
  have h1 : v 0 = 1 / 2 - eps := by rw [h0]; simp only [demo]; ring
  exact ⟨v, hv, h1, by rw [h1]; linarith⟩

/-- **C110.** With `extrapolate=True`, more than one cell above the domain the mesh is read past its end. -/
theorem C110_undefined (c : Cfg) (hc : c.OK) (hoob : c.oob = true) (f : Fun) (x y z : ℝ) (hx : c.x.hi + c.x.h + eps ≤ x) : c.eval f x y z = .undefined := by
  have e0 := eps_pos
  have hh := Axis.h_pos hc.x
  have hs : c.x.shift x = x - eps := by unfold Axis.shift; rw [if_pos (by linarith)]
  have hi : (c.x.n : ℤ) < c.x.idx (x - eps) := by
    rw [Axis.idx_eq hc.x, trunc_of_nonneg (div_nonneg (by linarith [hc.x.1]) hh.le), Int.lt_iff_add_one_le, Int.le_floor, le_div_iff₀ hh]
    have := Axis.top hc.x.2
    push_cast
    linarith
  unfold Cfg.eval
  simp only [hs, hoob, Bool.not_true, Bool.false_and, Bool.false_eq_true, if_false]
  have : c.x.meshAt (c.x.idx (x - eps)) = none := by
    unfold Axis.meshAt
    rw [if_neg (by omega)]
  rw [this]

example : Inside (demo true) 1 (1 / 2) (3 / 2) ∧ InCell (demo true) 1 0 1 1 (1 / 2) (3 / 2) ∧ Corner (demo true) 1 0 1 :=
  ⟨⟨by norm_num [demo], by norm_num [demo], by norm_num [demo]⟩, by constructor <;> norm_num [demo, Axis.mesh], 0, by omega, 0, by omega, 0, by omega, rfl⟩

example : Inside (demo true) 1 (1 / 2) (3 / 2) ∧ ∃ c : Cfg, c.OK ∧ c.oob = false ∧ Inside c 1 (1 / 2) (3 / 2) ∧ InCell c 1 0 1 1 (1 / 2) (3 / 2) ∧ ¬ Corner c 1 0 1 :=
  ⟨⟨by norm_num [demo], by norm_num [demo], by norm_num [demo]⟩, ⟨uniform 1, ⟨0, 2, 2⟩, ⟨0, 2, 2⟩, ⟨0, 2, 2⟩, 1, false, 4, fun i _ _ => decide (1 ≤ i)⟩,
    ⟨uniform_ok one_pos, ⟨by simp, by simp⟩, ⟨by simp, by simp⟩, ⟨by simp, by simp⟩, by simp⟩, rfl, ⟨by norm_num, by norm_num, by norm_num⟩, by constructor <;> norm_num [Axis.mesh],
    by rintro ⟨a, _, b, _, d, _, h⟩; simp at h⟩

end Simsopt.Interp
