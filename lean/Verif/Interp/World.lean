import Verif.Interp.Field
/-!
# The interpolated field as an object: what evaluations leave behind

The state of an `InterpolatedField` (src/simsoptpp/magneticfield_interpolated.h) and of the field under it, over the calls a user can make.
-/
namespace Simsopt.Interp
open Simsopt.Fields (P3 T2)
open Simsopt.Fields.Derived

/-- The object and the field under it. -/
structure World where
  /-- what the underlying field currently computes (its degrees of freedom) -/
  under : Field
  /-- the points of the underlying field -/
  upts : Points
  /-- the object's own points -/
  pts : Points
  /-- `interp_B` with `status_B`: the function that was interpolated -/
  fn : Option Fun
  /-- `data_Bcyl`: the array, if it has been given a size (cachedtensor.h L21-27 starts with another one), and its status -/
  buf : Option (List P3)
  valid : Bool

/-- The constructors (magneticfield_interpolated.h L139-177, magneticfield.h L152-155). -/
noncomputable def World.new (u : Field) (upts : Points) : World := ⟨u, upts, fresh, none, none, false⟩

/-- The rows of `_B_cyl_impl` in order (L26-44, regular_grid_interpolant_3d_impl.h L63-66): the first row that raises ends it, with the rows before it written and those from it on as they were. -/
noncomputable def IField.fill (I : IField) (fn : Fun) : List P3 → List P3 → List P3 × Option Row
  | q :: qs, old :: olds =>
    match I.row flipB fn q old with
    | .ok v => let r := I.fill fn qs olds; (v :: r.1, r.2)
    | e => (old :: olds, some e)
  | _, olds => (olds, none)

/-- The calls. -/
inductive Op where
  | setCart (ps : List P3)
  | setCyl (ps : List P3)
  /-- `set_points_cart`, `set_points_cyl` of the underlying field -/
  | underCart (ps : List P3)
  | underCyl (ps : List P3)
  /-- the degrees of freedom of the underlying field change -/
  | change (u : Field)
  /-- `B_cyl()` -/
  | bcyl
  /-- `estimate_error_B(samples)`, with the points its generator draws -/
  | estimate (qs : List P3)

/-- Building the interpolant (L27-34, L187-194): the underlying field's points are saved and put back. -/
noncomputable def World.build (w : World) : World :=
  match w.fn with
  | some _ => w
  | none => { w with fn := some (batchB w.under), upts := setCart (getCart w.upts) }

/-- The array that is filled: `get_or_create_and_fill` (cachedtensor.h L45-50) makes a new one of zeros only if the number of points has changed. -/
noncomputable def World.target (w : World) : List P3 :=
  let n := (getCyl w.pts).length
  match w.buf with
  | some b => if b.length = n then b else List.replicate n 0
  | none => List.replicate n 0

/-- A call: the object afterwards, and what it returned (`none` for an exception, for undefined behaviour and for calls that return nothing).  `B()` returns the rows of `B_cyl()` turned back to Cartesian components (L66-77) and has no other effect. -/
noncomputable def IField.exec (I : IField) (w : World) : Op → World × Option (List P3)
  | .setCart ps => ({ w with pts := Simsopt.Fields.Derived.setCart ps, valid := false }, none)
  | .setCyl ps => ({ w with pts := Simsopt.Fields.Derived.setCyl ps, valid := false }, none)
  | .underCart ps => ({ w with upts := Simsopt.Fields.Derived.setCart ps }, none)
  | .underCyl ps => ({ w with upts := Simsopt.Fields.Derived.setCyl ps }, none)
  | .change u => ({ w with under := u }, none)
  | .estimate qs => ({ w.build with upts := Simsopt.Fields.Derived.setCyl qs }, none)
  | .bcyl =>
    if w.valid then (w, w.buf)
    else
      let w := w.build
      match w.fn with
      | none => (w, none)
      | some fn =>
        let r := I.fill fn (getCyl w.pts) w.target
        match r.2 with
        | none => ({ w with buf := some r.1, valid := true }, some r.1)
        | some _ => ({ w with buf := some r.1 }, none)

/-- A history of calls. -/
noncomputable def IField.run (I : IField) (w : World) (ops : List Op) : World := ops.foldl (fun w op => (I.exec w op).1) w

/-! ## Proofs -/

/-- The interpolant's value for the point `q`, when it has one. -/
noncomputable def IField.value (I : IField) (fn : Fun) (q : P3) : Option P3 :=
  match I.c.eval fn (I.image q 0) (I.image q 1) (I.image q 2) with
  | .written v => some (if I.nfp > 1 ∨ I.stellsym = true then flipB (mapPoint I.nfp I.stellsym q).2 ![v 0, v 1, v 2] else ![v 0, v 1, v 2])
  | _ => none

theorem row_value {I : IField} {fn : Fun} {q old v : P3} (h : I.value fn q = some v) : I.row flipB fn q old = .ok v := by
  unfold IField.value at h
  cases e : I.c.eval fn (I.image q 0) (I.image q 1) (I.image q 2) with
  | written w => rw [e] at h; rw [row_written e]; simpa using h
  | untouched => rw [e] at h; cases h
  | error => rw [e] at h; cases h
  | undefined => rw [e] at h; cases h

theorem fill_known {I : IField} {fn : Fun} : ∀ (qs olds : List P3) (vs : List P3), olds.length = qs.length → qs.map (I.value fn) = vs.map some → I.fill fn qs olds = (vs, none)
  | [], olds, vs, hl, hv => by
    have : olds = [] := by simpa using hl
    have hvs : vs = [] := by simpa using hv.symm
    subst this hvs
    rfl
  | q :: qs, [], vs, hl, hv => by simp at hl
  | q :: qs, old :: olds, [], hl, hv => by simp at hv
  | q :: qs, old :: olds, v :: vs, hl, hv => by
    simp only [List.map_cons, List.cons.injEq] at hv
    have ih := fill_known qs olds vs (by simpa using hl) hv.2
    unfold IField.fill
    rw [row_value hv.1]
    simp only
    rw [ih]

theorem target_length (w : World) : w.target.length = (getCyl w.pts).length := by
  unfold World.target
  cases h : w.buf with
  | none => simp
  | some b =>
    simp only
    by_cases hb : b.length = (getCyl w.pts).length
    · rw [if_pos hb]; exact hb
    · rw [if_neg hb]; simp

/-- Every row the object holds as valid is what it would compute. -/
def Good (I : IField) (w : World) : Prop :=
  w.valid = true → ∃ fn, w.fn = some fn ∧ ∃ b, w.buf = some b ∧ ∀ vs, (getCyl w.pts).map (I.value fn) = vs.map some → b = vs

theorem Good.exec {I : IField} {w : World} (h : Good I w) (op : Op) : Good I (I.exec w op).1 := by
  have hb : Good I w.build := by
    unfold World.build
    cases hf : w.fn with
    | some f => exact h
    | none =>
      intro hv
      obtain ⟨fn, hfn, _⟩ := h hv
      rw [hf] at hfn; cases hfn
  cases op with
  | setCart ps => intro hv; cases hv
  | setCyl ps => intro hv; cases hv
  | underCart ps => exact h
  | underCyl ps => exact h
  | change u => exact h
  | estimate qs => exact hb
  | bcyl =>
    unfold IField.exec
    simp only
    by_cases hv : w.valid = true
    · rw [if_pos hv]; exact h
    · rw [if_neg hv]
      cases hf : w.build.fn with
      | none =>
        simp only
        exact hb
      | some fn =>
        simp only
        cases he : (I.fill fn (getCyl w.build.pts) w.build.target).2 with
        | none =>
          simp only
          intro _
          refine ⟨fn, rfl, _, rfl, fun vs hvs => ?_⟩
          rw [fill_known (getCyl w.build.pts) w.build.target vs (target_length _) hvs]
        | some e =>
          simp only
          intro hv'
          have hv2 : w.build.valid = w.valid := by
            unfold World.build; cases w.fn <;> rfl
          have : w.build.valid = true := hv'
          rw [hv2] at this
          exact absurd this hv

theorem Good.run {I : IField} (ops : List Op) : ∀ {w : World}, Good I w → Good I (I.run w ops) := by
  induction ops with
  | nil => intro w h; exact h
  | cons op ops ih => intro w h; exact ih (h.exec op)

/-- The function interpolated by the object: that of the underlying field when it was first needed. -/
noncomputable def World.interpolated (w : World) : Fun := match w.fn with | some fn => fn | none => batchB w.under

/-- **C112.** After every history of calls, `B_cyl()` at points all of which are in cells the interpolant knows returns the interpolant's values there, in order, and nothing of what earlier evaluations at other points left behind. -/
theorem C112_known_points (I : IField) (u : Field) (upts : Points) (ops : List Op) (vs : List P3) :
    let w := I.run (World.new u upts) ops
    (getCyl w.pts).map (I.value w.interpolated) = vs.map some → (I.exec w .bcyl).2 = some vs := by
  intro w h
  have hg : Good I w := Good.run ops (w := World.new u upts) (by intro hv; cases hv)
  unfold IField.exec
  simp only
  by_cases hv : w.valid = true
  · rw [if_pos hv]
    obtain ⟨fn, hfn, b, hb, hall⟩ := hg hv
    unfold World.interpolated at h
    rw [hfn] at h
    simp only
    rw [hb, hall vs h]
  · rw [if_neg hv]
    have hf : w.build.fn = some w.interpolated := by
      unfold World.build World.interpolated
      cases hfn : w.fn with
      | none => rfl
      | some fn => exact hfn
    have hp : w.build.pts = w.pts := by
      unfold World.build; cases w.fn <;> rfl
    rw [hf]
    simp only
    have e := fill_known (I := I) (fn := w.interpolated) (getCyl w.build.pts) w.build.target vs (target_length _) (by rw [hp]; exact h)
    rw [e]

/-- **C112.** Evaluating the interpolated field does not move the underlying field's points, nor change what it computes. -/
theorem C112_underlying_points_kept (I : IField) (w : World) : getCart (I.exec w .bcyl).1.upts = getCart w.upts ∧ (I.exec w .bcyl).1.under = w.under ∧ (I.exec w .bcyl).1.pts = w.pts := by
  have hb : getCart w.build.upts = getCart w.upts ∧ w.build.under = w.under ∧ w.build.pts = w.pts := by
    unfold World.build
    cases w.fn with
    | none => exact ⟨rfl, rfl, rfl⟩
    | some _ => exact ⟨rfl, rfl, rfl⟩
  unfold IField.exec
  simp only
  by_cases hv : w.valid = true
  · rw [if_pos hv]; exact ⟨rfl, rfl, rfl⟩
  · rw [if_neg hv]
    cases hf : w.build.fn with
    | none => simp only; exact hb
    | some fn =>
      simp only
      cases he : (I.fill fn (getCyl w.build.pts) w.build.target).2 with
      | none => exact hb
      | some e => exact hb

/-- **C112.** But `estimate_error_B` leaves the underlying field at the points it sampled. -/
theorem C112_estimate_moves_points_violated : ∃ (I : IField) (w : World) (qs : List P3), getCart (I.exec w (.estimate qs)).1.upts ≠ getCart w.upts := by
  refine ⟨⟨demo true, 1, false⟩, World.new ⟨fun _ => 0, fun _ _ _ => 0, fun _ => 0⟩ (Simsopt.Fields.Derived.setCart [![2, 0, 0]]), [![1, 0, 0]], ?_⟩
  intro h
  have h' : [toCart ![1, fmod 0 (2 * Real.pi), 0]] = [![2, 0, 0]] := h
  have := congrFun (List.head_eq_of_cons_eq h') 2
  have h0 := congrFun (List.head_eq_of_cons_eq h') 0
  simp [toCart, fmod] at h0

/-! ## Witnesses -/

/-- The field `(-y, x, 1)`: it has every symmetry the class exploits. -/
def swirl : Field := ⟨fun p => ![-p 1, p 0, 1], fun _ => ![![0, 1, 0], ![-1, 0, 0], ![0, 0, 0]], fun _ => 0⟩

theorem swirl_symmetric (I : IField) : I.Symmetric swirl := by
  constructor
  · intro _ p
    funext i
    fin_cases i <;> simp [swirl, Simsopt.Fields.rot] <;> ring
  · intro _ p
    funext i
    fin_cases i <;> simp [swirl]

/-- The cells from the middle on in the radius are skipped; radius from 0 to 2, angle from 0 to 2, height from 0 to 2. -/
noncomputable def half (oob : Bool) : Cfg := ⟨uniform 1, ⟨0, 2, 2⟩, ⟨0, 2, 2⟩, ⟨0, 2, 2⟩, 3, oob, 4, fun i _ _ => decide (1 ≤ i)⟩

theorem half_ok (b : Bool) : (half b).OK := ⟨uniform_ok one_pos, ⟨by simp [half], by simp [half]⟩, ⟨by simp [half], by simp [half]⟩, ⟨by simp [half], by simp [half]⟩, by simp [half]⟩

noncomputable def halfField : IField := ⟨half true, 1, false⟩

theorem half_unknown (fn : Fun) (old : P3) : halfField.row flipB fn ![3 / 2, 1 / 2, 1 / 2] old = .ok old := by
  have h := C110_skipped (half true) (half_ok true) fn (3 / 2) (1 / 2) (1 / 2) ⟨by norm_num [half], by norm_num [half], by norm_num [half]⟩ 1 0 0 (by constructor <;> norm_num [half, Axis.mesh])
    (by rintro ⟨a, _, b, _, d, _, h⟩; simp [half] at h)
  unfold IField.row
  rw [if_neg (by simp [halfField])]
  simp only [Matrix.cons_val]
  rw [show halfField.c = half true from rfl, h]
  rfl

theorem half_known (u : Field) (hu : ∀ p, u.B p 2 = 1) : ∃ v, halfField.value (batchB u) ![1 / 2, 1 / 2, 1 / 2] = some v ∧ v 2 = 1 := by
  have hin : Inside (half true) (1 / 2) (1 / 2) (1 / 2) := ⟨by norm_num [half], by norm_num [half], by norm_num [half]⟩
  obtain ⟨v, hv, hl⟩ := (C109_interpolation (half true) (half_ok true) (batchB u) (cylB u) (batchB_pointwise u) _ _ _ hin).2 0 0 0 (by constructor <;> norm_num [half, Axis.mesh]) ⟨0, by omega, 0, by omega, 0, by omega, by simp [half]⟩
  have h2 := hl 2 (by simp [half])
  have hc : (fun X Y Z => cylB u X Y Z 2) = fun X Y Z => ∑ s ∈ Finset.range 1, (1 : Polynomial ℝ).eval X * (1 : Polynomial ℝ).eval Y * (1 : Polynomial ℝ).eval Z := by
    funext X Y Z
    simp [cylB, at3, comps, hu]
  rw [hc, lag3_poly (half_ok true) (Finset.range 1) (fun _ => 1) (fun _ => 1) (fun _ => 1) (by simp) (by simp) (by simp)] at h2
  refine ⟨![v 0, v 1, v 2], ?_, by simpa using h2⟩
  unfold IField.value IField.image
  rw [if_neg (by simp [halfField])]
  simp only [Matrix.cons_val]
  rw [show halfField.c = half true from rfl, hv]
  simp [halfField]

theorem fmod_half : fmod (1 / 2) (2 * Real.pi) = 1 / 2 := by
  have hp : (1 / 2) / (2 * Real.pi) < 1 := by
    rw [div_lt_one (by positivity)]
    linarith [Real.two_le_pi]
  have h0 : 0 ≤ (1 / 2) / (2 * Real.pi) := by positivity
  unfold fmod
  rw [if_pos h0, Int.floor_eq_zero_iff.mpr ⟨h0, hp⟩]
  simp

/-- The points used in the witnesses, one in a cell the interpolant knows and one in a skipped cell. -/
noncomputable def qGood : P3 := ![1 / 2, 1 / 2, 1 / 2]
noncomputable def qBad : P3 := ![3 / 2, 1 / 2, 1 / 2]

theorem setCyl_witness (r : ℝ) : Simsopt.Fields.Derived.setCyl [![r, 1 / 2, 1 / 2]] = .cyl [![r, 1 / 2, 1 / 2]] := by
  unfold Simsopt.Fields.Derived.setCyl
  simp only [List.map_cons, List.map_nil, Matrix.cons_val]
  rw [fmod_half]

theorem bcyl_one {w : World} {q v : P3} {fn : Fun} (hv : w.valid = false) (hp : w.pts = .cyl [q]) (hf : w.interpolated = fn) {old : P3} (ht : w.target = [old]) (hr : halfField.row flipB fn q old = .ok v) :
    (halfField.exec w .bcyl).2 = some [v] ∧ (halfField.exec w .bcyl).1.buf = some [v] ∧ (halfField.exec w .bcyl).1.fn = some fn ∧ (halfField.exec w .bcyl).1.under = w.under := by
  have hb : w.build.fn = some fn := by
    rw [← hf]
    unfold World.build World.interpolated
    cases h : w.fn with
    | none => rfl
    | some f => exact h
  have hbp : w.build.pts = .cyl [q] := by rw [← hp]; unfold World.build; cases w.fn <;> rfl
  have hbt : w.build.target = [old] := by
    rw [← ht]; unfold World.build World.target; cases w.fn <;> rfl
  have hbu : w.build.under = w.under := by unfold World.build; cases w.fn <;> rfl
  have hfill : halfField.fill fn (getCyl w.build.pts) w.build.target = ([v], none) := by
    rw [hbp, hbt]
    show halfField.fill fn [q] [old] = _
    unfold IField.fill
    rw [hr]
    rfl
  unfold IField.exec
  simp only [hv, Bool.false_eq_true, if_false]
  rw [hb]
  simp only
  rw [hfill]
  exact ⟨rfl, rfl, rfl, hbu⟩

/-- **C112.** A user expects the result of `B_cyl()` to be determined by the field and the points.  Violated with `extrapolate=True` (the default) at a point in a skipped cell: the row is what the previous evaluation left there — zeros for a new object, the field at the previous points otherwise. -/
theorem C112_leftovers_violated : ∃ (I : IField) (u : Field) (upts : Points) (h1 h2 : List Op),
    (I.run (World.new u upts) h1).pts = (I.run (World.new u upts) h2).pts ∧ (I.run (World.new u upts) h1).interpolated = (I.run (World.new u upts) h2).interpolated ∧
    (I.exec (I.run (World.new u upts) h1) .bcyl).2 = some [0] ∧ ∃ v, (I.exec (I.run (World.new u upts) h2) .bcyl).2 = some [v] ∧ v 2 = 1 := by
  obtain ⟨g, hg, hg2⟩ := half_known swirl (fun _ => rfl)
  let w0 := World.new swirl fresh
  let w1 := (halfField.exec w0 (.setCyl [qBad])).1
  let wa := (halfField.exec w0 (.setCyl [qGood])).1
  let wb := (halfField.exec wa .bcyl).1
  let wc := (halfField.exec wb (.setCyl [qBad])).1
  have a := bcyl_one (w := wa) (q := qGood) (v := g) (fn := batchB swirl) (old := 0) rfl (setCyl_witness _) rfl rfl (row_value hg)
  have hfc : wc.interpolated = batchB swirl := by
    show (match wb.fn with | some fn => fn | none => _) = _
    rw [a.2.2.1]
  have htc : wc.target = [g] := by
    have hb : wc.buf = some [g] := a.2.1
    have hp : wc.pts = .cyl [qBad] := setCyl_witness _
    unfold World.target
    rw [hb, hp]
    rfl
  have c := bcyl_one (w := wc) (q := qBad) (v := g) (fn := batchB swirl) (old := g) rfl (setCyl_witness _) hfc htc (half_unknown _ g)
  have o := bcyl_one (w := w1) (q := qBad) (v := 0) (fn := batchB swirl) (old := 0) rfl (setCyl_witness _) rfl (by
    have hp : w1.pts = .cyl [qBad] := setCyl_witness _
    unfold World.target
    rw [hp]
    rfl) (half_unknown _ 0)
  exact ⟨halfField, swirl, fresh, [.setCyl [qBad]], [.setCyl [qGood], .bcyl, .setCyl [qBad]], rfl, hfc.symm, o.1, g, c.1, hg2⟩

/-- **C112.** A user expects the interpolated field to follow the underlying one.  Violated: once built, the interpolant is never rebuilt; here the underlying field has become the zero field, and `B_cyl()` still returns the old one at newly set points. -/
theorem C112_underlying_changed_violated : ∃ (I : IField) (u : Field) (upts : Points) (h : List Op),
    (∀ p, (I.run (World.new u upts) h).under.B p = 0) ∧ ∃ v, (I.exec (I.run (World.new u upts) h) .bcyl).2 = some [v] ∧ v 2 = 1 := by
  obtain ⟨g, hg, hg2⟩ := half_known swirl (fun _ => rfl)
  let w0 := World.new swirl fresh
  let wa := (halfField.exec w0 (.setCyl [qGood])).1
  let wb := (halfField.exec wa .bcyl).1
  let zero : Field := ⟨fun _ => 0, fun _ _ _ => 0, fun _ => 0⟩
  let wd := (halfField.exec (halfField.exec wb (.change zero)).1 (.setCyl [qGood])).1
  have a := bcyl_one (w := wa) (q := qGood) (v := g) (fn := batchB swirl) (old := 0) rfl (setCyl_witness _) rfl rfl (row_value hg)
  have hfd : wd.interpolated = batchB swirl := by
    show (match wb.fn with | some fn => fn | none => _) = _
    rw [a.2.2.1]
  have htd : wd.target = [g] := by
    have hb : wd.buf = some [g] := a.2.1
    have hp : wd.pts = .cyl [qGood] := setCyl_witness _
    unfold World.target
    rw [hb, hp]
    rfl
  have d := bcyl_one (w := wd) (q := qGood) (v := g) (fn := batchB swirl) (old := g) rfl (setCyl_witness _) hfd htd (row_value hg)
  exact ⟨halfField, swirl, fresh, [.setCyl [qGood], .bcyl, .change zero, .setCyl [qGood]], fun _ => rfl, g, d.1, hg2⟩

/-- **C112.** With `extrapolate=False` there is no such dependence: at a point in a skipped cell `B_cyl()` raises instead. -/
theorem C112_raises (I : IField) (hoob : I.c.oob = false) (fn : Fun) (q old : P3) : (∃ v, I.value fn q = some v ∧ I.row flipB fn q old = .ok v) ∨ I.row flipB fn q old = .error ∨ I.row flipB fn q old = .undefined := by
  cases hv : I.value fn q with
  | some v => exact Or.inl ⟨v, rfl, row_value hv⟩
  | none =>
    right
    have hno : ∀ x y z, I.c.eval fn x y z ≠ .untouched := by
      intro x y z h
      unfold Cfg.eval at h
      simp only at h
      split at h
      · cases h
      · split at h
        · unfold Cfg.evalLocal at h
          split at h
          · rw [hoob] at h; simp at h
          · cases h
        · cases h
    unfold IField.value IField.image at hv
    unfold IField.row
    by_cases h : I.nfp > 1 ∨ I.stellsym = true
    · rw [if_pos h] at hv ⊢
      simp only at hv ⊢
      cases e : I.c.eval fn ((mapPoint I.nfp I.stellsym q).1 0) ((mapPoint I.nfp I.stellsym q).1 1) ((mapPoint I.nfp I.stellsym q).1 2) with
      | written w => rw [e] at hv; cases hv
      | untouched => exact absurd e (hno _ _ _)
      | error => exact Or.inl rfl
      | undefined => exact Or.inr rfl
    · rw [if_neg h] at hv ⊢
      cases e : I.c.eval fn (q 0) (q 1) (q 2) with
      | written w => rw [e] at hv; cases hv
      | untouched => exact absurd e (hno _ _ _)
      | error => exact Or.inl rfl
      | undefined => exact Or.inr rfl

/-- The hypotheses of the theorems on symmetries are met by a field with a linear profile, on a grid over one of two field periods. -/
example : ∃ I : IField, I.c.OK ∧ I.c.vs = 3 ∧ 1 < I.nfp ∧ I.stellsym = true ∧ I.Symmetric swirl ∧ Regular swirl := by
  refine ⟨⟨⟨uniform 2, ⟨1, 2, 2⟩, ⟨0, Real.pi, 2⟩, ⟨0, 2, 2⟩, 3, true, 4, fun _ _ _ => false⟩, 2, true⟩,
    ⟨uniform_ok two_pos, ⟨by norm_num, by simp⟩, ⟨Real.pi_pos, by simp⟩, ⟨by simp, by simp⟩, by simp⟩, rfl, by simp, rfl, swirl_symmetric _, ?_⟩
  intro p _
  refine ⟨fun h => by have := congrFun h 2; simp [swirl] at this, ?_⟩
  let L : P3 →L[ℝ] P3 := ContinuousLinearMap.pi fun i => ![-ContinuousLinearMap.proj 1, ContinuousLinearMap.proj 0, 0] i
  refine ⟨L, ?_, ?_⟩
  · rw [hasFDerivAt_pi']
    intro i
    fin_cases i
    · have : HasFDerivAt (fun q : P3 => -q 1) (-ContinuousLinearMap.proj (R := ℝ) (φ := fun _ : Fin 3 => ℝ) 1) p := (hasFDerivAt_apply 1 p).neg
      exact this
    · exact hasFDerivAt_apply (𝕜 := ℝ) (F' := fun _ : Fin 3 => ℝ) 0 p
    · exact hasFDerivAt_const (1 : ℝ) p
  · intro j l
    fin_cases j <;> fin_cases l <;> simp [L, swirl]

end Simsopt.Interp
