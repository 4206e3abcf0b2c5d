import Verif.Fields.Reiman
import Mathlib.Algebra.BigOperators.Group.List.Basic
/-!
# The field of dipoles

Model of `DipoleField` (src/simsopt/field/magneticfieldclasses.py L570-732) and of `dipole_field_B`, `dipole_field_A`, `dipole_field_dB`, `dipole_field_dA` and `dipole_field_Bn` (src/simsoptpp/dipole_field.cpp).  Both builds of the C++ code (with and
without xsimd) treat each evaluation point separately and do the same operations; the accumulation over the dipoles is a sum over a list.  `rsqrt` is `1 / sqrt`.
-/
namespace Simsopt.Fields

/-- One row of `dipole_grid` and of `m_vec`. -/
structure Dip where
  pos : P3
  mom : P3

/-- `inner` (vec3dsimd.h). -/
def dot (a b : P3) : ℝ := a 0 * b 0 + a 1 * b 1 + a 2 * b 2

/-- `cross` (vec3dsimd.h). -/
def cross3 (a b : P3) : P3 := ![a 1 * b 2 - a 2 * b 1, a 2 * b 0 - a 0 * b 2, a 0 * b 1 - a 1 * b 0]

/-- `rmag_inv`. -/
noncomputable def rinv (r : P3) : ℝ := 1 / √(dot r r)

/-- The vector from a dipole to the evaluation point. -/
def Dip.r (d : Dip) (p : P3) : P3 := fun i => p i - d.pos i

/-- One dipole's term in `dipole_field_B` (dipole_field.cpp L48-59, without xsimd L455-466). -/
noncomputable def Dip.termB (d : Dip) (p : P3) : P3 := fun l =>
  let r := d.r p
  let i3 := rinv r * (rinv r * rinv r)
  let i5 := i3 * (rinv r * rinv r)
  3 * dot r d.mom * r l * i5 - d.mom l * i3

/-- `dipole_field_B` (L16-70). -/
noncomputable def dipoleB (ds : List Dip) (p : P3) : P3 := fun l => 1e-7 * (ds.map fun d => d.termB p l).sum

/-- One dipole's term in `dipole_field_A` (L102-113). -/
noncomputable def Dip.termA (d : Dip) (p : P3) : P3 := fun l =>
  let r := d.r p
  let i3 := rinv r * (rinv r * rinv r)
  cross3 d.mom r l * i3

/-- `dipole_field_A` (L73-122). -/
noncomputable def dipoleA (ds : List Dip) (p : P3) : P3 := fun l => 1e-7 * (ds.map fun d => d.termA p l).sum

/-- One dipole's term in `dipole_field_dB` (L159-174); the lower triangle is copied from the upper one (L183-185). -/
noncomputable def Dip.termDB (d : Dip) (p : P3) : T2 :=
  let r := d.r p
  let m := d.mom
  let i2 := rinv r * rinv r
  let i3 := rinv r * i2
  let i5 := i3 * i2
  let rdotm := dot r m
  let xx := 3 * i5 * ((2 * m 0 * r 0 + rdotm) - 5 * rdotm * r 0 * r 0 * i2)
  let xy := 3 * i5 * ((m 0 * r 1 + m 1 * r 0) - 5 * rdotm * r 0 * r 1 * i2)
  let xz := 3 * i5 * ((m 0 * r 2 + m 2 * r 0) - 5 * rdotm * r 0 * r 2 * i2)
  let yy := 3 * i5 * ((2 * m 1 * r 1 + rdotm) - 5 * rdotm * r 1 * r 1 * i2)
  let yz := 3 * i5 * ((m 1 * r 2 + m 2 * r 1) - 5 * rdotm * r 1 * r 2 * i2)
  let zz := 3 * i5 * ((2 * m 2 * r 2 + rdotm) - 5 * rdotm * r 2 * r 2 * i2)
  ![![xx, xy, xz], ![xy, yy, yz], ![xz, yz, zz]]

/-- `dipole_field_dB` (L130-189). -/
noncomputable def dipoleDB (ds : List Dip) (p : P3) : T2 := fun i j => 1e-7 * (ds.map fun d => d.termDB p i j).sum

/-- One dipole's term in `dipole_field_dA` (L226-246). -/
noncomputable def Dip.termDA (d : Dip) (p : P3) : T2 :=
  let r := d.r p
  let m := d.mom
  let i2 := rinv r * rinv r
  let i3 := rinv r * i2
  let c := cross3 m r
  ![![i3 * (-3 * c 0 * r 0 * i2), i3 * (-m 2 - 3 * c 0 * r 1 * i2), i3 * (m 1 - 3 * c 0 * r 2 * i2)],
    ![i3 * (m 2 - 3 * c 1 * r 0 * i2), i3 * (-3 * c 1 * r 1 * i2), i3 * (-m 0 - 3 * c 1 * r 2 * i2)],
    ![i3 * (-m 1 - 3 * c 2 * r 0 * i2), i3 * (m 0 - 3 * c 2 * r 1 * i2), i3 * (-3 * c 2 * r 2 * i2)]]

/-- `dipole_field_dA` (L199-261). -/
noncomputable def dipoleDA (ds : List Dip) (p : P3) : T2 := fun i j => 1e-7 * (ds.map fun d => d.termDA p i j).sum

/-! ## The symmetric copies -/

/-- The argument `coordinate_flag`. -/
inductive CoordFlag where
  | cartesian
  | cylindrical
  | toroidal

/-- The cartesian components of a dipole vector (magneticfieldclasses.py L677-697). -/
noncomputable def cartMoment (flag : CoordFlag) (R0 : ℝ) (o m : P3) : P3 :=
  match flag with
  | .cartesian => ![m 0, m 1, m 2]
  | .cylindrical =>
    let phi := arctan2 (o 1) (o 0)
    ![m 0 * Real.cos phi - m 1 * Real.sin phi, m 0 * Real.sin phi + m 1 * Real.cos phi, m 2]
  | .toroidal =>
    let phi := arctan2 (o 1) (o 0)
    let theta := arctan2 (o 2) (√(o 0 ^ 2 + o 1 ^ 2) - R0)
    ![m 0 * Real.cos phi * Real.cos theta - m 1 * Real.sin phi - m 2 * Real.cos phi * Real.sin theta,
      m 0 * Real.sin phi * Real.cos theta + m 1 * Real.cos phi - m 2 * Real.sin phi * Real.sin theta,
      m 0 * Real.sin theta + m 2 * Real.cos theta]

/-- The copy of one dipole for given `stell` and `phi0` (L704-713). -/
noncomputable def symCopy (stell phi0 : ℝ) (o mm : P3) : Dip where
  pos := ![o 0 * Real.cos phi0 - o 1 * Real.sin phi0 * stell, o 0 * Real.sin phi0 + o 1 * Real.cos phi0 * stell, o 2 * stell]
  mom := ![mm 0 * Real.cos phi0 * stell - mm 1 * Real.sin phi0, mm 0 * Real.sin phi0 * stell + mm 1 * Real.cos phi0, mm 2]

/-- `stell_list` (L651-656). -/
def stellList (stellsym : Bool) : List ℝ := if stellsym then [1, -1] else [1]

/-- `_dipole_fields_from_symmetries` (L635-721): the arrays `dipole_grid` and `m_vec`, row by row.  `ds` are the arguments `dipole_grid` and `dipole_vectors`. -/
noncomputable def allDipoles (ds : List Dip) (stellsym : Bool) (nfp : ℕ) (flag : CoordFlag) (R0 : ℝ) : List Dip :=
  (stellList stellsym).flatMap fun stell => (List.range nfp).flatMap fun (fp : ℕ) =>
    ds.map fun d => symCopy stell (2 * Real.pi / nfp * fp) d.pos (cartMoment flag R0 d.pos d.mom)

/-- The local variable `G_i` of `dipole_field_Bn` (dipole_field.cpp L325-333). -/
noncomputable def gVec (r n : P3) : P3 := fun l =>
  let i3 := rinv r * (rinv r * rinv r)
  let i5 := i3 * (rinv r * rinv r)
  let rdotn := dot r n
  3 * rdotn * r l * i5 - n l * i3

/-- One summand `(stell, fp)` of one entry of the matrix of `dipole_field_Bn` (dipole_field.cpp L300-365): the three numbers added to `A(i, j, :)`. -/
noncomputable def bnTerm (p n : P3) (o : P3) (stell phi0 : ℝ) (flag : CoordFlag) (R0 : ℝ) : P3 :=
  let sphi0 := Real.sin phi0
  let cphi0 := Real.cos phi0
  let mp : P3 := ![o 0 * cphi0 - o 1 * sphi0 * stell, o 0 * sphi0 + o 1 * cphi0 * stell, o 2 * stell]
  let phi := arctan2 (o 1) (o 0)
  let theta := arctan2 (o 2) (√(o 0 * o 0 + o 1 * o 1) - R0)
  let G := gVec (fun i => p i - mp i) n
  let Ax := (G 0 * cphi0 + G 1 * sphi0) * stell
  let Ay := -G 0 * sphi0 + G 1 * cphi0
  let Az := G 2
  match flag with
  | .cylindrical => ![1e-7 * (Ax * Real.cos phi + Ay * Real.sin phi), 1e-7 * (-Ax * Real.sin phi + Ay * Real.cos phi), 1e-7 * Az]
  | .toroidal => ![1e-7 * (Ax * Real.cos phi * Real.cos theta + Ay * Real.sin phi * Real.cos theta + Az * Real.sin theta),
      1e-7 * (-Ax * Real.sin phi + Ay * Real.cos phi),
      1e-7 * (-Ax * Real.cos phi * Real.sin theta - Ay * Real.sin phi * Real.sin theta + Az * Real.cos theta)]
  | .cartesian => ![1e-7 * (G 0 * cphi0 + G 1 * sphi0) * stell, 1e-7 * (-G 0 * sphi0 + G 1 * cphi0), 1e-7 * Az]

/-- `A(i, j, :)` of `dipole_field_Bn` (L264-372): `stell` runs over the exponents `0` and, with stellarator symmetry, `1` of `pow(-1, stell)`. -/
noncomputable def bnEntry (p n o : P3) (stellsym : Bool) (nfp : ℕ) (flag : CoordFlag) (R0 : ℝ) : P3 := fun c =>
  ((List.range (if stellsym then 2 else 1)).map fun (e : ℕ) => ((List.range nfp).map fun (fp : ℕ) => bnTerm p n o ((-1) ^ e) (2 * Real.pi / nfp * fp) flag R0 c).sum).sum

/-! ## Derivatives -/

theorem d_listSum {α : Type} (l : List α) (f : α → ℝ → ℝ) (f' : α → ℝ) (t : ℝ) (h : ∀ a ∈ l, HasDerivAt (f a) (f' a) t) :
    HasDerivAt (fun s => (l.map fun a => f a s).sum) (l.map f').sum t := by
  induction l with
  | nil => simpa using hasDerivAt_const t (0 : ℝ)
  | cons a l ih =>
    simp only [List.map_cons, List.sum_cons]
    exact HasDerivAt.fun_add (h a List.mem_cons_self) (ih fun b hb => h b (List.mem_cons_of_mem _ hb))

theorem rinv_sq {r : P3} (h : dot r r ≠ 0) : rinv r * rinv r * dot r r = 1 := by
  have h0 : 0 ≤ dot r r := by simp only [dot]; nlinarith [mul_self_nonneg (r 0), mul_self_nonneg (r 1), mul_self_nonneg (r 2)]
  have hs : √(dot r r) * √(dot r r) = dot r r := Real.mul_self_sqrt h0
  have hn : √(dot r r) ≠ 0 := fun hh => h (by rw [← hs, hh, mul_zero])
  simp only [rinv]
  rw [← hs]
  simp only [Real.sqrt_mul_self (Real.sqrt_nonneg _)]
  field_simp

theorem dot_ne {d : Dip} {p : P3} (h : p ≠ d.pos) : dot (d.r p) (d.r p) ≠ 0 := by
  intro hh
  refine h (funext fun i => ?_)
  simp only [dot, Dip.r] at hh
  have h0 : p 0 - d.pos 0 = 0 := by nlinarith [mul_self_nonneg (p 0 - d.pos 0), mul_self_nonneg (p 1 - d.pos 1), mul_self_nonneg (p 2 - d.pos 2)]
  have h1 : p 1 - d.pos 1 = 0 := by nlinarith [mul_self_nonneg (p 0 - d.pos 0), mul_self_nonneg (p 1 - d.pos 1), mul_self_nonneg (p 2 - d.pos 2)]
  have h2 : p 2 - d.pos 2 = 0 := by nlinarith [mul_self_nonneg (p 0 - d.pos 0), mul_self_nonneg (p 1 - d.pos 1), mul_self_nonneg (p 2 - d.pos 2)]
  fin_cases i
  · exact sub_eq_zero.mp h0
  · exact sub_eq_zero.mp h1
  · exact sub_eq_zero.mp h2

/-- The derivative of the inverse distance along a curve. -/
theorem d_rinv {r : ℝ → P3} {v : P3} {t : ℝ} (hr : ∀ i, HasDerivAt (fun s => r s i) (v i) t) (h : dot (r t) (r t) ≠ 0) :
    HasDerivAt (fun s => rinv (r s)) (-(dot (r t) v) * (rinv (r t) * (rinv (r t) * rinv (r t)))) t := by
  have hq : HasDerivAt (fun s => dot (r s) (r s)) (2 * dot (r t) v) t :=
    ((((hr 0).fun_mul (hr 0)).fun_add ((hr 1).fun_mul (hr 1))).fun_add ((hr 2).fun_mul (hr 2))).congr_deriv (by simp only [dot]; ring)
  have h0 : 0 ≤ dot (r t) (r t) := by simp only [dot]; nlinarith [mul_self_nonneg (r t 0), mul_self_nonneg (r t 1), mul_self_nonneg (r t 2)]
  have hs : √(dot (r t) (r t)) ^ 2 = dot (r t) (r t) := Real.sq_sqrt h0
  have hn : √(dot (r t) (r t)) ≠ 0 := fun hh => h (by rw [← hs, hh]; ring)
  have := (hasDerivAt_const t (1 : ℝ)).fun_div (hq.sqrt h) hn
  refine this.congr_deriv ?_
  simp only [rinv]
  field_simp
  ring

theorem Dip.d_r (d : Dip) (p : P3) (j i : Fin 3) : HasDerivAt (fun s => d.r (Function.update p j s) i) (if i = j then 1 else 0) (p j) := by
  by_cases h : i = j
  · subst h
    simp only [Dip.r, Function.update_self, if_true]
    exact (hasDerivAt_id' (p i)).sub_const _
  · simp only [Dip.r, Function.update_of_ne h, if_neg h]
    exact hasDerivAt_const _ _

theorem Dip.d_termB (d : Dip) {p : P3} (h : p ≠ d.pos) : IsJacobian d.termB p (d.termDB p) := by
  intro j l
  have hr := d.d_r p j
  have hne : dot (d.r (Function.update p j (p j))) (d.r (Function.update p j (p j))) ≠ 0 := by rw [Function.update_eq_self]; exact dot_ne h
  have hi := d_rinv (r := fun s => d.r (Function.update p j s)) hr hne
  have hm : HasDerivAt (fun s => dot (d.r (Function.update p j s)) d.mom) (d.mom j) (p j) := by
    refine ((((hr 0).mul_const (d.mom 0)).fun_add ((hr 1).mul_const (d.mom 1))).fun_add ((hr 2).mul_const (d.mom 2))).congr_deriv ?_
    fin_cases j <;> simp
  have h3 := hi.fun_mul (hi.fun_mul hi)
  have h5 := h3.fun_mul (hi.fun_mul hi)
  have := (((hm.const_mul 3).fun_mul (hr l)).fun_mul h5).fun_sub (h3.const_mul (d.mom l))
  refine this.congr_deriv ?_
  simp only [Function.update_eq_self] at *
  have hd : dot (d.r p) (fun i => if i = j then 1 else 0) = d.r p j := by
    simp only [dot]; fin_cases j <;> simp
  rw [hd]
  clear this h5 h3 hm hi hr hd
  simp only [Dip.termDB]
  generalize rinv (d.r p) = q
  generalize dot (d.r p) d.mom = R
  fin_cases j <;> fin_cases l <;> simp only [Matrix.cons_val, Fin.zero_eta, Fin.mk_one, Fin.reduceFinMk, if_true, Fin.isValue, Fin.reduceEq, if_false, one_ne_zero, zero_ne_one] <;> ring

theorem Dip.d_termA (d : Dip) {p : P3} (h : p ≠ d.pos) : IsJacobian d.termA p (fun j l => d.termDA p l j) := by
  intro j l
  have hr := d.d_r p j
  have hne : dot (d.r (Function.update p j (p j))) (d.r (Function.update p j (p j))) ≠ 0 := by rw [Function.update_eq_self]; exact dot_ne h
  have hi := d_rinv (r := fun s => d.r (Function.update p j s)) hr hne
  have hc : HasDerivAt (fun s => cross3 d.mom (d.r (Function.update p j s)) l) (cross3 d.mom (fun i => if i = j then 1 else 0) l) (p j) := by
    fin_cases l
    · exact ((hr 2).const_mul (d.mom 1)).fun_sub ((hr 1).const_mul (d.mom 2))
    · exact ((hr 0).const_mul (d.mom 2)).fun_sub ((hr 2).const_mul (d.mom 0))
    · exact ((hr 1).const_mul (d.mom 0)).fun_sub ((hr 0).const_mul (d.mom 1))
  have h3 := hi.fun_mul (hi.fun_mul hi)
  have := hc.fun_mul h3
  refine this.congr_deriv ?_
  simp only [Function.update_eq_self] at *
  have hd : dot (d.r p) (fun i => if i = j then 1 else 0) = d.r p j := by
    simp only [dot]; fin_cases j <;> simp
  rw [hd]
  clear this h3 hc hi hr hd
  simp only [Dip.termDA]
  generalize rinv (d.r p) = q
  fin_cases j <;> fin_cases l <;> simp only [cross3, Matrix.cons_val, Fin.zero_eta, Fin.mk_one, Fin.reduceFinMk, if_true, Fin.isValue, Fin.reduceEq, if_false, one_ne_zero, zero_ne_one] <;> ring

/-- **C102.** `DipoleField.dB_by_dX` is the array of first derivatives of `DipoleField.B`, at every point that is not the location of a dipole. -/
theorem C102_dB (ds : List Dip) (p : P3) (h : ∀ d ∈ ds, p ≠ d.pos) : IsJacobian (dipoleB ds) p (dipoleDB ds p) := fun j l =>
  (d_listSum ds (fun d s => d.termB (Function.update p j s) l) (fun d => d.termDB p j l) (p j) fun d hd => d.d_termB (h d hd) j l).const_mul 1e-7

/-- **C102.** What `DipoleField.dA_by_dX` returns is the array of first derivatives of `A` with its two indices exchanged. -/
theorem C102_dA_transposed (ds : List Dip) (p : P3) (h : ∀ d ∈ ds, p ≠ d.pos) : IsJacobian (dipoleA ds) p (fun j l => dipoleDA ds p l j) := fun j l =>
  (d_listSum ds (fun d s => d.termA (Function.update p j s) l) (fun d => d.termDA p l j) (p j) fun d hd => d.d_termA (h d hd) j l).const_mul 1e-7

theorem sum_combine {α : Type} (l : List α) (f g : α → ℝ) (a b : ℝ) : a * (l.map f).sum + b * (l.map g).sum = (l.map fun x => a * f x + b * g x).sum := by
  induction l with
  | nil => simp
  | cons x l ih => simp only [List.map_cons, List.sum_cons]; rw [← ih]; ring

/-- **C102.** The field of dipoles is a vacuum field: no divergence and no curl. -/
theorem C102_vacuum (ds : List Dip) (p : P3) (h : ∀ d ∈ ds, p ≠ d.pos) : dive (dipoleDB ds p) = 0 ∧ curl (dipoleDB ds p) = 0 := by
  constructor
  · have e : dive (dipoleDB ds p) = 1e-7 * (ds.map fun d => dive (d.termDB p)).sum := by
      simp only [dive, dipoleDB]
      induction ds with
      | nil => simp
      | cons d ds ih =>
        have := ih fun x hx => h x (List.mem_cons_of_mem _ hx)
        simp only [List.map_cons, List.sum_cons]
        linear_combination this
    rw [e, List.map_eq_map_iff (g := fun _ => (0 : ℝ)) |>.mpr, List.map_const', List.sum_replicate, smul_zero, mul_zero]
    intro d hd
    have hq := rinv_sq (dot_ne (h d hd))
    simp only [dive, Dip.termDB, Matrix.cons_val]
    have e3 : dot (d.r p) (d.r p) = d.r p 0 * d.r p 0 + d.r p 1 * d.r p 1 + d.r p 2 * d.r p 2 := rfl
    have e4 : dot (d.r p) d.mom = d.r p 0 * d.mom 0 + d.r p 1 * d.mom 1 + d.r p 2 * d.mom 2 := rfl
    rw [e3] at hq
    generalize rinv (d.r p) = q at *
    generalize dot (d.r p) d.mom = R at *
    linear_combination (-6 * q ^ 5) * e4 - 15 * q ^ 5 * R * hq
  · funext i
    fin_cases i <;> simp only [curl, dipoleDB, Dip.termDB, Matrix.cons_val, Fin.zero_eta, Fin.mk_one, Fin.reduceFinMk, sub_self] <;> rfl

/-- **C102.** The curl of the vector potential `DipoleField.A` is the field `DipoleField.B`. -/
theorem C102_A (ds : List Dip) (p : P3) (h : ∀ d ∈ ds, p ≠ d.pos) : ∃ D, IsJacobian (dipoleA ds) p D ∧ curl D = dipoleB ds p := by
  refine ⟨_, C102_dA_transposed ds p h, ?_⟩
  have key : ∀ d ∈ ds, curl (fun j l => d.termDA p l j) = d.termB p := by
    intro d hd
    have hq := rinv_sq (dot_ne (h d hd))
    have e3 : dot (d.r p) (d.r p) = d.r p 0 * d.r p 0 + d.r p 1 * d.r p 1 + d.r p 2 * d.r p 2 := rfl
    have e4 : dot (d.r p) d.mom = d.r p 0 * d.mom 0 + d.r p 1 * d.mom 1 + d.r p 2 * d.mom 2 := rfl
    rw [e3] at hq
    funext i
    simp only [curl, Dip.termDA, Dip.termB, cross3]
    generalize rinv (d.r p) = q at *
    generalize dot (d.r p) d.mom = R at *
    fin_cases i <;> simp only [Matrix.cons_val, Fin.zero_eta, Fin.mk_one, Fin.reduceFinMk]
    · linear_combination (-3 * q ^ 5 * d.r p 0) * e4 - 3 * q ^ 3 * d.mom 0 * hq
    · linear_combination (-3 * q ^ 5 * d.r p 1) * e4 - 3 * q ^ 3 * d.mom 1 * hq
    · linear_combination (-3 * q ^ 5 * d.r p 2) * e4 - 3 * q ^ 3 * d.mom 2 * hq
  have e : ∀ ds : List Dip, curl (fun j l => dipoleDA ds p l j) = fun i => 1e-7 * (ds.map fun d => curl (fun j l => d.termDA p l j) i).sum := by
    intro ds
    funext i
    simp only [curl, dipoleDA]
    fin_cases i <;> simp only [Matrix.cons_val, Fin.zero_eta, Fin.mk_one, Fin.reduceFinMk] <;> rw [← mul_sub, sub_eq_add_neg] <;>
      · congr 1
        induction ds with
        | nil => simp
        | cons d ds ih => simp only [List.map_cons, List.sum_cons]; rw [← ih]; ring
  rw [e]
  funext i
  simp only [dipoleB]
  rw [List.map_eq_map_iff.mpr fun d hd => congrFun (key d hd) i]

/-- **C102 fails for `dA_by_dX`.** Wherever the field is not zero, `DipoleField.dA_by_dX` is not the array of first derivatives of `A` in the documented order: its curl is `-B`. -/
theorem C102_dA_violated (ds : List Dip) (p : P3) (h : ∀ d ∈ ds, p ≠ d.pos) (hB : dipoleB ds p ≠ 0) : ¬IsJacobian (dipoleA ds) p (dipoleDA ds p) := by
  intro hJ
  obtain ⟨D, hD, hc⟩ := C102_A ds p h
  have e1 : (fun j l => dipoleDA ds p l j) = D := Jacobian_unique (C102_dA_transposed ds p h) hD
  have e2 : dipoleDA ds p = D := Jacobian_unique hJ hD
  have : curl D = -curl D := by
    conv_lhs => rw [← e1]
    conv_rhs => rw [← e2]
    funext i
    fin_cases i <;> simp [curl]
  rw [hc] at this
  apply hB
  funext i
  have := congrFun this i
  simp only [Pi.neg_apply] at this
  show dipoleB ds p i = 0
  linarith

/-- The hypotheses are met by one dipole and a point above it. -/
example : ¬IsJacobian (dipoleA [⟨![0, 0, 0], ![0, 0, 1]⟩]) ![0, 0, 1] (dipoleDA [⟨![0, 0, 0], ![0, 0, 1]⟩] ![0, 0, 1]) := by
  refine C102_dA_violated _ _ ?_ ?_
  · intro d hd h
    rw [List.mem_singleton] at hd
    subst hd
    have := congrFun h 2
    simp at this
  · intro h
    have := congrFun h 2
    simp [dipoleB, Dip.termB, Dip.r, dot, rinv] at this
    norm_num at this

end Simsopt.Fields
