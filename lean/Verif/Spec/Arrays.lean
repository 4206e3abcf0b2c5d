import Verif.PyList
import Mathlib.Algebra.Order.Field.Rat
import Mathlib.Tactic.Ring
import Mathlib.Tactic.NormNum
/-!
# Fourier arrays in SPEC's layout (C171)

Model of `Spec.SpecFourierArray` (src/simsopt/mhd/spec.py L1270-1325).  Real numbers instead of doubles; a two-dimensional array is its shape and a function of two indices, of which only the values within the shape count.
-/
namespace Simsopt.Spec
open Simsopt

/-- A two-dimensional numpy array. -/
structure Arr where
  rows : ℕ
  cols : ℕ
  val : ℕ → ℕ → ℚ

/-- The position a slice bound stands for, in an axis of length `n`: negative bounds count from the end, all are clipped. -/
def clip (n : ℕ) (i : Int) : ℕ := if i < 0 then (i + n).toNat else min i.toNat n

/-- `SpecFourierArray`: the sizes of the inputlist and the array in SPEC's layout. -/
structure FA where
  mntor : ℕ
  mmpol : ℕ
  arr : Arr

/-- The constructor without an array (L1275-1281): zeros. -/
def FA.new (mntor mmpol : ℕ) : FA := ⟨mntor, mmpol, ⟨2 * mntor + 1, 2 * mmpol + 1, fun _ _ => 0⟩⟩

/-- The getter `as_spec` (L1283-1285). -/
def FA.asSpec (f : FA) : Arr := f.arr

/-- The attributes the constructor sets (L1275-1281). -/
def attributes : List String := ["_outer_spec", "_mmpol", "_mntor", "_array"]

/-- Reading an attribute of the object. -/
def attr (name : String) : Except Err Unit := if name ∈ attributes then .ok () else .error .attributeError

/-- The setter `as_spec` (L1287-1291): the sizes are read under names the object does not have. -/
def FA.setSpec (f : FA) (a : Arr) : Except Err FA := do
  attr "mntor"
  attr "mmpol"
  if a.rows ≠ 2 * f.mntor + 1 ∨ a.cols ≠ 2 * f.mmpol + 1 then throw .valueError
  return { f with arr := a }

/-- The getter `as_simsopt` (L1293-1307) with the `ntor` and `mpol` of the outer Spec object: a slice, transposed. -/
def FA.asSimsopt (f : FA) (ntor mpol : ℕ) : Arr :=
  let n0 := clip f.arr.rows ((f.mntor : Int) - ntor)
  let n1 := clip f.arr.rows ((f.mntor : Int) + ntor + 1)
  let m0 := clip f.arr.cols f.mmpol
  let m1 := clip f.arr.cols ((f.mmpol : Int) + mpol + 1)
  ⟨m1 - m0, n1 - n0, fun m n => f.arr.val (n0 + n) (m0 + m)⟩

/-- The setter `as_simsopt` (L1309-1323): the resolution is that of the array; the transposed array is assigned to a slice, where dimensions of length one are repeated and others must agree. -/
def FA.setSimsopt (f : FA) (a : Arr) : Except Err FA :=
  let mpol : Int := (a.rows : Int) - 1
  let ntor : ℕ := (a.cols - 1) / 2
  let R := 2 * f.mntor + 1
  let C := 2 * f.mmpol + 1
  let n0 := clip R ((f.mntor : Int) - ntor)
  let n1 := clip R ((f.mntor : Int) + ntor + 1)
  let m0 := clip C f.mmpol
  let m1 := clip C ((f.mmpol : Int) + mpol + 1)
  if (a.cols = n1 - n0 ∨ a.cols = 1) ∧ (a.rows = m1 - m0 ∨ a.rows = 1) then
    .ok { f with arr := ⟨R, C, fun i j => if n0 ≤ i ∧ i < n1 ∧ m0 ≤ j ∧ j < m1 then a.val (if a.rows = 1 then 0 else j - m0) (if a.cols = 1 then 0 else i - n0) else 0⟩ }
  else .error .valueError

/-- `array_translator(a, style='simsopt')` (L1233-1268). -/
def fromSimsopt (mntor mmpol : ℕ) (a : Arr) : Except Err FA := (FA.new mntor mmpol).setSimsopt a

/-! ### Specification -/

/-- The coefficient of mode `(m, n)` in SPEC's layout: row `mntor + n`, column `mmpol + m`. -/
def specMode (f : FA) (m n : Int) : ℚ := if 0 ≤ f.mmpol + m ∧ 0 ≤ f.mntor + n then f.arr.val (f.mntor + n).toNat (f.mmpol + m).toNat else 0

/-- The coefficient of mode `(m, n)` in simsopt's layout: row `m`, column `ntor + n`; zero for modes the array does not have. -/
def simMode (a : Arr) (ntor : ℕ) (m n : Int) : ℚ := if 0 ≤ m ∧ m < a.rows ∧ 0 ≤ n + ntor ∧ n + ntor < a.cols then a.val m.toNat (n + ntor).toNat else 0

/-! ### Theorems -/

theorem clip_nat (n i : ℕ) : clip n (i : Int) = min i n := by
  unfold clip
  rw [if_neg (by omega)]; simp

theorem clip_sub (n a b : ℕ) (h : b ≤ a) : clip n ((a : Int) - b) = min (a - b) n := by
  rw [show ((a : Int) - b) = ((a - b : ℕ) : Int) by omega, clip_nat]

/-- **C171**: an array of coefficients with `mpol + 1` rows and `2 ntor + 1` columns that fits is accepted, the result has SPEC's shape, every mode keeps its coefficient, and all others are zero. -/
theorem C171_layout (mntor mmpol ntor mpol : ℕ) (hn : ntor ≤ mntor) (hm : mpol ≤ mmpol) (a : Arr) (hr : a.rows = mpol + 1) (hc : a.cols = 2 * ntor + 1) :
    ∃ f, fromSimsopt mntor mmpol a = .ok f ∧ f.mntor = mntor ∧ f.mmpol = mmpol ∧ f.asSpec.rows = 2 * mntor + 1 ∧ f.asSpec.cols = 2 * mmpol + 1 ∧
      ∀ m n : Int, -mmpol ≤ m → m ≤ mmpol → -mntor ≤ n → n ≤ mntor → specMode f m n = simMode a ntor m n := by
  have hnt : (a.cols - 1) / 2 = ntor := by omega
  have e0 : clip (2 * mntor + 1) ((mntor : Int) - ntor) = mntor - ntor := by rw [clip_sub _ _ _ hn]; omega
  have e1 : clip (2 * mntor + 1) ((mntor : Int) + ntor + 1) = mntor + ntor + 1 := by
    rw [show ((mntor : Int) + ntor + 1) = ((mntor + ntor + 1 : ℕ) : Int) by push_cast; ring, clip_nat]; omega
  have e2 : clip (2 * mmpol + 1) (mmpol : Int) = mmpol := by rw [clip_nat]; omega
  have e3 : clip (2 * mmpol + 1) ((mmpol : Int) + ((a.rows : Int) - 1) + 1) = mmpol + mpol + 1 := by
    rw [show ((mmpol : Int) + ((a.rows : Int) - 1) + 1) = ((mmpol + mpol + 1 : ℕ) : Int) by rw [hr]; push_cast; ring, clip_nat]; omega
  have e : fromSimsopt mntor mmpol a = .ok { FA.new mntor mmpol with arr := ⟨2 * mntor + 1, 2 * mmpol + 1, fun i j => if mntor - ntor ≤ i ∧ i < mntor + ntor + 1 ∧ mmpol ≤ j ∧ j < mmpol + mpol + 1 then
      a.val (if a.rows = 1 then 0 else j - mmpol) (if a.cols = 1 then 0 else i - (mntor - ntor)) else 0⟩ } := by
    unfold fromSimsopt FA.setSimsopt
    simp only [FA.new, hnt, e0, e1, e2, e3]
    rw [if_pos ⟨Or.inl (by omega), Or.inl (by omega)⟩]
  refine ⟨_, e, rfl, rfl, rfl, rfl, fun m n hm1 hm2 hn1 hn2 => ?_⟩
  unfold specMode simMode
  simp only [FA.new]
  refine (if_pos (by omega)).trans ?_
  by_cases h : 0 ≤ m ∧ m < a.rows ∧ 0 ≤ n + ntor ∧ n + ntor < a.cols
  · rw [if_pos h]
    refine (if_pos (by omega)).trans ?_
    congr 1
    · split <;> omega
    · split <;> omega
  · rw [if_neg h]
    exact if_neg (by omega)

/-- **C171**: reading with a resolution that fits gives an array of that resolution with the same coefficients. -/
theorem C171_read (f : FA) (hR : f.arr.rows = 2 * f.mntor + 1) (hC : f.arr.cols = 2 * f.mmpol + 1) (ntor mpol : ℕ) (hn : ntor ≤ f.mntor) (hm : mpol ≤ f.mmpol) :
    (f.asSimsopt ntor mpol).rows = mpol + 1 ∧ (f.asSimsopt ntor mpol).cols = 2 * ntor + 1 ∧
    ∀ m n : Int, 0 ≤ m → m ≤ mpol → -ntor ≤ n → n ≤ ntor → simMode (f.asSimsopt ntor mpol) ntor m n = specMode f m n := by
  have e0 : clip f.arr.rows ((f.mntor : Int) - ntor) = f.mntor - ntor := by rw [clip_sub _ _ _ hn]; omega
  have e1 : clip f.arr.rows ((f.mntor : Int) + ntor + 1) = f.mntor + ntor + 1 := by
    rw [show ((f.mntor : Int) + ntor + 1) = ((f.mntor + ntor + 1 : ℕ) : Int) by push_cast; ring, clip_nat]; omega
  have e2 : clip f.arr.cols (f.mmpol : Int) = f.mmpol := by rw [clip_nat]; omega
  have e3 : clip f.arr.cols ((f.mmpol : Int) + mpol + 1) = f.mmpol + mpol + 1 := by
    rw [show ((f.mmpol : Int) + mpol + 1) = ((f.mmpol + mpol + 1 : ℕ) : Int) by push_cast; ring, clip_nat]; omega
  unfold FA.asSimsopt
  simp only [e0, e1, e2, e3]
  refine ⟨by omega, by omega, fun m n h1 h2 h3 h4 => ?_⟩
  unfold simMode specMode
  refine (if_pos (by simp only; omega)).trans (Eq.trans ?_ (if_pos (by omega)).symm)
  simp only
  congr 1 <;> omega

/-- **C171**: from simsopt's layout to SPEC's and back at another resolution: common modes are kept, new modes are zero. -/
theorem C171_round_trip (mntor mmpol ntor mpol ntor' mpol' : ℕ) (hn : ntor ≤ mntor) (hm : mpol ≤ mmpol) (hn' : ntor' ≤ mntor) (hm' : mpol' ≤ mmpol) (a : Arr) (hr : a.rows = mpol + 1) (hc : a.cols = 2 * ntor + 1) :
    ∃ f, fromSimsopt mntor mmpol a = .ok f ∧ ∀ m n : Int, 0 ≤ m → m ≤ mpol' → -ntor' ≤ n → n ≤ ntor' → simMode (f.asSimsopt ntor' mpol') ntor' m n = simMode a ntor m n := by
  obtain ⟨f, e, h1, h2, h3, h4, h5⟩ := C171_layout mntor mmpol ntor mpol hn hm a hr hc
  refine ⟨f, e, fun m n g1 g2 g3 g4 => ?_⟩
  subst h1 h2
  rw [(C171_read f h3 h4 ntor' mpol' hn' hm').2.2 m n g1 g2 g3 g4]
  exact h5 m n (by omega) (by omega) (by omega) (by omega)

/-- **C171**: arrays that do not fit (or have an even number of columns) are refused. -/
theorem C171_too_big (mntor mmpol : ℕ) (a : Arr) (h1 : 1 ≤ a.rows) (h : 2 * mntor + 1 < a.cols ∨ mmpol + 1 < a.rows ∨ a.cols % 2 = 0) : fromSimsopt mntor mmpol a = .error .valueError := by
  unfold fromSimsopt FA.setSimsopt
  simp only [FA.new]
  refine if_neg fun hh => ?_
  obtain ⟨a1, a2⟩ := hh
  have e2 : clip (2 * mmpol + 1) (mmpol : Int) = mmpol := by rw [clip_nat]; omega
  have e3 : clip (2 * mmpol + 1) ((mmpol : Int) + ((a.rows : Int) - 1) + 1) = min (mmpol + a.rows) (2 * mmpol + 1) := by
    rw [show ((mmpol : Int) + ((a.rows : Int) - 1) + 1) = ((mmpol + a.rows : ℕ) : Int) by push_cast; ring, clip_nat]
  have e1 : clip (2 * mntor + 1) ((mntor : Int) + ((a.cols - 1) / 2 : ℕ) + 1) = min (mntor + (a.cols - 1) / 2 + 1) (2 * mntor + 1) := by
    rw [show ((mntor : Int) + ((a.cols - 1) / 2 : ℕ) + 1) = ((mntor + (a.cols - 1) / 2 + 1 : ℕ) : Int) by push_cast; ring, clip_nat]
  have e0 : ∀ d : ℕ, d ≤ mntor → clip (2 * mntor + 1) ((mntor : Int) - d) = mntor - d := fun d hd => by rw [clip_sub _ _ _ hd]; omega
  rw [e2, e3] at a2
  rw [e1] at a1
  by_cases hc : (a.cols - 1) / 2 ≤ mntor
  · rw [e0 _ hc] at a1
    omega
  · omega

/-- **C171** (violated): the setter `as_spec` raises AttributeError for every array. -/
theorem C171_set_spec_violated (f : FA) (a : Arr) : f.setSpec a = .error .attributeError := by
  rfl

/-- The hypotheses of the round trip are met. -/
example : ∃ f, fromSimsopt 3 2 ⟨2, 3, fun i j => i + 10 * j⟩ = .ok f ∧ simMode (f.asSimsopt 2 2) 2 1 (-1) = 1 ∧ simMode (f.asSimsopt 2 2) 2 1 1 = 21 ∧ simMode (f.asSimsopt 2 2) 2 1 2 = 0 := by
  obtain ⟨f, e, h⟩ := C171_round_trip 3 2 1 1 2 2 (by omega) (by omega) (by omega) (by omega) ⟨2, 3, fun i j => i + 10 * j⟩ rfl rfl
  refine ⟨f, e, ?_, ?_, ?_⟩
  · rw [h 1 (-1) (by omega) (by omega) (by omega) (by omega)]; norm_num [simMode]
  · rw [h 1 1 (by omega) (by omega) (by omega) (by omega)]; norm_num [simMode, show Int.toNat 2 = 2 from rfl]
  · rw [h 1 2 (by omega) (by omega) (by omega) (by omega)]; norm_num [simMode]

end Simsopt.Spec
