import Verif.PyList
import Mathlib.Data.Real.Basic
import Mathlib.Analysis.SpecialFunctions.Trigonometric.Basic
import Mathlib.Tactic.Ring
import Mathlib.Tactic.Linarith
import Mathlib.Tactic.FieldSimp
import Mathlib.Tactic.NormNum
import Mathlib.Tactic.Push
/-!
# The arrays of the virtual casing calculation (C180)

Model of the array handling of `VirtualCasing.from_vmec` (src/simsopt/mhd/virtual_casing.py L206-275).  Real numbers instead of doubles; the computation of the external field by the package `virtual_casing` is not modelled.
-/
namespace Simsopt.VCasing

/-- A 2-dimensional array. -/
structure Arr where
  rows : ℕ
  cols : ℕ
  val : ℕ → ℕ → ℝ

namespace Arr
/-- `np.hstack((a, a[:, [0]]))` (L272). -/
def closed (a : Arr) : Arr := ⟨a.rows, a.cols + 1, fun i j => if j < a.cols then a.val i j else a.val i 0⟩
/-- `-np.flip(np.flip(a, axis=0), axis=1)` (L273-274). -/
def flip (a : Arr) : Arr := ⟨a.rows, a.cols, fun i j => -a.val (a.rows - 1 - i) (a.cols - 1 - j)⟩
/-- `np.vstack((a, r))` with a row `r` (L273). -/
def below (a : Arr) (r : ℕ → ℝ) : Arr := ⟨a.rows + 1, a.cols, fun i j => if i < a.rows then a.val i j else r j⟩
/-- `a[:-1, :-1]` (L275). -/
def trim (a : Arr) : Arr := ⟨a.rows - 1, a.cols - 1, a.val⟩
/-- `np.concatenate((a, b))` (L275). -/
def append (a b : Arr) : Arr := ⟨a.rows + b.rows, a.cols, fun i j => if i < a.rows then a.val i j else b.val (i - a.rows) j⟩
/-- `np.concatenate([a for i in range(n)])` (L275). -/
def repeated (a : Arr) (n : ℕ) : Arr := ⟨n * a.rows, a.cols, fun i j => a.val (i % a.rows) j⟩
end Arr

/-- `B_external_normal_extended` (L272-275) from `B_external_normal` and `nfp`. -/
def extended (a : Arr) (nfp : ℕ) : Arr :=
  let w := a.closed
  let w := w.below fun j => w.flip.val 0 j
  (a.append w.flip.trim).repeated nfp

/-- `gamma1d`, `B1d` (L210-214): the three components one after the other, each in C order, for an array of `n` by `m` vectors. -/
def pack (n m : ℕ) (a : ℕ → ℕ → ℕ → ℝ) (i : ℕ) : ℝ := a (i % (n * m) / m) (i % (n * m) % m) (i / (n * m))
/-- `Bexternal3d` (L238-240). -/
def unpack (n m : ℕ) (b : ℕ → ℝ) (k j c : ℕ) : ℝ := b (c * (n * m) + (k * m + j))

/-! ### Specification -/

/-- A function of the toroidal and poloidal angle (of period 1) with `nfp` field periods which is odd under stellarator symmetry, as the normal component of the field is. -/
structure Odd (nfp : ℕ) (f : ℝ → ℝ → ℝ) : Prop where
  period : ∀ φ θ, f (φ + 1 / nfp) θ = f φ θ
  theta : ∀ φ θ, f φ (θ + 1) = f φ θ
  odd : ∀ φ θ, f (-φ) (-θ) = -f φ θ

/-- The grid of the half period: no point at 0, shifted by half the spacing; continued over the whole torus for larger `k`. -/
noncomputable def halfPhi (nfp n k : ℕ) : ℝ := (k + 1 / 2) / (2 * nfp * n)
/-- The grid of the field period (`use_stellsym=False`). -/
noncomputable def fullPhi (nfp n k : ℕ) : ℝ := k / (nfp * n)
/-- The values of `f` on the grid. -/
noncomputable def sample (n m : ℕ) (phi : ℕ → ℝ) (f : ℝ → ℝ → ℝ) : Arr := ⟨n, m, fun k j => f (phi k) (j / m)⟩

/-! ### Theorems -/

/-- **C180** The one-dimensional arrays hold every component of every vector once, in the order of the package (component, toroidal, poloidal), and unpacking undoes packing. -/
theorem C180_pack (n m : ℕ) (a : ℕ → ℕ → ℕ → ℝ) (k j c : ℕ) (hk : k < n) (hj : j < m) :
    pack n m a (c * (n * m) + (k * m + j)) = a k j c ∧ unpack n m (pack n m a) k j c = a k j c := by
  have hm : 0 < m := by omega
  have hlt : k * m + j < n * m := by nlinarith
  have h : pack n m a (c * (n * m) + (k * m + j)) = a k j c := by
    have e1 : (c * (n * m) + (k * m + j)) % (n * m) = k * m + j := by
      rw [Nat.mul_comm c, Nat.mul_add_mod, Nat.mod_eq_of_lt hlt]
    have e2 : (c * (n * m) + (k * m + j)) / (n * m) = c := by
      rw [Nat.mul_comm c, Nat.mul_add_div (by omega), Nat.div_eq_of_lt hlt, Nat.add_zero]
    have e3 : (k * m + j) / m = k := by rw [Nat.mul_comm k, Nat.mul_add_div hm, Nat.div_eq_of_lt hj, Nat.add_zero]
    have e4 : (k * m + j) % m = j := by rw [Nat.mul_comm k, Nat.mul_add_mod, Nat.mod_eq_of_lt hj]
    unfold pack
    rw [e1, e2, e3, e4]
  exact ⟨h, h⟩

/-- **C180** The extended array has the documented shape, and the two parts put together have equally long rows. -/
theorem C180_shape (a : Arr) (nfp : ℕ) : (extended a nfp).rows = a.rows * nfp * 2 ∧ (extended a nfp).cols = a.cols ∧ ∀ r, (a.closed.below r).flip.trim.cols = a.cols := by
  refine ⟨?_, rfl, fun _ => rfl⟩
  show nfp * (a.rows + (a.rows + 1 - 1)) = _
  rw [Nat.add_sub_cancel]; ring

theorem row_first (a : Arr) (nfp r j : ℕ) (h : r % (2 * a.rows) < a.rows) : (extended a nfp).val r j = a.val (r % (2 * a.rows)) j := by
  show (if r % (a.rows + (a.rows + 1 - 1)) < a.rows then a.val (r % (a.rows + (a.rows + 1 - 1))) j else _) = _
  rw [Nat.add_sub_cancel, ← two_mul, if_pos h]

theorem row_second (a : Arr) (nfp r j : ℕ) (ha : 0 < a.rows) (hj : j < a.cols) (h : a.rows ≤ r % (2 * a.rows)) :
    (extended a nfp).val r j = if r % (2 * a.rows) = a.rows then a.val (a.rows - 1) j else -a.val (2 * a.rows - r % (2 * a.rows)) (if j = 0 then 0 else a.cols - j) := by
  have hk : r % (2 * a.rows) < 2 * a.rows := Nat.mod_lt _ (by omega)
  show (if r % (a.rows + (a.rows + 1 - 1)) < a.rows then a.val (r % (a.rows + (a.rows + 1 - 1))) j else
    -(if (a.rows + 1) - 1 - (r % (a.rows + (a.rows + 1 - 1)) - a.rows) < a.rows then
      (if (a.cols + 1) - 1 - j < a.cols then a.val ((a.rows + 1) - 1 - (r % (a.rows + (a.rows + 1 - 1)) - a.rows)) ((a.cols + 1) - 1 - j) else a.val ((a.rows + 1) - 1 - (r % (a.rows + (a.rows + 1 - 1)) - a.rows)) 0)
      else -(if (a.cols + 1) - 1 - ((a.cols + 1) - 1 - j) < a.cols then a.val (a.rows - 1 - 0) ((a.cols + 1) - 1 - ((a.cols + 1) - 1 - j)) else a.val (a.rows - 1 - 0) 0))) = _
  simp only [Nat.add_sub_cancel, ← two_mul, Nat.sub_zero]
  generalize r % (2 * a.rows) = k at *
  rw [if_neg (not_lt.mpr h)]
  by_cases hk0 : k = a.rows
  · rw [if_neg (by omega), if_pos hk0, if_pos (by omega), neg_neg, show a.cols - (a.cols - j) = j by omega]
  · rw [if_pos (by omega), if_neg hk0, show a.rows - (k - a.rows) = 2 * a.rows - k by omega]
    by_cases hj0 : j = 0
    · rw [if_neg (by omega), if_pos hj0]
    · rw [if_pos (by omega), if_neg hj0]

theorem periodic (nfp : ℕ) (f : ℝ → ℝ → ℝ) (h : Odd nfp f) (q : ℕ) (φ θ : ℝ) : f (φ + q * (1 / nfp)) θ = f φ θ := by
  induction q with
  | zero => simp
  | succ q ih => rw [Nat.cast_succ, add_mul, one_mul, ← add_assoc, h.period, ih]

/-- Reflection of a poloidal grid index. -/
theorem reflect (nfp : ℕ) (f : ℝ → ℝ → ℝ) (h : Odd nfp f) (φ : ℝ) (m j : ℕ) (hj : j < m) :
    -f φ ((if j = 0 then 0 else m - j : ℕ) / m) = f (-φ) (j / m) := by
  have hm : (m : ℝ) ≠ 0 := by exact_mod_cast (by omega : m ≠ 0)
  rw [← h.odd]
  by_cases hj0 : j = 0
  · subst hj0; simp
  · rw [if_neg hj0, Nat.cast_sub hj.le, ← h.theta]
    congr 1
    field_simp; ring

/-- **C180** For a stellarator-symmetric field sampled on the half period, the rows of the first half of every field period are the values of the field at their grid points. -/
theorem C180_first_half (nfp n m : ℕ) (hn : 0 < n) (hp : 0 < nfp) (f : ℝ → ℝ → ℝ) (h : Odd nfp f) (r j : ℕ) (hr : r % (2 * n) < n) :
    (extended (sample n m (halfPhi nfp n) f) nfp).val r j = f (halfPhi nfp n r) (j / m) := by
  rw [row_first _ _ _ _ hr]
  show f (halfPhi nfp n (r % (2 * n))) (j / m) = _
  rw [← periodic nfp f h (r / (2 * n))]
  congr 1
  have e : (r : ℝ) = (2 * n : ℕ) * (r / (2 * n) : ℕ) + (r % (2 * n) : ℕ) := by exact_mod_cast (Nat.div_add_mod r (2 * n)).symm
  have h1 : (n : ℝ) ≠ 0 := by exact_mod_cast hn.ne'
  have h2 : (nfp : ℝ) ≠ 0 := by exact_mod_cast hp.ne'
  unfold halfPhi
  rw [e]
  push_cast
  generalize ((r / (2 * n) : ℕ) : ℝ) = q
  generalize ((r % (2 * n) : ℕ) : ℝ) = k
  field_simp
  ring

/-- **C180, exception** In the second half of every field period all rows are shifted by one: each has the values of the field at the grid point before. -/
theorem C180_shifted_violated (nfp n m : ℕ) (hn : 0 < n) (hp : 0 < nfp) (f : ℝ → ℝ → ℝ) (h : Odd nfp f) (r j : ℕ) (hj : j < m) (hr : n ≤ r % (2 * n)) :
    (extended (sample n m (halfPhi nfp n) f) nfp).val r j = f (halfPhi nfp n (r - 1)) (j / m) := by
  have hk : r % (2 * n) < 2 * n := Nat.mod_lt _ (by omega)
  have hr1 : r % (2 * n) ≤ r := Nat.mod_le _ _
  have h1 : (n : ℝ) ≠ 0 := by exact_mod_cast hn.ne'
  have h2 : (nfp : ℝ) ≠ 0 := by exact_mod_cast hp.ne'
  have e : (r : ℝ) = (2 * n : ℕ) * (r / (2 * n) : ℕ) + (r % (2 * n) : ℕ) := by exact_mod_cast (Nat.div_add_mod r (2 * n)).symm
  refine (row_second (sample n m (halfPhi nfp n) f) nfp r j hn hj hr).trans ?_
  show (if r % (2 * n) = n then f (halfPhi nfp n (n - 1)) (j / m) else -f (halfPhi nfp n (2 * n - r % (2 * n))) ((if j = 0 then 0 else m - j : ℕ) / m)) = _
  have target : halfPhi nfp n (r - 1) = ((r % (2 * n) : ℕ) - 1 / 2) / (2 * nfp * n) + (r / (2 * n) : ℕ) * (1 / nfp) := by
    unfold halfPhi
    rw [Nat.cast_sub (by omega), e]
    push_cast
    generalize ((r / (2 * n) : ℕ) : ℝ) = q
    generalize ((r % (2 * n) : ℕ) : ℝ) = k
    field_simp
    ring
  rw [target, periodic nfp f h]
  by_cases hk0 : r % (2 * n) = n
  · rw [if_pos hk0, hk0]
    congr 1
    unfold halfPhi
    rw [Nat.cast_sub (by omega)]
    congr 1
    push_cast
    ring
  · rw [if_neg hk0, reflect nfp f h _ m j hj, ← h.period]
    congr 1
    unfold halfPhi
    rw [Nat.cast_sub hk.le]
    push_cast
    generalize ((r % (2 * n) : ℕ) : ℝ) = k
    field_simp
    ring

/-- **C180** With `use_stellsym=False` every row but the one in the middle of each block of `2 n` is the value of the field at its point of the grid continued. -/
theorem C180_full_period (nfp n m : ℕ) (hn : 0 < n) (hp : 0 < nfp) (f : ℝ → ℝ → ℝ) (h : Odd nfp f) (r j : ℕ) (hj : j < m) (hr : r % (2 * n) ≠ n) :
    (extended (sample n m (fullPhi nfp n) f) nfp).val r j = f (fullPhi nfp n r) (j / m) := by
  have hk : r % (2 * n) < 2 * n := Nat.mod_lt _ (by omega)
  have h1 : (n : ℝ) ≠ 0 := by exact_mod_cast hn.ne'
  have h2 : (nfp : ℝ) ≠ 0 := by exact_mod_cast hp.ne'
  have e : (r : ℝ) = (2 * n : ℕ) * (r / (2 * n) : ℕ) + (r % (2 * n) : ℕ) := by exact_mod_cast (Nat.div_add_mod r (2 * n)).symm
  have target : fullPhi nfp n r = ((r % (2 * n) : ℕ)) / (nfp * n) + (2 * (r / (2 * n)) : ℕ) * (1 / nfp) := by
    unfold fullPhi
    rw [e]
    push_cast
    generalize ((r / (2 * n) : ℕ) : ℝ) = q
    generalize ((r % (2 * n) : ℕ) : ℝ) = k
    field_simp
    ring
  rw [target, periodic nfp f h]
  rcases lt_or_ge (r % (2 * n)) n with h' | h'
  · rw [row_first _ _ _ _ h']
    rfl
  · refine (row_second (sample n m (fullPhi nfp n) f) nfp r j hn hj h').trans ?_
    show (if r % (2 * n) = n then f (fullPhi nfp n (n - 1)) (j / m) else -f (fullPhi nfp n (2 * n - r % (2 * n))) ((if j = 0 then 0 else m - j : ℕ) / m)) = _
    rw [if_neg hr, reflect nfp f h _ m j hj]
    have := periodic nfp f h 2 (-fullPhi nfp n (2 * n - r % (2 * n))) (j / m)
    rw [← this]
    congr 1
    unfold fullPhi
    rw [Nat.cast_sub hk.le]
    push_cast
    generalize ((r % (2 * n) : ℕ) : ℝ) = k
    field_simp
    ring

/-- **C180, exception** With `use_stellsym=False` the array, of `2 n nfp` rows with spacing `1 / (n nfp)`, covers the torus twice: its last grid point is one spacing before the angle of two turns; and the row in the middle repeats the one before. -/
theorem C180_twice_violated (nfp n m : ℕ) (hn : 0 < n) (hp : 0 < nfp) (f : ℝ → ℝ → ℝ) (j : ℕ) (hj : j < m) :
    fullPhi nfp n (extended (sample n m (fullPhi nfp n) f) nfp).rows = 2 ∧
    (extended (sample n m (fullPhi nfp n) f) nfp).val n j = (extended (sample n m (fullPhi nfp n) f) nfp).val (n - 1) j := by
  have h1 : (n : ℝ) ≠ 0 := by exact_mod_cast hn.ne'
  have h2 : (nfp : ℝ) ≠ 0 := by exact_mod_cast hp.ne'
  constructor
  · rw [(C180_shape _ _).1]
    show ((n * nfp * 2 : ℕ) : ℝ) / (nfp * n) = 2
    push_cast
    field_simp
  · have e1 : n % (2 * n) = n := Nat.mod_eq_of_lt (by omega)
    have e2 : (n - 1) % (2 * n) = n - 1 := Nat.mod_eq_of_lt (by omega)
    refine (row_second (sample n m (fullPhi nfp n) f) nfp n j hn hj e1.symm.le).trans ?_
    refine Eq.trans (if_pos e1) (Eq.symm ?_)
    refine (row_first (sample n m (fullPhi nfp n) f) nfp (n - 1) j ?_).trans ?_
    · show (n - 1) % (2 * n) < n
      omega
    · show (sample n m (fullPhi nfp n) f).val ((n - 1) % (2 * n)) j = _
      rw [e2]; rfl

/-- The hypotheses hold in a concrete case: `sin (2πφ)`, one field period. -/
theorem sine_odd : Odd 1 fun φ _ => Real.sin (2 * Real.pi * φ) where
  period φ _ := by
    rw [show 2 * Real.pi * (φ + 1 / (1 : ℕ)) = 2 * Real.pi * φ + 2 * Real.pi by push_cast; ring, Real.sin_add_two_pi]
  theta _ _ := rfl
  odd φ _ := by rw [mul_neg, Real.sin_neg]

/-- **C180, exception** For the field `sin (2πφ)` on a grid of one point per half period the extended array has the wrong sign in the second half: the field at the second grid point is -1, the array has 1. -/
theorem C180_sign_violated : (extended (sample 1 1 (halfPhi 1 1) fun φ _ => Real.sin (2 * Real.pi * φ)) 1).val 1 0 = 1 ∧ Real.sin (2 * Real.pi * halfPhi 1 1 1) = -1 := by
  constructor
  · rw [C180_shifted_violated 1 1 1 one_pos one_pos _ sine_odd 1 0 one_pos (by norm_num)]
    show Real.sin (2 * Real.pi * halfPhi 1 1 0) = 1
    rw [show 2 * Real.pi * halfPhi 1 1 0 = Real.pi / 2 by unfold halfPhi; push_cast; ring, Real.sin_pi_div_two]
  · rw [show 2 * Real.pi * halfPhi 1 1 1 = Real.pi / 2 + Real.pi by unfold halfPhi; push_cast; ring, Real.sin_add_pi, Real.sin_pi_div_two]
end Simsopt.VCasing
