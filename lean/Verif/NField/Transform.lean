import Verif.Util.Trig
import Verif.Henneberg.Shape
import Mathlib.Algebra.BigOperators.Field
/-!
# C146: SurfaceRZFourier.fourier_transform_scalar and inverse_fourier_transform_scalar

Simplification: real numbers instead of doubles.
-/
namespace Simsopt.NField
open Simsopt Simsopt.RZSurf

/-- What the two methods read of the surface: `nfp`, the numbers of quadrature points and the quadrature points. -/
structure Grid where
  nfp : Nat
  nphi : Nat
  ntheta : Nat
  phi : Nat → ℝ
  theta : Nat → ℝ

/-- A 2D array, by row and column. -/
abbrev Arr := Nat × Nat → ℝ

/-- `angle = m * theta2d - n * self.nfp * phi2d` at the grid point `(k, j)` (surfacerzfourier.py L842-850, L898-907). -/
noncomputable def Grid.angle (g : Grid) (m : Nat) (n : Int) (k j : Nat) : ℝ := m * (2 * Real.pi * g.theta j) - n * g.nfp * (2 * Real.pi * g.phi k)

/-- The pairs visited by `for m in range(mpol + 1): nmin = -ntor; if m == 0: nmin = 1; for n in range(nmin, ntor+1)` (L846-849, L903-906). -/
def modes (mpol ntor : Nat) : List (Nat × Int) :=
  (List.range (mpol + 1)).flatMap fun m => (intRange (if m = 0 then 1 else -(ntor : Int)) (ntor + 1)).map fun n => (m, n)

/-- `np.sum` over the grid. -/
noncomputable def Grid.sum (g : Grid) (a : Nat → Nat → ℝ) : ℝ := ∑ k ∈ Finset.range g.nphi, ∑ j ∈ Finset.range g.ntheta, a k j

/-- `factor2` (L840, L852-855). -/
noncomputable def Grid.factor2 (g : Grid) (m : Nat) (n : Int) : ℝ :=
  let factor : ℝ := 2 / (g.ntheta * g.nphi)
  let f1 := if g.ntheta % 2 = 0 ∧ 2 * m = g.ntheta then factor / 2 else factor
  if g.nphi % 2 = 0 ∧ 2 * n.natAbs = g.nphi then f1 / 2 else f1

/-- `fourier_transform_scalar` (L798-870), after the choice of `mpol`, `ntor` and `stellsym`; `norm` is the normalization (a float) if given.
`A_mns[m, n + ntor] = ...` is an update of the array. -/
noncomputable def Grid.transform (g : Grid) (mpol ntor : Nat) (stellsym : Bool) (norm : Option ℝ) (scalar : Nat → Nat → ℝ) : Arr × Arr :=
  let zeros : Arr := fun _ => 0
  let ms := modes mpol ntor
  let Amns := ms.foldl (fun A (mn : Nat × Int) => Function.update A (mn.1, (mn.2 + ntor).toNat)
    (g.sum fun k j => scalar k j * Real.sin (g.angle mn.1 mn.2 k j) * g.factor2 mn.1 mn.2)) zeros
  let Amnc := if stellsym then zeros else ms.foldl (fun A (mn : Nat × Int) => Function.update A (mn.1, (mn.2 + ntor).toNat)
    (g.sum fun k j => scalar k j * Real.cos (g.angle mn.1 mn.2 k j) * g.factor2 mn.1 mn.2)) zeros
  let Amnc := if stellsym then Amnc else Function.update Amnc (0, ntor) (g.sum (fun k j => scalar k j) / (g.ntheta * g.nphi))
  match norm with
  | none => (Amns, Amnc)
  | some c => (fun i => Amns i / c, fun i => Amnc i / c)

/-- `inverse_fourier_transform_scalar` (L873-920) for arrays of shape `(mpol+1, 2*ntor+1)`, at the grid point `(k, j)`. -/
noncomputable def Grid.inverse (g : Grid) (mpol ntor : Nat) (stellsym : Bool) (norm : Option ℝ) (Amns Amnc : Arr) (k j : Nat) : ℝ :=
  let scalars := (modes mpol ntor).foldl (fun (s : ℝ) (mn : Nat × Int) =>
    let s := s + Amns (mn.1, (mn.2 + ntor).toNat) * Real.sin (g.angle mn.1 mn.2 k j)
    if stellsym then s else s + Amnc (mn.1, (mn.2 + ntor).toNat) * Real.cos (g.angle mn.1 mn.2 k j)) 0
  let scalars := if stellsym then scalars else scalars + Amnc (0, ntor)
  match norm with
  | none => scalars
  | some c => scalars * c

/-! ### Specification -/

/-- One field period: `phi = linspace(0, 1/nfp, nphi, endpoint=False)`, `theta = linspace(0, 1, ntheta, endpoint=False)`. -/
def Grid.FieldPeriod (g : Grid) : Prop :=
  g.nfp ≠ 0 ∧ g.nphi ≠ 0 ∧ g.ntheta ≠ 0 ∧ (∀ k, g.phi k = (k : ℝ) / (g.nfp * g.nphi)) ∧ ∀ j, g.theta j = (j : ℝ) / g.ntheta

/-- The full torus: `phi = linspace(0, 1, nphi, endpoint=False)`. -/
def Grid.FullTorus (g : Grid) : Prop :=
  g.nfp ≠ 0 ∧ g.nphi ≠ 0 ∧ g.ntheta ≠ 0 ∧ (∀ k, g.phi k = (k : ℝ) / g.nphi) ∧ ∀ j, g.theta j = (j : ℝ) / g.ntheta

/-- The documented series, over `m = 0..mpol`, `n = -ntor..ntor` with `n ≥ 0` for `m = 0`; the sine of the `(0,0)` mode is zero. -/
noncomputable def Grid.series (g : Grid) (mpol ntor : Nat) (As Ac : Nat → Int → ℝ) (k j : Nat) : ℝ :=
  ∑ m ∈ Finset.range (mpol + 1), ∑ n ∈ Finset.Icc (if m = 0 then 0 else -(ntor : Int)) ntor,
    (As m n * Real.sin (g.angle m n k j) + Ac m n * Real.cos (g.angle m n k j))

/-! ### The loops -/

theorem mem_modes (mpol ntor m : Nat) (n : Int) : (m, n) ∈ modes mpol ntor ↔ m ≤ mpol ∧ -(ntor : Int) ≤ n ∧ n ≤ ntor ∧ (m = 0 → 1 ≤ n) := by
  simp only [modes, List.mem_flatMap, List.mem_range, List.mem_map, Garab.mem_intRange, Prod.mk.injEq]
  constructor
  · rintro ⟨m', h1, n', h2, rfl, rfl⟩
    split at h2 <;> omega
  · rintro ⟨h1, h2, h3, h4⟩
    exact ⟨m, by omega, n, by split <;> omega, rfl, rfl⟩

theorem foldl_update {α K : Type} [DecidableEq K] (l : List α) (key : α → K) (val : α → ℝ) (A : K → ℝ) (hinj : ∀ x ∈ l, ∀ y ∈ l, key x = key y → x = y) :
    (∀ x ∈ l, (l.foldl (fun A x => Function.update A (key x) (val x)) A) (key x) = val x) ∧
    (∀ k, (∀ x ∈ l, key x ≠ k) → (l.foldl (fun A x => Function.update A (key x) (val x)) A) k = A k) := by
  induction l generalizing A with
  | nil => simp
  | cons a l ih =>
    obtain ⟨h1, h2⟩ := ih (Function.update A (key a) (val a)) (fun x hx y hy => hinj x (List.mem_cons_of_mem _ hx) y (List.mem_cons_of_mem _ hy))
    refine ⟨?_, ?_⟩
    · intro x hx
      rw [List.foldl_cons]
      by_cases hl : ∃ y ∈ l, key y = key x
      · obtain ⟨y, hy, e⟩ := hl
        have := hinj y (List.mem_cons_of_mem _ hy) x hx e
        subst this
        exact h1 y hy
      · rw [h2 (key x) (fun y hy e => hl ⟨y, hy, e⟩)]
        rcases List.mem_cons.mp hx with rfl | hx
        · simp
        · exact absurd ⟨x, hx, rfl⟩ hl
    · intro k hk
      rw [List.foldl_cons, h2 k (fun x hx => hk x (List.mem_cons_of_mem _ hx)), Function.update_of_ne (Ne.symm (hk a (List.mem_cons_self)))]

theorem modes_inj (mpol ntor : Nat) : ∀ x ∈ modes mpol ntor, ∀ y ∈ modes mpol ntor, (x.1, (x.2 + (ntor : Int)).toNat) = (y.1, (y.2 + (ntor : Int)).toNat) → x = y := by
  rintro ⟨m, n⟩ hx ⟨m', n'⟩ hy h
  rw [mem_modes] at hx hy
  simp only [Prod.mk.injEq] at h ⊢
  omega

/-- The entries that the loops of the transform write. -/
theorem transform_at (g : Grid) (mpol ntor : Nat) (st : Bool) (norm : Option ℝ) (f : Nat → Nat → ℝ) :
    let c := norm.getD 1
    (∀ m n, (m, n) ∈ modes mpol ntor → (g.transform mpol ntor st norm f).1 (m, (n + ntor).toNat) = g.sum (fun k j => f k j * Real.sin (g.angle m n k j) * g.factor2 m n) / c) ∧
    (∀ i, (∀ m n, (m, n) ∈ modes mpol ntor → (m, (n + (ntor : Int)).toNat) ≠ i) → (g.transform mpol ntor st norm f).1 i = 0) ∧
    (st = false → ∀ m n, (m, n) ∈ modes mpol ntor → (g.transform mpol ntor st norm f).2 (m, (n + ntor).toNat) = g.sum (fun k j => f k j * Real.cos (g.angle m n k j) * g.factor2 m n) / c) ∧
    (st = false → (g.transform mpol ntor st norm f).2 (0, ntor) = g.sum (fun k j => f k j) / (g.ntheta * g.nphi) / c) ∧
    (∀ i, i ≠ (0, ntor) → (∀ m n, (m, n) ∈ modes mpol ntor → (m, (n + (ntor : Int)).toNat) ≠ i) → (g.transform mpol ntor st norm f).2 i = 0) ∧
    (st = true → ∀ i, (g.transform mpol ntor st norm f).2 i = 0) := by
  intro c
  have us := foldl_update (modes mpol ntor) (fun mn => (mn.1, (mn.2 + (ntor : Int)).toNat))
    (fun mn => g.sum fun k j => f k j * Real.sin (g.angle mn.1 mn.2 k j) * g.factor2 mn.1 mn.2) (fun _ => 0) (modes_inj mpol ntor)
  have uc := foldl_update (modes mpol ntor) (fun mn => (mn.1, (mn.2 + (ntor : Int)).toNat))
    (fun mn => g.sum fun k j => f k j * Real.cos (g.angle mn.1 mn.2 k j) * g.factor2 mn.1 mn.2) (fun _ => 0) (modes_inj mpol ntor)
  have h00 : ∀ m n, (m, n) ∈ modes mpol ntor → (m, (n + (ntor : Int)).toNat) ≠ (0, ntor) := by
    intro m n h e
    rw [mem_modes] at h
    simp only [Prod.mk.injEq] at e
    omega
  refine ⟨?_, ?_, ?_, ?_, ?_, ?_⟩
  · intro m n h
    have := us.1 (m, n) h
    cases norm <;> simp only [Grid.transform, c, Option.getD_none, Option.getD_some, div_one] <;> simp only at this <;> rw [this]
  · intro i hi
    have := us.2 i (fun x hx => hi x.1 x.2 hx)
    cases norm <;> simp only [Grid.transform] <;> rw [this] <;> simp
  · intro hst m n h
    have := uc.1 (m, n) h
    subst hst
    cases norm <;> simp only [Grid.transform, c, Option.getD_none, Option.getD_some, div_one, Bool.false_eq_true, if_false] <;>
      rw [Function.update_of_ne (h00 m n h)] <;> simp only at this <;> rw [this]
  · intro hst
    subst hst
    cases norm <;> simp [Grid.transform, c]
  · intro i h0 hi
    have := uc.2 i (fun x hx => hi x.1 x.2 hx)
    cases st <;> cases norm <;> simp [Grid.transform, Function.update_of_ne h0, this]
  · intro hst i
    subst hst
    cases norm <;> simp [Grid.transform]

theorem foldl_add {α : Type} (l : List α) (f : α → ℝ) (a : ℝ) : l.foldl (fun s x => s + f x) a = a + (l.map f).sum := by
  induction l generalizing a with
  | nil => simp
  | cons x l ih => rw [List.foldl_cons, ih, List.map_cons, List.sum_cons]; ring

theorem modes_sum (mpol ntor : Nat) (f : Nat → Int → ℝ) :
    ((modes mpol ntor).map fun mn => f mn.1 mn.2).sum = ∑ m ∈ Finset.range (mpol + 1), ∑ n ∈ Finset.Icc (if m = 0 then 1 else -(ntor : Int)) ntor, f m n := by
  simp only [modes, List.map_flatMap, List.map_map]
  rw [show ∀ (l : List Nat) (h : Nat → List ℝ), (l.flatMap h).sum = (l.map fun m => (h m).sum).sum from fun l h => by
    induction l with
    | nil => rfl
    | cons a l ih => rw [List.flatMap_cons, List.sum_append, ih, List.map_cons, List.sum_cons]]
  rw [← Henne.loop_sum, Henne.loop_range]
  refine Finset.sum_congr rfl fun m _ => ?_
  rw [show (Function.comp (fun mn : Nat × Int => f mn.1 mn.2) fun n => (m, n)) = fun n => f m n from rfl, Henne.sum_intRange]

theorem inverse_sum (g : Grid) (mpol ntor : Nat) (st : Bool) (norm : Option ℝ) (As Ac : Arr) (k j : Nat) :
    g.inverse mpol ntor st norm As Ac k j = norm.getD 1 *
      ((∑ m ∈ Finset.range (mpol + 1), ∑ n ∈ Finset.Icc (if m = 0 then 1 else -(ntor : Int)) ntor,
        (As (m, (n + ntor).toNat) * Real.sin (g.angle m n k j) + if st then 0 else Ac (m, (n + ntor).toNat) * Real.cos (g.angle m n k j))) + if st then 0 else Ac (0, ntor)) := by
  rw [← modes_sum]
  have e : (fun (s : ℝ) (mn : Nat × Int) =>
      let s := s + As (mn.1, (mn.2 + ntor).toNat) * Real.sin (g.angle mn.1 mn.2 k j)
      if st then s else s + Ac (mn.1, (mn.2 + ntor).toNat) * Real.cos (g.angle mn.1 mn.2 k j)) =
      fun (s : ℝ) (mn : Nat × Int) => s + (As (mn.1, (mn.2 + ntor).toNat) * Real.sin (g.angle mn.1 mn.2 k j) + if st then 0 else Ac (mn.1, (mn.2 + ntor).toNat) * Real.cos (g.angle mn.1 mn.2 k j)) := by
    funext s mn; cases st <;> simp [add_assoc]
  simp only [Grid.inverse]
  rw [e, foldl_add]
  cases st <;> cases norm <;> simp only [if_true, Bool.false_eq_true, if_false, Option.getD_none, Option.getD_some, zero_add, one_mul, add_zero] <;> ring

end Simsopt.NField
