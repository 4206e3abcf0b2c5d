import Verif.NField.Violations
import Verif.NField.Values
import Verif.NField.Half
/-!
# C148: CoilNormalField

Model of src/simsopt/field/normal_field.py L518-744.  The coils are represented by the value `X` of their dofs and by the function that gives the Biot-Savart field
at the quadrature points of a surface (`coilset.bs` is evaluated at `surface.gamma()`, coilset.py L74-75, L163-164).  That a change of the coil dofs calls `recompute_bell` of the dependent objects is
the property of the Optimizable graph proved elsewhere (C09); here `setCoils` calls it.
-/
namespace Simsopt.NField.Coil
open Simsopt Simsopt.RZSurf Simsopt.NField

/-- What is read of a surface. -/
structure Surf where
  grid : Grid
  mpol : Nat
  ntor : Nat
  stellsym : Bool
  normal : Nat → Nat → ℝ × ℝ × ℝ

/-- The object: its coilset (`coils`, `surf`), the attributes copied by the constructor (L549-552) and the two caches. -/
structure CNF (X : Type) where
  coils : X
  surf : Surf
  stellsym : Bool
  mpol : Nat
  ntor : Nat
  vns : Option Mat
  vnc : Option Mat

variable {X : Type} (B : X → Surf → Nat → Nat → ℝ × ℝ × ℝ)

/-- The constructor (L538-553). -/
def construct (coils : X) (surf : Surf) : CNF X := ⟨coils, surf, surf.stellsym, surf.mpol, surf.ntor, none, none⟩

/-- `bnormal` (L575, L589). -/
noncomputable def bnormal (s : CNF X) (k j : Nat) : ℝ :=
  (B s.coils s.surf k j).1 * (s.surf.normal k j).1 * -1 + (B s.coils s.surf k j).2.1 * (s.surf.normal k j).2.1 * -1 +
    (B s.coils s.surf k j).2.2 * (s.surf.normal k j).2.2 * -1

/-- `Vns, Vnc` (L576, L590): arrays of the resolution of the surface. -/
noncomputable def compute (s : CNF X) : Mat × Mat :=
  let A := s.surf.grid.transform s.surf.mpol s.surf.ntor s.stellsym (some ((2 * Real.pi) ^ 2)) (bnormal B s)
  (⟨s.surf.mpol + 1, 2 * s.surf.ntor + 1, fun i j => A.1 (i, j)⟩, ⟨s.surf.mpol + 1, 2 * s.surf.ntor + 1, fun i j => A.2 (i, j)⟩)

/-- The property `vns` (L572-579). -/
noncomputable def readVns (s : CNF X) : CNF X × Mat :=
  match s.vns with
  | some A => (s, A)
  | none => ({ s with vns := some (compute B s).1, vnc := some (compute B s).2 }, (compute B s).1)

/-- The property `vnc` (L585-593). -/
noncomputable def readVnc (s : CNF X) : CNF X × Mat :=
  match s.vnc with
  | some A => (s, A)
  | none => ({ s with vns := some (compute B s).1, vnc := some (compute B s).2 }, (compute B s).2)

/-- `recompute_bell` (L640-642). -/
def recomputeBell (s : CNF X) : CNF X := { s with vnc := none, vns := none }

/-- Setting the dofs of the coils. -/
def setCoils (s : CNF X) (x : X) : CNF X := recomputeBell { s with coils := x }

/-- The setter of `coilset` (L603-610): another coilset with its own surface. -/
def setCoilset (s : CNF X) (x : X) (surf : Surf) : CNF X := recomputeBell { s with coils := x, surf := surf }

/-- The setter of `surface` (L559-561): only forwarded to the coilset. -/
def setSurface (s : CNF X) (surf : Surf) : CNF X := { s with surf := surf }

/-- `get_vns` (L644-647). -/
noncomputable def getVns (s : CNF X) (m n : Int) : Option (CNF X × ℝ) := do
  guard (checkMn s.mpol s.ntor m n)
  let ij ← indexArray s.mpol s.ntor m n
  let r := readVns B s
  return (r.1, ← r.2.get ij.1 ij.2)

/-- `get_vnc` (L649-652). -/
noncomputable def getVnc (s : CNF X) (m n : Int) : Option (CNF X × ℝ) := do
  guard (checkMn s.mpol s.ntor m n)
  let ij ← indexArray s.mpol s.ntor m n
  let r := readVnc B s
  return (r.1, ← r.2.get ij.1 ij.2)

/-- `get_real_space_field` (inherited, L507-516) at the grid point `(k, j)`; `norm` is the length of `surface.normal()`. -/
noncomputable def realSpace (s : CNF X) (k j : Nat) : ℝ :=
  let r := readVns B s
  let q := readVnc B r.1
  let N := s.surf.normal k j
  let v := -1 * s.surf.grid.inverse (r.2.rows - 1) ((r.2.cols - 1) / 2) s.stellsym (some ((2 * Real.pi) ^ 2)) (fun i => r.2.a i.1 i.2) (fun i => q.2.a i.1 i.2) k j
    / Real.sqrt (N.1 * N.1 + N.2.1 * N.2.1 + N.2.2 * N.2.2)
  v

/-- `A.ravel()`. -/
def ravel (A : Mat) : List ℝ := (List.range (A.rows * A.cols)).map fun i => A.a (i / A.cols) (i % A.cols)

/-- The vector whose Jacobian `reduce_coilset` decomposes (L624-629), computed with a fresh CoilNormalField of the coilset. -/
noncomputable def target (x : X) (surf : Surf) : List ℝ :=
  let cnf := construct x surf
  let r := readVns B cnf
  let out := (ravel r.2).drop (surf.ntor + 1)
  if !surf.stellsym then out ++ (ravel (readVnc B r.1).2).drop surf.ntor else out

/-! ### Histories -/

/-- The operations of a user. -/
inductive Op (X : Type) where
  | vns | vnc | getVns (m n : Int) | getVnc (m n : Int) | setCoils (x : X) | setCoilset (x : X) (surf : Surf)

/-- One operation; a raised exception leaves the object as it is up to the caches. -/
noncomputable def step (s : CNF X) : Op X → CNF X
  | .vns => (readVns B s).1
  | .vnc => (readVnc B s).1
  | .getVns m n => ((getVns B s m n).map Prod.fst).getD s
  | .getVnc m n => ((getVnc B s m n).map Prod.fst).getD s
  | .setCoils x => setCoils s x
  | .setCoilset x surf => setCoilset s x surf

/-- The caches, where filled, belong to the present coils and surface. -/
def Fresh (s : CNF X) : Prop := (∀ A, s.vns = some A → A = (compute B s).1) ∧ (∀ A, s.vnc = some A → A = (compute B s).2)

theorem compute_congr {s t : CNF X} (h1 : s.coils = t.coils) (h2 : s.surf = t.surf) (h3 : s.stellsym = t.stellsym) : compute B s = compute B t := by
  have : bnormal B s = bnormal B t := by funext k j; simp only [bnormal, h1, h2]
  simp only [compute, this, h2, h3]

theorem readVns_fresh {s : CNF X} (h : Fresh B s) : Fresh B (readVns B s).1 ∧ (readVns B s).2 = (compute B s).1 ∧
    (readVns B s).1.coils = s.coils ∧ (readVns B s).1.surf = s.surf ∧ (readVns B s).1.stellsym = s.stellsym := by
  unfold readVns
  cases hv : s.vns with
  | some A => exact ⟨h, h.1 A hv, rfl, rfl, rfl⟩
  | none =>
    refine ⟨⟨fun A hA => ?_, fun A hA => ?_⟩, rfl, rfl, rfl, rfl⟩
    · have : (compute B s).1 = A := by simpa using hA
      rw [← this]; rfl
    · have : (compute B s).2 = A := by simpa using hA
      rw [← this]; rfl

theorem readVnc_fresh {s : CNF X} (h : Fresh B s) : Fresh B (readVnc B s).1 ∧ (readVnc B s).2 = (compute B s).2 ∧
    (readVnc B s).1.coils = s.coils ∧ (readVnc B s).1.surf = s.surf ∧ (readVnc B s).1.stellsym = s.stellsym := by
  unfold readVnc
  cases hv : s.vnc with
  | some A => exact ⟨h, h.2 A hv, rfl, rfl, rfl⟩
  | none =>
    refine ⟨⟨fun A hA => ?_, fun A hA => ?_⟩, rfl, rfl, rfl, rfl⟩
    · have : (compute B s).1 = A := by simpa using hA
      rw [← this]; rfl
    · have : (compute B s).2 = A := by simpa using hA
      rw [← this]; rfl

theorem step_fresh {s : CNF X} (h : Fresh B s) (o : Op X) : Fresh B (step B s o) := by
  cases o with
  | vns => exact (readVns_fresh B h).1
  | vnc => exact (readVnc_fresh B h).1
  | getVns m n =>
    simp only [step]
    cases hg : getVns B s m n with
    | none => exact h
    | some r =>
      have : r.1 = (readVns B s).1 := by
        simp only [getVns, Option.bind_eq_bind, Option.bind_eq_some_iff] at hg
        obtain ⟨_, _, _, _, v, _, hr⟩ := hg
        simp at hr; rw [← hr]
      simpa [this] using (readVns_fresh B h).1
  | getVnc m n =>
    simp only [step]
    cases hg : getVnc B s m n with
    | none => exact h
    | some r =>
      have : r.1 = (readVnc B s).1 := by
        simp only [getVnc, Option.bind_eq_bind, Option.bind_eq_some_iff] at hg
        obtain ⟨_, _, _, _, v, _, hr⟩ := hg
        simp at hr; rw [← hr]
      simpa [this] using (readVnc_fresh B h).1
  | setCoils x => exact ⟨fun A hA => by simp [step, setCoils, recomputeBell] at hA, fun A hA => by simp [step, setCoils, recomputeBell] at hA⟩
  | setCoilset x surf => exact ⟨fun A hA => by simp [step, setCoilset, recomputeBell] at hA, fun A hA => by simp [step, setCoilset, recomputeBell] at hA⟩

/-- The harmonics of minus the flux `B·(∂r/∂θ × ∂r/∂ζ)` through the surface, for the coils `x`: what the documentation says vns and vnc are. -/
noncomputable def harmonics (x : X) (surf : Surf) : Arr × Arr :=
  surf.grid.transform surf.mpol surf.ntor surf.stellsym (some ((2 * Real.pi) ^ 2))
    fun k j => -((B x surf k j).1 * (surf.normal k j).1 + (B x surf k j).2.1 * (surf.normal k j).2.1 + (B x surf k j).2.2 * (surf.normal k j).2.2)

theorem compute_harmonics (s : CNF X) (hst : s.stellsym = s.surf.stellsym) :
    (compute B s).1.a = (fun i j => (harmonics B s.coils s.surf).1 (i, j)) ∧ (compute B s).2.a = (fun i j => (harmonics B s.coils s.surf).2 (i, j)) := by
  have : bnormal B s = fun k j => -((B s.coils s.surf k j).1 * (s.surf.normal k j).1 + (B s.coils s.surf k j).2.1 * (s.surf.normal k j).2.1 + (B s.coils s.surf k j).2.2 * (s.surf.normal k j).2.2) := by
    funext k j; simp only [bnormal]; ring
  simp only [compute, harmonics, hst, this]
  exact ⟨trivial, trivial⟩

theorem run_fresh {s : CNF X} (h : Fresh B s) (l : List (Op X)) : Fresh B (l.foldl (step B) s) := by
  induction l generalizing s with
  | nil => exact h
  | cons o l ih => exact ih (step_fresh B h o)

/-- **C148.** After every history of reads, changes of the coils and replacements of the coilset, `vns`, `vnc` (and `get_vns(m, n)`, `get_vnc(m, n)`, as long as the coilset in place has a surface of the
resolution and symmetry of the first one) are the harmonics of the field of the present coils on the present surface - never those of coils that were replaced. -/
theorem C148_coherent (x : X) (surf : Surf) (l : List (Op X)) :
    let s := l.foldl (step B) (construct x surf)
    (readVns B s).2 = (compute B s).1 ∧ (readVnc B s).2 = (compute B s).2 ∧
    (s.surf.stellsym = s.stellsym → s.surf.mpol = s.mpol → s.surf.ntor = s.ntor → ∀ m n, Valid s.mpol s.ntor true m n →
      (getVns B s m n).map Prod.snd = some ((harmonics B s.coils s.surf).1 (m.toNat, (n + s.ntor).toNat)) ∧
      (getVnc B s m n).map Prod.snd = some ((harmonics B s.coils s.surf).2 (m.toNat, (n + s.ntor).toNat))) := by
  intro s
  have hf : Fresh B s := run_fresh B (by exact ⟨fun A hA => by simp [construct] at hA, fun A hA => by simp [construct] at hA⟩) l
  refine ⟨(readVns_fresh B hf).2.1, (readVnc_fresh B hf).2.1, ?_⟩
  intro hst hm hn m n hva
  obtain ⟨c1, c2⟩ := compute_harmonics B s hst.symm
  obtain ⟨b1, b2, b3, b4, b5, b6⟩ := id hva
  have hc : checkMn s.mpol s.ntor m n = true := by simp [checkMn]; omega
  have hi : indexArray s.mpol s.ntor m n = some (m, n + s.ntor) := by
    have : ¬ |n| > (s.ntor : Int) := by rw [gt_iff_lt, not_lt, abs_le]; omega
    rw [indexArray, if_neg (by omega), if_neg this, if_neg (by omega)]
  have g1 : (compute B s).1.get m (n + s.ntor) = some ((compute B s).1.a m.toNat (n + s.ntor).toNat) :=
    Mat.get_eq _ _ _ b1 (by show m < ((s.surf.mpol + 1 : Nat) : Int); omega) (by omega) (by show _ < ((2 * s.surf.ntor + 1 : Nat) : Int); omega)
  have g2 : (compute B s).2.get m (n + s.ntor) = some ((compute B s).2.a m.toNat (n + s.ntor).toNat) :=
    Mat.get_eq _ _ _ b1 (by show m < ((s.surf.mpol + 1 : Nat) : Int); omega) (by omega) (by show _ < ((2 * s.surf.ntor + 1 : Nat) : Int); omega)
  constructor
  · simp [getVns, hc, hi, (readVns_fresh B hf).2.1, g1, c1]
  · simp [getVnc, hc, hi, (readVnc_fresh B hf).2.1, g2, c2]

/-- The normal component of the coils' field, `B·n̂`. -/
noncomputable def normalComponent (s : CNF X) (k j : Nat) : ℝ :=
  let b := B s.coils s.surf k j
  let N := s.surf.normal k j
  (b.1 * N.1 + b.2.1 * N.2.1 + b.2.2 * N.2.2) / Real.sqrt (N.1 * N.1 + N.2.1 * N.2.1 + N.2.2 * N.2.2)

theorem realSpace_eq {s : CNF X} (hf : Fresh B s) (k j : Nat) :
    realSpace B s k j = -1 * s.surf.grid.inverse s.surf.mpol s.surf.ntor s.stellsym (some ((2 * Real.pi) ^ 2))
        (s.surf.grid.transform s.surf.mpol s.surf.ntor s.stellsym (some ((2 * Real.pi) ^ 2)) (bnormal B s)).1
        (s.surf.grid.transform s.surf.mpol s.surf.ntor s.stellsym (some ((2 * Real.pi) ^ 2)) (bnormal B s)).2 k j
      / Real.sqrt ((s.surf.normal k j).1 * (s.surf.normal k j).1 + (s.surf.normal k j).2.1 * (s.surf.normal k j).2.1 + (s.surf.normal k j).2.2 * (s.surf.normal k j).2.2) := by
  obtain ⟨a1, a2, a3, a4, a5⟩ := readVns_fresh B hf
  obtain ⟨b1, b2, b3, b4, b5⟩ := readVnc_fresh B a1
  have hq : (readVnc B (readVns B s).1).2 = (compute B s).2 := by
    rw [b2, compute_congr B a3 a4 a5]
  simp only [realSpace, a2, hq]
  have e1 : (compute B s).1.rows - 1 = s.surf.mpol := by simp [compute]
  have e2 : ((compute B s).1.cols - 1) / 2 = s.surf.ntor := by simp [compute]
  rw [e1, e2]
  rfl

/-- **C148.** Without stellarator symmetry, on the grid of one field period with full resolution (`mpol = ntheta // 2`, `ntor = nphi // 2`), `get_real_space_field` returns `B·n̂` of the present coils at
every grid point, after every history. -/
theorem C148_real_space (x : X) (surf : Surf) (l : List (Op X)) :
    let s := l.foldl (step B) (construct x surf)
    s.surf.grid.FieldPeriod → s.surf.mpol = s.surf.grid.ntheta / 2 → s.surf.ntor = s.surf.grid.nphi / 2 → s.stellsym = false →
    ∀ k j, k < s.surf.grid.nphi → j < s.surf.grid.ntheta → realSpace B s k j = normalComponent B s k j := by
  intro s hg hm hn hst k j hk hj
  have hf : Fresh B s := run_fresh B (by exact ⟨fun A hA => by simp [construct] at hA, fun A hA => by simp [construct] at hA⟩) l
  rw [realSpace_eq B hf, hm, hn, hst]
  have := C146_values s.surf.grid hg (some ((2 * Real.pi) ^ 2)) (by simp [Real.pi_ne_zero]) (bnormal B s) k j hk hj
  simp only at this
  rw [this]
  simp only [normalComponent, bnormal]
  ring

/-- **C148.** With stellarator symmetry, on the half-period grid: if the flux `B·N` is a sine series that the resolution contains (`2 mpol < ntheta`, `2 ntor < nphi`), `get_real_space_field` returns `B·n̂`. -/
theorem C148_real_space_half (x : X) (surf : Surf) (l : List (Op X)) (As : Nat → Int → ℝ) :
    let s := l.foldl (step B) (construct x surf)
    s.surf.grid.HalfPeriod → 2 * s.surf.mpol < s.surf.grid.ntheta → 2 * s.surf.ntor < s.surf.grid.nphi → s.stellsym = true →
    (∀ k j, (B s.coils s.surf k j).1 * (s.surf.normal k j).1 + (B s.coils s.surf k j).2.1 * (s.surf.normal k j).2.1 + (B s.coils s.surf k j).2.2 * (s.surf.normal k j).2.2
      = s.surf.grid.series s.surf.mpol s.surf.ntor As (fun _ _ => 0) k j) →
    ∀ k j, realSpace B s k j = normalComponent B s k j := by
  intro s hg hm hn hst hB k j
  have hf : Fresh B s := run_fresh B (by exact ⟨fun A hA => by simp [construct] at hA, fun A hA => by simp [construct] at hA⟩) l
  have hpi : ((2 * Real.pi) ^ 2 : ℝ) ≠ 0 := by simp [Real.pi_ne_zero]
  rw [realSpace_eq B hf, hst]
  have hb : bnormal B s = fun k j => (2 * Real.pi) ^ 2 * s.surf.grid.series s.surf.mpol s.surf.ntor (fun m n => -As m n / (2 * Real.pi) ^ 2) (fun _ _ => 0) k j := by
    funext k j
    have h1 : bnormal B s k j = -s.surf.grid.series s.surf.mpol s.surf.ntor As (fun _ _ => 0) k j := by
      rw [← hB k j]; simp only [bnormal]; ring
    rw [h1]
    simp only [Grid.series, zero_mul, add_zero, Finset.mul_sum, ← Finset.sum_neg_distrib]
    refine Finset.sum_congr rfl fun m _ => Finset.sum_congr rfl fun n _ => ?_
    field_simp
  have hinv : s.surf.grid.inverse s.surf.mpol s.surf.ntor true (some ((2 * Real.pi) ^ 2))
        (s.surf.grid.transform s.surf.mpol s.surf.ntor true (some ((2 * Real.pi) ^ 2)) (bnormal B s)).1
        (s.surf.grid.transform s.surf.mpol s.surf.ntor true (some ((2 * Real.pi) ^ 2)) (bnormal B s)).2 k j
      = -s.surf.grid.series s.surf.mpol s.surf.ntor As (fun _ _ => 0) k j := by
    rw [inverse_sum, Option.getD_some]
    simp only [if_true, add_zero]
    have hterm : ∀ m ∈ Finset.range (s.surf.mpol + 1), ∀ n ∈ Finset.Icc (if m = 0 then 1 else -(s.surf.ntor : Int)) (s.surf.ntor : Int),
        (s.surf.grid.transform s.surf.mpol s.surf.ntor true (some ((2 * Real.pi) ^ 2)) (bnormal B s)).1 (m, (n + s.surf.ntor).toNat) * Real.sin (s.surf.grid.angle m n k j)
        = -As m n / (2 * Real.pi) ^ 2 * Real.sin (s.surf.grid.angle m n k j) := by
      intro m hm' n hn'
      have hm' := Finset.mem_range.mp hm'
      have hn' := Finset.mem_Icc.mp hn'
      have hb2 : -(s.surf.ntor : Int) ≤ n ∧ (m = 0 → 1 ≤ n) := by
        by_cases h0 : m = 0
        · rw [if_pos h0] at hn'; omega
        · rw [if_neg h0] at hn'; omega
      have := C146_half_period hg s.surf.mpol s.surf.ntor hm (by omega) (some ((2 * Real.pi) ^ 2)) (by simp [Real.pi_ne_zero])
        (fun m n => -As m n / (2 * Real.pi) ^ 2) true m n (by omega) hb2.1 hn'.2 hb2.2 (by omega)
      rw [Option.getD_some] at this
      rw [hb, this]
    rw [Finset.sum_congr rfl fun m hm' => Finset.sum_congr rfl fun n hn' => hterm m hm' n hn']
    simp only [Grid.series, zero_mul, add_zero]
    rw [Finset.mul_sum, ← Finset.sum_neg_distrib]
    refine Finset.sum_congr rfl fun m hm' => ?_
    by_cases h0 : m = 0
    · subst h0
      simp only [if_true]
      have hsplit : Finset.Icc (0 : Int) s.surf.ntor = insert 0 (Finset.Icc 1 (s.surf.ntor : Int)) := by
        ext n; simp only [Finset.mem_insert, Finset.mem_Icc]; omega
      rw [hsplit, Finset.sum_insert (by simp), Finset.mul_sum]
      have : Real.sin (s.surf.grid.angle 0 0 k j) = 0 := by simp [Grid.angle]
      rw [this, mul_zero, zero_add, ← Finset.sum_neg_distrib]
      refine Finset.sum_congr rfl fun n _ => ?_
      field_simp
    · simp only [if_neg h0]
      rw [Finset.mul_sum, ← Finset.sum_neg_distrib]
      refine Finset.sum_congr rfl fun n _ => ?_
      field_simp
  rw [hinv]
  simp only [normalComponent]
  rw [hB k j]
  ring

/-- **C148.** The vector that `reduce_coilset` differentiates lists exactly the harmonics that are not zero by construction, in the order of the dofs of a NormalField of the same resolution. -/
theorem C148_target (x : X) (surf : Surf) : (target B x surf).length = ndof surf.stellsym surf.mpol surf.ntor ∧
    ∀ e m n (i : Nat), (e = true → surf.stellsym = false) → indexDofs surf.mpol surf.ntor m n e = some (i : Int) →
      (target B x surf)[i]? = some ((if e then (harmonics B x surf).2 else (harmonics B x surf).1) (m.toNat, (n + surf.ntor).toNat)) := by
  have hf : Fresh B (construct x surf) := ⟨fun A hA => by simp [construct] at hA, fun A hA => by simp [construct] at hA⟩
  obtain ⟨a1, a2, a3, a4, a5⟩ := readVns_fresh B hf
  obtain ⟨b1, b2, b3, b4, b5⟩ := readVnc_fresh B a1
  have hq : (readVnc B (readVns B (construct x surf)).1).2 = (compute B (construct x surf)).2 := by
    rw [b2, compute_congr B a3 a4 a5]
  obtain ⟨c1, c2⟩ := compute_harmonics B (construct x surf) rfl
  have e1 : ravel (compute B (construct x surf)).1 = (List.range ((surf.mpol + 1) * (2 * surf.ntor + 1))).map fun i => (harmonics B x surf).1 (i / (2 * surf.ntor + 1), i % (2 * surf.ntor + 1)) := by
    unfold ravel; rw [c1]; rfl
  have e2 : ravel (compute B (construct x surf)).2 = (List.range ((surf.mpol + 1) * (2 * surf.ntor + 1))).map fun i => (harmonics B x surf).2 (i / (2 * surf.ntor + 1), i % (2 * surf.ntor + 1)) := by
    unfold ravel; rw [c2]; rfl
  have hlenprod : (surf.mpol + 1) * (2 * surf.ntor + 1) = surf.mpol * (2 * surf.ntor + 1) + (2 * surf.ntor + 1) := by ring
  have ht : target B x surf = (if !surf.stellsym then
      ((List.range ((surf.mpol + 1) * (2 * surf.ntor + 1))).map fun i => (harmonics B x surf).1 (i / (2 * surf.ntor + 1), i % (2 * surf.ntor + 1))).drop (surf.ntor + 1) ++
      ((List.range ((surf.mpol + 1) * (2 * surf.ntor + 1))).map fun i => (harmonics B x surf).2 (i / (2 * surf.ntor + 1), i % (2 * surf.ntor + 1))).drop surf.ntor
      else ((List.range ((surf.mpol + 1) * (2 * surf.ntor + 1))).map fun i => (harmonics B x surf).1 (i / (2 * surf.ntor + 1), i % (2 * surf.ntor + 1))).drop (surf.ntor + 1)) := by
    simp only [target, a2, hq, e1, e2]
  -- the position of a mode in the flattened array
  have hpos : ∀ m n, Valid surf.mpol surf.ntor true m n → ∀ (F : Nat × Nat → ℝ) (p : Nat), (p : Int) = m * (2 * surf.ntor + 1) + n + surf.ntor →
      ((List.range ((surf.mpol + 1) * (2 * surf.ntor + 1))).map fun i => F (i / (2 * surf.ntor + 1), i % (2 * surf.ntor + 1)))[p]? = some (F (m.toNat, (n + surf.ntor).toNat)) := by
    intro m n ⟨v1, v2, v3, v4, v5, v6⟩ F p hp
    obtain ⟨M, rfl⟩ := Int.eq_ofNat_of_zero_le v1
    obtain ⟨c, hc⟩ := Int.eq_ofNat_of_zero_le (show 0 ≤ n + surf.ntor by omega)
    have hp' : p = c + (2 * surf.ntor + 1) * M := by zify; rw [hp]; linarith
    have hcl : c < 2 * surf.ntor + 1 := by omega
    have hlt : p < (surf.mpol + 1) * (2 * surf.ntor + 1) := by
      have : (2 * surf.ntor + 1) * M ≤ (2 * surf.ntor + 1) * surf.mpol := Nat.mul_le_mul_left _ (by omega)
      have e : (surf.mpol + 1) * (2 * surf.ntor + 1) = (2 * surf.ntor + 1) * surf.mpol + (2 * surf.ntor + 1) := by ring
      rw [e, hp']; omega
    have hd : p / (2 * surf.ntor + 1) = M := by rw [hp', Nat.add_mul_div_left _ _ (by omega), Nat.div_eq_of_lt hcl, zero_add]
    have hmod : p % (2 * surf.ntor + 1) = c := by rw [hp', Nat.add_mul_mod_self_left, Nat.mod_eq_of_lt hcl]
    rw [List.getElem?_map, List.getElem?_range hlt, Option.map_some, hd, hmod, hc]
    simp
  constructor
  · rw [ht]
    cases surf.stellsym <;> simp [ndof, List.length_drop, hlenprod] <;> omega
  · intro e m n i he hi
    rw [indexDofs_eq] at hi
    obtain ⟨hva, hi⟩ := hi
    rw [ht]
    have hcr := code_range _ _ _ _ _ hva
    cases e with
    | false =>
      simp only [Bool.false_eq_true, if_false] at hi ⊢
      have hbase : (((List.range ((surf.mpol + 1) * (2 * surf.ntor + 1))).map fun i => (harmonics B x surf).1 (i / (2 * surf.ntor + 1), i % (2 * surf.ntor + 1))).drop (surf.ntor + 1))[i]?
          = some ((harmonics B x surf).1 (m.toNat, (n + surf.ntor).toNat)) := by
        rw [List.getElem?_drop]
        exact hpos m n (valid_weaken hva) _ _ (by push_cast; linarith)
      cases surf.stellsym with
      | true => simpa using hbase
      | false =>
        simp only [Bool.not_false, if_true]
        rw [List.getElem?_append_left (by
          by_contra hc
          rw [List.getElem?_eq_none (by omega)] at hbase
          simp at hbase)]
        exact hbase
    | true =>
      simp only [if_true, he rfl, Bool.not_false] at hi ⊢
      have hl : (((List.range ((surf.mpol + 1) * (2 * surf.ntor + 1))).map fun i => (harmonics B x surf).1 (i / (2 * surf.ntor + 1), i % (2 * surf.ntor + 1))).drop (surf.ntor + 1)).length
          = surf.ntor + surf.mpol * (2 * surf.ntor + 1) := by simp [hlenprod]; omega
      have e2 : (surf.mpol : Int) * (surf.ntor * 2 + 1) = ((surf.mpol * (2 * surf.ntor + 1) : Nat) : Int) := by push_cast; ring
      rw [e2] at hi
      have h0 := hcr.1
      generalize hz : surf.mpol * (2 * surf.ntor + 1) = z at hl hi
      generalize hy : m * (2 * (surf.ntor : Int) + 1) + n = y at hi h0
      rw [List.getElem?_append_right (by rw [hl]; omega), hl, List.getElem?_drop]
      refine hpos m n hva _ _ ?_
      rw [hy]; omega

/-! ### where the cache and the resolution are not updated -/

/-- **C148 (violated).** The setter of `surface` does not clear the cache: once `vns` was read, it still returns the harmonics on the old surface. -/
theorem C148_surface_stale_violated (x : X) (surf surf' : Surf) :
    (readVns B (setSurface (readVns B (construct x surf)).1 surf')).2 = (readVns B (construct x surf)).2 := rfl

/-- **C148 (violated).** Neither setter updates `mpol`, `ntor`: with a surface of toroidal resolution `ntor + d`, `get_vns(m, n)` returns the harmonic `(m, n - d)` of the new surface. -/
theorem C148_resolution_violated (x x' : X) (surf surf' : Surf) (d : Nat) (hst : surf'.stellsym = surf.stellsym) (hm : surf'.mpol = surf.mpol) (hn : surf'.ntor = surf.ntor + d)
    (m n : Int) (hva : Valid surf.mpol surf.ntor true m n) :
    (getVns B (setCoilset (construct x surf) x' surf') m n).map Prod.snd = some ((harmonics B x' surf').1 (m.toNat, ((n - d) + surf'.ntor).toNat)) := by
  have hf : Fresh B (setCoilset (construct x surf) x' surf') := ⟨fun A hA => by simp [setCoilset, recomputeBell] at hA, fun A hA => by simp [setCoilset, recomputeBell] at hA⟩
  obtain ⟨c1, c2⟩ := compute_harmonics B (setCoilset (construct x surf) x' surf') hst.symm
  obtain ⟨b1, b2, b3, b4, b5, b6⟩ := id hva
  have hc : checkMn surf.mpol surf.ntor m n = true := by simp [checkMn]; omega
  have hi : indexArray surf.mpol surf.ntor m n = some (m, n + surf.ntor) := by
    have : ¬ |n| > (surf.ntor : Int) := by rw [gt_iff_lt, not_lt, abs_le]; omega
    rw [indexArray, if_neg (by omega), if_neg this, if_neg (by omega)]
  have g1 : (compute B (setCoilset (construct x surf) x' surf')).1.get m (n + surf.ntor) = some ((compute B (setCoilset (construct x surf) x' surf')).1.a m.toNat (n + surf.ntor).toNat) :=
    Mat.get_eq _ _ _ b1 (by show m < ((surf'.mpol + 1 : Nat) : Int); omega) (by omega) (by show _ < ((2 * surf'.ntor + 1 : Nat) : Int); omega)
  have hcol : (n - d) + surf'.ntor = n + surf.ntor := by rw [hn]; push_cast; ring
  rw [hcol]
  have hr := (readVns_fresh B hf).2.1
  show (do guard (checkMn surf.mpol surf.ntor m n); let ij ← indexArray surf.mpol surf.ntor m n; return ((readVns B (setCoilset (construct x surf) x' surf')).1, ← (readVns B (setCoilset (construct x surf) x' surf')).2.get ij.1 ij.2) : Option (CNF X × ℝ)).map Prod.snd = _
  rw [hr]
  simp only [hc, hi, guard_true, Option.bind_eq_bind, Option.bind_some, g1, c1]
  rfl

/-- Non-vacuity: a surface on the grid of one field period (4 by 3 points, nfp = 2) with full resolution, after a change of the coils and a read. -/
example : ∃ surf : Surf, ∀ (x x' : X), let s := [Op.setCoils x', Op.vnc].foldl (step B) (construct x surf)
    s.surf.grid.FieldPeriod ∧ s.surf.mpol = s.surf.grid.ntheta / 2 ∧ s.surf.ntor = s.surf.grid.nphi / 2 ∧ s.stellsym = false := by
  refine ⟨⟨⟨2, 4, 3, fun k => (k : ℝ) / ((2 : Nat) * (4 : Nat)), fun j => (j : ℝ) / (3 : Nat)⟩, 1, 2, false, fun _ _ => (1, 0, 0)⟩, fun x x' => ?_⟩
  simp only [List.foldl, step, setCoils, recomputeBell, construct, readVnc]
  exact ⟨⟨by decide, by decide, by decide, fun k => rfl, fun j => rfl⟩, by trivial, by trivial, by trivial⟩

/-- Non-vacuity: a half-period grid, a stellarator symmetric surface and a field whose flux is the series with the single mode (1, 1). -/
example : ∃ (surf : Surf) (B : Unit → Surf → Nat → Nat → ℝ × ℝ × ℝ), let s := construct () surf
    s.surf.grid.HalfPeriod ∧ 2 * s.surf.mpol < s.surf.grid.ntheta ∧ 2 * s.surf.ntor < s.surf.grid.nphi ∧ s.stellsym = true ∧
    ∀ k j, (B () s.surf k j).1 * (s.surf.normal k j).1 + (B () s.surf k j).2.1 * (s.surf.normal k j).2.1 + (B () s.surf k j).2.2 * (s.surf.normal k j).2.2
      = s.surf.grid.series s.surf.mpol s.surf.ntor (fun m n => if m = 1 ∧ n = 1 then 1 else 0) (fun _ _ => 0) k j :=
  ⟨⟨⟨2, 4, 3, fun k => ((k : ℝ) + 1 / 2) * (1 / 2 / (2 : Nat) / (4 : Nat)), fun j => (j : ℝ) / (3 : Nat)⟩, 1, 1, true, fun _ _ => (1, 0, 0)⟩,
    fun _ surf k j => (surf.grid.series surf.mpol surf.ntor (fun m n => if m = 1 ∧ n = 1 then 1 else 0) (fun _ _ => 0) k j, 0, 0),
    ⟨by decide, by decide, by decide, fun k => rfl, fun j => rfl⟩, by decide, by decide, rfl, fun k j => by simp [construct]⟩

end Simsopt.NField.Coil
