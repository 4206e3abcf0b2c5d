import Verif.PyList
import Mathlib.Data.Real.Basic
import Mathlib.Tactic.NormNum
/-!
# VMEC namelists of surfaces (C197)

Model of `SurfaceRZFourier.get_nml` and `from_vmec_input` (src/simsopt/geo/surfacerzfourier.py L219-336, L753-783) and of `nested_lists_to_array` (src/simsopt/_core/util.py L241-257).  Simplified: `rnd` stands for printing and parsing a number; arrays start at `m ≥ 0` (a hypothesis: negative indices would wrap); the
namelist is what `f90nml` returns (arrays with start indices, entries that are not assigned are `None` or missing).  Quadrature points are not modelled.
-/
namespace Simsopt.Nml
open Simsopt

inductive Kind | rc | rs | zc | zs
  deriving DecidableEq

/-- A surface: resolution, symmetry and the coefficient of mode `(m, n)`. -/
structure Surf where
  mpol : Int
  ntor : Int
  nfp : Nat
  stellsym : Bool
  c : Kind → Int → Int → ℝ

/-- An array of a namelist: `nml.start_index[name]` and `nml[name]`. -/
structure Arr where
  n0 : Int
  m0 : Int
  rows : List (List (Option ℝ))

/-- `shape[1]` of `nested_lists_to_array` (util.py L251). -/
def Arr.ncols (a : Arr) : Nat := (a.rows.map List.length).foldl max 0

/-- An entry of `nested_lists_to_array` (util.py L252-257). -/
def Arr.entry (a : Arr) (jm jn : Nat) : ℝ := ((a.rows[jm]?.getD [])[jn]?.getD none).getD 0

/-- `last_m`, `last_n` (L258-290). -/
def Arr.lastM (a : Arr) : Int := a.m0 + a.rows.length - 1
def Arr.lastN (a : Arr) : Int := a.n0 + a.ncols - 1

structure File where
  nfp : Option Nat
  lasym : Option Bool
  rbc : Option Arr
  zbs : Option Arr
  rbs : Option Arr
  zbc : Option Arr

/-- A subscript of the namelist (L252-256). -/
def key (a : Option Arr) : Except Err Arr := match a with | none => .error .keyError | some a => .ok a

/-- The double loop that transfers one array (L309-332). -/
noncomputable def transfer (a : Arr) (c : Int → Int → ℝ) : Int → Int → ℝ :=
  ((List.range a.rows.length).flatMap fun jm => (List.range a.ncols).map fun jn => (jm, jn)).foldl
    (fun c p => fun m n => if m = p.1 + a.m0 ∧ n = p.2 + a.n0 then a.entry p.1 p.2 else c m n) c

/-- The coefficients of a new surface (`__init__`): a torus with radii 1 and 0.1. -/
noncomputable def torus (k : Kind) (m n : Int) : ℝ :=
  if k = .rc ∧ m = 0 ∧ n = 0 then 1 else if (k = .rc ∨ k = .zs) ∧ m = 1 ∧ n = 0 then 1 / 10 else 0

/-- `from_vmec_input` (L233-336).  A surface with `mpol = 0` cannot be made. -/
noncomputable def read (f : File) : Except Err Surf := do
  let lasym := f.lasym.getD false
  let rbc ← key f.rbc
  let zbs ← key f.zbs
  let more ← if lasym then do
      let rbs ← key f.rbs
      let zbc ← key f.zbc
      pure (some (rbs, zbc))
    else pure none
  let ntor0 := max (max |rbc.n0| |rbc.lastN|) (max |zbs.n0| |zbs.lastN|)
  let mpol0 := max rbc.lastM zbs.lastM
  let ntor := match more with
    | none => max ntor0 0
    | some (a, b) => max ntor0 (max (max |a.n0| |a.lastN|) (max |b.n0| |b.lastN|))
  let mpol := match more with
    | none => max mpol0 0
    | some (a, b) => max mpol0 (max a.lastM b.lastM)
  if mpol < 1 then .error .indexError
  else .ok { mpol, ntor, nfp := f.nfp.getD 1, stellsym := !lasym, c := fun k => match k with
    | .rc => transfer rbc (torus .rc)
    | .zs => transfer zbs (torus .zs)
    | .rs => match more with | none => torus .rs | some (a, _) => transfer a (torus .rs)
    | .zc => match more with | none => torus .zc | some (_, b) => transfer b (torus .zc) }

/-- `range(lo, hi)` on integers. -/
def intRange (lo hi : Int) : List Int := (List.range (hi - lo).toNat).map fun (j : Nat) => lo + (j : Int)

open Classical in
/-- The assignments that `get_nml` prints (L768-781). -/
noncomputable def lines (rnd : ℝ → ℝ) (s : Surf) : List (Kind × Int × Int × ℝ) :=
  (intRange 0 (s.mpol + 1)).flatMap fun m => (intRange (if m = 0 then 0 else -s.ntor) (s.ntor + 1)).flatMap fun n =>
    (if |s.c .rc m n| > 0 ∨ |s.c .zs m n| > 0 then [(Kind.rc, m, n, rnd (s.c .rc m n)), (Kind.zs, m, n, rnd (s.c .zs m n))] else []) ++
    if s.stellsym then [] else if |s.c .rs m n| > 0 ∨ |s.c .zc m n| > 0 then [(Kind.rs, m, n, rnd (s.c .rs m n)), (Kind.zc, m, n, rnd (s.c .zc m n))] else []

/-! ### Specification -/

/-- What the namelist assigns to element `(n, m)` of the array, if anything. -/
def Arr.get (a : Arr) (m n : Int) : Option ℝ :=
  if a.m0 ≤ m ∧ a.n0 ≤ n then (a.rows[(m - a.m0).toNat]?.getD [])[(n - a.n0).toNat]?.getD none else none

/-- The array lies in the rectangle of its first and last indices. -/
def Arr.Covers (a : Arr) (m n : Int) : Prop := a.m0 ≤ m ∧ m ≤ a.lastM ∧ a.n0 ≤ n ∧ n ≤ a.lastN

/-- `f90nml` has parsed these assignments to the array of kind `k`: absent without assignments; otherwise it holds exactly the assigned values and starts at the smallest mode number. -/
def Parsed (as : List (Kind × Int × Int × ℝ)) (k : Kind) : Option Arr → Prop
  | none => ∀ m n v, (k, m, n, v) ∉ as
  | some a => (∀ m n v, (k, m, n, v) ∈ as ↔ a.get m n = some v) ∧ ∃ n v, (k, a.m0, n, v) ∈ as

/-- The file that `get_nml` writes, as `f90nml` reads it. -/
def ParsedFile (rnd : ℝ → ℝ) (s : Surf) (f : File) : Prop :=
  f.nfp = some s.nfp ∧ f.lasym = some (!s.stellsym) ∧ Parsed (lines rnd s) .rc f.rbc ∧ Parsed (lines rnd s) .zs f.zbs ∧ Parsed (lines rnd s) .rs f.rbs ∧ Parsed (lines rnd s) .zc f.zbc

/-- The modes and coefficients of a surface. -/
def Surf.Mode (s : Surf) (k : Kind) (m n : Int) : Prop := (s.stellsym = true → k = .rc ∨ k = .zs) ∧ 0 ≤ m ∧ m ≤ s.mpol ∧ -s.ntor ≤ n ∧ n ≤ s.ntor ∧ (m = 0 → 0 ≤ n)

/-! ### Reading -/

theorem transfer_fold (a : Arr) (l : List (Nat × Nat)) (c : Int → Int → ℝ) (m n : Int) :
    (l.foldl (fun c p => fun m n => if m = p.1 + a.m0 ∧ n = p.2 + a.n0 then a.entry p.1 p.2 else c m n) c) m n = c m n ∧ (∀ p ∈ l, ¬ (m = (p.1 : Int) + a.m0 ∧ n = (p.2 : Int) + a.n0)) ∨
    ∃ p ∈ l, m = (p.1 : Int) + a.m0 ∧ n = (p.2 : Int) + a.n0 ∧
      (l.foldl (fun c p => fun m n => if m = p.1 + a.m0 ∧ n = p.2 + a.n0 then a.entry p.1 p.2 else c m n) c) m n = a.entry p.1 p.2 := by
  induction l generalizing c with
  | nil => exact Or.inl ⟨rfl, by simp⟩
  | cons q l ih =>
    rw [List.foldl_cons]
    rcases ih (fun m n => if m = q.1 + a.m0 ∧ n = q.2 + a.n0 then a.entry q.1 q.2 else c m n) with ⟨h1, h2⟩ | ⟨p, hp, h1, h2, h3⟩
    · by_cases hq : m = (q.1 : Int) + a.m0 ∧ n = (q.2 : Int) + a.n0
      · refine Or.inr ⟨q, by simp, hq.1, hq.2, ?_⟩
        rw [h1]; exact if_pos hq
      · refine Or.inl ⟨?_, ?_⟩
        · rw [h1]; exact if_neg hq
        · intro p hp
          rcases List.mem_cons.mp hp with rfl | hp
          · exact hq
          · exact h2 p hp
    · exact Or.inr ⟨p, by simp [hp], h1, h2, h3⟩

theorem entry_get (a : Arr) (jm jn : Nat) : a.entry jm jn = (a.get (jm + a.m0) (jn + a.n0)).getD 0 := by
  rw [Arr.get, if_pos ⟨by omega, by omega⟩, show ((jm : Int) + a.m0 - a.m0).toNat = jm by omega, show ((jn : Int) + a.n0 - a.n0).toNat = jn by omega]
  rfl

theorem transfer_in (a : Arr) (c : Int → Int → ℝ) (m n : Int) (h : a.Covers m n) : transfer a c m n = (a.get m n).getD 0 := by
  obtain ⟨h1, h2, h3, h4⟩ := h
  simp only [Arr.lastM, Arr.lastN] at h2 h4
  rcases transfer_fold a ((List.range a.rows.length).flatMap fun jm => (List.range a.ncols).map fun jn => (jm, jn)) c m n with ⟨-, hno⟩ | ⟨p, hp, e1, e2, e3⟩
  · exfalso
    refine hno ((m - a.m0).toNat, (n - a.n0).toNat) ?_ ⟨by simp only; omega, by simp only; omega⟩
    simp only [List.mem_flatMap, List.mem_range, List.mem_map]
    exact ⟨_, by omega, _, by omega, rfl⟩
  · unfold transfer
    rw [e3, entry_get, ← e1, ← e2]

theorem transfer_out (a : Arr) (c : Int → Int → ℝ) (m n : Int) (h : ¬ a.Covers m n) : transfer a c m n = c m n := by
  rcases transfer_fold a ((List.range a.rows.length).flatMap fun jm => (List.range a.ncols).map fun jn => (jm, jn)) c m n with ⟨h1, -⟩ | ⟨p, hp, e1, e2, e3⟩
  · exact h1
  · exfalso
    simp only [List.mem_flatMap, List.mem_range, List.mem_map] at hp
    obtain ⟨jm, hjm, jn, hjn, rfl⟩ := hp
    simp only at e1 e2
    exact h ⟨by omega, by simp only [Arr.lastM]; omega, by omega, by simp only [Arr.lastN]; omega⟩

theorem foldl_max_le (l : List Nat) (i x : Nat) : i ≤ l.foldl max i ∧ (x ∈ l → x ≤ l.foldl max i) := by
  induction l generalizing i with
  | nil => simp
  | cons a l ih =>
    rw [List.foldl_cons]
    obtain ⟨h1, h2⟩ := ih (max i a)
    refine ⟨by omega, fun h => ?_⟩
    rcases List.mem_cons.mp h with rfl | h
    · omega
    · exact h2 h

/-- What is assigned lies in the rectangle. -/
theorem covers_of_get {a : Arr} {m n : Int} {v : ℝ} (h : a.get m n = some v) : a.Covers m n := by
  unfold Arr.get at h
  split at h
  · rename_i hc
    have hr : (m - a.m0).toNat < a.rows.length := by
      by_contra hn
      rw [List.getElem?_eq_none (l := a.rows) (by omega)] at h
      simp at h
    rw [List.getElem?_eq_getElem hr, Option.getD_some] at h
    have hcol : (n - a.n0).toNat < (a.rows[(m - a.m0).toNat]).length := by
      by_contra hn
      rw [List.getElem?_eq_none (l := a.rows[(m - a.m0).toNat]) (by omega)] at h
      simp at h
    have := (foldl_max_le (a.rows.map List.length) 0 (a.rows[(m - a.m0).toNat]).length).2 (List.mem_map.mpr ⟨_, List.getElem_mem hr, rfl⟩)
    refine ⟨hc.1, ?_, hc.2, ?_⟩
    · simp only [Arr.lastM]; omega
    · simp only [Arr.lastN, Arr.ncols]; omega
  · simp at h

/-- **C197**: reading a stellarator-symmetric file: each coefficient inside the rectangle of its array is the one assigned, or zero; outside it is that of a torus with the radii 1 and 0.1; the number of field periods is that of the file, or 1. -/
theorem C197_read (f : File) (rbc zbs : Arr) (h1 : f.rbc = some rbc) (h2 : f.zbs = some zbs) (hl : f.lasym.getD false = false) (_h0 : 0 ≤ rbc.m0 ∧ 0 ≤ zbs.m0) (hm : 1 ≤ max rbc.lastM zbs.lastM) :
    ∃ s, read f = .ok s ∧ s.stellsym = true ∧ s.nfp = f.nfp.getD 1 ∧ s.mpol = max rbc.lastM zbs.lastM ∧
      (∀ m n, rbc.Covers m n ∨ zbs.Covers m n → |n| ≤ s.ntor ∧ m ≤ s.mpol) ∧
      (∀ m n, (rbc.Covers m n → s.c .rc m n = (rbc.get m n).getD 0) ∧ (¬ rbc.Covers m n → s.c .rc m n = torus .rc m n)) ∧
      (∀ m n, (zbs.Covers m n → s.c .zs m n = (zbs.get m n).getD 0) ∧ (¬ zbs.Covers m n → s.c .zs m n = torus .zs m n)) := by
  unfold read
  rw [h1, h2, hl]
  simp only [key, Bool.false_eq_true, if_false]
  refine ⟨_, if_neg (show ¬ (max (max rbc.lastM zbs.lastM) 0 < 1) by omega), rfl, rfl, (show max (max rbc.lastM zbs.lastM) 0 = _ by omega), ?_, fun m n => ⟨transfer_in _ _ _ _, transfer_out _ _ _ _⟩, fun m n => ⟨transfer_in _ _ _ _, transfer_out _ _ _ _⟩⟩
  intro m n h
  show |n| ≤ max (max (max |rbc.n0| |rbc.lastN|) (max |zbs.n0| |zbs.lastN|)) 0 ∧ m ≤ max (max rbc.lastM zbs.lastM) 0
  rcases h with ⟨a, b, c, d⟩ | ⟨a, b, c, d⟩
  · have e1 := abs_le_max_abs_abs c d
    exact ⟨by omega, by omega⟩
  · have e1 := abs_le_max_abs_abs c d
    exact ⟨by omega, by omega⟩

/-! ### Writing -/

theorem mem_intRange (lo hi k : Int) : k ∈ intRange lo hi ↔ lo ≤ k ∧ k < hi := by
  simp only [intRange, List.mem_map, List.mem_range]
  constructor
  · rintro ⟨j, hj, rfl⟩; omega
  · intro h; exact ⟨(k - lo).toNat, by omega, by omega⟩

/-- Is the mode printed? -/
def Printed (s : Surf) (k : Kind) (m n : Int) : Prop :=
  match k with
  | .rc | .zs => s.c .rc m n ≠ 0 ∨ s.c .zs m n ≠ 0
  | .rs | .zc => s.c .rs m n ≠ 0 ∨ s.c .zc m n ≠ 0

/-- **C197**: `get_nml` assigns every mode whose coefficients (`RBC` or `ZBS`; `RBS` or `ZBC`) are not both zero, with the values of the surface, and nothing else. -/
theorem C197_write (rnd : ℝ → ℝ) (s : Surf) (k : Kind) (m n : Int) (v : ℝ) :
    (k, m, n, v) ∈ lines rnd s ↔ s.Mode k m n ∧ v = rnd (s.c k m n) ∧ Printed s k m n := by
  simp only [lines, List.mem_flatMap, mem_intRange, List.mem_append, abs_pos, gt_iff_lt]
  constructor
  · rintro ⟨m', ⟨a1, a2⟩, n', ⟨a3, a4⟩, h⟩
    have hn : -s.ntor ≤ n' ∧ (m' = 0 → 0 ≤ n') := by split at a3 <;> constructor <;> omega
    rcases h with h | h
    · split at h
      · rename_i hp
        simp only [List.mem_cons, Prod.mk.injEq, List.not_mem_nil, or_false] at h
        rcases h with ⟨rfl, rfl, rfl, rfl⟩ | ⟨rfl, rfl, rfl, rfl⟩
        · exact ⟨⟨fun _ => Or.inl rfl, a1, by omega, hn.1, by omega, hn.2⟩, rfl, hp⟩
        · exact ⟨⟨fun _ => Or.inr rfl, a1, by omega, hn.1, by omega, hn.2⟩, rfl, hp⟩
      · simp at h
    · split at h
      · simp at h
      · rename_i hs
        split at h
        · rename_i hp
          simp only [List.mem_cons, Prod.mk.injEq, List.not_mem_nil, or_false] at h
          rcases h with ⟨rfl, rfl, rfl, rfl⟩ | ⟨rfl, rfl, rfl, rfl⟩
          · exact ⟨⟨fun h => absurd h hs, a1, by omega, hn.1, by omega, hn.2⟩, rfl, hp⟩
          · exact ⟨⟨fun h => absurd h hs, a1, by omega, hn.1, by omega, hn.2⟩, rfl, hp⟩
        · simp at h
  · rintro ⟨⟨h1, h2, h3, h4, h5, h6⟩, rfl, hp⟩
    refine ⟨m, ⟨h2, by omega⟩, n, ⟨?_, by omega⟩, ?_⟩
    · split <;> omega
    · cases k with
      | rc => left; simp only [Printed] at hp; rw [if_pos hp]; simp
      | zs => left; simp only [Printed] at hp; rw [if_pos hp]; simp
      | rs =>
        right
        have : s.stellsym = false := by
          cases hs : s.stellsym with
          | false => rfl
          | true => rcases h1 hs with h | h <;> cases h
        simp only [Printed] at hp
        rw [this, if_neg (by simp), if_pos hp]; simp
      | zc =>
        right
        have : s.stellsym = false := by
          cases hs : s.stellsym with
          | false => rfl
          | true => rcases h1 hs with h | h <;> cases h
        simp only [Printed] at hp
        rw [this, if_neg (by simp), if_pos hp]; simp

/-- The coefficient that comes back from an array, when the torus is zero outside it. -/
theorem back (rnd : ℝ → ℝ) (h0 : rnd 0 = 0) (s : Surf) (k : Kind) (a : Arr) (hp : Parsed (lines rnd s) k (some a)) (ht : ∀ m n, ¬ a.Covers m n → torus k m n = 0) (m n : Int) (hm : s.Mode k m n) :
    transfer a (torus k) m n = rnd (s.c k m n) := by
  have hz : (a.get m n).getD 0 = rnd (s.c k m n) := by
    by_cases hpr : Printed s k m n
    · have := (hp.1 m n _).mp ((C197_write rnd s k m n _).mpr ⟨hm, rfl, hpr⟩)
      rw [this, Option.getD_some]
    · cases hg : a.get m n with
      | some v => exact absurd ((C197_write rnd s k m n v).mp ((hp.1 m n v).mpr hg)).2.2 hpr
      | none =>
        have : s.c k m n = 0 := by
          cases k <;> simp only [Printed, not_or, not_not] at hpr <;> first | exact hpr.1 | exact hpr.2
        rw [this, h0]; rfl
  by_cases hc : a.Covers m n
  · rw [transfer_in a _ _ _ hc, hz]
  · rw [transfer_out a _ _ _ hc, ht m n hc, ← hz]
    cases hg : a.get m n with
    | none => rfl
    | some v => exact absurd (covers_of_get hg) hc

/-- A torus-like surface: the major radius is not zero and the mode `(1, 0)` is present. -/
def Proper (s : Surf) : Prop := 1 ≤ s.mpol ∧ 0 ≤ s.ntor ∧ s.c .rc 0 0 ≠ 0 ∧ (s.c .rc 1 0 ≠ 0 ∨ s.c .zs 1 0 ≠ 0)

/-- **C197**: a stellarator-symmetric surface that is written by `write_nml` and read by `from_vmec_input` has all its coefficients, up to the rounding of the text, and its number of field periods. -/
theorem C197_round_trip (rnd : ℝ → ℝ) (h0 : rnd 0 = 0) (s : Surf) (hs : s.stellsym = true) (hp : Proper s) (f : File) (hf : ParsedFile rnd s f) :
    ∃ s', read f = .ok s' ∧ s'.stellsym = true ∧ s'.nfp = s.nfp ∧ ∀ k m n, s.Mode k m n → s'.c k m n = rnd (s.c k m n) := by
  obtain ⟨f1, f2, f3, f4, -, -⟩ := hf
  obtain ⟨p1, p2, p3, p4⟩ := hp
  have hmode : ∀ k m, (k = Kind.rc ∨ k = .zs) → (m = 0 ∨ m = 1) → s.Mode k m 0 := fun k m hk hm => ⟨fun _ => hk, by omega, by omega, by omega, by omega, by omega⟩
  have hpr : ∀ k m, (k = Kind.rc ∨ k = .zs) → (m = 0 ∨ m = 1) → Printed s k m 0 := by
    rintro k m hk hm
    rcases hk with rfl | rfl <;> rcases hm with rfl | rfl <;> simp only [Printed] <;> tauto
  have hin : ∀ k m, (k = Kind.rc ∨ k = .zs) → (m = 0 ∨ m = 1) → (k, m, (0 : Int), rnd (s.c k m 0)) ∈ lines rnd s := fun k m hk hm => (C197_write rnd s k m 0 _).mpr ⟨hmode k m hk hm, rfl, hpr k m hk hm⟩
  obtain ⟨rbc, hr⟩ : ∃ a, f.rbc = some a := by
    cases h : f.rbc with
    | none => rw [h] at f3; exact absurd (hin .rc 0 (Or.inl rfl) (Or.inl rfl)) (f3 _ _ _)
    | some a => exact ⟨a, rfl⟩
  obtain ⟨zbs, hz⟩ : ∃ a, f.zbs = some a := by
    cases h : f.zbs with
    | none => rw [h] at f4; exact absurd (hin .zs 0 (Or.inr rfl) (Or.inl rfl)) (f4 _ _ _)
    | some a => exact ⟨a, rfl⟩
  rw [hr] at f3
  rw [hz] at f4
  have cr : ∀ m, m = 0 ∨ m = 1 → rbc.Covers m 0 := fun m hm => covers_of_get ((f3.1 _ _ _).mp (hin .rc m (Or.inl rfl) hm))
  have cz : ∀ m, m = 0 ∨ m = 1 → zbs.Covers m 0 := fun m hm => covers_of_get ((f4.1 _ _ _).mp (hin .zs m (Or.inr rfl) hm))
  have hl : f.lasym.getD false = false := by rw [f2, hs]; rfl
  have first_m : 0 ≤ rbc.m0 ∧ 0 ≤ zbs.m0 := by
    obtain ⟨n1, v1, g1⟩ := f3.2
    obtain ⟨n2, v2, g2⟩ := f4.2
    exact ⟨((C197_write rnd s _ _ _ _).mp g1).1.2.1, ((C197_write rnd s _ _ _ _).mp g2).1.2.1⟩
  obtain ⟨s', e1, e2, e3, -, -, e6, e7⟩ := C197_read f rbc zbs hr hz hl first_m (by have := (cr 1 (Or.inr rfl)).2.1; omega)
  refine ⟨s', e1, e2, by rw [e3, f1]; rfl, fun k m n hm => ?_⟩
  have tr : ∀ m n, ¬ rbc.Covers m n → torus .rc m n = 0 := by
    intro m n hc
    unfold torus
    rw [if_neg, if_neg]
    · rintro ⟨-, rfl, rfl⟩; exact hc (cr 1 (Or.inr rfl))
    · rintro ⟨-, rfl, rfl⟩; exact hc (cr 0 (Or.inl rfl))
  have tz : ∀ m n, ¬ zbs.Covers m n → torus .zs m n = 0 := by
    intro m n hc
    unfold torus
    rw [if_neg, if_neg]
    · rintro ⟨-, rfl, rfl⟩; exact hc (cz 1 (Or.inr rfl))
    · rintro ⟨h, -⟩; cases h
  rcases hm.1 hs with rfl | rfl
  · have hb := back rnd h0 s .rc rbc f3 tr m n hm
    by_cases hc : rbc.Covers m n
    · rw [(e6 m n).1 hc, ← transfer_in rbc (torus .rc) m n hc, hb]
    · rw [(e6 m n).2 hc, ← transfer_out rbc (torus .rc) m n hc, hb]
  · have hb := back rnd h0 s .zs zbs f4 tz m n hm
    by_cases hc : zbs.Covers m n
    · rw [(e7 m n).1 hc, ← transfer_in zbs (torus .zs) m n hc, hb]
    · rw [(e7 m n).2 hc, ← transfer_out zbs (torus .zs) m n hc, hb]

/-- **C197**: reading a file without stellarator symmetry (`LASYM = .TRUE.`). -/
theorem C197_read_asym (f : File) (rbc zbs rbs zbc : Arr) (h1 : f.rbc = some rbc) (h2 : f.zbs = some zbs) (h3 : f.rbs = some rbs) (h4 : f.zbc = some zbc) (hl : f.lasym.getD false = true)
    (_h0 : 0 ≤ rbc.m0 ∧ 0 ≤ zbs.m0 ∧ 0 ≤ rbs.m0 ∧ 0 ≤ zbc.m0) (hm : 1 ≤ max (max rbc.lastM zbs.lastM) (max rbs.lastM zbc.lastM)) :
    ∃ s, read f = .ok s ∧ s.stellsym = false ∧ s.nfp = f.nfp.getD 1 ∧ s.mpol = max (max rbc.lastM zbs.lastM) (max rbs.lastM zbc.lastM) ∧
      ∀ k a, ((k, a) = (Kind.rc, rbc) ∨ (k, a) = (Kind.zs, zbs) ∨ (k, a) = (Kind.rs, rbs) ∨ (k, a) = (Kind.zc, zbc)) → ∀ m n,
        (a.Covers m n → |n| ≤ s.ntor ∧ m ≤ s.mpol ∧ s.c k m n = (a.get m n).getD 0) ∧ (¬ a.Covers m n → s.c k m n = torus k m n) := by
  unfold read
  rw [h1, h2, h3, h4, hl]
  simp only [key, if_true]
  refine ⟨_, if_neg (show ¬ (max (max rbc.lastM zbs.lastM) (max rbs.lastM zbc.lastM) < 1) by omega), rfl, rfl, rfl, ?_⟩
  intro k a hk m n
  have hb : a.Covers m n → |n| ≤ max (max (max |rbc.n0| |rbc.lastN|) (max |zbs.n0| |zbs.lastN|)) (max (max |rbs.n0| |rbs.lastN|) (max |zbc.n0| |zbc.lastN|)) ∧ m ≤ max (max rbc.lastM zbs.lastM) (max rbs.lastM zbc.lastM) := by
    rintro ⟨x1, x2, x3, x4⟩
    have e := abs_le_max_abs_abs x3 x4
    rcases hk with h | h | h | h <;> (obtain ⟨rfl, rfl⟩ := Prod.mk.inj h; exact ⟨by omega, by omega⟩)
  rcases hk with h | h | h | h <;> (obtain ⟨rfl, rfl⟩ := Prod.mk.inj h; exact ⟨fun hc => ⟨(hb hc).1, (hb hc).2, transfer_in _ _ _ _ hc⟩, transfer_out _ _ _ _⟩)

/-- **C197**: the round trip without stellarator symmetry, provided some `rs` or `zc` is not zero. -/
theorem C197_round_trip_asym (rnd : ℝ → ℝ) (h0 : rnd 0 = 0) (s : Surf) (hs : s.stellsym = false) (hp : Proper s) (hne : ∃ m n, s.Mode .rs m n ∧ (s.c .rs m n ≠ 0 ∨ s.c .zc m n ≠ 0)) (f : File) (hf : ParsedFile rnd s f) :
    ∃ s', read f = .ok s' ∧ s'.stellsym = false ∧ s'.nfp = s.nfp ∧ ∀ k m n, s.Mode k m n → s'.c k m n = rnd (s.c k m n) := by
  obtain ⟨f1, f2, f3, f4, f5, f6⟩ := hf
  obtain ⟨p1, p2, p3, p4⟩ := hp
  obtain ⟨m1, n1, hm1, hv1⟩ := hne
  have hmode : ∀ k m, (m = 0 ∨ m = 1) → s.Mode k m 0 := fun k m hm => ⟨fun h => absurd h (by simp [hs]), by omega, by omega, by omega, by omega, by omega⟩
  have hpr : ∀ k m, (k = Kind.rc ∨ k = .zs) → (m = 0 ∨ m = 1) → Printed s k m 0 := by
    rintro k m hk hm
    rcases hk with rfl | rfl <;> rcases hm with rfl | rfl <;> simp only [Printed] <;> tauto
  have hin : ∀ k m, (k = Kind.rc ∨ k = .zs) → (m = 0 ∨ m = 1) → (k, m, (0 : Int), rnd (s.c k m 0)) ∈ lines rnd s := fun k m hk hm => (C197_write rnd s k m 0 _).mpr ⟨hmode k m hm, rfl, hpr k m hk hm⟩
  have hin2 : ∀ k, (k = Kind.rs ∨ k = .zc) → (k, m1, n1, rnd (s.c k m1 n1)) ∈ lines rnd s := by
    intro k hk
    refine (C197_write rnd s k m1 n1 _).mpr ⟨⟨fun h => absurd h (by simp [hs]), hm1.2⟩, rfl, ?_⟩
    rcases hk with rfl | rfl <;> exact hv1
  obtain ⟨rbc, hr⟩ : ∃ a, f.rbc = some a := by
    cases h : f.rbc with
    | none => rw [h] at f3; exact absurd (hin .rc 0 (Or.inl rfl) (Or.inl rfl)) (f3 _ _ _)
    | some a => exact ⟨a, rfl⟩
  obtain ⟨zbs, hz⟩ : ∃ a, f.zbs = some a := by
    cases h : f.zbs with
    | none => rw [h] at f4; exact absurd (hin .zs 0 (Or.inr rfl) (Or.inl rfl)) (f4 _ _ _)
    | some a => exact ⟨a, rfl⟩
  obtain ⟨rbs, hr'⟩ : ∃ a, f.rbs = some a := by
    cases h : f.rbs with
    | none => rw [h] at f5; exact absurd (hin2 .rs (Or.inl rfl)) (f5 _ _ _)
    | some a => exact ⟨a, rfl⟩
  obtain ⟨zbc, hz'⟩ : ∃ a, f.zbc = some a := by
    cases h : f.zbc with
    | none => rw [h] at f6; exact absurd (hin2 .zc (Or.inr rfl)) (f6 _ _ _)
    | some a => exact ⟨a, rfl⟩
  rw [hr] at f3
  rw [hz] at f4
  rw [hr'] at f5
  rw [hz'] at f6
  have first_m : ∀ k a, Parsed (lines rnd s) k (some a) → 0 ≤ a.m0 := by
    rintro k a ⟨-, n, v, g⟩
    exact ((C197_write rnd s _ _ _ _).mp g).1.2.1
  have cr : ∀ m, m = 0 ∨ m = 1 → rbc.Covers m 0 := fun m hm => covers_of_get ((f3.1 _ _ _).mp (hin .rc m (Or.inl rfl) hm))
  have cz : ∀ m, m = 0 ∨ m = 1 → zbs.Covers m 0 := fun m hm => covers_of_get ((f4.1 _ _ _).mp (hin .zs m (Or.inr rfl) hm))
  have hl : f.lasym.getD false = true := by rw [f2, hs]; rfl
  obtain ⟨s', e1, e2, e3, -, e6⟩ := C197_read_asym f rbc zbs rbs zbc hr hz hr' hz' hl ⟨first_m _ _ f3, first_m _ _ f4, first_m _ _ f5, first_m _ _ f6⟩ (by have := (cr 1 (Or.inr rfl)).2.1; omega)
  have tr : ∀ m n, ¬ rbc.Covers m n → torus .rc m n = 0 := by
    intro m n hc
    unfold torus
    rw [if_neg, if_neg]
    · rintro ⟨-, rfl, rfl⟩; exact hc (cr 1 (Or.inr rfl))
    · rintro ⟨-, rfl, rfl⟩; exact hc (cr 0 (Or.inl rfl))
  have tz : ∀ m n, ¬ zbs.Covers m n → torus .zs m n = 0 := by
    intro m n hc
    unfold torus
    rw [if_neg, if_neg]
    · rintro ⟨-, rfl, rfl⟩; exact hc (cz 1 (Or.inr rfl))
    · rintro ⟨h, -⟩; cases h
  have hall : ∀ k a, ((k, a) = (Kind.rc, rbc) ∨ (k, a) = (Kind.zs, zbs) ∨ (k, a) = (Kind.rs, rbs) ∨ (k, a) = (Kind.zc, zbc)) → Parsed (lines rnd s) k (some a) → (∀ m n, ¬ a.Covers m n → torus k m n = 0) →
      ∀ m n, s.Mode k m n → s'.c k m n = rnd (s.c k m n) := by
    intro k a hk hP ht m n hm
    have hb := back rnd h0 s k a hP ht m n hm
    by_cases hc : a.Covers m n
    · rw [((e6 k a hk m n).1 hc).2.2, ← transfer_in a (torus k) m n hc, hb]
    · rw [(e6 k a hk m n).2 hc, ← transfer_out a (torus k) m n hc, hb]
  refine ⟨s', e1, e2, by rw [e3, f1]; rfl, fun k => ?_⟩
  cases k with
  | rc => exact hall .rc rbc (by simp) f3 tr
  | zs => exact hall .zs zbs (by simp) f4 tz
  | rs => exact hall .rs rbs (by simp) f5 (fun m n _ => by simp [torus])
  | zc => exact hall .zc zbc (by simp) f6 (fun m n _ => by simp [torus])

/-- **C197 (exception)**: a surface without stellarator symmetry whose `rs` and `zc` all vanish (as those of a new surface) cannot be read back: the file has no `RBS`, which is a `KeyError`. -/
theorem C197_asym_violated (rnd : ℝ → ℝ) (s : Surf) (hs : s.stellsym = false) (hz : ∀ m n, s.c .rs m n = 0 ∧ s.c .zc m n = 0) (f : File) (hf : ParsedFile rnd s f) : read f = .error .keyError := by
  obtain ⟨-, f2, -, -, f5, -⟩ := hf
  have hr : f.rbs = none := by
    cases h : f.rbs with
    | none => rfl
    | some a =>
      rw [h] at f5
      obtain ⟨n, v, hm⟩ := f5.2
      have := ((C197_write rnd s .rs _ n v).mp hm).2.2
      simp only [Printed, (hz _ _).1, (hz _ _).2, ne_eq, not_true_eq_false, or_self] at this
  have hl : f.lasym.getD false = true := by rw [f2, hs]; rfl
  unfold read
  rw [hl, hr]
  cases f.rbc with
  | none => rfl
  | some a =>
    cases f.zbs with
    | none => rfl
    | some b => rfl

/-- **C197 (exception)**: coefficients outside the rectangle of their array are not zero but those of the torus: a file with `ZBS(1,1) = 1` as only `ZBS` is read with `zs(1,0) = 0.1`. -/
theorem C197_missing_violated : ∃ s, read ⟨some 1, none, some ⟨0, 0, [[some 1], [some 1]]⟩, some ⟨1, 1, [[some 1]]⟩, none, none⟩ = .ok s ∧ s.c .zs 1 0 = 1 / 10 := by
  obtain ⟨s, h1, -, -, -, -, -, h2⟩ := C197_read ⟨some 1, none, some ⟨0, 0, [[some 1], [some 1]]⟩, some ⟨1, 1, [[some 1]]⟩, none, none⟩ ⟨0, 0, [[some 1], [some 1]]⟩ ⟨1, 1, [[some 1]]⟩ rfl rfl rfl (by simp) (by simp [Arr.lastM])
  refine ⟨s, h1, ?_⟩
  rw [(h2 1 0).2 (by simp [Arr.Covers])]
  simp [torus]

/-- A surface and the file it becomes: the hypotheses of `C197_round_trip` are met (coefficients 1 and 2, circular cross section, exact numbers). -/
noncomputable def demoS : Surf := ⟨1, 0, 3, true, fun k m n => if n = 0 ∧ (m = 1 ∧ (k = .rc ∨ k = .zs)) then 1 else if n = 0 ∧ m = 0 ∧ k = .rc then 2 else 0⟩

theorem demo_proper : Proper demoS := by
  refine ⟨by decide, by decide, ?_, Or.inl ?_⟩ <;> simp [demoS]

theorem demo_file : ParsedFile id demoS ⟨some 3, some false, some ⟨0, 0, [[some 2], [some 1]]⟩, some ⟨0, 0, [[some 0], [some 1]]⟩, none, none⟩ := by
  have hsym : ∀ k m n v, (k = Kind.rs ∨ k = .zc) → (k, m, n, v) ∉ lines id demoS := by
    intro k m n v hk h
    have := ((C197_write id demoS k m n v).mp h).1.1 rfl
    rcases hk with rfl | rfl <;> rcases this with h | h <;> cases h
  have hget : ∀ (x y : ℝ) (m n : Int) (v : ℝ), (⟨0, 0, [[some x], [some y]]⟩ : Arr).get m n = some v ↔ n = 0 ∧ (m = 0 ∧ v = x ∨ m = 1 ∧ v = y) := by
    intro x y m n v
    constructor
    · intro h
      have hc := covers_of_get h
      obtain ⟨c1, c2, c3, c4⟩ := hc
      simp only [Arr.lastM, Arr.lastN, Arr.ncols, List.length_cons, List.length_nil, List.map_cons, List.map_nil, List.foldl_cons, List.foldl_nil] at c1 c2 c3 c4
      have hn : n = 0 := by omega
      subst hn
      have hm : m = 0 ∨ m = 1 := by omega
      rcases hm with rfl | rfl <;> simp [Arr.get] at h <;> simp [h]
    · rintro ⟨rfl, ⟨rfl, rfl⟩ | ⟨rfl, rfl⟩⟩ <;> simp [Arr.get]
  have hline : ∀ k m n v, (k = Kind.rc ∨ k = .zs) → ((k, m, n, v) ∈ lines id demoS ↔ n = 0 ∧ (m = 0 ∧ v = demoS.c k 0 0 ∨ m = 1 ∧ v = demoS.c k 1 0)) := by
    intro k m n v hk
    rw [C197_write]
    constructor
    · rintro ⟨⟨-, a1, a2, a3, a4, -⟩, rfl, -⟩
      simp only [demoS] at a2 a3 a4
      have hn : n = 0 := by omega
      subst hn
      have hm : m = 0 ∨ m = 1 := by omega
      rcases hm with rfl | rfl <;> simp
    · rintro ⟨rfl, ⟨rfl, rfl⟩ | ⟨rfl, rfl⟩⟩
      · refine ⟨⟨fun _ => hk, by simp [demoS]⟩, rfl, ?_⟩
        rcases hk with rfl | rfl <;> simp [Printed, demoS]
      · refine ⟨⟨fun _ => hk, by simp [demoS]⟩, rfl, ?_⟩
        rcases hk with rfl | rfl <;> simp [Printed, demoS]
  refine ⟨rfl, rfl, ⟨fun m n v => ?_, 0, 2, ?_⟩, ⟨fun m n v => ?_, 0, 0, ?_⟩, fun m n v => hsym _ _ _ _ (Or.inl rfl), fun m n v => hsym _ _ _ _ (Or.inr rfl)⟩
  · rw [hline _ _ _ _ (Or.inl rfl), hget]; simp [demoS]
  · rw [hline _ _ _ _ (Or.inl rfl)]; simp [demoS]
  · rw [hline _ _ _ _ (Or.inr rfl), hget]; simp [demoS]
  · rw [hline _ _ _ _ (Or.inr rfl)]; simp [demoS]

/-- The same surface without symmetry and with `rs(1,0) = zc(1,0) = 1`: the hypotheses of `C197_round_trip_asym`. -/
noncomputable def demoA : Surf := ⟨1, 0, 3, false, fun k m n => if n = 0 ∧ m = 1 then 1 else if n = 0 ∧ m = 0 ∧ k = .rc then 2 else 0⟩

theorem demoA_file : Proper demoA ∧ (∃ m n, demoA.Mode .rs m n ∧ (demoA.c .rs m n ≠ 0 ∨ demoA.c .zc m n ≠ 0)) ∧
    ParsedFile id demoA ⟨some 3, some true, some ⟨0, 0, [[some 2], [some 1]]⟩, some ⟨0, 0, [[some 0], [some 1]]⟩, some ⟨0, 1, [[some 1]]⟩, some ⟨0, 1, [[some 1]]⟩⟩ := by
  have hget : ∀ (x y : ℝ) (m n : Int) (v : ℝ), (⟨0, 0, [[some x], [some y]]⟩ : Arr).get m n = some v ↔ n = 0 ∧ (m = 0 ∧ v = x ∨ m = 1 ∧ v = y) := by
    intro x y m n v
    constructor
    · intro h
      have hc := covers_of_get h
      obtain ⟨c1, c2, c3, c4⟩ := hc
      simp only [Arr.lastM, Arr.lastN, Arr.ncols, List.length_cons, List.length_nil, List.map_cons, List.map_nil, List.foldl_cons, List.foldl_nil] at c1 c2 c3 c4
      have hn : n = 0 := by omega
      subst hn
      have hm : m = 0 ∨ m = 1 := by omega
      rcases hm with rfl | rfl <;> simp [Arr.get] at h <;> simp [h]
    · rintro ⟨rfl, ⟨rfl, rfl⟩ | ⟨rfl, rfl⟩⟩ <;> simp [Arr.get]
  have hget1 : ∀ (m n : Int) (v : ℝ), (⟨0, 1, [[some 1]]⟩ : Arr).get m n = some v ↔ n = 0 ∧ m = 1 ∧ v = 1 := by
    intro m n v
    constructor
    · intro h
      have hc := covers_of_get h
      obtain ⟨c1, c2, c3, c4⟩ := hc
      simp only [Arr.lastM, Arr.lastN, Arr.ncols, List.length_cons, List.length_nil, List.map_cons, List.map_nil, List.foldl_cons, List.foldl_nil] at c1 c2 c3 c4
      have hn : n = 0 := by omega
      subst hn
      have hm : m = 1 := by omega
      subst hm
      simp [Arr.get] at h
      simp [h]
    · rintro ⟨rfl, rfl, rfl⟩; simp [Arr.get]
  have hline : ∀ k m n v, (k, m, n, v) ∈ lines id demoA ↔ n = 0 ∧ (m = 0 ∧ v = demoA.c k 0 0 ∧ (k = .rc ∨ k = .zs) ∨ m = 1 ∧ v = 1) := by
    intro k m n v
    rw [C197_write]
    constructor
    · rintro ⟨⟨-, a1, a2, a3, a4, -⟩, rfl, a5⟩
      simp only [demoA] at a2 a3 a4
      have hn : n = 0 := by omega
      subst hn
      have hm : m = 0 ∨ m = 1 := by omega
      rcases hm with rfl | rfl <;> cases k <;> simp_all [Printed, demoA]
    · rintro ⟨rfl, ⟨rfl, rfl, rfl | rfl⟩ | ⟨rfl, rfl⟩⟩
      · exact ⟨⟨by simp [demoA], by simp [demoA]⟩, rfl, by simp [Printed, demoA]⟩
      · exact ⟨⟨by simp [demoA], by simp [demoA]⟩, rfl, by simp [Printed, demoA]⟩
      · exact ⟨⟨by simp [demoA], by simp [demoA]⟩, by simp [demoA], by cases k <;> simp [Printed, demoA]⟩
  refine ⟨⟨by decide, by decide, by simp [demoA], by simp [demoA]⟩, ⟨1, 0, ⟨by simp [demoA], by simp [demoA]⟩, by simp [demoA]⟩, rfl, rfl, ⟨fun m n v => ?_, 0, 2, ?_⟩, ⟨fun m n v => ?_, 0, 0, ?_⟩, ⟨fun m n v => ?_, 0, 1, ?_⟩, ⟨fun m n v => ?_, 0, 1, ?_⟩⟩
  · rw [hline, hget]; simp [demoA]
  · rw [hline]; simp [demoA]
  · rw [hline, hget]; simp [demoA]
  · rw [hline]; simp [demoA]
  · rw [hline, hget1]; simp
  · rw [hline]; simp
  · rw [hline, hget1]; simp
  · rw [hline]; simp

end Simsopt.Nml
