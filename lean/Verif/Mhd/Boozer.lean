import Mathlib.Data.Real.Basic
import Mathlib.Data.Finset.Sort
import Mathlib.Data.List.MinMax
import Mathlib.Algebra.Order.Group.Abs
import Mathlib.Tactic.Linarith
import Mathlib.Tactic.NormNum
import Mathlib.Tactic.FieldSimp
import Mathlib.Tactic.Ring
/-!
# The Boozer transformation and its registry of surfaces

Model of the class `Boozer` (src/simsopt/mhd/boozer.py L35-242).  The equilibrium is seen through what it computes now (`none`: its run fails); a change of it rings the bell, because the object depends on it.  booz_xform is a parameter: it gives
one result for every entry of `compute_surfs`, a function of the VMEC output, the mode numbers and the index of the half-grid surface.  Floating-point numbers are real numbers.  The object is used with a `Vmec` equilibrium.
-/
namespace Simsopt.Boozer

/-- The registry `self.s`: a set of numbers; the documented way to clear it stores an empty dict. -/
inductive Registry where
  | set (s : Finset ℝ)
  | dict

def Registry.elems : Registry → Finset ℝ
  | .set s => s
  | .dict => ∅

/-- booz_xform and the radial resolution of a VMEC output. -/
structure Env (W D : Type) where
  ns : W → Nat
  transform : W → Nat → Nat → Nat → D

/-- A `Boozer` object and its equilibrium. -/
structure St (W D : Type) where
  equil : Option W
  s : Registry
  need : Bool
  mpol : Nat
  ntor : Nat
  sToIndex : ℝ → Option Nat
  sUsed : ℝ → Option ℝ
  data : List D

variable {W D : Type}

/-- `s_half[i]` for `ns` surfaces (L133-136): `linspace(0, 1, ns)[i + 1] - 0.5 * ds`. -/
noncomputable def half (ns i : Nat) : ℝ := ((i + 1 : Nat) : ℝ) / ((ns - 1 : Nat) : ℝ) - 0.5 * (1 / ((ns - 1 : Nat) : ℝ) - 0 / ((ns - 1 : Nat) : ℝ))

/-- `np.argmin(np.abs(s_half - ss))` (L157); numpy raises for an empty array. -/
noncomputable def near (ns : Nat) (s : ℝ) : Option Nat := (List.range (ns - 1)).argmin fun i => |half ns i - s|

def St.setNeed (x : St W D) (b : Bool) : St W D := { x with need := b }
def St.setS (x : St W D) (r : Registry) : St W D := { x with s := r }
def St.setRes (x : St W D) (m n : Nat) : St W D := { x with mpol := m, ntor := n }
def St.setEquil (x : St W D) (e : Option W) : St W D := { x with equil := e }

/-- The statements of `run` after the VMEC run (L154-241), for `ns ≥ 2`. -/
noncomputable def St.transformed (E : Env W D) (x : St W D) (wout : W) : St W D :=
  let all : ℝ → Nat := fun ss => (near (E.ns wout) ss).getD 0
  let surfs : List Nat := (x.s.elems.image all).sort (· ≤ ·)
  { x with
    sUsed := fun ss => if ss ∈ x.s.elems then some (half (E.ns wout) (all ss)) else none
    sToIndex := fun ss => if ss ∈ x.s.elems then some (surfs.idxOf (all ss)) else none
    data := surfs.map (E.transform wout x.mpol x.ntor)
    need := false }

/-- `run()` (L108-242); `false`: an exception. -/
noncomputable def St.run (E : Env W D) (x : St W D) : St W D × Bool :=
  if !x.need then (x, true) else
  match x.equil with
  | none => (x, false)
  | some wout => if E.ns wout < 2 then (x, false) else (x.transformed E wout, true)

inductive Op (W : Type) where
  /-- `boozer.register(s)` with one or more numbers -/
  | register (ss : List ℝ)
  /-- any change that reaches the equilibrium -/
  | equil (e : Option W)
  /-- `boozer.mpol = ...`, `boozer.ntor = ...` -/
  | setRes (mpol ntor : Nat)
  /-- `boozer.s = {}` -/
  | clear
  | run

open Classical in
/-- One statement; `false`: an exception.  `register` (L87-106) checks the numbers first; `{}` is a dict and has no method `union`. -/
noncomputable def exec (E : Env W D) (x : St W D) : Op W → St W D × Bool
  | .register ss =>
    if ∃ t ∈ ss, t < 0 ∨ 1 < t then (x, false) else
    match x.s with
    | .dict => (x, false)
    | .set s => ((x.setS (.set (s ∪ ss.toFinset))).setNeed true, true)
  | .equil e => ((x.setEquil e).setNeed true, true)
  | .setRes m n => (x.setRes m n, true)
  | .clear => (x.setS .dict, true)
  | .run => x.run E

/-- A new object (L50-82). -/
def new (e : Option W) (mpol ntor : Nat) : St W D :=
  { equil := e, s := .set ∅, need := true, mpol := mpol, ntor := ntor, sToIndex := fun _ => none, sUsed := fun _ => none, data := [] }

/-- The lookups of the users of the object: `boozer.run()`, then `boozer.bx.bmnc_b[:, boozer.s_to_index[s]]` and `boozer.s_used[s]` (L301-311, L371). -/
noncomputable def lookup (E : Env W D) (x : St W D) (s : ℝ) : Option (D × ℝ) :=
  let r := x.run E
  if !r.2 then none else do
    let k ← r.1.sToIndex s
    let d ← r.1.data[k]?
    let u ← r.1.sUsed s
    return (d, u)

inductive Hist (E : Env W D) (ok : Op W → Prop) : St W D → Prop
  | new (e mpol ntor) : Hist E ok (new e mpol ntor)
  | step {x} (op) : Hist E ok x → ok op → Hist E ok (exec E x op).1

/-- Statements that leave the mode numbers alone. -/
def KeepsRes : Op W → Prop
  | .setRes .. => False
  | _ => True

/-! ## Proofs -/

theorem near_some (ns : Nat) (h : 2 ≤ ns) (s : ℝ) : ∃ i, near ns s = some i ∧ i < ns - 1 ∧ (∀ j < ns - 1, |half ns i - s| ≤ |half ns j - s|) := by
  unfold near
  cases he : (List.range (ns - 1)).argmin fun i => |half ns i - s| with
  | none =>
    rw [List.argmin_eq_none] at he
    have := congrArg List.length he
    simp at this
    omega
  | some i =>
    refine ⟨i, rfl, by simpa using List.argmin_mem he, fun j hj => ?_⟩
    exact List.le_of_mem_argmin (f := fun i => |half ns i - s|) (by simpa using hj) he

theorem half_eq (ns i : Nat) (h : 2 ≤ ns) : half ns i = ((i : ℝ) + 1 / 2) / (ns - 1 : ℝ) := by
  unfold half
  have : ((ns - 1 : Nat) : ℝ) = (ns : ℝ) - 1 := by rw [Nat.cast_sub (by omega)]; simp
  rw [this]
  have hp : (0 : ℝ) < (ns : ℝ) - 1 := by
    have : (2 : ℝ) ≤ ns := by exact_mod_cast h
    linarith
  push_cast
  field_simp
  ring

theorem transformed_lookup (E : Env W D) (x : St W D) (wout : W) (hns : 2 ≤ E.ns wout) (s : ℝ) (hs : s ∈ x.s.elems) :
    ∃ i k, near (E.ns wout) s = some i ∧ (x.transformed E wout).sToIndex s = some k ∧ (x.transformed E wout).data[k]? = some (E.transform wout x.mpol x.ntor i) ∧
      (x.transformed E wout).sUsed s = some (half (E.ns wout) i) := by
  obtain ⟨i, hi, -, -⟩ := near_some (E.ns wout) hns s
  have hall : (near (E.ns wout) s).getD 0 = i := by rw [hi]; rfl
  refine ⟨i, ((x.s.elems.image fun ss => (near (E.ns wout) ss).getD 0).sort (· ≤ ·)).idxOf i, hi, ?_, ?_, ?_⟩
  · show (if s ∈ x.s.elems then some _ else none) = _
    rw [if_pos hs]; dsimp only; rw [hall]
  · show (((x.s.elems.image fun ss => (near (E.ns wout) ss).getD 0).sort (· ≤ ·)).map _)[_]? = _
    have hmem : i ∈ (x.s.elems.image fun ss => (near (E.ns wout) ss).getD 0).sort (· ≤ ·) := by
      rw [Finset.mem_sort, Finset.mem_image]
      exact ⟨s, hs, hall⟩
    rw [List.getElem?_map, List.getElem?_eq_getElem (List.idxOf_lt_length_of_mem hmem), List.getElem_idxOf]
    rfl
  · show (if s ∈ x.s.elems then some _ else none) = _
    rw [if_pos hs]; dsimp only; rw [hall]

/-- What the flag promises. -/
def Good (E : Env W D) (x : St W D) : Prop :=
  x.need = false → ∃ wout, x.equil = some wout ∧ 2 ≤ E.ns wout ∧ ∀ s ∈ x.s.elems, ∃ i k, near (E.ns wout) s = some i ∧ x.sToIndex s = some k ∧
    x.data[k]? = some (E.transform wout x.mpol x.ntor i) ∧ x.sUsed s = some (half (E.ns wout) i)

theorem run_good {E : Env W D} {x : St W D} (h : Good E x) : Good E (x.run E).1 := by
  unfold St.run
  split
  · exact h
  next hn =>
  cases he : x.equil with
  | none => exact h
  | some wout =>
    dsimp only
    split
    · exact h
    · next hns => exact fun _ => ⟨wout, he, by omega, fun s hs => transformed_lookup E x wout (by omega) s hs⟩

theorem Hist.good {E : Env W D} {x : St W D} (h : Hist E KeepsRes x) : Good E x := by
  induction h with
  | new => intro hn; cases hn
  | @step x op _ hok ih =>
    cases op with
    | register ss =>
      simp only [exec]
      split
      · exact ih
      · cases hx : x.s with
        | dict => exact ih
        | set s => intro hn; cases hn
    | equil e => intro hn; cases hn
    | setRes m n => exact absurd hok id
    | clear =>
      intro hn
      obtain ⟨wout, h1, h2, -⟩ := ih hn
      exact ⟨wout, h1, h2, fun s hs => by simp [exec, St.setS, Registry.elems] at hs⟩
    | run => exact run_good ih

/-- **C97.** After any history of registrations, runs and changes of the equilibrium, a lookup on a registered surface gives the transformation of the present equilibrium on the half-grid surface closest to it, with its flux label; it fails only if the
equilibrium run fails. -/
theorem C97_lookup {E : Env W D} {x : St W D} (h : Hist E KeepsRes x) (s : ℝ) (hs : s ∈ x.s.elems) :
    (∀ d u, lookup E x s = some (d, u) → ∃ wout i, x.equil = some wout ∧ i < E.ns wout - 1 ∧ (∀ j < E.ns wout - 1, |half (E.ns wout) i - s| ≤ |half (E.ns wout) j - s|) ∧
      d = E.transform wout x.mpol x.ntor i ∧ u = ((i : ℝ) + 1 / 2) / ((E.ns wout : ℝ) - 1)) ∧
    (lookup E x s = none → ∀ wout, x.equil = some wout → E.ns wout < 2) := by
  have hg := run_good h.good
  have hsame : (x.run E).1.equil = x.equil ∧ (x.run E).1.s = x.s ∧ (x.run E).1.mpol = x.mpol ∧ (x.run E).1.ntor = x.ntor := by
    unfold St.run
    split
    · exact ⟨rfl, rfl, rfl, rfl⟩
    · cases he : x.equil with
      | none => exact ⟨he, rfl, rfl, rfl⟩
      | some wout => dsimp only; split <;> exact ⟨he, rfl, rfl, rfl⟩
  have hflag : (x.run E).2 = true → (x.run E).1.need = false := by
    unfold St.run
    split
    · next hn => intro _; simpa using hn
    · cases x.equil with
      | none => intro hh; cases hh
      | some wout => dsimp only; split
                     · intro hh; cases hh
                     · intro _; rfl
  have hfail : (x.run E).2 = false → ∀ wout, x.equil = some wout → E.ns wout < 2 := by
    unfold St.run
    split
    · intro hh; cases hh
    · cases x.equil with
      | none => intro _ wout hw; cases hw
      | some w =>
        dsimp only
        split
        · next hns => intro _ wout hw; cases hw; exact hns
        · intro hh; cases hh
  unfold lookup
  cases hr : (x.run E).2 with
  | false =>
    dsimp only
    rw [hr, if_pos (by rfl)]
    exact ⟨fun d u hh => (by cases hh), fun _ => hfail hr⟩
  | true =>
    dsimp only
    rw [hr, if_neg (by simp)]
    obtain ⟨wout, h1, h2, h3⟩ := hg (hflag hr)
    rw [hsame.1] at h1
    rw [hsame.2.1, hsame.2.2.1, hsame.2.2.2] at h3
    obtain ⟨i, k, hi, hk, hd, hu⟩ := h3 s hs
    obtain ⟨i', hi', hlt, hmin⟩ := near_some (E.ns wout) h2 s
    rw [hi] at hi'
    cases hi'
    rw [hk]
    simp only [Option.bind_eq_bind, Option.bind_some, hd, hu]
    refine ⟨fun d u hh => ?_, fun hh => by cases hh⟩
    cases hh
    exact ⟨wout, i, h1, hlt, hmin, rfl, half_eq _ _ h2⟩

/-- **C97.** No surface is transformed twice: the number of transformations is the number of different half-grid surfaces. -/
theorem C97_no_repeats (E : Env W D) (x : St W D) (wout : W) :
    ∃ surfs : List Nat, (x.transformed E wout).data = surfs.map (E.transform wout x.mpol x.ntor) ∧ surfs.Pairwise (· < ·) ∧
      ∀ i, i ∈ surfs ↔ ∃ s ∈ x.s.elems, (near (E.ns wout) s).getD 0 = i := by
  refine ⟨_, rfl, Finset.sortedLT_sort _ |>.pairwise, fun i => ?_⟩
  rw [Finset.mem_sort, Finset.mem_image]

/-- **C97.** A successful `register` adds exactly its numbers, which all lie in [0, 1]; no other statement but `boozer.s = {}` changes what is registered. -/
theorem C97_registered (E : Env W D) (x : St W D) (op : Op W) :
    (∀ ss, op = .register ss → (exec E x op).2 = true → (∀ t ∈ ss, 0 ≤ t ∧ t ≤ 1) ∧ ∀ t, t ∈ (exec E x op).1.s.elems ↔ t ∈ x.s.elems ∨ t ∈ ss) ∧
    ((∀ ss, op = .register ss → (exec E x op).2 = false) → op ≠ .clear → (exec E x op).1.s = x.s) := by
  cases op with
  | register ss =>
    refine ⟨fun ss' he h => ?_, fun h _ => ?_⟩
    · cases he
      simp only [exec] at h ⊢
      by_cases hc : ∃ t ∈ ss, t < 0 ∨ 1 < t
      · rw [if_pos hc] at h; cases h
      · rw [if_neg hc] at h ⊢
        refine ⟨fun t ht => ⟨?_, ?_⟩, fun t => ?_⟩
        · by_contra hh; exact hc ⟨t, ht, Or.inl (not_le.mp hh)⟩
        · by_contra hh; exact hc ⟨t, ht, Or.inr (not_le.mp hh)⟩
        · cases hx : x.s with
          | dict => rw [hx] at h; cases h
          | set s => simp [St.setS, St.setNeed, Registry.elems]
    · have h' := h ss rfl
      simp only [exec] at h' ⊢
      by_cases hc : ∃ t ∈ ss, t < 0 ∨ 1 < t
      · rw [if_pos hc]
      · rw [if_neg hc] at h' ⊢
        cases hx : x.s with
        | dict => exact hx
        | set s => rw [hx] at h'; cases h'
  | equil e => exact ⟨fun _ he => (by cases he), fun _ _ => rfl⟩
  | setRes m n => exact ⟨fun _ he => (by cases he), fun _ _ => rfl⟩
  | clear => exact ⟨fun _ he => (by cases he), fun _ hc => absurd rfl hc⟩
  | run =>
    refine ⟨fun _ he => (by cases he), fun _ _ => ?_⟩
    show (x.run E).1.s = x.s
    unfold St.run
    split
    · rfl
    · cases x.equil with
      | none => rfl
      | some wout => dsimp only; split <;> rfl

/-- A history with registered numbers that are rounded to the same surface. -/
example : ∃ x : St Nat (Nat × Nat), Hist ⟨fun n => n, fun n _ _ i => (n, i)⟩ KeepsRes x ∧ (0.5 : ℝ) ∈ x.s.elems ∧ (0.6 : ℝ) ∈ x.s.elems ∧ x.need = false := by
  refine ⟨_, (((Hist.new (some 3) 8 8).step (.register [0.5, 0.6]) trivial).step (.register [1]) trivial).step .run trivial, ?_, ?_, ?_⟩ <;>
  · simp only [exec]
    rw [if_neg (by norm_num)]
    simp only [new, St.setS, St.setNeed]
    rw [if_neg (by norm_num)]
    simp [St.run, St.transformed, Registry.elems]

/-- **C97.** The documented way to clear the registry: afterwards nothing can be registered. -/
theorem C97_clear_violated (E : Env W D) (x : St W D) (ss : List ℝ) : (exec E (exec E x .clear).1 (.register ss)).2 = false := by
  simp only [exec, St.setS]
  split <;> rfl

/-- **C97.** A change of the mode numbers has no effect on an object that has been run: lookups go on giving the old transformation. -/
theorem C97_resolution_violated (E : Env W D) (x : St W D) (hn : x.need = false) (m n : Nat) (s : ℝ) :
    lookup E (exec E x (.setRes m n)).1 s = lookup E x s := by
  have h1 : x.run E = (x, true) := by unfold St.run; rw [hn]; rfl
  have h2 : (x.setRes m n).run E = (x.setRes m n, true) := by
    unfold St.run
    have : (x.setRes m n).need = false := hn
    rw [this]; rfl
  simp only [exec, lookup, h1, h2]
  rfl

end Simsopt.Boozer
