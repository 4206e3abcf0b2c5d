import Verif.PyList
import Mathlib.Algebra.Order.Field.Rat
import Mathlib.Algebra.Group.Basic
import Mathlib.Tactic.Ring
import Mathlib.Tactic.NormNum
import Mathlib.Tactic.Abel
import Mathlib.Tactic.Linarith
/-!
# Profiles as inputs of SPEC (C172, C173)

Model of the profile part of `Spec.run` (src/simsopt/mhd/spec.py L991-1073) with `set_profile` (L783-815), `get_profile` (L817-844) and `activate_profile` (L750-781).  Values lie in any commutative group instead of doubles.  An array of SPEC's inputlist is a function of the index; these arrays are longer than any index used here (their length is SPEC's compiled maximum).  A profile (mhd/profiles.py L84-110) is its size, its values and which of them are free.
-/
namespace Simsopt.Spec
open Simsopt

variable {R : Type} [AddCommGroup R]

/-- Assignment to one entry. -/
def put {A : Type} (f : ℕ → A) (l : ℕ) (v : A) : ℕ → A := fun i => if i = l then v else f i

/-- `ProfileSpec` (profiles.py L84-101): the dofs of the profile. -/
structure Prof (R : Type) where
  size : ℕ
  x : ℕ → R
  free : ℕ → Bool

/-- `Optimizable.is_fixed` with an index (optimizable.py L1403-1419, L254-266). -/
def Prof.isFixed (p : Prof R) (l : ℕ) : Except Err Bool := if l < p.size then .ok (!p.free l) else .error .indexError

/-- `Optimizable.get` with an index (optimizable.py L1122-1130, L226-238). -/
def Prof.get (p : Prof R) (l : ℕ) : Except Err R := if l < p.size then .ok (p.x l) else .error .indexError

/-- `Optimizable.set` with an index (optimizable.py L1132-1141, L240-252): fixed entries too. -/
def Prof.set (p : Prof R) (l : ℕ) (v : R) : Except Err (Prof R) := if l < p.size then .ok { p with x := put p.x l v } else .error .indexError

/-- `ProfileSpec.f` of one volume (profiles.py L103-124). -/
def Prof.f (p : Prof R) (l : ℕ) : Except Err R := if l < p.size then .ok (p.x l) else .error .valueError

/-- Assigning new values to the free dofs (`profile.x = …`, or `x` of an object that depends on it). -/
def Prof.setFree (p : Prof R) (y : ℕ → R) : Prof R := { p with x := fun l => if p.free l then y l else p.x l }

/-- The profile and the array of the inputlist it belongs to. -/
structure PS (R : Type) where
  prof : Prof R
  si : ℕ → R

/-- One pass of the loop for `pflux` (L1047-1055) or `tflux` (L1061-1069); `old` is the copy made before the loop. -/
def fluxStep (old : ℕ → R) (l : ℕ) (s : PS R) : Except Err (PS R) := do
  if (← s.prof.isFixed l) then
    if l = 0 then return s
    let v := s.si l - old (l - 1) + s.si (l - 1)
    let p ← s.prof.set l v
    return ⟨p, put s.si l v⟩
  else
    let v ← s.prof.get l
    return ⟨s.prof, put s.si l v⟩

/-- `for lvol in range(0, mvol)`. -/
def loopTo (step : ℕ → PS R → Except Err (PS R)) : ℕ → PS R → Except Err (PS R)
  | 0, s => .ok s
  | k + 1, s => do step k (← loopTo step k s)

/-- The part of `run` for `pflux` (L1043-1055) and for `tflux` (L1057-1069). -/
def runFlux (mvol : ℕ) (s : PS R) : Except Err (PS R) := loopTo (fluxStep s.si) mvol s

/-- `set_profile` for a cumulative profile (L803-813).  Simplified: the later entries are written at once, and an index outside the profile is found first. -/
def Prof.setCumulative (mvol : ℕ) (p : Prof R) (l : ℕ) (v : R) : Except Err (Prof R) := do
  let old ← p.f l
  let p ← p.set l v
  if p.size < mvol then throw .valueError
  return { p with x := fun i => if l < i ∧ i < mvol then p.x i - old + v else p.x i }

/-- `set_profile` for a profile that is not cumulative (L814-815). -/
def Prof.setPlain (p : Prof R) (l : ℕ) (v : R) : Except Err (Prof R) := p.set l v

/-- One pass of the loop for the volume current (L1005-1013). -/
def volStep (mvol : ℕ) (old : ℕ → R) (l : ℕ) (s : PS R) : Except Err (PS R) := do
  if (← s.prof.isFixed l) then
    if l = 0 then return s
    let v := s.si l - old (l - 1) + s.si (l - 1)
    let p ← s.prof.setCumulative mvol l v
    return ⟨p, put s.si l v⟩
  else
    let v ← s.prof.f l
    return ⟨s.prof, put s.si l v⟩

/-- The number of volumes SPEC computes: one more, the vacuum region, with a free boundary (L158-161). -/
def mvolOf (freebound : Bool) (nvol : ℕ) : ℕ := if freebound then nvol + 1 else nvol

/-- The part of `run` for the volume current (L1001-1018). -/
def runVol (freebound : Bool) (nvol : ℕ) (s : PS R) : Except Err (PS R) := do
  let mvol := mvolOf freebound nvol
  let s ← loopTo (volStep mvol s.si) mvol s
  if freebound then
    let p ← s.prof.set (mvol - 1) (s.si (nvol - 1))
    return ⟨p, put s.si nvol (s.si (nvol - 1))⟩
  return s

/-- A user's history: new values of the free dofs, then a run, again and again. -/
def history (run : PS R → Except Err (PS R)) : List (ℕ → R) → PS R → Except Err (PS R)
  | [], s => .ok s
  | y :: ys, s => do
    let s ← run { s with prof := s.prof.setFree y }
    history run ys s

/-! ### Specification -/

/-- The intended inputs: a free entry is the value of the dof; a fixed entry keeps its difference to the entry before (the first keeps its value). -/
def target (free : ℕ → Bool) (x old : ℕ → R) : ℕ → R
  | 0 => if free 0 then x 0 else old 0
  | l + 1 => if free (l + 1) then x (l + 1) else target free x old l + (old (l + 1) - old l)

/-! ### Theorems -/

omit [AddCommGroup R] in
theorem put_same (f : ℕ → R) (l : ℕ) (v : R) : put f l v l = v := if_pos rfl
omit [AddCommGroup R] in
theorem put_other (f : ℕ → R) (l : ℕ) (v : R) (i : ℕ) (h : i ≠ l) : put f l v i = f i := if_neg h

theorem fluxStep_eq (old : ℕ → R) (l : ℕ) (s : PS R) (h : l < s.prof.size) :
    fluxStep old l s = .ok (if s.prof.free l then ⟨s.prof, put s.si l (s.prof.x l)⟩ else if l = 0 then s else
      ⟨{ s.prof with x := put s.prof.x l (s.si l - old (l - 1) + s.si (l - 1)) }, put s.si l (s.si l - old (l - 1) + s.si (l - 1))⟩) := by
  unfold fluxStep Prof.isFixed Prof.get Prof.set
  simp only [if_pos h]
  cases hf : s.prof.free l
  · by_cases h0 : l = 0
    · simp [h0, bind, Except.bind, pure, Except.pure]
    · simp [h0, bind, Except.bind, pure, Except.pure]
  · simp [bind, Except.bind, pure, Except.pure]

/-- The state after the first `k` passes. -/
theorem flux_loop (s : PS R) (k : ℕ) (hk : k ≤ s.prof.size) :
    ∃ r, loopTo (fluxStep s.si) k s = .ok r ∧ r.prof.size = s.prof.size ∧ r.prof.free = s.prof.free ∧
      (∀ l, r.si l = if l < k then target s.prof.free s.prof.x s.si l else s.si l) ∧
      (∀ l, r.prof.x l = if l < k ∧ l ≠ 0 ∧ s.prof.free l = false then target s.prof.free s.prof.x s.si l else s.prof.x l) := by
  induction k with
  | zero => exact ⟨s, rfl, rfl, rfl, fun l => by simp, fun l => by simp⟩
  | succ k ih =>
    obtain ⟨r, e, h1, h2, h3, h4⟩ := ih (by omega)
    have e' : loopTo (fluxStep s.si) (k + 1) s = fluxStep s.si k r := by
      simp only [loopTo, e]; rfl
    rw [e', fluxStep_eq _ _ _ (by omega)]
    refine ⟨_, rfl, ?_⟩
    rw [h2]
    cases hf : s.prof.free k
    · by_cases h0 : k = 0
      · subst h0
        simp only [Bool.false_eq_true, if_false, if_true]
        refine ⟨h1, h2, fun l => ?_, fun l => ?_⟩
        · rw [h3 l]
          by_cases hl : l = 0
          · subst hl; simp [target, hf]
          · rw [if_neg (by omega), if_neg (by omega)]
        · rw [h4 l, if_neg (by omega), if_neg (by omega)]
      · simp only [Bool.false_eq_true, if_false, if_neg h0]
        have hv : r.si k - s.si (k - 1) + r.si (k - 1) = target s.prof.free s.prof.x s.si k := by
          rw [h3 k, h3 (k - 1), if_neg (by omega), if_pos (by omega)]
          obtain ⟨j, rfl⟩ : ∃ j, k = j + 1 := ⟨k - 1, by omega⟩
          simp only [Nat.add_sub_cancel]
          rw [target, if_neg (by simp [hf])]
          abel
        refine ⟨h1, h2, fun l => ?_, fun l => ?_⟩
        · by_cases hl : l = k
          · subst hl; rw [put_same, hv, if_pos (by omega)]
          · rw [put_other _ _ _ _ hl, h3 l]
            by_cases hlt : l < k
            · rw [if_pos hlt, if_pos (by omega)]
            · rw [if_neg hlt, if_neg (by omega)]
        · by_cases hl : l = k
          · subst hl; rw [put_same, hv, if_pos ⟨by omega, h0, hf⟩]
          · rw [put_other _ _ _ _ hl, h4 l]
            by_cases hlt : l < k ∧ l ≠ 0 ∧ s.prof.free l = false
            · rw [if_pos hlt, if_pos ⟨by omega, hlt.2⟩]
            · rw [if_neg hlt, if_neg (fun hh => hlt ⟨by omega, hh.2⟩)]
    · simp only [if_true]
      have hx : r.prof.x k = target s.prof.free s.prof.x s.si k := by
        rw [h4 k, if_neg (by omega)]
        cases k with
        | zero => rw [target, if_pos hf]
        | succ j => rw [target, if_pos hf]
      refine ⟨h1, h2, fun l => ?_, fun l => ?_⟩
      · by_cases hl : l = k
        · subst hl; rw [put_same, hx, if_pos (by omega)]
        · rw [put_other _ _ _ _ hl, h3 l]
          by_cases hlt : l < k
          · rw [if_pos hlt, if_pos (by omega)]
          · rw [if_neg hlt, if_neg (by omega)]
      · rw [h4 l]
        by_cases hl : l = k
        · subst hl; rw [if_neg (by omega), if_neg (fun hh => by simp [hf] at hh)]
        · by_cases hlt : l < k ∧ l ≠ 0 ∧ s.prof.free l = false
          · rw [if_pos hlt, if_pos ⟨by omega, hlt.2⟩]
          · rw [if_neg hlt, if_neg (fun hh => hlt ⟨by omega, hh.2⟩)]

/-- **C172**: a run sends the value of every free dof to SPEC, keeps the difference of every fixed entry to the one before, and touches nothing else; the profile afterwards shows what was sent, except perhaps in a fixed first entry. -/
theorem C172_flux (mvol : ℕ) (s : PS R) (h : mvol ≤ s.prof.size) :
    ∃ r, runFlux mvol s = .ok r ∧ r.prof.size = s.prof.size ∧ r.prof.free = s.prof.free ∧
      (∀ l, l < mvol → s.prof.free l = true → r.si l = s.prof.x l ∧ r.prof.x l = s.prof.x l) ∧
      (∀ l, l + 1 < mvol → s.prof.free (l + 1) = false → r.si (l + 1) - r.si l = s.si (l + 1) - s.si l ∧ r.prof.x (l + 1) = r.si (l + 1)) ∧
      (0 < mvol → s.prof.free 0 = false → r.si 0 = s.si 0 ∧ r.prof.x 0 = s.prof.x 0) ∧
      (∀ l, mvol ≤ l → r.si l = s.si l ∧ r.prof.x l = s.prof.x l) := by
  obtain ⟨r, e, h1, h2, h3, h4⟩ := flux_loop s mvol h
  refine ⟨r, e, h1, h2, fun l hl hf => ?_, fun l hl hf => ?_, fun h0 hf => ?_, fun l hl => ?_⟩
  · rw [h3, if_pos hl, h4, if_neg (by simp [hf])]
    refine ⟨?_, rfl⟩
    cases l with
    | zero => rw [target, if_pos hf]
    | succ j => rw [target, if_pos hf]
  · rw [h3, h3, if_pos hl, if_pos (by omega), h4, if_pos ⟨hl, by omega, hf⟩]
    refine ⟨?_, rfl⟩
    rw [target, if_neg (by simp [hf])]
    abel
  · rw [h3, if_pos h0, h4, if_neg (by simp), target, if_neg (by simp [hf])]
    exact ⟨rfl, rfl⟩
  · rw [h3, if_neg (by omega), h4, if_neg (by omega)]
    exact ⟨rfl, rfl⟩

theorem target_congr (free : ℕ → Bool) (x x' old old' : ℕ → R) (l : ℕ) (h0 : free 0 = false → old 0 = old' 0)
    (hx : ∀ i, i ≤ l → free i = true → x i = x' i) (hd : ∀ i, i + 1 ≤ l → free (i + 1) = false → old (i + 1) - old i = old' (i + 1) - old' i) :
    target free x old l = target free x' old' l := by
  induction l with
  | zero =>
    cases hf : free 0
    · rw [target, target, if_neg (by simp [hf]), if_neg (by simp [hf]), h0 hf]
    · rw [target, target, if_pos hf, if_pos hf, hx 0 le_rfl hf]
  | succ l ih =>
    cases hf : free (l + 1)
    · rw [target, target, if_neg (by simp [hf]), if_neg (by simp [hf]), ih (fun i hi => hx i (by omega)) (fun i hi => hd i (by omega)), hd l le_rfl hf]
    · rw [target, target, if_pos hf, if_pos hf, hx _ le_rfl hf]

/-- **C172**: after any history of assignments to the free dofs and runs, what SPEC gets depends only on the first state and the last values. -/
theorem C172_history (mvol : ℕ) (s : PS R) (h : mvol ≤ s.prof.size) (ys : List (ℕ → R)) (y : ℕ → R) :
    ∃ r r', history (runFlux mvol) (ys ++ [y]) s = .ok r ∧ history (runFlux mvol) [y] s = .ok r' ∧ (∀ l, r.si l = r'.si l) ∧
      (∀ l, l < mvol → r.si l = target s.prof.free y s.si l) := by
  obtain ⟨r', e', p1, p2, p3, p4⟩ := flux_loop { s with prof := s.prof.setFree y } mvol h
  have single : ∀ t : PS R, history (runFlux mvol) [y] t = runFlux mvol { t with prof := t.prof.setFree y } := by
    intro t
    simp only [history, bind, Except.bind]
    split
    · next heq => rw [heq]
    · next heq => rw [heq]
  have key : ∀ l, l < mvol → r'.si l = target s.prof.free y s.si l := by
    intro l hl
    rw [p3 l, if_pos hl]
    refine target_congr _ _ _ _ _ _ (fun _ => rfl) (fun i _ hf => ?_) (fun _ _ _ => rfl)
    show (if s.prof.free i then y i else s.prof.x i) = y i
    exact if_pos hf
  suffices H : ∀ (zs : List (ℕ → R)) (t : PS R), t.prof.size = s.prof.size → t.prof.free = s.prof.free → (∀ l, mvol ≤ l → t.si l = s.si l) →
      (0 < mvol → s.prof.free 0 = false → t.si 0 = s.si 0) → (∀ i, i + 1 < mvol → s.prof.free (i + 1) = false → t.si (i + 1) - t.si i = s.si (i + 1) - s.si i) →
      ∃ r, history (runFlux mvol) (zs ++ [y]) t = .ok r ∧ ∀ l, r.si l = r'.si l by
    obtain ⟨r, e, hr⟩ := H ys s rfl rfl (fun _ _ => rfl) (fun _ _ => rfl) (fun _ _ _ => rfl)
    exact ⟨r, r', e, (single s).trans e', hr, fun l hl => by rw [hr l, key l hl]⟩
  intro zs
  induction zs with
  | nil =>
    intro t a1 a2 a3 a4 a5
    obtain ⟨r, e, q1, q2, q3, q4⟩ := flux_loop { t with prof := t.prof.setFree y } mvol (by show mvol ≤ t.prof.size; omega)
    refine ⟨r, (single t).trans e, fun l => ?_⟩
    by_cases hl : l < mvol
    · rw [q3 l, if_pos hl, key l hl]
      show target t.prof.free _ _ l = _
      rw [a2]
      refine target_congr _ _ _ _ _ _ (fun hf => a4 (by omega) hf) (fun i _ hf => ?_) (fun i hi hf => a5 i (by omega) hf)
      show (if t.prof.free i then y i else t.prof.x i) = y i
      rw [a2]
      exact if_pos hf
    · rw [q3 l, if_neg hl, p3 l, if_neg hl]
      exact a3 l (by omega)
  | cons z zs ih =>
    intro t a1 a2 a3 a4 a5
    obtain ⟨q, e, c1, c2, c3, c4, c5, c6⟩ := C172_flux mvol { t with prof := t.prof.setFree z } (by show mvol ≤ t.prof.size; omega)
    obtain ⟨r, er, hr⟩ := ih q (c1.trans a1) (c2.trans a2) (fun l hl => ((c6 l hl).1).trans (a3 l hl))
      (fun h0 hf => ((c5 h0 (by show t.prof.free 0 = false; rw [a2]; exact hf)).1).trans (a4 h0 hf))
      (fun i hi hf => ((c4 i hi (by show t.prof.free (i + 1) = false; rw [a2]; exact hf)).1).trans (a5 i hi hf))
    refine ⟨r, ?_, hr⟩
    simp only [List.cons_append, history, e, bind, Except.bind]
    exact er

/-- **C172**: a profile shorter than the number of volumes makes the run fail. -/
theorem C172_short (mvol : ℕ) (s : PS R) (h : s.prof.size < mvol) : runFlux mvol s = .error .indexError := by
  obtain ⟨r, e, h1, _⟩ := flux_loop s s.prof.size le_rfl
  unfold runFlux
  have : ∀ d, loopTo (fluxStep s.si) (s.prof.size + 1 + d) s = .error .indexError := by
    intro d
    induction d with
    | zero =>
      show (do fluxStep s.si s.prof.size (← loopTo (fluxStep s.si) s.prof.size s)) = _
      rw [e]
      show fluxStep s.si s.prof.size r = _
      unfold fluxStep Prof.isFixed
      rw [if_neg (by omega)]
      rfl
    | succ d ih =>
      show (do fluxStep s.si _ (← loopTo (fluxStep s.si) (s.prof.size + 1 + d) s)) = _
      rw [ih]
      rfl
  have := this (mvol - (s.prof.size + 1))
  rwa [show s.prof.size + 1 + (mvol - (s.prof.size + 1)) = mvol by omega] at this

/-- Three fluxes 1, 2, 4 of which the first is free: setting it to 5 sends 5, 6, 8. -/
example : ∃ r, runFlux 3 (⟨⟨3, fun l => if l = 0 then 5 else 0, fun l => l == 0⟩, fun l => if l = 0 then 1 else if l = 1 then 2 else 4⟩ : PS ℚ) = .ok r ∧ r.si 0 = 5 ∧ r.si 1 = 6 ∧ r.si 2 = 8 := by
  obtain ⟨r, e, -, -, h1, h2, -⟩ := C172_flux 3 (⟨⟨3, fun l => if l = 0 then 5 else 0, fun l => l == 0⟩, fun l => if l = 0 then 1 else if l = 1 then 2 else 4⟩ : PS ℚ) (by decide)
  have a := (h1 0 (by omega) rfl).1
  have b := (h2 0 (by omega) rfl).1
  have c := (h2 1 (by omega) rfl).1
  norm_num at a b c
  refine ⟨r, e, a, ?_, ?_⟩
  · rw [a] at b; linarith
  · rw [a] at b; linarith

end Simsopt.Spec
