import Verif.Tracing.Angle
import Mathlib.Data.List.Count
/-!
# The tracing loop (C124) and the stopping criteria (C125)
-/
namespace Simsopt.Tracing
open Fields

variable {S : Type}

/-- Specification: the angle along the accepted steps, from step `k₀` on: `get_phi` from step to step, starting in `[0, 2π)`; in flux coordinates the third coordinate. -/
noncomputable def angleFrom (C : Coords S) (D : Integrator S) (flux : Bool) (k₀ : ℕ) : ℕ → ℝ
  | 0 => phiOf C flux (D.y k₀) Real.pi
  | j + 1 => phiOf C flux (D.y (k₀ + j + 1)) (angleFrom C D flux k₀ j)

/-- Specification: the criterion is satisfied by the state after step `n`. -/
def Sat (C : Coords S) (D : Integrator S) (n : ℕ) : Crit → Prop
  | .transit m flux => m ≤ |⌊(angleFrom C D flux 1 (n - 1) - angleFrom C D flux 1 0) / (2 * Real.pi)⌋|
  | .maxFlux s => s ≤ C.x (D.y n)
  | .minFlux s => C.x (D.y n) ≤ s
  | .minZ z => C.z (D.y n) ≤ z
  | .maxZ z => z ≤ C.z (D.y n)
  | .minR r => √(C.x (D.y n) ^ 2 + C.y (D.y n) ^ 2) ≤ r
  | .maxR r => r ≤ √(C.x (D.y n) ^ 2 + C.y (D.y n) ^ 2)
  | .iter m => m < n
  | .levelset f => f √(C.x (D.y n) ^ 2 + C.y (D.y n) ^ 2) (atan2pos (C.y (D.y n)) (C.x (D.y n))) (C.z (D.y n)) < 0
  | .null => False

/-- The state of a criterion object after step `k` of the present run; before the first step it may hold anything. -/
def Good (C : Coords S) (D : Integrator S) (k : ℕ) (c : Crit) (σ : CState) : Prop :=
  1 ≤ k → ∀ m flux, c = .transit m flux → σ.last = angleFrom C D flux 1 (k - 1) ∧ σ.init = angleFrom C D flux 1 0

theorem call_spec (C : Coords S) (D : Integrator S) (k : ℕ) (c : Crit) (σ : CState) (h : Good C D k c σ) :
    ((c.call σ (k + 1) (C.x (D.y (k + 1))) (C.y (D.y (k + 1))) (C.z (D.y (k + 1)))).1 = true ↔ Sat C D (k + 1) c) ∧
      Good C D (k + 1) c (c.call σ (k + 1) (C.x (D.y (k + 1))) (C.y (D.y (k + 1))) (C.z (D.y (k + 1)))).2 := by
  cases c with
  | transit m flux =>
    cases k with
    | zero =>
      refine ⟨?_, fun _ m' fl e => ?_⟩
      · simp [Crit.call, transitCall, Sat, angleFrom, phiOf]
      · cases e
        simp [Crit.call, transitCall, angleFrom, phiOf]
    | succ k =>
      obtain ⟨h1, h2⟩ := h (by omega) m flux rfl
      rw [Nat.add_sub_cancel] at h1
      have e2 : angleFrom C D flux 1 (k + 1) = phiOf C flux (D.y (k + 2)) (angleFrom C D flux 1 k) := by
        show phiOf C flux (D.y (1 + k + 1)) _ = _
        rw [show 1 + k + 1 = k + 2 by omega]
      refine ⟨?_, fun _ m' fl e => ?_⟩
      · show decide _ = true ↔ m ≤ |⌊(angleFrom C D flux 1 (k + 1) - angleFrom C D flux 1 0) / (2 * Real.pi)⌋|
        rw [decide_eq_true_eq, e2]
        simp only [transitCall, if_neg (show ¬(k + 1 + 1 = 1) by omega), h1, h2, phiOf]
      · cases e
        show _ = angleFrom C D flux 1 (k + 1) ∧ _
        rw [e2]
        simp only [Crit.call, transitCall, if_neg (show ¬(k + 1 + 1 = 1) by omega), h1, h2, phiOf]
        trivial
  | levelset f => exact ⟨by simp [Crit.call, Sat, pow_two], fun _ m fl e => by cases e⟩
  | maxFlux s => exact ⟨by simp [Crit.call, Sat], fun _ m fl e => by cases e⟩
  | minFlux s => exact ⟨by simp [Crit.call, Sat], fun _ m fl e => by cases e⟩
  | minZ s => exact ⟨by simp [Crit.call, Sat], fun _ m fl e => by cases e⟩
  | maxZ s => exact ⟨by simp [Crit.call, Sat], fun _ m fl e => by cases e⟩
  | minR s => exact ⟨by simp [Crit.call, Sat, pow_two], fun _ m fl e => by cases e⟩
  | maxR s => exact ⟨by simp [Crit.call, Sat, pow_two], fun _ m fl e => by cases e⟩
  | iter s => exact ⟨by simp [Crit.call, Sat], fun _ m fl e => by cases e⟩
  | null => exact ⟨by simp [Crit.call, Sat], fun _ m fl e => by cases e⟩

theorem callAll_none (C : Coords S) (D : Integrator S) (k : ℕ) (cs : List Crit) (σs : List CState) (i : ℕ) (hg : List.Forall₂ (Good C D k) cs σs)
    (h : (callAll cs σs i (k + 1) (C.x (D.y (k + 1))) (C.y (D.y (k + 1))) (C.z (D.y (k + 1)))).1 = none) :
    (∀ c ∈ cs, ¬Sat C D (k + 1) c) ∧
      List.Forall₂ (Good C D (k + 1)) cs (callAll cs σs i (k + 1) (C.x (D.y (k + 1))) (C.y (D.y (k + 1))) (C.z (D.y (k + 1)))).2 := by
  induction hg generalizing i with
  | nil => exact ⟨by simp, List.Forall₂.nil⟩
  | @cons c σ cs σs hc _ ih =>
    obtain ⟨hs, hg'⟩ := call_spec C D k c σ hc
    simp only [callAll] at h ⊢
    by_cases hb : (c.call σ (k + 1) (C.x (D.y (k + 1))) (C.y (D.y (k + 1))) (C.z (D.y (k + 1)))).1 = true
    · rw [if_pos hb] at h; cases h
    · rw [if_neg hb] at h ⊢
      obtain ⟨h1, h2⟩ := ih (i + 1) h
      refine ⟨?_, List.Forall₂.cons hg' h2⟩
      intro c' hc'
      rcases List.mem_cons.1 hc' with rfl | hc'
      · exact fun hsat => hb (hs.2 hsat)
      · exact h1 c' hc'

theorem callAll_some (C : Coords S) (D : Integrator S) (k : ℕ) (cs : List Crit) (σs : List CState) (i j : ℕ) (hg : List.Forall₂ (Good C D k) cs σs)
    (h : (callAll cs σs i (k + 1) (C.x (D.y (k + 1))) (C.y (D.y (k + 1))) (C.z (D.y (k + 1)))).1 = some j) :
    ∃ c, i ≤ j ∧ cs[j - i]? = some c ∧ Sat C D (k + 1) c ∧ ∀ l c', l < j - i → cs[l]? = some c' → ¬Sat C D (k + 1) c' := by
  induction hg generalizing i with
  | nil => simp [callAll] at h
  | @cons c σ cs σs hc _ ih =>
    obtain ⟨hs, _⟩ := call_spec C D k c σ hc
    simp only [callAll] at h
    by_cases hb : (c.call σ (k + 1) (C.x (D.y (k + 1))) (C.y (D.y (k + 1))) (C.z (D.y (k + 1)))).1 = true
    · rw [if_pos hb] at h
      cases h
      exact ⟨c, le_refl _, by simp, hs.1 hb, by intro l c' hl; omega⟩
    · rw [if_neg hb] at h
      obtain ⟨c', h1, h2, h3, h4⟩ := ih (i + 1) h
      refine ⟨c', by omega, ?_, h3, ?_⟩
      · rw [show j - i = (j - (i + 1)) + 1 by omega]; simpa using h2
      · intro l d hl hd
        cases l with
        | zero => simp only [List.getElem?_cons_zero, Option.some.injEq] at hd; subst hd; exact fun hsat => hb (hs.2 hsat)
        | succ l => exact h4 l d (by omega) (by simpa using hd)

/-- The rows `[t, y]` of the first `n` states, from the initial one. -/
def rows (D : Integrator S) (n : ℕ) : List (ℝ × S) := (List.range n).map fun (k : ℕ) => (D.t k, D.y k)

/-- The plane hits of the first `n` steps. -/
noncomputable def hitsUpTo (C : Coords S) (D : Integrator S) (flux : Bool) (phis : List ℝ) (n : ℕ) : List (Hit S) :=
  (List.range n).flatMap fun (k : ℕ) => planeHits D k (angleFrom C D flux 0 k) (angleFrom C D flux 0 (k + 1)) 0 phis

theorem rows_succ (D : Integrator S) (n : ℕ) : rows D (n + 1) = rows D n ++ [(D.t n, D.y n)] := by
  simp [rows, List.range_succ]

theorem hitsUpTo_succ (C : Coords S) (D : Integrator S) (flux : Bool) (phis : List ℝ) (n : ℕ) :
    hitsUpTo C D flux phis (n + 1) = hitsUpTo C D flux phis n ++ planeHits D n (angleFrom C D flux 0 n) (angleFrom C D flux 0 (n + 1)) 0 phis := by
  simp [hitsUpTo, List.range_succ]

theorem loop_spec (C : Coords S) (D : Integrator S) (flux : Bool) (tmax : ℝ) (phis : List ℝ) (crits : List Crit) (fuel k : ℕ) (σs : List CState)
    (hg : List.Forall₂ (Good C D k) crits σs) (R : List (ℝ × S)) (H : List (Hit S))
    (h : loop C D flux tmax phis crits fuel k (angleFrom C D flux 0 k) σs (rows D k) (hitsUpTo C D flux phis k) = some (R, H)) :
    ∃ n, k < n ∧ (∀ j, k < j → j < n → D.t j < tmax ∧ ∀ c ∈ crits, ¬Sat C D j c) ∧
      ((∃ (i : ℕ) (c : Crit), crits[i]? = some c ∧ Sat C D n c ∧ (∀ (l : ℕ) (c' : Crit), l < i → crits[l]? = some c' → ¬Sat C D n c') ∧ R = rows D n ∧
          H = hitsUpTo C D flux phis n ++ [⟨D.t n, -1 - (i : ℤ), D.y n⟩]) ∨
        ((∀ c ∈ crits, ¬Sat C D n c) ∧ tmax ≤ D.t n ∧ R = rows D n ++ [(tmax, D.dense (n - 1) tmax)] ∧ H = hitsUpTo C D flux phis n)) := by
  induction fuel generalizing k σs with
  | zero => simp [loop] at h
  | succ fuel ih =>
    have ecur : phiOf C flux (D.y (k + 1)) (angleFrom C D flux 0 k) = angleFrom C D flux 0 (k + 1) := by
      show _ = phiOf C flux (D.y (0 + k + 1)) _
      rw [Nat.zero_add]
    simp only [loop, ecur, ← rows_succ, ← hitsUpTo_succ] at h
    cases hr : (callAll crits σs 0 (k + 1) (C.x (D.y (k + 1))) (C.y (D.y (k + 1))) (C.z (D.y (k + 1)))).1 with
    | some i =>
      rw [hr] at h
      obtain ⟨c, _, h2, h3, h4⟩ := callAll_some C D k crits σs 0 i hg hr
      simp only [Option.some.injEq, Prod.mk.injEq] at h
      exact ⟨k + 1, by omega, by intro j h1 h2; omega, Or.inl ⟨i, c, by simpa using h2, h3, fun l c' hl hc' => h4 l c' (by omega) hc', h.1.symm, h.2.symm⟩⟩
    | none =>
      rw [hr] at h
      obtain ⟨h1, h2⟩ := callAll_none C D k crits σs 0 hg hr
      simp only at h
      by_cases ht : D.t (k + 1) < tmax
      · rw [if_pos ht] at h
        obtain ⟨n, hn, hb, hcase⟩ := ih (k + 1) _ h2 h
        refine ⟨n, by omega, ?_, hcase⟩
        intro j hj hjn
        by_cases e : j = k + 1
        · subst e; exact ⟨ht, h1⟩
        · exact hb j (by omega) hjn
      · rw [if_neg ht] at h
        simp only [Option.some.injEq, Prod.mk.injEq] at h
        exact ⟨k + 1, by omega, by intro j h1 h2; omega, Or.inr ⟨h1, not_lt.1 ht, by simpa using h.1.symm, h.2.symm⟩⟩

/-- **C124.** What tracing returns, for every integrator, every list of planes and every list of criteria, whatever the criterion objects were used for before.  There is a number
`n ≥ 1` of steps such that before the `n`-th step neither `tmax` was reached nor a criterion satisfied, and either a criterion is satisfied after step `n`, and then `res_tys` has the
`n` states before, and `res_phi_hits` ends with the row of the first satisfied criterion; or none is and `tmax` has been passed, and then `res_tys` ends with the state at `tmax`
and `res_phi_hits` has no row of a criterion. -/
theorem C124_result (C : Coords S) (D : Integrator S) (flux : Bool) (tmax : ℝ) (phis : List ℝ) (crits : List Crit) (fuel : ℕ) (σs : List CState)
    (hσ : crits.length = σs.length) (R : List (ℝ × S)) (H : List (Hit S)) (h : solve C D flux tmax phis crits fuel σs = some (R, H)) :
    ∃ n, 1 ≤ n ∧ (∀ j, 1 ≤ j → j < n → D.t j < tmax ∧ ∀ c ∈ crits, ¬Sat C D j c) ∧
      ((∃ (i : ℕ) (c : Crit), crits[i]? = some c ∧ Sat C D n c ∧ (∀ (l : ℕ) (c' : Crit), l < i → crits[l]? = some c' → ¬Sat C D n c') ∧ R = rows D n ∧
          H = hitsUpTo C D flux phis n ++ [⟨D.t n, -1 - (i : ℤ), D.y n⟩]) ∨
        ((∀ c ∈ crits, ¬Sat C D n c) ∧ tmax ≤ D.t n ∧ R = rows D n ++ [(tmax, D.dense (n - 1) tmax)] ∧ H = hitsUpTo C D flux phis n)) := by
  have hg : List.Forall₂ (Good C D 0) crits σs := by
    rw [List.forall₂_iff_zip]
    exact ⟨hσ, fun _ h0 => absurd h0 (by omega)⟩
  obtain ⟨n, hn, hb, hc⟩ := loop_spec C D flux tmax phis crits fuel 0 σs hg R H h
  exact ⟨n, hn, fun j hj => hb j hj, hc⟩

theorem loop_total (C : Coords S) (D : Integrator S) (flux : Bool) (tmax : ℝ) (phis : List ℝ) (crits : List Crit) (n : ℕ) (hn : tmax ≤ D.t n) (fuel k : ℕ)
    (hf : n ≤ k + fuel) (hk : k < n) (last : ℝ) (σs : List CState) (res : List (ℝ × S)) (hits : List (Hit S)) :
    (loop C D flux tmax phis crits fuel k last σs res hits).isSome = true := by
  induction fuel generalizing k last σs res hits with
  | zero => omega
  | succ fuel ih =>
    simp only [loop]
    cases hr : (callAll crits σs 0 (k + 1) (C.x (D.y (k + 1))) (C.y (D.y (k + 1))) (C.z (D.y (k + 1)))).1 with
    | some i => simp
    | none =>
      simp only
      by_cases ht : D.t (k + 1) < tmax
      · rw [if_pos ht]
        have : k + 1 ≠ n := by rintro rfl; exact absurd ht (not_lt.2 hn)
        exact ih (k + 1) (by omega) (by omega) _ _ _ _
      · rw [if_neg ht]; rfl

/-- **C124.** Tracing ends whenever the integrator's time passes `tmax` at some step. -/
theorem C124_terminates (C : Coords S) (D : Integrator S) (flux : Bool) (tmax : ℝ) (phis : List ℝ) (crits : List Crit) (n : ℕ) (hn : 1 ≤ n) (ht : tmax ≤ D.t n)
    (σs : List CState) : ∃ r, solve C D flux tmax phis crits n σs = some r :=
  Option.isSome_iff_exists.1 (loop_total C D flux tmax phis crits n ht n 0 (by omega) (by omega) _ _ _ _)

/-! ### Plane hits -/

/-- Specification: between the angles `a` and `b` the plane `phi` (modulo whole turns) was passed: forwards up to and including `b`, or backwards from and including `a`. -/
def Passed (a b phi : ℝ) : Prop := ∃ m : ℤ, (a < phi + m * (2 * Real.pi) ∧ phi + m * (2 * Real.pi) ≤ b) ∨ (b < phi + m * (2 * Real.pi) ∧ phi + m * (2 * Real.pi) ≤ a)

theorem floor_ne_iff (u v : ℝ) : ⌊u⌋ ≠ ⌊v⌋ ↔ ∃ m : ℤ, (u < m ∧ (m : ℝ) ≤ v) ∨ (v < m ∧ (m : ℝ) ≤ u) := by
  constructor
  · intro h
    rcases lt_or_gt_of_ne h with h | h
    · exact ⟨⌊v⌋, Or.inl ⟨Int.floor_lt.1 h, Int.floor_le v⟩⟩
    · exact ⟨⌊u⌋, Or.inr ⟨Int.floor_lt.1 h, Int.floor_le u⟩⟩
  · rintro ⟨m, ⟨h1, h2⟩ | ⟨h1, h2⟩⟩ e
    · have a := Int.floor_lt.2 h1
      have b := Int.le_floor.2 h2
      omega
    · have a := Int.floor_lt.2 h1
      have b := Int.le_floor.2 h2
      omega

theorem turn_lt (a phi : ℝ) (m : ℤ) : (a - phi) / (2 * Real.pi) < m ↔ a < phi + m * (2 * Real.pi) := by
  rw [div_lt_iff₀ (by have := Real.pi_pos; positivity)]; constructor <;> intro h <;> linarith

theorem le_turn (b phi : ℝ) (m : ℤ) : (m : ℝ) ≤ (b - phi) / (2 * Real.pi) ↔ phi + m * (2 * Real.pi) ≤ b := by
  rw [le_div_iff₀ (by have := Real.pi_pos; positivity)]; constructor <;> intro h <;> linarith

theorem passed_iff (a b phi : ℝ) : ⌊(a - phi) / (2 * Real.pi)⌋ ≠ ⌊(b - phi) / (2 * Real.pi)⌋ ↔ Passed a b phi := by
  rw [floor_ne_iff]
  simp only [turn_lt, le_turn]
  rfl

/-- The value `phi_shift` is the passed one. -/
theorem shift_eq (a b phi : ℝ) (hab : |b - a| < 2 * Real.pi) (m : ℤ)
    (h : (a < phi + m * (2 * Real.pi) ∧ phi + m * (2 * Real.pi) ≤ b) ∨ (b < phi + m * (2 * Real.pi) ∧ phi + m * (2 * Real.pi) ≤ a)) :
    cround (((a + b) / 2 - phi) / (2 * Real.pi)) = m := by
  have hp := Real.pi_pos
  apply cround_eq
  have : ((a + b) / 2 - phi) / (2 * Real.pi) - m = ((a + b) / 2 - (phi + m * (2 * Real.pi))) / (2 * Real.pi) := by field_simp; ring
  rw [this, abs_div, abs_of_pos (by positivity : 0 < 2 * Real.pi), div_lt_iff₀ (by positivity)]
  rw [abs_lt] at hab ⊢
  rcases h with h | h <;> constructor <;> linarith

theorem mem_planeHits (D : Integrator S) (k : ℕ) (a b : ℝ) (i₀ : ℕ) (phis : List ℝ) (h : Hit S) :
    h ∈ planeHits D k a b i₀ phis ↔ ∃ i phi, phis[i]? = some phi ∧ Passed a b phi ∧
      h.idx = ((i₀ + i : ℕ) : ℤ) ∧ h.time = D.root k (i₀ + i) (cround (((a + b) / 2 - phi) / (2 * Real.pi)) * 2 * Real.pi + phi) ∧ h.state = D.dense k h.time := by
  induction phis generalizing i₀ with
  | nil => simp [planeHits]
  | cons phi phis ih =>
    simp only [planeHits, List.mem_append, ih]
    constructor
    · rintro (h1 | ⟨i, ph, h1, h2, h3, h4, h5⟩)
      · split at h1
        · rename_i hne
          rw [List.mem_singleton] at h1
          subst h1
          exact ⟨0, phi, rfl, (passed_iff a b phi).1 hne, by simp, by simp, rfl⟩
        · cases h1
      · exact ⟨i + 1, ph, by simpa using h1, h2, by rw [h3, show i₀ + 1 + i = i₀ + (i + 1) by omega], by rw [h4, show i₀ + 1 + i = i₀ + (i + 1) by omega], h5⟩
    · rintro ⟨i, ph, h1, h2, h3, h4, h5⟩
      cases i with
      | zero =>
        left
        simp only [List.getElem?_cons_zero, Option.some.injEq] at h1
        subst h1
        rw [if_pos ((passed_iff a b phi).2 h2), List.mem_singleton]
        cases h
        simp only at h3 h4 h5
        subst h5
        simp at h3 h4
        rw [h3, h4]
      | succ i =>
        right
        exact ⟨i, ph, by simpa using h1, h2, by rw [h3, show i₀ + 1 + i = i₀ + (i + 1) by omega], by rw [h4, show i₀ + 1 + i = i₀ + (i + 1) by omega], h5⟩

/-- In Cartesian tracing the angle changes by at most half a turn per step. -/
theorem angle_step (C : Coords S) (D : Integrator S) (k : ℕ) : |angleFrom C D false 0 (k + 1) - angleFrom C D false 0 k| ≤ Real.pi :=
  (C123_get_phi _ _ _).2

theorem angle_isAngle (C : Coords S) (D : Integrator S) (k : ℕ) : IsAngle (C.x (D.y k)) (C.y (D.y k)) (angleFrom C D false 0 k) := by
  cases k with
  | zero => exact (C123_get_phi _ _ _).1
  | succ k =>
    have := (C123_get_phi (C.x (D.y (0 + k + 1))) (C.y (D.y (0 + k + 1))) (angleFrom C D false 0 k)).1
    rw [Nat.zero_add] at this
    show IsAngle _ _ (phiOf C false (D.y (0 + k + 1)) _)
    rw [Nat.zero_add]
    exact this

/-- **C124.** The plane hits in Cartesian tracing: plane `i` has a row for step `k` exactly if the unwrapped angle passed `phis[i]` (modulo whole turns) in that step; the value handed to
the root finder is the one passed, and the row has the time the root finder returned for it and the state the integrator has there. -/
theorem C124_hits (C : Coords S) (D : Integrator S) (phis : List ℝ) (n : ℕ) (h : Hit S) :
    h ∈ hitsUpTo C D false phis n ↔ ∃ (k i : ℕ) (phi : ℝ) (m : ℤ), k < n ∧ phis[i]? = some phi ∧ h.idx = i ∧
      ((angleFrom C D false 0 k < phi + m * (2 * Real.pi) ∧ phi + m * (2 * Real.pi) ≤ angleFrom C D false 0 (k + 1)) ∨
        (angleFrom C D false 0 (k + 1) < phi + m * (2 * Real.pi) ∧ phi + m * (2 * Real.pi) ≤ angleFrom C D false 0 k)) ∧
      h.time = D.root k i (phi + m * (2 * Real.pi)) ∧ h.state = D.dense k h.time := by
  have hp := Real.pi_pos
  simp only [hitsUpTo, List.mem_flatMap, List.mem_range, mem_planeHits]
  constructor
  · rintro ⟨k, hk, i, phi, h1, ⟨m, hm⟩, h3, h4, h5⟩
    refine ⟨k, i, phi, m, hk, h1, by simpa using h3, hm, ?_, h5⟩
    rw [h4, shift_eq _ _ phi ((angle_step C D k).trans_lt (by linarith)) m hm, Nat.zero_add]
    congr 1; ring
  · rintro ⟨k, i, phi, m, hk, h1, h3, hm, h4, h5⟩
    refine ⟨k, hk, i, phi, h1, ⟨m, hm⟩, by simpa using h3, ?_, h5⟩
    rw [h4, shift_eq _ _ phi ((angle_step C D k).trans_lt (by linarith)) m hm, Nat.zero_add]
    congr 1; ring

/-- **C124.** The same in flux coordinates, for steps shorter than a whole turn. -/
theorem C124_hits_flux (C : Coords S) (D : Integrator S) (phis : List ℝ) (n : ℕ) (hs : ∀ k < n, |C.z (D.y (k + 1)) - C.z (D.y k)| < 2 * Real.pi) (h : Hit S) :
    h ∈ hitsUpTo C D true phis n ↔ ∃ (k i : ℕ) (phi : ℝ) (m : ℤ), k < n ∧ phis[i]? = some phi ∧ h.idx = i ∧
      ((C.z (D.y k) < phi + m * (2 * Real.pi) ∧ phi + m * (2 * Real.pi) ≤ C.z (D.y (k + 1))) ∨
        (C.z (D.y (k + 1)) < phi + m * (2 * Real.pi) ∧ phi + m * (2 * Real.pi) ≤ C.z (D.y k))) ∧
      h.time = D.root k i (phi + m * (2 * Real.pi)) ∧ h.state = D.dense k h.time := by
  have ea : ∀ k, angleFrom C D true 0 k = C.z (D.y k) := by
    intro k
    cases k with
    | zero => rfl
    | succ k => show C.z (D.y (0 + k + 1)) = _; rw [Nat.zero_add]
  simp only [hitsUpTo, List.mem_flatMap, List.mem_range, mem_planeHits, ea]
  constructor
  · rintro ⟨k, hk, i, phi, h1, ⟨m, hm⟩, h3, h4, h5⟩
    refine ⟨k, i, phi, m, hk, h1, by simpa using h3, hm, ?_, h5⟩
    rw [h4, shift_eq _ _ phi (hs k hk) m hm, Nat.zero_add]
    congr 1; ring
  · rintro ⟨k, i, phi, m, hk, h1, h3, hm, h4, h5⟩
    refine ⟨k, hk, i, phi, h1, ⟨m, hm⟩, by simpa using h3, ?_, h5⟩
    rw [h4, shift_eq _ _ phi (hs k hk) m hm, Nat.zero_add]
    congr 1; ring

/-- **C124.** If the root finder returns a zero of the function it is given, the recorded point lies in the plane: `phis[i]` is an angle of it. -/
theorem C124_on_plane (C : Coords S) (D : Integrator S) (phis : List ℝ) (n : ℕ) (h : Hit S) (hh : h ∈ hitsUpTo C D false phis n)
    (hroot : ∀ k i s, getPhi (C.x (D.dense k (D.root k i s))) (C.y (D.dense k (D.root k i s))) (angleFrom C D false 0 k) - s = 0) :
    ∃ (i : ℕ) (phi : ℝ), phis[i]? = some phi ∧ h.idx = i ∧ IsAngle (C.x h.state) (C.y h.state) phi := by
  obtain ⟨k, i, phi, m, hk, h1, h2, h3, h4, h5⟩ := (C124_hits C D phis n h).1 hh
  refine ⟨i, phi, h1, h2, ?_⟩
  have e := sub_eq_zero.1 (hroot k i (phi + m * (2 * Real.pi)))
  rw [← h4, ← h5] at e
  have := (C123_get_phi (C.x h.state) (C.y h.state) (angleFrom C D false 0 k)).1
  rw [e] at this
  have := this.add (-m)
  rwa [show phi + m * (2 * Real.pi) + ((-m : ℤ) : ℝ) * (2 * Real.pi) = phi by push_cast; ring] at this

theorem count_planeHits (D : Integrator S) (k : ℕ) (a b : ℝ) (i₀ : ℕ) (phis : List ℝ) (i : ℕ) :
    (planeHits D k a b i₀ phis).countP (fun h => h.idx == ((i₀ + i : ℕ) : ℤ)) =
      match phis[i]? with
      | some phi => if ⌊(a - phi) / (2 * Real.pi)⌋ ≠ ⌊(b - phi) / (2 * Real.pi)⌋ then 1 else 0
      | none => 0 := by
  induction phis generalizing i₀ i with
  | nil => simp [planeHits]
  | cons phi phis ih =>
    simp only [planeHits, List.countP_append]
    cases i with
    | zero =>
      have h0 : (planeHits D k a b (i₀ + 1) phis).countP (fun h => h.idx == ((i₀ + 0 : ℕ) : ℤ)) = 0 := by
        rw [List.countP_eq_zero]
        intro h hh
        obtain ⟨i, ph, _, _, h3, _⟩ := (mem_planeHits D k a b (i₀ + 1) phis h).1 hh
        rw [h3]
        simp only [beq_iff_eq]
        omega
      rw [h0]
      simp only [List.getElem?_cons_zero]
      split <;> simp
    | succ i =>
      have := ih (i₀ + 1) i
      rw [show i₀ + 1 + i = i₀ + (i + 1) by omega] at this
      rw [this]
      simp only [List.getElem?_cons_succ]
      have h0 : ∀ t s, List.countP (fun h : Hit S => h.idx == ((i₀ + (i + 1) : ℕ) : ℤ))
          (if ⌊(a - phi) / (2 * Real.pi)⌋ ≠ ⌊(b - phi) / (2 * Real.pi)⌋ then [(⟨t, (i₀ : ℤ), s⟩ : Hit S)] else []) = 0 := by
        intro t s
        split
        · rw [List.countP_eq_zero]; intro h hh; rw [List.mem_singleton] at hh; subst hh
          simp only [beq_iff_eq]
          omega
        · rfl
      rw [h0, Nat.zero_add]

/-- **C124.** No passage is lost or counted twice: as long as the particle moves forward, the number of rows of plane `i` is the number of times its unwrapped angle has passed `phis[i]` plus
whole turns since the start. -/
theorem C124_count (C : Coords S) (D : Integrator S) (phis : List ℝ) (n : ℕ) (i : ℕ) (phi : ℝ) (hi : phis[i]? = some phi)
    (hmono : ∀ k < n, angleFrom C D false 0 k ≤ angleFrom C D false 0 (k + 1)) :
    ((hitsUpTo C D false phis n).countP (fun h => h.idx == (i : ℤ)) : ℤ) =
      ⌊(angleFrom C D false 0 n - phi) / (2 * Real.pi)⌋ - ⌊(angleFrom C D false 0 0 - phi) / (2 * Real.pi)⌋ := by
  have hp := Real.pi_pos
  induction n with
  | zero => simp [hitsUpTo]
  | succ n ih =>
    rw [hitsUpTo_succ, List.countP_append]
    push_cast
    rw [ih fun k hk => hmono k (by omega)]
    have := count_planeHits D n (angleFrom C D false 0 n) (angleFrom C D false 0 (n + 1)) 0 phis i
    rw [hi, Nat.zero_add] at this
    rw [this]
    have h1 := hmono n (by omega)
    have h2 := (abs_le.1 (angle_step C D n)).2
    set a := angleFrom C D false 0 n
    set b := angleFrom C D false 0 (n + 1)
    have hle : ⌊(a - phi) / (2 * Real.pi)⌋ ≤ ⌊(b - phi) / (2 * Real.pi)⌋ :=
      Int.floor_le_floor (div_le_div_of_nonneg_right (by linarith) (by positivity))
    have hlt : ⌊(b - phi) / (2 * Real.pi)⌋ < ⌊(a - phi) / (2 * Real.pi)⌋ + 2 := by
      have h3 : (b - phi) / (2 * Real.pi) ≤ (a - phi) / (2 * Real.pi) + 1 := by
        rw [div_add_one (by positivity)]
        exact div_le_div_of_nonneg_right (by linarith) (by positivity)
      have := Int.floor_le_floor h3
      rw [Int.floor_add_one] at this
      omega
    simp only
    split
    · rename_i hne; push_cast; omega
    · rename_i hne; push Not at hne; rw [hne]; push_cast; ring

end Simsopt.Tracing
