import Verif.Surfaces.GridSym
import Mathlib.Topology.Order.IntermediateValue
import Mathlib.Analysis.SpecificLimits.Basic
/-!
# C74, C75: cross sections by bisection, arclength angle

Model of `cross_section` (src/simsopt/geo/surface.py L325-435: wrapping of the angle and bisection) and `arclength_poloidal_angle` (L791-821).

Simplification: real numbers; the sampling that finds the initial brackets (L351-408) is not modelled: the theorem assumes a bracket.
-/
namespace Simsopt.Surface
open Simsopt Simsopt.Coils Simsopt.RZSurf

/-! ### The wrapped angle -/

/-- surface.py L340-346. -/
noncomputable def wrapPhi (phi : ℝ) : ℝ :=
  let x := phi - (SignType.sign phi : ℝ) * (⌊|phi| / (2 * Real.pi)⌋ : ℝ) * (2 * Real.pi)
  let x := if x > Real.pi then x - 2 * Real.pi else x
  if x < -Real.pi then x + 2 * Real.pi else x

/-- **C74.** The target angle of `cross_section` is wrapped into `[-π, π]` by a multiple of `2π`, for every angle. -/
theorem C74_wrap (phi : ℝ) : -Real.pi ≤ wrapPhi phi ∧ wrapPhi phi ≤ Real.pi ∧ ∃ k : Int, wrapPhi phi = phi + k * (2 * Real.pi) := by
  have hp := Real.pi_pos
  have h2 : 0 < 2 * Real.pi := by positivity
  set n := ⌊|phi| / (2 * Real.pi)⌋ with hn
  have h1 : (n : ℝ) * (2 * Real.pi) ≤ |phi| := (le_div_iff₀ h2).mp (Int.floor_le _)
  have h3 : |phi| < ((n : ℝ) + 1) * (2 * Real.pi) := (div_lt_iff₀ h2).mp (Int.lt_floor_add_one _)
  have step : ∀ x : ℝ, -(2 * Real.pi) < x → x < 2 * Real.pi → (∃ k : Int, x = phi + k * (2 * Real.pi)) →
      let y := if x > Real.pi then x - 2 * Real.pi else x
      let z := if y < -Real.pi then y + 2 * Real.pi else y
      0 ≤ z + Real.pi ∧ z ≤ Real.pi ∧ ∃ k : Int, z = phi + k * (2 * Real.pi) := by
    rintro x hx1 hx2 ⟨k, hk⟩
    by_cases c1 : x > Real.pi
    · have c2 : ¬ (x - 2 * Real.pi < -Real.pi) := by linarith
      simp only [c1, if_true, c2, if_false]
      refine ⟨by linarith, by linarith, k - 1, ?_⟩
      push_cast; linarith
    · by_cases c2 : x < -Real.pi
      · simp only [c1, if_false, c2, if_true]
        refine ⟨by linarith, by linarith, k + 1, ?_⟩
        push_cast; linarith
      · simp only [c1, if_false, c2]
        exact ⟨by linarith, by linarith, k, hk⟩
  rcases lt_trichotomy phi 0 with h | h | h
  · have e : phi - (SignType.sign phi : ℝ) * (n : ℝ) * (2 * Real.pi) = phi + n * (2 * Real.pi) := by rw [sign_neg h]; simp
    rw [abs_of_neg h] at h1 h3
    simp only [wrapPhi, ← hn, e]
    have r := step _ (by linarith) (by linarith) ⟨n, rfl⟩
    exact ⟨by linarith [r.1], r.2⟩
  · have e : phi - (SignType.sign phi : ℝ) * (n : ℝ) * (2 * Real.pi) = 0 := by rw [h]; simp
    simp only [wrapPhi, ← hn, e]
    have r := step 0 (by linarith) (by linarith) ⟨0, by simp [h]⟩
    exact ⟨by linarith [r.1], r.2⟩
  · have e : phi - (SignType.sign phi : ℝ) * (n : ℝ) * (2 * Real.pi) = phi - n * (2 * Real.pi) := by rw [sign_pos h]; simp
    rw [abs_of_pos h] at h1 h3
    simp only [wrapPhi, ← hn, e]
    have r := step (phi - n * (2 * Real.pi)) (by linarith) (by linarith) ⟨-n, by push_cast; ring⟩
    exact ⟨by linarith [r.1], r.2⟩

/-! ### Bisection -/

/-- The state of one component: `phia`, `a`, `phic`, `c`. -/
structure Bracket where
  pa : ℝ
  a : ℝ
  pc : ℝ
  c : ℝ

/-- `varphi2phi` (surface.py L412-420); `raw` is the cylindrical angle `arctan2(y, x)` of the surface at `(varphi, theta_i)`. -/
noncomputable def varphi2phi (raw : ℝ → ℝ) (t left right : ℝ) : ℝ :=
  let phi := raw t
  let pinc : ℝ := if phi < left then 1 else 0
  let minc : ℝ := if phi > right then 1 else 0
  phi + 2 * Real.pi * (pinc - minc)

/-- One iteration for one component (surface.py L425-434). -/
noncomputable def bisectStep (phi : ℝ) (raw : ℝ → ℝ) (s : Bracket) : Bracket :=
  let b := (s.a + s.c) / 2
  let pb := varphi2phi raw b s.pa s.pc
  open Classical in
  if (pb - phi) * (s.pc - phi) > 0 then ⟨s.pa, s.a, pb, b⟩ else ⟨pb, b, s.pc, s.c⟩

/-- All the components after `k` iterations. -/
noncomputable def bisectAfter (phi : ℝ) (k : Nat) (l : List ((ℝ → ℝ) × Bracket)) : List ((ℝ → ℝ) × Bracket) :=
  l.map fun rs => (rs.1, (bisectStep phi rs.1)^[k] rs.2)

/-- `err = np.max(np.abs(a - c))` (surface.py L435): `err <= e`. -/
def errLe (e : ℝ) (l : List ((ℝ → ℝ) × Bracket)) : Prop := ∀ rs ∈ l, |rs.2.a - rs.2.c| ≤ e

/-- The loop `while err > 1e-13` (L424) started with `err = 1` ends after `k` iterations. -/
def Ends (phi : ℝ) (l : List ((ℝ → ℝ) × Bracket)) (k : Nat) : Prop :=
  0 < k ∧ errLe 1e-13 (bisectAfter phi k l) ∧ ∀ j, 0 < j → j < k → ¬ errLe 1e-13 (bisectAfter phi j l)

theorem step_width (phi : ℝ) (raw : ℝ → ℝ) (s : Bracket) : |(bisectStep phi raw s).a - (bisectStep phi raw s).c| = |s.a - s.c| / 2 := by
  have h1 : ∀ x : ℝ, |x / 2| = |x| / 2 := fun x => by rw [abs_div]; norm_num
  simp only [bisectStep]
  split
  · rw [← h1]; congr 1; ring
  · rw [← h1]; congr 1; ring

theorem iter_width (phi : ℝ) (raw : ℝ → ℝ) (k : Nat) (s : Bracket) : |((bisectStep phi raw)^[k] s).a - ((bisectStep phi raw)^[k] s).c| = |s.a - s.c| / 2 ^ k := by
  induction k with
  | zero => simp
  | succ k ih => rw [Function.iterate_succ_apply', step_width, ih, pow_succ, div_div]

/-- **C74.** The bisection of `cross_section` ends, whatever the surface, the target angle and the initial brackets. -/
theorem C74_bisection_ends (phi : ℝ) (l : List ((ℝ → ℝ) × Bracket)) : ∃ k, Ends phi l k := by
  classical
  obtain ⟨W, hW⟩ : ∃ W : ℝ, ∀ rs ∈ l, |rs.2.a - rs.2.c| ≤ W := by
    induction l with
    | nil => exact ⟨0, by simp⟩
    | cons x l ih =>
      obtain ⟨W, h⟩ := ih
      refine ⟨max W |x.2.a - x.2.c|, ?_⟩
      intro rs hrs
      rcases List.mem_cons.mp hrs with rfl | hrs
      · exact le_max_right _ _
      · exact (h rs hrs).trans (le_max_left _ _)
  have hex : ∃ k, 0 < k ∧ errLe 1e-13 (bisectAfter phi k l) := by
    obtain ⟨k, hk⟩ := exists_pow_lt_of_lt_one (show (0 : ℝ) < 1e-13 / (|W| + 1) by positivity) (show (1 / 2 : ℝ) < 1 by norm_num)
    refine ⟨k + 1, by omega, ?_⟩
    intro rs hrs
    obtain ⟨x, hx, rfl⟩ := List.mem_map.mp hrs
    simp only
    rw [iter_width]
    have hp : (0 : ℝ) < 2 ^ (k + 1) := by positivity
    rw [div_le_iff₀ hp]
    have h1 : |x.2.a - x.2.c| ≤ |W| + 1 := (hW x hx).trans (by linarith [le_abs_self W])
    rw [lt_div_iff₀ (by positivity)] at hk
    have e : (1 / 2 : ℝ) ^ k * 2 ^ k = 1 := by rw [← mul_pow]; norm_num
    have hk2 : (0 : ℝ) < 2 ^ k := by positivity
    have h3 : (|W| + 1) < 1e-13 * 2 ^ k := by
      calc |W| + 1 = ((1 / 2 : ℝ) ^ k * (|W| + 1)) * 2 ^ k := by rw [mul_right_comm, e, one_mul]
        _ < 1e-13 * 2 ^ k := mul_lt_mul_of_pos_right hk hk2
    have h4 : (1e-13 : ℝ) * 2 ^ k ≤ 1e-13 * 2 ^ (k + 1) := by
      rw [pow_succ]; nlinarith
    linarith
  obtain ⟨h1, h2⟩ := Nat.find_spec hex
  exact ⟨Nat.find hex, h1, h2, fun j hj hlt herr => Nat.find_min hex hlt ⟨hj, herr⟩⟩

/-- What the sampling has to provide for one component: along the way from `a` to `c`, the cylindrical angle, continued continuously, increases from `phia` to `phic` by less than a turn, passing the target, and
`arctan2` differs from the continued angle by at most one turn. -/
structure Bracketed (phi : ℝ) (raw : ℝ → ℝ) (s : Bracket) (h : ℝ → ℝ) : Prop where
  cont : ContinuousOn h (Set.Icc 0 1)
  mono : MonotoneOn h (Set.Icc 0 1)
  left : h 0 = s.pa
  right : h 1 = s.pc
  turn : s.pc - s.pa < 2 * Real.pi
  target : s.pa ≤ phi ∧ phi ≤ s.pc
  lift : ∀ τ ∈ Set.Icc (0 : ℝ) 1, ∃ j : Int, (j = -1 ∨ j = 0 ∨ j = 1) ∧ raw (s.a + τ * (s.c - s.a)) = h τ + j * (2 * Real.pi)

/-- The adjustment by a turn in `varphi2phi` recovers the continued angle. -/
theorem varphi2phi_lift (raw : ℝ → ℝ) (t left right g : ℝ) (j : Int) (hj : j = -1 ∨ j = 0 ∨ j = 1) (hr : raw t = g + j * (2 * Real.pi)) (h1 : left ≤ g) (h2 : g ≤ right)
    (h3 : right - left < 2 * Real.pi) : varphi2phi raw t left right = g := by
  have hp := Real.pi_pos
  simp only [varphi2phi, hr]
  rcases hj with rfl | rfl | rfl
  · have c1 : g + ((-1 : Int) : ℝ) * (2 * Real.pi) < left := by push_cast; linarith
    have c2 : ¬ (g + ((-1 : Int) : ℝ) * (2 * Real.pi) > right) := by push_cast; linarith
    rw [if_pos c1, if_neg c2]; push_cast; ring
  · have c1 : ¬ (g + ((0 : Int) : ℝ) * (2 * Real.pi) < left) := by push_cast; linarith
    have c2 : ¬ (g + ((0 : Int) : ℝ) * (2 * Real.pi) > right) := by push_cast; linarith
    rw [if_neg c1, if_neg c2]; push_cast; ring
  · have c1 : ¬ (g + ((1 : Int) : ℝ) * (2 * Real.pi) < left) := by push_cast; linarith
    have c2 : g + ((1 : Int) : ℝ) * (2 * Real.pi) > right := by push_cast; linarith
    rw [if_neg c1, if_pos c2]; push_cast; ring

/-- **C74.** When the bisection has ended, every returned `varphi` is within `5e-14` of a point between the ends of the bracket where the (continued) cylindrical angle is exactly the target. -/
theorem C74_bisection_root (phi : ℝ) (l : List ((ℝ → ℝ) × Bracket)) (k : Nat) (hk : Ends phi l k) (rs : (ℝ → ℝ) × Bracket) (hrs : rs ∈ l) (h : ℝ → ℝ) (hb : Bracketed phi rs.1 rs.2 h) :
    let s := (bisectStep phi rs.1)^[k] rs.2
    ∃ τ ∈ Set.Icc (0 : ℝ) 1, h τ = phi ∧ |(s.a + s.c) / 2 - (rs.2.a + τ * (rs.2.c - rs.2.a))| ≤ 5e-14 := by
  obtain ⟨raw, s0⟩ := rs
  simp only at hb ⊢
  have inv : ∀ n, ∃ u v : ℝ, 0 ≤ u ∧ u ≤ v ∧ v ≤ 1 ∧ ((bisectStep phi raw)^[n] s0).a = s0.a + u * (s0.c - s0.a) ∧ ((bisectStep phi raw)^[n] s0).c = s0.a + v * (s0.c - s0.a) ∧
      ((bisectStep phi raw)^[n] s0).pa = h u ∧ ((bisectStep phi raw)^[n] s0).pc = h v ∧ h u ≤ phi ∧ phi ≤ h v := by
    intro n
    induction n with
    | zero => exact ⟨0, 1, le_rfl, zero_le_one, le_rfl, by simp, by simp, hb.left.symm, hb.right.symm, by rw [hb.left]; exact hb.target.1, by rw [hb.right]; exact hb.target.2⟩
    | succ n ih =>
      obtain ⟨u, v, hu, huv, hv, ea, ec, epa, epc, h1, h2⟩ := ih
      rw [Function.iterate_succ_apply']
      set s := (bisectStep phi raw)^[n] s0
      have hw : (u + v) / 2 ∈ Set.Icc (0 : ℝ) 1 := ⟨by linarith, by linarith⟩
      have hwu : h u ≤ h ((u + v) / 2) := hb.mono ⟨hu, by linarith⟩ hw (by linarith)
      have hwv : h ((u + v) / 2) ≤ h v := hb.mono hw ⟨by linarith, hv⟩ (by linarith)
      have h0u : h 0 ≤ h u := hb.mono ⟨le_rfl, zero_le_one⟩ ⟨hu, by linarith⟩ hu
      have hv1 : h v ≤ h 1 := hb.mono ⟨by linarith, hv⟩ ⟨zero_le_one, le_rfl⟩ hv
      have eb : (s.a + s.c) / 2 = s0.a + (u + v) / 2 * (s0.c - s0.a) := by rw [ea, ec]; ring
      obtain ⟨j, hj, hl⟩ := hb.lift _ hw
      have epb : varphi2phi raw ((s.a + s.c) / 2) s.pa s.pc = h ((u + v) / 2) := by
        rw [eb, epa, epc]
        exact varphi2phi_lift raw _ _ _ _ j hj hl hwu hwv (by have := hb.turn; rw [hb.left, hb.right] at *; linarith)
      simp only [bisectStep, epb]
      split
      · rename_i hflag
        refine ⟨u, (u + v) / 2, hu, by linarith, hw.2, ea, eb, epa, rfl, h1, ?_⟩
        rw [epc] at hflag
        by_contra hc
        push Not at hc
        nlinarith
      · rename_i hflag
        refine ⟨(u + v) / 2, v, hw.1, by linarith, hv, eb, ec, rfl, epc, ?_, h2⟩
        rw [epc] at hflag
        by_contra hc
        push Not at hc hflag
        have : phi < h v := lt_of_lt_of_le hc hwv
        nlinarith [mul_pos (sub_pos.mpr hc) (sub_pos.mpr this)]
  obtain ⟨u, v, hu, huv, hv, ea, ec, epa, epc, h1, h2⟩ := inv k
  have hsub : Set.Icc u v ⊆ Set.Icc (0 : ℝ) 1 := fun x hx => ⟨hu.trans hx.1, hx.2.trans hv⟩
  obtain ⟨τ, hτ, he⟩ := intermediate_value_Icc huv (hb.cont.mono hsub) ⟨h1, h2⟩
  refine ⟨τ, hsub hτ, he, ?_⟩
  have herr := hk.2.1 _ (List.mem_map.mpr ⟨(raw, s0), hrs, rfl⟩)
  simp only at herr
  rw [ea, ec] at herr ⊢
  have e1 : s0.a + u * (s0.c - s0.a) - (s0.a + v * (s0.c - s0.a)) = (u - v) * (s0.c - s0.a) := by ring
  have e2 : (s0.a + u * (s0.c - s0.a) + (s0.a + v * (s0.c - s0.a))) / 2 - (s0.a + τ * (s0.c - s0.a)) = ((u + v) / 2 - τ) * (s0.c - s0.a) := by ring
  rw [e1, abs_mul] at herr
  rw [e2, abs_mul]
  have h4 : |(u + v) / 2 - τ| ≤ |u - v| / 2 := by
    rw [abs_of_nonpos (by linarith : u - v ≤ 0), abs_le]
    constructor <;> [linarith [hτ.2]; linarith [hτ.1]]
  have h5 := mul_le_mul_of_nonneg_right h4 (abs_nonneg (s0.c - s0.a))
  calc |(u + v) / 2 - τ| * |s0.c - s0.a| ≤ |u - v| / 2 * |s0.c - s0.a| := h5
    _ = (|u - v| * |s0.c - s0.a|) / 2 := by ring
    _ ≤ 1e-13 / 2 := by linarith
    _ ≤ 5e-14 := by norm_num

/-- A bracket as on an axisymmetric surface: the angle is `2π t`, the target is 1. -/
example : Bracketed 1 (fun t => 2 * Real.pi * t) ⟨0, 0, Real.pi, 1 / 2⟩ (fun τ => Real.pi * τ) where
  cont := by fun_prop
  mono := fun a _ b _ hab => mul_le_mul_of_nonneg_left hab Real.pi_pos.le
  left := by simp
  right := by simp
  turn := by simp only; linarith [Real.pi_pos]
  target := ⟨by norm_num, by simp only; linarith [Real.two_le_pi]⟩
  lift := fun τ _ => ⟨0, by simp, by simp; ring⟩

/-! ### Arclength angle -/

/-- `dr` between two points of a cross section, given as `(R, Z)` (surface.py L811-812, L815-816). -/
noncomputable def chord (a b : ℝ × ℝ) : ℝ := Real.sqrt ((b.1 - a.1) ^ 2 + (b.2 - a.2) ^ 2)

/-- The cumulative sums `theta_arclength[iphi, :]` before the division (surface.py L810-814), from the current point and value on. -/
noncomputable def cumul (prev : ℝ × ℝ) (acc : ℝ) : List (ℝ × ℝ) → List ℝ
  | [] => [acc]
  | p :: ps => acc :: cumul p (acc + chord prev p) ps

/-- `L` (surface.py L815-817). -/
noncomputable def total (first : ℝ × ℝ) (ps : List (ℝ × ℝ)) : ℝ :=
  (cumul first 0 ps).getLast?.getD 0 + chord ((first :: ps).getLast?.getD first) first

/-- One row of `arclength_poloidal_angle` (surface.py L791-819) for the cross section with the points `first :: ps`. -/
noncomputable def arclength (first : ℝ × ℝ) (ps : List (ℝ × ℝ)) : List ℝ := (cumul first 0 ps).map (· / total first ps)

theorem chord_nonneg (a b : ℝ × ℝ) : 0 ≤ chord a b := Real.sqrt_nonneg _

theorem chord_pos (a b : ℝ × ℝ) (h : a ≠ b) : 0 < chord a b := by
  apply Real.sqrt_pos.mpr
  by_contra hc
  push Not at hc
  apply h
  have h1 : (b.1 - a.1) ^ 2 = 0 := by nlinarith [sq_nonneg (b.1 - a.1), sq_nonneg (b.2 - a.2)]
  have h2 : (b.2 - a.2) ^ 2 = 0 := by nlinarith [sq_nonneg (b.1 - a.1), sq_nonneg (b.2 - a.2)]
  have h3 := pow_eq_zero_iff (two_ne_zero) |>.mp h1
  have h4 := pow_eq_zero_iff (two_ne_zero) |>.mp h2
  exact Prod.ext (by linarith) (by linarith)

theorem cumul_length (prev : ℝ × ℝ) (acc : ℝ) (ps : List (ℝ × ℝ)) : (cumul prev acc ps).length = ps.length + 1 := by
  induction ps generalizing prev acc with
  | nil => rfl
  | cons p ps ih => simp [cumul, ih]

theorem cumul_head (prev : ℝ × ℝ) (acc : ℝ) (ps : List (ℝ × ℝ)) : (cumul prev acc ps)[0]? = some acc := by cases ps <;> rfl

/-- Neighbouring values differ by the chord between the points. -/
theorem cumul_diff (prev : ℝ × ℝ) (acc : ℝ) (ps : List (ℝ × ℝ)) (i : Nat) (h : i < ps.length) :
    ∃ x y a b, (cumul prev acc ps)[i]? = some x ∧ (cumul prev acc ps)[i + 1]? = some y ∧ (prev :: ps)[i]? = some a ∧ (prev :: ps)[i + 1]? = some b ∧ y = x + chord a b := by
  induction ps generalizing prev acc i with
  | nil => simp at h
  | cons p ps ih =>
    cases i with
    | zero => exact ⟨acc, _, prev, p, rfl, by simp only [cumul, List.getElem?_cons_succ]; exact cumul_head p _ ps, rfl, rfl, rfl⟩
    | succ i =>
      obtain ⟨x, y, a, b, h1, h2, h3, h4, h5⟩ := ih p (acc + chord prev p) i (by simpa using h)
      exact ⟨x, y, a, b, by simpa [cumul] using h1, by simpa [cumul] using h2, by simpa using h3, by simpa using h4, h5⟩

theorem cumul_ge (prev : ℝ × ℝ) (acc : ℝ) (ps : List (ℝ × ℝ)) : ∀ x ∈ cumul prev acc ps, acc ≤ x ∧ x ≤ (cumul prev acc ps).getLast?.getD 0 := by
  induction ps generalizing prev acc with
  | nil => intro x hx; simp [cumul] at hx ⊢; simp [hx]
  | cons p ps ih =>
    intro x hx
    have hne : cumul p (acc + chord prev p) ps ≠ [] := by intro h; have := congrArg List.length h; simp [cumul_length] at this
    have hl : (cumul prev acc (p :: ps)).getLast?.getD 0 = (cumul p (acc + chord prev p) ps).getLast?.getD 0 := by
      simp only [cumul]
      obtain ⟨a, l, hal⟩ := List.exists_cons_of_ne_nil hne
      rw [hal, List.getLast?_cons_cons]
    rw [hl]
    have hc := chord_nonneg prev p
    rcases List.mem_cons.mp hx with rfl | hx
    · have hm : (x + chord prev p) ∈ cumul p (x + chord prev p) ps := List.mem_of_getElem? (cumul_head p _ ps)
      have := ih p _ _ hm
      exact ⟨le_rfl, by linarith [this.2]⟩
    · have := ih p _ x hx
      exact ⟨by linarith [this.1], this.2⟩

/-- **C75.** `arclength_poloidal_angle` on a cross section with `n` points, not all the same: `n` values, the first is 0, all lie in `[0, 1]`, neighbouring values differ by the length of the chord between the points divided by the
length of the closed polygon, and the last one differs from 1 by the closing chord. -/
theorem C75_arclength (first : ℝ × ℝ) (ps : List (ℝ × ℝ)) (hL : 0 < total first ps) :
    (arclength first ps).length = ps.length + 1 ∧ (arclength first ps)[0]? = some 0 ∧ (∀ x ∈ arclength first ps, 0 ≤ x ∧ x ≤ 1) ∧
    (∀ i < ps.length, ∃ x y a b, (arclength first ps)[i]? = some x ∧ (arclength first ps)[i + 1]? = some y ∧ (first :: ps)[i]? = some a ∧ (first :: ps)[i + 1]? = some b ∧
      (y - x) * total first ps = chord a b) ∧
    (∃ x, (arclength first ps).getLast? = some x ∧ (1 - x) * total first ps = chord ((first :: ps).getLast?.getD first) first) := by
  have hne : cumul first 0 ps ≠ [] := by intro h; have := congrArg List.length h; simp [cumul_length] at this
  obtain ⟨last, hlast⟩ : ∃ x, (cumul first 0 ps).getLast? = some x := by
    rw [← Option.ne_none_iff_exists']
    simpa using hne
  have hT : total first ps = last + chord ((first :: ps).getLast?.getD first) first := by rw [total, hlast]; rfl
  refine ⟨by simp [arclength, cumul_length], by simp [arclength, List.getElem?_map, cumul_head], ?_, ?_, ?_⟩
  · intro x hx
    obtain ⟨y, hy, rfl⟩ := List.mem_map.mp hx
    have h := cumul_ge first 0 ps y hy
    rw [hlast] at h
    simp only [Option.getD_some] at h
    refine ⟨div_nonneg h.1 hL.le, (div_le_one hL).mpr ?_⟩
    rw [hT]; linarith [chord_nonneg ((first :: ps).getLast?.getD first) first, h.2]
  · intro i hi
    obtain ⟨x, y, a, b, h1, h2, h3, h4, h5⟩ := cumul_diff first 0 ps i hi
    refine ⟨x / total first ps, y / total first ps, a, b, by simp [arclength, List.getElem?_map, h1], by simp [arclength, List.getElem?_map, h2], h3, h4, ?_⟩
    rw [h5]; field_simp; ring
  · refine ⟨last / total first ps, by simp [arclength, List.getLast?_map, hlast], ?_⟩
    have : (1 - last / total first ps) * total first ps = total first ps - last := by field_simp
    rw [this, hT]; ring

/-- **C75.** If neighbouring points are different the angle strictly increases. -/
theorem C75_increasing (first : ℝ × ℝ) (ps : List (ℝ × ℝ)) (hL : 0 < total first ps) (i : Nat) (hi : i < ps.length) (hne : (first :: ps)[i]? ≠ (first :: ps)[i + 1]?) :
    ∃ x y, (arclength first ps)[i]? = some x ∧ (arclength first ps)[i + 1]? = some y ∧ x < y := by
  obtain ⟨x, y, a, b, h1, h2, h3, h4, h5⟩ := (C75_arclength first ps hL).2.2.2.1 i hi
  refine ⟨x, y, h1, h2, ?_⟩
  rw [h3, h4] at hne
  have := chord_pos a b (fun h => hne (by rw [h]))
  rw [← h5] at this
  by_contra hc
  push Not at hc
  nlinarith [mul_nonneg (sub_nonneg.mpr hc) hL.le]

/-- The unit square has length 4 and the angles 0, 1/4, 1/2, 3/4. -/
example : total (0, 0) [(1, 0), (1, 1), (0, 1)] = 4 ∧ arclength (0, 0) [(1, 0), (1, 1), (0, 1)] = [0, 1 / 4, 1 / 2, 3 / 4] := by
  have h : total (0, 0) [(1, 0), (1, 1), (0, 1)] = 4 := by simp [total, cumul, chord]; norm_num
  refine ⟨h, ?_⟩
  rw [arclength, h]
  simp [cumul, chord]; norm_num

end Simsopt.Surface
