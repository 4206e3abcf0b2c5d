import Verif.Magnets.Prox
import Mathlib.Algebra.BigOperators.Intervals
/-!
# C78: greedy permanent-magnet optimization (GPMO)

Model of `GPMO_baseline` (src/simsoptpp/permanent_magnet_optimization.cpp L1237-1331) and `GPMO_ArbVec` (L1130-1232), and of the scaling and clamping in `GPMO` (src/simsopt/solve/permanent_magnet_optimization.py L378-418, L466-480).

Simplifications: real numbers instead of doubles.  The two variants have the same loop; they differ in the candidates of a dipole (its three components, or its polarization vectors), so the loop is written once, for a
configuration `Cfg` that says what a candidate contributes.  `Gamma_complement` of the baseline, which has an entry for every component, is always written for the three components of a dipole together, and is modelled per dipole.  The
fields `kind` and `sgn` (`skjj_ind`/`x_vec` and `sk_sign_fac`/`x_sign`) exist only in the backtracking variants; here they are not read.
-/
namespace Simsopt.Magnets

/-- `std::min_element` on the first `n` entries: the index of the first smallest entry. -/
noncomputable def minElement (f : Nat → ℝ) : Nat → Nat
  | 0 => 0
  | n + 1 => open Classical in if n ≠ 0 ∧ f n < f (minElement f n) then n else minElement f n

/-- What the candidates are. -/
structure Cfg where
  /-- number of dipoles -/
  N : Nat
  /-- number of candidates (up to sign) of a dipole -/
  P : Nat
  /-- number of grid points -/
  G : Nat
  /-- contribution of candidate `m` of dipole `j` at grid point `i` -/
  fld : Nat → Nat → Nat → ℝ
  /-- component `l` of the moment of candidate `m` of dipole `j` -/
  mom : Nat → Nat → Nat → ℝ
  /-- is component `l` of `x` written when candidate `m` is placed? -/
  touch : Nat → Nat → Bool
  /-- the penalty added to the squared residual -/
  pen : Nat → Nat → ℝ
  /-- is candidate `m` tried at all? -/
  visit : Nat → Bool
  b : Nat → ℝ

/-- The arrays of the loop: `x`, `Gamma_complement`, `R2s`, `Aij_mj_sum`, and `skjj_ind`/`x_vec`, `sk_sign_fac`/`x_sign`. -/
structure Gst where
  x : Nat → Nat → ℝ
  free : Nat → Bool
  R2s : Nat → ℝ
  r : Nat → ℝ
  kind : Nat → Nat
  sgn : Nat → ℝ

/-- L1244-1270, L1141-1173. -/
noncomputable def Cfg.init (c : Cfg) : Gst := ⟨fun _ _ => 0, fun _ => true, fun _ => 1e50, fun i => -c.b i, fun _ => 0, fun _ => 0⟩

/-- `R2` (sign `1`) and `R2minus` (sign `-1`) with the penalty (L1287-1295, L1189-1204). -/
def Cfg.value (c : Cfg) (r : Nat → ℝ) (j m : Nat) (sign : ℝ) : ℝ :=
  (∑ i ∈ Finset.range c.G, (r i + sign * c.fld j m i) * (r i + sign * c.fld j m i)) + c.pen j m

/-- Writing the values of all the available candidates into `R2s` (L1281-1297, L1178-1207). -/
noncomputable def Cfg.sweepWith (c : Cfg) (val : Nat → Nat → ℝ → ℝ) (s : Gst) : Gst :=
  { s with R2s := fun idx =>
      let q := if idx < c.N * c.P then idx else idx - c.N * c.P
      let sign : ℝ := if idx < c.N * c.P then 1 else -1
      if idx < 2 * (c.N * c.P) ∧ s.free (q / c.P) = true ∧ c.visit (q % c.P) = true then val (q / c.P) (q % c.P) sign else s.R2s idx }

/-- The loop over all the available candidates (L1281-1297, L1178-1207). -/
noncomputable def Cfg.sweep (c : Cfg) (s : Gst) : Gst := c.sweepWith (c.value s.r) s

/-- Dipole, candidate and sign of the smallest entry (L1300-1309, L1210-1219). -/
noncomputable def Cfg.choice (c : Cfg) (s : Gst) : Nat × Nat × ℝ :=
  let idx := minElement s.R2s (2 * (c.N * c.P))
  if idx ≥ c.N * c.P then ((idx - c.N * c.P) / c.P, (idx - c.N * c.P) % c.P, -1) else (idx / c.P, idx % c.P, 1)

/-- Placing a magnet (L1310-1324, L1221-1236; sign and candidate are stored in the backtracking variants, L454-469). -/
noncomputable def Cfg.place (c : Cfg) (s : Gst) (j m : Nat) (sign : ℝ) : Gst :=
  ⟨fun j' l => if j' = j ∧ c.touch m l = true then sign * c.mom j m l else s.x j' l,
   fun j' => if j' = j then false else s.free j',
   fun idx => if ∃ m' < c.P, idx = j * c.P + m' ∨ idx = c.N * c.P + (j * c.P + m') then 1e50 else s.R2s idx,
   fun i => s.r i + sign * c.fld j m i,
   fun j' => if j' = j then m else s.kind j',
   fun j' => if j' = j then sign else s.sgn j'⟩

/-- One iteration (L1279-1328, L1176-1236). -/
noncomputable def Cfg.iter (c : Cfg) (s : Gst) : Gst :=
  let s := c.sweep s
  let p := c.choice s
  c.place s p.1 p.2.1 p.2.2

/-- The state after `k` iterations. -/
noncomputable def Cfg.run (c : Cfg) (k : Nat) : Gst := c.iter^[k] c.init

/-- `GPMO_baseline`: the candidates of a dipole are its three components; with `single_direction >= 0` only that component is tried (the loop starts there and advances by 3, L1275-1281). -/
def baseline (N G : Nat) (A : Nat → Nat → ℝ) (b mmax : Nat → ℝ) (single : Option Nat) : Cfg :=
  ⟨N, 3, G, fun j m i => A (3 * j + m) i, fun _ m l => if l = m then 1 else 0, fun m l => l == m, fun j m => mmax (3 * j + m) * mmax (3 * j + m),
   fun m => match single with | none => true | some d => m == d, b⟩

/-- `GPMO_ArbVec`: the candidates of dipole `j` are the `P` vectors `pol j m` (L1189-1204, L1222-1230); the penalty is read at index `j` (L1201). -/
def arbVec (N P G : Nat) (A : Nat → Nat → ℝ) (b mmax : Nat → ℝ) (pol : Nat → Nat → Nat → ℝ) : Cfg :=
  ⟨N, P, G, fun j m i => ∑ l ∈ Finset.range 3, pol j m l * A (3 * j + l) i, pol, fun _ _ => true, fun j _ => mmax j * mmax j, fun _ => true, b⟩

/-! ### Indices -/

theorem minElement_spec (f : Nat → ℝ) (n : Nat) (hn : 0 < n) : minElement f n < n ∧ ∀ i < n, f (minElement f n) ≤ f i := by
  induction n with
  | zero => omega
  | succ n ih =>
    simp only [minElement]
    rcases Nat.eq_zero_or_pos n with rfl | h
    · simp [minElement]
    · obtain ⟨h1, h2⟩ := ih h
      split
      · rename_i hc
        refine ⟨by omega, fun i hi => ?_⟩
        rcases Nat.lt_succ_iff_lt_or_eq.mp hi with h3 | h3
        · exact hc.2.le.trans (h2 i h3)
        · rw [h3]
      · rename_i hc
        push Not at hc
        refine ⟨by omega, fun i hi => ?_⟩
        rcases Nat.lt_succ_iff_lt_or_eq.mp hi with h3 | h3
        · exact h2 i h3
        · rw [h3]; exact hc (by omega)

theorem flat_lt {N P j m : Nat} (hj : j < N) (hm : m < P) : j * P + m < N * P := by
  calc j * P + m < j * P + P := by omega
    _ = (j + 1) * P := by ring
    _ ≤ N * P := Nat.mul_le_mul_right _ hj

theorem flat_div {P j m : Nat} (hm : m < P) : (j * P + m) / P = j ∧ (j * P + m) % P = m := by
  constructor
  · rw [Nat.mul_comm, Nat.mul_add_div (by omega), Nat.div_eq_of_lt hm]; rfl
  · rw [Nat.mul_comm, Nat.mul_add_mod, Nat.mod_eq_of_lt hm]

/-- The entry of a candidate after the sweep. -/
theorem sweep_entry (c : Cfg) (val : Nat → Nat → ℝ → ℝ) (s : Gst) (j m : Nat) (hj : j < c.N) (hm : m < c.P) (hf : s.free j = true) (hv : c.visit m = true) :
    (c.sweepWith val s).R2s (j * c.P + m) = val j m 1 ∧ (c.sweepWith val s).R2s (c.N * c.P + (j * c.P + m)) = val j m (-1) := by
  have h1 := flat_lt hj hm
  obtain ⟨h2, h3⟩ := flat_div (P := c.P) (j := j) hm
  constructor
  · simp only [Cfg.sweepWith, if_pos h1, h2, h3]
    rw [if_pos ⟨by omega, hf, hv⟩]
  · have h4 : ¬ (c.N * c.P + (j * c.P + m) < c.N * c.P) := by omega
    simp only [Cfg.sweepWith, if_neg h4, Nat.add_sub_cancel_left, h2, h3]
    rw [if_pos ⟨by omega, hf, hv⟩]

/-- Entries that cannot be chosen: dipoles that are taken and candidates that are not tried. -/
def Cfg.Blocked (c : Cfg) (s : Gst) : Prop := ∀ j < c.N, ∀ m < c.P, (s.free j = false ∨ c.visit m = false) → s.R2s (j * c.P + m) = 1e50 ∧ s.R2s (c.N * c.P + (j * c.P + m)) = 1e50

theorem sweep_blocked (c : Cfg) (val : Nat → Nat → ℝ → ℝ) (s : Gst) (h : c.Blocked s) : c.Blocked (c.sweepWith val s) := by
  intro j hj m hm hb
  have h1 := flat_lt hj hm
  obtain ⟨h2, h3⟩ := flat_div (P := c.P) (j := j) hm
  have hn : ¬ (s.free j = true ∧ c.visit m = true) := by
    rintro ⟨ha, hb'⟩
    rcases hb with hb | hb
    · exact absurd (hb.symm.trans ha) (by decide)
    · rw [hb'] at hb; exact absurd hb (by decide)
  obtain ⟨e1, e2⟩ := h j hj m hm hb
  constructor
  · simp only [Cfg.sweepWith, if_pos h1, h2, h3]
    rw [if_neg (fun h => hn h.2)]; exact e1
  · have h4 : ¬ (c.N * c.P + (j * c.P + m) < c.N * c.P) := by omega
    simp only [Cfg.sweepWith, if_neg h4, Nat.add_sub_cancel_left, h2, h3]
    rw [if_neg (fun h => hn h.2)]; exact e2

/-- The choice is an available candidate with the smallest value, if some available candidate has a value below `1e50`. -/
theorem choice_spec (c : Cfg) (val : Nat → Nat → ℝ → ℝ) (s : Gst) (hb : c.Blocked s) (hbig : ∃ j < c.N, ∃ m < c.P, s.free j = true ∧ c.visit m = true ∧ val j m 1 < 1e50) :
    let p := c.choice (c.sweepWith val s)
    p.1 < c.N ∧ p.2.1 < c.P ∧ s.free p.1 = true ∧ c.visit p.2.1 = true ∧ (p.2.2 = 1 ∨ p.2.2 = -1) ∧
    ∀ j < c.N, ∀ m < c.P, s.free j = true → c.visit m = true → ∀ sign : ℝ, sign = 1 ∨ sign = -1 → val p.1 p.2.1 p.2.2 ≤ val j m sign := by
  obtain ⟨j0, hj0, m0, hm0, hf0, hv0, hlt⟩ := hbig
  have hP : 0 < c.P := by omega
  have hpos : 0 < 2 * (c.N * c.P) := by have := Nat.mul_pos (show 0 < c.N by omega) hP; omega
  obtain ⟨h1, h2⟩ := minElement_spec (c.sweepWith val s).R2s (2 * (c.N * c.P)) hpos
  set idx := minElement (c.sweepWith val s).R2s (2 * (c.N * c.P)) with hidx
  have hsb := sweep_blocked c val s hb
  have hle : (c.sweepWith val s).R2s idx ≤ val j0 m0 1 := by
    rw [← (sweep_entry c val s j0 m0 hj0 hm0 hf0 hv0).1]
    exact h2 _ (by have := flat_lt hj0 hm0; omega)
  have hmin : ∀ j < c.N, ∀ m < c.P, s.free j = true → c.visit m = true → ∀ sign : ℝ, sign = 1 ∨ sign = -1 → (c.sweepWith val s).R2s idx ≤ val j m sign := by
    intro j hj m hm hf hv sign hs
    have := flat_lt hj hm
    rcases hs with rfl | rfl
    · rw [← (sweep_entry c val s j m hj hm hf hv).1]; exact h2 _ (by omega)
    · rw [← (sweep_entry c val s j m hj hm hf hv).2]; exact h2 _ (by omega)
  have key : ∀ q, q < c.N * c.P → ∀ sign : ℝ, (sign = 1 ∧ idx = q) ∨ (sign = -1 ∧ idx = c.N * c.P + q) →
      q / c.P < c.N ∧ q % c.P < c.P ∧ s.free (q / c.P) = true ∧ c.visit (q % c.P) = true ∧ (c.sweepWith val s).R2s idx = val (q / c.P) (q % c.P) sign := by
    intro q hq sign hs
    have hj : q / c.P < c.N := Nat.div_lt_of_lt_mul (by rw [Nat.mul_comm]; exact hq)
    have hm : q % c.P < c.P := Nat.mod_lt _ hP
    have hqe : q / c.P * c.P + q % c.P = q := Nat.div_add_mod' q c.P
    by_cases hav : s.free (q / c.P) = true ∧ c.visit (q % c.P) = true
    · have := sweep_entry c val s _ _ hj hm hav.1 hav.2
      rw [hqe] at this
      refine ⟨hj, hm, hav.1, hav.2, ?_⟩
      rcases hs with ⟨rfl, h⟩ | ⟨rfl, h⟩
      · rw [h]; exact this.1
      · rw [h]; exact this.2
    · exfalso
      have hb' : s.free (q / c.P) = false ∨ c.visit (q % c.P) = false := by
        by_contra hcon
        push Not at hcon
        exact hav ⟨by simpa using hcon.1, by simpa using hcon.2⟩
      have := hsb _ hj _ hm hb'
      rw [hqe] at this
      rcases hs with ⟨_, h⟩ | ⟨_, h⟩
      · rw [h, this.1] at hle; linarith
      · rw [h, this.2] at hle; linarith
  simp only [Cfg.choice]
  rw [← hidx]
  by_cases hge : idx ≥ c.N * c.P
  · rw [if_pos hge]
    obtain ⟨k1, k2, k3, k4, k5⟩ := key (idx - c.N * c.P) (by omega) (-1) (Or.inr ⟨rfl, by omega⟩)
    refine ⟨k1, k2, k3, k4, Or.inr rfl, fun j hj m hm hf hv sign hs => ?_⟩
    simp only
    rw [← k5]; exact hmin j hj m hm hf hv sign hs
  · rw [if_neg hge]
    obtain ⟨k1, k2, k3, k4, k5⟩ := key idx (by omega) 1 (Or.inl ⟨rfl, rfl⟩)
    refine ⟨k1, k2, k3, k4, Or.inl rfl, fun j hj m hm hf hv sign hs => ?_⟩
    simp only
    rw [← k5]; exact hmin j hj m hm hf hv sign hs

/-! ### The invariant -/

/-- What the configuration must satisfy: the field of a candidate is that of its moment, and writing the touched components of an empty dipole gives the moment. -/
structure Cfg.Ok (c : Cfg) (A : Nat → Nat → ℝ) : Prop where
  fld : ∀ j, ∀ m < c.P, ∀ i, c.fld j m i = ∑ l ∈ Finset.range 3, c.mom j m l * A (3 * j + l) i
  touch : ∀ j m l, c.touch m l = false → c.mom j m l = 0

/-- Invariant of the loop. -/
structure Cfg.Inv (c : Cfg) (s : Gst) : Prop where
  blocked : c.Blocked s
  empty : ∀ j, s.free j = true → (∀ l, s.x j l = 0) ∧ s.sgn j = 0
  full : ∀ j, s.free j = false → j < c.N ∧ s.kind j < c.P ∧ c.visit (s.kind j) = true ∧ (s.sgn j = 1 ∨ s.sgn j = -1) ∧ ∀ l, s.x j l = s.sgn j * c.mom j (s.kind j) l
  resid : ∀ i, s.r i = (∑ j ∈ Finset.range c.N, s.sgn j * c.fld j (s.kind j) i) - c.b i

theorem init_inv (c : Cfg) : c.Inv c.init := by
  refine ⟨fun j _ m _ _ => ⟨rfl, rfl⟩, fun j _ => ⟨fun _ => rfl, rfl⟩, fun j h => by simp [Cfg.init] at h, fun i => ?_⟩
  simp [Cfg.init]

theorem sweep_inv (c : Cfg) (s : Gst) (h : c.Inv s) : c.Inv (c.sweep s) := ⟨sweep_blocked c _ s h.blocked, h.empty, h.full, h.resid⟩

theorem place_inv (c : Cfg) (A : Nat → Nat → ℝ) (hc : c.Ok A) (s : Gst) (h : c.Inv s) (j m : Nat) (sign : ℝ) (hj : j < c.N) (hm : m < c.P) (hf : s.free j = true) (hv : c.visit m = true) (hs : sign = 1 ∨ sign = -1) :
    c.Inv (c.place s j m sign) := by
  refine ⟨?_, ?_, ?_, ?_⟩
  · intro j' hj' m' hm' hb
    simp only [Cfg.place]
    by_cases hjj : j' = j
    · subst hjj
      exact ⟨if_pos ⟨m', hm', Or.inl rfl⟩, if_pos ⟨m', hm', Or.inr rfl⟩⟩
    · have hb' : s.free j' = false ∨ c.visit m' = false := by simpa [Cfg.place, hjj] using hb
      obtain ⟨e1, e2⟩ := h.blocked j' hj' m' hm' hb'
      constructor
      · split
        · rfl
        · exact e1
      · split
        · rfl
        · exact e2
  · intro j' hj'
    simp only [Cfg.place] at hj' ⊢
    by_cases hjj : j' = j
    · simp [hjj] at hj'
    · rw [if_neg hjj] at hj'
      obtain ⟨e1, e2⟩ := h.empty j' hj'
      simp [hjj, e1, e2]
  · intro j' hj'
    simp only [Cfg.place] at hj' ⊢
    by_cases hjj : j' = j
    · subst hjj
      simp only [true_and, if_true]
      refine ⟨hj, hm, hv, hs, fun l => ?_⟩
      split
      · rfl
      · rename_i ht
        rw [hc.touch j' m l (by simpa using ht), mul_zero]
        exact (h.empty j' hf).1 l
    · rw [if_neg hjj] at hj'
      simpa [hjj] using h.full j' hj'
  · intro i
    simp only [Cfg.place]
    have hsg := (h.empty j hf).2
    have e : ∀ j' ∈ Finset.range c.N, (if j' = j then sign else s.sgn j') * c.fld j' (if j' = j then m else s.kind j') i = s.sgn j' * c.fld j' (s.kind j') i + (if j' = j then sign * c.fld j m i else 0) := by
      intro j' _
      by_cases hjj : j' = j
      · subst hjj; simp [hsg]
      · simp [hjj]
    rw [Finset.sum_congr rfl e, Finset.sum_add_distrib, Finset.sum_ite_eq' (Finset.range c.N) j, if_pos (Finset.mem_range.mpr hj), h.resid i]
    ring

/-- The residual in terms of the returned moments. -/
theorem resid_x (c : Cfg) (A : Nat → Nat → ℝ) (hc : c.Ok A) (s : Gst) (h : c.Inv s) (i : Nat) :
    s.r i = (∑ j ∈ Finset.range c.N, ∑ l ∈ Finset.range 3, A (3 * j + l) i * s.x j l) - c.b i := by
  rw [h.resid]
  congr 1
  refine Finset.sum_congr rfl fun j _ => ?_
  cases hf : s.free j with
  | true =>
    obtain ⟨e1, e2⟩ := h.empty j hf
    simp [e1, e2]
  | false =>
    obtain ⟨_, hk, _, _, e⟩ := h.full j hf
    rw [hc.fld j _ hk, Finset.mul_sum]
    exact Finset.sum_congr rfl fun l _ => by rw [e]; ring

/-- All the values that can come up are below the `1e50` with which `R2s` marks candidates that must not be chosen. -/
def Cfg.Small (c : Cfg) : Prop :=
  ∀ j < c.N, ∀ m < c.P, (∑ i ∈ Finset.range c.G, (|c.b i| + ∑ j' ∈ Finset.range c.N, ∑ m' ∈ Finset.range c.P, |c.fld j' m' i|) ^ 2) + c.pen j m < 1e50

theorem resid_bound (c : Cfg) (s : Gst) (h : c.Inv s) (j m : Nat) (hj : j < c.N) (hm : m < c.P) (hf : s.free j = true) (sign : ℝ) (hs : sign = 1 ∨ sign = -1) (i : Nat) :
    |s.r i + sign * c.fld j m i| ≤ |c.b i| + ∑ j' ∈ Finset.range c.N, ∑ m' ∈ Finset.range c.P, |c.fld j' m' i| := by
  have hone : ∀ t : ℝ, |sign * t| = |t| := by intro t; rcases hs with rfl | rfl <;> simp
  rw [h.resid i]
  have hsg := (h.empty j hf).2
  have key : |(∑ j' ∈ Finset.range c.N, s.sgn j' * c.fld j' (s.kind j') i) + sign * c.fld j m i| ≤ ∑ j' ∈ Finset.range c.N, ∑ m' ∈ Finset.range c.P, |c.fld j' m' i| := by
    have e : (∑ j' ∈ Finset.range c.N, s.sgn j' * c.fld j' (s.kind j') i) + sign * c.fld j m i =
        ∑ j' ∈ Finset.range c.N, (s.sgn j' * c.fld j' (s.kind j') i + if j' = j then sign * c.fld j m i else 0) := by
      rw [Finset.sum_add_distrib, Finset.sum_ite_eq' (Finset.range c.N) j, if_pos (Finset.mem_range.mpr hj)]
    rw [e]
    refine (Finset.abs_sum_le_sum_abs _ _).trans (Finset.sum_le_sum fun j' _ => ?_)
    have single : ∀ m' < c.P, |c.fld j' m' i| ≤ ∑ m' ∈ Finset.range c.P, |c.fld j' m' i| := fun m' hm' =>
      Finset.single_le_sum (f := fun m' => |c.fld j' m' i|) (fun _ _ => abs_nonneg _) (Finset.mem_range.mpr hm')
    by_cases hjj : j' = j
    · subst hjj
      rw [hsg, zero_mul, zero_add, if_pos rfl, hone]
      exact single m hm
    · rw [if_neg hjj, add_zero]
      cases hf' : s.free j' with
      | true =>
        rw [(h.empty j' hf').2, zero_mul, abs_zero]
        exact Finset.sum_nonneg fun _ _ => abs_nonneg _
      | false =>
        obtain ⟨_, hk, _, hsg', _⟩ := h.full j' hf'
        have : |s.sgn j' * c.fld j' (s.kind j') i| = |c.fld j' (s.kind j') i| := by rcases hsg' with h | h <;> rw [h] <;> simp
        rw [this]; exact single _ hk
  calc |(∑ j' ∈ Finset.range c.N, s.sgn j' * c.fld j' (s.kind j') i) - c.b i + sign * c.fld j m i|
      = |((∑ j' ∈ Finset.range c.N, s.sgn j' * c.fld j' (s.kind j') i) + sign * c.fld j m i) + -c.b i| := by congr 1; ring
    _ ≤ |(∑ j' ∈ Finset.range c.N, s.sgn j' * c.fld j' (s.kind j') i) + sign * c.fld j m i| + |-c.b i| := abs_add_le _ _
    _ ≤ _ := by rw [abs_neg]; linarith

theorem value_small (c : Cfg) (hsm : c.Small) (s : Gst) (h : c.Inv s) (j m : Nat) (hj : j < c.N) (hm : m < c.P) (hf : s.free j = true) (sign : ℝ) (hs : sign = 1 ∨ sign = -1) :
    c.value s.r j m sign < 1e50 := by
  refine lt_of_le_of_lt ?_ (hsm j hj m hm)
  simp only [Cfg.value]
  have : ∑ i ∈ Finset.range c.G, (s.r i + sign * c.fld j m i) * (s.r i + sign * c.fld j m i) ≤
      ∑ i ∈ Finset.range c.G, (|c.b i| + ∑ j' ∈ Finset.range c.N, ∑ m' ∈ Finset.range c.P, |c.fld j' m' i|) ^ 2 := by
    refine Finset.sum_le_sum fun i _ => ?_
    have hb := resid_bound c s h j m hj hm hf sign hs i
    rw [← sq, ← sq_abs]
    exact pow_le_pow_left₀ (abs_nonneg _) hb 2
  linarith

/-- The number of magnets placed. -/
def Gst.count (s : Gst) (N : Nat) : Nat := ((Finset.range N).filter fun j => s.free j = false).card

theorem count_place (c : Cfg) (s : Gst) (j m : Nat) (sign : ℝ) (hj : j < c.N) (hf : s.free j = true) : (c.place s j m sign).count c.N = s.count c.N + 1 := by
  have e : (Finset.range c.N).filter (fun j' => (c.place s j m sign).free j' = false) = insert j ((Finset.range c.N).filter fun j' => s.free j' = false) := by
    ext j'
    simp only [Finset.mem_filter, Finset.mem_range, Finset.mem_insert, Cfg.place]
    by_cases hjj : j' = j
    · subst hjj; simp [hj]
    · simp [hjj]
  rw [Gst.count, e, Finset.card_insert_of_notMem]
  · rfl
  · simp [hf]

theorem exists_free (c : Cfg) (s : Gst) (hk : s.count c.N < c.N) : ∃ j < c.N, s.free j = true := by
  by_contra hcon
  push Not at hcon
  have : (Finset.range c.N).filter (fun j' => s.free j' = false) = Finset.range c.N := by
    apply Finset.filter_true_of_mem
    intro j hj
    simpa using hcon j (Finset.mem_range.mp hj)
  rw [Gst.count, this, Finset.card_range] at hk
  omega

/-- What one iteration does. -/
theorem iter_spec (c : Cfg) (A : Nat → Nat → ℝ) (hc : c.Ok A) (hsm : c.Small) (hvis : ∃ m < c.P, c.visit m = true) (s : Gst) (h : c.Inv s) (hk : s.count c.N < c.N) :
    c.Inv (c.iter s) ∧ (c.iter s).count c.N = s.count c.N + 1 ∧
    ∃ j < c.N, ∃ m < c.P, ∃ sign : ℝ, (sign = 1 ∨ sign = -1) ∧ s.free j = true ∧ c.visit m = true ∧ c.iter s = c.place (c.sweep s) j m sign ∧
      ∀ j' < c.N, ∀ m' < c.P, s.free j' = true → c.visit m' = true → ∀ sign' : ℝ, sign' = 1 ∨ sign' = -1 → c.value s.r j m sign ≤ c.value s.r j' m' sign' := by
  obtain ⟨j0, hj0, hf0⟩ := exists_free c s hk
  obtain ⟨m0, hm0, hv0⟩ := hvis
  obtain ⟨h1, h2, h3, h4, h5, h6⟩ := choice_spec c (c.value s.r) s h.blocked ⟨j0, hj0, m0, hm0, hf0, hv0, value_small c hsm s h j0 m0 hj0 hm0 hf0 1 (Or.inl rfl)⟩
  refine ⟨place_inv c A hc _ (sweep_inv c s h) _ _ _ h1 h2 h3 h4 h5, ?_, _, h1, _, h2, _, h5, h3, h4, rfl, h6⟩
  exact count_place c (c.sweep s) _ _ _ h1 h3

theorem run_inv (c : Cfg) (A : Nat → Nat → ℝ) (hc : c.Ok A) (hsm : c.Small) (hvis : ∃ m < c.P, c.visit m = true) (k : Nat) (hk : k ≤ c.N) : c.Inv (c.run k) ∧ (c.run k).count c.N = k := by
  induction k with
  | zero =>
    refine ⟨init_inv c, ?_⟩
    simp [Cfg.run, Gst.count, Cfg.init]
  | succ k ih =>
    obtain ⟨h1, h2⟩ := ih (by omega)
    rw [Cfg.run, Function.iterate_succ_apply']
    have := iter_spec c A hc hsm hvis (c.run k) h1 (by omega)
    exact ⟨this.1, this.2.1.trans (by rw [h2])⟩

theorem baseline_ok (N G : Nat) (A : Nat → Nat → ℝ) (b mmax : Nat → ℝ) (single : Option Nat) : (baseline N G A b mmax single).Ok A := by
  refine ⟨fun j m hm i => ?_, fun j m l h => ?_⟩
  · have hm' : m < 3 := hm
    simp only [baseline, ite_mul, one_mul, zero_mul]
    rw [Finset.sum_ite_eq' (Finset.range 3) m, if_pos (Finset.mem_range.mpr hm')]
  · simp only [baseline, beq_eq_false_iff_ne] at h ⊢
    rw [if_neg h]

theorem arbVec_ok (N P G : Nat) (A : Nat → Nat → ℝ) (b mmax : Nat → ℝ) (pol : Nat → Nat → Nat → ℝ) : (arbVec N P G A b mmax pol).Ok A :=
  ⟨fun _ _ _ _ => rfl, fun _ _ _ h => by simp [arbVec] at h⟩

/-! ### Specification -/

/-- `|A x - b|^2` for the moments `x` (dipole, component). -/
noncomputable def misfit (N G : Nat) (A : Nat → Nat → ℝ) (b : Nat → ℝ) (x : Nat → Nat → ℝ) : ℝ :=
  ∑ i ∈ Finset.range G, ((∑ j ∈ Finset.range N, ∑ l ∈ Finset.range 3, A (3 * j + l) i * x j l) - b i) ^ 2

/-- `x` with one component replaced. -/
def put (x : Nat → Nat → ℝ) (j l : Nat) (v : ℝ) : Nat → Nat → ℝ := fun j' l' => if j' = j ∧ l' = l then v else x j' l'

/-- `x` with the moment of one dipole replaced. -/
def putVec (x : Nat → Nat → ℝ) (j : Nat) (v : Nat → ℝ) : Nat → Nat → ℝ := fun j' l' => if j' = j then v l' else x j' l'

/-- The value of a candidate is the misfit after placing it, plus the penalty. -/
theorem value_misfit (c : Cfg) (A : Nat → Nat → ℝ) (hc : c.Ok A) (s : Gst) (h : c.Inv s) (j m : Nat) (sign : ℝ) (hj : j < c.N) (hm : m < c.P) (hf : s.free j = true) (hv : c.visit m = true) (hs : sign = 1 ∨ sign = -1) :
    c.value s.r j m sign = misfit c.N c.G A c.b (c.place s j m sign).x + c.pen j m := by
  have hi := place_inv c A hc s h j m sign hj hm hf hv hs
  simp only [Cfg.value, misfit]
  congr 1
  refine Finset.sum_congr rfl fun i _ => ?_
  rw [← resid_x c A hc _ hi i, sq]
  rfl

theorem baseline_mom (N G : Nat) (A : Nat → Nat → ℝ) (b mmax : Nat → ℝ) (single : Option Nat) (j m l : Nat) : (baseline N G A b mmax single).mom j m l = if l = m then 1 else 0 := rfl

theorem baseline_visit (N G : Nat) (A : Nat → Nat → ℝ) (b mmax : Nat → ℝ) (single : Option Nat) (m : Nat) : (baseline N G A b mmax single).visit m = true ↔ ∀ d, single = some d → m = d := by
  cases single with
  | none => simp [baseline]
  | some d => simp [baseline]

/-! ### Theorems -/

open Classical in
/-- **C78.** GPMO_baseline, for every problem whose values stay below the marker `1e50` and every number `K` of iterations up to the number of dipoles: exactly `K` dipoles carry a magnet, each of them of full strength along one
axis (the requested one with `single_direction`), all the others are zero, and the running residual is `A x - b` (so the recorded objective is `|A x - b|^2/2`). -/
theorem C78_baseline (N G : Nat) (A : Nat → Nat → ℝ) (b mmax : Nat → ℝ) (single : Option Nat) (hd : ∀ d, single = some d → d < 3) (hsm : (baseline N G A b mmax single).Small) (K : Nat) (hK : K ≤ N) :
    let s := (baseline N G A b mmax single).run K
    ((Finset.range N).filter fun j => ∃ l < 3, s.x j l ≠ 0).card = K ∧
    (∀ j, (∀ l, s.x j l = 0) ∨ ∃ l < 3, (∀ d, single = some d → l = d) ∧ (s.x j l = 1 ∨ s.x j l = -1) ∧ ∀ l', l' ≠ l → s.x j l' = 0) ∧
    (∀ i, s.r i = (∑ j ∈ Finset.range N, ∑ l ∈ Finset.range 3, A (3 * j + l) i * s.x j l) - b i) := by
  intro s
  have hvis : ∃ m < (baseline N G A b mmax single).P, (baseline N G A b mmax single).visit m = true := by
    cases single with
    | none => exact ⟨0, by simp [baseline], rfl⟩
    | some d => exact ⟨d, hd d rfl, by simp [baseline]⟩
  obtain ⟨hinv, hcnt⟩ := run_inv _ A (baseline_ok N G A b mmax single) hsm hvis K hK
  have hfull : ∀ j, s.free j = false → ∃ l < 3, (∀ d, single = some d → l = d) ∧ (s.x j l = 1 ∨ s.x j l = -1) ∧ ∀ l', l' ≠ l → s.x j l' = 0 := by
    intro j hj
    obtain ⟨_, h2, h3, h4, h5⟩ := hinv.full j hj
    refine ⟨s.kind j, h2, ?_, ?_, fun l' hl' => ?_⟩
    · exact (baseline_visit N G A b mmax single _).mp h3
    · rw [h5, baseline_mom, if_pos rfl, mul_one]; exact h4
    · rw [h5, baseline_mom, if_neg hl', mul_zero]
  refine ⟨?_, fun j => ?_, resid_x _ A (baseline_ok N G A b mmax single) _ hinv⟩
  · rw [← hcnt, Gst.count]
    congr 1
    ext j
    simp only [Finset.mem_filter]
    apply and_congr_right
    intro _
    cases hf : s.free j with
    | true =>
      have := (hinv.empty j hf).1
      constructor
      · rintro ⟨l, _, hl⟩; exact absurd (this l) hl
      · intro h; exact absurd h (by decide)
    | false =>
      obtain ⟨l, hl, _, hx, _⟩ := hfull j hf
      simp only [iff_true]
      refine ⟨l, hl, ?_⟩
      rcases hx with h | h <;> rw [h] <;> norm_num
  · cases hf : s.free j with
    | true => exact Or.inl (hinv.empty j hf).1
    | false => exact Or.inr (hfull j hf)

/-- **C78.** GPMO_baseline is greedy: iteration `k` (of at most as many as there are dipoles) puts `±1` in an allowed component of a so far empty dipole and changes nothing else, and no other allowed component and sign of an empty
dipole gives a smaller `|A x - b|^2 + mmax^2`. -/
theorem C78_baseline_greedy (N G : Nat) (A : Nat → Nat → ℝ) (b mmax : Nat → ℝ) (single : Option Nat) (hd : ∀ d, single = some d → d < 3) (hsm : (baseline N G A b mmax single).Small) (k : Nat) (hk : k < N) :
    let x := ((baseline N G A b mmax single).run k).x
    ∃ j < N, ∃ l < 3, ∃ v : ℝ, (v = 1 ∨ v = -1) ∧ (∀ d, single = some d → l = d) ∧ (∀ l', x j l' = 0) ∧ ((baseline N G A b mmax single).run (k + 1)).x = put x j l v ∧
      ∀ j' < N, ∀ l' < 3, (∀ d, single = some d → l' = d) → (∀ l, x j' l = 0) → ∀ v' : ℝ, v' = 1 ∨ v' = -1 →
        misfit N G A b (put x j l v) + mmax (3 * j + l) * mmax (3 * j + l) ≤ misfit N G A b (put x j' l' v') + mmax (3 * j' + l') * mmax (3 * j' + l') := by
  intro x
  have hvis : ∃ m < (baseline N G A b mmax single).P, (baseline N G A b mmax single).visit m = true := by
    cases single with
    | none => exact ⟨0, by simp [baseline], rfl⟩
    | some d => exact ⟨d, hd d rfl, by simp [baseline]⟩
  have hok := baseline_ok N G A b mmax single
  obtain ⟨hinv, hcnt⟩ := run_inv _ A hok hsm hvis k hk.le
  obtain ⟨_, _, j, hj, m, hm, sign, hs, hf, hv, he, hmin⟩ := iter_spec _ A hok hsm hvis _ hinv (by rw [hcnt]; exact hk)
  have hvisit := baseline_visit N G A b mmax single
  have hput : ∀ j m sign, ((baseline N G A b mmax single).place ((baseline N G A b mmax single).run k) j m sign).x = put x j m sign := by
    intro j m sign
    funext j' l'
    simp only [Cfg.place, put, baseline, beq_iff_eq]
    split
    · rename_i hc; rw [if_pos hc.2, mul_one]
    · rfl
  refine ⟨j, hj, m, hm, sign, hs, (hvisit m).mp hv, (hinv.empty j hf).1, ?_, fun j' hj' m' hm' hd' hx' v' hv' => ?_⟩
  · rw [Cfg.run, Function.iterate_succ_apply', ← Cfg.run, he, ← hput]
    rfl
  · have hf' : ((baseline N G A b mmax single).run k).free j' = true := by
      by_contra hcon
      obtain ⟨_, h2, _, h4, h5⟩ := hinv.full j' (by simpa using hcon)
      have := hx' (((baseline N G A b mmax single).run k).kind j')
      rw [show x j' _ = _ from h5 _, baseline_mom, if_pos rfl, mul_one] at this
      rcases h4 with h | h <;> (rw [h] at this; norm_num at this)
    have h7 := hmin j' hj' m' hm' hf' ((hvisit m').mpr hd') v' hv'
    rw [value_misfit _ A hok _ hinv j m sign hj hm hf hv hs, value_misfit _ A hok _ hinv j' m' v' hj' hm' hf' ((hvisit m').mpr hd') hv', hput, hput] at h7
    exact h7

/-- **C78.** GPMO_ArbVec: after `K` iterations exactly `K` different dipoles have been given a magnet, each with one of its allowed polarization vectors or its negative, all the others are zero, and the running residual is `A x - b`. -/
theorem C78_arbvec (N P G : Nat) (A : Nat → Nat → ℝ) (b mmax : Nat → ℝ) (pol : Nat → Nat → Nat → ℝ) (hP : 0 < P) (hsm : (arbVec N P G A b mmax pol).Small) (K : Nat) (hK : K ≤ N) :
    let s := (arbVec N P G A b mmax pol).run K
    (∃ D : Finset Nat, D ⊆ Finset.range N ∧ D.card = K ∧ (∀ j ∈ D, ∃ m < P, ∃ v : ℝ, (v = 1 ∨ v = -1) ∧ ∀ l, s.x j l = v * pol j m l) ∧ ∀ j ∉ D, ∀ l, s.x j l = 0) ∧
    (∀ i, s.r i = (∑ j ∈ Finset.range N, ∑ l ∈ Finset.range 3, A (3 * j + l) i * s.x j l) - b i) := by
  intro s
  have hok := arbVec_ok N P G A b mmax pol
  obtain ⟨hinv, hcnt⟩ := run_inv _ A hok hsm ⟨0, hP, rfl⟩ K hK
  refine ⟨⟨(Finset.range N).filter fun j => s.free j = false, Finset.filter_subset _ _, hcnt, fun j hj => ?_, fun j hj => ?_⟩, resid_x _ A hok _ hinv⟩
  · obtain ⟨_, h2, _, h4, h5⟩ := hinv.full j (Finset.mem_filter.mp hj).2
    exact ⟨_, h2, _, h4, h5⟩
  · cases hf : s.free j with
    | true => exact (hinv.empty j hf).1
    | false => exact absurd (Finset.mem_filter.mpr ⟨Finset.mem_range.mpr (hinv.full j hf).1, hf⟩) hj

/-- **C78.** GPMO_ArbVec is greedy: with the set `D` of dipoles used so far, iteration `k` gives a dipole outside `D` one of its allowed vectors or its negative, and no other choice gives a smaller `|A x - b|^2` plus penalty. -/
theorem C78_arbvec_greedy (N P G : Nat) (A : Nat → Nat → ℝ) (b mmax : Nat → ℝ) (pol : Nat → Nat → Nat → ℝ) (hP : 0 < P) (hsm : (arbVec N P G A b mmax pol).Small) (k : Nat) (hk : k < N) :
    let x := ((arbVec N P G A b mmax pol).run k).x
    ∃ D : Finset Nat, D ⊆ Finset.range N ∧ D.card = k ∧ (∀ j ∉ D, ∀ l, x j l = 0) ∧
    ∃ j < N, j ∉ D ∧ ∃ m < P, ∃ v : ℝ, (v = 1 ∨ v = -1) ∧ ((arbVec N P G A b mmax pol).run (k + 1)).x = putVec x j (fun l => v * pol j m l) ∧
      ∀ j' < N, j' ∉ D → ∀ m' < P, ∀ v' : ℝ, v' = 1 ∨ v' = -1 →
        misfit N G A b (putVec x j fun l => v * pol j m l) + mmax j * mmax j ≤ misfit N G A b (putVec x j' fun l => v' * pol j' m' l) + mmax j' * mmax j' := by
  intro x
  have hok := arbVec_ok N P G A b mmax pol
  have hvis : ∃ m < (arbVec N P G A b mmax pol).P, (arbVec N P G A b mmax pol).visit m = true := ⟨0, hP, rfl⟩
  obtain ⟨hinv, hcnt⟩ := run_inv _ A hok hsm hvis k hk.le
  obtain ⟨_, _, j, hj, m, hm, sign, hs, hf, hv, he, hmin⟩ := iter_spec _ A hok hsm hvis _ hinv (by rw [hcnt]; exact hk)
  have hput : ∀ j m sign, ((arbVec N P G A b mmax pol).place ((arbVec N P G A b mmax pol).run k) j m sign).x = putVec x j fun l => sign * pol j m l := by
    intro j m sign
    funext j' l'
    simp only [Cfg.place, putVec, arbVec, and_true]
    rfl
  have hfree : ∀ j < N, j ∉ (Finset.range N).filter (fun j => ((arbVec N P G A b mmax pol).run k).free j = false) → ((arbVec N P G A b mmax pol).run k).free j = true := by
    intro j hj hn
    by_contra hcon
    exact hn (Finset.mem_filter.mpr ⟨Finset.mem_range.mpr hj, by simpa using hcon⟩)
  refine ⟨(Finset.range N).filter fun j => ((arbVec N P G A b mmax pol).run k).free j = false, Finset.filter_subset _ _, hcnt, fun j hj => ?_, j, hj, ?_, m, hm, sign, hs, ?_, fun j' hj' hn' m' hm' v' hv' => ?_⟩
  · cases hf : ((arbVec N P G A b mmax pol).run k).free j with
    | true => exact (hinv.empty j hf).1
    | false => exact absurd (Finset.mem_filter.mpr ⟨Finset.mem_range.mpr (hinv.full j hf).1, hf⟩) hj
  · simp [hf]
  · rw [Cfg.run, Function.iterate_succ_apply', ← Cfg.run, he, ← hput]
    rfl
  · have h7 := hmin j' hj' m' hm' (hfree j' hj' hn') rfl v' hv'
    rw [value_misfit _ A hok _ hinv j m sign hj hm hf hv hs, value_misfit _ A hok _ hinv j' m' v' hj' hm' (hfree j' hj' hn') rfl hv', hput, hput] at h7
    exact h7

theorem minElement_const (f : Nat → ℝ) (v : ℝ) (n : Nat) (h : ∀ i < n, f i = v) : minElement f n = 0 := by
  induction n with
  | zero => rfl
  | succ n ih =>
    have h1 := ih fun i hi => h i (by omega)
    simp only [minElement, h1]
    rw [if_neg]
    rintro ⟨_, hc⟩
    rw [h n (by omega), h 0 (by omega)] at hc
    exact lt_irrefl _ hc

/-- **C78, violated.** `mmax` has three entries per dipole, all equal to its strength (permanent_magnet_optimization.py L385, L413), but GPMO_ArbVec reads the penalty of dipole `j` at entry `j`, which belongs to dipole `j / 3`.  Two
dipoles of strengths 2 and 1 that do not contribute any field: the regularized objective is smaller with the weaker magnet, GPMO_ArbVec takes the stronger one. -/
theorem C78_arbvec_penalty_violated : ∃ (strength : Nat → ℝ), (∀ j, 0 < strength j) ∧
    let pol : Nat → Nat → Nat → ℝ := fun _ _ _ => 1
    let x := ((arbVec 2 1 1 (fun _ _ => 0) (fun _ => 0) (fun q => strength (q / 3)) pol).run 1).x
    (∀ l, x 0 l = 1) ∧ (∀ l, x 1 l = 0) ∧
    misfit 2 1 (fun _ _ => 0) (fun _ => 0) (putVec (fun _ _ => 0) 1 (pol 1 0)) + strength 1 * strength 1 < misfit 2 1 (fun _ _ => 0) (fun _ => 0) x + strength 0 * strength 0 := by
  refine ⟨fun j => if j = 0 then 2 else 1, fun j => by show (0:ℝ) < if j = 0 then 2 else 1; split <;> norm_num, ?_⟩
  set c := arbVec 2 1 1 (fun _ _ => 0) (fun _ => 0) (fun q => if q / 3 = 0 then (2 : ℝ) else 1) (fun _ _ _ => 1) with hc
  have hR : ∀ i < 4, (c.sweep c.init).R2s i = 4 := by
    intro i hi
    have hP : c.P = 1 := rfl
    have hN : c.N = 2 := rfl
    simp only [Cfg.sweep, Cfg.sweepWith, hP, hN]
    rw [if_pos ⟨by omega, rfl, rfl⟩]
    simp only [Nat.div_one]
    have hq : (if i < 2 * 1 then i else i - 2 * 1) / 3 = 0 := by split <;> omega
    simp only [Cfg.value, hc, arbVec, Cfg.init, hq]
    norm_num
  have hch : c.choice (c.sweep c.init) = (0, 0, 1) := by
    simp only [Cfg.choice]
    have : minElement (c.sweep c.init).R2s (2 * (c.N * c.P)) = 0 := minElement_const _ 4 _ hR
    rw [this]
    have hP : c.P = 1 := rfl
    have hN : c.N = 2 := rfl
    rw [hP, hN]
    norm_num
  have hx : (c.run 1).x = putVec (fun _ _ => 0) 0 fun _ => 1 := by
    rw [Cfg.run, Function.iterate_one, Cfg.iter]
    simp only [hch]
    funext j l
    simp only [Cfg.place, Cfg.sweep, Cfg.sweepWith, hc, arbVec, Cfg.init, putVec, and_true, mul_one]
  intro pol x
  have hx' : x = putVec (fun _ _ => 0) 0 fun _ => 1 := hx
  rw [hx']
  refine ⟨fun l => rfl, fun l => rfl, ?_⟩
  simp [misfit]
  norm_num

/-- The hypotheses are met by a problem with two dipoles and two grid points. -/
example : (baseline 2 2 (fun q i => if q = i then 1 else 0) (fun _ => 1) (fun _ => 0) none).Small := by
  intro j _ m _
  simp only [baseline]
  simp [Finset.sum_range_succ]
  norm_num

end Simsopt.Magnets
