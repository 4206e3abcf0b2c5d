import Verif.Garabedian.Model
import Verif.Surfaces.RZRes
import Mathlib.Analysis.SpecialFunctions.Trigonometric.Basic
import Mathlib.Analysis.SpecialFunctions.Complex.Log
import Mathlib.Tactic.NormNum
/-! # C141: SurfaceGarabedian -/
namespace Simsopt.Garab
open Simsopt Simsopt.RZSurf

/-! ### Specification -/

/-- The documented shape (L18-26): `R + i Z = e^{iu} Σ_{m=mmin}^{mmax} Σ_{n=nmin}^{nmax} Δ_{m,n} e^{-imu+inv}`. -/
noncomputable def shape (s : Gar) (Δ : Int → Int → ℝ) (u v : ℝ) : ℂ :=
  Complex.exp (Complex.I * u) * ∑ m ∈ Finset.Icc s.mmin s.mmax, ∑ n ∈ Finset.Icc s.nmin s.nmax,
    (Δ m n : ℂ) * Complex.exp (-Complex.I * m * u + Complex.I * n * v)

/-- The coefficient as `get_Delta` returns it. -/
noncomputable def coefD (s : Gar) (m n : Int) : ℝ := (getDelta s m n).getD 0

/-- The surfaces that contain the modes `(1,0)` and `(0,0)` and have one dof for each mode. -/
def Valid (s : Gar) : Prop := s.mmin ≤ 0 ∧ 1 ≤ s.mmax ∧ s.nmin ≤ 0 ∧ 0 ≤ s.nmax ∧ s.x.length = s.mdim * s.ndim

/-- `(m, n)` is one of the modes of the surface. -/
def Mode (s : Gar) (m n : Int) : Prop := s.mmin ≤ m ∧ m ≤ s.mmax ∧ s.nmin ≤ n ∧ n ≤ s.nmax

/-! ### Indices -/

/-- Flat position of a mode. -/
def flat (s : Gar) (m n : Int) : Nat := (m - s.mmin).toNat * s.ndim + (n - s.nmin).toNat

theorem npIx_in (n : Nat) (i : Int) (h0 : 0 ≤ i) (h1 : i < n) : npIx n i = some i.toNat := by
  simp [npIx, pyIndex, h0, h1, Except.toOption]

theorem flat_lt (s : Gar) (m n : Int) (h : Mode s m n) : flat s m n < s.mdim * s.ndim := by
  obtain ⟨h1, h2, h3, h4⟩ := h
  have hi : (m - s.mmin).toNat + 1 ≤ s.mdim := by simp only [Gar.mdim]; omega
  have hj : (n - s.nmin).toNat < s.ndim := by simp only [Gar.ndim]; omega
  have := Nat.mul_le_mul_right s.ndim hi
  simp only [flat]
  rw [Nat.add_mul] at this
  omega

theorem flat_inj (s : Gar) (m n m' n' : Int) (h : Mode s m n) (h' : Mode s m' n') (e : flat s m n = flat s m' n') : m = m' ∧ n = n' := by
  obtain ⟨h1, h2, h3, h4⟩ := h
  obtain ⟨k1, k2, k3, k4⟩ := h'
  have hj : (n - s.nmin).toNat < s.ndim := by simp only [Gar.ndim]; omega
  have hj' : (n' - s.nmin).toNat < s.ndim := by simp only [Gar.ndim]; omega
  have hw : 0 < s.ndim := by omega
  simp only [flat] at e
  have d1 := congrArg (· / s.ndim) e
  have d2 := congrArg (· % s.ndim) e
  simp only [Nat.mul_comm _ s.ndim, Nat.mul_add_div hw, Nat.mul_add_mod, Nat.div_eq_of_lt hj, Nat.div_eq_of_lt hj', Nat.mod_eq_of_lt hj, Nat.mod_eq_of_lt hj'] at d1 d2
  omega

theorem getDelta_flat (s : Gar) (m n : Int) (h : Mode s m n) : getDelta s m n = s.x[flat s m n]? := by
  obtain ⟨h1, h2, h3, h4⟩ := h
  simp only [getDelta, bind, Option.bind]
  rw [npIx_in _ _ (by omega) (by simp only [Gar.mdim]; omega), npIx_in _ _ (by omega) (by simp only [Gar.ndim]; omega)]
  rfl

theorem setDelta_flat (s : Gar) (m n : Int) (v : ℝ) (hx : s.x.length = s.mdim * s.ndim) (h : Mode s m n) :
    setDelta s m n v = some { s with x := s.x.set (flat s m n) v } := by
  have hl := flat_lt s m n h
  obtain ⟨h1, h2, h3, h4⟩ := h
  have e : ((s.ndim : Int) * (m - s.mmin) + n - s.nmin) = (flat s m n : Int) := by
    simp only [flat]; push_cast
    rw [Int.toNat_of_nonneg (by omega), Int.toNat_of_nonneg (by omega)]; ring
  simp only [setDelta, bind, Option.bind, e]
  rw [npIx_in _ _ (by omega) (by omega)]
  rfl

theorem getDelta_some (s : Gar) (hx : s.x.length = s.mdim * s.ndim) (m n : Int) (h : Mode s m n) : getDelta s m n = some (coefD s m n) := by
  have hl := flat_lt s m n h
  rw [coefD, getDelta_flat s m n h, List.getElem?_eq_getElem (by omega)]; rfl

theorem setDelta_get (s : Gar) (m n : Int) (v : ℝ) (hx : s.x.length = s.mdim * s.ndim) (h : Mode s m n) (m' n' : Int) (h' : Mode s m' n') :
    coefD { s with x := s.x.set (flat s m n) v } m' n' = if m' = m ∧ n' = n then v else coefD s m' n' := by
  have hl := flat_lt s m n h
  have hl' := flat_lt s m' n' h'
  simp only [coefD]
  rw [getDelta_flat { s with x := s.x.set (flat s m n) v } m' n' h', getDelta_flat s m' n' h']
  have e : flat { s with x := s.x.set (flat s m n) v } m' n' = flat s m' n' := rfl
  rw [e]
  by_cases hc : m' = m ∧ n' = n
  · obtain ⟨rfl, rfl⟩ := hc
    simp [hx, hl]
  · rw [if_neg hc]
    have : flat s m n ≠ flat s m' n' := fun hh => hc (by have := flat_inj s m n m' n' h h' hh; exact ⟨this.1.symm, this.2.symm⟩)
    simp [this]

/-! ### Sums over modes -/

theorem sum_sym {M : Type} [AddCommMonoid M] (F : Int → M) (a : Nat) :
    ∑ k ∈ Finset.Icc (-(a : Int)) a, F k = F 0 + ∑ m ∈ Finset.range a, (F ((m : Int) + 1) + F (-((m : Int) + 1))) := by
  induction a with
  | zero => simp
  | succ a ih =>
    rw [Finset.sum_range_succ, ← add_assoc, ← ih]
    have e : Finset.Icc (-((a + 1 : Nat) : Int)) ((a + 1 : Nat) : Int) = insert ((a : Int) + 1) (insert (-((a : Int) + 1)) (Finset.Icc (-(a : Int)) a)) := by
      ext k; simp only [Finset.mem_Icc, Finset.mem_insert]; push_cast; omega
    rw [e, Finset.sum_insert (by simp only [Finset.mem_Icc, Finset.mem_insert]; omega), Finset.sum_insert (by simp only [Finset.mem_Icc]; omega)]
    rw [add_comm (∑ k ∈ Finset.Icc (-(a : Int)) a, F k), add_assoc]

theorem sum_neg_icc {M : Type} [AddCommMonoid M] (F : Int → M) (a : Nat) :
    ∑ k ∈ Finset.Icc (-(a : Int)) a, F (-k) = ∑ k ∈ Finset.Icc (-(a : Int)) a, F k := by
  rw [sum_sym, sum_sym]
  congr 1
  exact Finset.sum_congr rfl fun m _ => by rw [neg_neg, add_comm]

/-- A sum over a rectangle symmetric about the origin, folded to `m ≥ 0`. -/
theorem sum_fold (f : Int → Int → ℝ) (g : Nat → Int → ℝ) (a b : Nat)
    (h0 : ∑ n ∈ Finset.Icc (-(b : Int)) b, g 0 n = ∑ n ∈ Finset.Icc (-(b : Int)) b, f 0 n)
    (h : ∀ (m : Nat) (n : Int), 0 < m → m ≤ a → -(b : Int) ≤ n → n ≤ b → g m n = f m n + f (-m) (-n)) :
    ∑ k ∈ Finset.Icc (-(a : Int)) a, ∑ n ∈ Finset.Icc (-(b : Int)) b, f k n =
      ∑ m ∈ Finset.range (a + 1), ∑ n ∈ Finset.Icc (-(b : Int)) b, g m n := by
  rw [sum_sym (fun k => ∑ n ∈ Finset.Icc (-(b : Int)) b, f k n), Finset.sum_range_succ', add_comm, h0]
  congr 1
  apply Finset.sum_congr rfl
  intro m hm
  have hm := Finset.mem_range.mp hm
  rw [← sum_neg_icc (fun n => f (-((m : Int) + 1)) n), ← Finset.sum_add_distrib]
  apply Finset.sum_congr rfl
  intro n hn
  have hn := Finset.mem_Icc.mp hn
  rw [h (m + 1) n (by omega) (by omega) hn.1 hn.2]
  push_cast; rfl

/-- The shape as two real sums over a symmetric rectangle of `(M, N) = (1 - m, -n)`. -/
theorem shape_sums (s : Gar) (Δ : Int → Int → ℝ) (hout : ∀ m n, ¬ Mode s m n → Δ m n = 0) (a b : Nat) (ha : 1 - s.mmin ≤ a) (ha' : s.mmax - 1 ≤ a)
    (hb : s.nmax ≤ b) (hb' : -s.nmin ≤ b) (u v : ℝ) :
    (shape s Δ u v).re = ∑ k ∈ Finset.Icc (-(a : Int)) a, ∑ n ∈ Finset.Icc (-(b : Int)) b, Δ (1 - k) (-n) * Real.cos (k * u - n * v) ∧
    (shape s Δ u v).im = ∑ k ∈ Finset.Icc (-(a : Int)) a, ∑ n ∈ Finset.Icc (-(b : Int)) b, Δ (1 - k) (-n) * Real.sin (k * u - n * v) := by
  have e : shape s Δ u v = ∑ k ∈ Finset.Icc (-(a : Int)) a, ∑ n ∈ Finset.Icc (-(b : Int)) b, (Δ (1 - k) (-n) : ℂ) * Complex.exp (((k * u - n * v : ℝ) : ℂ) * Complex.I) := by
    have e1 : shape s Δ u v = ∑ m ∈ Finset.Icc s.mmin s.mmax, ∑ n ∈ Finset.Icc s.nmin s.nmax, (Δ m n : ℂ) * Complex.exp ((((1 - m) * u + n * v : ℝ) : ℂ) * Complex.I) := by
      simp only [shape, Finset.mul_sum]
      apply Finset.sum_congr rfl; intro m _
      apply Finset.sum_congr rfl; intro n _
      rw [mul_left_comm, ← Complex.exp_add]
      congr 2
      push_cast; ring
    have e2 : ∑ m ∈ Finset.Icc s.mmin s.mmax, ∑ n ∈ Finset.Icc s.nmin s.nmax, (Δ m n : ℂ) * Complex.exp ((((1 - m) * u + n * v : ℝ) : ℂ) * Complex.I) =
        ∑ m ∈ Finset.Icc (1 - (a : Int)) (1 + a), ∑ n ∈ Finset.Icc (-(b : Int)) b, (Δ m n : ℂ) * Complex.exp ((((1 - m) * u + n * v : ℝ) : ℂ) * Complex.I) := by
      have i1 : ∀ m, ∑ n ∈ Finset.Icc s.nmin s.nmax, (Δ m n : ℂ) * Complex.exp ((((1 - m) * u + n * v : ℝ) : ℂ) * Complex.I) =
          ∑ n ∈ Finset.Icc (-(b : Int)) b, (Δ m n : ℂ) * Complex.exp ((((1 - m) * u + n * v : ℝ) : ℂ) * Complex.I) := by
        intro m
        apply Finset.sum_subset
        · intro n hn; simp only [Finset.mem_Icc] at hn ⊢; omega
        · intro n _ hn
          rw [hout m n (by simp only [Mode]; simp only [Finset.mem_Icc] at hn; omega)]; simp
      simp only [i1]
      apply Finset.sum_subset
      · intro m hm; simp only [Finset.mem_Icc] at hm ⊢; omega
      · intro m _ hm
        apply Finset.sum_eq_zero
        intro n _
        rw [hout m n (by simp only [Mode]; simp only [Finset.mem_Icc] at hm; omega)]; simp
    rw [e1, e2]
    apply Finset.sum_nbij' (fun m => 1 - m) (fun k => 1 - k)
    · intro m hm; simp only [Finset.mem_Icc] at hm ⊢; omega
    · intro m hm; simp only [Finset.mem_Icc] at hm ⊢; omega
    · intro m _; ring
    · intro m _; ring
    · intro m _
      rw [← sum_neg_icc]
      apply Finset.sum_congr rfl; intro n _
      rw [sub_sub_cancel]
      congr 3
      push_cast; ring
  have t : ∀ (c x : ℝ), ((c : ℂ) * Complex.exp ((x : ℂ) * Complex.I)).re = c * Real.cos x ∧ ((c : ℂ) * Complex.exp ((x : ℂ) * Complex.I)).im = c * Real.sin x := by
    intro c x
    rw [Complex.re_ofReal_mul, Complex.im_ofReal_mul, Complex.exp_ofReal_mul_I_re, Complex.exp_ofReal_mul_I_im]
    exact ⟨rfl, rfl⟩
  rw [e]
  simp only [Complex.re_sum, Complex.im_sum, (t _ _).1, (t _ _).2, and_self]

/-! ### The shape of a SurfaceRZFourier -/

/-- `gamma()` of a stellarator-symmetric surface in terms of all its coefficients. -/
theorem gamma_all (r : Surf) (hs : r.stellsym = true) (junk : Nat → ℝ × ℝ) (p q : ℝ) :
    gamma r junk p q =
      ((∑ m ∈ Finset.range (r.mpol + 1), ∑ n ∈ Finset.Icc (-(r.ntor : Int)) r.ntor, coef r .rc m n * Real.cos (m * (2 * Real.pi * q) - n * (r.nfp * (2 * Real.pi * p)))) * Real.cos (2 * Real.pi * p),
       (∑ m ∈ Finset.range (r.mpol + 1), ∑ n ∈ Finset.Icc (-(r.ntor : Int)) r.ntor, coef r .rc m n * Real.cos (m * (2 * Real.pi * q) - n * (r.nfp * (2 * Real.pi * p)))) * Real.sin (2 * Real.pi * p),
       ∑ m ∈ Finset.range (r.mpol + 1), ∑ n ∈ Finset.Icc (-(r.ntor : Int)) r.ntor, coef r .zs m n * Real.sin (m * (2 * Real.pi * q) - n * (r.nfp * (2 * Real.pi * p)))) := by
  have h := value_lin r junk .g p q
  have e : gamma r junk p q = value r junk .g p q := rfl
  rw [e, h, lin]
  have key : ∀ m ∈ Finset.range (r.mpol + 1), ∀ i ∈ Finset.range r.width,
      modeTerm r (fun k mi => dRow r .g k (2 * Real.pi * p) (2 * Real.pi * q) mi) m i =
      ((coef r .rc m ((i : Int) - r.ntor) * Real.cos (m * (2 * Real.pi * q) - (((i : Int) - r.ntor : Int) : ℝ) * (r.nfp * (2 * Real.pi * p)))) * Real.cos (2 * Real.pi * p),
       (coef r .rc m ((i : Int) - r.ntor) * Real.cos (m * (2 * Real.pi * q) - (((i : Int) - r.ntor : Int) : ℝ) * (r.nfp * (2 * Real.pi * p)))) * Real.sin (2 * Real.pi * p),
       coef r .zs m ((i : Int) - r.ntor) * Real.sin (m * (2 * Real.pi * q) - (((i : Int) - r.ntor : Int) : ℝ) * (r.nfp * (2 * Real.pi * p)))) := by
    intro m hm i hi
    rw [coef_at r .rc m i (Finset.mem_range.mp hm) (Finset.mem_range.mp hi), coef_at r .zs m i (Finset.mem_range.mp hm) (Finset.mem_range.mp hi)]
    have ea : angle r (2 * Real.pi * p) (2 * Real.pi * q) m i = m * (2 * Real.pi * q) - (((i : Int) - r.ntor : Int) : ℝ) * (r.nfp * (2 * Real.pi * p)) := by
      simp only [angle]; push_cast; ring
    simp only [modeTerm, hs, if_true, available, dRow, ea]
    refine Prod.ext ?_ (Prod.ext ?_ ?_) <;> simp <;> ring
  rw [Finset.sum_congr rfl fun m hm => Finset.sum_congr rfl (key m hm)]
  simp only [sum_icc r]
  refine Prod.ext ?_ (Prod.ext ?_ ?_)
  · simp only [Prod.fst_sum, Finset.sum_mul]
  · simp only [Prod.snd_sum, Prod.fst_sum, Finset.sum_mul]
  · simp only [Prod.snd_sum]

/-! ### Conversion to SurfaceRZFourier -/

/-- The coefficient of a mode, zero for the modes the surface does not have. -/
noncomputable def ext (s : Gar) (m n : Int) : ℝ := open Classical in if Mode s m n then coefD s m n else 0

theorem ext_out (s : Gar) (m n : Int) (h : ¬ Mode s m n) : ext s m n = 0 := by simp [ext, h]
theorem ext_in (s : Gar) (m n : Int) (h : Mode s m n) : ext s m n = coefD s m n := by simp [ext, h]

theorem delta1_eq (s : Gar) (hs : Valid s) (m n : Int) (hm : 0 ≤ m) : delta1 s m n = some (ext s (1 - m) (-n)) := by
  obtain ⟨h1, h2, h3, h4, hx⟩ := hs
  by_cases hc : 1 - m ≥ s.mmin ∧ -n ≥ s.nmin ∧ -n ≤ s.nmax
  · have hM : Mode s (1 - m) (-n) := ⟨hc.1, by omega, hc.2.1, hc.2.2⟩
    rw [delta1, if_pos hc, ext_in s _ _ hM, getDelta_some s hx _ _ hM]
  · rw [delta1, if_neg hc, ext_out s _ _ fun hM => hc ⟨hM.1, hM.2.2.1, hM.2.2.2⟩]

theorem delta2_eq (s : Gar) (hs : Valid s) (m n : Int) (hm : 0 ≤ m) : delta2 s m n = some (ext s (1 + m) n) := by
  obtain ⟨h1, h2, h3, h4, hx⟩ := hs
  by_cases hc : 1 + m ≤ s.mmax ∧ n ≥ s.nmin ∧ n ≤ s.nmax
  · have hM : Mode s (1 + m) n := ⟨by omega, hc.1, hc.2.1, hc.2.2⟩
    rw [delta2, if_pos hc, ext_in s _ _ hM, getDelta_some s hx _ _ hM]
  · rw [delta2, if_neg hc, ext_out s _ _ fun hM => hc ⟨hM.2.1, hM.2.2.1, hM.2.2.2⟩]

/-- Same resolution, symmetry and number of field periods. -/
def Like (r t : Surf) : Prop := t.mpol = r.mpol ∧ t.ntor = r.ntor ∧ t.nfp = r.nfp ∧ t.stellsym = r.stellsym

theorem setCoef_some (r : Surf) (k : Kind) (m : Nat) (n : Int) (v : ℝ) (ha : available r k = true) (hm : m ≤ r.mpol) (h1 : -(r.ntor : Int) ≤ n) (h2 : n ≤ r.ntor) :
    ∃ t, setCoef r k m n v = some t ∧ Like r t ∧ ∀ k' (m' : Nat) n', coef t k' m' n' = if k' = k ∧ m' = m ∧ n' = n then v else coef r k' m' n' := by
  have hv : validMn r m n = true := by simp [validMn]; omega
  refine ⟨poke r k m n v, by rw [setCoef_eq, ha, hv]; simp, poke_params r k m n v, ?_⟩
  have hset : setCoef r k m n v = some (poke r k m n v) := by rw [setCoef_eq, ha, hv]; simp
  obtain ⟨g1, g2⟩ := C65_setter r _ k m n v hset
  intro k' m' n'
  by_cases hc : k' = k ∧ m' = m ∧ n' = n
  · obtain ⟨rfl, rfl, rfl⟩ := hc
    simp [coef, g1]
  · rw [if_neg hc, coef, coef, g2 k' m' n' (by rintro ⟨a, b, c⟩; exact hc ⟨a, by exact_mod_cast b, c⟩)]

theorem to_fold (s : Gar) (hs : Valid s) (l : List (Int × Int)) (r : Surf) (hst : r.stellsym = true)
    (hl : ∀ mn ∈ l, 0 ≤ mn.1 ∧ mn.1 ≤ r.mpol ∧ -(r.ntor : Int) ≤ mn.2 ∧ mn.2 ≤ r.ntor) :
    ∃ t, l.foldlM (toStep s) r = some t ∧ Like r t ∧
      ∀ (m : Nat) n, (coef t .rc m n = if ((m : Int), n) ∈ l then ext s (1 - m) (-n) + ext s (1 + m) n else coef r .rc m n) ∧
        (coef t .zs m n = if ((m : Int), n) ∈ l then ext s (1 - m) (-n) - ext s (1 + m) n else coef r .zs m n) := by
  induction l generalizing r with
  | nil => exact ⟨r, rfl, ⟨rfl, rfl, rfl, rfl⟩, fun m n => by simp⟩
  | cons a l ih =>
    obtain ⟨m0, n0⟩ := a
    obtain ⟨b1, b2, b3, b4⟩ := hl (m0, n0) (List.mem_cons_self ..)
    simp only at b1 b2 b3 b4
    obtain ⟨M, rfl⟩ := Int.eq_ofNat_of_zero_le b1
    have b2 : M ≤ r.mpol := by exact_mod_cast b2
    obtain ⟨r1, e1, ⟨p1, p2, p3, p4⟩, c1⟩ := setCoef_some r .rc M n0 (ext s (1 - M) (-n0) + ext s (1 + M) n0) rfl b2 b3 b4
    obtain ⟨r2, e2, ⟨q1, q2, q3, q4⟩, c2⟩ := setCoef_some r1 .zs M n0 (ext s (1 - M) (-n0) - ext s (1 + M) n0) rfl (by omega) (by rw [p2]; exact b3) (by rw [p2]; exact b4)
    have est : toStep s r ((M : Int), n0) = some r2 := by
      simp only [toStep, delta1_eq s hs M n0 (by omega), delta2_eq s hs M n0 (by omega), bind, Option.bind, e1, e2]
    obtain ⟨t, et, ⟨l1, l2, l3, l4⟩, ct⟩ := ih r2 (by rw [q4, p4, hst]) (fun mn hmn => by rw [q1, q2, p1, p2]; exact hl mn (List.mem_cons_of_mem _ hmn))
    refine ⟨t, by rw [List.foldlM_cons, est]; exact et, ⟨by rw [l1, q1, p1], by rw [l2, q2, p2], by rw [l3, q3, p3], by rw [l4, q4, p4]⟩, ?_⟩
    intro m n
    rw [(ct m n).1, (ct m n).2, c2, c2, c1, c1]
    have hmem : ((m : Int), n) ∈ ((M : Int), n0) :: l ↔ (m = M ∧ n = n0) ∨ ((m : Int), n) ∈ l := by
      rw [List.mem_cons, Prod.mk.injEq]; norm_cast
    simp only [hmem]
    by_cases hA : ((m : Int), n) ∈ l
    · simp [hA]
    · by_cases hB : m = M ∧ n = n0
      · obtain ⟨rfl, rfl⟩ := hB
        simp
      · simp [hA, hB]

theorem mem_intRange (lo hi k : Int) : k ∈ intRange lo hi ↔ lo ≤ k ∧ k < hi := by
  simp only [intRange, List.mem_map, List.mem_range]
  constructor
  · rintro ⟨j, hj, rfl⟩; omega
  · intro h; exact ⟨(k - lo).toNat, by omega, by omega⟩

theorem mem_loopModes (mpol ntor m : Nat) (n : Int) :
    ((m : Int), n) ∈ loopModes mpol ntor ↔ m ≤ mpol ∧ n ≤ ntor ∧ (if m = 0 then 1 else -(ntor : Int)) ≤ n := by
  simp only [loopModes, List.mem_flatMap, List.mem_range, List.mem_map, mem_intRange, Prod.mk.injEq]
  constructor
  · rintro ⟨m', h1, n', ⟨h2, h3⟩, h4, rfl⟩
    have : m' = m := by exact_mod_cast h4
    subst this
    exact ⟨by omega, by omega, h2⟩
  · rintro ⟨h1, h2, h3⟩
    exact ⟨m, by omega, n, ⟨h3, by omega⟩, rfl, rfl⟩

theorem create_coef (mpol ntor nfp : Nat) (hm : 1 ≤ mpol) (k : Kind) (n : Int) (h : n < 0 ∨ (n = 0 ∧ k = .zs)) : coef (create mpol ntor nfp true) k 0 n = 0 := by
  have P : (create mpol ntor nfp true).mpol = mpol ∧ (create mpol ntor nfp true).ntor = ntor := ⟨rfl, rfl⟩
  by_cases hn : -(ntor : Int) ≤ n
  · obtain ⟨i, hi⟩ : ∃ i : Nat, n = (i : Int) - ntor := ⟨(n + ntor).toNat, by omega⟩
    have hi' : n = (i : Int) - (create mpol ntor nfp true).ntor := hi
    rw [hi', coef_at _ k 0 i (by rw [P.1]; omega) (by simp only [Surf.width, P.2]; omega)]
    split
    · rcases h with h | ⟨h, rfl⟩
      · have := clean_create mpol ntor nfp true k i (by rw [P.2]; omega)
        simpa [Surf.at] using this
      · have hi0 : i = ntor := by omega
        subst hi0
        simp [Surf.at, Surf.buf, create, poke, Surf.width]
    · rfl
  · exact coef_out _ k 0 n (by rw [P.1, P.2]; omega)

/-- What `to_RZFourier` returns. -/
theorem toRZ_coef (s : Gar) (hs : Valid s) : ∃ r, toRZ s = some r ∧ r.mpol = rzMpol s ∧ r.ntor = rzNtor s ∧ r.nfp = s.nfp ∧ r.stellsym = true ∧
    ∀ (m : Nat) (n : Int), m ≤ rzMpol s → -(rzNtor s : Int) ≤ n → n ≤ rzNtor s →
      (coef r .rc m n = if m = 0 ∧ n < 0 then 0 else if m = 0 ∧ n = 0 then ext s 1 0 else ext s (1 - m) (-n) + ext s (1 + m) n) ∧
      (coef r .zs m n = if m = 0 ∧ n ≤ 0 then 0 else ext s (1 - m) (-n) - ext s (1 + m) n) := by
  have h1 : 1 ≤ rzMpol s := by simp only [rzMpol]; omega
  have hc : RZSurf.construct (rzMpol s) (rzNtor s) s.nfp true = some (create (rzMpol s) (rzNtor s) s.nfp true) := by simp [RZSurf.construct, h1]
  have P : (create (rzMpol s) (rzNtor s) s.nfp true).mpol = rzMpol s ∧ (create (rzMpol s) (rzNtor s) s.nfp true).ntor = rzNtor s ∧
    (create (rzMpol s) (rzNtor s) s.nfp true).nfp = s.nfp ∧ (create (rzMpol s) (rzNtor s) s.nfp true).stellsym = true := ⟨rfl, rfl, rfl, rfl⟩
  have hM : Mode s 1 0 := ⟨by have := hs.1; omega, hs.2.1, hs.2.2.1, hs.2.2.2.1⟩
  obtain ⟨r1, e1, ⟨p1, p2, p3, p4⟩, c1⟩ := setCoef_some (create (rzMpol s) (rzNtor s) s.nfp true) .rc 0 0 (coefD s 1 0) rfl (by omega) (by omega) (by omega)
  have hl : ∀ mn ∈ loopModes (rzMpol s) (rzNtor s), 0 ≤ mn.1 ∧ mn.1 ≤ r1.mpol ∧ -(r1.ntor : Int) ≤ mn.2 ∧ mn.2 ≤ r1.ntor := by
    rintro ⟨m, n⟩ hmn
    have h0 : 0 ≤ m := by
      simp only [loopModes, List.mem_flatMap, List.mem_map, Prod.mk.injEq] at hmn
      obtain ⟨m', _, n', _, h, _⟩ := hmn
      omega
    obtain ⟨M, rfl⟩ := Int.eq_ofNat_of_zero_le h0
    obtain ⟨a1, a2, a3⟩ := (mem_loopModes _ _ _ _).mp hmn
    rw [p1, p2, P.1, P.2.1]
    refine ⟨h0, Int.ofNat_le.mpr a1, ?_, a2⟩
    show -(rzNtor s : Int) ≤ n
    split at a3 <;> omega
  obtain ⟨t, et, ⟨l1, l2, l3, l4⟩, ct⟩ := to_fold s hs _ r1 (by rw [p4, P.2.2.2]) hl
  refine ⟨t, ?_, by rw [l1, p1, P.1], by rw [l2, p2, P.2.1], by rw [l3, p3, P.2.2.1], by rw [l4, p4, P.2.2.2], ?_⟩
  · simp only [toRZ, hc, bind, Option.bind, getDelta_some s hs.2.2.2.2 1 0 hM]
    have e1' : setCoef (create (rzMpol s) (rzNtor s) s.nfp true) .rc 0 0 (coefD s 1 0) = some r1 := e1
    rw [e1']; exact et
  · intro m n a1 a2 a3
    rw [(ct m n).1, (ct m n).2, c1, c1]
    simp only [mem_loopModes]
    by_cases hm : m = 0
    · subst hm
      rcases lt_trichotomy n 0 with hn | hn | hn
      · have z1 := create_coef (rzMpol s) (rzNtor s) s.nfp h1 .rc n (Or.inl hn)
        have z2 := create_coef (rzMpol s) (rzNtor s) s.nfp h1 .zs n (Or.inl hn)
        have q1 : ¬ (1 ≤ n) := by omega
        have q2 : n ≠ 0 := by omega
        simp [q1, q2, hn, hn.le, z1, z2]
      · subst hn
        have z2 := create_coef (rzMpol s) (rzNtor s) s.nfp h1 .zs 0 (Or.inr ⟨rfl, rfl⟩)
        simp [z2, ext_in s 1 0 hM]
      · have q1 : 1 ≤ n := by omega
        have q2 : n ≠ 0 := by omega
        have q3 : ¬ n < 0 := by omega
        have q4 : ¬ n ≤ 0 := by omega
        simp [q1, q2, q3, q4, a3]
    · simp [hm, a1, a2, a3]

/-- **C141.** `to_RZFourier()` of every surface that contains the modes `Δ(1,0)` and `Δ(0,0)` succeeds; the result is a stellarator-symmetric surface with the same
`nfp` whose position at every quadrature point is the documented series with `u = 2πθ` and `v = nfp φ`. -/
theorem C141_to_RZFourier (s : Gar) (hs : Valid s) :
    ∃ r, toRZ s = some r ∧ r.stellsym = true ∧ r.nfp = s.nfp ∧ ∀ (junk : Nat → ℝ × ℝ) (p q : ℝ),
      let w := shape s (coefD s) (2 * Real.pi * q) (s.nfp * (2 * Real.pi * p))
      gamma r junk p q = (w.re * Real.cos (2 * Real.pi * p), w.re * Real.sin (2 * Real.pi * p), w.im) := by
  obtain ⟨r, er, em, en, ef, es, hc⟩ := toRZ_coef s hs
  refine ⟨r, er, es, ef, ?_⟩
  intro junk p q w
  have hw : w = shape s (ext s) (2 * Real.pi * q) (s.nfp * (2 * Real.pi * p)) := by
    simp only [w, shape]
    congr 1
    apply Finset.sum_congr rfl; intro m hm
    apply Finset.sum_congr rfl; intro n hn
    simp only [Finset.mem_Icc] at hm hn
    rw [ext_in s m n ⟨hm.1, hm.2, hn.1, hn.2⟩]
  obtain ⟨S1, S2⟩ := shape_sums s (ext s) (fun m n h => ext_out s m n h) (rzMpol s) (rzNtor s) (by simp only [rzMpol]; omega) (by simp only [rzMpol]; omega)
    (by simp only [rzNtor]; omega) (by simp only [rzNtor]; omega) (2 * Real.pi * q) (s.nfp * (2 * Real.pi * p))
  rw [gamma_all r es, em, en, ef, hw, S1, S2]
  generalize 2 * Real.pi * q = u
  generalize (s.nfp : ℝ) * (2 * Real.pi * p) = v
  have R := sum_fold (fun k n => ext s (1 - k) (-n) * Real.cos (k * u - n * v)) (fun m n => coef r .rc m n * Real.cos (m * u - n * v)) (rzMpol s) (rzNtor s)
    (by
      rw [sum_sym, sum_sym]
      congr 1
      · rw [(hc 0 0 (by omega) (by omega) (by omega)).1]; simp
      · apply Finset.sum_congr rfl; intro j hj
        have hj := Finset.mem_range.mp hj
        rw [(hc 0 (j + 1) (by omega) (by omega) (by omega)).1, (hc 0 (-(j + 1)) (by omega) (by omega) (by omega)).1]
        have q1 : ¬ ((j : Int) + 1 < 0) := by omega
        have q2 : ¬ ((j : Int) + 1 = 0) := by omega
        have q3 : -((j : Int) + 1) < 0 := by omega
        rw [if_neg (by tauto), if_neg (by tauto), if_pos ⟨rfl, q3⟩, neg_neg]
        have hcos : Real.cos (((0 : Int) : ℝ) * u - ((-((j : Int) + 1) : Int) : ℝ) * v) = Real.cos (((0 : Nat) : ℝ) * u - (((j : Int) + 1 : Int) : ℝ) * v) := by
          rw [← Real.cos_neg]; congr 1; push_cast; ring
        rw [hcos]
        push_cast; ring_nf)
    (by
      intro m n h1 h2 h3 h4
      rw [(hc m n h2 h3 h4).1, if_neg (by omega), if_neg (by omega)]
      have hcos : Real.cos (((-(m : Int) : Int) : ℝ) * u - ((-n : Int) : ℝ) * v) = Real.cos ((m : ℝ) * u - (n : ℝ) * v) := by
        rw [← Real.cos_neg]; congr 1; push_cast; ring
      simp only [hcos, neg_neg, sub_neg_eq_add, Int.cast_natCast]
      ring)
  have Z := sum_fold (fun k n => ext s (1 - k) (-n) * Real.sin (k * u - n * v)) (fun m n => coef r .zs m n * Real.sin (m * u - n * v)) (rzMpol s) (rzNtor s)
    (by
      rw [sum_sym, sum_sym]
      congr 1
      · simp
      · apply Finset.sum_congr rfl; intro j hj
        have hj := Finset.mem_range.mp hj
        rw [(hc 0 (j + 1) (by omega) (by omega) (by omega)).2, (hc 0 (-(j + 1)) (by omega) (by omega) (by omega)).2]
        rw [if_neg (by omega), if_pos (by omega), neg_neg]
        have hsin : Real.sin (((0 : Int) : ℝ) * u - ((-((j : Int) + 1) : Int) : ℝ) * v) = - Real.sin (((0 : Nat) : ℝ) * u - (((j : Int) + 1 : Int) : ℝ) * v) := by
          rw [← Real.sin_neg]; congr 1; push_cast; ring
        rw [hsin]
        push_cast; ring_nf)
    (by
      intro m n h1 h2 h3 h4
      rw [(hc m n h2 h3 h4).2, if_neg (by omega)]
      have hsin : Real.sin (((-(m : Int) : Int) : ℝ) * u - ((-n : Int) : ℝ) * v) = - Real.sin ((m : ℝ) * u - (n : ℝ) * v) := by
        rw [← Real.sin_neg]; congr 1; push_cast; ring
      simp only [hsin, neg_neg, sub_neg_eq_add, Int.cast_natCast]
      ring)
  rw [R, Z]

/-! ### Conversion from SurfaceRZFourier -/

theorem getCoef_some (r : Surf) (k : Kind) (m n : Int) (ha : available r k = true) (h0 : 0 ≤ m) (hm : m ≤ r.mpol) (h1 : -(r.ntor : Int) ≤ n) (h2 : n ≤ r.ntor) :
    getCoef r k m n = some (coef r k m.toNat n) := by
  obtain ⟨M, rfl⟩ := Int.eq_ofNat_of_zero_le h0
  have hv : validMn r M n = true := by simp [validMn]; omega
  simp only [coef, Int.toNat_natCast, getCoef, ha, hv, Bool.and_true, if_true, Option.getD_some]

/-- The value `from_RZFourier` gives to a mode. -/
noncomputable def fromVal (r : Surf) (m n : Int) : ℝ :=
  (if 1 ≤ m then (coef r .rc (m - 1).toNat n - coef r .zs (m - 1).toNat n) / 2 else 0) +
  (if m ≤ 1 then (coef r .rc (1 - m).toNat (-n) + coef r .zs (1 - m).toNat (-n)) / 2 else 0)

theorem fromAB (r : Surf) (m n : Int) (h1 : 1 - (r.mpol : Int) ≤ m) (h2 : m ≤ r.mpol + 1) (h3 : -(r.ntor : Int) ≤ n) (h4 : n ≤ r.ntor) :
    ∃ a b, fromA r m n = some a ∧ fromB r m n = some b ∧ a + b = fromVal r m n := by
  refine ⟨if 1 ≤ m then (coef r .rc (m - 1).toNat n - coef r .zs (m - 1).toNat n) / 2 else 0,
    if m ≤ 1 then (coef r .rc (1 - m).toNat (-n) + coef r .zs (1 - m).toNat (-n)) / 2 else 0, ?_, ?_, rfl⟩
  · by_cases h : 1 ≤ m
    · rw [fromA, if_pos (by omega), if_pos h, getCoef_some r .rc (m - 1) n rfl (by omega) (by omega) h3 h4, getCoef_some r .zs (m - 1) n rfl (by omega) (by omega) h3 h4]
      simp only [bind, Option.bind, pure]
      congr 1; norm_num; ring
    · rw [fromA, if_neg (by omega), if_neg h]
  · by_cases h : m ≤ 1
    · rw [fromB, if_pos (by omega), if_pos h, getCoef_some r .rc (1 - m) (-n) rfl (by omega) (by omega) (by omega) (by omega),
        getCoef_some r .zs (1 - m) (-n) rfl (by omega) (by omega) (by omega) (by omega)]
      simp only [bind, Option.bind, pure]
      congr 1; norm_num; ring
    · rw [fromB, if_neg (by omega), if_neg h]

theorem from_fold (r : Surf) (l : List (Int × Int)) (s : Gar) (hx : s.x.length = s.mdim * s.ndim) (hl : ∀ mn ∈ l, Mode s mn.1 mn.2)
    (hr : ∀ m n, Mode s m n → 1 - (r.mpol : Int) ≤ m ∧ m ≤ r.mpol + 1 ∧ -(r.ntor : Int) ≤ n ∧ n ≤ r.ntor) :
    ∃ t : Gar, l.foldlM (fromStep r) s = some t ∧ t = { s with x := t.x } ∧ t.x.length = s.x.length ∧
      ∀ m n, Mode s m n → coefD t m n = if (m, n) ∈ l then fromVal r m n else coefD s m n := by
  induction l generalizing s with
  | nil => exact ⟨s, rfl, rfl, rfl, fun m n _ => by simp⟩
  | cons a l ih =>
    obtain ⟨m0, n0⟩ := a
    have hM : Mode s m0 n0 := hl (m0, n0) (List.mem_cons_self ..)
    obtain ⟨b1, b2, b3, b4⟩ := hr m0 n0 hM
    obtain ⟨A, B, eA, eB, eAB⟩ := fromAB r m0 n0 b1 b2 b3 b4
    have est : fromStep r s (m0, n0) = some { s with x := s.x.set (flat s m0 n0) (fromVal r m0 n0) } := by
      simp only [fromStep, eA, eB, bind, Option.bind, eAB]
      exact setDelta_flat s m0 n0 _ hx hM
    obtain ⟨t, et, ep, elen, ct⟩ := ih { s with x := s.x.set (flat s m0 n0) (fromVal r m0 n0) } (by rw [List.length_set]; exact hx)
      (fun mn hmn => hl mn (List.mem_cons_of_mem _ hmn)) hr
    refine ⟨t, by rw [List.foldlM_cons, est]; exact et, ep, by rw [elen]; simp, ?_⟩
    intro m n hmn
    rw [ct m n hmn, setDelta_get s m0 n0 _ hx hM m n hmn]
    have hmem : (m, n) ∈ (m0, n0) :: l ↔ (m = m0 ∧ n = n0) ∨ (m, n) ∈ l := by rw [List.mem_cons, Prod.mk.injEq]
    simp only [hmem]
    by_cases hA : (m, n) ∈ l
    · simp [hA]
    · by_cases hB : m = m0 ∧ n = n0
      · obtain ⟨rfl, rfl⟩ := hB; simp
      · simp [hA, hB]

/-- The constructor without `dofs`. -/
theorem construct_valid (nfp : Nat) (mmax mmin nmax nmin : Int) (h1 : mmin ≤ 0) (h2 : 1 ≤ mmax) (h3 : nmin ≤ 0) (h4 : 0 ≤ nmax) :
    ∃ s, construct nfp mmax mmin nmax (some nmin) none = some s ∧ Valid s ∧ s.nfp = nfp ∧ s.mmin = mmin ∧ s.mmax = mmax ∧ s.nmin = nmin ∧ s.nmax = nmax ∧
      ∀ m n, Mode s m n → coefD s m n = if m = 1 ∧ n = 0 then 1 else if m = 0 ∧ n = 0 then 0.1 else 0 := by
  let s0 : Gar := ⟨nfp, mmin, mmax, nmin, nmax, List.replicate ((mmax - mmin + 1).toNat * (nmax - nmin + 1).toNat) 0⟩
  have hx0 : s0.x.length = s0.mdim * s0.ndim := by simp [s0, Gar.mdim, Gar.ndim]
  have m1 : Mode s0 1 0 := ⟨by show mmin ≤ 1; omega, h2, h3, h4⟩
  have m0 : Mode s0 0 0 := ⟨h1, by show (0 : Int) ≤ mmax; omega, h3, h4⟩
  have e1 := setDelta_flat s0 1 0 1.0 hx0 m1
  let s1 : Gar := { s0 with x := s0.x.set (flat s0 1 0) 1.0 }
  have hx1 : s1.x.length = s1.mdim * s1.ndim := by rw [List.length_set]; exact hx0
  have e2 := setDelta_flat s1 0 0 0.1 hx1 m0
  refine ⟨{ s1 with x := s1.x.set (flat s1 0 0) 0.1 }, ?_, ⟨h1, h2, h3, h4, by rw [List.length_set]; exact hx1⟩, rfl, rfl, rfl, rfl, rfl, ?_⟩
  · rw [construct]
    simp only [Option.getD_some]
    rw [if_neg (by omega)]
    show (setDelta s0 1 0 1.0).bind (fun s => setDelta s 0 0 0.1) = _
    rw [e1]; exact e2
  · intro m n hmn
    rw [setDelta_get s1 0 0 0.1 hx1 m0 m n hmn, setDelta_get s0 1 0 1.0 hx0 m1 m n hmn]
    have z : coefD s0 m n = 0 := by
      rw [coefD, getDelta_flat s0 m n hmn]
      simp only [s0, List.getElem?_replicate]
      split <;> rfl
    rw [z]
    by_cases ha : m = 0 ∧ n = 0
    · rw [if_pos ha, if_neg (by omega), if_pos ha]
    · rw [if_neg ha, if_neg ha]; norm_num

/-- What `from_RZFourier` returns. -/
theorem fromRZ_coef (r : Surf) (hr : r.stellsym = true) (hm : 1 ≤ r.mpol) : ∃ s, fromRZ r = some s ∧ Valid s ∧ s.nfp = r.nfp ∧ s.mmin = 1 - (r.mpol : Int) ∧
    s.mmax = r.mpol + 1 ∧ s.nmin = -(r.ntor : Int) ∧ s.nmax = r.ntor ∧ ∀ m n, Mode s m n → coefD s m n = fromVal r m n := by
  have emin : min (0 : Int) (1 - r.mpol) = 1 - r.mpol := min_eq_right (by omega)
  obtain ⟨s, es, hv, p1, p2, p3, p4, p5, _⟩ := construct_valid r.nfp (r.mpol + 1) (1 - r.mpol) r.ntor (-r.ntor) (by omega) (by omega) (by omega) (by omega)
  have mem : ∀ m n, (m, n) ∈ fromModes (1 - (r.mpol : Int)) (r.mpol + 1) (-r.ntor) r.ntor ↔ Mode s m n := by
    intro m n
    simp only [fromModes, List.mem_flatMap, List.mem_map, mem_intRange, Prod.mk.injEq, Mode, p2, p3, p4, p5]
    constructor
    · rintro ⟨n', h1, m', h2, rfl, rfl⟩; omega
    · intro h; exact ⟨n, by omega, m, by omega, rfl, rfl⟩
  obtain ⟨t, et, ep, elen, ct⟩ := from_fold r (fromModes (1 - (r.mpol : Int)) (r.mpol + 1) (-r.ntor) r.ntor) s hv.2.2.2.2
    (fun mn h => (mem mn.1 mn.2).mp h) (fun m n h => by simp only [Mode, p2, p3, p4, p5] at h; exact h)
  have q : t.nfp = s.nfp ∧ t.mmin = s.mmin ∧ t.mmax = s.mmax ∧ t.nmin = s.nmin ∧ t.nmax = s.nmax := by rw [ep]; exact ⟨rfl, rfl, rfl, rfl, rfl⟩
  obtain ⟨q1, q2, q3, q4, q5⟩ := q
  refine ⟨t, ?_, ⟨by rw [q2]; exact hv.1, by rw [q3]; exact hv.2.1, by rw [q4]; exact hv.2.2.1, by rw [q5]; exact hv.2.2.2.1, ?_⟩, by rw [q1, p1], by rw [q2, p2], by rw [q3, p3],
    by rw [q4, p4], by rw [q5, p5], ?_⟩
  · rw [fromRZ, if_neg (by simp [hr]), emin]
    simp only [es, bind, Option.bind]
    exact et
  · rw [elen, hv.2.2.2.2, Gar.mdim, Gar.ndim, Gar.mdim, Gar.ndim, q2, q3, q4, q5]
  · intro m n h
    have h' : Mode s m n := by simpa only [Mode, q2, q3, q4, q5] using h
    rw [ct m n h', if_pos ((mem m n).mpr h')]

/-- **C141.** `from_RZFourier(surf)` of a stellarator-symmetric surface: the documented series of the result is the position of `surf` at every quadrature point
(for arbitrary coefficients, also those of `m = 0`, `n < 0`). -/
theorem C141_from_RZFourier (r : Surf) (hr : r.stellsym = true) (hm : 1 ≤ r.mpol) :
    ∃ s, fromRZ r = some s ∧ Valid s ∧ s.nfp = r.nfp ∧ ∀ (junk : Nat → ℝ × ℝ) (p q : ℝ),
      let w := shape s (coefD s) (2 * Real.pi * q) (s.nfp * (2 * Real.pi * p))
      gamma r junk p q = (w.re * Real.cos (2 * Real.pi * p), w.re * Real.sin (2 * Real.pi * p), w.im) := by
  obtain ⟨s, es, hv, p1, p2, p3, p4, p5, hc⟩ := fromRZ_coef r hr hm
  refine ⟨s, es, hv, p1, ?_⟩
  intro junk p q w
  have hw : w = shape s (ext s) (2 * Real.pi * q) (r.nfp * (2 * Real.pi * p)) := by
    simp only [w, shape, p1]
    congr 1
    apply Finset.sum_congr rfl; intro m hm
    apply Finset.sum_congr rfl; intro n hn
    simp only [Finset.mem_Icc] at hm hn
    rw [ext_in s m n ⟨hm.1, hm.2, hn.1, hn.2⟩]
  obtain ⟨S1, S2⟩ := shape_sums s (ext s) (fun m n h => ext_out s m n h) r.mpol r.ntor (by omega) (by omega) (by omega) (by omega) (2 * Real.pi * q) (r.nfp * (2 * Real.pi * p))
  have val : ∀ m n : Int, -(r.mpol : Int) ≤ m → m ≤ r.mpol → -(r.ntor : Int) ≤ n → n ≤ r.ntor → ext s (1 - m) (-n) = fromVal r (1 - m) (-n) := by
    intro m n h1 h2 h3 h4
    have hM : Mode s (1 - m) (-n) := by simp only [Mode, p2, p3, p4, p5]; omega
    rw [ext_in s _ _ hM, hc _ _ hM]
  rw [gamma_all r hr, hw, S1, S2]
  generalize 2 * Real.pi * q = u
  generalize (r.nfp : ℝ) * (2 * Real.pi * p) = v
  have v0 : ∀ n : Int, fromVal r (1 - 0) (-n) = (coef r .rc 0 (-n) - coef r .zs 0 (-n)) / 2 + (coef r .rc 0 n + coef r .zs 0 n) / 2 := by
    intro n; simp [fromVal]
  have vp : ∀ (m : Nat) (n : Int), 0 < m → fromVal r (1 - (m : Int)) (-n) = (coef r .rc m n + coef r .zs m n) / 2 := by
    intro m n h
    rw [fromVal, if_neg (by omega), if_pos (by omega), sub_sub_cancel, neg_neg, Int.toNat_natCast, zero_add]
  have vn : ∀ (m : Nat) (n : Int), 0 < m → fromVal r (1 - -(m : Int)) (-(-n)) = (coef r .rc m n - coef r .zs m n) / 2 := by
    intro m n h
    rw [fromVal, if_pos (by omega), if_neg (by omega), neg_neg, add_zero]
    have : (1 - -(m : Int) - 1).toNat = m := by omega
    rw [this]
  have R := sum_fold (fun k n => ext s (1 - k) (-n) * Real.cos (k * u - n * v)) (fun m n => coef r .rc m n * Real.cos (m * u - n * v)) r.mpol r.ntor
    (by
      have e : ∀ n ∈ Finset.Icc (-(r.ntor : Int)) r.ntor, ext s (1 - 0) (-n) * Real.cos (((0 : Int) : ℝ) * u - n * v) =
          (coef r .rc 0 n + coef r .zs 0 n) / 2 * Real.cos (n * v) + (coef r .rc 0 (-n) - coef r .zs 0 (-n)) / 2 * Real.cos (((-n : Int) : ℝ) * v) := by
        intro n hn
        have hn := Finset.mem_Icc.mp hn
        rw [val 0 n (by omega) (by omega) hn.1 hn.2, v0]
        have c1 : Real.cos (((0 : Int) : ℝ) * u - n * v) = Real.cos (n * v) := by rw [← Real.cos_neg]; congr 1; push_cast; ring
        have c2 : Real.cos (((-n : Int) : ℝ) * v) = Real.cos (n * v) := by rw [← Real.cos_neg]; congr 1; push_cast; ring
        rw [c1, c2]; ring
      rw [Finset.sum_congr rfl e, Finset.sum_add_distrib, sum_neg_icc (fun n => (coef r .rc 0 n - coef r .zs 0 n) / 2 * Real.cos ((n : ℝ) * v)), ← Finset.sum_add_distrib]
      apply Finset.sum_congr rfl; intro n _
      have c1 : Real.cos (((0 : Nat) : ℝ) * u - n * v) = Real.cos (n * v) := by rw [← Real.cos_neg]; congr 1; push_cast; ring
      rw [c1]; ring)
    (by
      intro m n h1 h2 h3 h4
      rw [val m n (by omega) (by omega) h3 h4, val (-m) (-n) (by omega) (by omega) (by omega) (by omega), vp m n h1, vn m n h1]
      have hcos : Real.cos (((-(m : Int) : Int) : ℝ) * u - ((-n : Int) : ℝ) * v) = Real.cos ((m : ℝ) * u - (n : ℝ) * v) := by
        rw [← Real.cos_neg]; congr 1; push_cast; ring
      rw [hcos]; push_cast; ring)
  have Z := sum_fold (fun k n => ext s (1 - k) (-n) * Real.sin (k * u - n * v)) (fun m n => coef r .zs m n * Real.sin (m * u - n * v)) r.mpol r.ntor
    (by
      have e : ∀ n ∈ Finset.Icc (-(r.ntor : Int)) r.ntor, ext s (1 - 0) (-n) * Real.sin (((0 : Int) : ℝ) * u - n * v) =
          (coef r .rc 0 n + coef r .zs 0 n) / 2 * Real.sin (-(n * v)) - (coef r .rc 0 (-n) - coef r .zs 0 (-n)) / 2 * Real.sin (-(((-n : Int) : ℝ) * v)) := by
        intro n hn
        have hn := Finset.mem_Icc.mp hn
        rw [val 0 n (by omega) (by omega) hn.1 hn.2, v0]
        have c1 : Real.sin (((0 : Int) : ℝ) * u - n * v) = Real.sin (-(n * v)) := by congr 1; push_cast; ring
        have c2 : Real.sin (-(((-n : Int) : ℝ) * v)) = - Real.sin (-(n * v)) := by rw [← Real.sin_neg]; congr 1; push_cast; ring
        rw [c1, c2]; ring
      rw [Finset.sum_congr rfl e, Finset.sum_sub_distrib, sum_neg_icc (fun n => (coef r .rc 0 n - coef r .zs 0 n) / 2 * Real.sin (-((n : ℝ) * v))), ← Finset.sum_sub_distrib]
      apply Finset.sum_congr rfl; intro n _
      have c1 : Real.sin (((0 : Nat) : ℝ) * u - n * v) = Real.sin (-(n * v)) := by congr 1; push_cast; ring
      rw [c1]; ring)
    (by
      intro m n h1 h2 h3 h4
      rw [val m n (by omega) (by omega) h3 h4, val (-m) (-n) (by omega) (by omega) (by omega) (by omega), vp m n h1, vn m n h1]
      have hsin : Real.sin (((-(m : Int) : Int) : ℝ) * u - ((-n : Int) : ℝ) * v) = - Real.sin ((m : ℝ) * u - (n : ℝ) * v) := by
        rw [← Real.sin_neg]; congr 1; push_cast; ring
      rw [hsin]; push_cast; ring)
  rw [R, Z]

end Simsopt.Garab
