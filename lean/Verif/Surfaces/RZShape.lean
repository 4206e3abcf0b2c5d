import Verif.Surfaces.RZDofs
/-!
# C66: the shape of a SurfaceRZFourier and its derivatives in the angles
-/
namespace Simsopt.RZSurf
open Simsopt Simsopt.Coils

/-! ### The loops -/

theorem angle_succ (s : Surf) (phi theta : ℝ) (m i : Nat) : angle s phi theta m (i + 1) = angle s phi theta m i + -(s.nfp : ℝ) * phi := by
  simp only [angle]; push_cast; ring

theorem modeStep_foldl {σ : Type} (brace : Bool) (s : Surf) (phi theta : ℝ) (m : Nat) (body : Nat → Nat → ℝ → ℝ → σ → σ) (j : ℝ × ℝ) (st : σ) (n : Nat) :
    let r := (List.range n).foldl (modeStep brace s phi theta m body) (j.1, j.2, st)
    r.2.2 = (List.range n).foldl (fun st i => body m i (Real.sin (angle s phi theta m i)) (Real.cos (angle s phi theta m i)) st) st ∧
    (n % 5 ≠ 0 → r.1 = Real.sin (angle s phi theta m n) ∧ r.2.1 = Real.cos (angle s phi theta m n)) := by
  induction n with
  | zero => simp
  | succ n ih =>
    obtain ⟨ih1, ih2⟩ := ih
    rw [List.range_succ, List.foldl_append, List.foldl_append]
    generalize (List.range n).foldl (modeStep brace s phi theta m body) (j.1, j.2, st) = r at *
    simp only [List.foldl_cons, List.foldl_nil, modeStep, angle_succ, Real.sin_add, Real.cos_add]
    have hs : (if n % 5 = 0 then Real.sin (angle s phi theta m n) else r.1) = Real.sin (angle s phi theta m n) := by
      split
      · rfl
      · exact (ih2 (by assumption)).1
    have hc : (if n % 5 = 0 ∨ brace = false then Real.cos (angle s phi theta m n) else r.2.1) = Real.cos (angle s phi theta m n) := by
      split
      · rfl
      · rename_i h; exact (ih2 (fun h' => h (Or.inl h'))).2
    rw [hs, hc, ih1]
    split
    · refine ⟨rfl, fun _ => ⟨by ring, by ring⟩⟩
    · refine ⟨rfl, fun h => ?_⟩
      omega

/-- The recursion with occasional recomputation, from whatever uninitialised values, gives the sines and cosines of the angles. -/
theorem modeLoop_eq {σ : Type} (brace : Bool) (s : Surf) (junk : Nat → ℝ × ℝ) (phi theta : ℝ) (body : Nat → Nat → ℝ → ℝ → σ → σ) (st : σ) :
    modeLoop brace s junk phi theta body st = linLoop s phi theta body st := by
  unfold modeLoop linLoop
  congr 1
  funext st m
  exact (modeStep_foldl brace s phi theta m body (junk m) st s.width).1

theorem foldl_sum {σ : Type} [AddCommMonoid σ] (n : Nat) (f : Nat → σ → σ) (g : Nat → σ) (h : ∀ i st, f i st = st + g i) (st : σ) :
    (List.range n).foldl (fun st i => f i st) st = st + ∑ i ∈ Finset.range n, g i := by
  induction n with
  | zero => simp
  | succ n ih => rw [List.range_succ, List.foldl_append, ih, Finset.sum_range_succ]; simp [h, add_assoc]

theorem linLoop_sum {σ : Type} [AddCommMonoid σ] (s : Surf) (phi theta : ℝ) (body : Nat → Nat → ℝ → ℝ → σ → σ) (inc : Nat → Nat → ℝ → ℝ → σ)
    (h : ∀ m i sn cs st, body m i sn cs st = st + inc m i sn cs) (st : σ) :
    linLoop s phi theta body st = st + ∑ m ∈ Finset.range (s.mpol + 1), ∑ i ∈ Finset.range s.width,
      inc m i (Real.sin (angle s phi theta m i)) (Real.cos (angle s phi theta m i)) :=
  foldl_sum _ _ _ (fun m st => foldl_sum _ _ (fun i => inc m i (Real.sin (angle s phi theta m i)) (Real.cos (angle s phi theta m i))) (fun i st => h _ _ _ _ _) st) st

theorem plainLoop_sum {σ : Type} [AddCommMonoid σ] (s : Surf) (phi theta : ℝ) (body : Nat → Nat → ℝ → ℝ → σ → σ) (inc : Nat → Nat → ℝ → ℝ → σ)
    (h : ∀ m i sn cs st, body m i sn cs st = st + inc m i sn cs) (st : σ) :
    plainLoop s phi theta body st = st + ∑ m ∈ Finset.range (s.mpol + 1), ∑ i ∈ Finset.range s.width,
      inc m i (Real.sin (angle s phi theta m i)) (Real.cos (angle s phi theta m i)) := by
  rw [Finset.sum_comm]
  exact foldl_sum _ _ _ (fun i st => foldl_sum _ _ (fun m => inc m i (Real.sin (angle s phi theta m i)) (Real.cos (angle s phi theta m i))) (fun m st => h _ _ _ _ _) st) st

/-! ### Every array is a linear combination of the coefficients -/

/-- The contribution of one mode. -/
noncomputable def modeTerm (s : Surf) (B : Kind → Nat × Nat → V3) (m i : Nat) : V3 :=
  s.at .rc m i • B .rc (m, i) + (if s.stellsym then 0 else s.at .rs m i • B .rs (m, i) + s.at .zc m i • B .zc (m, i)) + s.at .zs m i • B .zs (m, i)

/-- Sum over all the modes. -/
noncomputable def lin (s : Surf) (B : Kind → Nat × Nat → V3) : V3 :=
  ∑ m ∈ Finset.range (s.mpol + 1), ∑ i ∈ Finset.range s.width, modeTerm s B m i

/-- The six arrays at one quadrature point. -/
noncomputable def value (s : Surf) (junk : Nat → ℝ × ℝ) (f : Fam) (p q : ℝ) : V3 :=
  match f with
  | .g => gamma s junk p q
  | .g1 => gammadash1 s junk p q
  | .g2 => gammadash2 s junk p q
  | .g11 => gammadash11 s p q
  | .g12 => gammadash12 s p q
  | .g22 => gammadash22 s p q

theorem post_sum {σ : Type} [AddCommMonoid σ] (post : σ → V3) (h0 : post 0 = 0) (ha : ∀ a b, post (a + b) = post a + post b)
    (M W : Nat) (f : Nat → Nat → σ) (g : Nat → Nat → V3) (h : ∀ m i, post (f m i) = g m i) :
    post (0 + ∑ m ∈ Finset.range M, ∑ i ∈ Finset.range W, f m i) = ∑ m ∈ Finset.range M, ∑ i ∈ Finset.range W, g m i := by
  let φ : σ →+ V3 := ⟨⟨post, h0⟩, ha⟩
  have : post = φ := rfl
  rw [zero_add, this, map_sum]
  apply Finset.sum_congr rfl; intro m _
  rw [map_sum]
  apply Finset.sum_congr rfl; intro i _
  rw [← this, h]

theorem gamma_lin (s : Surf) (p q : ℝ) :
    gammaLin s p q = lin s fun k mi => dRow s .g k (2 * Real.pi * p) (2 * Real.pi * q) mi := by
  simp only [gammaLin]
  rw [linLoop_sum s _ _ (gammaBody s) (fun m i sn cs => (s.at .rc m i * cs + (if s.stellsym then 0 else s.at .rs m i * sn),
      (if s.stellsym then 0 else s.at .zc m i * cs) + s.at .zs m i * sn))
    (fun m i sn cs st => by
      cases h : s.stellsym <;> refine Prod.ext ?_ ?_ <;> simp [gammaBody, h] <;> ring)]
  exact post_sum (fun rz : ℝ × ℝ => ((rz.1 * Real.cos (2 * Real.pi * p), rz.1 * Real.sin (2 * Real.pi * p), rz.2) : V3)) (by simp)
    (fun a b => by refine Prod.ext ?_ (Prod.ext ?_ ?_) <;> simp <;> ring) _ _ _ _ (fun m i => by
      cases h : s.stellsym <;> refine Prod.ext ?_ (Prod.ext ?_ ?_) <;> simp [modeTerm, dRow, h] <;> ring)

theorem value_lin (s : Surf) (junk : Nat → ℝ × ℝ) (f : Fam) (p q : ℝ) :
    value s junk f p q = lin s fun k mi => dRow s f k (2 * Real.pi * p) (2 * Real.pi * q) mi := by
  cases f with
  | g =>
    rw [← gamma_lin]
    simp only [value, gamma, gammaLin, modeLoop_eq]
  | g1 =>
    simp only [value, gammadash1, modeLoop_eq]
    rw [linLoop_sum s _ _ (dash1Body s) (fun m i sn cs => (s.at .rc m i * cs + (if s.stellsym then 0 else s.at .rs m i * sn),
        s.at .rc m i * nn s i * sn + (if s.stellsym then 0 else s.at .rs m i * (-(nn s i)) * cs),
        (if s.stellsym then 0 else s.at .zc m i * nn s i * sn) + s.at .zs m i * (-(nn s i)) * cs))
      (fun m i sn cs st => by
        cases h : s.stellsym <;> refine Prod.ext ?_ (Prod.ext ?_ ?_) <;> simp [dash1Body, h] <;> ring)]
    exact post_sum (fun a : ℝ × ℝ × ℝ => ((2 * Real.pi * (a.2.1 * Real.cos (2 * Real.pi * p) - a.1 * Real.sin (2 * Real.pi * p)),
        2 * Real.pi * (a.2.1 * Real.sin (2 * Real.pi * p) + a.1 * Real.cos (2 * Real.pi * p)), a.2.2 * (2 * Real.pi)) : V3)) (by simp)
      (fun a b => by refine Prod.ext ?_ (Prod.ext ?_ ?_) <;> simp <;> ring) _ _ _ _ (fun m i => by
        cases h : s.stellsym <;> refine Prod.ext ?_ (Prod.ext ?_ ?_) <;> simp [modeTerm, dRow, h] <;> ring)
  | g2 =>
    simp only [value, gammadash2, modeLoop_eq]
    rw [linLoop_sum s _ _ (dash2Body s) (fun m i sn cs => (s.at .rc m i * (-(m : ℝ)) * sn + (if s.stellsym then 0 else s.at .rs m i * m * cs),
        (if s.stellsym then 0 else s.at .zc m i * (-(m : ℝ)) * sn) + s.at .zs m i * m * cs))
      (fun m i sn cs st => by
        cases h : s.stellsym <;> refine Prod.ext ?_ ?_ <;> simp [dash2Body, h] <;> ring)]
    exact post_sum (fun a : ℝ × ℝ => ((2 * Real.pi * a.1 * Real.cos (2 * Real.pi * p), 2 * Real.pi * a.1 * Real.sin (2 * Real.pi * p), a.2 * (2 * Real.pi)) : V3)) (by simp)
      (fun a b => by refine Prod.ext ?_ (Prod.ext ?_ ?_) <;> simp <;> ring) _ _ _ _ (fun m i => by
        cases h : s.stellsym <;> refine Prod.ext ?_ (Prod.ext ?_ ?_) <;> simp [modeTerm, dRow, h] <;> ring)
  | g11 =>
    simp only [value, gammadash11]
    rw [plainLoop_sum s _ _ (dash11Body s) (fun m i sn cs => (s.at .rc m i * cs + (if s.stellsym then 0 else s.at .rs m i * sn),
        -(s.at .rc m i) * (-(nn s i)) * sn + (if s.stellsym then 0 else s.at .rs m i * (-(nn s i)) * cs),
        -(s.at .rc m i) * (-(nn s i)) * (-(nn s i)) * cs + (if s.stellsym then 0 else -(s.at .rs m i) * (-(nn s i)) * (-(nn s i)) * sn),
        (if s.stellsym then 0 else -(s.at .zc m i) * (-(nn s i)) * (-(nn s i)) * cs) + -(s.at .zs m i) * (-(nn s i)) * (-(nn s i)) * sn))
      (fun m i sn cs st => by
        cases h : s.stellsym <;> refine Prod.ext ?_ (Prod.ext ?_ (Prod.ext ?_ ?_)) <;> simp [dash11Body, h] <;> ring)]
    exact post_sum (fun a : ℝ × ℝ × ℝ × ℝ =>
        ((4 * Real.pi * Real.pi * (a.2.2.1 * Real.cos (2 * Real.pi * p) - 2 * a.2.1 * Real.sin (2 * Real.pi * p) - a.1 * Real.cos (2 * Real.pi * p)),
          4 * Real.pi * Real.pi * (a.2.2.1 * Real.sin (2 * Real.pi * p) + 2 * a.2.1 * Real.cos (2 * Real.pi * p) - a.1 * Real.sin (2 * Real.pi * p)),
          4 * Real.pi * Real.pi * a.2.2.2) : V3)) (by simp)
      (fun a b => by refine Prod.ext ?_ (Prod.ext ?_ ?_) <;> simp <;> ring) _ _ _ _ (fun m i => by
        cases h : s.stellsym <;> refine Prod.ext ?_ (Prod.ext ?_ ?_) <;> simp [modeTerm, dRow, h] <;> ring)
  | g12 =>
    simp only [value, gammadash12]
    rw [plainLoop_sum s _ _ (dash12Body s) (fun m i sn cs => (-(s.at .rc m i) * m * sn + (if s.stellsym then 0 else s.at .rs m i * m * cs),
        -(s.at .rc m i) * (-(nn s i)) * m * cs + (if s.stellsym then 0 else -(s.at .rs m i) * (-(nn s i)) * m * sn),
        (if s.stellsym then 0 else -(s.at .zc m i) * (-(nn s i)) * m * cs) + -(s.at .zs m i) * (-(nn s i)) * m * sn))
      (fun m i sn cs st => by
        cases h : s.stellsym <;> refine Prod.ext ?_ (Prod.ext ?_ ?_) <;> simp [dash12Body, h] <;> ring)]
    exact post_sum (fun a : ℝ × ℝ × ℝ => ((4 * Real.pi * Real.pi * (a.2.1 * Real.cos (2 * Real.pi * p) - a.1 * Real.sin (2 * Real.pi * p)),
        4 * Real.pi * Real.pi * (a.2.1 * Real.sin (2 * Real.pi * p) + a.1 * Real.cos (2 * Real.pi * p)), 4 * Real.pi * Real.pi * a.2.2) : V3)) (by simp)
      (fun a b => by refine Prod.ext ?_ (Prod.ext ?_ ?_) <;> simp <;> ring) _ _ _ _ (fun m i => by
        cases h : s.stellsym <;> refine Prod.ext ?_ (Prod.ext ?_ ?_) <;> simp [modeTerm, dRow, h] <;> ring)
  | g22 =>
    simp only [value, gammadash22]
    rw [plainLoop_sum s _ _ (dash22Body s) (fun m i sn cs => (-(s.at .rc m i) * m * m * cs + (if s.stellsym then 0 else -(s.at .rs m i) * m * m * sn),
        (if s.stellsym then 0 else -(s.at .zc m i) * m * m * cs) + -(s.at .zs m i) * m * m * sn))
      (fun m i sn cs st => by
        cases h : s.stellsym <;> refine Prod.ext ?_ ?_ <;> simp [dash22Body, h] <;> ring)]
    exact post_sum (fun a : ℝ × ℝ => ((4 * Real.pi * Real.pi * a.1 * Real.cos (2 * Real.pi * p), 4 * Real.pi * Real.pi * a.1 * Real.sin (2 * Real.pi * p),
        4 * Real.pi * Real.pi * a.2) : V3)) (by simp)
      (fun a b => by refine Prod.ext ?_ (Prod.ext ?_ ?_) <;> simp <;> ring) _ _ _ _ (fun m i => by
        cases h : s.stellsym <;> refine Prod.ext ?_ (Prod.ext ?_ ?_) <;> simp [modeTerm, dRow, h] <;> ring)

/-! ### Derivatives in the angles -/

theorem d_angle1 (s : Surf) (theta : ℝ) (m i : Nat) (p : ℝ) :
    HasDerivAt (fun p => angle s (2 * Real.pi * p) theta m i) (-(nn s i) * (2 * Real.pi)) p := by
  have h := ((hasDerivAt_id p).const_mul (2 * Real.pi)).const_mul (((i : ℝ) - s.ntor) * s.nfp)
  exact (h.const_sub ((m : ℝ) * theta)).congr_deriv (by simp only [nn]; ring)

theorem d_angle2 (s : Surf) (phi : ℝ) (m i : Nat) (q : ℝ) :
    HasDerivAt (fun q => angle s phi (2 * Real.pi * q) m i) (m * (2 * Real.pi)) q := by
  have h := ((hasDerivAt_id q).const_mul (2 * Real.pi)).const_mul (m : ℝ)
  exact (h.sub_const (((i : ℝ) - s.ntor) * s.nfp * phi)).congr_deriv (by ring)

theorem d_lin {B : ℝ → Kind → Nat × Nat → V3} {B' : Kind → Nat × Nat → V3} (s : Surf) (x : ℝ)
    (h : ∀ k mi, HasDerivAt (fun x => B x k mi) (B' k mi) x) : HasDerivAt (fun x => lin s (B x)) (lin s B') x := by
  simp only [lin]
  refine HasDerivAt.fun_sum fun m _ => HasDerivAt.fun_sum fun i _ => ?_
  simp only [modeTerm]
  have hk : ∀ (k : Kind) (c : ℝ), HasDerivAt (fun x => c • B x k (m, i)) (c • B' k (m, i)) x := fun k c => (h k (m, i)).const_smul c
  cases hs : s.stellsym with
  | true => simp only [if_true]; exact ((hk .rc _).add (hasDerivAt_const x (0 : V3))).add (hk .zs _)
  | false => simp only [Bool.false_eq_true, if_false]; exact ((hk .rc _).add ((hk .rs _).add (hk .zc _))).add (hk .zs _)

/-- Which array is the derivative in `phi`. -/
def d1 : Fam → Option Fam | .g => some .g1 | .g1 => some .g11 | .g2 => some .g12 | _ => none
/-- Which array is the derivative in `theta`. -/
def d2 : Fam → Option Fam | .g => some .g2 | .g1 => some .g12 | .g2 => some .g22 | _ => none

theorem dRow_d1 (s : Surf) (f f' : Fam) (hf : d1 f = some f') (k : Kind) (mi : Nat × Nat) (theta p : ℝ) :
    HasDerivAt (fun p => dRow s f k (2 * Real.pi * p) theta mi) (dRow s f' k (2 * Real.pi * p) theta mi) p := by
  obtain ⟨m, i⟩ := mi
  have hsa := (d_angle1 s theta m i p).sin
  have hca := (d_angle1 s theta m i p).cos
  have h2 : HasDerivAt (fun p : ℝ => 2 * Real.pi * p) (2 * Real.pi) p := by simpa using (hasDerivAt_id p).const_mul (2 * Real.pi)
  have hsp := h2.sin
  have hcp := h2.cos
  have z : HasDerivAt (fun _ : ℝ => (0 : ℝ)) 0 p := hasDerivAt_const _ _
  generalize hw : nn s i = w at *
  cases f <;> simp only [d1, Option.some.injEq, reduceCtorEq] at hf <;> subst hf <;> cases k <;> simp only [dRow, hw]
  · exact ((hca.mul hcp).congr_deriv (by ring)).prodMk (((hca.mul hsp).congr_deriv (by ring)).prodMk z)
  · exact ((hsa.mul hcp).congr_deriv (by ring)).prodMk (((hsa.mul hsp).congr_deriv (by ring)).prodMk z)
  · exact z.prodMk (z.prodMk (hca.congr_deriv (by ring)))
  · exact z.prodMk (z.prodMk (hsa.congr_deriv (by ring)))
  · exact ((((hsa.const_mul w).mul hcp).sub (hca.mul hsp)).const_mul (2 * Real.pi) |>.congr_deriv (by ring)).prodMk
      (((((hsa.const_mul w).mul hsp).add (hca.mul hcp)).const_mul (2 * Real.pi) |>.congr_deriv (by ring)).prodMk z)
  · exact ((((hca.const_mul (-w)).mul hcp).sub (hsa.mul hsp)).const_mul (2 * Real.pi) |>.congr_deriv (by ring)).prodMk
      (((((hca.const_mul (-w)).mul hsp).add (hsa.mul hcp)).const_mul (2 * Real.pi) |>.congr_deriv (by ring)).prodMk z)
  · exact z.prodMk (z.prodMk ((hsa.const_mul (2 * Real.pi * w)).congr_deriv (by ring)))
  · exact z.prodMk (z.prodMk ((hca.const_mul (2 * Real.pi * (-w))).congr_deriv (by ring)))
  · exact ((((hsa.const_mul (2 * Real.pi * (-(m : ℝ)))).mul hcp)).congr_deriv (by ring)).prodMk
      (((((hsa.const_mul (2 * Real.pi * (-(m : ℝ)))).mul hsp)).congr_deriv (by ring)).prodMk z)
  · exact ((((hca.const_mul (2 * Real.pi * (m : ℝ))).mul hcp)).congr_deriv (by ring)).prodMk
      (((((hca.const_mul (2 * Real.pi * (m : ℝ))).mul hsp)).congr_deriv (by ring)).prodMk z)
  · exact z.prodMk (z.prodMk ((hsa.const_mul (2 * Real.pi * (-(m : ℝ)))).congr_deriv (by ring)))
  · exact z.prodMk (z.prodMk ((hca.const_mul (2 * Real.pi * (m : ℝ))).congr_deriv (by ring)))

theorem dRow_d2 (s : Surf) (f f' : Fam) (hf : d2 f = some f') (k : Kind) (mi : Nat × Nat) (phi q : ℝ) :
    HasDerivAt (fun q => dRow s f k phi (2 * Real.pi * q) mi) (dRow s f' k phi (2 * Real.pi * q) mi) q := by
  obtain ⟨m, i⟩ := mi
  have hsa := (d_angle2 s phi m i q).sin
  have hca := (d_angle2 s phi m i q).cos
  have z : HasDerivAt (fun _ : ℝ => (0 : ℝ)) 0 q := hasDerivAt_const _ _
  generalize hw : nn s i = w at *
  cases f <;> simp only [d2, Option.some.injEq, reduceCtorEq] at hf <;> subst hf <;> cases k <;> simp only [dRow, hw]
  · exact ((hca.mul_const _).congr_deriv (by ring)).prodMk (((hca.mul_const _).congr_deriv (by ring)).prodMk z)
  · exact ((hsa.mul_const _).congr_deriv (by ring)).prodMk (((hsa.mul_const _).congr_deriv (by ring)).prodMk z)
  · exact z.prodMk (z.prodMk (hca.congr_deriv (by ring)))
  · exact z.prodMk (z.prodMk (hsa.congr_deriv (by ring)))
  · exact ((((hsa.const_mul w).mul_const (Real.cos phi)).sub (hca.mul_const (Real.sin phi))).const_mul (2 * Real.pi) |>.congr_deriv (by ring)).prodMk
      (((((hsa.const_mul w).mul_const (Real.sin phi)).add (hca.mul_const (Real.cos phi))).const_mul (2 * Real.pi) |>.congr_deriv (by ring)).prodMk z)
  · exact ((((hca.const_mul (-w)).mul_const (Real.cos phi)).sub (hsa.mul_const (Real.sin phi))).const_mul (2 * Real.pi) |>.congr_deriv (by ring)).prodMk
      (((((hca.const_mul (-w)).mul_const (Real.sin phi)).add (hsa.mul_const (Real.cos phi))).const_mul (2 * Real.pi) |>.congr_deriv (by ring)).prodMk z)
  · exact z.prodMk (z.prodMk ((hsa.const_mul (2 * Real.pi * w)).congr_deriv (by ring)))
  · exact z.prodMk (z.prodMk ((hca.const_mul (2 * Real.pi * (-w))).congr_deriv (by ring)))
  · exact ((((hsa.const_mul (2 * Real.pi * (-(m : ℝ)))).mul_const _)).congr_deriv (by ring)).prodMk
      (((((hsa.const_mul (2 * Real.pi * (-(m : ℝ)))).mul_const _)).congr_deriv (by ring)).prodMk z)
  · exact ((((hca.const_mul (2 * Real.pi * (m : ℝ))).mul_const _)).congr_deriv (by ring)).prodMk
      (((((hca.const_mul (2 * Real.pi * (m : ℝ))).mul_const _)).congr_deriv (by ring)).prodMk z)
  · exact z.prodMk (z.prodMk ((hsa.const_mul (2 * Real.pi * (-(m : ℝ)))).congr_deriv (by ring)))
  · exact z.prodMk (z.prodMk ((hca.const_mul (2 * Real.pi * (m : ℝ))).congr_deriv (by ring)))

theorem value_d1 (s : Surf) (junk : Nat → ℝ × ℝ) (f f' : Fam) (hf : d1 f = some f') (p q : ℝ) :
    HasDerivAt (fun p => value s junk f p q) (value s junk f' p q) p := by
  simp only [value_lin]
  exact d_lin s p fun k mi => dRow_d1 s f f' hf k mi _ p

theorem value_d2 (s : Surf) (junk : Nat → ℝ × ℝ) (f f' : Fam) (hf : d2 f = some f') (p q : ℝ) :
    HasDerivAt (fun q => value s junk f p q) (value s junk f' p q) q := by
  simp only [value_lin]
  exact d_lin s q fun k mi => dRow_d2 s f f' hf k mi _ q

/-- **C66.** `gammadash1` and `gammadash2` are the partial derivatives of `gamma` in the two surface parameters. -/
theorem C66_first_derivatives (s : Surf) (junk : Nat → ℝ × ℝ) (p q : ℝ) :
    HasDerivAt (fun p => gamma s junk p q) (gammadash1 s junk p q) p ∧
    HasDerivAt (fun q => gamma s junk p q) (gammadash2 s junk p q) q :=
  ⟨value_d1 s junk .g .g1 rfl p q, value_d2 s junk .g .g2 rfl p q⟩

/-- **C66.** `gammadash1dash1`, `gammadash1dash2` and `gammadash2dash2` are the second partial derivatives (the mixed one in either order). -/
theorem C66_second_derivatives (s : Surf) (junk : Nat → ℝ × ℝ) (p q : ℝ) :
    HasDerivAt (fun p => gammadash1 s junk p q) (gammadash11 s p q) p ∧
    HasDerivAt (fun q => gammadash1 s junk p q) (gammadash12 s p q) q ∧
    HasDerivAt (fun p => gammadash2 s junk p q) (gammadash12 s p q) p ∧
    HasDerivAt (fun q => gammadash2 s junk p q) (gammadash22 s p q) q :=
  ⟨value_d1 s junk .g1 .g11 rfl p q, value_d2 s junk .g1 .g12 rfl p q, value_d1 s junk .g2 .g12 rfl p q, value_d2 s junk .g2 .g22 rfl p q⟩

/-! ### The documented series -/

/-- The coefficient `k_{m,n}` as the accessors return it. -/
noncomputable def coef (s : Surf) (k : Kind) (m : Nat) (n : Int) : ℝ := (getCoef s k m n).getD 0

/-- The documented series (surfacerzfourier.py L30-45) with cosine coefficients `c` and sine coefficients `d`:
`Σ_{m=0}^{mpol} Σ_{n=-ntor}^{ntor} c_{m,n} cos(m θ - nfp n φ) + d_{m,n} sin(m θ - nfp n φ)`, without the terms `m = 0, n < 0` and the
sine term `m = n = 0`. -/
noncomputable def series (s : Surf) (c d : Nat → Int → ℝ) (phi theta : ℝ) : ℝ :=
  ∑ m ∈ Finset.range (s.mpol + 1), ∑ n ∈ Finset.Icc (-(s.ntor : Int)) s.ntor,
    ((if m = 0 ∧ n < 0 then 0 else c m n * Real.cos (m * theta - s.nfp * n * phi)) +
     (if m = 0 ∧ n ≤ 0 then 0 else d m n * Real.sin (m * theta - s.nfp * n * phi)))

/-- No amplitude is stored in the array entries `m = 0, n < 0`, which are not dofs. -/
def Clean (s : Surf) : Prop := ∀ (k : Kind) (j : Nat), j < s.ntor → s.buf k j = 0

theorem sum_icc {M : Type} [AddCommMonoid M] (s : Surf) (f : Int → M) : ∑ n ∈ Finset.Icc (-(s.ntor : Int)) s.ntor, f n = ∑ i ∈ Finset.range s.width, f ((i : Int) - s.ntor) := by
  symm
  apply Finset.sum_nbij' (fun i : Nat => (i : Int) - s.ntor) (fun n : Int => (n + s.ntor).toNat)
  · intro i hi; simp [Surf.width] at hi ⊢; omega
  · intro n hn; simp [Surf.width] at hn ⊢; omega
  · intro i hi; simp
  · intro n hn; simp at hn ⊢; omega
  · intro i hi; rfl

theorem coef_at (s : Surf) (k : Kind) (m i : Nat) (hm : m < s.mpol + 1) (hi : i < s.width) :
    coef s k m ((i : Int) - s.ntor) = if available s k then s.at k m i else 0 := by
  have hv : validMn s (m : Int) ((i : Int) - s.ntor) = true := by
    simp only [Surf.width] at hi
    simp only [validMn, Bool.and_eq_true, Bool.not_eq_true', decide_eq_false_iff_not]
    refine ⟨⟨⟨?_, ?_⟩, ?_⟩, ?_⟩ <;> omega
  simp only [coef, getCoef, hv, Bool.and_true, sub_add_cancel, Int.toNat_natCast]
  split <;> rfl

/-- **C66.** `gamma()` at the quadrature point `(p, q)` is the point with cylindrical coordinates `(r, φ, z)`, `φ = 2πp`, `θ = 2πq`, where `r` and `z` are
the documented Fourier series of the amplitudes returned by `get_rc`, `get_rs`, `get_zc`, `get_zs` (the last two zero for stellarator-symmetric surfaces);
`gamma_lin` gives the same point.  For every `mpol`, `ntor` and `nfp`, whatever the uninitialised variables contain. -/
theorem C66_gamma (s : Surf) (hc : Clean s) (junk : Nat → ℝ × ℝ) (p q : ℝ) :
    let phi := 2 * Real.pi * p
    let r := series s (coef s .rc) (coef s .rs) phi (2 * Real.pi * q)
    let z := series s (coef s .zc) (coef s .zs) phi (2 * Real.pi * q)
    gamma s junk p q = (r * Real.cos phi, r * Real.sin phi, z) ∧ gammaLin s p q = (r * Real.cos phi, r * Real.sin phi, z) := by
  intro phi r z
  have e : gamma s junk p q = gammaLin s p q := by
    rw [gamma_lin]; exact value_lin s junk .g p q
  rw [e]
  refine ⟨?_, ?_⟩ <;>
  · simp only [gammaLin]
    rw [linLoop_sum s _ _ (gammaBody s) (fun m i sn cs => (s.at .rc m i * cs + (if s.stellsym then 0 else s.at .rs m i * sn),
        (if s.stellsym then 0 else s.at .zc m i * cs) + s.at .zs m i * sn))
      (fun m i sn cs st => by
        cases h : s.stellsym <;> refine Prod.ext ?_ ?_ <;> simp [gammaBody, h] <;> ring)]
    have key : ∀ (m i : Nat), m ∈ Finset.range (s.mpol + 1) → i ∈ Finset.range s.width → ∀ (kc ks : Kind),
        (if m = 0 ∧ (i : Int) - s.ntor < 0 then 0 else coef s kc m ((i : Int) - s.ntor) * Real.cos (m * (2 * Real.pi * q) - s.nfp * ((i : Int) - s.ntor : Int) * phi)) +
        (if m = 0 ∧ (i : Int) - s.ntor ≤ 0 then 0 else coef s ks m ((i : Int) - s.ntor) * Real.sin (m * (2 * Real.pi * q) - s.nfp * ((i : Int) - s.ntor : Int) * phi)) =
        (if available s kc then s.at kc m i else 0) * Real.cos (angle s phi (2 * Real.pi * q) m i) +
        (if available s ks then s.at ks m i else 0) * Real.sin (angle s phi (2 * Real.pi * q) m i) := by
      intro m i hm hi kc ks
      have hm := Finset.mem_range.mp hm
      have hi := Finset.mem_range.mp hi
      have ha : (m : ℝ) * (2 * Real.pi * q) - s.nfp * ((i : Int) - s.ntor : Int) * phi = angle s phi (2 * Real.pi * q) m i := by
        simp only [angle]; push_cast; ring
      rw [ha, coef_at s kc m i hm hi, coef_at s ks m i hm hi]
      congr 1
      · split
        · rename_i h
          have : s.at kc m i = 0 := by
            rw [Surf.at, h.1, Nat.zero_mul, Nat.zero_add]; exact hc kc i (by omega)
          simp [this]
        · rfl
      · split
        · rename_i h
          by_cases h0 : (i : Int) - s.ntor = 0
          · have : angle s phi (2 * Real.pi * q) m i = 0 := by
              have : (i : ℝ) - s.ntor = 0 := by exact_mod_cast h0
              simp [angle, this, h.1]
            rw [this]; simp
          · have : s.at ks m i = 0 := by
              rw [Surf.at, h.1, Nat.zero_mul, Nat.zero_add]; exact hc ks i (by omega)
            simp [this]
        · rfl
    have hr : r = ∑ m ∈ Finset.range (s.mpol + 1), ∑ i ∈ Finset.range s.width,
        ((if available s .rc then s.at .rc m i else 0) * Real.cos (angle s phi (2 * Real.pi * q) m i) + (if available s .rs then s.at .rs m i else 0) * Real.sin (angle s phi (2 * Real.pi * q) m i)) := by
      simp only [r, series, sum_icc]
      exact Finset.sum_congr rfl fun m hm => Finset.sum_congr rfl fun i hi => key m i hm hi .rc .rs
    have hz : z = ∑ m ∈ Finset.range (s.mpol + 1), ∑ i ∈ Finset.range s.width,
        ((if available s .zc then s.at .zc m i else 0) * Real.cos (angle s phi (2 * Real.pi * q) m i) + (if available s .zs then s.at .zs m i else 0) * Real.sin (angle s phi (2 * Real.pi * q) m i)) := by
      simp only [z, series, sum_icc]
      exact Finset.sum_congr rfl fun m hm => Finset.sum_congr rfl fun i hi => key m i hm hi .zc .zs
    rw [hr, hz]
    cases h : s.stellsym <;> simp [available, h, Prod.fst_sum, Prod.snd_sum, phi]

end Simsopt.RZSurf
