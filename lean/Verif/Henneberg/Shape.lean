import Verif.Henneberg.Model
import Verif.Surfaces.RZSym
/-! # C142: SurfaceHenneberg, shape, derivatives, conversion to SurfaceRZFourier -/
namespace Simsopt.Henne
open Simsopt Simsopt.Coils Simsopt.RZSurf

/-! ### Specification -/

/-- The modes of `ρ` (L57-65): `m` from 0 through `mmax`, `n` from `-nmax` (from 1 if `m = 0`) through `nmax`. -/
noncomputable def rhoSeries (h : Hen) (c : Int → Int → ℝ) (ang : Int → Int → ℝ) : ℝ :=
  ∑ m ∈ Finset.range (h.mmax + 1), ∑ n ∈ Finset.Icc (if m = 0 then 1 else -(h.nmax : Int)) h.nmax, c m n * Real.cos (ang m n)

/-- The position in cylindrical coordinates as documented (L36-50), with the angle of `ρ_{m,n}` as a parameter. -/
noncomputable def docRZ (h : Hen) (c : Int → Int → ℝ) (ang : Int → Int → ℝ) (α phi theta : ℝ) : ℝ × ℝ :=
  let R0H := ∑ n ∈ Finset.range (h.nmax + 1), h.R0 n * Real.cos (h.nfp * n * phi)
  let Z0H := ∑ n ∈ Finset.Icc 1 h.nmax, h.Z0 n * Real.sin (h.nfp * n * phi)
  let ζ := ∑ n ∈ Finset.range (h.nmax + 1), h.b n * Real.cos (h.nfp * n * phi) * Real.sin (theta - α * phi)
  let ρ := rhoSeries h c ang
  (R0H + ρ * Real.cos (α * phi) - ζ * Real.sin (α * phi), Z0H + ρ * Real.sin (α * phi) + ζ * Real.cos (α * phi))

/-- What the constructor validates. -/
def Ok (h : Hen) : Prop := 1 ≤ h.nfp ∧ (h.alphaFac = -1 ∨ h.alphaFac = 0 ∨ h.alphaFac = 1) ∧ 1 ≤ h.mmax

/-- `get_rhomn(m, n)`. -/
noncomputable def coefRho (h : Hen) (m n : Int) : ℝ := (getRho h m n).getD 0

/-! ### Loops -/

theorem loop_sum {ι : Type} (l : List ι) (f : ι → ℝ) : loop l f = (l.map f).sum := by
  have : ∀ (l : List ι) (a : ℝ), l.foldl (fun acc i => acc + f i) a = a + (l.map f).sum := by
    intro l
    induction l with
    | nil => simp
    | cons i l ih => intro a; rw [List.foldl_cons, ih, List.map_cons, List.sum_cons]; ring
  rw [loop, this, zero_add]

theorem loop_range (n : Nat) (f : Nat → ℝ) : loop (List.range n) f = ∑ i ∈ Finset.range n, f i := by
  rw [loop_sum]; induction n with
  | zero => simp
  | succ n ih => rw [List.range_succ, List.map_append, List.sum_append, ih, Finset.sum_range_succ]; simp

theorem sum_intRange (a b : Int) (f : Int → ℝ) : ((intRange a (b + 1)).map f).sum = ∑ n ∈ Finset.Icc a b, f n := by
  have hn : (intRange a (b + 1)).Nodup := by
    unfold intRange
    apply List.Nodup.map _ List.nodup_range
    intro x y h; simpa using h
  rw [← List.sum_toFinset f hn]
  apply Finset.sum_congr _ fun _ _ => rfl
  ext k
  rw [List.mem_toFinset, Garab.mem_intRange, Finset.mem_Icc]; omega

theorem sum_rhoModes (h : Hen) (f : Int × Int → ℝ) :
    ((rhoModes h).map f).sum = ∑ m ∈ Finset.range (h.mmax + 1), ∑ n ∈ Finset.Icc (if m = 0 then 1 else -(h.nmax : Int)) h.nmax, f (m, n) := by
  have e : ((rhoModes h).map f).sum = ((List.range (h.mmax + 1)).map fun (m : Nat) => ((intRange (if m = 0 then 1 else -(h.nmax : Int)) (h.nmax + 1)).map fun n => f ((m : Int), n)).sum).sum := by
    unfold rhoModes
    generalize List.range (h.mmax + 1) = l
    induction l with
    | nil => rfl
    | cons a l ih => rw [List.flatMap_cons, List.map_append, List.sum_append, ih, List.map_cons, List.sum_cons, List.map_map]; rfl
  rw [e, ← loop_sum, loop_range]
  exact Finset.sum_congr rfl fun m _ => sum_intRange _ _ _

theorem mem_rhoModes (h : Hen) (m n : Int) : (m, n) ∈ rhoModes h ↔ validMn h m n = true := by
  simp only [rhoModes, List.mem_flatMap, List.mem_range, List.mem_map, Garab.mem_intRange, Prod.mk.injEq]
  simp only [validMn, Bool.and_eq_true, Bool.not_eq_true', decide_eq_false_iff_not, Bool.and_eq_false_imp, decide_eq_true_eq]
  constructor
  · rintro ⟨m', h1, n', ⟨h2, h3⟩, rfl, rfl⟩
    split at h2 <;> (refine ⟨⟨⟨⟨?_, ?_⟩, ?_⟩, ?_⟩, ?_⟩ <;> omega)
  · rintro ⟨⟨⟨⟨h1, h2⟩, h3⟩, h4⟩, h5⟩
    refine ⟨m.toNat, by omega, n, ⟨?_, by omega⟩, by omega, rfl⟩
    split <;> omega

theorem rhoModes_nonneg (h : Hen) (mn : Int × Int) (hm : mn ∈ rhoModes h) : 0 ≤ mn.1 ∧ mn.1 ≤ h.mmax ∧ -(h.nmax : Int) ≤ mn.2 ∧ mn.2 ≤ h.nmax := by
  have := (mem_rhoModes h mn.1 mn.2).mp hm
  simp only [validMn, Bool.and_eq_true, Bool.not_eq_true', decide_eq_false_iff_not] at this
  omega

/-- **C142.** `gamma()` is the documented position with the angle `m θ + nfp n φ - α φ` in `ρ` (the documentation has `- nfp n φ`, see below), `α = alpha_fac nfp / 2`. -/
theorem C142_gamma (h : Hen) (p q : ℝ) :
    let phi := 2 * Real.pi * p
    let theta := 2 * Real.pi * q
    let α := (h.alphaFac : ℝ) * h.nfp / 2
    let RZ := docRZ h (coefRho h) (fun m n => m * theta + h.nfp * n * phi - α * phi) α phi theta
    gamma h p q = (RZ.1 * Real.cos phi, RZ.1 * Real.sin phi, RZ.2) := by
  intro phi theta α RZ
  have e1 : p * 2 * Real.pi = phi := by simp only [phi]; ring
  have e2 : q * 2 * Real.pi = theta := by simp only [theta]; ring
  have e3 : alpha h = α := by simp only [alpha, α]; norm_num; ring
  have r0 : R0H h phi = ∑ n ∈ Finset.range (h.nmax + 1), h.R0 n * Real.cos (h.nfp * n * phi) := by rw [R0H, loop_range]
  have b0 : zeta h phi theta = ∑ n ∈ Finset.range (h.nmax + 1), h.b n * Real.cos (h.nfp * n * phi) * Real.sin (theta - α * phi) := by rw [zeta, bAt, loop_range, Finset.sum_mul, e3]
  have z0 : Z0H h phi = ∑ n ∈ Finset.Icc 1 h.nmax, h.Z0 n * Real.sin (h.nfp * n * phi) := by
    rw [Z0H, loop_sum, ← List.sum_toFinset _ (List.nodup_range')]
    apply Finset.sum_congr _ fun _ _ => rfl
    ext k; rw [List.mem_toFinset, List.mem_range'_1, Finset.mem_Icc]; omega
  have rr : rhoSum h phi theta = rhoSeries h (coefRho h) (fun m n => m * theta + h.nfp * n * phi - α * phi) := by
    rw [rhoSum, loop_sum, sum_rhoModes, rhoSeries]
    refine Finset.sum_congr rfl fun m _ => Finset.sum_congr rfl fun n _ => ?_
    simp only [rhoAt, coefRho, rhoAngle, e3]
  simp only [gamma, e1, e2, Rcyl, Zcyl, r0, b0, z0, rr, e3]
  rfl

/-! ### Derivatives -/

theorem hasDerivAt_loop {ι : Type} (l : List ι) (f : ℝ → ι → ℝ) (f' : ι → ℝ) (x : ℝ) (hf : ∀ i ∈ l, HasDerivAt (fun x => f x i) (f' i) x) :
    HasDerivAt (fun x => loop l (f x)) (loop l f') x := by
  simp only [loop_sum]
  induction l with
  | nil => simpa using hasDerivAt_const x (0 : ℝ)
  | cons i l ih =>
    simp only [List.map_cons, List.sum_cons]
    exact (hf i (List.mem_cons_self ..)).fun_add (ih fun j hj => hf j (List.mem_cons_of_mem _ hj))

theorem dcos (a c x : ℝ) : HasDerivAt (fun x => Real.cos (a * x + c)) (-Real.sin (a * x + c) * a) x := by
  have h : HasDerivAt (fun x => a * x + c) a x := (((hasDerivAt_id' x).const_mul a).add_const c).congr_deriv (by ring)
  exact h.cos

theorem dsin (a c x : ℝ) : HasDerivAt (fun x => Real.sin (a * x + c)) (Real.cos (a * x + c) * a) x := by
  have h : HasDerivAt (fun x => a * x + c) a x := (((hasDerivAt_id' x).const_mul a).add_const c).congr_deriv (by ring)
  exact h.sin

theorem d_R0H (h : Hen) (phi : ℝ) : HasDerivAt (R0H h) (dR0H h phi) phi := by
  refine hasDerivAt_loop _ (fun phi (n : Nat) => h.R0 n * Real.cos (h.nfp * n * phi)) _ phi fun n _ => ?_
  have := (dcos (h.nfp * n) 0 phi).const_mul (h.R0 n)
  simp only [add_zero] at this
  exact this.congr_deriv (by ring)

theorem d_b (h : Hen) (phi : ℝ) : HasDerivAt (bAt h) (db h phi) phi := by
  refine hasDerivAt_loop _ (fun phi (n : Nat) => h.b n * Real.cos (h.nfp * n * phi)) _ phi fun n _ => ?_
  have := (dcos (h.nfp * n) 0 phi).const_mul (h.b n)
  simp only [add_zero] at this
  exact this.congr_deriv (by ring)

theorem d_Z0H (h : Hen) (phi : ℝ) : HasDerivAt (Z0H h) (dZ0H h phi) phi := by
  have e : dZ0H h phi = loop (List.range' 1 h.nmax) fun n => h.Z0 n * Real.cos (h.nfp * n * phi) * h.nfp * n := by
    rw [dZ0H, loop_sum, List.range_eq_range', List.range'_succ, List.map_cons, List.sum_cons, loop_sum]
    simp only [gt_iff_lt, lt_irrefl, if_false, zero_add]
    congr 1
    apply List.map_congr_left
    intro n hn
    rw [List.mem_range'_1] at hn
    rw [if_pos (by omega)]
  rw [e]
  refine hasDerivAt_loop _ (fun phi (n : Nat) => h.Z0 n * Real.sin (h.nfp * n * phi)) _ phi fun n _ => ?_
  have := (dsin (h.nfp * n) 0 phi).const_mul (h.Z0 n)
  simp only [add_zero] at this
  exact this.congr_deriv (by ring)

theorem d_rho_phi (h : Hen) (phi theta : ℝ) : HasDerivAt (fun phi => rhoSum h phi theta) (dRhoPhi h phi theta) phi := by
  refine hasDerivAt_loop _ (fun phi mn => rhoAt h mn * Real.cos (rhoAngle h phi theta mn)) _ phi fun mn _ => ?_
  have e : ∀ phi, rhoAngle h phi theta mn = (h.nfp * mn.2 - alpha h) * phi + mn.1 * theta := fun phi => by simp only [rhoAngle]; ring
  simp only [e]
  exact ((dcos _ _ phi).const_mul (rhoAt h mn)).congr_deriv (by ring)

theorem d_rho_theta (h : Hen) (phi theta : ℝ) : HasDerivAt (fun theta => rhoSum h phi theta) (dRhoTheta h phi theta) theta := by
  refine hasDerivAt_loop _ (fun theta mn => rhoAt h mn * Real.cos (rhoAngle h phi theta mn)) _ theta fun mn _ => ?_
  have e : ∀ theta, rhoAngle h phi theta mn = mn.1 * theta + (h.nfp * mn.2 - alpha h) * phi := fun theta => by simp only [rhoAngle]; ring
  simp only [e]
  exact ((dcos _ _ theta).const_mul (rhoAt h mn)).congr_deriv (by ring)

theorem d_zeta_phi (h : Hen) (phi theta : ℝ) : HasDerivAt (fun phi => zeta h phi theta) (dZetaPhi h phi theta) phi := by
  have h2 := dsin (-alpha h) theta phi
  have e : ∀ phi, -alpha h * phi + theta = theta - alpha h * phi := fun phi => by ring
  simp only [e] at h2
  exact ((d_b h phi).fun_mul h2).congr_deriv (by simp only [dZetaPhi]; ring)

/-- **C142.** `gammadash1` and `gammadash2` are the derivatives of `gamma` in the two quadrature coordinates. -/
theorem C142_derivatives (h : Hen) (p q : ℝ) :
    HasDerivAt (fun p => gamma h p q) (gammadash1 h p q) p ∧ HasDerivAt (fun q => gamma h p q) (gammadash2 h p q) q := by
  have hp : HasDerivAt (fun p : ℝ => p * 2 * Real.pi) (2 * Real.pi) p := (((hasDerivAt_id' p).mul_const 2).mul_const Real.pi).congr_deriv (by ring)
  have hq : HasDerivAt (fun q : ℝ => q * 2 * Real.pi) (2 * Real.pi) q := (((hasDerivAt_id' q).mul_const 2).mul_const Real.pi).congr_deriv (by ring)
  constructor
  · generalize hth : q * 2 * Real.pi = theta
    have hph : ∀ {F : ℝ → ℝ} {F' : ℝ}, HasDerivAt F F' (p * 2 * Real.pi) → HasDerivAt (fun p => F (p * 2 * Real.pi)) (F' * (2 * Real.pi)) p :=
      fun {F F'} hF => HasDerivAt.comp (h₂ := F) (h := fun p : ℝ => p * 2 * Real.pi) p hF hp
    have ca : HasDerivAt (fun phi => Real.cos (alpha h * phi)) (-Real.sin (alpha h * (p * 2 * Real.pi)) * alpha h) (p * 2 * Real.pi) := by
      have := dcos (alpha h) 0 (p * 2 * Real.pi); simpa only [add_zero] using this
    have sa : HasDerivAt (fun phi => Real.sin (alpha h * phi)) (Real.cos (alpha h * (p * 2 * Real.pi)) * alpha h) (p * 2 * Real.pi) := by
      have := dsin (alpha h) 0 (p * 2 * Real.pi); simpa only [add_zero] using this
    have rho := d_rho_phi h (p * 2 * Real.pi) theta
    have zet := d_zeta_phi h (p * 2 * Real.pi) theta
    have hR : HasDerivAt (fun phi => Rcyl h phi theta) _ (p * 2 * Real.pi) := ((d_R0H h _).fun_add (rho.fun_mul ca)).fun_sub (zet.fun_mul sa)
    have hZ : HasDerivAt (fun phi => Zcyl h phi theta) _ (p * 2 * Real.pi) := ((d_Z0H h _).fun_add (rho.fun_mul sa)).fun_add (zet.fun_mul ca)
    have c := Real.hasDerivAt_cos (p * 2 * Real.pi)
    have s := Real.hasDerivAt_sin (p * 2 * Real.pi)
    have X := hph (hR.fun_mul c)
    have Y := hph (hR.fun_mul s)
    have Z := hph hZ
    have T := X.prodMk (Y.prodMk Z)
    simp only [gamma, hth]
    refine T.congr_deriv ?_
    simp only [gammadash1, hth]
    refine Prod.ext ?_ (Prod.ext ?_ ?_) <;> simp only [Rcyl] <;> ring
  · generalize hphi : p * 2 * Real.pi = phi
    have hth : ∀ {F : ℝ → ℝ} {F' : ℝ}, HasDerivAt F F' (q * 2 * Real.pi) → HasDerivAt (fun q => F (q * 2 * Real.pi)) (F' * (2 * Real.pi)) q :=
      fun {F F'} hF => HasDerivAt.comp (h₂ := F) (h := fun q : ℝ => q * 2 * Real.pi) q hF hq
    have rho := d_rho_theta h phi (q * 2 * Real.pi)
    have zet : HasDerivAt (fun theta => zeta h phi theta) (bAt h phi * Real.cos (q * 2 * Real.pi - alpha h * phi)) (q * 2 * Real.pi) := by
      have h2 := dsin 1 (-(alpha h * phi)) (q * 2 * Real.pi)
      simp only [one_mul, ← sub_eq_add_neg] at h2
      exact (h2.const_mul (bAt h phi)).congr_deriv (by ring)
    have hR : HasDerivAt (fun theta => Rcyl h phi theta) _ (q * 2 * Real.pi) := ((rho.mul_const (Real.cos (alpha h * phi))).const_add (R0H h phi)).fun_sub (zet.mul_const (Real.sin (alpha h * phi)))
    have hZ : HasDerivAt (fun theta => Zcyl h phi theta) _ (q * 2 * Real.pi) := ((rho.mul_const (Real.sin (alpha h * phi))).const_add (Z0H h phi)).fun_add (zet.mul_const (Real.cos (alpha h * phi)))
    have T := (hth (hR.mul_const (Real.cos phi))).prodMk ((hth (hR.mul_const (Real.sin phi))).prodMk (hth hZ))
    simp only [gamma, hphi]
    refine T.congr_deriv ?_
    simp only [gammadash2, hphi]
    refine Prod.ext ?_ (Prod.ext ?_ ?_) <;> simp only [] <;> ring

/-! ### Conversion to SurfaceRZFourier -/

/-- The two series of a `SurfaceRZFourier` over all stored coefficients. -/
noncomputable def sR (r : Surf) (u v : ℝ) : ℝ := ∑ m ∈ Finset.range (r.mpol + 1), ∑ n ∈ Finset.Icc (-(r.ntor : Int)) r.ntor, coef r .rc m n * Real.cos (m * u - n * v)
noncomputable def sZ (r : Surf) (u v : ℝ) : ℝ := ∑ m ∈ Finset.range (r.mpol + 1), ∑ n ∈ Finset.Icc (-(r.ntor : Int)) r.ntor, coef r .zs m n * Real.sin (m * u - n * v)

/-- The parameters of the surface under construction. -/
def Has (h : Hen) (r : Surf) : Prop := r.mpol = h.mmax ∧ r.ntor = h.nmax + 1 ∧ r.nfp = h.nfp ∧ r.stellsym = true

theorem sum_update (M N : Nat) (c c' : Nat → Int → ℝ) (t : Nat → Int → ℝ) (m0 : Nat) (n0 : Int) (x : ℝ) (hm : m0 ≤ M) (h1 : -(N : Int) ≤ n0) (h2 : n0 ≤ N)
    (hc : ∀ m n, c' m n = if m = m0 ∧ n = n0 then c m0 n0 + x else c m n) :
    ∑ m ∈ Finset.range (M + 1), ∑ n ∈ Finset.Icc (-(N : Int)) N, c' m n * t m n = (∑ m ∈ Finset.range (M + 1), ∑ n ∈ Finset.Icc (-(N : Int)) N, c m n * t m n) + x * t m0 n0 := by
  have e : ∀ m n, c' m n * t m n = c m n * t m n + if m = m0 then (if n = n0 then x * t m0 n0 else 0) else 0 := by
    intro m n
    rw [hc]
    by_cases ha : m = m0
    · by_cases hb : n = n0
      · subst ha; subst hb; simp; ring
      · simp [ha, hb]
    · simp [ha]
  simp only [e, Finset.sum_add_distrib]
  congr 1
  rw [Finset.sum_eq_single m0]
  · simp only [if_true]
    rw [Finset.sum_ite_eq' (Finset.Icc (-(N : Int)) N) n0, if_pos (Finset.mem_Icc.mpr ⟨h1, h2⟩)]
  · intro m _ hne; simp [hne]
  · intro hn; exact absurd (Finset.mem_range.mpr (by omega)) hn

theorem add_rc (h : Hen) (r : Surf) (hr : Has h r) (m n : Int) (x : ℝ) (h0 : 0 ≤ m) (hm : m ≤ h.mmax) (h1 : -((h.nmax : Int) + 1) ≤ n) (h2 : n ≤ h.nmax + 1) :
    ∃ r', add .rc r m n x = some r' ∧ Has h r' ∧ ∀ u v, sR r' u v = sR r u v + x * Real.cos (m * u - n * v) ∧ sZ r' u v = sZ r u v := by
  obtain ⟨M, rfl⟩ := Int.eq_ofNat_of_zero_le h0
  obtain ⟨p1, p2, p3, p4⟩ := hr
  have hn : (r.ntor : Int) = h.nmax + 1 := by rw [p2]; push_cast; rfl
  have hg := Garab.getCoef_some r .rc M n rfl h0 (by rw [p1]; exact hm) (by rw [hn]; exact h1) (by rw [hn]; exact h2)
  rw [Int.toNat_natCast] at hg
  obtain ⟨t, et, ⟨q1, q2, q3, q4⟩, ct⟩ := Garab.setCoef_some r .rc M n (coef r .rc M n + x) rfl (by rw [p1]; exact_mod_cast hm) (by rw [hn]; exact h1) (by rw [hn]; exact h2)
  refine ⟨t, by simp only [add, hg, bind, Option.bind]; exact et, ⟨by rw [q1, p1], by rw [q2, p2], by rw [q3, p3], by rw [q4, p4]⟩, fun u v => ⟨?_, ?_⟩⟩
  · rw [sR, sR, q1, q2]
    have := sum_update r.mpol r.ntor (fun m n => coef r .rc m n) (fun m n => coef t .rc m n) (fun m n => Real.cos (m * u - n * v)) M n x (by rw [p1]; exact_mod_cast hm)
      (by rw [hn]; exact h1) (by rw [hn]; exact h2) (fun m' n' => by rw [ct]; simp)
    simpa using this
  · rw [sZ, sZ, q1, q2]
    exact Finset.sum_congr rfl fun m' _ => Finset.sum_congr rfl fun n' _ => by rw [ct]; simp

theorem add_zs (h : Hen) (r : Surf) (hr : Has h r) (m n : Int) (x : ℝ) (h0 : 0 ≤ m) (hm : m ≤ h.mmax) (h1 : -((h.nmax : Int) + 1) ≤ n) (h2 : n ≤ h.nmax + 1) :
    ∃ r', add .zs r m n x = some r' ∧ Has h r' ∧ ∀ u v, sR r' u v = sR r u v ∧ sZ r' u v = sZ r u v + x * Real.sin (m * u - n * v) := by
  obtain ⟨M, rfl⟩ := Int.eq_ofNat_of_zero_le h0
  obtain ⟨p1, p2, p3, p4⟩ := hr
  have hn : (r.ntor : Int) = h.nmax + 1 := by rw [p2]; push_cast; rfl
  have hg := Garab.getCoef_some r .zs M n rfl h0 (by rw [p1]; exact hm) (by rw [hn]; exact h1) (by rw [hn]; exact h2)
  rw [Int.toNat_natCast] at hg
  obtain ⟨t, et, ⟨q1, q2, q3, q4⟩, ct⟩ := Garab.setCoef_some r .zs M n (coef r .zs M n + x) rfl (by rw [p1]; exact_mod_cast hm) (by rw [hn]; exact h1) (by rw [hn]; exact h2)
  refine ⟨t, by simp only [add, hg, bind, Option.bind]; exact et, ⟨by rw [q1, p1], by rw [q2, p2], by rw [q3, p3], by rw [q4, p4]⟩, fun u v => ⟨?_, ?_⟩⟩
  · rw [sR, sR, q1, q2]
    exact Finset.sum_congr rfl fun m' _ => Finset.sum_congr rfl fun n' _ => by rw [ct]; simp
  · rw [sZ, sZ, q1, q2]
    have := sum_update r.mpol r.ntor (fun m n => coef r .zs m n) (fun m n => coef t .zs m n) (fun m n => Real.sin (m * u - n * v)) M n x (by rw [p1]; exact_mod_cast hm)
      (by rw [hn]; exact h1) (by rw [hn]; exact h2) (fun m' n' => by rw [ct]; simp)
    simpa using this

theorem fold_add {ι : Type} (h : Hen) (l : List ι) (st : Surf → ι → Option Surf) (f g : ι → ℝ → ℝ → ℝ)
    (hst : ∀ r i, i ∈ l → Has h r → ∃ r', st r i = some r' ∧ Has h r' ∧ ∀ u v, sR r' u v = sR r u v + f i u v ∧ sZ r' u v = sZ r u v + g i u v) (r : Surf) (hr : Has h r) :
    ∃ r', l.foldlM st r = some r' ∧ Has h r' ∧ ∀ u v, sR r' u v = sR r u v + (l.map fun i => f i u v).sum ∧ sZ r' u v = sZ r u v + (l.map fun i => g i u v).sum := by
  induction l generalizing r with
  | nil => exact ⟨r, rfl, hr, fun u v => by simp⟩
  | cons i l ih =>
    obtain ⟨r1, e1, h1, c1⟩ := hst r i (List.mem_cons_self ..) hr
    obtain ⟨r2, e2, h2, c2⟩ := ih (fun r j hj => hst r j (List.mem_cons_of_mem _ hj)) r1 h1
    refine ⟨r2, by rw [List.foldlM_cons, e1]; exact e2, h2, fun u v => ?_⟩
    rw [(c2 u v).1, (c2 u v).2, (c1 u v).1, (c1 u v).2, List.map_cons, List.sum_cons, List.map_cons, List.sum_cons]
    constructor <;> ring

/-- **C142.** `to_RZFourier()` succeeds for every surface and returns a stellarator-symmetric `SurfaceRZFourier` with the same `nfp` and the same position at every quadrature
point. -/
theorem C142_to_RZFourier (h : Hen) (hk : Ok h) (hz : h.Z0 0 = 0) :
    ∃ r, toRZ h = some r ∧ r.stellsym = true ∧ r.nfp = h.nfp ∧ ∀ (junk : Nat → ℝ × ℝ) (p q : ℝ), RZSurf.gamma r junk p q = gamma h p q := by
  obtain ⟨_, ha, hm1⟩ := hk
  have hc : RZSurf.construct h.mmax (h.nmax + 1) h.nfp true = some (create h.mmax (h.nmax + 1) h.nfp true) := by simp [RZSurf.construct, hm1]
  let r0 : Surf := { create h.mmax (h.nmax + 1) h.nfp true with rc := fun _ => 0, zs := fun _ => 0 }
  have hr0 : Has h r0 := ⟨rfl, rfl, rfl, rfl⟩
  have z0 : ∀ k (m : Nat) (n : Int), (k = .rc ∨ k = .zs) → coef r0 k m n = 0 := by
    intro k m n hk
    rcases hk with rfl | rfl <;> simp only [coef, getCoef] <;> split <;> simp [Surf.at, Surf.buf, r0]
  have s0 : ∀ u v, sR r0 u v = 0 ∧ sZ r0 u v = 0 := by
    intro u v
    constructor
    · exact Finset.sum_eq_zero fun m _ => Finset.sum_eq_zero fun n _ => by rw [z0 .rc m n (Or.inl rfl), zero_mul]
    · exact Finset.sum_eq_zero fun m _ => Finset.sum_eq_zero fun n _ => by rw [z0 .zs m n (Or.inr rfl), zero_mul]
  obtain ⟨r1, e1, h1, c1⟩ := fold_add h (List.range (h.nmax + 1)) (stepR1 h)
    (fun n u v => h.R0 n * Real.cos (n * v) + h.b n * Real.cos (n * v) * (Real.cos u - Real.cos (u - h.alphaFac * v)) / 2) (fun _ _ _ => 0)
    (by
      intro r n hn hr
      have hn := List.mem_range.mp hn
      obtain ⟨a1, f1, g1, k1⟩ := add_rc h r hr 0 n (h.R0 n) (by omega) (by omega) (by omega) (by omega)
      obtain ⟨a2, f2, g2, k2⟩ := add_rc h a1 g1 1 n (0.25 * h.b n) (by omega) (by omega) (by omega) (by omega)
      obtain ⟨a3, f3, g3, k3⟩ := add_rc h a2 g2 1 (-n) (0.25 * h.b n) (by omega) (by omega) (by omega) (by omega)
      obtain ⟨a4, f4, g4, k4⟩ := add_rc h a3 g3 1 (n + h.alphaFac) (-(0.25 * h.b n)) (by omega) (by omega) (by omega) (by omega)
      obtain ⟨a5, f5, g5, k5⟩ := add_rc h a4 g4 1 (-n + h.alphaFac) (-(0.25 * h.b n)) (by omega) (by omega) (by omega) (by omega)
      refine ⟨a5, by simp only [stepR1, bind, Option.bind, f1, f2, f3, f4]; exact f5, g5, fun u v => ⟨?_, ?_⟩⟩
      · rw [(k5 u v).1, (k4 u v).1, (k3 u v).1, (k2 u v).1, (k1 u v).1]
        push_cast
        have t1 : Real.cos (0 * u - (n : ℝ) * v) = Real.cos (n * v) := by rw [← Real.cos_neg]; congr 1; ring
        have t2 : Real.cos (1 * u - (n : ℝ) * v) + Real.cos (1 * u - -(n : ℝ) * v) = 2 * Real.cos (n * v) * Real.cos u := by
          rw [show (1 : ℝ) * u - n * v = u - n * v by ring, show (1 : ℝ) * u - -(n : ℝ) * v = u + n * v by ring, Real.cos_sub, Real.cos_add]; ring
        have t3 : Real.cos (1 * u - ((n : ℝ) + h.alphaFac) * v) + Real.cos (1 * u - (-(n : ℝ) + h.alphaFac) * v) = 2 * Real.cos (n * v) * Real.cos (u - h.alphaFac * v) := by
          rw [show (1 : ℝ) * u - (n + h.alphaFac) * v = (u - h.alphaFac * v) - n * v by ring, show (1 : ℝ) * u - (-(n : ℝ) + h.alphaFac) * v = (u - h.alphaFac * v) + n * v by ring, Real.cos_sub (u - h.alphaFac * v), Real.cos_add]; ring
        rw [t1]
        linear_combination (0.25 * h.b n) * t2 - (0.25 * h.b n) * t3
      · rw [(k5 u v).2, (k4 u v).2, (k3 u v).2, (k2 u v).2, (k1 u v).2]; ring) r0 hr0
  have rhoSome : ∀ mn, mn ∈ rhoModes h → getRho h mn.1 mn.2 = some (rhoAt h mn) := by
    intro mn hmn
    have := (mem_rhoModes h mn.1 mn.2).mp hmn
    simp [getRho, rhoAt, this]
  obtain ⟨r2, e2, h2, c2⟩ := fold_add h (rhoModes h) (stepR2 h)
    (fun mn u v => rhoAt h mn / 2 * (Real.cos (mn.1 * u + mn.2 * v) + Real.cos (mn.1 * u + mn.2 * v - h.alphaFac * v))) (fun _ _ _ => 0)
    (by
      intro r mn hmn hr
      obtain ⟨b1, b2, b3, b4⟩ := rhoModes_nonneg h mn hmn
      obtain ⟨a1, f1, g1, k1⟩ := add_rc h r hr mn.1 (-mn.2) (0.5 * rhoAt h mn) b1 b2 (by omega) (by omega)
      obtain ⟨a2, f2, g2, k2⟩ := add_rc h a1 g1 mn.1 (-mn.2 + h.alphaFac) (0.5 * rhoAt h mn) b1 b2 (by omega) (by omega)
      refine ⟨a2, by simp only [stepR2, bind, Option.bind, rhoSome mn hmn, f1]; exact f2, g2, fun u v => ⟨?_, ?_⟩⟩
      · rw [(k2 u v).1, (k1 u v).1]
        push_cast
        rw [show (mn.1 : ℝ) * u - -(mn.2 : ℝ) * v = mn.1 * u + mn.2 * v by ring, show (mn.1 : ℝ) * u - (-(mn.2 : ℝ) + h.alphaFac) * v = mn.1 * u + mn.2 * v - h.alphaFac * v by ring]
        norm_num; ring
      · rw [(k2 u v).2, (k1 u v).2]; ring) r1 h1
  obtain ⟨r3, e3, h3, c3⟩ := fold_add h (List.range (h.nmax + 1)) (stepZ1 h)
    (fun _ _ _ => 0) (fun n u v => h.Z0 n * Real.sin (n * v) + h.b n * Real.cos (n * v) * (Real.sin u + Real.sin (u - h.alphaFac * v)) / 2)
    (by
      intro r n hn hr
      have hn := List.mem_range.mp hn
      obtain ⟨a1, f1, g1, k1⟩ := add_zs h r hr 0 n (-h.Z0 n) (by omega) (by omega) (by omega) (by omega)
      obtain ⟨a2, f2, g2, k2⟩ := add_zs h a1 g1 1 n (0.25 * h.b n) (by omega) (by omega) (by omega) (by omega)
      obtain ⟨a3, f3, g3, k3⟩ := add_zs h a2 g2 1 (-n) (0.25 * h.b n) (by omega) (by omega) (by omega) (by omega)
      obtain ⟨a4, f4, g4, k4⟩ := add_zs h a3 g3 1 (n + h.alphaFac) (0.25 * h.b n) (by omega) (by omega) (by omega) (by omega)
      obtain ⟨a5, f5, g5, k5⟩ := add_zs h a4 g4 1 (-n + h.alphaFac) (0.25 * h.b n) (by omega) (by omega) (by omega) (by omega)
      refine ⟨a5, by simp only [stepZ1, bind, Option.bind, f1, f2, f3, f4]; exact f5, g5, fun u v => ⟨?_, ?_⟩⟩
      · rw [(k5 u v).1, (k4 u v).1, (k3 u v).1, (k2 u v).1, (k1 u v).1]; ring
      · rw [(k5 u v).2, (k4 u v).2, (k3 u v).2, (k2 u v).2, (k1 u v).2]
        push_cast
        have t1 : Real.sin (0 * u - (n : ℝ) * v) = -Real.sin (n * v) := by rw [← Real.sin_neg]; congr 1; ring
        have t2 : Real.sin (1 * u - (n : ℝ) * v) + Real.sin (1 * u - -(n : ℝ) * v) = 2 * Real.cos (n * v) * Real.sin u := by
          rw [show (1 : ℝ) * u - n * v = u - n * v by ring, show (1 : ℝ) * u - -(n : ℝ) * v = u + n * v by ring, Real.sin_sub, Real.sin_add]; ring
        have t3 : Real.sin (1 * u - ((n : ℝ) + h.alphaFac) * v) + Real.sin (1 * u - (-(n : ℝ) + h.alphaFac) * v) = 2 * Real.cos (n * v) * Real.sin (u - h.alphaFac * v) := by
          rw [show (1 : ℝ) * u - (n + h.alphaFac) * v = (u - h.alphaFac * v) - n * v by ring, show (1 : ℝ) * u - (-(n : ℝ) + h.alphaFac) * v = (u - h.alphaFac * v) + n * v by ring, Real.sin_sub (u - h.alphaFac * v), Real.sin_add]; ring
        rw [t1]
        linear_combination (0.25 * h.b n) * t2 + (0.25 * h.b n) * t3) r2 h2
  obtain ⟨r4, e4, h4, c4⟩ := fold_add h (rhoModes h) (stepZ2 h)
    (fun _ _ _ => 0) (fun mn u v => rhoAt h mn / 2 * (Real.sin (mn.1 * u + mn.2 * v) - Real.sin (mn.1 * u + mn.2 * v - h.alphaFac * v)))
    (by
      intro r mn hmn hr
      obtain ⟨b1, b2, b3, b4⟩ := rhoModes_nonneg h mn hmn
      obtain ⟨a1, f1, g1, k1⟩ := add_zs h r hr mn.1 (-mn.2) (0.5 * rhoAt h mn) b1 b2 (by omega) (by omega)
      obtain ⟨a2, f2, g2, k2⟩ := add_zs h a1 g1 mn.1 (-mn.2 + h.alphaFac) (-(0.5 * rhoAt h mn)) b1 b2 (by omega) (by omega)
      refine ⟨a2, by simp only [stepZ2, bind, Option.bind, rhoSome mn hmn, f1]; exact f2, g2, fun u v => ⟨?_, ?_⟩⟩
      · rw [(k2 u v).1, (k1 u v).1]; ring
      · rw [(k2 u v).2, (k1 u v).2]
        push_cast
        rw [show (mn.1 : ℝ) * u - -(mn.2 : ℝ) * v = mn.1 * u + mn.2 * v by ring, show (mn.1 : ℝ) * u - (-(mn.2 : ℝ) + h.alphaFac) * v = mn.1 * u + mn.2 * v - h.alphaFac * v by ring]
        norm_num; ring) r3 h3
  refine ⟨r4, ?_, h4.2.2.2, h4.2.2.1, ?_⟩
  · simp only [toRZ, hc, bind, Option.bind]
    rw [show (List.range (h.nmax + 1)).foldlM (stepR1 h) r0 = some r1 from e1]
    simp only [e2, e3, e4]
  · intro junk p q
    rw [Garab.gamma_all r4 h4.2.2.2]
    have eR := (c4 (2 * Real.pi * q) (r4.nfp * (2 * Real.pi * p))).1
    have eZ := (c4 (2 * Real.pi * q) (r4.nfp * (2 * Real.pi * p))).2
    rw [sR] at eR; rw [sZ] at eZ
    rw [eR, eZ, (c3 _ _).1, (c3 _ _).2, (c2 _ _).1, (c2 _ _).2, (c1 _ _).1, (c1 _ _).2, (s0 _ _).1, (s0 _ _).2, h4.2.2.1]
    have hp : p * 2 * Real.pi = 2 * Real.pi * p := by ring
    have hq : q * 2 * Real.pi = 2 * Real.pi * q := by ring
    simp only [gamma, hp, hq]
    generalize 2 * Real.pi * q = u
    generalize hphi : 2 * Real.pi * p = phi
    have hα : (h.alphaFac : ℝ) * (h.nfp * phi) = 2 * (alpha h * phi) := by simp only [alpha]; norm_num; ring
    have zsum : ∀ {ι : Type} (l : List ι), (l.map fun _ => (0 : ℝ)).sum = 0 := by intro ι l; simp
    have hRs : Rcyl h phi u = ((List.range (h.nmax + 1)).map fun (n : Nat) => h.R0 n * Real.cos (n * (h.nfp * phi)) + h.b n * Real.cos (n * (h.nfp * phi)) * (Real.cos u - Real.cos (u - h.alphaFac * (h.nfp * phi))) / 2).sum +
        ((rhoModes h).map fun mn => rhoAt h mn / 2 * (Real.cos (mn.1 * u + mn.2 * (h.nfp * phi)) + Real.cos (mn.1 * u + mn.2 * (h.nfp * phi) - h.alphaFac * (h.nfp * phi)))).sum := by
      simp only [Rcyl, zeta, R0H, bAt, rhoSum]
      rw [← loop_sum, ← loop_sum, loop_range, loop_range, loop_range, loop_sum, loop_sum]
      have i1 : ((rhoModes h).map fun mn => rhoAt h mn * Real.cos (rhoAngle h phi u mn)).sum * Real.cos (alpha h * phi) =
          ((rhoModes h).map fun mn => rhoAt h mn / 2 * (Real.cos (mn.1 * u + mn.2 * (h.nfp * phi)) + Real.cos (mn.1 * u + mn.2 * (h.nfp * phi) - h.alphaFac * (h.nfp * phi)))).sum := by
        rw [← List.sum_map_mul_right]
        congr 1
        apply List.map_congr_left
        intro mn _
        rw [hα, show (mn.1 : ℝ) * u + mn.2 * (h.nfp * phi) = rhoAngle h phi u mn + alpha h * phi by simp only [rhoAngle]; ring,
          show rhoAngle h phi u mn + alpha h * phi - 2 * (alpha h * phi) = rhoAngle h phi u mn - alpha h * phi by ring, Real.cos_add, Real.cos_sub]
        ring
      have i2 : (∑ n ∈ Finset.range (h.nmax + 1), h.b n * Real.cos (h.nfp * n * phi)) * Real.sin (u - alpha h * phi) * Real.sin (alpha h * phi) =
          -∑ n ∈ Finset.range (h.nmax + 1), h.b n * Real.cos (n * (h.nfp * phi)) * (Real.cos u - Real.cos (u - h.alphaFac * (h.nfp * phi))) / 2 := by
        rw [Finset.sum_mul, Finset.sum_mul, ← Finset.sum_neg_distrib]
        apply Finset.sum_congr rfl; intro n _
        rw [hα]
        have a1 : Real.cos u = Real.cos ((u - alpha h * phi) + alpha h * phi) := by congr 1; ring
        have a2 : Real.cos (u - 2 * (alpha h * phi)) = Real.cos ((u - alpha h * phi) - alpha h * phi) := by congr 1; ring
        rw [a1, a2, Real.cos_add, Real.cos_sub (u - alpha h * phi), show (n : ℝ) * (h.nfp * phi) = h.nfp * n * phi by ring]
        ring
      rw [i1, i2, Finset.sum_add_distrib]
      have i3 : ∑ n ∈ Finset.range (h.nmax + 1), h.R0 n * Real.cos (h.nfp * n * phi) = ∑ n ∈ Finset.range (h.nmax + 1), h.R0 n * Real.cos (n * (h.nfp * phi)) :=
        Finset.sum_congr rfl fun n _ => by rw [show (h.nfp : ℝ) * n * phi = n * (h.nfp * phi) by ring]
      rw [i3]; ring
    have hZs : Zcyl h phi u = ((List.range (h.nmax + 1)).map fun (n : Nat) => h.Z0 n * Real.sin (n * (h.nfp * phi)) + h.b n * Real.cos (n * (h.nfp * phi)) * (Real.sin u + Real.sin (u - h.alphaFac * (h.nfp * phi))) / 2).sum +
        ((rhoModes h).map fun mn => rhoAt h mn / 2 * (Real.sin (mn.1 * u + mn.2 * (h.nfp * phi)) - Real.sin (mn.1 * u + mn.2 * (h.nfp * phi) - h.alphaFac * (h.nfp * phi)))).sum := by
      simp only [Zcyl, zeta, bAt, rhoSum]
      rw [← loop_sum, ← loop_sum, loop_range, loop_range, loop_sum, loop_sum]
      have i1 : ((rhoModes h).map fun mn => rhoAt h mn * Real.cos (rhoAngle h phi u mn)).sum * Real.sin (alpha h * phi) =
          ((rhoModes h).map fun mn => rhoAt h mn / 2 * (Real.sin (mn.1 * u + mn.2 * (h.nfp * phi)) - Real.sin (mn.1 * u + mn.2 * (h.nfp * phi) - h.alphaFac * (h.nfp * phi)))).sum := by
        rw [← List.sum_map_mul_right]
        congr 1
        apply List.map_congr_left
        intro mn _
        rw [hα, show (mn.1 : ℝ) * u + mn.2 * (h.nfp * phi) = rhoAngle h phi u mn + alpha h * phi by simp only [rhoAngle]; ring,
          show rhoAngle h phi u mn + alpha h * phi - 2 * (alpha h * phi) = rhoAngle h phi u mn - alpha h * phi by ring, Real.sin_add, Real.sin_sub]
        ring
      have i2 : (∑ n ∈ Finset.range (h.nmax + 1), h.b n * Real.cos (h.nfp * n * phi)) * Real.sin (u - alpha h * phi) * Real.cos (alpha h * phi) =
          ∑ n ∈ Finset.range (h.nmax + 1), h.b n * Real.cos (n * (h.nfp * phi)) * (Real.sin u + Real.sin (u - h.alphaFac * (h.nfp * phi))) / 2 := by
        rw [Finset.sum_mul, Finset.sum_mul]
        apply Finset.sum_congr rfl; intro n _
        rw [hα]
        have a1 : Real.sin u = Real.sin ((u - alpha h * phi) + alpha h * phi) := by congr 1; ring
        have a2 : Real.sin (u - 2 * (alpha h * phi)) = Real.sin ((u - alpha h * phi) - alpha h * phi) := by congr 1; ring
        rw [a1, a2, Real.sin_add, Real.sin_sub (u - alpha h * phi), show (n : ℝ) * (h.nfp * phi) = h.nfp * n * phi by ring]
        ring
      have i3 : Z0H h phi = ∑ n ∈ Finset.range (h.nmax + 1), h.Z0 n * Real.sin (n * (h.nfp * phi)) := by
        rw [Z0H, loop_sum, ← loop_range, loop_sum, List.range_eq_range', List.range'_succ, List.map_cons, List.sum_cons, hz, zero_mul, zero_add]
        congr 1
        apply List.map_congr_left
        intro n _
        rw [show (h.nfp : ℝ) * n * phi = n * (h.nfp * phi) by ring]
      rw [i1, i2, i3, Finset.sum_add_distrib]; ring
    rw [hRs, hZs]
    simp only [zsum, zero_add, add_zero]

end Simsopt.Henne
