import Verif.Fields.CoilViol
/-!
# Circular coil: the vector potential
-/
namespace Simsopt.Fields
open Elliptic

/-- The factor of a vector potential with `2*r0*rho*E` where the program has `2*r0 + rho*E`. -/
noncomputable def ch (r0 ρ z : ℝ) : ℝ :=
  1 / (ρ ^ 2 * √(cb r0 ρ z)) * (2 * r0 * ρ * E (1 - ca r0 ρ z / cb r0 ρ z) + (r0 ^ 2 + (ρ ^ 2 + z ^ 2)) * (E (1 - ca r0 ρ z / cb r0 ρ z) - K (1 - ca r0 ρ z / cb r0 ρ z)))

/-- The vector potential with this factor, in the frame of the coil. -/
noncomputable def fixedA (inorm r0 : ℝ) (q : P3) : P3 :=
  let h := ch r0 (loc r0 q).rho (q 2)
  ![-inorm / 2 * (h * -q 1), -inorm / 2 * (h * q 0), 0]

section
variable {r0 t : ℝ} {ρ z : ℝ → ℝ} {ρ' z' : ℝ}

theorem d_h (h0 : 0 < r0) (hp : 0 < ρ t) (hn : ¬(ρ t = r0 ∧ z t = 0)) (hρ : HasDerivAt ρ ρ' t) (hz : HasDerivAt z z' t) :
    HasDerivAt (fun t => ch r0 (ρ t) (z t)) (-2 * (cg r0 (ρ t) (z t) + ch r0 (ρ t) (z t)) / ρ t * ρ' + 2 * z t * cf r0 (ρ t) (z t) * z') t := by
  have ha := ca_pos hn
  have hb : 0 < cb r0 (ρ t) (z t) := cb_pos h0 hp.le
  have hβ : 0 < √(cb r0 (ρ t) (z t)) := Real.sqrt_pos.mpr hb
  have hβ2 : √(cb r0 (ρ t) (z t)) ^ 2 = cb r0 (ρ t) (z t) := Real.sq_sqrt hb.le
  have hr2 : HasDerivAt (fun t => ρ t ^ 2 + z t ^ 2) (2 * ρ t * ρ' + 2 * z t * z') t :=
    ((hρ.fun_pow 2).fun_add (hz.fun_pow 2)).congr_deriv (by simp)
  have hρ2 : HasDerivAt (fun t => ρ t ^ 2) (2 * ρ t * ρ') t := (hρ.fun_pow 2).congr_deriv (by simp)
  have hden := hρ2.fun_mul (d_beta h0 hp hρ hz)
  have hden0 : ρ t ^ 2 * √(cb r0 (ρ t) (z t)) ≠ 0 := by positivity
  have h1 := (hasDerivAt_const t (1 : ℝ)).fun_div hden hden0
  have hE := d_Ecomp h0 hp hn hρ hz
  have hN := ((hρ.const_mul (2 * r0)).fun_mul hE).fun_add ((hr2.const_add (r0 ^ 2)).fun_mul (hE.fun_sub (d_Kcomp h0 hp hn hρ hz)))
  refine (h1.fun_mul hN).congr_deriv ?_
  unfold cf cg ch
  generalize E (1 - ca r0 (ρ t) (z t) / cb r0 (ρ t) (z t)) = e
  generalize K (1 - ca r0 (ρ t) (z t) / cb r0 (ρ t) (z t)) = k
  generalize √(cb r0 (ρ t) (z t)) = β at *
  have had : ca r0 (ρ t) (z t) = r0 ^ 2 + (ρ t ^ 2 + z t ^ 2) - 2 * r0 * ρ t := rfl
  have hbd : cb r0 (ρ t) (z t) = r0 ^ 2 + (ρ t ^ 2 + z t ^ 2) + 2 * r0 * ρ t := rfl
  generalize ca r0 (ρ t) (z t) = a at *
  rw [← hβ2] at *
  generalize ρ t = p at *
  generalize z t = w at *
  have := ha.ne'
  have := hβ.ne'
  have := hp.ne'
  field_simp
  rw [hbd]
  subst had
  ring
end

/-- The first derivatives of `fixedA`. -/
noncomputable def fixedDA (inorm r0 : ℝ) (q : P3) : T2 :=
  let ρ := (loc r0 q).rho
  let h := ch r0 ρ (q 2)
  let hρ := -2 * (cg r0 ρ (q 2) + h) / ρ
  let hz := 2 * q 2 * cf r0 ρ (q 2)
  ![![-inorm / 2 * (hρ * (q 0 / ρ) * -q 1), -inorm / 2 * (hρ * (q 0 / ρ) * q 0 + h), 0],
    ![-inorm / 2 * (hρ * (q 1 / ρ) * -q 1 - h), -inorm / 2 * (hρ * (q 1 / ρ) * q 0), 0],
    ![-inorm / 2 * (hz * -q 1), -inorm / 2 * (hz * q 0), 0]]

theorem d_rho {q : ℝ → P3} {v : P3} {t : ℝ} (r0 : ℝ) (hq : ∀ i, HasDerivAt (fun s => q s i) (v i) t) (hax : q t 0 ^ 2 + q t 1 ^ 2 ≠ 0) :
    HasDerivAt (fun s => (loc r0 (q s)).rho) ((q t 0 * v 0 + q t 1 * v 1) / (loc r0 (q t)).rho) t := by
  have h1 : HasDerivAt (fun s => q s 0 ^ 2 + q s 1 ^ 2) (2 * q t 0 * v 0 + 2 * q t 1 * v 1) t := (((hq 0).fun_pow 2).fun_add ((hq 1).fun_pow 2)).congr_deriv (by simp)
  refine (h1.sqrt hax).congr_deriv ?_
  rw [show 2 * q t 0 * v 0 + 2 * q t 1 * v 1 = 2 * (q t 0 * v 0 + q t 1 * v 1) by ring, mul_div_mul_left _ _ two_ne_zero]
  rfl

theorem d_fixedA {r0 : ℝ} (h0 : 0 < r0) (inorm : ℝ) (q : ℝ → P3) (v : P3) (t : ℝ) (hq : ∀ i, HasDerivAt (fun s => q s i) (v i) t)
    (hax : q t 0 ^ 2 + q t 1 ^ 2 ≠ 0) (hco : ¬(q t 0 ^ 2 + q t 1 ^ 2 = r0 ^ 2 ∧ q t 2 = 0)) (l : Fin 3) :
    HasDerivAt (fun s => fixedA inorm r0 (q s) l) (v 0 * fixedDA inorm r0 (q t) 0 l + v 1 * fixedDA inorm r0 (q t) 1 l + v 2 * fixedDA inorm r0 (q t) 2 l) t := by
  have hp : 0 < (loc r0 (q t)).rho := Real.sqrt_pos.mpr (by positivity)
  have hρ2 : (loc r0 (q t)).rho ^ 2 = q t 0 ^ 2 + q t 1 ^ 2 := Real.sq_sqrt (by positivity)
  have hn : ¬((loc r0 (q t)).rho = r0 ∧ q t 2 = 0) := fun hh => hco ⟨by rw [← hρ2, hh.1], hh.2⟩
  have hh := d_h (ρ := fun s => (loc r0 (q s)).rho) (z := fun s => q s 2) h0 hp hn (d_rho r0 hq hax) (hq 2)
  fin_cases l
  · refine ((hh.fun_mul (hq 1).fun_neg).const_mul (-inorm / 2)).congr_deriv ?_
    simp only [fixedDA, Matrix.cons_val, Fin.zero_eta]
    ring
  · refine ((hh.fun_mul (hq 0)).const_mul (-inorm / 2)).congr_deriv ?_
    simp only [fixedDA, Matrix.cons_val, Fin.mk_one]
    ring
  · refine (hasDerivAt_const _ _).congr_deriv ?_
    simp only [fixedDA, Matrix.cons_val, Fin.reduceFinMk]
    ring

theorem curl_fixed {r0 : ℝ} (h0 : 0 < r0) (inorm : ℝ) (q : P3) (hax : q 0 ^ 2 + q 1 ^ 2 ≠ 0) : curl (fixedDA inorm r0 q) = localB 0 inorm r0 q := by
  rw [localB_eq h0]
  have hp : 0 < (loc r0 q).rho := Real.sqrt_pos.mpr (by positivity)
  have hρ2 : q 1 ^ 2 = (loc r0 q).rho ^ 2 - q 0 ^ 2 := by rw [show (loc r0 q).rho ^ 2 = q 0 ^ 2 + q 1 ^ 2 from Real.sq_sqrt (by positivity)]; ring
  have := hp.ne'
  funext l
  fin_cases l <;> simp only [curl, fixedDA, Matrix.cons_val, Fin.zero_eta, Fin.mk_one, Fin.reduceFinMk]
  · ring
  · ring
  · field_simp
    ring_nf
    rw [hρ2]
    ring

/-- Rotation of an array of first derivatives and of its curl. -/
theorem Coil.curl_entry (c : Coil) (D : T2) : curl (transp2 (c.entry D)) = dotv c.rotmat (curl D) := by
  have h1 := Real.sin_sq_add_cos_sq c.theta
  have h2 := Real.sin_sq_add_cos_sq c.phi
  have e2 : Real.sin (2 * c.theta) = 2 * Real.sin c.theta * Real.cos c.theta := Real.sin_two_mul _
  have e1 := sin_half_sq c.phi
  -- every entry of the matrix is its own cofactor
  have cof : ∀ i j k : Fin 3, (i, j, k) ∈ [((0 : Fin 3), (1 : Fin 3), (2 : Fin 3)), (1, 2, 0), (2, 0, 1)] →
      c.rotmat j 1 * c.rotmat k 2 - c.rotmat j 2 * c.rotmat k 1 = c.rotmat i 0 ∧ c.rotmat j 2 * c.rotmat k 0 - c.rotmat j 0 * c.rotmat k 2 = c.rotmat i 1 ∧
      c.rotmat j 0 * c.rotmat k 1 - c.rotmat j 1 * c.rotmat k 0 = c.rotmat i 2 := by
    intro i j k hm
    simp only [List.mem_cons, Prod.mk.injEq, List.not_mem_nil, or_false] at hm
    rcases hm with ⟨rfl, rfl, rfl⟩ | ⟨rfl, rfl, rfl⟩ | ⟨rfl, rfl, rfl⟩ <;> refine ⟨?_, ?_, ?_⟩ <;> simp only [Coil.rotmat, e1, e2, Matrix.cons_val] <;> grind
  obtain ⟨a0, a1, a2⟩ := cof 0 1 2 (by simp)
  obtain ⟨b0, b1, b2⟩ := cof 1 2 0 (by simp)
  obtain ⟨d0, d1, d2⟩ := cof 2 0 1 (by simp)
  funext l
  fin_cases l <;> simp only [curl, transp2, Coil.entry, Coil.rotmatinv, dotv, Matrix.cons_val, Fin.zero_eta, Fin.mk_one, Fin.reduceFinMk]
  · rw [← a0, ← a1, ← a2]; ring
  · rw [← b0, ← b1, ← b2]; ring
  · rw [← d0, ← d1, ← d2]; ring

/-- The potential with the corrected term in the laboratory frame. -/
noncomputable def Coil.fixedA (c : Coil) (p : P3) : P3 := dotv c.rotmat (Fields.fixedA c.inorm c.r0 (c.toLocal p))

theorem Coil.rotate {F : P3 → P3} {D : P3 → T2} (c : Coil) (p : P3)
    (h : ∀ (q : ℝ → P3) (v : P3) (t : ℝ), (∀ i, HasDerivAt (fun s => q s i) (v i) t) → q t = c.toLocal p → ∀ l, HasDerivAt (fun s => F (q s) l) (v 0 * D (q t) 0 l + v 1 * D (q t) 1 l + v 2 * D (q t) 2 l) t) :
    IsJacobian (fun p => dotv c.rotmat (F (c.toLocal p))) p (transp2 (c.entry (D (c.toLocal p)))) := by
  intro j l
  have hq : ∀ i, HasDerivAt (fun s => c.toLocal (Function.update p j s) i) (c.rotmatinv i j) (p j) := fun i => by
    have hu : ∀ k, HasDerivAt (fun s => Function.update p j s k - c.center k) (if k = j then 1 else 0) (p j) := fun k => by
      by_cases h : k = j
      · subst h
        simp only [Function.update_self, if_true]
        exact (hasDerivAt_id _).sub_const _
      · simp only [Function.update_of_ne h, if_neg h]
        exact hasDerivAt_const _ _
    refine ((((hu 0).const_mul (c.rotmatinv i 0)).fun_add ((hu 1).const_mul (c.rotmatinv i 1))).fun_add ((hu 2).const_mul (c.rotmatinv i 2))).congr_deriv ?_
    fin_cases j <;> simp
  have hup : Function.update p j (p j) = p := Function.update_eq_self j p
  have hB := fun k => h (fun s => c.toLocal (Function.update p j s)) (fun i => c.rotmatinv i j) (p j) hq (by rw [hup]) k
  simp only [hup] at hB
  refine ((((hB 0).const_mul (c.rotmat l 0)).fun_add ((hB 1).const_mul (c.rotmat l 1))).fun_add ((hB 2).const_mul (c.rotmat l 2))).congr_deriv ?_
  simp only [transp2, Coil.entry]
  ring

/-- **C100.** With `2*r0*rho*E` instead of `2*r0 + rho*E` and without the constants `1e-31`, `CircularCoil.A` would be a vector potential of `B`, off the axis and off the coil. -/
theorem C100_A_repaired (c : Coil) (p : P3) (h0 : 0 < c.r0) (hax : c.toLocal p 0 ^ 2 + c.toLocal p 1 ^ 2 ≠ 0)
    (hco : ¬(c.toLocal p 0 ^ 2 + c.toLocal p 1 ^ 2 = c.r0 ^ 2 ∧ c.toLocal p 2 = 0)) : ∃ D, IsJacobian c.fixedA p D ∧ curl D = c.B 0 p := by
  refine ⟨_, c.rotate (D := fixedDA c.inorm c.r0) p fun q v t hq hqt l => ?_, ?_⟩
  · exact d_fixedA h0 c.inorm q v t hq (by rw [hqt]; exact hax) (by rw [hqt]; exact hco) l
  · rw [Coil.curl_entry, curl_fixed h0 _ _ hax]; rfl

example : (0 : ℝ) < (flat 1 1).r0 ∧ (flat 1 1).toLocal ![1, 2, 3] 0 ≠ 0 ∧ ¬((flat 1 1).toLocal ![1, 2, 3] 0 ^ 2 + (flat 1 1).toLocal ![1, 2, 3] 1 ^ 2 = (flat 1 1).r0 ^ 2 ∧ (flat 1 1).toLocal ![1, 2, 3] 2 = 0) := by
  rw [flat_local]
  refine ⟨one_pos, by simp, fun h => ?_⟩
  simp at h

/-- The program's potential without the constants `1e-31`, for the radius 1/2: the potential of `B` and something more. -/
theorem localA_half (inorm : ℝ) (q : P3) (hax : q 0 ^ 2 + q 1 ^ 2 ≠ 0) (l : Fin 3) :
    localA 0 inorm (1 / 2) q l = fixedA inorm (1 / 2) q l + -inorm / 2 * (1 / ((q 0 ^ 2 + q 1 ^ 2) * (loc (1 / 2) q).beta)) * (![-q 1, q 0, 0] : P3) l := by
  have h0 : (0 : ℝ) < 1 / 2 := by norm_num
  have hρ2 : (loc (1 / 2) q).rho ^ 2 = q 0 ^ 2 + q 1 ^ 2 := Real.sq_sqrt (by positivity)
  have hp : 0 < (loc (1 / 2) q).rho := Real.sqrt_pos.mpr (by positivity)
  have hb : 0 < cb (1 / 2) (loc (1 / 2) q).rho (q 2) := cb_pos h0 hp.le
  have hβ : 0 < (loc (1 / 2) q).beta := by rw [loc_beta]; exact Real.sqrt_pos.mpr hb
  have hden : √((1 / 2 : ℝ) ^ 2 + q 0 ^ 2 + q 1 ^ 2 + 2 * (1 / 2) * √(q 0 ^ 2 + q 1 ^ 2) + q 2 ^ 2 + 0) = (loc (1 / 2) q).beta := by
    rw [loc_beta]
    congr 1
    show _ = (1 / 2 : ℝ) ^ 2 + ((loc (1 / 2) q).rho ^ 2 + q 2 ^ 2) + 2 * (1 / 2) * (loc (1 / 2) q).rho
    rw [hρ2, show (loc (1 / 2) q).rho = √(q 0 ^ 2 + q 1 ^ 2) from rfl]
    ring
  have hch : ch (1 / 2) (loc (1 / 2) q).rho (q 2) = 1 / ((q 0 ^ 2 + q 1 ^ 2) * (loc (1 / 2) q).beta) * (2 * (1 / 2) * (loc (1 / 2) q).rho * (loc (1 / 2) q).e + ((1 / 2) ^ 2 + (q 0 ^ 2 + q 1 ^ 2 + q 2 ^ 2)) * ((loc (1 / 2) q).e - (loc (1 / 2) q).k)) := by
    unfold ch
    rw [loc_e h0, loc_k h0, loc_beta, hρ2]
  simp only [localA, fixedA, hden, hch]
  simp only [add_zero, show √(q 0 ^ 2 + q 1 ^ 2) = (loc (1 / 2) q).rho from rfl]
  have := hβ.ne'
  fin_cases l <;> simp only [Matrix.cons_val, Fin.zero_eta, Fin.mk_one, Fin.reduceFinMk] <;> field_simp <;> ring

/-- **C100.** `CircularCoil.A` is not a vector potential, also without the constants `1e-31`: for a coil of radius 1/2, at all points off its axis and off its plane with x ≠ 0, its curl is not `B`. -/
theorem C100_A_violated (inorm : ℝ) (hI : inorm ≠ 0) (p : P3) (hx : p 0 ≠ 0) (hz : p 2 ≠ 0) : ¬∃ D, IsJacobian ((flat (1 / 2) inorm).A 0) p D ∧ curl D = (flat (1 / 2) inorm).B 0 p := by
  rintro ⟨D, hD, hcurl⟩
  have h0 : (0 : ℝ) < 1 / 2 := by norm_num
  have hax : p 0 ^ 2 + p 1 ^ 2 ≠ 0 := by positivity
  have hρ2 : (loc (1 / 2) p).rho ^ 2 = p 0 ^ 2 + p 1 ^ 2 := Real.sq_sqrt (by positivity)
  have hp : 0 < (loc (1 / 2) p).rho := Real.sqrt_pos.mpr (by positivity)
  have hb : 0 < cb (1 / 2) (loc (1 / 2) p).rho (p 2) := cb_pos h0 hp.le
  have hβ : 0 < (loc (1 / 2) p).beta := by rw [loc_beta]; exact Real.sqrt_pos.mpr hb
  -- the derivatives in the z direction
  have hu : ∀ t, Function.update p 2 t 0 = p 0 ∧ Function.update p 2 t 1 = p 1 := fun t => ⟨by simp, by simp⟩
  have hrho : ∀ t, (loc (1 / 2) (Function.update p 2 t)).rho = (loc (1 / 2) p).rho := fun t => by
    show √(Function.update p 2 t 0 ^ 2 + Function.update p 2 t 1 ^ 2) = _
    rw [(hu t).1, (hu t).2]; rfl
  have hq : ∀ i, HasDerivAt (fun s => Function.update p 2 s i) ((![0, 0, 1] : P3) i) (p 2) := fun i => by
    fin_cases i
    · simpa using hasDerivAt_const (p 2) (p 0)
    · simpa using hasDerivAt_const (p 2) (p 1)
    · simpa using hasDerivAt_id' (p 2)
  have hup : Function.update p 2 (p 2) = p := Function.update_eq_self 2 p
  have hF := d_fixedA h0 inorm (fun s => Function.update p 2 s) ![0, 0, 1] (p 2) hq (by rw [hup]; exact hax) (by rw [hup]; exact fun h => hz h.2) 1
  have hbeta : HasDerivAt (fun s => (loc (1 / 2) (Function.update p 2 s)).beta) (p 2 / (loc (1 / 2) p).beta) (p 2) := by
    have h1 := d_beta (ρ := fun _ => (loc (1 / 2) p).rho) (z := fun s => s) (t := p 2) h0 hp (hasDerivAt_const _ _) (hasDerivAt_id _)
    have h2 : (fun s => (loc (1 / 2) (Function.update p 2 s)).beta) = fun s => √(cb (1 / 2) (loc (1 / 2) p).rho s) := by
      funext s
      rw [loc_beta, hrho]; simp
    rw [h2]
    refine h1.congr_deriv ?_
    rw [← loc_beta]
    have := hβ.ne'
    field_simp
    ring
  have hA := hD 2 1
  simp only [flat_A] at hA
  have hdec : (fun t => localA 0 inorm (1 / 2) (Function.update p 2 t) 1) = fun t => fixedA inorm (1 / 2) (Function.update p 2 t) 1 + -inorm / 2 * (1 / ((p 0 ^ 2 + p 1 ^ 2) * (loc (1 / 2) (Function.update p 2 t)).beta)) * p 0 := by
    funext t
    rw [localA_half _ _ (by rw [(hu t).1, (hu t).2]; exact hax), (hu t).1, (hu t).2]
    rfl
  rw [hdec] at hA
  have hden : (p 0 ^ 2 + p 1 ^ 2) * (loc (1 / 2) (Function.update p 2 (p 2))).beta ≠ 0 := by rw [hup]; have := hβ.ne'; positivity
  have hX := hF.fun_add ((((hasDerivAt_const (p 2) (1 : ℝ)).fun_div (hbeta.const_mul (p 0 ^ 2 + p 1 ^ 2)) hden).const_mul (-inorm / 2)).mul_const (p 0))
  have e := hA.unique hX
  rw [hup] at e
  -- the x component of the curl
  have hD12 : D 1 2 = 0 := by
    have h := hD 1 2
    simp only [flat_A] at h
    refine h.unique ?_
    have : (fun t => localA 0 inorm (1 / 2) (Function.update p 1 t) 2) = fun _ => 0 := by
      funext t; simp [localA]
    rw [this]
    exact hasDerivAt_const _ _
  have hc := congrFun hcurl 0
  rw [flat_B, ← curl_fixed h0 _ _ hax] at hc
  replace hc : D 1 2 - D 2 1 = fixedDA inorm (1 / 2) p 1 2 - fixedDA inorm (1 / 2) p 2 1 := hc
  have h12 : fixedDA inorm (1 / 2) p 1 2 = 0 := rfl
  rw [hD12, h12, zero_sub, zero_sub, neg_inj] at hc
  rw [hc] at e
  simp only [Matrix.cons_val, zero_mul, one_mul, zero_add, zero_sub] at e
  have hz0 : -inorm / 2 * (-((p 0 ^ 2 + p 1 ^ 2) * (p 2 / (loc (1 / 2) p).beta)) / ((p 0 ^ 2 + p 1 ^ 2) * (loc (1 / 2) p).beta) ^ 2) * p 0 = 0 := by linarith
  have hne : -inorm / 2 * (-((p 0 ^ 2 + p 1 ^ 2) * (p 2 / (loc (1 / 2) p).beta)) / ((p 0 ^ 2 + p 1 ^ 2) * (loc (1 / 2) p).beta) ^ 2) * p 0 ≠ 0 := by
    have := hβ.ne'
    refine mul_ne_zero (mul_ne_zero (div_ne_zero (neg_ne_zero.mpr hI) two_ne_zero) (div_ne_zero (neg_ne_zero.mpr ?_) ?_)) hx
    · exact mul_ne_zero hax (div_ne_zero hz this)
    · exact pow_ne_zero 2 (mul_ne_zero hax this)
  exact hne hz0

end Simsopt.Fields
