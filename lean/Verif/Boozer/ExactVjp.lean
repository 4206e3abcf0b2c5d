import Verif.Boozer.Adjoint
import Mathlib.Data.List.GetD
import Mathlib.Algebra.BigOperators.Fin
import Mathlib.Tactic.Abel

/-!
# The vector-Jacobian product of an exact Boozer surface (C120)

Model of `boozer_surface_dexactresidual_dcoils_dcurrents_vjp`, src/simsopt/geo/surfaceobjectives.py L1041-1083.
-/
namespace Simsopt.BSurf
variable {N n : ℕ}

/-- The number of entries that a mask keeps. -/
def kept : List Bool → ℕ
  | [] => 0
  | true :: m => kept m + 1
  | false :: m => kept m

/-- `r[mask]`: the entries that the mask keeps. -/
def compress {α : Type} : List Bool → List α → List α
  | true :: m, x :: xs => x :: compress m xs
  | false :: m, _ :: xs => compress m xs
  | _, _ => []

/-- The entries of `vals`, in order, in the places that the mask keeps, and 0 elsewhere. -/
def place : List Bool → List ℝ → List ℝ
  | [], _ => []
  | true :: m, v :: vs => v :: place m vs
  | true :: m, [] => 0 :: place m []
  | false :: m, vs => 0 :: place m vs

/-- `lmask = np.zeros(mask.shape); lmask[mask] = vals` (L1073-1074): numpy raises unless there are as many values as places, or one value for all of them. -/
def scatter (mask : List Bool) (vals : List ℝ) : Option (List ℝ) :=
  if vals.length = kept mask then some (place mask vals)
  else match vals with
    | [v] => some (mask.map fun b => if b then v else 0)
    | _ => none

/-- The vector-Jacobian product, the entry of one coil dof, L1066-1083: the last entry of `lm` multiplies the label, whose derivative with respect to the coil dof is `labelDot`, and the others the residuals that the mask keeps.  `none`: an exception is raised. -/
noncomputable def exactVjp (mask : List Bool) (d : Fin N → Data n) (cd : CoilDir N) (labelDot : ℝ) (lm : List ℝ) : Option ℝ :=
  match lm.getLast?, scatter mask lm.dropLast with
  | some lmLabel, some lmask => some (bVjp cd (fun q k => ∑ l : Fin 3, lmask.getD (q * 3 + l) 0 * (d q).drtil_dB false l k) + lmLabel * labelDot)
  | _, _ => none

/-! ## Specification -/

/-- The residuals as a flat list, point after point. -/
noncomputable def flat (r : Fin N → Fin 3 → ℝ) : List ℝ := List.ofFn fun i : Fin (N * 3) => r i.divNat i.modNat

/-- `aᵀ b`. -/
def dotL (a b : List ℝ) : ℝ := (List.zipWith (· * ·) a b).sum

/-- The equations of the exact solver for a stellarator-symmetric surface (boozersurface.py L763-764): the residuals that the mask keeps, and the label. -/
noncomputable def equations (mask : List Bool) (d : Fin N → Data n) (label target : ℝ) : List ℝ := compress mask (flat fun q l => (d q).rtil false l) ++ [label - target]

/-! ## Proofs -/

theorem dotL_place (mask : List Bool) (vals full : List ℝ) (hv : vals.length = kept mask) (hf : full.length = mask.length) : dotL vals (compress mask full) = dotL (place mask vals) full := by
  induction mask generalizing vals full with
  | nil =>
    cases full with
    | nil => cases vals <;> simp_all [dotL, compress, place, kept]
    | cons x xs => simp at hf
  | cons b m ih =>
    cases full with
    | nil => simp at hf
    | cons x xs =>
      cases b with
      | false =>
        have := ih vals xs (by simpa [kept] using hv) (by simpa using hf)
        simp only [compress, place, dotL] at this ⊢
        simp [this]
      | true =>
        cases vals with
        | nil => simp [kept] at hv
        | cons v vs =>
          have := ih vs xs (by simpa [kept] using hv) (by simpa using hf)
          simp only [compress, place, dotL, List.zipWith_cons_cons, List.sum_cons] at this ⊢
          rw [this]

theorem place_length (mask : List Bool) (vals : List ℝ) : (place mask vals).length = mask.length := by
  induction mask generalizing vals with
  | nil => rfl
  | cons b m ih =>
    cases b with
    | false => simp [place, ih]
    | true => cases vals <;> simp [place, ih]

theorem compress_length (mask : List Bool) {α : Type} (full : List α) (hf : full.length = mask.length) : (compress mask full).length = kept mask := by
  induction mask generalizing full with
  | nil => cases full <;> rfl
  | cons b m ih =>
    cases full with
    | nil => simp at hf
    | cons x xs => cases b <;> simp [compress, kept, ih xs (by simpa using hf)]

theorem dotL_ofFn {k : ℕ} (L : List ℝ) (g : Fin k → ℝ) (h : L.length = k) : dotL L (List.ofFn g) = ∑ i : Fin k, L.getD i 0 * g i := by
  induction k generalizing L with
  | zero =>
    simp [dotL]
  | succ k ih =>
    cases L with
    | nil => simp at h
    | cons x xs =>
      rw [List.ofFn_succ, Fin.sum_univ_succ]
      have := ih xs (fun i => g i.succ) (by simpa using h)
      simp only [dotL] at this ⊢
      simp [this]

theorem dotL_flat (L : List ℝ) (r : Fin N → Fin 3 → ℝ) (h : L.length = N * 3) : dotL L (flat r) = ∑ q : Fin N, ∑ l : Fin 3, L.getD (q * 3 + l) 0 * r q l := by
  unfold flat
  rw [dotL_ofFn L _ h, ← Finset.sum_product', Finset.univ_product_univ]
  refine (Fintype.sum_equiv finProdFinEquiv _ _ fun x => ?_).symm
  obtain ⟨q, l⟩ := x
  have e1 : (finProdFinEquiv (q, l)).divNat = q := by
    have := congrArg Prod.fst (finProdFinEquiv.symm_apply_apply (q, l))
    exact this
  have e2 : (finProdFinEquiv (q, l)).modNat = l := by
    have := congrArg Prod.snd (finProdFinEquiv.symm_apply_apply (q, l))
    exact this
  rw [e1, e2]
  congr 2
  simp [finProdFinEquiv]
  ring

theorem dotL_append (a b x y : List ℝ) (h : a.length = x.length) : dotL (a ++ b) (x ++ y) = dotL a x + dotL b y := by
  unfold dotL
  rw [List.zipWith_append h, List.sum_append]

/-- **C120.** For a stellarator-symmetric exact Boozer surface (as many entries of `lm` as equations: one for each residual that the mask keeps, and one for the label), the vector-Jacobian product is the derivative, with respect to the coil dof, of `lmᵀ` times the equations, at a fixed surface,
`iota` and `G`; the dependence of the label on the coils is included. -/
theorem C120_exact (mask : List Bool) (hm : mask.length = N * 3) (D : ℝ → Fin N → Data n) (cd : CoilDir N) (t : ℝ) (h : ∀ q, FieldMoves (fun τ => D τ q) (cd.Bd q) (cd.Gd q) t)
    (label : ℝ → ℝ) (target labelDot : ℝ) (hl : HasDerivAt label labelDot t) (lm : List ℝ) (hlm : lm.length = kept mask + 1) :
    ∃ v, exactVjp mask (D t) cd labelDot lm = some v ∧ HasDerivAt (fun τ => dotL lm (equations mask (D τ) (label τ) target)) v t := by
  have hne : lm ≠ [] := by intro h0; rw [h0] at hlm; simp at hlm
  have hd : lm.dropLast.length = kept mask := by rw [List.length_dropLast, hlm]; omega
  have hsp : lm = lm.dropLast ++ [lm.getLast hne] := (List.dropLast_append_getLast hne).symm
  refine ⟨bVjp cd (fun q k => ∑ l : Fin 3, (place mask lm.dropLast).getD (q * 3 + l) 0 * (D t q).drtil_dB false l k) + lm.getLast hne * labelDot, ?_, ?_⟩
  · unfold exactVjp scatter
    rw [List.getLast?_eq_some_getLast hne, if_pos hd]
  · have e : ∀ τ, dotL lm (equations mask (D τ) (label τ) target) =
        (∑ q : Fin N, ∑ l : Fin 3, (place mask lm.dropLast).getD (q * 3 + l) 0 * (D τ q).rtil false l) + lm.getLast hne * (label τ - target) := by
      intro τ
      have hfl : (flat fun q l => (D τ q).rtil false l).length = mask.length := by rw [hm]; simp [flat]
      conv_lhs => rw [hsp]
      unfold equations
      rw [dotL_append _ _ _ _ (by rw [compress_length mask _ hfl, hd]), dotL_place mask _ _ hd hfl, dotL_flat _ _ (by rw [place_length, hm])]
      simp [dotL]
    simp only [e]
    refine ((HasDerivAt.fun_sum fun q _ => HasDerivAt.fun_sum fun l _ => ((h q).rtil false (by simp) l).const_mul _).fun_add ((hl.sub_const target).const_mul _)).congr_deriv ?_
    congr 1
    unfold bVjp
    refine Finset.sum_congr rfl fun q _ => ?_
    simp only [Fin.sum_univ_three]
    ring

/-- **C120, violated.** For an exact Boozer surface without stellarator symmetry the equations have one more row, the constraint on `z` (boozersurface.py L765-766), the factored matrix has as many rows, and so has the adjoint that the objectives pass: the vector-Jacobian product raises, whatever the
mask, the surface and the coils are.  `MajorRadius`, `Iotas` and `NonQuasiSymmetricRatio` cannot be evaluated on such a surface. -/
theorem C120_without_symmetry_violated (mask : List Bool) (hm : 0 < kept mask) (d : Fin N → Data n) (cd : CoilDir N) (labelDot : ℝ) (lm : List ℝ) (hlm : lm.length = kept mask + 2) : exactVjp mask d cd labelDot lm = none := by
  have hd : lm.dropLast.length = kept mask + 1 := by rw [List.length_dropLast, hlm]; omega
  have hs : scatter mask lm.dropLast = none := by
    unfold scatter
    rw [if_neg (by omega)]
    match hx : lm.dropLast with
    | [] => rfl
    | [v] => rw [hx] at hd; simp at hd; omega
    | a :: b :: l => rfl
  unfold exactVjp
  rw [hs]
  cases lm.getLast? <;> rfl

/-- **C120, violated.** For a least-squares surface the vector-Jacobian product is not the derivative of `lmᵀ` times the gradient of the whole objective when the label depends on the coils (`ToroidalFlux`): the rows of the label are left out.  Here the residuals do not move with the coil dof at all, and the
gradient of the label term `w (l - l₀) dl` does; the product is 0, the derivative is not. -/
theorem C120_label_violated (wt : Bool) (d : Fin N → Data n) (m0 : Fin n) : ∃ (cd : CoilDir N) (lm : Col n → ℝ) (labelTerm : ℝ → Col n → ℝ) (v : ℝ),
    (∀ a, ∃ w dl target : ℝ, ∀ t, labelTerm t a = w * (t - target) * dl) ∧ (∀ q, FieldMoves (fun _ : ℝ => d q) (cd.Bd q) (cd.Gd q) 0) ∧
      HasDerivAt (fun t => colSum fun a => lm a * (lsqGrad wt d a + labelTerm t a)) v 0 ∧ lsqVjp wt d cd lm ≠ v := by
  refine ⟨⟨fun _ _ => 0, fun _ _ _ => 0⟩, fun a => if a = .c m0 then 1 else 0, fun t a => 1 * (t - 0) * (if a = .c m0 then 1 else 0), 1, ?_, ?_, ?_, ?_⟩
  · intro a; exact ⟨1, if a = .c m0 then 1 else 0, 0, fun t => rfl⟩
  · intro q
    exact ⟨fun _ => rfl, fun _ => rfl, fun _ => rfl, fun _ => rfl, fun _ => rfl, fun _ => rfl, fun _ => rfl, fun _ => hasDerivAt_const _ _, fun _ _ => hasDerivAt_const _ _⟩
  · have e : (fun t : ℝ => colSum fun a : Col n => (if a = .c m0 then (1 : ℝ) else 0) * (lsqGrad wt d a + 1 * (t - 0) * (if a = .c m0 then 1 else 0))) = fun t => lsqGrad wt d (.c m0) + t := by
      funext t
      unfold colSum
      simp
    rw [e]
    exact (hasDerivAt_id' (0 : ℝ)).const_add _
  · have : lsqVjp wt d ⟨fun _ _ => 0, fun _ _ _ => 0⟩ (fun a : Col n => if a = .c m0 then 1 else 0) = 0 := by
      unfold lsqVjp bdbVjp
      simp
    rw [this]
    exact zero_ne_one

/-- The hypotheses of `C120_exact` are met: two of three residuals are kept. -/
example : scatter [false, true, true] [5, 7] = some [0, 5, 7] ∧ compress [false, true, true] [1, 2, 3] = [2, 3] ∧ kept [false, true, true] = 2 := by
  refine ⟨?_, rfl, rfl⟩
  simp [scatter, kept, place]

end Simsopt.BSurf
