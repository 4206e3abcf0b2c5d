import Verif.Curves.Planar
import Verif.Coils.Sym
/-!
# C55: CurveRZFourier

Model of src/simsoptpp/curverzfourier.{h,cpp}.  One quadrature point `t` (`phi = 2 π t`), real numbers instead of doubles.
The factors of `rc[i]` and `rs[i-1]` in the x and y coordinates are the same expressions as in curveplanarfourier.cpp with `nfp*i`
in place of `i` (`pow(nfp*i, 2)` in place of `i*i`), so the model uses `Planar.ci`, `cj`, `si`, `sj` and `scale` for them.
-/
namespace Simsopt.RZ
open Simsopt Simsopt.Coils Simsopt.Planar

/-- The coefficient arrays (curverzfourier.h L34-37). -/
structure Coeffs where
  rc : Nat → ℝ
  rs : Nat → ℝ
  zc : Nat → ℝ
  zs : Nat → ℝ

/-- `set_dofs_impl` (curverzfourier.h L67-85) on the arrays of zeros of the constructors (L39-58). -/
def setDofs (order : Nat) (stellsym : Bool) (d : List ℝ) : Coeffs :=
  if stellsym then
    { rc := fun i => d[i]?.getD 0, rs := fun _ => 0, zc := fun _ => 0, zs := fun i => d[order + 1 + i]?.getD 0 }
  else
    { rc := fun i => d[i]?.getD 0, rs := fun i => d[order + 1 + i]?.getD 0, zc := fun i => d[order + 1 + order + i]?.getD 0,
      zs := fun i => d[order + 1 + order + (order + 1) + i]?.getD 0 }

/-- `get_dofs` (L87-107). -/
def getDofs (order : Nat) (stellsym : Bool) (c : Coeffs) : List ℝ :=
  if stellsym then (List.range (order + 1)).map c.rc ++ (List.range order).map c.zs
  else (List.range (order + 1)).map c.rc ++ ((List.range order).map c.rs ++ ((List.range (order + 1)).map c.zc ++ (List.range order).map c.zs))

/-- `num_dofs` (L60-65). -/
def numDofs (order : Nat) (stellsym : Bool) : Nat := if stellsym then 2 * order + 1 else 2 * (2 * order + 1)

/-- The factor of `zs[i-1]` in z (curverzfourier.cpp L15, L42, L70, L103; L148, L180, L209, L249), `m = nfp*i`. -/
noncomputable def zsin (n : Fin 4) (m phi : ℝ) : ℝ := match n with
  | 0 => Real.sin (m * phi)
  | 1 => m * Real.cos (m * phi)
  | 2 => -(m ^ 2 * Real.sin (m * phi))
  | 3 => -(m ^ 3 * Real.cos (m * phi))

/-- The factor of `zc[i]` in z (L26, L53, L81, L122; L143, L175, L204, L243). -/
noncomputable def zcos (n : Fin 4) (m phi : ℝ) : ℝ := match n with
  | 0 => Real.cos (m * phi)
  | 1 => -(m * Real.sin (m * phi))
  | 2 => -(m ^ 2 * Real.cos (m * phi))
  | 3 => m ^ 3 * Real.sin (m * phi)

/-- A loop `for (i = a; i < a + k; ++i) x += f(i)`. -/
noncomputable def loop (a k : Nat) (f : Nat → ℝ) (init : ℝ) : ℝ := (List.range k).foldl (fun acc i => acc + f (a + i)) init

/-- `gamma_impl`, `gammadash_impl`, `gammadashdash_impl`, `gammadashdashdash_impl` (`n` = 0, 1, 2, 3; curverzfourier.cpp L5-127). -/
noncomputable def curve (n : Fin 4) (order nfp : Nat) (stellsym : Bool) (c : Coeffs) (t : ℝ) : V3 :=
  let phi := 2 * Real.pi * t
  let m := fun i : Nat => ((nfp * i : Nat) : ℝ)
  let x := loop 0 (order + 1) (fun i => c.rc i * ci n (m i) phi) 0
  let y := loop 0 (order + 1) (fun i => c.rc i * cj n (m i) phi) 0
  let z := loop 1 order (fun i => c.zs (i - 1) * zsin n (m i) phi) 0
  if stellsym then (x * scale n, y * scale n, z * scale n)
  else
    (loop 1 order (fun i => c.rs (i - 1) * si n (m i) phi) x * scale n,
     loop 1 order (fun i => c.rs (i - 1) * sj n (m i) phi) y * scale n,
     loop 0 (order + 1) (fun i => c.zc i * zcos n (m i) phi) z * scale n)

/-- `dgamma_by_dcoeff_impl`, ... (L130-255): the rows in the order of `counter++`; the entries that are not assigned stay 0. -/
noncomputable def dcurve (n : Fin 4) (order nfp : Nat) (stellsym : Bool) (t : ℝ) : List V3 :=
  let phi := 2 * Real.pi * t
  let m := fun i : Nat => ((nfp * i : Nat) : ℝ)
  let a := (List.range (order + 1)).map fun i : Nat => ((ci n (m i) phi * scale n, cj n (m i) phi * scale n, 0) : V3)
  let b := (List.range order).map fun i : Nat => ((si n (m (i + 1)) phi * scale n, sj n (m (i + 1)) phi * scale n, 0) : V3)
  let c := (List.range (order + 1)).map fun i : Nat => ((0, 0, zcos n (m i) phi * scale n) : V3)
  let e := (List.range order).map fun i : Nat => ((0, 0, zsin n (m (i + 1)) phi * scale n) : V3)
  if stellsym then a ++ e else a ++ (b ++ (c ++ e))

/-! ### Round trip -/

theorem map_get (d : List ℝ) (off k : Nat) (h : off + k ≤ d.length) :
    (List.range k).map (fun i => d[off + i]?.getD 0) = (d.drop off).take k := by
  apply List.ext_getElem?
  intro p
  rw [List.getElem?_take]
  by_cases hp : p < k
  · rw [if_pos hp, List.getElem?_drop, List.getElem?_map, List.getElem?_range hp, Option.map_some, List.getElem?_eq_getElem (by omega)]; rfl
  · rw [if_neg hp, List.getElem?_eq_none (by simp; omega)]

/-- **C55.** `get_dofs` after `set_dofs` returns the vector that was set. -/
theorem C55_set_get (order : Nat) (stellsym : Bool) (d : List ℝ) (hd : d.length = numDofs order stellsym) :
    getDofs order stellsym (setDofs order stellsym d) = d := by
  have hz := fun (h : order + 1 ≤ d.length) => map_get d 0 (order + 1) (by omega)
  simp only [Nat.zero_add, List.drop_zero] at hz
  cases stellsym with
  | true =>
    simp only [numDofs, if_true] at hd
    simp only [getDofs, setDofs, if_true]
    rw [hz (by omega), map_get d (order + 1) order (by omega)]
    rw [List.take_of_length_le (l := d.drop (order + 1)) (by simp; omega), List.take_append_drop]
  | false =>
    simp only [numDofs, Bool.false_eq_true, if_false] at hd
    simp only [getDofs, setDofs, Bool.false_eq_true, if_false]
    rw [hz (by omega), map_get d (order + 1) order (by omega), map_get d (order + 1 + order) (order + 1) (by omega),
      map_get d (order + 1 + order + (order + 1)) order (by omega)]
    rw [List.take_of_length_le (l := d.drop (order + 1 + order + (order + 1))) (by simp; omega)]
    have e1 : d.drop (order + 1 + order + (order + 1)) = (d.drop (order + 1 + order)).drop (order + 1) := by rw [List.drop_drop]
    have e2 : d.drop (order + 1 + order) = (d.drop (order + 1)).drop order := by rw [List.drop_drop]
    rw [e1, List.take_append_drop, e2, List.take_append_drop, List.take_append_drop]

/-! ### Derivatives along the curve -/

theorem loop_sum (a k : Nat) (f : Nat → ℝ) (init : ℝ) : loop a k f init = init + ∑ i ∈ Finset.range k, f (a + i) := by
  unfold loop
  induction k with
  | zero => simp
  | succ k ih => rw [List.range_succ, List.foldl_append, ih, Finset.sum_range_succ]; simp; ring

theorem d_zsin (n : Fin 3) (m t : ℝ) : HasDerivAt (fun t => zsin n.castSucc m (2 * Real.pi * t) * scale n.castSucc) (zsin n.succ m (2 * Real.pi * t) * scale n.succ) t := by
  match n with
  | 0 => exact ((trig m t).2.mul_const 1).congr_deriv (by simp [zsin, scale]; ring)
  | 1 => exact (((trig m t).1.const_mul m).mul_const (2 * Real.pi)).congr_deriv (by simp [zsin, scale]; ring)
  | 2 => exact (((trig m t).2.const_mul (m ^ 2)).neg.mul_const (2 * Real.pi * 2 * Real.pi)).congr_deriv (by simp [zsin, scale]; ring)

theorem d_zcos (n : Fin 3) (m t : ℝ) : HasDerivAt (fun t => zcos n.castSucc m (2 * Real.pi * t) * scale n.castSucc) (zcos n.succ m (2 * Real.pi * t) * scale n.succ) t := by
  match n with
  | 0 => exact ((trig m t).1.mul_const 1).congr_deriv (by simp [zcos, scale]; ring)
  | 1 => exact (((trig m t).2.const_mul m).neg.mul_const (2 * Real.pi)).congr_deriv (by simp [zcos, scale]; ring)
  | 2 => exact (((trig m t).1.const_mul (m ^ 2)).neg.mul_const (2 * Real.pi * 2 * Real.pi)).congr_deriv (by simp [zcos, scale]; ring)

theorem d_loop (a k : Nat) (co : Nat → ℝ) (f : Fin 4 → ℝ → ℝ → ℝ) (g : Nat → ℝ) (n : Fin 3) (t : ℝ) {u : ℝ → ℝ} {u' : ℝ}
    (hf : ∀ m, HasDerivAt (fun t => f n.castSucc m (2 * Real.pi * t) * scale n.castSucc) (f n.succ m (2 * Real.pi * t) * scale n.succ) t)
    (hu : HasDerivAt (fun t => u t * scale n.castSucc) (u' * scale n.succ) t) :
    HasDerivAt (fun t => loop a k (fun i => co i * f n.castSucc (g i) (2 * Real.pi * t)) (u t) * scale n.castSucc)
      (loop a k (fun i => co i * f n.succ (g i) (2 * Real.pi * t)) u' * scale n.succ) t := by
  simp only [loop_sum, add_mul, Finset.sum_mul]
  refine hu.add (HasDerivAt.fun_sum fun i _ => ?_)
  have := (hf (g (a + i))).const_mul (co (a + i))
  simpa only [mul_assoc] using this

/-- **C55.** `gammadash`, `gammadashdash`, `gammadashdashdash` are the successive derivatives of `gamma` in the curve parameter. -/
theorem C55_dash (n : Fin 3) (order nfp : Nat) (stellsym : Bool) (c : Coeffs) (t : ℝ) :
    HasDerivAt (fun t => curve n.castSucc order nfp stellsym c t) (curve n.succ order nfp stellsym c t) t := by
  have z0 : HasDerivAt (fun _ : ℝ => (0 : ℝ) * scale n.castSucc) (0 * scale n.succ) t := by
    simp only [zero_mul]; exact hasDerivAt_const _ _
  have hx := d_loop 0 (order + 1) c.rc ci (fun i => ((nfp * i : Nat) : ℝ)) n t (fun m => d_ci n m t) z0
  have hy := d_loop 0 (order + 1) c.rc cj (fun i => ((nfp * i : Nat) : ℝ)) n t (fun m => d_cj n m t) z0
  have hz := d_loop 1 order (fun i => c.zs (i - 1)) zsin (fun i => ((nfp * i : Nat) : ℝ)) n t (fun m => d_zsin n m t) z0
  cases stellsym with
  | true => exact hx.prodMk (hy.prodMk hz)
  | false =>
    exact (d_loop 1 order (fun i => c.rs (i - 1)) si (fun i => ((nfp * i : Nat) : ℝ)) n t (fun m => d_si n m t) hx).prodMk
      ((d_loop 1 order (fun i => c.rs (i - 1)) sj (fun i => ((nfp * i : Nat) : ℝ)) n t (fun m => d_sj n m t) hy).prodMk
        (d_loop 0 (order + 1) c.zc zcos (fun i => ((nfp * i : Nat) : ℝ)) n t (fun m => d_zcos n m t) hz))

/-! ### Derivatives in the dofs -/

/-- `Σ_p d[p] * rows[p]` over the first `N` entries. -/
noncomputable def combine (d : List ℝ) (rows : List V3) (N : Nat) : V3 := ∑ p ∈ Finset.range N, d[p]?.getD 0 • rows[p]?.getD 0

theorem combine_deriv (d : List ℝ) (rows : List V3) (N p : Nat) (hp : p < d.length) (hN : p < N) :
    HasDerivAt (fun x => combine (d.set p x) rows N) (rows[p]?.getD 0) d[p] := by
  have e : (fun x => combine (d.set p x) rows N) = fun x => combine d rows N + (x - d[p]) • rows[p]?.getD 0 := by
    funext x
    simp only [combine, get_set d p hp x, add_smul, Finset.sum_add_distrib]
    congr 1
    rw [Finset.sum_eq_single p]
    · rw [if_pos rfl]
    · intro q _ hq; rw [if_neg hq, zero_smul]
    · intro h; exact absurd (Finset.mem_range.mpr hN) h
  rw [e]
  have h := HasDerivAt.const_add (combine d rows N) (((hasDerivAt_id d[p]).sub_const d[p]).smul_const (rows[p]?.getD 0))
  rw [one_smul] at h
  exact h

theorem sum_block (d : List ℝ) (rows : List V3) (off k : Nat) (f : Nat → V3) (h : ∀ i < k, rows[off + i]? = some (f i)) :
    ∑ i ∈ Finset.range k, d[off + i]?.getD 0 • rows[off + i]?.getD 0 = ∑ i ∈ Finset.range k, d[off + i]?.getD 0 • f i := by
  apply Finset.sum_congr rfl
  intro i hi
  rw [h i (Finset.mem_range.mp hi)]; rfl

theorem fst_sum (k : Nat) (f : Nat → V3) : (∑ i ∈ Finset.range k, f i).1 = ∑ i ∈ Finset.range k, (f i).1 := by
  induction k with
  | zero => rfl
  | succ k ih => rw [Finset.sum_range_succ, Finset.sum_range_succ, ← ih]; rfl
theorem snd_sum (k : Nat) (f : Nat → V3) : (∑ i ∈ Finset.range k, f i).2.1 = ∑ i ∈ Finset.range k, (f i).2.1 := by
  induction k with
  | zero => rfl
  | succ k ih => rw [Finset.sum_range_succ, Finset.sum_range_succ, ← ih]; rfl
theorem trd_sum (k : Nat) (f : Nat → V3) : (∑ i ∈ Finset.range k, f i).2.2 = ∑ i ∈ Finset.range k, (f i).2.2 := by
  induction k with
  | zero => rfl
  | succ k ih => rw [Finset.sum_range_succ, Finset.sum_range_succ, ← ih]; rfl

theorem curve_combine (n : Fin 4) (order nfp : Nat) (stellsym : Bool) (d : List ℝ) (t : ℝ) :
    curve n order nfp stellsym (setDofs order stellsym d) t = combine d (dcurve n order nfp stellsym t) (numDofs order stellsym) := by
  cases stellsym with
  | true =>
    have hN : numDofs order true = (order + 1) + order := by simp [numDofs]; omega
    rw [hN, combine, Finset.sum_range_add]
    have h1 := sum_block d (dcurve n order nfp true t) 0 (order + 1) (fun i => ((ci n ((nfp * i : Nat) : ℝ) (2 * Real.pi * t) * scale n, cj n ((nfp * i : Nat) : ℝ) (2 * Real.pi * t) * scale n, 0) : V3))
      (by intro i hi
          rw [dcurve, if_pos rfl, Nat.zero_add, List.getElem?_append_left (by simp; omega), List.getElem?_map, List.getElem?_range hi]; rfl)
    have h2 := sum_block d (dcurve n order nfp true t) (order + 1) order (fun i => ((0, 0, zsin n ((nfp * (i + 1) : Nat) : ℝ) (2 * Real.pi * t) * scale n) : V3))
      (by intro i hi
          rw [dcurve, if_pos rfl, List.getElem?_append_right (by simp), List.length_map, List.length_range, Nat.add_sub_cancel_left, List.getElem?_map, List.getElem?_range hi]; rfl)
    simp only [Nat.zero_add] at h1
    rw [h1, h2]
    simp only [curve, setDofs, if_true, loop_sum, zero_add]
    ext
    · simp only [Prod.fst_add, fst_sum, Prod.smul_fst, smul_eq_mul, mul_zero, Finset.sum_const_zero, add_zero, Finset.sum_mul, mul_assoc]
    · simp only [Prod.fst_add, Prod.snd_add, snd_sum, Prod.smul_fst, Prod.smul_snd, smul_eq_mul, mul_zero, Finset.sum_const_zero, add_zero, Finset.sum_mul, mul_assoc]
    · simp only [Prod.snd_add, trd_sum, Prod.smul_snd, smul_eq_mul, mul_zero, Finset.sum_const_zero, zero_add, Finset.sum_mul, mul_assoc,
        Nat.add_comm 1, Nat.add_sub_cancel]
  | false =>
    have hN : numDofs order false = (order + 1) + (order + ((order + 1) + order)) := by simp [numDofs]; omega
    rw [hN, combine, Finset.sum_range_add, Finset.sum_range_add _ order (order + 1 + order), Finset.sum_range_add _ (order + 1) order]
    simp only [← Nat.add_assoc (order + 1), ← Nat.add_assoc (order + 1 + order)]
    have h1 := sum_block d (dcurve n order nfp false t) 0 (order + 1) (fun i => ((ci n ((nfp * i : Nat) : ℝ) (2 * Real.pi * t) * scale n, cj n ((nfp * i : Nat) : ℝ) (2 * Real.pi * t) * scale n, 0) : V3))
      (by intro i hi
          rw [dcurve, if_neg (by simp), Nat.zero_add, List.getElem?_append_left (by simp; omega), List.getElem?_map, List.getElem?_range hi]; rfl)
    have h2 := sum_block d (dcurve n order nfp false t) (order + 1) order (fun i => ((si n ((nfp * (i + 1) : Nat) : ℝ) (2 * Real.pi * t) * scale n, sj n ((nfp * (i + 1) : Nat) : ℝ) (2 * Real.pi * t) * scale n, 0) : V3))
      (by intro i hi
          rw [dcurve, if_neg (by simp), List.getElem?_append_right (by simp), List.length_map, List.length_range, Nat.add_sub_cancel_left,
            List.getElem?_append_left (by simp; omega), List.getElem?_map, List.getElem?_range hi]; rfl)
    have h3 := sum_block d (dcurve n order nfp false t) (order + 1 + order) (order + 1) (fun i => ((0, 0, zcos n ((nfp * i : Nat) : ℝ) (2 * Real.pi * t) * scale n) : V3))
      (by intro i hi
          rw [dcurve, if_neg (by simp), List.getElem?_append_right (by simp; omega), List.length_map, List.length_range,
            List.getElem?_append_right (by simp; omega), List.length_map, List.length_range,
            show order + 1 + order + i - (order + 1) - order = i by omega,
            List.getElem?_append_left (by simp; omega), List.getElem?_map, List.getElem?_range hi]; rfl)
    have h4 := sum_block d (dcurve n order nfp false t) (order + 1 + order + (order + 1)) order (fun i => ((0, 0, zsin n ((nfp * (i + 1) : Nat) : ℝ) (2 * Real.pi * t) * scale n) : V3))
      (by intro i hi
          rw [dcurve, if_neg (by simp), List.getElem?_append_right (by simp; omega), List.length_map, List.length_range,
            List.getElem?_append_right (by simp; omega), List.length_map, List.length_range,
            List.getElem?_append_right (by simp; omega), List.length_map, List.length_range,
            show order + 1 + order + (order + 1) + i - (order + 1) - order - (order + 1) = i by omega,
            List.getElem?_map, List.getElem?_range hi]; rfl)
    simp only [Nat.zero_add] at h1
    rw [h1, h2, h3]
    have e : ∀ x, order + 1 + order + order + 1 + x = order + 1 + order + (order + 1) + x := by intro x; omega
    simp only [e]
    rw [h4]
    simp only [curve, setDofs, Bool.false_eq_true, if_false, loop_sum, zero_add]
    ext
    · simp only [Prod.fst_add, fst_sum, Prod.smul_fst, smul_eq_mul, mul_zero, Finset.sum_const_zero, add_zero, add_mul, Finset.sum_mul, mul_assoc,
        Nat.add_comm 1, Nat.add_sub_cancel]
    · simp only [Prod.fst_add, Prod.snd_add, snd_sum, Prod.smul_fst, Prod.smul_snd, smul_eq_mul, mul_zero, Finset.sum_const_zero, add_zero, add_mul, Finset.sum_mul, mul_assoc,
        Nat.add_comm 1, Nat.add_sub_cancel]
    · simp only [Prod.snd_add, trd_sum, Prod.smul_snd, smul_eq_mul, mul_zero, Finset.sum_const_zero, zero_add, add_mul, Finset.sum_mul, mul_assoc,
        Nat.add_comm 1, Nat.add_sub_cancel]
      ring

theorem dcurve_length (n : Fin 4) (order nfp : Nat) (stellsym : Bool) (t : ℝ) : (dcurve n order nfp stellsym t).length = numDofs order stellsym := by
  cases stellsym <;> simp [dcurve, numDofs] <;> omega

/-- **C55.** The arrays `dgamma_by_dcoeff`, ... have one row per dof, which is the derivative of `gamma`, ... in that dof. -/
theorem C55_dcoeff (n : Fin 4) (order nfp : Nat) (stellsym : Bool) (d : List ℝ) (hd : d.length = numDofs order stellsym) (t : ℝ)
    (p : Nat) (hp : p < d.length) :
    ∃ row, (dcurve n order nfp stellsym t)[p]? = some row ∧
      HasDerivAt (fun x => curve n order nfp stellsym (setDofs order stellsym (d.set p x)) t) row d[p] := by
  have hp' : p < (dcurve n order nfp stellsym t).length := by rw [dcurve_length, ← hd]; exact hp
  refine ⟨_, List.getElem?_eq_getElem hp', ?_⟩
  simp only [curve_combine]
  have h := combine_deriv d (dcurve n order nfp stellsym t) (numDofs order stellsym) p hp (hd ▸ hp)
  rw [List.getElem?_eq_getElem hp'] at h
  exact h

/-- The documented series (curverzfourier.py L14-30): `cosine` and `sine` coefficients starting at the dofs `a` and `b`. -/
noncomputable def series (order nfp : Nat) (d : List ℝ) (a b : Option Nat) (phi : ℝ) : ℝ :=
  (match a with | some a => ∑ m ∈ Finset.range (order + 1), d[a + m]?.getD 0 * Real.cos (nfp * m * phi) | none => 0) +
  (match b with | some b => ∑ m ∈ Finset.range order, d[b + m]?.getD 0 * Real.sin (nfp * (m + 1) * phi) | none => 0)

/-- **C55.** What `gamma` is: cylindrical coordinates `(r(φ), φ, z(φ))` at `φ = 2 π t` with the documented series and dof order. -/
theorem C55_series (order nfp : Nat) (d : List ℝ) (t : ℝ) :
    let phi := 2 * Real.pi * t
    (let r := series order nfp d (some 0) none phi
     let z := series order nfp d none (some (order + 1)) phi
     curve 0 order nfp true (setDofs order true d) t = (r * Real.cos phi, r * Real.sin phi, z)) ∧
    (let r := series order nfp d (some 0) (some (order + 1)) phi
     let z := series order nfp d (some (2 * order + 1)) (some (3 * order + 2)) phi
     curve 0 order nfp false (setDofs order false d) t = (r * Real.cos phi, r * Real.sin phi, z)) := by
  have e1 : ∀ x, order + 1 + order + x = 2 * order + 1 + x := by intro x; omega
  have e2 : ∀ x, 2 * order + 1 + (order + 1) + x = 3 * order + 2 + x := by intro x; omega
  constructor
  · simp only [curve, setDofs, if_true, loop_sum, series, zero_add, scale, ci, cj, zsin, mul_one, Finset.sum_mul, add_zero]
    refine Prod.ext ?_ (Prod.ext ?_ ?_) <;> dsimp only
    · apply Finset.sum_congr rfl; intro i _; push_cast; ring
    · apply Finset.sum_congr rfl; intro i _; push_cast; ring
    · apply Finset.sum_congr rfl; intro i _; rw [Nat.add_sub_cancel_left]; push_cast; ring_nf
  · simp only [curve, setDofs, Bool.false_eq_true, if_false, loop_sum, series, zero_add, scale, ci, cj, si, sj, zsin, zcos, mul_one, add_mul, Finset.sum_mul, e1, e2]
    refine Prod.ext ?_ (Prod.ext ?_ ?_) <;> dsimp only
    · congr 1 <;> (apply Finset.sum_congr rfl; intro i _; (try simp only [Nat.add_sub_cancel_left]); push_cast; ring_nf)
    · congr 1 <;> (apply Finset.sum_congr rfl; intro i _; (try simp only [Nat.add_sub_cancel_left]); push_cast; ring_nf)
    · rw [add_comm]
      congr 1 <;> (apply Finset.sum_congr rfl; intro i _; (try simp only [Nat.add_sub_cancel_left]); push_cast; ring_nf)

/-! ### Symmetries -/

/-- **C55.** Discrete rotational symmetry: advancing the parameter by one field period rotates the point (and its derivatives) about the
z axis by `2 π / nfp`. -/
theorem C55_field_period (n : Fin 4) (order nfp : Nat) (hn : 0 < nfp) (stellsym : Bool) (c : Coeffs) (t : ℝ) :
    curve n order nfp stellsym c (t + 1 / nfp) =
      (Real.cos (2 * Real.pi / nfp) * (curve n order nfp stellsym c t).1 - Real.sin (2 * Real.pi / nfp) * (curve n order nfp stellsym c t).2.1,
       Real.sin (2 * Real.pi / nfp) * (curve n order nfp stellsym c t).1 + Real.cos (2 * Real.pi / nfp) * (curve n order nfp stellsym c t).2.1,
       (curve n order nfp stellsym c t).2.2) := by
  have hnf : (nfp : ℝ) ≠ 0 := by exact_mod_cast hn.ne'
  have hphi : 2 * Real.pi * (t + 1 / nfp) = 2 * Real.pi * t + 2 * Real.pi / nfp := by field_simp
  have hcos : ∀ i : Nat, Real.cos (((nfp * i : Nat) : ℝ) * (2 * Real.pi * t + 2 * Real.pi / nfp)) = Real.cos (((nfp * i : Nat) : ℝ) * (2 * Real.pi * t)) := by
    intro i
    have : ((nfp * i : Nat) : ℝ) * (2 * Real.pi * t + 2 * Real.pi / nfp) = ((nfp * i : Nat) : ℝ) * (2 * Real.pi * t) + (i : ℝ) * (2 * Real.pi) := by
      push_cast; field_simp
    rw [this, Real.cos_add_nat_mul_two_pi]
  have hsin : ∀ i : Nat, Real.sin (((nfp * i : Nat) : ℝ) * (2 * Real.pi * t + 2 * Real.pi / nfp)) = Real.sin (((nfp * i : Nat) : ℝ) * (2 * Real.pi * t)) := by
    intro i
    have : ((nfp * i : Nat) : ℝ) * (2 * Real.pi * t + 2 * Real.pi / nfp) = ((nfp * i : Nat) : ℝ) * (2 * Real.pi * t) + (i : ℝ) * (2 * Real.pi) := by
      push_cast; field_simp
    rw [this, Real.sin_add_nat_mul_two_pi]
  generalize hb : 2 * Real.pi / nfp = b at *
  have hci : ∀ i : Nat, ci n ((nfp * i : Nat) : ℝ) (2 * Real.pi * t + b) = Real.cos b * ci n ((nfp * i : Nat) : ℝ) (2 * Real.pi * t) - Real.sin b * cj n ((nfp * i : Nat) : ℝ) (2 * Real.pi * t) := by
    intro i
    match n with
    | 0 | 1 | 2 | 3 => simp only [ci, cj, hcos, hsin, Real.cos_add, Real.sin_add]; ring
  have hcj : ∀ i : Nat, cj n ((nfp * i : Nat) : ℝ) (2 * Real.pi * t + b) = Real.sin b * ci n ((nfp * i : Nat) : ℝ) (2 * Real.pi * t) + Real.cos b * cj n ((nfp * i : Nat) : ℝ) (2 * Real.pi * t) := by
    intro i
    match n with
    | 0 | 1 | 2 | 3 => simp only [ci, cj, hcos, hsin, Real.cos_add, Real.sin_add]; ring
  have hsi : ∀ i : Nat, si n ((nfp * i : Nat) : ℝ) (2 * Real.pi * t + b) = Real.cos b * si n ((nfp * i : Nat) : ℝ) (2 * Real.pi * t) - Real.sin b * sj n ((nfp * i : Nat) : ℝ) (2 * Real.pi * t) := by
    intro i
    match n with
    | 0 | 1 | 2 | 3 => simp only [si, sj, hcos, hsin, Real.cos_add, Real.sin_add]; ring
  have hsj : ∀ i : Nat, sj n ((nfp * i : Nat) : ℝ) (2 * Real.pi * t + b) = Real.sin b * si n ((nfp * i : Nat) : ℝ) (2 * Real.pi * t) + Real.cos b * sj n ((nfp * i : Nat) : ℝ) (2 * Real.pi * t) := by
    intro i
    match n with
    | 0 | 1 | 2 | 3 => simp only [si, sj, hcos, hsin, Real.cos_add, Real.sin_add]; ring
  have hzs : ∀ i : Nat, zsin n ((nfp * i : Nat) : ℝ) (2 * Real.pi * t + b) = zsin n ((nfp * i : Nat) : ℝ) (2 * Real.pi * t) := by
    intro i
    match n with
    | 0 | 1 | 2 | 3 => simp only [zsin, hcos, hsin]
  have hzc : ∀ i : Nat, zcos n ((nfp * i : Nat) : ℝ) (2 * Real.pi * t + b) = zcos n ((nfp * i : Nat) : ℝ) (2 * Real.pi * t) := by
    intro i
    match n with
    | 0 | 1 | 2 | 3 => simp only [zcos, hcos, hsin]
  have lin : ∀ (k a : Nat) (co : Nat → ℝ) (u v f g : Nat → ℝ) (x y : ℝ), (∀ i, u i = x * f i + y * g i) →
      ∑ i ∈ Finset.range k, co (a + i) * u (a + i) = x * ∑ i ∈ Finset.range k, co (a + i) * f (a + i) + y * ∑ i ∈ Finset.range k, co (a + i) * g (a + i) := by
    intro k a co u v f g x y h
    rw [Finset.mul_sum, Finset.mul_sum, ← Finset.sum_add_distrib]
    apply Finset.sum_congr rfl; intro i _; rw [h]; ring
  cases stellsym with
  | true =>
    simp only [curve, if_true, loop_sum, hphi, hci, hcj, hzs]
    ext
    · simp only [mul_sub, Finset.sum_sub_distrib, mul_left_comm _ (Real.cos b), mul_left_comm _ (Real.sin b), ← Finset.mul_sum]; ring
    · simp only [mul_add, Finset.sum_add_distrib, mul_left_comm _ (Real.cos b), mul_left_comm _ (Real.sin b), ← Finset.mul_sum]; ring
    · rfl
  | false =>
    simp only [curve, Bool.false_eq_true, if_false, loop_sum, hphi, hci, hcj, hzs, hsi, hsj, hzc]
    ext
    · simp only [mul_sub, Finset.sum_sub_distrib, mul_left_comm _ (Real.cos b), mul_left_comm _ (Real.sin b), ← Finset.mul_sum]; ring
    · simp only [mul_add, Finset.sum_add_distrib, mul_left_comm _ (Real.cos b), mul_left_comm _ (Real.sin b), ← Finset.mul_sum]; ring
    · rfl

/-- **C55.** Stellarator symmetry: with `stellsym = True` the point at `-t` is the image of the point at `t` under
`(x, y, z) ↦ (x, -y, -z)`. -/
theorem C55_stellsym (order nfp : Nat) (c : Coeffs) (t : ℝ) :
    curve 0 order nfp true c (-t) = ((curve 0 order nfp true c t).1, -(curve 0 order nfp true c t).2.1, -(curve 0 order nfp true c t).2.2) := by
  simp only [curve, if_true, loop_sum, ci, cj, zsin, scale, mul_neg, Real.cos_neg, Real.sin_neg, Finset.sum_neg_distrib, neg_mul, zero_add, mul_one]

/-- Without stellarator symmetry the dofs reach a curve which is not symmetric, so the hypothesis `stellsym = True` matters. -/
example : curve 0 0 1 false (setDofs 0 false [1, 5]) (-0) ≠
    ((curve 0 0 1 false (setDofs 0 false [1, 5]) 0).1, -(curve 0 0 1 false (setDofs 0 false [1, 5]) 0).2.1, -(curve 0 0 1 false (setDofs 0 false [1, 5]) 0).2.2) := by
  intro h
  have h3 := congrArg (fun v : V3 => v.2.2) h
  simp [curve, setDofs, loop, zcos, scale] at h3
  norm_num at h3

/-- The geometric quantities of C53 apply to this class of curves as well. -/
theorem rz_successive (order nfp : Nat) (stellsym : Bool) (c : Coeffs) (t : ℝ) :
    Geometry.Successive (curve 1 order nfp stellsym c) (curve 2 order nfp stellsym c) (curve 3 order nfp stellsym c) t :=
  ⟨C55_dash 1 order nfp stellsym c t, C55_dash 2 order nfp stellsym c t⟩

end Simsopt.RZ
