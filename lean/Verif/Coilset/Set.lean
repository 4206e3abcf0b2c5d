import Verif.Coilset.Even
import Verif.Penalties.Model
/-!
# C162: CoilSet

Model of `CoilSet` (src/simsopt/field/coilset.py L17-352): the coils it keeps, the coils its field uses, the total length, and the parents of the penalties it returns.
-/
namespace Simsopt.Coilset
open Simsopt Coils Geometry

variable {K : Type}

abbrev CoilOf (K : Type) := Curve × Cur K ℝ

/-- The attributes `base_coils`, `coils`, the coils of `bs`, and the symmetry of the surface. -/
structure CoilSet (K : Type) where
  base : List (CoilOf K)
  coils : List (CoilOf K)
  bs : List (CoilOf K)
  nfp : ℕ
  stellsym : Bool

/-- `coils_via_symmetries([coil.curve ...], [coil.current ...], nfp=..., stellsym=...)` (L58, L71, L195). -/
noncomputable def full (base : List (CoilOf K)) (nfp : ℕ) (stellsym : Bool) : Except Err (List (CoilOf K)) := coilsViaSymmetries (base.map Prod.fst) (base.map Prod.snd) nfp stellsym

/-- `CoilSet(base_coils, coils, surface)` (L38-75) with base coils: `coils` is given or made from the base coils. -/
noncomputable def CoilSet.make (base : List (CoilOf K)) (coils : Option (List (CoilOf K))) (nfp : ℕ) (stellsym : Bool) : Except Err (CoilSet K) := do
  let cs ← match coils with
    | some cs => pure cs
    | none => full base nfp stellsym
  return { base := base, coils := cs, bs := cs, nfp := nfp, stellsym := stellsym }

/-- The setter of `base_coils` (L190-200): the new coils go to `_coils` and to `bs`. -/
noncomputable def CoilSet.setBase (c : CoilSet K) (base : List (CoilOf K)) : Except Err (CoilSet K) := do
  let cs ← full base c.nfp c.stellsym
  return { c with base := base, bs := cs }

/-- `CurveLength(curve).J()` (curveobjectives.py L17-43) of a curve, from the rows of `gammadash()` of the base curves. -/
noncomputable def curveLength (gd : ℕ → List V3) (c : Curve) : ℝ := Penalties.length fun k : Fin (c.points gd).length => (c.points gd).get k

/-- `total_length` (L310-317). -/
noncomputable def CoilSet.totalLength (gd : ℕ → List V3) (c : CoilSet K) : ℝ := (c.base.map fun b => curveLength gd b.1).sum * ((c.coils.length : ℝ) / c.base.length)

/-- `for parent in target.parents: target.remove_parent(parent)` (L251-252 and in the other penalties): the loop walks by position through the list from which it removes.  Termination: the list gets
shorter. -/
def removeLoop {α : Type} [BEq α] (idx : ℕ) (l : List α) : List α :=
  if h : idx < l.length then removeLoop (idx + 1) (l.erase l[idx]) else l
termination_by l.length - idx
decreasing_by
  have := List.length_erase_le (a := l[idx]) (l := l)
  omega

/-- The parents of a penalty after `target.append_parent(self)` (L253): `parents` are those of the objective as it was made. -/
def penaltyParents {α : Type} [BEq α] (parents : List α) (me : α) : List α := removeLoop 0 parents ++ [me]

/-! ### Specification -/

/-- The elements at the odd positions. -/
def odds {α : Type} : List α → List α
  | [] => []
  | [_] => []
  | _ :: b :: r => b :: odds r

/-! ### Proofs -/

theorem rowMul_norm (v : V3) (phi : ℝ) (flip : Bool) : Geometry.norm (rowMul v (rotmat phi flip)) = Geometry.norm v := by
  have h : Geometry.inner (rowMul v (rotmat phi flip)) (rowMul v (rotmat phi flip)) = Geometry.inner v v := by
    have e := Real.sin_sq_add_cos_sq phi
    rw [rowMul_rotmat]
    cases flip <;> simp only [rotZ, mirror, Geometry.inner, if_true, Bool.false_eq_true, if_false] <;> linear_combination (v.1 ^ 2 + v.2.1 ^ 2) * e
  exact congrArg Real.sqrt h

theorem curveLength_list (gd : ℕ → List V3) (c : Curve) : curveLength gd c = ((c.points gd).map Geometry.norm).sum / (c.points gd).length := by
  unfold curveLength Penalties.length Penalties.mean
  rw [← List.sum_ofFn]
  congr 2
  conv_rhs => rw [← List.ofFn_get (c.points gd), List.map_ofFn]
  rfl

theorem curveLength_rotated (gd : ℕ → List V3) (c : Curve) (phi : ℝ) (flip : Bool) : curveLength gd (.rotated c phi flip) = curveLength gd c := by
  rw [curveLength_list, curveLength_list]
  simp only [Curve.points, List.map_map, List.length_map]
  congr 2
  refine List.map_congr_left fun v _ => ?_
  exact rowMul_norm v phi flip

theorem sum_flatMap_const {α : Type} (l : List α) (f : α → List ℝ) (s : ℝ) (h : ∀ a ∈ l, (f a).sum = s) : (l.flatMap f).sum = l.length * s := by
  induction l with
  | nil => simp
  | cons a l ih =>
    rw [List.flatMap_cons, List.sum_append, ih (fun b hb => h b (List.mem_cons_of_mem _ hb)), h a List.mem_cons_self, List.length_cons]
    push_cast
    ring

theorem symCurves_length_sum (gd : ℕ → List V3) (bs : List Curve) (nfp : ℕ) (stellsym : Bool) :
    ((symCurves bs nfp stellsym).map (curveLength gd)).sum = (nfp * (1 + stellsym.toNat) : ℝ) * (bs.map (curveLength gd)).sum := by
  unfold symCurves
  rw [List.map_flatMap, sum_flatMap_const _ _ ((1 + stellsym.toNat : ℝ) * (bs.map (curveLength gd)).sum)]
  · rw [List.length_range]; ring
  · intro k _
    rw [List.map_flatMap, sum_flatMap_const _ _ (bs.map (curveLength gd)).sum]
    · cases stellsym <;> norm_num
    · intro flip _
      rw [List.map_map]
      congr 1
      refine List.map_congr_left fun b _ => ?_
      simp only [Function.comp]
      by_cases h : (k = 0 && !flip) = true
      · rw [if_pos h]
      · rw [if_neg h, curveLength_rotated]

theorem zip_fst {α β : Type} (l : List α) (m : List β) (h : l.length = m.length) : (l.zip m).map Prod.fst = l := by
  rw [List.map_fst_zip (by omega)]

theorem full_ok (base : List (CoilOf K)) (nfp : ℕ) (stellsym : Bool) : ∃ cs, full base nfp stellsym = .ok cs ∧ cs.length = base.length * nfp * (1 + stellsym.toNat) ∧
    cs.map Prod.fst = symCurves (base.map Prod.fst) nfp stellsym := by
  obtain ⟨cs, h1, h2⟩ := (C36_count (curves := base.map Prod.fst) (currents := base.map Prod.snd) (nfp := nfp) (stellsym := stellsym)).2 (by simp)
  refine ⟨cs, h1, by simpa using h2, ?_⟩
  have h3 := h1
  unfold coilsViaSymmetries at h3
  rw [if_neg (by simp)] at h3
  cases h3
  refine zip_fst _ _ ?_
  unfold symCurves symCurrents
  simp

/-- **C162**: the total length of a CoilSet made from base coils is the sum of the lengths of all its coils, copies included. -/
theorem C162_total_length (gd : ℕ → List V3) (base : List (CoilOf K)) (hb : base ≠ []) (nfp : ℕ) (stellsym : Bool) :
    ∃ c, CoilSet.make base none nfp stellsym = .ok c ∧ c.bs = c.coils ∧ c.totalLength gd = (c.coils.map fun b => curveLength gd b.1).sum := by
  obtain ⟨cs, h1, h2, h3⟩ := full_ok base nfp stellsym
  refine ⟨{ base := base, coils := cs, bs := cs, nfp := nfp, stellsym := stellsym }, ?_, rfl, ?_⟩
  · unfold CoilSet.make
    simp only [h1, bind, Except.bind, pure, Except.pure]
  · unfold CoilSet.totalLength
    have e : (cs.map fun b => curveLength gd b.1) = (cs.map Prod.fst).map (curveLength gd) := by rw [List.map_map]; rfl
    have e' : (base.map fun b => curveLength gd b.1) = (base.map Prod.fst).map (curveLength gd) := by rw [List.map_map]; rfl
    have hl : (base.length : ℝ) ≠ 0 := by
      have := List.length_pos_of_ne_nil hb
      exact_mod_cast this.ne'
    simp only [e, e', h3, symCurves_length_sum, h2]
    push_cast
    field_simp

/-- **C162**: after `base_coils` has been set, the field is the one of the new coils. -/
theorem C162_set_base_field (c : CoilSet K) (base : List (CoilOf K)) : ∃ c' cs, c.setBase base = .ok c' ∧ full base c.nfp c.stellsym = .ok cs ∧ c'.base = base ∧ c'.bs = cs := by
  obtain ⟨cs, h1, -, -⟩ := full_ok base c.nfp c.stellsym
  refine ⟨{ c with base := base, bs := cs }, cs, ?_, h1, rfl, rfl⟩
  unfold CoilSet.setBase
  simp only [h1, bind, Except.bind, pure, Except.pure]

/-- **C162** (violated): after `base_coils` has been set, `coils` (and with it `to_makegrid_file`, `to_vtk`, `cc_distance_penalty` and `cs_distance_penalty`) is still the list of the old coils, while
the field uses the new ones; `total_length` is wrong by the factor of the numbers of old and new base coils. -/
theorem C162_set_base_violated (gd : ℕ → List V3) (base new : List (CoilOf K)) (hb : new ≠ []) (nfp : ℕ) (stellsym : Bool) :
    ∃ c c', CoilSet.make base none nfp stellsym = .ok c ∧ c.setBase new = .ok c' ∧ c'.coils = c.coils ∧ full base nfp stellsym = .ok c'.coils ∧ full new nfp stellsym = .ok c'.bs ∧
      c'.totalLength gd = ((base.length : ℝ) / new.length) * (c'.bs.map fun b => curveLength gd b.1).sum := by
  obtain ⟨cs, h1, h2, -⟩ := full_ok base nfp stellsym
  obtain ⟨cs', h1', h2', h3'⟩ := full_ok new nfp stellsym
  refine ⟨{ base := base, coils := cs, bs := cs, nfp := nfp, stellsym := stellsym }, { base := new, coils := cs, bs := cs', nfp := nfp, stellsym := stellsym }, ?_, ?_, rfl, h1, h1', ?_⟩
  · unfold CoilSet.make
    simp only [h1, bind, Except.bind, pure, Except.pure]
  · unfold CoilSet.setBase
    simp only [h1', bind, Except.bind, pure, Except.pure]
  · unfold CoilSet.totalLength
    have e : (cs'.map fun b => curveLength gd b.1) = (cs'.map Prod.fst).map (curveLength gd) := by rw [List.map_map]; rfl
    have e' : (new.map fun b => curveLength gd b.1) = (new.map Prod.fst).map (curveLength gd) := by rw [List.map_map]; rfl
    have hl : (new.length : ℝ) ≠ 0 := by
      have := List.length_pos_of_ne_nil hb
      exact_mod_cast this.ne'
    simp only [e, e', h3', symCurves_length_sum, h2]
    push_cast
    field_simp

/-- A `ReducedCoilSet`: its CoilSet and its own attribute `bs`, taken from the CoilSet when it is made (L404-405). -/
structure View (K : Type) where
  coilset : CoilSet K
  bs : List (CoilOf K)

def View.make (c : CoilSet K) : View K := { coilset := c, bs := c.bs }

/-- The setter of `base_coils` of a `ReducedCoilSet` (L470-473): the CoilSet gets a new field, the attribute `bs` is not touched (nor by `recalculate_reduced_basis`). -/
noncomputable def View.setBase (v : View K) (base : List (CoilOf K)) : Except Err (View K) := do
  let c ← v.coilset.setBase base
  return { v with coilset := c }

/-- **C162** (violated): after `base_coils` of a `ReducedCoilSet` has been set, its field `bs` (used by `flux_penalty`) is the field of the old coils; only the CoilSet has the new one. -/
theorem C162_reduced_violated (base new : List (CoilOf K)) (nfp : ℕ) (stellsym : Bool) :
    ∃ c v, CoilSet.make base none nfp stellsym = .ok c ∧ (View.make c).setBase new = .ok v ∧ full base nfp stellsym = .ok v.bs ∧ full new nfp stellsym = .ok v.coilset.bs ∧ v.coilset.base = new := by
  obtain ⟨cs, h1, -, -⟩ := full_ok base nfp stellsym
  obtain ⟨cs', h1', -, -⟩ := full_ok new nfp stellsym
  refine ⟨{ base := base, coils := cs, bs := cs, nfp := nfp, stellsym := stellsym }, { coilset := { base := new, coils := cs, bs := cs', nfp := nfp, stellsym := stellsym }, bs := cs }, ?_, ?_, h1, h1', rfl⟩
  · unfold CoilSet.make
    simp only [h1, bind, Except.bind, pure, Except.pure]
  · unfold View.setBase CoilSet.setBase View.make
    simp only [h1', bind, Except.bind, pure, Except.pure]

theorem removeLoop_spec {α : Type} [DecidableEq α] : ∀ (rest pre : List α), (pre ++ rest).Nodup → removeLoop pre.length (pre ++ rest) = pre ++ odds rest
  | [], pre, _ => by
    rw [removeLoop, dif_neg (by simp)]
    rfl
  | [a], pre, h => by
    have ha : a ∉ pre := fun hm => (List.nodup_append.1 h).2.2 a hm a (by simp) rfl
    rw [removeLoop, dif_pos (by simp)]
    have e : (pre ++ [a])[pre.length]'(by simp) = a := by simp
    rw [e, List.erase_append_right _ ha, List.erase_cons_head, List.append_nil, removeLoop, dif_neg (by omega)]
    simp [odds]
  | a :: b :: r, pre, h => by
    have ha : a ∉ pre := fun hm => (List.nodup_append.1 h).2.2 a hm a (by simp) rfl
    rw [removeLoop, dif_pos (by simp)]
    have e : (pre ++ a :: b :: r)[pre.length]'(by simp) = a := by simp
    rw [e, List.erase_append_right _ ha, List.erase_cons_head]
    have hn : ((pre ++ [b]) ++ r).Nodup := by
      rw [List.append_assoc]
      refine h.sublist ?_
      exact List.Sublist.append_left (List.sublist_cons_self a (b :: r)) pre
    have ih := removeLoop_spec r (pre ++ [b]) hn
    rw [List.length_append, List.length_singleton, List.append_assoc] at ih
    rw [show pre ++ b :: r = pre ++ ([b] ++ r) from rfl, ih]
    simp [odds]

/-- **C162** (violated): of the original parents of a penalty those at the odd positions stay: the objective still depends on them directly, beside the CoilSet.  With one parent (the flux penalty) nothing
stays; with two (a sum of objectives) the last objective stays; with `m` curves (the coil-coil distance) half of the curves stay. -/
theorem C162_parents_violated {α : Type} [DecidableEq α] (parents : List α) (me : α) (h : parents.Nodup) : penaltyParents parents me = odds parents ++ [me] ∧ (odds parents).length = parents.length / 2 := by
  constructor
  · unfold penaltyParents
    have := removeLoop_spec parents [] (by simpa using h)
    rw [List.length_nil, List.nil_append, List.nil_append] at this
    rw [this]
  · have : ∀ (n : ℕ) (l : List α), l.length ≤ n → (odds l).length = l.length / 2 := by
      intro n
      induction n with
      | zero =>
        intro l hl
        have : l = [] := List.eq_nil_of_length_eq_zero (by omega)
        subst this
        simp [odds]
      | succ n ih =>
        intro l hl
        match l with
        | [] => simp [odds]
        | [_] => simp [odds]
        | a :: b :: r =>
          simp only [odds, List.length_cons] at hl ⊢
          rw [ih r (by omega)]
          omega
    exact this _ _ le_rfl

end Simsopt.Coilset
