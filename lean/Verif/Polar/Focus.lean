import Verif.Polar.Discretize
import Mathlib.Analysis.SpecialFunctions.Pow.Real
/-!
# Magnets and normal fields of FOCUS and FAMUS files (C183)

Model of `FocusData` and `FocusPlasmaBnormal` and of the two stellarator transforms (src/simsopt/util/famus_helpers.py L18-578).  Real numbers instead of doubles; the text of the files is not modelled.
-/
namespace Simsopt.Polar
open Real

/-! ## Transforms -/

/-- `stell_point_transform('reflect', phi, ...)` (L570-572). -/
noncomputable def reflectPoint (φ : ℝ) (v : V) : V := (cos (2 * φ) * v.1 + sin (2 * φ) * v.2.1, sin (2 * φ) * v.1 - cos (2 * φ) * v.2.1, -v.2.2)
/-- `stell_vector_transform('reflect', phi, ...)` (L523-525). -/
noncomputable def reflectVector (φ : ℝ) (v : V) : V := (-cos (2 * φ) * v.1 - sin (2 * φ) * v.2.1, -sin (2 * φ) * v.1 + cos (2 * φ) * v.2.1, v.2.2)
/-- Both transforms with 'translate' (L527-529, L574-576). -/
noncomputable def translate (φ : ℝ) (v : V) : V := (cos φ * v.1 - sin φ * v.2.1, sin φ * v.1 + cos φ * v.2.1, v.2.2)
/-- The point at distance R, angle a and height z. -/
noncomputable def cylPoint (R a z : ℝ) : V := (R * cos a, R * sin a, z)
/-- The inner product. -/
def dot (v w : V) : ℝ := v.1 * w.1 + v.2.1 * w.2.1 + v.2.2 * w.2.2

/-- **C183** Reflection in the plane at the angle φ takes the point at the angle φ + d and height z to that at φ - d and -z, translation by φ adds φ to the angle; a vector is transformed as the point and reversed, which is the rule for magnets in a stellarator-symmetric field. -/
theorem C183_transform (φ d R z : ℝ) (v : V) :
    reflectPoint φ (cylPoint R (φ + d) z) = cylPoint R (φ - d) (-z) ∧ translate φ (cylPoint R d z) = cylPoint R (d + φ) z ∧
    reflectVector φ v = (-(reflectPoint φ v).1, -(reflectPoint φ v).2.1, -(reflectPoint φ v).2.2) := by
  refine ⟨?_, ?_, ?_⟩
  · have e : φ - d = 2 * φ - (φ + d) := by ring
    rw [e]
    simp only [reflectPoint, cylPoint, cos_sub, sin_sub, Prod.mk.injEq]
    refine ⟨by ring, by ring, trivial⟩
  · simp only [translate, cylPoint, cos_add, sin_add, Prod.mk.injEq]
    refine ⟨by ring, by ring, trivial⟩
  · simp only [reflectVector, reflectPoint, Prod.mk.injEq, neg_neg, and_true]
    constructor <;> ring

/-- **C183** All transforms keep lengths and angles, and reflecting twice gives back the original. -/
theorem C183_isometry (φ : ℝ) (v w : V) :
    dot (reflectPoint φ v) (reflectPoint φ w) = dot v w ∧ dot (reflectVector φ v) (reflectVector φ w) = dot v w ∧ dot (translate φ v) (translate φ w) = dot v w ∧
    reflectPoint φ (reflectPoint φ v) = v ∧ reflectVector φ (reflectVector φ v) = v := by
  have h := sin_sq_add_cos_sq (2 * φ)
  have h1 := sin_sq_add_cos_sq φ
  obtain ⟨x, y, z⟩ := v
  obtain ⟨x', y', z'⟩ := w
  simp only [dot, reflectPoint, reflectVector, translate, Prod.mk.injEq, neg_neg, and_true]
  refine ⟨?_, ?_, ?_, ⟨?_, ?_⟩, ?_, ?_⟩
  · linear_combination (x * x' + y * y') * h
  · linear_combination (x * x' + y * y') * h
  · linear_combination (x * x' + y * y') * h1
  · linear_combination x * h
  · linear_combination y * h
  · linear_combination x * h
  · linear_combination y * h

/-! ## Reading and selecting -/

/-- The arrays of the object, one entry per magnet: positions, moments' data (`pho, mt, mp`), `symm`, `Ic`, `op`. -/
structure Data where
  o : List V
  mom : List (ℝ × ℝ × ℝ)
  symm : List ℕ
  Ic : List ℝ
  op : List ℝ
  nMagnets : ℕ

/-- The magnet with index `i` of the file. -/
structure Entry where
  o : V
  mom : ℝ × ℝ × ℝ
  symm : ℕ
  Ic : ℝ
  op : ℝ

open Classical in
/-- `nonzero_inds` (L227-235). -/
noncomputable def inds (f : List Entry) (keep : Bool) (d : ℕ) : List ℕ := (List.range f.length).filter fun i => i % d = 0 ∧ (keep = true ∨ ∃ e, f[i]? = some e ∧ e.Ic = 1)
/-- `a[nonzero_inds]`. -/
def sel {α : Type} (l : List α) (is : List ℕ) : List α := is.filterMap fun i => l[i]?
/-- `read_from_file` (L135-248): of the arrays those in L236-247 are reduced to the selected magnets, `Ic` and `op` are not. -/
noncomputable def read (f : List Entry) (keep : Bool) (d : ℕ) : Data where
  o := sel (f.map Entry.o) (inds f keep d)
  mom := sel (f.map Entry.mom) (inds f keep d)
  symm := sel (f.map Entry.symm) (inds f keep d)
  Ic := f.map Entry.Ic
  op := f.map Entry.op
  nMagnets := (inds f keep d).length

theorem sel_map {α : Type} (f : List Entry) (g : Entry → α) (is : List ℕ) : sel (f.map g) is = (is.filterMap fun i => f[i]?).map g := by
  unfold sel
  rw [List.map_filterMap]
  congr 1
  funext i
  simp

/-- **C183** The positions, moments and symmetry codes kept are those of the same magnets: of every `d`-th of the file, and unless zeros are kept only of those with `Ic = 1`. -/
theorem C183_read (f : List Entry) (keep : Bool) (d : ℕ) : ∃ kept : List Entry, (read f keep d).o = kept.map Entry.o ∧ (read f keep d).mom = kept.map Entry.mom ∧ (read f keep d).symm = kept.map Entry.symm ∧ (read f keep d).nMagnets = kept.length ∧
    kept.Sublist f ∧ (keep = false → ∀ e ∈ kept, e.Ic = 1) ∧ ∀ i e, f[i]? = some e → i % d = 0 → keep = true ∨ e.Ic = 1 → e ∈ kept := by
  refine ⟨(inds f keep d).filterMap fun i => f[i]?, sel_map _ _ _, sel_map _ _ _, sel_map _ _ _, ?_, ?_, ?_, ?_⟩
  · show (inds f keep d).length = _
    have : ∀ is : List ℕ, (∀ i ∈ is, i < f.length) → (is.filterMap fun i => f[i]?).length = is.length := by
      intro is
      induction is with
      | nil => intro _; rfl
      | cons i t ih =>
        intro h
        have hi := h i (by simp)
        rw [List.filterMap_cons_some (List.getElem?_eq_getElem hi), List.length_cons, ih fun j hj => h j (by simp [hj]), List.length_cons]
    refine (this _ fun i hi => ?_).symm
    exact List.mem_range.mp (List.mem_of_mem_filter hi)
  · have h1 : (List.range f.length).filterMap (fun i => f[i]?) = f := by
      apply List.ext_getElem?
      intro i
      have : (List.range f.length).filterMap (fun i => f[i]?) = (List.range f.length).map fun i => (f[i]?).getD ⟨(0, 0, 0), (0, 0, 0), 0, 0, 0⟩ := by
        rw [← List.filterMap_eq_map]
        apply List.filterMap_congr
        intro i hi
        simp [List.getElem?_eq_getElem (List.mem_range.mp hi)]
      rw [this, List.getElem?_map]
      by_cases hi : i < f.length
      · rw [List.getElem?_range hi, Option.map_some, List.getElem?_eq_getElem hi]; rfl
      · rw [List.getElem?_eq_none (by simpa using hi), List.getElem?_eq_none (by simpa using hi)]; rfl
    have h2 := (List.filter_sublist (l := List.range f.length) (p := fun i => decide (i % d = 0 ∧ (keep = true ∨ ∃ e, f[i]? = some e ∧ e.Ic = 1)))).filterMap fun i => f[i]?
    rw [h1] at h2
    unfold inds
    convert h2
  · intro hk e he
    rw [List.mem_filterMap] at he
    obtain ⟨i, hi, hf⟩ := he
    unfold inds at hi
    simp only [List.mem_filter, decide_eq_true_eq] at hi
    rcases hi.2.2 with h | ⟨e', h1, h2⟩
    · rw [hk] at h; cases h
    · rw [hf] at h1; cases h1; exact h2
  · intro i e hf hd hk
    rw [List.mem_filterMap]
    refine ⟨i, ?_, hf⟩
    unfold inds
    simp only [List.mem_filter, List.mem_range, decide_eq_true_eq]
    refine ⟨?_, hd, hk.imp id fun h => ⟨e, hf, h⟩⟩
    by_contra hn
    rw [List.getElem?_eq_none (by omega)] at hf
    cases hf

/-- **C183, exception** `Ic` and the orientation `op` are not reduced: after leaving out the first magnet (`Ic = 0`) the entries for the first kept magnet are those of the one left out. -/
theorem C183_op_violated (a b : Entry) (ha : a.Ic = 0) (hb : b.Ic = 1) :
    (read [a, b] false 1).o = [b.o] ∧ (read [a, b] false 1).nMagnets = 1 ∧ (read [a, b] false 1).op = [a.op, b.op] ∧ (read [a, b] false 1).Ic = [0, 1] := by
  have hi : inds [a, b] false 1 = [1] := by
    unfold inds
    simp [List.range_succ, ha, hb]
  refine ⟨?_, ?_, rfl, by simp [read, ha, hb]⟩
  · show sel _ (inds [a, b] false 1) = _
    rw [hi]; simp [sel]
  · show (inds [a, b] false 1).length = 1
    rw [hi]; rfl

/-! ## Repetition in the other half period -/

/-- `unit_vector` (L250-261) of a moment `(pho, mt, mp)`. -/
noncomputable def unitVector (m : ℝ × ℝ × ℝ) : V := (cos m.2.2 * sin m.2.1, sin m.2.2 * sin m.2.1, cos m.2.1)
/-- The reflected moment (L428-435). -/
noncomputable def reflectMoment (φ : ℝ) (m : ℝ × ℝ × ℝ) : ℝ × ℝ × ℝ :=
  let n := reflectVector φ (unitVector m)
  (m.1, arctan2 √(n.1 ^ 2 + n.2.1 ^ 2) n.2.2, arctan2 n.2.1 n.1)

open Classical in
/-- `symm_inds` (L416). -/
noncomputable def symmInds (D : Data) : List ℕ := (List.range D.symm.length).filter fun i => D.symm[i]? = some 2
open Classical in
/-- `repeat_hp_to_fp` (L396-457): positions of all magnets are reflected (L432-433), everything else is for the symmetric magnets. -/
noncomputable def repeatHp (D : Data) (nfp sector : Int) : Except Err Data :=
  if symmInds D = [] then .error .valueError
  else if sector > 2 * nfp ∨ sector < 1 then .error .valueError
  else
    let φ : ℝ := sector * π / nfp
    let symm := D.symm.map fun s => if s = 2 then 1 else s
    .ok { o := D.o ++ D.o.map (reflectPoint φ)
          mom := D.mom ++ (sel D.mom (symmInds D)).map (reflectMoment φ)
          symm := symm ++ sel symm (symmInds D)
          Ic := D.Ic ++ sel D.Ic (symmInds D)
          op := D.op ++ (sel D.op (symmInds D)).map fun x => 2 * φ - x
          nMagnets := D.nMagnets + (symmInds D).length }

/-- The arrays belong to the same magnets. -/
structure Consistent (D : Data) : Prop where
  o : D.o.length = D.nMagnets
  mom : D.mom.length = D.nMagnets
  symm : D.symm.length = D.nMagnets
  op : D.op.length = D.nMagnets
  Ic : D.Ic.length = D.nMagnets

theorem sel_range {α : Type} (l : List α) : sel l (List.range l.length) = l := by
  unfold sel
  induction l using List.reverseRecOn with
  | nil => rfl
  | append_singleton t a ih =>
    rw [List.length_append, List.length_singleton, List.range_succ, List.filterMap_append]
    congr 1
    · refine Eq.trans (List.filterMap_congr fun i hi => ?_) ih
      exact List.getElem?_append_left (List.mem_range.mp hi)
    · simp

/-- **C183** If all magnets have the symmetry code 2 and the arrays fit, every magnet gets a partner with the reflected position and moment, the same density and the orientation 2φ - op; afterwards the arrays fit, and a second call is refused since the codes are 1. -/
theorem C183_repeat (D : Data) (h : Consistent D) (hs : ∀ s ∈ D.symm, s = 2) (hn : 0 < D.nMagnets) (nfp sector : Int) (h1 : 1 ≤ sector) (h2 : sector ≤ 2 * nfp) :
    ∃ D', repeatHp D nfp sector = .ok D' ∧ Consistent D' ∧ D'.nMagnets = 2 * D.nMagnets ∧ D'.o = D.o ++ D.o.map (reflectPoint (sector * π / nfp)) ∧
      D'.mom = D.mom ++ D.mom.map (reflectMoment (sector * π / nfp)) ∧ D'.op = D.op ++ D.op.map (fun x => 2 * (sector * π / nfp) - x) ∧ (∀ s ∈ D'.symm, s = 1) ∧
      repeatHp D' nfp sector = .error .valueError := by
  have hi : symmInds D = List.range D.nMagnets := by
    unfold symmInds
    rw [h.symm]
    refine List.filter_eq_self.mpr fun i hi => ?_
    have : i < D.symm.length := by rw [h.symm]; exact List.mem_range.mp hi
    simp only [decide_eq_true_eq]
    rw [List.getElem?_eq_getElem this, hs _ (List.getElem_mem this)]
  have hne : symmInds D ≠ [] := by
    rw [hi]; intro e
    have := congrArg List.length e
    simp at this; omega
  have sm : sel D.mom (symmInds D) = D.mom := by rw [hi, ← h.mom]; exact sel_range _
  have so : sel D.op (symmInds D) = D.op := by rw [hi, ← h.op]; exact sel_range _
  have sI : sel D.Ic (symmInds D) = D.Ic := by rw [hi, ← h.Ic]; exact sel_range _
  have ss : ∀ l : List ℕ, l.length = D.nMagnets → sel l (symmInds D) = l := fun l hl => by rw [hi, ← hl]; exact sel_range _
  have hc1 : ∀ s ∈ D.symm.map (fun s => if s = 2 then 1 else s), s = 1 := by
    intro s hs'
    rw [List.mem_map] at hs'
    obtain ⟨t, ht, rfl⟩ := hs'
    rw [if_pos (hs t ht)]
  refine ⟨_, (if_neg hne).trans (if_neg (by omega)), ⟨?_, ?_, ?_, ?_, ?_⟩, ?_, rfl, ?_, ?_, ?_, ?_⟩
  · show (D.o ++ _).length = D.nMagnets + _
    rw [hi]; simp [h.o]
  · show (D.mom ++ _).length = D.nMagnets + _
    rw [sm, hi]; simp [h.mom]
  · show (_ ++ sel _ _).length = D.nMagnets + _
    rw [ss _ (by simp [h.symm]), hi]; simp [h.symm]
  · show (D.op ++ _).length = D.nMagnets + _
    rw [so, hi]; simp [h.op]
  · show (D.Ic ++ _).length = D.nMagnets + _
    rw [sI, hi]; simp [h.Ic]
  · show D.nMagnets + _ = _
    rw [hi]; simp; omega
  · show D.mom ++ _ = _
    rw [sm]
  · show D.op ++ _ = _
    rw [so]
  · intro s hs'
    have : s ∈ (D.symm.map fun s => if s = 2 then 1 else s) ++ sel (D.symm.map fun s => if s = 2 then 1 else s) (symmInds D) := hs'
    rw [ss _ (by simp [h.symm])] at this
    rcases List.mem_append.mp this with h | h
    · exact hc1 s h
    · exact hc1 s h
  · refine if_pos ?_
    unfold symmInds
    refine List.filter_eq_nil_iff.mpr fun i _ => ?_
    simp only [decide_eq_true_eq]
    intro e
    have hm := List.mem_of_getElem? e
    have hm' : (2 : ℕ) ∈ (D.symm.map fun s => if s = 2 then 1 else s) ++ sel (D.symm.map fun s => if s = 2 then 1 else s) (symmInds D) := hm
    rw [ss _ (by simp [h.symm])] at hm'
    rcases List.mem_append.mp hm' with h | h
    · exact absurd (hc1 _ h) (by norm_num)
    · exact absurd (hc1 _ h) (by norm_num)

/-- **C183** The direction of the reflected moment is the reflected direction. -/
theorem C183_direction (φ : ℝ) (m : ℝ × ℝ × ℝ) : unitVector (reflectMoment φ m) = reflectVector φ (unitVector m) ∧ (reflectMoment φ m).1 = m.1 := by
  refine ⟨?_, rfl⟩
  have hu : Unit (reflectVector φ (unitVector m)) := by
    have h := (C183_isometry φ (unitVector m) (unitVector m)).2.1
    have h1 := sin_sq_add_cos_sq m.2.2
    have h2 := sin_sq_add_cos_sq m.2.1
    unfold Unit
    simp only [dot] at h
    have e : (unitVector m).1 * (unitVector m).1 + (unitVector m).2.1 * (unitVector m).2.1 + (unitVector m).2.2 * (unitVector m).2.2 = 1 := by
      simp only [unitVector]
      linear_combination (sin m.2.1) ^ 2 * h1 + h2
    rw [e] at h
    linarith
  exact direction _ hu

/-- **C183, exception** If only some magnets have the symmetry code 2, all positions are repeated: the positions no longer fit the number of magnets. -/
theorem C183_mixed_violated (D D' : Data) (h : Consistent D) (hm : (symmInds D).length < D.nMagnets) (nfp sector : Int) (hr : repeatHp D nfp sector = .ok D') : D'.o.length = 2 * D.nMagnets ∧ D'.nMagnets < 2 * D.nMagnets := by
  unfold repeatHp at hr
  split at hr
  · cases hr
  · split at hr
    · cases hr
    · cases hr
      simp only [List.length_append, List.length_map, h.o]
      omega

/-! ## Densities -/

/-- `flip_negative_magnets` (L277-298) for one magnet. -/
noncomputable def flipNegative (m : ℝ × ℝ × ℝ) : ℝ × ℝ × ℝ :=
  let u := unitVector m
  if m.1 < 0 then (-m.1, arctan2 √((-u.1) ^ 2 + (-u.2.1) ^ 2) (-u.2.2), arctan2 (-u.2.1) (-u.1)) else m
/-- The moment `pho ** q` times the direction. -/
noncomputable def momentOf (q : ℕ) (m : ℝ × ℝ × ℝ) : V := (m.1 ^ q * (unitVector m).1, m.1 ^ q * (unitVector m).2.1, m.1 ^ q * (unitVector m).2.2)
/-- `adjust_rho` (L300-319) for one density: `q` is the exponent of the file, if it has one. -/
noncomputable def adjustRho (q : Option ℝ) (qnew pho : ℝ) : ℝ := match q with
  | some q => pho ^ (q / qnew)
  | none => pho ^ (1 / qnew)

/-- **C183** Flipping makes the density non-negative and, for an odd exponent, keeps the moment. -/
theorem C183_flip (q : ℕ) (hq : q % 2 = 1) (m : ℝ × ℝ × ℝ) : 0 ≤ (flipNegative m).1 ∧ momentOf q (flipNegative m) = momentOf q m := by
  by_cases h : m.1 < 0
  · have hu : Unit (-(unitVector m).1, -(unitVector m).2.1, -(unitVector m).2.2) := by
      have h1 := sin_sq_add_cos_sq m.2.2
      have h2 := sin_sq_add_cos_sq m.2.1
      simp only [Unit, unitVector]
      linear_combination (sin m.2.1) ^ 2 * h1 + h2
    have hd := direction _ hu
    have e : flipNegative m = (-m.1, arctan2 √((-(unitVector m).1) ^ 2 + (-(unitVector m).2.1) ^ 2) (-(unitVector m).2.2), arctan2 (-(unitVector m).2.1) (-(unitVector m).1)) := if_pos h
    have hv : unitVector (flipNegative m) = (-(unitVector m).1, -(unitVector m).2.1, -(unitVector m).2.2) := by
      rw [e]; exact hd
    have hodd : (-m.1) ^ q = -m.1 ^ q := Odd.neg_pow (Nat.odd_iff.mpr hq) _
    refine ⟨by rw [e]; simp only; linarith, ?_⟩
    unfold momentOf
    rw [hv, show (flipNegative m).1 = -m.1 by rw [e], hodd]
    simp
  · have e : flipNegative m = m := if_neg h
    rw [e]
    exact ⟨not_lt.mp h, rfl⟩

/-- **C183, exception** For an even exponent the moment of a flipped magnet is reversed. -/
theorem C183_flip_violated (q : ℕ) (hq : q % 2 = 0) (m : ℝ × ℝ × ℝ) (h : m.1 < 0) : momentOf q (flipNegative m) = (-(momentOf q m).1, -(momentOf q m).2.1, -(momentOf q m).2.2) := by
  have h1 := (C183_flip 1 rfl m).2
  have hp : (flipNegative m).1 = -m.1 := by rw [flipNegative]; simp only [h, if_true]
  have heven : (-m.1) ^ q = m.1 ^ q := Even.neg_pow (Nat.even_iff.mpr hq) _
  simp only [momentOf, hp, pow_one, Prod.mk.injEq] at h1
  have h0 : m.1 ≠ 0 := h.ne
  obtain ⟨a, b, c⟩ := h1
  have ha : (unitVector (flipNegative m)).1 = -(unitVector m).1 := mul_left_cancel₀ h0 (by linarith)
  have hb : (unitVector (flipNegative m)).2.1 = -(unitVector m).2.1 := mul_left_cancel₀ h0 (by linarith)
  have hc : (unitVector (flipNegative m)).2.2 = -(unitVector m).2.2 := mul_left_cancel₀ h0 (by linarith)
  unfold momentOf
  rw [hp, heven, ha, hb, hc]
  simp

/-- **C183** Changing the exponent keeps the magnitude `pho ** momentq` of every moment (exponent 1 if the file has none). -/
theorem C183_adjust (q qnew pho : ℝ) (hp : 0 ≤ pho) (hq : qnew ≠ 0) : adjustRho (some q) qnew pho ^ qnew = pho ^ q ∧ adjustRho none qnew pho ^ qnew = pho ∧ 0 ≤ adjustRho (some q) qnew pho := by
  refine ⟨?_, ?_, rpow_nonneg hp _⟩
  · show (pho ^ (q / qnew)) ^ qnew = _
    rw [← rpow_mul hp, div_mul_cancel₀ _ hq]
  · show (pho ^ (1 / qnew)) ^ qnew = _
    rw [← rpow_mul hp, div_mul_cancel₀ _ hq, rpow_one]

/-! ## The normal field of the plasma -/

/-- A mode of the file: `n`, `m`, cosine and sine amplitude. -/
structure BMode where
  n : ℝ
  m : ℝ
  bnc : ℝ
  bns : ℝ

open Classical in
/-- `bnormal_grid` (L56-103) at a grid point (angles of period 1), with the `stellsym` of L54. -/
noncomputable def bnormal (nfp : ℝ) (l : List BMode) (φ θ : ℝ) : ℝ :=
  let s := (l.map fun k => k.bns * sin (k.m * (2 * π * θ) - nfp * k.n * (2 * π * φ))).sum
  if ∀ k ∈ l, k.bnc = 0 then s else s + (l.map fun k => k.bnc * cos (k.m * (2 * π * θ) - nfp * k.n * (2 * π * φ))).sum

theorem bnormal_eq (nfp : ℝ) (l : List BMode) (φ θ : ℝ) : bnormal nfp l φ θ = (l.map fun k => k.bns * sin (k.m * (2 * π * θ) - nfp * k.n * (2 * π * φ)) + k.bnc * cos (k.m * (2 * π * θ) - nfp * k.n * (2 * π * φ))).sum := by
  have hs : (l.map fun k => k.bns * sin (k.m * (2 * π * θ) - nfp * k.n * (2 * π * φ)) + k.bnc * cos (k.m * (2 * π * θ) - nfp * k.n * (2 * π * φ))).sum =
      (l.map fun k => k.bns * sin (k.m * (2 * π * θ) - nfp * k.n * (2 * π * φ))).sum + (l.map fun k => k.bnc * cos (k.m * (2 * π * θ) - nfp * k.n * (2 * π * φ))).sum := by
    induction l with
    | nil => simp
    | cons k t ih => simp only [List.map_cons, List.sum_cons, ih]; ring
  unfold bnormal
  simp only
  split
  · rename_i h
    rw [hs]
    have : (l.map fun k => k.bnc * cos (k.m * (2 * π * θ) - nfp * k.n * (2 * π * φ))) = l.map fun _ => 0 := List.map_congr_left fun k hk => by rw [h k hk, zero_mul]
    rw [this]
    simp
  · rw [hs]

theorem neg_sum (l : List BMode) (g : BMode → ℝ) : -(l.map g).sum = (l.map fun k => -g k).sum := by
  induction l with
  | nil => simp
  | cons a t ih => simp only [List.map_cons, List.sum_cons, ← ih]; ring

/-- **C183** The normal field is the whole Fourier series, whether or not the file is taken as stellarator-symmetric; without cosine amplitudes it is odd under (φ, θ) → (-φ, -θ); with integer mode numbers it has period 1 in θ and 1/nfp in φ. -/
theorem C183_bnormal (nfp : ℝ) (hn : nfp ≠ 0) (l : List BMode) (φ θ : ℝ) :
    bnormal nfp l φ θ = (l.map fun k => k.bns * sin (k.m * (2 * π * θ) - nfp * k.n * (2 * π * φ)) + k.bnc * cos (k.m * (2 * π * θ) - nfp * k.n * (2 * π * φ))).sum ∧
    ((∀ k ∈ l, k.bnc = 0) → bnormal nfp l (-φ) (-θ) = -bnormal nfp l φ θ) ∧
    ((∀ k ∈ l, (∃ i : ℤ, k.n = i) ∧ ∃ i : ℤ, k.m = i) → bnormal nfp l (φ + 1 / nfp) θ = bnormal nfp l φ θ ∧ bnormal nfp l φ (θ + 1) = bnormal nfp l φ θ) := by
  refine ⟨bnormal_eq _ _ _ _, ?_, ?_⟩
  · intro h
    rw [bnormal_eq, bnormal_eq, neg_sum]
    refine congrArg List.sum (List.map_congr_left fun k hk => ?_)
    rw [h k hk, show k.m * (2 * π * -θ) - nfp * k.n * (2 * π * -φ) = -(k.m * (2 * π * θ) - nfp * k.n * (2 * π * φ)) by ring, sin_neg]
    ring
  · intro h
    constructor
    · rw [bnormal_eq, bnormal_eq]
      refine congrArg List.sum (List.map_congr_left fun k hk => ?_)
      obtain ⟨⟨i, hi⟩, _⟩ := h k hk
      have e : k.m * (2 * π * θ) - nfp * k.n * (2 * π * (φ + 1 / nfp)) = k.m * (2 * π * θ) - nfp * k.n * (2 * π * φ) - i * (2 * π) := by
        rw [hi]; field_simp; ring
      rw [e, sin_sub_int_mul_two_pi, cos_sub_int_mul_two_pi]
    · rw [bnormal_eq, bnormal_eq]
      refine congrArg List.sum (List.map_congr_left fun k hk => ?_)
      obtain ⟨_, i, hi⟩ := h k hk
      have e : k.m * (2 * π * (θ + 1)) - nfp * k.n * (2 * π * φ) = k.m * (2 * π * θ) - nfp * k.n * (2 * π * φ) + i * (2 * π) := by
        rw [hi]; ring
      rw [e, sin_add_int_mul_two_pi, cos_add_int_mul_two_pi]

/-- The hypotheses hold in a concrete case. -/
example : Consistent ⟨[(1, 0, 0)], [(1, 0, 0)], [2], [1], [0], 1⟩ ∧ ∀ s ∈ [2], s = 2 := ⟨⟨rfl, rfl, rfl, rfl, rfl⟩, by simp⟩
end Simsopt.Polar
