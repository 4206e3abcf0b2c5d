import Verif.PyList
import Verif.Spec.Currents
/-!
# Replacing profiles (C175)

Model of the profile setters of `Spec` (src/simsopt/mhd/spec.py L427-748).  An object is its identity, a number; of a profile only its size matters, of the graph of dependencies only the list of parents of the `Spec` object.  `append_parent` and `remove_parent` are those of optimizable.py (L845-905; see C15-C20): a parent that is already there is not added again, removing one that is not there raises ValueError, and both ring the bell.
-/
namespace Simsopt.Spec
open Simsopt

/-- What is passed to a setter: `None`, or an object with its number of dofs (L445-451). -/
inductive Arg | none | obj (id size : ℕ)

/-- The part of a `Spec` object the setters deal with. -/
structure SSt where
  slot : Kind → Option ℕ
  parents : List ℕ
  need : Bool

/-- `remove_parent` (optimizable.py L894-905). -/
def SSt.removeParent (s : SSt) (o : Option ℕ) : Except Err SSt :=
  match o with
  | some p => if p ∈ s.parents then .ok { s with parents := s.parents.erase p, need := true } else .error .valueError
  | none => .error .valueError

/-- `append_parent` (optimizable.py L845-874). -/
def SSt.appendParent (s : SSt) (p : ℕ) : SSt := if p ∈ s.parents then s else { s with parents := s.parents ++ [p], need := true }

/-- The setters of the nine profiles (L435-459 pressure, L469-496 volume current, L506-530 interface current, L540-564 iota, L574-598 oita, L608-632 mu, L642-669 pflux, L679-706 tflux, L716-748 helicity).  The errors for a wrong type (L446) or size (L450) are made but not raised; the check of the size fails for `None`.  All remove the profile they replace, except that of the helicity, which removes the toroidal flux (L744). -/
def SSt.setProfile (s : SSt) (k : Kind) (a : Arg) : Except Err SSt :=
  match a with
  | .none => .error .attributeError
  | .obj id _ =>
    if s.slot k = some id then .ok s
    else do
      let s ← match s.slot k with
        | none => pure s
        | some _ => s.removeParent (s.slot (if k = .helicity then .tflux else k))
      let s := { s with slot := fun j => if j = k then some id else s.slot j }
      let s := s.appendParent id
      return { s with need := true }

/-- A sequence of assignments. -/
def SSt.setAll : List (Kind × Arg) → SSt → Except Err SSt
  | [], s => .ok s
  | (k, a) :: l, s => do SSt.setAll l (← s.setProfile k a)

/-! ### Specification -/

/-- The parents of the object are those it has apart from profiles, and its profiles, each once; no profile is used twice. -/
def Tidy (others : List ℕ) (s : SSt) : Prop :=
  s.parents.Nodup ∧ (∀ p, p ∈ s.parents ↔ p ∈ others ∨ ∃ k, s.slot k = some p) ∧ (∀ k p, s.slot k = some p → p ∉ others) ∧ (∀ j k p, s.slot j = some p → s.slot k = some p → j = k)

/-! ### Theorems -/

theorem setProfile_eq (s : SSt) (k : Kind) (id n : ℕ) (hk : k ≠ .helicity ∨ s.slot k = none) (h : s.slot k ≠ some id) (hp : ∀ p, s.slot k = some p → p ∈ s.parents) :
    ∃ t, s.setProfile k (.obj id n) = .ok t ∧ t.need = true ∧ (∀ j, t.slot j = if j = k then some id else s.slot j) ∧
      t.parents = (let l := (match s.slot k with | some p => s.parents.erase p | none => s.parents); if id ∈ l then l else l ++ [id]) := by
  unfold SSt.setProfile
  simp only [if_neg h]
  cases hs : s.slot k with
  | none =>
    simp only [bind, Except.bind, pure, Except.pure, SSt.appendParent]
    refine ⟨_, rfl, rfl, fun j => ?_, ?_⟩
    · split <;> rfl
    · split <;> rfl
  | some p =>
    have hk' : k ≠ .helicity := hk.resolve_right (by simp [hs])
    simp only [if_neg hk', hs, SSt.removeParent, if_pos (hp p hs)]
    simp only [bind, Except.bind, pure, Except.pure, SSt.appendParent]
    refine ⟨_, rfl, rfl, fun j => ?_, ?_⟩
    · split <;> rfl
    · split <;> rfl

/-- **C175**: assigning a new profile (any but a second helicity profile): it takes the place of the old one, the old one is no longer a parent, the new one is, the others are as before, and the next run is made. -/
theorem C175_replace (others : List ℕ) (s : SSt) (hs : Tidy others s) (k : Kind) (hk : k ≠ .helicity ∨ s.slot k = none) (id n : ℕ) (hid : id ∉ others) (hfresh : ∀ j, j ≠ k → s.slot j ≠ some id) :
    ∃ t, s.setProfile k (.obj id n) = .ok t ∧ Tidy others t ∧ (∀ j, t.slot j = if j = k then some id else s.slot j) ∧ (s.slot k ≠ some id → t.need = true) := by
  obtain ⟨h1, h2, h3, h4⟩ := hs
  by_cases h : s.slot k = some id
  · refine ⟨s, ?_, ⟨h1, h2, h3, h4⟩, fun j => ?_, fun hn => absurd h hn⟩
    · unfold SSt.setProfile
      simp only [if_pos h]
    · by_cases hj : j = k
      · subst hj; rw [if_pos rfl, h]
      · rw [if_neg hj]
  · obtain ⟨t, e, a, b, c⟩ := setProfile_eq s k id n hk h (fun p hp => (h2 p).2 (Or.inr ⟨k, hp⟩))
    have hnot : id ∉ s.parents := fun hm => by
      rcases (h2 id).1 hm with ho | ⟨j, hj⟩
      · exact hid ho
      · by_cases hjk : j = k
        · subst hjk; exact h hj
        · exact hfresh j hjk hj
    have hl : t.parents = (match s.slot k with | some p => s.parents.erase p | none => s.parents) ++ [id] := by
      rw [c]
      simp only
      refine if_neg fun hm => hnot ?_
      cases hs : s.slot k with
      | none => rw [hs] at hm; exact hm
      | some p => rw [hs] at hm; exact List.mem_of_mem_erase hm
    refine ⟨t, e, ⟨?_, fun p => ?_, fun j p hj => ?_, fun i j p hi hj => ?_⟩, b, fun _ => a⟩
    · rw [hl]
      cases hs : s.slot k with
      | none => exact List.nodup_append.2 ⟨h1, by simp, fun x hx y hy => by simp at hy; subst hy; intro hc; subst hc; exact hnot hx⟩
      | some p => exact List.nodup_append.2 ⟨h1.erase p, by simp, fun x hx y hy => by simp at hy; subst hy; intro hc; subst hc; exact hnot (List.mem_of_mem_erase hx)⟩
    · rw [hl, List.mem_append, List.mem_singleton]
      cases hs : s.slot k with
      | none =>
        simp only
        rw [h2]
        constructor
        · rintro ((ho | ⟨j, hj⟩) | rfl)
          · exact Or.inl ho
          · refine Or.inr ⟨j, ?_⟩
            have hjk : j ≠ k := fun hc => by subst hc; rw [hs] at hj; simp at hj
            rw [b, if_neg hjk, hj]
          · exact Or.inr ⟨k, by rw [b, if_pos rfl]⟩
        · rintro (ho | ⟨j, hj⟩)
          · exact Or.inl (Or.inl ho)
          · rw [b] at hj
            split at hj
            · exact Or.inr (Option.some.inj hj).symm
            · exact Or.inl (Or.inr ⟨j, hj⟩)
      | some q =>
        simp only
        rw [h1.mem_erase_iff, h2]
        constructor
        · rintro (⟨hpq, ho | ⟨j, hj⟩⟩ | rfl)
          · exact Or.inl ho
          · refine Or.inr ⟨j, ?_⟩
            have hjk : j ≠ k := fun hc => by subst hc; rw [hs] at hj; exact hpq (Option.some.inj hj).symm
            rw [b, if_neg hjk, hj]
          · exact Or.inr ⟨k, by rw [b, if_pos rfl]⟩
        · rintro (ho | ⟨j, hj⟩)
          · exact Or.inl ⟨fun hc => by subst hc; exact h3 k p hs ho, Or.inl ho⟩
          · rw [b] at hj
            split at hj
            · exact Or.inr (Option.some.inj hj).symm
            · next hjk => exact Or.inl ⟨fun hc => by subst hc; exact hjk (h4 j k p hj hs), Or.inr ⟨j, hj⟩⟩
    · rw [b] at hj
      split at hj
      · rw [← Option.some.inj hj]; exact hid
      · exact h3 j p hj
    · rw [b] at hi hj
      split at hi
      · next hik =>
        split at hj
        · next hjk => exact hik.trans hjk.symm
        · next hjk => exact absurd (hj.trans hi.symm) (by rw [Option.some.inj hi] ; exact fun hc => hfresh j hjk (hj.trans (by rw [Option.some.inj hi])))
      · next hik =>
        split at hj
        · next hjk => exact absurd hi (by rw [← Option.some.inj hj]; exact hfresh i hik)
        · exact h4 i j p hi hj

/-- **C175**: any sequence of assignments of profiles other than the helicity, each time of a profile not used elsewhere, succeeds and leaves the parents tidy. -/
theorem C175_sequence (others : List ℕ) (l : List (Kind × ℕ × ℕ)) (s : SSt) (hs : Tidy others s) (hk : ∀ x ∈ l, x.1 ≠ .helicity ∧ x.2.1 ∉ others)
    (hown : ∀ x ∈ l, ∀ y ∈ l, x.2.1 = y.2.1 → x.1 = y.1) (hold : ∀ x ∈ l, ∀ j, s.slot j = some x.2.1 → j = x.1) :
    ∃ t, SSt.setAll (l.map fun x => (x.1, .obj x.2.1 x.2.2)) s = .ok t ∧ Tidy others t := by
  induction l generalizing s with
  | nil => exact ⟨s, rfl, hs⟩
  | cons x l ih =>
    obtain ⟨t, e, ht, hb, -⟩ := C175_replace others s hs x.1 (Or.inl (hk x (by simp)).1) x.2.1 x.2.2 (hk x (by simp)).2 (fun j hj hc => hj (hold x (by simp) j hc))
    obtain ⟨u, e', hu⟩ := ih t ht (fun y hy => hk y (by simp [hy])) (fun y hy z hz => hown y (by simp [hy]) z (by simp [hz])) (fun y hy j hj => by
      rw [hb] at hj
      split at hj
      · next hjx => rw [hjx]; exact hown x (by simp) y (by simp [hy]) (Option.some.inj hj)
      · exact hold y (by simp [hy]) j hj)
    refine ⟨u, ?_, hu⟩
    simp only [List.map_cons, SSt.setAll, e, bind, Except.bind]
    exact e'

/-- **C175** (violated): replacing the helicity profile when there is no profile of the toroidal flux fails. -/
theorem C175_helicity_fails_violated (s : SSt) (p id n : ℕ) (h : s.slot .helicity = some p) (hne : p ≠ id) (ht : s.slot .tflux = none) : s.setProfile .helicity (.obj id n) = .error .valueError := by
  unfold SSt.setProfile
  have : ¬ s.slot .helicity = some id := by rw [h]; simpa using hne
  simp only [if_neg this]
  simp only [h, if_true, SSt.removeParent, ht]
  rfl

/-- **C175** (violated): when there is one, it is the toroidal flux that stops being a parent, though it is still in use; the old helicity profile stays a parent. -/
theorem C175_helicity_parent_violated (others : List ℕ) (s : SSt) (hs : Tidy others s) (p q id n : ℕ) (h : s.slot .helicity = some p) (ht : s.slot .tflux = some q) (hid : id ∉ s.parents) :
    ∃ t, s.setProfile .helicity (.obj id n) = .ok t ∧ t.slot .tflux = some q ∧ q ∉ t.parents ∧ p ∈ t.parents ∧ t.slot .helicity = some id := by
  obtain ⟨h1, h2, h3, h4⟩ := hs
  have hp : p ∈ s.parents := (h2 p).2 (Or.inr ⟨_, h⟩)
  have hq : q ∈ s.parents := (h2 q).2 (Or.inr ⟨_, ht⟩)
  have hne : ¬ s.slot .helicity = some id := by
    rw [h]; intro hc; rw [← Option.some.inj hc] at hid; exact hid hp
  have hpq : p ≠ q := fun hc => by
    subst hc; have := h4 _ _ p h ht; simp at this
  have hiq : id ≠ q := fun hc => by subst hc; exact hid hq
  have hie : id ∉ s.parents.erase q := fun hm => hid (List.mem_of_mem_erase hm)
  refine ⟨⟨fun j => if j = .helicity then some id else s.slot j, s.parents.erase q ++ [id], true⟩, ?_, ?_, ?_, ?_, ?_⟩
  · unfold SSt.setProfile
    simp only [if_neg hne]
    simp only [h, if_true, SSt.removeParent, ht, if_pos hq, bind, Except.bind, pure, Except.pure, SSt.appendParent]
    simp only [if_neg hie]
  · simpa using ht
  · simp only [List.mem_append, List.mem_singleton, not_or]
    exact ⟨fun hm => ((h1.mem_erase_iff).1 hm).1 rfl, fun hc => hiq hc.symm⟩
  · simp only [List.mem_append]
    exact Or.inl ((h1.mem_erase_iff).2 ⟨hpq, hp⟩)
  · simp

/-- **C175** (violated): the size is not checked: a profile of any size is accepted; and `None`, with which the setters promise to drop a profile, raises AttributeError. -/
theorem C175_checks_violated (s : SSt) (k : Kind) (id n m : ℕ) : s.setProfile k (.obj id n) = s.setProfile k (.obj id m) ∧ s.setProfile k .none = .error .attributeError := ⟨rfl, rfl⟩

/-- A `Spec` object with its boundary and no profiles. -/
example : Tidy [0] ⟨fun _ => none, [0], false⟩ := ⟨by simp, fun p => by simp, fun k p h => by simp at h, fun j k p h => by simp at h⟩

/-- With an iota and a helicity profile. -/
example : Tidy [0] ⟨fun k => if k = .iota then some 1 else if k = .tflux then some 3 else if k = .helicity then some 2 else none, [0, 1, 2, 3], false⟩ := by
  refine ⟨by decide, fun p => ?_, fun k p h => ?_, fun j k p h h' => ?_⟩
  · simp only [List.mem_cons, List.not_mem_nil, or_false]
    constructor
    · rintro (rfl | rfl | rfl | rfl)
      · exact Or.inl rfl
      · exact Or.inr ⟨.iota, rfl⟩
      · exact Or.inr ⟨.helicity, rfl⟩
      · exact Or.inr ⟨.tflux, rfl⟩
    · rintro (rfl | ⟨k, hk⟩)
      · exact Or.inl rfl
      · cases k <;> simp at hk <;> omega
  · cases k <;> simp at h <;> simp <;> omega
  · cases j <;> simp at h <;> cases k <;> simp at h' <;> first | rfl | omega

end Simsopt.Spec
