import Verif.Dofs.Spec
import Mathlib.Data.List.Basic
import Mathlib.Data.List.Nodup
/-! Helper lemmas about masks and about `Dofs`. -/
namespace Simsopt

theorem gather_eq_masked {α : Type _} (m : List Bool) (l : List α) :
    gather m l = Dofs.maskedSpec m l := by
  induction m generalizing l with
  | nil => simp [gather, Dofs.maskedSpec]
  | cons b m ih =>
    cases l with
    | nil => cases b <;> simp [gather, Dofs.maskedSpec]
    | cons a l =>
      cases b <;> simp [gather, ih, Dofs.maskedSpec]

theorem gather_length {α : Type _} (m : List Bool) (l : List α) (h : m.length = l.length) :
    (gather m l).length = m.count true := by
  induction m generalizing l with
  | nil => simp [gather]
  | cons b m ih =>
    cases l with
    | nil => simp at h
    | cons a l =>
      simp at h
      cases b <;> simp [gather, ih l h]

theorem countTrue_eq (m : List Bool) : countTrue m = m.count true := by
  induction m with
  | nil => rfl
  | cons b m ih => cases b <;> simp [countTrue, ih]

theorem scatter_length {α : Type _} (m : List Bool) (l v : List α) :
    (scatter m l v).length = l.length := by
  induction m generalizing l v with
  | nil => simp [scatter]
  | cons b m ih =>
    cases l with
    | nil => cases b <;> simp [scatter]
    | cons a l =>
      cases b
      · simp [scatter, ih]
      · cases v <;> simp [scatter, ih]

theorem gather_scatter {α : Type _} (m : List Bool) (l v : List α) (h : m.length = l.length)
    (hv : v.length = m.count true) : gather m (scatter m l v) = v := by
  induction m generalizing l v with
  | nil => simp at hv; simp [gather, hv]
  | cons b m ih =>
    cases l with
    | nil => simp at h
    | cons a l =>
      simp at h
      cases b
      · simp at hv
        simp [scatter, gather, ih l v h hv]
      · cases v with
        | nil => simp at hv
        | cons w v =>
          simp at hv
          simp [scatter, gather, ih l v h hv]

theorem scatter_fixed {α : Type _} (m : List Bool) (l v : List α) (i : Nat)
    (hi : m[i]? = some false) : (scatter m l v)[i]? = l[i]? := by
  induction m generalizing l v i with
  | nil => simp at hi
  | cons b m ih =>
    cases l with
    | nil => cases b <;> simp [scatter]
    | cons a l =>
      cases b
      · cases i with
        | zero => simp [scatter]
        | succ i => simp at hi; simp [scatter, ih l v i hi]
      · cases i with
        | zero => simp at hi
        | succ i =>
          simp at hi
          cases v with
          | nil => simp [scatter]
          | cons w v => simp [scatter, ih l v i hi]

theorem scatter_gather {α : Type _} (m : List Bool) (l : List α) :
    scatter m l (gather m l) = l := by
  induction m generalizing l with
  | nil => simp [scatter]
  | cons b m ih =>
    cases l with
    | nil => cases b <;> simp [scatter]
    | cons a l => cases b <;> simp [scatter, gather, ih]

theorem gather_append {α : Type _} (m m' : List Bool) (l l' : List α) (h : m.length = l.length) :
    gather (m ++ m') (l ++ l') = gather m l ++ gather m' l' := by
  induction m generalizing l with
  | nil => cases l with
    | nil => simp [gather]
    | cons => simp at h
  | cons b m ih =>
    cases l with
    | nil => simp at h
    | cons a l =>
      simp at h
      cases b <;> simp [gather, ih l h]

theorem gather_map {α β : Type _} (f : α → β) (m : List Bool) (l : List α) :
    gather m (l.map f) = (gather m l).map f := by
  induction m generalizing l with
  | nil => simp [gather]
  | cons b m ih =>
    cases l with
    | nil => cases b <;> simp [gather]
    | cons a l => cases b <;> simp [gather, ih]

theorem pyIndex_ok {n : Nat} {i : Int} {j : Nat} :
    pyIndex n i = .ok j ↔ j < n ∧ (i = (j : Int) ∨ i = (j : Int) - n) := by
  unfold pyIndex
  split
  · constructor
    · intro h; cases h; omega
    · rintro ⟨h1, h2⟩; congr 1; omega
  · split
    · constructor
      · intro h; cases h; omega
      · rintro ⟨h1, h2⟩; congr 1; omega
    · constructor
      · intro h; cases h
      · rintro ⟨h1, h2⟩; omega

theorem pyIndex_err {n : Nat} {i : Int} {e : Err} (h : pyIndex n i = .error e) : e = .indexError := by
  unfold pyIndex at h
  split at h
  · cases h
  · split at h <;> cases h; rfl

theorem pyListIndex_ok {names : List String} {s : String} {j : Nat} (hnd : names.Nodup) :
    pyListIndex names s = .ok j ↔ names[j]? = some s := by
  unfold pyListIndex
  cases h : names.findIdx? (· == s) with
  | some i =>
    rw [List.findIdx?_eq_some_iff_getElem] at h
    obtain ⟨hi, h1, h2⟩ := h
    simp only [beq_iff_eq] at h1
    constructor
    · intro h'; cases h'; simp [hi, h1]
    · intro h'
      obtain ⟨hj, h''⟩ := List.getElem?_eq_some_iff.mp h'
      have hij : i = j := (List.Nodup.getElem_inj_iff hnd (hi := hi) (hj := hj)).mp (by rw [h1, h''])
      simp [hij]
  | none =>
    rw [List.findIdx?_eq_none_iff] at h
    constructor
    · intro h'; cases h'
    · intro h'
      have := List.mem_of_getElem? h'
      have := h _ this
      simp at this

namespace Dofs
variable {V : Type}

theorem resolve_ok {d : Dofs V} (hd : d.WF) {k : Key} {i : Nat} :
    d.resolve k = .ok i ↔ Addresses d k i := by
  cases k with
  | name s =>
    simp only [resolve, Addresses]
    cases h : pyListIndex d.names s with
    | ok j =>
      have hj := (pyListIndex_ok hd.names_nodup).mp h
      have hlt : j < d.names.length := (List.getElem?_eq_some_iff.mp hj).1
      simp only [pyIndex_ok]
      rw [hd.names_len, ← hd.free_len] at hlt
      constructor
      · rintro ⟨h1, h2⟩
        have : i = j := by omega
        rw [this]; exact hj
      · intro h'
        have h2 := (pyListIndex_ok hd.names_nodup).mpr h'
        rw [h] at h2; cases h2
        exact ⟨hlt, Or.inl rfl⟩
    | error e =>
      constructor
      · intro h'; cases h'
      · intro h'
        rw [(pyListIndex_ok hd.names_nodup).mpr h'] at h; cases h
  | idx k =>
    simp only [resolve, Addresses, pyIndex_ok, hd.free_len]

theorem resolve_err {d : Dofs V} (hd : d.WF) {k : Key} (h : ∀ i, ¬ Addresses d k i) :
    ∃ e, d.resolve k = .error e := by
  cases h' : d.resolve k with
  | ok i => exact absurd ((resolve_ok hd).mp h') (h i)
  | error e => exact ⟨e, rfl⟩

theorem Addresses.lt {d : Dofs V} (hd : d.WF) {k : Key} {i : Nat} (h : Addresses d k i) : i < d.x.length := by
  cases k with
  | name s =>
    have := (List.getElem?_eq_some_iff.mp h).1
    rw [hd.names_len] at this; exact this
  | idx k => exact h.1

theorem reducedLen_eq (d : Dofs V) : d.reducedLen = d.numFree := by
  simp [reducedLen, numFree, gather_length]

theorem init_WF {ninf pinf : V} {x names free lb ub} {d : Dofs V}
    (h : init ninf pinf x names free lb ub = .ok d) : d.WF := by
  unfold init at h
  simp only at h
  split at h
  · rename_i hn
    split at h
    · rename_i hl
      cases h
      exact ⟨by simp; omega, by simp; omega, by simp; omega, by simp; omega, hn⟩
    · cases h
  · cases h

end Dofs
end Simsopt
