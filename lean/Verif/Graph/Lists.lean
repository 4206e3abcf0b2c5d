import Verif.Graph.Model
import Mathlib.Data.List.Basic
import Mathlib.Data.List.Nodup
import Mathlib.Data.List.Perm.Basic
/-! Helper lemmas about the list/dict primitives used by the graph model. -/
namespace Simsopt.Graph

section dedup
variable {α β γ : Type} [DecidableEq β]

theorem dedupOn_aux (key : α → β) (l : List α) : ∀ acc : List α, (acc.map key).Nodup →
    let r := l.foldl (fun acc a => if acc.any (fun b => key b = key a) then acc else acc ++ [a]) acc
    (r.map key).Nodup ∧ (∀ a, a ∈ r → a ∈ acc ∨ a ∈ l) ∧ (∀ a, a ∈ acc ∨ a ∈ l → ∃ b ∈ r, key b = key a) ∧
      (∀ a ∈ acc, a ∈ r) ∧ ((((acc ++ l).map key).Nodup) → r = acc ++ l) := by
  induction l with
  | nil =>
    intro acc h
    refine ⟨h, fun a ha => Or.inl ha, ?_, fun a ha => ha, fun _ => by simp⟩
    rintro a (ha | ha)
    · exact ⟨a, ha, rfl⟩
    · simp at ha
  | cons x l ih =>
    intro acc h
    simp only [List.foldl_cons]
    by_cases hx : acc.any (fun b => key b = key x) = true
    · simp only [hx, if_true]
      obtain ⟨h1, h2, h3, h4, h5⟩ := ih acc h
      rw [List.any_eq_true] at hx
      obtain ⟨b, hb, hbx⟩ := hx
      simp at hbx
      refine ⟨h1, ?_, ?_, h4, ?_⟩
      · intro a ha
        rcases h2 a ha with h | h
        · exact Or.inl h
        · exact Or.inr (List.mem_cons_of_mem _ h)
      · rintro a (ha | ha)
        · exact h3 a (Or.inl ha)
        · rcases List.mem_cons.mp ha with e | ha
          · subst e; exact ⟨b, h4 b hb, hbx⟩
          · exact h3 a (Or.inr ha)
      · intro hnd
        exfalso
        rw [List.map_append, List.nodup_append] at hnd
        exact hnd.2.2 (key b) (List.mem_map_of_mem hb) (key x) (by simp) hbx
    · simp only [hx]
      have hx' : ∀ b ∈ acc, key b ≠ key x := by
        intro b hb e
        apply hx
        rw [List.any_eq_true]
        exact ⟨b, hb, by simp [e]⟩
      have hacc : ((acc ++ [x]).map key).Nodup := by
        rw [List.map_append, List.nodup_append]
        refine ⟨h, by simp, ?_⟩
        intro a ha b hb
        simp at hb
        obtain ⟨c, hc, rfl⟩ := List.mem_map.mp ha
        rw [hb]; exact hx' c hc
      obtain ⟨h1, h2, h3, h4, h5⟩ := ih (acc ++ [x]) hacc
      refine ⟨h1, ?_, ?_, ?_, ?_⟩
      · intro a ha
        rcases h2 a ha with h | h
        · rcases List.mem_append.mp h with h | h
          · exact Or.inl h
          · simp at h; exact Or.inr (by simp [h])
        · exact Or.inr (List.mem_cons_of_mem _ h)
      · rintro a (ha | ha)
        · exact h3 a (Or.inl (by simp [ha]))
        · rcases List.mem_cons.mp ha with e | ha
          · subst e; exact ⟨a, h4 a (by simp), rfl⟩
          · exact h3 a (Or.inr ha)
      · intro a ha; exact h4 a (by simp [ha])
      · intro hnd
        have : acc ++ x :: l = (acc ++ [x]) ++ l := by simp
        rw [this] at hnd ⊢
        exact h5 hnd

theorem dedupOn_keys_nodup (key : α → β) (l : List α) : ((dedupOn key l).map key).Nodup :=
  (dedupOn_aux key l [] (by simp)).1

theorem dedupOn_nodup (key : α → β) (l : List α) : (dedupOn key l).Nodup :=
  List.Nodup.of_map _ (dedupOn_keys_nodup key l)

theorem mem_of_dedupOn {key : α → β} {l : List α} {a : α} (h : a ∈ dedupOn key l) : a ∈ l := by
  have := (dedupOn_aux key l [] (by simp)).2.1 a h
  simpa using this

theorem exists_dedupOn (key : α → β) {l : List α} {a : α} (h : a ∈ l) : ∃ b ∈ dedupOn key l, key b = key a :=
  (dedupOn_aux key l [] (by simp)).2.2.1 a (Or.inr h)

theorem mem_dedupOn {key : α → β} {l : List α} (hinj : ∀ a ∈ l, ∀ b ∈ l, key a = key b → a = b) {a : α} :
    a ∈ dedupOn key l ↔ a ∈ l := by
  constructor
  · exact mem_of_dedupOn
  · intro h
    obtain ⟨b, hb, he⟩ := exists_dedupOn key h
    have := hinj b (mem_of_dedupOn hb) a h he
    exact this ▸ hb

theorem dedupOn_eq_self {key : α → β} {l : List α} (h : (l.map key).Nodup) : dedupOn key l = l := by
  have := (dedupOn_aux key l [] (by simp)).2.2.2.2 (by simpa using h)
  simpa [dedupOn] using this

theorem dictOf_aux (key : α → β) (l : List (α × γ)) : ∀ acc : List (α × γ),
    (((acc ++ l).map (fun e => key e.1)).Nodup) →
    l.foldl (fun d e => dictSet key d e.1 e.2) acc = acc ++ l := by
  induction l with
  | nil => intro acc _; simp
  | cons x l ih =>
    intro acc h
    simp only [List.foldl_cons]
    have hx : (acc.any fun e => decide (key e.1 = key x.1)) = false := by
      rw [List.any_eq_false]
      intro e he heq
      rw [List.map_append, List.nodup_append] at h
      exact h.2.2 (key e.1) (List.mem_map.mpr ⟨e, he, rfl⟩) (key x.1) (by simp) (by simpa using heq)
    rw [dictSet, hx]
    simp only [Bool.false_eq_true, if_false]
    rw [ih (acc ++ [(x.1, x.2)]) (by simpa using h)]
    simp

theorem dictOf_eq_self {key : α → β} {l : List (α × γ)} (h : (l.map (fun e => key e.1)).Nodup) :
    dictOf key l = l := by
  have := dictOf_aux key l [] (by simpa using h)
  simpa [dictOf] using this

end dedup

theorem cumul_length (a : Nat) (l : List Nat) : (cumul a l).length = l.length + 1 := by
  induction l generalizing a with
  | nil => rfl
  | cons n l ih => simp [cumul, ih]

theorem cumul_ne_nil (a : Nat) (l : List Nat) : cumul a l ≠ [] := by
  cases l <;> simp [cumul]

/-- The pairs `(start, stop)` starting from offset `a`. -/
def offsetPairs : Nat → List Nat → List (Nat × Nat)
  | _, [] => []
  | a, n :: l => (a, a + n) :: offsetPairs (a + n) l

theorem offsetPairs_length (a : Nat) (l : List Nat) : (offsetPairs a l).length = l.length := by
  induction l generalizing a with
  | nil => rfl
  | cons n l ih => simp [offsetPairs, ih]

theorem cumul_zip (a : Nat) (l : List Nat) :
    (cumul a l).dropLast.zip (cumul a l).tail = offsetPairs a l := by
  induction l generalizing a with
  | nil => rfl
  | cons n l ih =>
    have h2 : (a :: cumul (a + n) l).dropLast = a :: (cumul (a + n) l).dropLast := by
      cases hc : cumul (a + n) l with
      | nil => exact absurd hc (cumul_ne_nil _ _)
      | cons b m => rfl
    have h3 : cumul (a + n) l = (a + n) :: (cumul (a + n) l).tail := by
      cases l <;> rfl
    simp only [cumul, h2, List.tail_cons, offsetPairs]
    rw [h3, List.zip_cons_cons]
    congr 1
    rw [← h3]
    exact ih (a + n)

theorem indexPairs_eq (opts sizes : List Nat) : indexPairs opts sizes = opts.zip (offsetPairs 0 sizes) := by
  unfold indexPairs; simp only [cumul_zip]

theorem indexPairs_fst {opts sizes : List Nat} (h : opts.length = sizes.length) :
    (indexPairs opts sizes).map Prod.fst = opts := by
  rw [indexPairs_eq]
  exact List.map_fst_zip (by rw [offsetPairs_length]; omega)

theorem removeFirst_mem {α : Type} {p : α → Bool} {l : List α} {a : α} (h : a ∈ removeFirst p l) : a ∈ l := by
  induction l with
  | nil => simp [removeFirst] at h
  | cons x l ih =>
    unfold removeFirst at h
    split at h
    · exact List.mem_cons_of_mem _ h
    · rcases List.mem_cons.mp h with e | h
      · simp [e]
      · exact List.mem_cons_of_mem _ (ih h)

theorem removeFirst_nodup {α : Type} {p : α → Bool} {l : List α} (h : l.Nodup) : (removeFirst p l).Nodup := by
  induction l with
  | nil => simp [removeFirst]
  | cons x l ih =>
    rw [List.nodup_cons] at h
    unfold removeFirst
    split
    · exact h.2
    · rw [List.nodup_cons]
      exact ⟨fun hm => h.1 (removeFirst_mem hm), ih h.2⟩

/-- If the predicate singles out one element of a duplicate-free list, exactly that one is removed. -/
theorem removeFirst_mem_iff {α : Type} {p : α → Bool} {l : List α} {c : α} (hnd : l.Nodup)
    (hp : ∀ a ∈ l, p a = true ↔ a = c) (a : α) : a ∈ removeFirst p l ↔ a ∈ l ∧ a ≠ c := by
  induction l with
  | nil => simp [removeFirst]
  | cons x l ih =>
    rw [List.nodup_cons] at hnd
    unfold removeFirst
    by_cases hx : p x = true
    · have hxc := (hp x (by simp)).mp hx
      simp only [hx, if_true]
      constructor
      · intro h
        refine ⟨List.mem_cons_of_mem _ h, ?_⟩
        intro e
        apply hnd.1
        rw [hxc, ← e]; exact h
      · rintro ⟨h, hne⟩
        rcases List.mem_cons.mp h with e | h
        · exact absurd (e.trans hxc) hne
        · exact h
    · have hxc : x ≠ c := fun e => hx ((hp x (by simp)).mpr e)
      rw [if_neg hx]
      have := ih hnd.2 (fun a ha => hp a (List.mem_cons_of_mem _ ha))
      simp only [List.mem_cons, this]
      constructor
      · rintro (e | ⟨h, hne⟩)
        · exact ⟨Or.inl e, e ▸ hxc⟩
        · exact ⟨Or.inr h, hne⟩
      · rintro ⟨e | h, hne⟩
        · exact Or.inl e
        · exact Or.inr ⟨h, hne⟩

theorem mem_pyInsert {α : Type} (l : List α) (k : Int) (a x : α) : x ∈ pyInsert l k a ↔ x = a ∨ x ∈ l := by
  unfold pyInsert
  simp only [List.mem_append, List.mem_cons]
  generalize (if 0 ≤ k then min k.toNat l.length else (k + l.length).toNat) = m
  have : x ∈ l ↔ x ∈ l.take m ∨ x ∈ l.drop m := by
    rw [← List.mem_append, List.take_append_drop]
  rw [this]; tauto

end Simsopt.Graph
