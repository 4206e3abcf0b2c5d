import Verif.Deriv.Lemmas
/-! Lemmas about `sum` and `__call__`. -/
set_option linter.unusedSimpArgs false
set_option linter.unusedSectionVars false
namespace Simsopt.Deriv
open Simsopt
variable {K V : Type} [DecidableEq K]

theorem HeapOK.len [Zero V] {size : K → Nat} {h : Heap K V} (hk : HeapOK size h) {i : Nat} (hi : i < h.nder) (k : K) :
    (partialD size h i k).length = size k := by
  unfold partialD value
  cases hf : find (h.der i) k with
  | none => simp
  | some a => simpa using ((hk.ok i hi).ok _ (find_mem hf)).2

/-- What `__call__` may do to the heap: insert zero arrays for missing keys of Derivative `i`. -/
structure Padded [Zero V] (size : K → Nat) (h h' : Heap K V) (i : Nat) : Prop where
  ok : HeapOK size h'
  nder : h'.nder = h.nder
  der : ∀ j, j ≠ i → h'.der j = h.der j
  arr : ∀ a, a < h.next → h'.arr a = h.arr a
  next : h.next ≤ h'.next
  part : ∀ k, partialD size h' i k = partialD size h i k
  keep : ∀ k l, value h i k = some l → value h' i k = some l

section
variable [Zero V]
theorem Padded.refl {size : K → Nat} {h : Heap K V} (hk : HeapOK size h) (i : Nat) : Padded size h h i :=
  ⟨hk, rfl, fun _ _ => rfl, fun _ _ => rfl, Nat.le_refl _, fun _ => rfl, fun _ _ h => h⟩

theorem Padded.trans {size : K → Nat} {h h1 h2 : Heap K V} {i : Nat} (a : Padded size h h1 i) (b : Padded size h1 h2 i) : Padded size h h2 i :=
  ⟨b.ok, b.nder.trans a.nder, fun j hj => (b.der j hj).trans (a.der j hj),
    fun x hx => (b.arr x (Nat.lt_of_lt_of_le hx a.next)).trans (a.arr x hx), Nat.le_trans a.next b.next,
    fun k => (b.part k).trans (a.part k), fun k l hl => b.keep k l (a.keep k l hl)⟩

theorem Padded.value {size : K → Nat} {h h' : Heap K V} {i : Nat} (hk : HeapOK size h) (p : Padded size h h' i) (j : Nat) (hj : j < h.nder)
    (hij : j ≠ i) (k : K) : value h' j k = value h j k := by
  unfold Deriv.value
  rw [p.der j hij]
  exact val_congr (fun f hf => p.arr _ ((hk.ok j hj).ok f hf).1) k

theorem Padded.partialD {size : K → Nat} {h h' : Heap K V} {i : Nat} (hk : HeapOK size h) (p : Padded size h h' i) (j : Nat) (hj : j < h.nder)
    (k : K) : partialD size h' j k = partialD size h j k := by
  by_cases hij : j = i
  · subst hij; exact p.part k
  · unfold Deriv.partialD; rw [p.value hk j hj hij]

theorem getItem_spec {size : K → Nat} {h : Heap K V} (hk : HeapOK size h) {i : Nat} (hi : i < h.nder) (k : K) :
    ∃ a h', getItem size i k h = .ok a h' ∧ Padded size h h' i ∧ h'.arr a = partialD size h i k ∧ a < h'.next ∧
      find (h'.der i) k = some a := by
  unfold getItem
  simp only [run_bind, dict]
  cases hf : find (h.der i) k with
  | some a =>
    refine ⟨a, h, rfl, Padded.refl hk i, ?_, ((hk.ok i hi).ok _ (find_mem hf)).1, hf⟩
    unfold partialD Deriv.value; rw [hf]; rfl
  | none =>
    simp only [run_bind, alloc, setDict, run_pure]
    generalize hh1 : ({ next := h.next + 1, arr := upd h.arr h.next (List.replicate (size k) 0), nder := h.nder, der := upd h.der i (h.der i ++ [(k, h.next)]) } : Heap K V) = h1
    have n1 : h1.next = h.next + 1 := by rw [← hh1]
    have m1 : h1.nder = h.nder := by rw [← hh1]
    have d1 : h1.der i = h.der i ++ [(k, h.next)] := by rw [← hh1]; exact upd_same _ _ _
    have d2 : ∀ j, j ≠ i → h1.der j = h.der j := by intro j hj; rw [← hh1]; exact upd_ne _ _ _ _ hj
    have a1 : h1.arr h.next = List.replicate (size k) 0 := by rw [← hh1]; exact upd_same _ _ _
    have o1 : ∀ b, b < h.next → h1.arr b = h.arr b := by
      intro b hb; rw [← hh1]; exact upd_ne _ _ _ _ (Nat.ne_of_lt hb)
    have old : ∀ q, q < h.nder → ∀ g ∈ h.der q, g.2 < h.next := fun q hq g hg => ((hk.ok q hq).ok g hg).1
    have hkey := find_none.mp hf
    have vi : ∀ k', Deriv.value h1 i k' = (Deriv.value h i k').or (if k = k' then some (List.replicate (size k) 0) else none) := by
      intro k'
      unfold Deriv.value
      rw [d1, find_append, find_cons, find_nil]
      cases hf' : find (h.der i) k' with
      | some b =>
        have := old i hi _ (find_mem hf')
        simp [o1 b this]
      | none =>
        by_cases hkk : k = k' <;> simp [hkk, a1]
    refine ⟨h.next, h1, rfl, ⟨⟨?_, ?_⟩, m1, d2, o1, by omega, ?_, ?_⟩, ?_, by omega, ?_⟩
    · intro q hq
      rw [m1] at hq
      by_cases hqi : q = i
      · subst hqi
        rw [d1]
        refine ⟨?_, ?_, ?_⟩
        · rw [List.map_append, List.nodup_append]
          refine ⟨(hk.ok q hi).keys, by simp, ?_⟩
          intro a ha b hb hab
          simp at hb; subst hb; subst hab; exact hkey ha
        · rw [List.map_append, List.nodup_append]
          refine ⟨(hk.ok q hi).addrs, by simp, ?_⟩
          intro a ha b hb hab
          simp only [List.map_cons, List.map_nil, List.mem_singleton] at hb
          obtain ⟨g, hg, hga⟩ := List.mem_map.mp ha
          have := old q hi g hg
          omega
        · intro f hfm
          rcases List.mem_append.mp hfm with hfm | hfm
          · exact ⟨by have := old q hi f hfm; omega, by rw [o1 _ (old q hi f hfm)]; exact ((hk.ok q hi).ok f hfm).2⟩
          · simp at hfm; subst hfm; exact ⟨by simp only; omega, by simp [a1]⟩
      · rw [d2 q hqi]
        exact (hk.ok q hq).mono (by omega) (fun f hfm => by rw [o1 _ (old q hq f hfm)])
    · intro p q hp hq hpq e he f hfm
      rw [m1] at hp hq
      have mem : ∀ r g, g ∈ h1.der r → g ∈ h.der r ∨ (r = i ∧ g.2 = h.next) := by
        intro r g hg
        by_cases hri : r = i
        · subst hri; rw [d1] at hg
          rcases List.mem_append.mp hg with hg | hg
          · exact Or.inl hg
          · simp at hg; subst hg; exact Or.inr ⟨rfl, rfl⟩
        · rw [d2 r hri] at hg; exact Or.inl hg
      rcases mem p e he with h3 | ⟨h3, h3'⟩ <;> rcases mem q f hfm with h4 | ⟨h4, h4'⟩
      · exact hk.sep p q hp hq hpq e h3 f h4
      · have := old p hp e h3; omega
      · have := old q hq f h4; omega
      · exact absurd (h3.trans h4.symm) hpq
    · intro k'
      unfold partialD
      rw [vi k']
      cases hv : Deriv.value h i k' with
      | some l => rfl
      | none => by_cases hkk : k = k' <;> simp [hkk]
    · intro k' l hl
      rw [vi k', hl]; rfl
    · rw [a1]; unfold partialD Deriv.value; rw [hf]; rfl
    · rw [d1, find_append, hf, find_cons]; simp
end

theorem gather_length' {α : Type} (m : List Bool) (l : List α) (h : l.length = m.length) : (gather m l).length = countTrue m := by
  induction m generalizing l with
  | nil => cases l <;> simp_all [gather, countTrue]
  | cons b m ih =>
    cases l with
    | nil => simp at h
    | cons a l =>
      simp only [List.length_cons, Nat.add_right_cancel_iff] at h
      cases b <;> simp [gather, countTrue, ih l h]

section
variable [Add V] [Zero V]

/-- sum over the objects sharing the DOFs of the free entries of their partial derivatives -/
def accSpec (size : K → Nat) (h : Heap K V) (i : Nat) (free : List Bool) (ks : List K) (acc : List V) : List V :=
  ks.foldl (fun acc k => List.zipWith (· + ·) acc (gather free (partialD size h i k))) acc

theorem accumulate_spec {size : K → Nat} {i : Nat} (free : List Bool) : ∀ (ks : List K) (acc : List V) (h : Heap K V),
    HeapOK size h → i < h.nder → (∀ k ∈ ks, free.length = size k) → acc.length = countTrue free →
    ∃ h', accumulate size i free ks acc h = .ok (accSpec size h i free ks acc) h' ∧ Padded size h h' i := by
  intro ks
  induction ks with
  | nil => intro acc h hk _ _ _; exact ⟨h, rfl, Padded.refl hk i⟩
  | cons k ks ih =>
    intro acc h hk hi hs ha
    unfold accumulate
    obtain ⟨a, h1, r1, p1, e1, _, _⟩ := getItem_spec hk hi k
    have hlen : (h1.arr a).length = free.length := by rw [e1, hk.len hi, hs k List.mem_cons_self]
    simp only [run_bind, r1, read]
    have hm : maskRead (h1.arr a) free = .ok (gather free (h1.arr a)) := by simp [maskRead, hlen]
    have hg := gather_length' free (h1.arr a) hlen
    have hi' : inplace (fun x1 x2 => x1 + x2) acc (gather free (h1.arr a)) = .ok (List.zipWith (· + ·) acc (gather free (h1.arr a))) := by
      simp [inplace, ha, hg]
    rw [hm]
    simp only [lift]
    rw [hi']
    simp only
    obtain ⟨h2, r2, p2⟩ := ih (List.zipWith (· + ·) acc (gather free (h1.arr a))) h1 p1.ok (by rw [p1.nder]; exact hi)
      (fun k hk => hs k (List.mem_cons_of_mem _ hk)) (by simp [ha, hg])
    refine ⟨h2, ?_, p1.trans p2⟩
    rw [r2]
    unfold accSpec
    simp only [List.foldl_cons, e1, p1.part]

/-- the concatenated gradient -/
def gradSpec (size : K → Nat) (h : Heap K V) (i : Nat) (bs : List (Block K)) : List (List V) :=
  (bs.filter (·.anyFree)).map fun b => accSpec size h i b.free b.opts (List.replicate (countTrue b.free) 0)

theorem accSpec_congr {size : K → Nat} {h h' : Heap K V} {i j : Nat} (he : ∀ k, partialD size h' j k = partialD size h i k) (free : List Bool)
    (ks : List K) (acc : List V) : accSpec size h' j free ks acc = accSpec size h i free ks acc := by
  unfold accSpec; simp only [he]

theorem gradSpec_congr {size : K → Nat} {h h' : Heap K V} {i j : Nat} (he : ∀ k, partialD size h' j k = partialD size h i k)
    (bs : List (Block K)) : gradSpec size h' j bs = gradSpec size h i bs := by
  unfold gradSpec; simp only [accSpec_congr he]

theorem gradBlocks_spec {size : K → Nat} {i : Nat} : ∀ (bs : List (Block K)) (h : Heap K V), HeapOK size h → i < h.nder →
    (∀ b ∈ bs, ∀ k ∈ b.opts, b.free.length = size k) →
    ∃ h', gradBlocks size i bs h = .ok (gradSpec size h i bs) h' ∧ Padded size h h' i := by
  intro bs
  induction bs with
  | nil => intro h hk _ _; exact ⟨h, rfl, Padded.refl hk i⟩
  | cons b bs ih =>
    intro h hk hi hs
    unfold gradBlocks
    by_cases hb : b.anyFree = true
    · simp only [hb, if_true, run_bind]
      obtain ⟨h1, r1, p1⟩ := accumulate_spec b.free b.opts (List.replicate (countTrue b.free) 0) h hk hi (hs b List.mem_cons_self) (by simp)
      rw [r1]
      simp only
      obtain ⟨h2, r2, p2⟩ := ih h1 p1.ok (by rw [p1.nder]; exact hi) (fun c hc => hs c (List.mem_cons_of_mem _ hc))
      rw [r2]
      simp only [run_pure]
      refine ⟨h2, ?_, p1.trans p2⟩
      rw [gradSpec_congr p1.part]
      simp [gradSpec, List.filter_cons, hb]
    · simp only [Bool.not_eq_true] at hb
      simp only [hb, Bool.false_eq_true, if_false]
      obtain ⟨h2, r2, p2⟩ := ih h hk hi (fun c hc => hs c (List.mem_cons_of_mem _ hc))
      exact ⟨h2, by rw [r2]; simp [gradSpec, List.filter_cons, hb], p2⟩

theorem call_spec {size : K → Nat} {i : Nat} (bs : List (Block K)) (h : Heap K V) (hk : HeapOK size h) (hi : i < h.nder)
    (hs : ∀ b ∈ bs, ∀ k ∈ b.opts, b.free.length = size k) :
    ∃ h', Padded size h h' i ∧
      call size i bs h = if bs.all (fun b => !b.anyFree) then .error .valueError h' else .ok (gradSpec size h i bs).flatten h' := by
  obtain ⟨h1, r1, p1⟩ := gradBlocks_spec bs h hk hi hs
  refine ⟨h1, p1, ?_⟩
  unfold call
  simp only [run_bind, r1]
  have he : (gradSpec size h i bs).isEmpty = bs.all (fun b => !b.anyFree) := by
    unfold gradSpec
    rw [Bool.eq_iff_iff]
    simp [List.isEmpty_iff, List.filter_eq_nil_iff]
  rw [he]
  split <;> rfl

theorem foldSum_spec {size : K → Nat} : ∀ (l : List Nat) (a : Nat) (h : Heap K V), HeapOK size h → a < h.nder → (∀ i ∈ l, i < h.nder) →
    ∃ r h', (l.foldlM (fun a j => add a j) a : M K V Nat) h = .ok r h' ∧ HeapOK size h' ∧ r < h'.nder ∧ h.nder ≤ h'.nder ∧
      h.next ≤ h'.next ∧ (∀ q, q < h.nder → h'.der q = h.der q) ∧ (∀ b, b < h.next → h'.arr b = h.arr b) ∧
      (l = [] → r = a) ∧ (l ≠ [] → h.nder ≤ r) ∧
      (∀ k, value h' r k = (l.map (fun i => value h i k)).foldl (combine (· + ·) id) (value h a k)) := by
  intro l
  induction l with
  | nil =>
    intro a h hk ha _
    exact ⟨a, h, rfl, hk, ha, Nat.le_refl _, Nat.le_refl _, fun _ _ => rfl, fun _ _ => rfl, fun _ => rfl, fun h => absurd rfl h, fun _ => rfl⟩
  | cons j l ih =>
    intro a h hk ha hl
    rw [List.foldlM_cons]
    simp only [run_bind]
    obtain ⟨h1, r1, g1, v1⟩ := newMerge_spec (· + ·) id hk ha (hl j List.mem_cons_self)
    have r1' : add a j h = .ok h.nder h1 := r1
    rw [r1']
    simp only
    obtain ⟨r, h2, r2, ok2, lt2, n2, x2, d2, a2, em2, ne2, v2⟩ := ih h.nder h1 g1.ok (by rw [g1.nder]; omega)
      (fun i hi => by rw [g1.nder]; have := hl i (List.mem_cons_of_mem _ hi); omega)
    refine ⟨r, h2, r2, ok2, lt2, by have := g1.nder; omega, by have := g1.next; omega, ?_, ?_, ?_, ?_, ?_⟩
    · intro q hq; rw [d2 q (by rw [g1.nder]; omega), g1.der q hq]
    · intro b hb; rw [a2 b (by have := g1.next; omega), g1.arr b hb]
    · intro h; cases h
    · intro _
      by_cases hl0 : l = []
      · rw [em2 hl0]; omega
      · have := ne2 hl0; have := g1.nder; omega
    · intro k
      rw [v2 k, v1 k, List.map_cons, List.foldl_cons]
      congr 1
      apply List.map_congr_left
      intro i hi
      exact g1.value hk i (hl i (List.mem_cons_of_mem _ hi)) k
end

section
variable [Add V] [Sub V] [Neg V] [Mul V] [Zero V]

theorem HeapOK.empty (size : K → Nat) : HeapOK size (Heap.empty : Heap K V) :=
  ⟨fun i hi => absurd hi (Nat.not_lt_zero _), fun i _ hi => absurd hi (Nat.not_lt_zero _)⟩

theorem Reachable.ok {size : K → Nat} {h : Heap K V} (hr : Reachable size h) : HeapOK size h := by
  induction hr with
  | init => exact HeapOK.empty size
  | @step h h' op _ hs he ih =>
    cases op with
    | mk l =>
      obtain ⟨h1, r, g, _⟩ := mk_spec ih l hs.1 hs.2
      simp only [exec, run_discard, r] at he
      rcases he with he | ⟨e, he⟩ <;> cases he; exact g.ok
    | add i j =>
      obtain ⟨h1, r, g, _⟩ := newMerge_spec (· + ·) id ih hs.1 hs.2
      have r' : add i j h = .ok h.nder h1 := r
      simp only [exec, run_discard, r'] at he
      rcases he with he | ⟨e, he⟩ <;> cases he; exact g.ok
    | sub i j =>
      obtain ⟨h1, r, g, _⟩ := newMerge_spec (· - ·) (fun v => -v) ih hs.1 hs.2
      have r' : sub i j h = .ok h.nder h1 := r
      simp only [exec, run_discard, r'] at he
      rcases he with he | ⟨e, he⟩ <;> cases he; exact g.ok
    | iadd i j =>
      obtain ⟨h1, r, g, _⟩ := inplaceMerge_spec (· + ·) id ih hs.1 hs.2
      have r' : iadd i j h = .ok i h1 := r
      simp only [exec, run_discard, r'] at he
      rcases he with he | ⟨e, he⟩ <;> cases he; exact g.ok
    | isub i j =>
      obtain ⟨h1, r, g, _⟩ := inplaceMerge_spec (· - ·) (fun v => -v) ih hs.1 hs.2
      have r' : isub i j h = .ok i h1 := r
      simp only [exec, run_discard, r'] at he
      rcases he with he | ⟨e, he⟩ <;> cases he; exact g.ok
    | mul i c =>
      obtain ⟨h1, r, g, _⟩ := mul_spec c ih hs
      simp only [exec, run_discard, r] at he
      rcases he with he | ⟨e, he⟩ <;> cases he; exact g.ok
    | sum l =>
      cases l with
      | nil =>
        simp only [exec, run_discard, sum, run_pure] at he
        rcases he with he | ⟨e, he⟩ <;> cases he; exact ih
      | cons i l =>
        have hs' : ∀ j ∈ i :: l, j < h.nder := hs
        obtain ⟨r, h1, r1, ok1, _⟩ := foldSum_spec l i h ih (hs' i List.mem_cons_self) (fun j hj => hs' j (List.mem_cons_of_mem _ hj))
        simp only [exec, run_discard, sum, run_bind, radd0, run_pure] at he
        rw [r1] at he
        rcases he with he | ⟨e, he⟩ <;> cases he; exact ok1
    | call i bs =>
      obtain ⟨h1, p, r⟩ := call_spec bs h ih hs.1 hs.2
      simp only [exec, run_discard, r] at he
      split at he
      · rename_i heq
        split at heq <;> cases heq
        rcases he with he | ⟨e, he⟩ <;> cases he
        exact p.ok
      · rename_i heq
        split at heq <;> cases heq
        rcases he with he | ⟨e, he⟩ <;> cases he
        exact p.ok
end

end Simsopt.Deriv
