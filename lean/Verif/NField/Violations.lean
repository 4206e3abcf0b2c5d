import Verif.NField.Field
/-! # C147: the names; where NormalField does not do what its documentation says -/
namespace Simsopt.NField
open Simsopt Simsopt.RZSurf

/-! ## names -/

theorem intRange_append (a b c : Int) (h1 : a ≤ b) (h2 : b ≤ c) : intRange a b ++ intRange b c = intRange a c := by
  unfold intRange
  obtain ⟨p, hp⟩ : ∃ p : Nat, b = a + p := ⟨(b - a).toNat, by omega⟩
  obtain ⟨q, hq⟩ : ∃ q : Nat, c = b + q := ⟨(c - b).toNat, by omega⟩
  have e1 : (b - a).toNat = p := by omega
  have e2 : (c - b).toNat = q := by omega
  have e3 : (c - a).toNat = p + q := by omega
  rw [e1, e2, e3, List.range_add, List.map_append, List.map_map]
  congr 1
  apply List.map_congr_left
  intro j _
  simp [hp]; ring

theorem intRange_map_add (a b t : Int) : (intRange a b).map (fun n => t + n) = intRange (t + a) (t + b) := by
  unfold intRange
  rw [List.map_map, show t + b - (t + a) = b - a by ring]
  apply List.map_congr_left
  intro j _
  simp; ring

/-- The modes in the order of the loops. -/
def loopModes (mpol ntor : Nat) (e : Bool) : List (Bool × Int × Int) :=
  (List.range (mpol + 1)).flatMap fun (mm : Nat) => (intRange (-ntor) (ntor + 1)).flatMap fun nn =>
    if mm = 0 ∧ nn < 0 then [] else if !e ∧ mm = 0 ∧ nn = 0 then [] else [((e, (mm : Int), nn) : Bool × Int × Int)]

theorem flatMap_nil {α β : Type} (l : List α) (f : α → List β) (h : ∀ a ∈ l, f a = []) : l.flatMap f = [] := by
  induction l with
  | nil => rfl
  | cons a l ih => rw [List.flatMap_cons, h a (by simp), ih (fun b hb => h b (by simp [hb]))]; rfl

theorem flatMap_single {α β : Type} (l : List α) (f : α → List β) (g : α → β) (h : ∀ a ∈ l, f a = [g a]) : l.flatMap f = l.map g := by
  induction l with
  | nil => rfl
  | cons a l ih => rw [List.flatMap_cons, h a (by simp), ih (fun b hb => h b (by simp [hb]))]; rfl

/-- The first index of the series. -/
def firstIdx (mpol ntor : Nat) (e : Bool) : Int := if e then (ntor : Int) + mpol * (ntor * 2 + 1) else 0

/-- The code of a mode: its index. -/
def codeIdx (mpol ntor : Nat) (t : Bool × Int × Int) : Int :=
  t.2.1 * (2 * ntor + 1) + t.2.2 + (if t.1 then (ntor : Int) + mpol * (ntor * 2 + 1) else -1)

theorem loop_codes (mpol ntor : Nat) (e : Bool) (M : Nat) :
    ((List.range (M + 1)).flatMap fun (mm : Nat) => (intRange (-ntor) (ntor + 1)).flatMap fun nn =>
      if mm = 0 ∧ nn < 0 then [] else if !e ∧ mm = 0 ∧ nn = 0 then [] else [((e, (mm : Int), nn) : Bool × Int × Int)]).map (codeIdx mpol ntor)
    = intRange (firstIdx mpol ntor e) (firstIdx mpol ntor e + ntor + M * (2 * ntor + 1) + (if e then 1 else 0)) := by
  induction M with
  | zero =>
    simp only [zero_add, List.range_one, List.flatMap_cons, List.flatMap_nil, List.append_nil]
    cases e with
    | true =>
      rw [← intRange_append (-ntor) 0 (ntor + 1) (by omega) (by omega), List.flatMap_append, flatMap_nil _ _ (by
        intro a ha; rw [Garab.mem_intRange] at ha; rw [if_pos ⟨trivial, by omega⟩]), List.nil_append]
      rw [flatMap_single _ _ (fun nn => ((true, ((0 : Nat) : Int), nn) : Bool × Int × Int)) (by
        intro a ha; rw [Garab.mem_intRange] at ha; rw [if_neg (by omega), if_neg (by simp)]), List.map_map]
      have : (codeIdx mpol ntor ∘ fun nn => ((true, ((0 : Nat) : Int), nn) : Bool × Int × Int)) = fun n => firstIdx mpol ntor true + n := by
        funext n; simp [codeIdx, firstIdx]; ring
      rw [this, intRange_map_add]
      congr 1 <;> simp; ring
    | false =>
      rw [← intRange_append (-ntor) 1 (ntor + 1) (by omega) (by omega), List.flatMap_append, flatMap_nil _ _ (by
        intro a ha; rw [Garab.mem_intRange] at ha
        by_cases h : a < 0
        · rw [if_pos ⟨trivial, h⟩]
        · rw [if_neg (by omega), if_pos (by simp; omega)]), List.nil_append]
      rw [flatMap_single _ _ (fun nn => ((false, ((0 : Nat) : Int), nn) : Bool × Int × Int)) (by
        intro a ha; rw [Garab.mem_intRange] at ha; rw [if_neg (by omega), if_neg (by simp; omega)]), List.map_map]
      have : (codeIdx mpol ntor ∘ fun nn => ((false, ((0 : Nat) : Int), nn) : Bool × Int × Int)) = fun n => -1 + n := by
        funext n; simp [codeIdx]; ring
      rw [this, intRange_map_add]
      congr 1; simp [firstIdx]
  | succ M ih =>
    rw [List.range_succ, List.flatMap_append, List.map_append, ih]
    simp only [List.flatMap_cons, List.flatMap_nil, List.append_nil]
    rw [flatMap_single _ _ (fun nn => ((e, ((M + 1 : Nat) : Int), nn) : Bool × Int × Int)) (by
        intro a ha; rw [if_neg (by omega), if_neg (by omega)]), List.map_map]
    have : (codeIdx mpol ntor ∘ fun nn => ((e, ((M + 1 : Nat) : Int), nn) : Bool × Int × Int)) =
        fun n => (firstIdx mpol ntor e + ((M : Int) + 1) * (2 * ntor + 1) + (if e then 0 else -1)) + n := by
      funext n; cases e <;> simp [codeIdx, firstIdx] <;> ring
    rw [this, intRange_map_add]
    have e1 : firstIdx mpol ntor e + ((M : Int) + 1) * (2 * ntor + 1) + (if e then 0 else -1) + -ntor
        = firstIdx mpol ntor e + ntor + M * (2 * ntor + 1) + (if e then 1 else 0) := by cases e <;> simp <;> ring
    have e2 : firstIdx mpol ntor e + ((M : Int) + 1) * (2 * ntor + 1) + (if e then 0 else -1) + (ntor + 1)
        = firstIdx mpol ntor e + ntor + ((M + 1 : Nat) : Int) * (2 * ntor + 1) + (if e then 1 else 0) := by cases e <;> simp <;> ring
    rw [e1, e2]
    have : (0 : Int) ≤ (M : Int) * (2 * ntor + 1) := by positivity
    refine intRange_append _ _ _ ?_ ?_
    · cases e <;> simp <;> omega
    · cases e <;> push_cast <;> nlinarith

theorem loop_valid (mpol ntor : Nat) (e : Bool) (t : Bool × Int × Int) (h : t ∈ loopModes mpol ntor e) : t.1 = e ∧ Valid mpol ntor e t.2.1 t.2.2 := by
  simp only [loopModes, List.mem_flatMap, List.mem_range, Garab.mem_intRange] at h
  obtain ⟨mm, h1, nn, h2, h3⟩ := h
  by_cases c1 : mm = 0 ∧ nn < 0
  · rw [if_pos c1] at h3; simp at h3
  rw [if_neg c1] at h3
  by_cases c2 : (!e) = true ∧ mm = 0 ∧ nn = 0
  · rw [if_pos c2] at h3; simp at h3
  rw [if_neg c2] at h3
  simp only [List.mem_singleton] at h3
  subst h3
  refine ⟨rfl, by simp, by show (mm : Int) ≤ mpol; omega, by show -(ntor : Int) ≤ nn; omega, by show nn ≤ ntor; omega, by show (mm : Int) = 0 → 0 ≤ nn; omega, ?_⟩
  intro he hc
  have hc : (mm : Int) = 0 ∧ nn = 0 := hc
  exact c2 ⟨by simp [he], by omega, hc.2⟩

theorem namesHelper_eq (s : NF) (e : Bool) : namesHelper s e = some (loopModes s.mpol s.ntor e) := by
  have hm : ∀ l : List (Bool × Int × Int), (∀ t ∈ l, t.1 = e ∧ Valid s.mpol s.ntor e t.2.1 t.2.2) →
      l.mapM (fun nm => do return ((← indexDofs s.mpol s.ntor nm.2.1 nm.2.2 e), nm) : Bool × Int × Int → Option (Int × Bool × Int × Int))
        = some (l.map fun t => (codeIdx s.mpol s.ntor t, t)) := by
    intro l
    induction l with
    | nil => intro _; rfl
    | cons t l ih =>
      intro h
      obtain ⟨h1, h2⟩ := h t (by simp)
      have hi : indexDofs s.mpol s.ntor t.2.1 t.2.2 e = some (codeIdx s.mpol s.ntor t) := by
        rw [indexDofs_eq]; exact ⟨h2, by simp [codeIdx, h1]⟩
      rw [List.mapM_cons, ih (fun t' ht' => h t' (by simp [ht'])), hi]
      rfl
  show (do let l ← (loopModes s.mpol s.ntor e).mapM (fun nm => do return ((← indexDofs s.mpol s.ntor nm.2.1 nm.2.2 e), nm) : Bool × Int × Int → Option (Int × Bool × Int × Int)); return (l.mergeSort fun a b => decide (a.1 ≤ b.1)).map Prod.snd) = _
  rw [hm _ (fun t ht => loop_valid _ _ _ t ht)]
  have hsorted : ((loopModes s.mpol s.ntor e).map fun t => (codeIdx s.mpol s.ntor t, t)).Pairwise (fun a b => decide (a.1 ≤ b.1) = true) := by
    have h := loop_codes s.mpol s.ntor e s.mpol
    have h2 : ((loopModes s.mpol s.ntor e).map (codeIdx s.mpol s.ntor)).Pairwise (· ≤ ·) := by
      unfold loopModes
      rw [h]
      unfold intRange
      rw [List.pairwise_map]
      exact List.pairwise_lt_range.imp (by intro a b hab; omega)
    rw [List.pairwise_map] at h2 ⊢
    exact h2.imp (by intro a b hab; simpa using hab)
  show some (((((loopModes s.mpol s.ntor e).map fun t => (codeIdx s.mpol s.ntor t, t)).mergeSort fun a b => decide (a.1 ≤ b.1))).map Prod.snd) = _
  rw [List.mergeSort_of_pairwise hsorted, List.map_map]
  congr 1
  conv_rhs => rw [← List.map_id (loopModes s.mpol s.ntor e)]
  rfl

/-- **C147.** `_make_names` gives one name per dof, and the name at position `k` is that of the mode whose index is `k`. -/
theorem C147_names (s : NF) : ∃ l, makeNames s = some l ∧ l.length = ndof s.stellsym s.mpol s.ntor ∧
    ∀ (k : Nat) (h : k < l.length), (l[k].1 = true → s.stellsym = false) ∧ indexDofs s.mpol s.ntor l[k].2.1 l[k].2.2 l[k].1 = some (k : Int) := by
  have hcode : ∀ e, (loopModes s.mpol s.ntor e).map (codeIdx s.mpol s.ntor) = _ := fun e => loop_codes s.mpol s.ntor e s.mpol
  have hlen : ∀ e, ((loopModes s.mpol s.ntor e).length : Int) = s.ntor + s.mpol * (2 * s.ntor + 1) + (if e then 1 else 0) := by
    intro e
    have := congrArg List.length (hcode e)
    rw [List.length_map] at this
    rw [this]
    have h0 : (0 : Int) ≤ s.mpol * (2 * s.ntor + 1) := by positivity
    simp only [intRange, List.length_map, List.length_range]
    generalize (s.mpol : Int) * (2 * s.ntor + 1) = z at *
    cases e <;> simp <;> omega
  have hk : ∀ e (k : Nat) (h : k < (loopModes s.mpol s.ntor e).length), (loopModes s.mpol s.ntor e)[k].1 = e ∧
      indexDofs s.mpol s.ntor (loopModes s.mpol s.ntor e)[k].2.1 (loopModes s.mpol s.ntor e)[k].2.2 e = some (firstIdx s.mpol s.ntor e + k) := by
    intro e k h
    obtain ⟨h1, h2⟩ := loop_valid s.mpol s.ntor e _ (List.getElem_mem h)
    refine ⟨h1, ?_⟩
    rw [indexDofs_eq]
    refine ⟨h2, ?_⟩
    have : ((loopModes s.mpol s.ntor e).map (codeIdx s.mpol s.ntor))[k]? = some (firstIdx s.mpol s.ntor e + k) := by
      have hl := congrArg List.length (hcode e)
      rw [List.length_map] at hl
      rw [hl] at h
      rw [hcode e]
      simp only [intRange, List.length_map, List.length_range] at h
      simp [intRange, h]
    rw [List.getElem?_map, List.getElem?_eq_getElem h, Option.map_some, Option.some.injEq] at this
    rw [← this, codeIdx, h1]
  cases hst : s.stellsym with
  | true =>
    refine ⟨_, by simp [makeNames, hst, namesHelper_eq]; rfl, ?_, ?_⟩
    · have := hlen false
      simp only [ndof, if_true]
      zify
      rw [this]; simp
    · intro k h
      obtain ⟨h1, h2⟩ := hk false k h
      refine ⟨by rw [h1]; simp, ?_⟩
      rw [h1, h2]; simp [firstIdx]
  | false =>
    refine ⟨loopModes s.mpol s.ntor false ++ loopModes s.mpol s.ntor true, by simp [makeNames, hst, namesHelper_eq], ?_, ?_⟩
    · have a := hlen false
      have b := hlen true
      simp only [ndof, Bool.false_eq_true, if_false, List.length_append]
      zify
      rw [a, b]; simp; ring
    · intro k h
      refine ⟨by simp, ?_⟩
      by_cases hlt : k < (loopModes s.mpol s.ntor false).length
      · rw [List.getElem_append_left hlt]
        obtain ⟨h1, h2⟩ := hk false k hlt
        rw [h1, h2]; simp [firstIdx]
      · rw [List.getElem_append_right (by omega)]
        obtain ⟨h1, h2⟩ := hk true (k - (loopModes s.mpol s.ntor false).length) (by rw [List.length_append] at h; omega)
        rw [h1, h2, firstIdx, if_pos rfl]
        have a := hlen false
        simp only [Bool.false_eq_true, if_false] at a
        congr 1
        rw [Nat.cast_sub (by omega), a]
        ring

/-! ## where the documentation is not met -/

/-- **C147 (violated).** `set_vns` after the dof vector was assigned (as an optimizer does) throws the assigned values away: every other mode goes back to its value before the assignment. -/
theorem C147_stale_setter_violated {s : NF} (hs : Synced s (s.mpol + 1) s.ntor) (d : List ℝ) (m n : Int) (v : ℝ) (hva : Valid s.mpol s.ntor true m n) :
    ∃ s', setVns (setX s d) m n v = some s' ∧
      ∀ m' n', Valid s.mpol s.ntor false m' n' → ¬ (m' = m ∧ n' = n) → getVns s' m' n' = getVns s m' n' := by
  have hS : Shape (setX s d) (s.mpol + 1) s.ntor := hs.1
  obtain ⟨b1, b2, b3, b4, b5, b6⟩ := id hva
  obtain ⟨s', e1, e2, e3, e4, e5, e6, e7, e8⟩ := setVns_spec hS m n v hva (by push_cast; omega) (by show n + s.ntor ≤ 2 * s.ntor; omega)
  refine ⟨s', e1, fun m' n' hva' hne => ?_⟩
  rw [synced_vns e2 m' n' (by rw [e3, e4]; exact hva'), synced_vns hs m' n' hva']
  obtain ⟨c1, c2, c3, c4, c5, c6⟩ := hva'
  have hR := hs.1.1
  have hin : m' < s.vns.rows ∧ n' ≤ s.ntor := ⟨by rw [hR]; push_cast; omega, c4⟩
  simp only [entry, e8, Bool.false_eq_true, if_false, col_sym _ _ c3]
  show some (if m' < s.vns.rows ∧ n' ≤ s.ntor then (if m'.toNat = m.toNat ∧ (n' + s.ntor).toNat = (n + s.ntor).toNat then v else s.vns.a m'.toNat (n' + s.ntor).toNat) else 0) = _
  simp only [if_pos hin]
  rw [if_neg (by omega)]

/-- **C147 (violated).** `get_vns_asarray` and `get_real_space_field` do not see the dofs: they are the same after any assignment of the dof vector. -/
theorem C147_stale_arrays_violated (s : NF) (d : List ℝ) (M N : Option Nat) (g : Grid) (norm : Nat → Nat → ℝ) (k j : Nat) :
    getVnsAsarray (setX s d) M N = getVnsAsarray s M N ∧ getVncAsarray (setX s d) M N = getVncAsarray s M N ∧
    realSpace (setX s d) g norm k j = realSpace s g norm k j := ⟨rfl, rfl, rfl⟩

/-- **C147 (violated).** The array getters leave out the modes with `m = mpol`: the array has `mpol` rows. Writing it back with `set_vns_asarray` sets these modes to zero, and
`set_vns(mpol, n, ...)` raises from then on. -/
theorem C147_asarray_roundtrip_violated {s : NF} (hs : Synced s (s.mpol + 1) s.ntor) :
    ∃ A s', getVnsAsarray s none none = some A ∧ A.rows = s.mpol ∧ setVnsAsarray s A none none = some s' ∧
      (∀ n, Valid s.mpol s.ntor false s.mpol n → getVns s' s.mpol n = some 0) ∧ (∀ n v, setVns s' s.mpol n v = none) := by
  let A := s.vns.slice s.mpol (s.ntor - s.ntor) (s.ntor + s.ntor + 1)
  have hA : A.rows = s.mpol ∧ A.cols = 2 * s.ntor + 1 := by
    refine ⟨?_, ?_⟩
    · show min s.mpol s.vns.rows = s.mpol; rw [hs.1.1]; omega
    · show min (s.ntor + s.ntor + 1) s.vns.cols - (s.ntor - s.ntor) = _; rw [hs.1.2.1]; omega
  have hget : getVnsAsarray s none none = some A := by simp [getVnsAsarray, resArgs, A]
  let B := A.slice s.mpol (s.ntor - s.ntor) (s.ntor + s.ntor + 1)
  have hB : B.rows = s.mpol ∧ B.cols = 2 * s.ntor + 1 := by
    refine ⟨?_, ?_⟩
    · show min s.mpol A.rows = s.mpol; rw [hA.1]; omega
    · show min (s.ntor + s.ntor + 1) A.cols - (s.ntor - s.ntor) = _; rw [hA.2]; omega
  let s1 : NF := { s with vns := B }
  have hS1 : Shape s1 s.mpol s.ntor := by
    refine ⟨hB.1, hB.2, hs.1.2.2.1, fun hst => ?_⟩
    obtain ⟨C, a, b, c⟩ := hs.1.2.2.2 hst
    exact ⟨C, a, b, by show min (s.mpol + 1) s.mpol ≤ C.rows; omega⟩
  obtain ⟨d, hd, _⟩ := getDofs_spec s1 _ _ hS1
  have hsy : Synced { s1 with x := d } s.mpol s.ntor := ⟨hS1, hd⟩
  refine ⟨A, { s1 with x := d }, hget, hA.1, ?_, ?_, ?_⟩
  · simp only [setVnsAsarray, resArgs, Option.getD_none, gt_iff_lt, lt_irrefl, if_false, Option.bind_eq_bind, Option.bind_some]
    show (do let x ← getDofs s1; return { s1 with x := x }) = _
    rw [hd]; rfl
  · intro n hva
    rw [synced_vns hsy _ n hva]
    simp only [entry]
    rw [if_neg]
    show ¬ ((s.mpol : Int) < B.rows ∧ _)
    rw [hB.1]; omega
  · intro n v
    by_cases hva : Valid s.mpol s.ntor true s.mpol n
    · have hset : B.set (s.mpol : Int) (n + s.ntor) v = none := by
        have : pyIdx B.rows (s.mpol : Int) = none := by rw [hB.1, pyIdx, if_neg (by omega), if_neg (by omega)]
        simp [Mat.set, this]
      have h1 : checkMn s.mpol s.ntor s.mpol n = true := checkMn_of hva
      have h2 := indexArray_of (s := s) hva
      have hset' : s1.vns.set (s.mpol : Int) (n + s.ntor) v = none := hset
      simp [setVns, s1, h1, h2, hset]
    · exact (C147_bounds { s1 with x := d } _ n v hva).2.2.1

theorem inverse_row_congr (g : Grid) (mpol ntor : Nat) (st : Bool) (c : Option ℝ) (As As' Ac : Arr) (h : ∀ i : Nat × Nat, i.1 ≤ mpol → As i = As' i) (k j : Nat) :
    g.inverse mpol ntor st c As Ac k j = g.inverse mpol ntor st c As' Ac k j := by
  rw [inverse_sum, inverse_sum]
  congr 2
  apply Finset.sum_congr rfl
  intro m hm
  apply Finset.sum_congr rfl
  intro n _
  rw [h _ (by have := Finset.mem_range.mp hm; show m ≤ mpol; omega)]

/-- **C147.** What `get_real_space_field` returns on a field that agrees with its arrays: minus `(2π)²/|n|` times the Fourier series of the modes with `m < mpol`. -/
theorem C147_real_space {s : NF} (hs : Synced s (s.mpol + 1) s.ntor) (hm : 1 ≤ s.mpol) (g : Grid) (norm : Nat → Nat → ℝ) (k j : Nat) :
    realSpace s g norm k j = some (-((2 * Real.pi) ^ 2 *
      g.series (s.mpol - 1) s.ntor (fun m n => (getVns s m n).getD 0) (fun m n => (getVnc s m n).getD 0) k j) / norm k j) := by
  have hr0 : s.vns.rows = s.mpol + 1 := hs.1.1
  have hc0 : s.vns.cols = 2 * s.ntor + 1 := hs.1.2.1
  have hA : getVnsAsarray s none none = some (s.vns.slice s.mpol (s.ntor - s.ntor) (s.ntor + s.ntor + 1)) := by simp [getVnsAsarray, resArgs]
  have hrow : (s.vns.slice s.mpol (s.ntor - s.ntor) (s.ntor + s.ntor + 1)).rows = s.mpol := by
    show min s.mpol s.vns.rows = s.mpol; omega
  have hcol : ((s.vns.slice s.mpol (s.ntor - s.ntor) (s.ntor + s.ntor + 1)).cols - 1) / 2 = s.ntor := by
    show (min (s.ntor + s.ntor + 1) s.vns.cols - (s.ntor - s.ntor) - 1) / 2 = s.ntor; omega
  have hB : ∃ C, getVncAsarray s none none = some C ∧ (s.stellsym = false → ∀ m n : Nat, m < s.mpol → C.a m n = (s.vnc.getD s.vns).a m n) := by
    refine ⟨(s.vnc.getD (Mat.zeros s.mpol (2 * s.ntor + 1))).slice s.mpol (s.ntor - s.ntor) (s.ntor + s.ntor + 1), by simp [getVncAsarray, resArgs], ?_⟩
    intro hst m n _
    obtain ⟨D, hD, _⟩ := hs.1.2.2.2 hst
    simp [hD, Mat.slice]
  obtain ⟨C, hC, hCa⟩ := hB
  simp only [realSpace, hA, hC, Option.bind_eq_bind, Option.bind_some, hrow, hcol]
  rw [if_neg (by omega)]
  show some _ = some _
  congr 1
  have key : g.inverse (s.mpol - 1) s.ntor s.stellsym (some ((2 * Real.pi) ^ 2)) (fun i => (s.vns.slice s.mpol (s.ntor - s.ntor) (s.ntor + s.ntor + 1)).a i.1 i.2) (fun i => C.a i.1 i.2) k j
      = (2 * Real.pi) ^ 2 * g.series (s.mpol - 1) s.ntor (fun m n => (getVns s m n).getD 0) (fun m n => (getVnc s m n).getD 0) k j := by
    rw [inverse_sum, Option.getD_some]
    congr 1
    have hsn : ∀ (m : Nat) (n : Int), m < s.mpol → -(s.ntor : Int) ≤ n → n ≤ s.ntor → (m = 0 → 1 ≤ n) →
        (s.vns.slice s.mpol (s.ntor - s.ntor) (s.ntor + s.ntor + 1)).a m (n + s.ntor).toNat = (getVns s m n).getD 0 := by
      intro m n h1 h2 h3 h4
      rw [synced_vns hs m n ⟨by omega, by omega, h2, h3, by omega, by omega⟩]
      have hin : (m : Int) < s.vns.rows ∧ n ≤ s.ntor := ⟨by omega, h3⟩
      simp [Mat.slice, entry, hin, col_sym _ _ h2]
    have hcn : ∀ (m : Nat) (n : Int), m < s.mpol → -(s.ntor : Int) ≤ n → n ≤ s.ntor → (m = 0 → 0 ≤ n) →
        (if s.stellsym then 0 else C.a m (n + s.ntor).toNat) = (getVnc s m n).getD 0 := by
      intro m n h1 h2 h3 h4
      rw [synced_vnc hs m n ⟨by omega, by omega, h2, h3, by omega, by simp⟩]
      have hin : (m : Int) < s.vns.rows ∧ n ≤ s.ntor := ⟨by omega, h3⟩
      cases hst : s.stellsym with
      | true => simp
      | false => simp [entry, hin, col_sym _ _ h2, hCa hst m _ h1]
    unfold Grid.series
    have hm1 : s.mpol - 1 + 1 = (s.mpol - 1) + 1 := rfl
    rw [Finset.sum_range_succ' , Finset.sum_range_succ' (fun m => ∑ n ∈ Finset.Icc (if m = 0 then 0 else -(s.ntor : Int)) s.ntor, _)]
    rw [add_assoc]
    congr 1
    · apply Finset.sum_congr rfl
      intro m hmm
      have hmm := Finset.mem_range.mp hmm
      simp only [Nat.add_eq_zero_iff, one_ne_zero, and_false, if_false]
      apply Finset.sum_congr rfl
      intro n hn
      have hn := Finset.mem_Icc.mp hn
      rw [hsn (m + 1) n (by omega) hn.1 hn.2 (by omega), ← hcn (m + 1) n (by omega) hn.1 hn.2 (by omega)]
      cases s.stellsym <;> simp
    · have hsplit : Finset.Icc (0 : Int) s.ntor = insert 0 (Finset.Icc 1 (s.ntor : Int)) := by
        ext n; simp only [Finset.mem_insert, Finset.mem_Icc]; omega
      simp only [if_true]
      rw [hsplit, Finset.sum_insert (by simp), add_comm]
      congr 1
      · have := hcn 0 0 (by omega) (by omega) (by omega) (by simp)
        rw [← this]
        cases s.stellsym <;> simp [Grid.angle]
      · apply Finset.sum_congr rfl
        intro n hn
        have hn := Finset.mem_Icc.mp hn
        rw [hsn 0 n (by omega) (by omega) hn.2 (by omega), ← hcn 0 n (by omega) (by omega) hn.2 (by omega)]
        cases s.stellsym <;> simp
  rw [key]
  ring

/-- **C147 (violated).** The real-space field does not contain the modes with `m = mpol`: setting one leaves it unchanged. For `NormalField()` (`mpol = 1, ntor = 0`) this is its only dof. -/
theorem C147_real_space_violated {s : NF} (hs : Synced s (s.mpol + 1) s.ntor) (n : Int) (v : ℝ) (hva : Valid s.mpol s.ntor true s.mpol n) :
    ∃ s', setVns s s.mpol n v = some s' ∧ (Valid s.mpol s.ntor false s.mpol n → getVns s' s.mpol n = some v) ∧
      ∀ g norm k j, realSpace s' g norm k j = realSpace s g norm k j := by
  obtain ⟨s1, h1, _, _, _, _, _, hg, _⟩ := C147_set_vns hs s.mpol n v hva
  obtain ⟨s', e1, e2, e3, e4, e5, e6, e7, e8⟩ := setVns_spec hs.1 s.mpol n v hva (by push_cast; omega) (by have := hva.2.2.2.1; omega)
  have : s1 = s' := by rw [h1] at e1; simpa using e1
  subst this
  refine ⟨s1, e1, fun hva' => by rw [hg _ _ hva']; simp, fun g norm k j => ?_⟩
  have hA : getVnsAsarray s none none = some (s.vns.slice s.mpol (s.ntor - s.ntor) (s.ntor + s.ntor + 1)) := by simp [getVnsAsarray, resArgs]
  have hA1 : getVnsAsarray s1 none none = some (s1.vns.slice s.mpol (s.ntor - s.ntor) (s.ntor + s.ntor + 1)) := by simp [getVnsAsarray, resArgs, e3, e4]
  have hB : getVncAsarray s1 none none = getVncAsarray s none none := by simp [getVncAsarray, resArgs, e3, e4, e7]
  have hrow : (s1.vns.slice s.mpol (s.ntor - s.ntor) (s.ntor + s.ntor + 1)).rows = s.mpol := by
    show min s.mpol s1.vns.rows = s.mpol; rw [e8]; show min s.mpol s.vns.rows = s.mpol; rw [hs.1.1]; omega
  have hrow' : (s.vns.slice s.mpol (s.ntor - s.ntor) (s.ntor + s.ntor + 1)).rows = s.mpol := by
    show min s.mpol s.vns.rows = s.mpol; rw [hs.1.1]; omega
  have hcol : (s1.vns.slice s.mpol (s.ntor - s.ntor) (s.ntor + s.ntor + 1)).cols = (s.vns.slice s.mpol (s.ntor - s.ntor) (s.ntor + s.ntor + 1)).cols := by rw [e8]; rfl
  simp only [realSpace, hA, hA1, hB, Option.bind_eq_bind, Option.bind_some, hrow, hrow', hcol, e5]
  congr 1
  funext vnc
  by_cases h0 : s.mpol = 0
  · rw [if_pos h0, if_pos h0]
  · rw [if_neg h0, if_neg h0]
    have hinv : ∀ ntor st c k j, g.inverse (s.mpol - 1) ntor st c (fun i => (s1.vns.slice s.mpol (s.ntor - s.ntor) (s.ntor + s.ntor + 1)).a i.1 i.2) (fun i => vnc.a i.1 i.2) k j
        = g.inverse (s.mpol - 1) ntor st c (fun i => (s.vns.slice s.mpol (s.ntor - s.ntor) (s.ntor + s.ntor + 1)).a i.1 i.2) (fun i => vnc.a i.1 i.2) k j := by
      intro ntor st c k j
      rw [e8]
      simp only [Mat.slice]
      exact inverse_row_congr _ _ _ _ _ _ _ _ (by
        intro i hi
        have : i.1 ≠ s.mpol := by omega
        simp [this]) k j
    rw [hinv]

/-- **C147 (violated).** `change_resolution` does not resize the arrays: afterwards `set_vns(m, ntor + 1, v)` raises an IndexError if `ntor` was increased by one (although the mode now exists). -/
theorem C147_change_resolution_set_violated {s : NF} (hs : Synced s (s.mpol + 1) s.ntor) (s' : NF) (h : changeResolution s s.mpol (s.ntor + 1) = some s') (m : Int) (v : ℝ)
    (hm : 0 ≤ m ∧ m ≤ s.mpol) : Valid s'.mpol s'.ntor false m (s.ntor + 1) ∧ setVns s' m (s.ntor + 1) v = none := by
  have hv : s'.mpol = s.mpol ∧ s'.ntor = s.ntor + 1 ∧ s'.vns = s.vns := by
    simp only [changeResolution, Option.bind_eq_bind] at h
    rw [Option.bind_eq_some_iff] at h
    obtain ⟨d, _, hd⟩ := h
    simp at hd
    rw [← hd]
    exact ⟨rfl, rfl, rfl⟩
  obtain ⟨v1, v2, v3⟩ := hv
  have hva : Valid s'.mpol s'.ntor false m (s.ntor + 1) := by
    rw [v1, v2]
    exact ⟨hm.1, hm.2, by push_cast; omega, by push_cast; omega, by intro _; omega, by intro _; omega⟩
  refine ⟨hva, ?_⟩
  have hset : s.vns.set m ((s.ntor : Int) + 1 + s'.ntor) v = none := by
    have : pyIdx s.vns.cols ((s.ntor : Int) + 1 + s'.ntor) = none := by
      rw [hs.1.2.1, v2, pyIdx, if_neg (by push_cast; omega), if_neg (by push_cast; omega)]
    simp [Mat.set, this]
  simp [setVns, checkMn_of (valid_weaken hva), indexArray_of (valid_weaken hva), v3, hset]

/-- **C147 (violated).** After the toroidal resolution was lowered by one, `set_vns(m, n, v)` writes the column of the mode `(m, n - 1)`: that mode becomes `v`. -/
theorem C147_change_resolution_column_violated {s : NF} (hs : Synced s (s.mpol + 1) s.ntor) (N : Nat) (hN : s.ntor = N + 1) (s' : NF)
    (h : changeResolution s s.mpol N = some s') (m n : Int) (v : ℝ) (hva : Valid s.mpol N true m n) (hva' : Valid s.mpol N false m (n - 1)) :
    ∃ s'', setVns s' m n v = some s'' ∧ getVns s'' m (n - 1) = some v := by
  have hv : s'.mpol = s.mpol ∧ s'.ntor = N ∧ s'.vns = s.vns ∧ s'.vnc = s.vnc ∧ s'.stellsym = s.stellsym := by
    simp only [changeResolution, Option.bind_eq_bind] at h
    rw [Option.bind_eq_some_iff] at h
    obtain ⟨d, _, hd⟩ := h
    simp at hd
    rw [← hd]
    exact ⟨rfl, rfl, rfl, rfl, rfl⟩
  obtain ⟨v1, v2, v3, v4, v5⟩ := hv
  have hS : Shape s' (s.mpol + 1) (N + 1) := by
    refine ⟨by rw [v3]; exact hs.1.1, by rw [v3, hs.1.2.1, hN], by rw [v2]; omega, fun hst => ?_⟩
    rw [v4, v1]
    obtain ⟨C, a, b, c⟩ := hs.1.2.2.2 (by rw [← v5]; exact hst)
    exact ⟨C, a, by rw [b, hN], c⟩
  have hva2 : Valid s'.mpol s'.ntor true m n := by rw [v1, v2]; exact hva
  obtain ⟨c1, c2, c3, c4, c5, c6⟩ := hva
  obtain ⟨d1, d2, d3, d4, d5, d6⟩ := id hva'
  obtain ⟨s'', e1, e2, e3, e4, e5, e6, e7, e8⟩ := setVns_spec hS m n v hva2 (by push_cast; omega) (by rw [v2]; push_cast; omega)
  refine ⟨s'', e1, ?_⟩
  rw [synced_vns e2 m (n - 1) (by rw [e3, e4, v1, v2]; exact hva')]
  simp only [entry, e8, Bool.false_eq_true, if_false]
  have hr : m < s'.vns.rows ∧ n - 1 ≤ (N + 1 : Nat) := ⟨by rw [v3, hs.1.1]; push_cast; omega, by push_cast; omega⟩
  rw [if_pos hr, col_sym _ _ (by push_cast; omega), if_pos ⟨trivial, by rw [v2]; push_cast; omega⟩]

/-- **C147 (violated).** The constructor accepts an array for a smaller toroidal resolution `N < ntor`, but then fills the modes `n < -N` with wrapped-around entries:
`vns(m, -N-1)` becomes `vns(m, N)` instead of zero. -/
theorem C147_narrow_array_violated (nfp mpol ntor N : Nat) (A : Mat) (hA : A.rows = mpol + 1 ∧ A.cols = 2 * N + 1) (hN : N < ntor ∧ ntor ≤ 3 * N + 1)
    (m : Int) (hm : 1 ≤ m ∧ m ≤ mpol) :
    ∃ s, construct nfp true mpol ntor (some A) none = some s ∧ getVns s m (-(N : Int) - 1) = some (A.a m.toNat (2 * N)) ∧ getVns s m N = some (A.a m.toNat (2 * N)) := by
  let s0 : NF := ⟨nfp, true, mpol, ntor, A, none, []⟩
  have hS : Shape s0 (mpol + 1) N := ⟨hA.1, hA.2, hN.2, fun h => by simp [s0] at h⟩
  obtain ⟨d, hd, _⟩ := getDofs_spec s0 _ _ hS
  have hsy : Synced { s0 with x := d } (mpol + 1) N := ⟨hS, hd⟩
  refine ⟨{ s0 with x := d }, ?_, ?_, ?_⟩
  · show (do let dofs ← getDofs s0; return { s0 with x := dofs }) = _
    rw [hd]; rfl
  · rw [synced_vns hsy m (-(N : Int) - 1) ⟨by omega, hm.2, by show -(ntor : Int) ≤ _; omega, by show _ ≤ (ntor : Int); omega, by omega, by omega⟩]
    have hr : m < A.rows ∧ -(N : Int) - 1 ≤ N := ⟨by rw [hA.1]; push_cast; omega, by omega⟩
    show some (if m < A.rows ∧ -(N : Int) - 1 ≤ N then A.a m.toNat (col N (-(N : Int) - 1)) else 0) = _
    rw [if_pos hr]
    have : col N (-(N : Int) - 1) = 2 * N := by unfold col; rw [if_neg (by omega)]; omega
    rw [this]
  · rw [synced_vns hsy m N ⟨by omega, hm.2, by show -(ntor : Int) ≤ _; omega, by show _ ≤ (ntor : Int); omega, by omega, by omega⟩]
    have hr : m < A.rows ∧ (N : Int) ≤ N := ⟨by rw [hA.1]; push_cast; omega, by omega⟩
    show some (if m < A.rows ∧ (N : Int) ≤ N then A.a m.toNat (col N N) else 0) = _
    rw [if_pos hr]
    have : col N N = 2 * N := by unfold col; rw [if_pos (by omega)]; omega
    rw [this]

theorem writes_none (l : List (Option Int × Option ℝ)) : ∀ d : List ℝ, (∃ p ∈ l, p.1 = none ∨ p.2 = none) → writes d l = none := by
  induction l with
  | nil => simp
  | cons p l ih =>
    intro d h
    simp only [writes, List.foldlM_cons]
    by_cases hp : p.1 = none ∨ p.2 = none
    · rcases hp with hp | hp
      · rw [hp]; rfl
      · rw [hp]; cases p.1 <;> rfl
    · obtain ⟨q, hq, hq'⟩ := h
      rcases List.mem_cons.mp hq with rfl | hq
      · exact absurd hq' hp
      · cases hstep : (do let i ← p.1; let v ← p.2; let k ← pyIdx d.length i; return d.set k v : Option (List ℝ)) with
        | none => rfl
        | some d1 => exact ih d1 ⟨q, hq, hq'⟩

/-- **C147 (violated).** `set_vnc_asarray` on a freshly constructed non-symmetric field always raises an IndexError (after having replaced the array): it keeps `mpol` rows of
vnc, while `get_dofs` reads `mpol + 1`. -/
theorem C147_set_vnc_asarray_violated {s : NF} (hs : Synced s (s.mpol + 1) s.ntor) (hst : s.stellsym = false) (A : Mat) : setVncAsarray s A none none = none := by
  have hB : (A.slice s.mpol (s.ntor - s.ntor) (s.ntor + s.ntor + 1)).rows ≤ s.mpol := min_le_left _ _
  generalize hBe : A.slice s.mpol (s.ntor - s.ntor) (s.ntor + s.ntor + 1) = B at hB
  have hd : getDofs { s with vnc := some B } = none := by
    unfold getDofs
    apply writes_none
    refine ⟨(indexDofs s.mpol s.ntor s.mpol 0 true, do (← (some B : Option Mat)).get s.mpol ((((s.vns.cols - 1) / 2 : Nat) : Int) + 0)), ?_, Or.inr ?_⟩
    · simp only [List.mem_flatMap, List.mem_range, Garab.mem_intRange]
      refine ⟨s.mpol, by omega, 0, by omega, ?_⟩
      rw [if_neg (by omega), if_neg (by rw [hs.1.1]; push_cast; omega), if_neg (by omega), List.mem_append]
      right
      rw [if_pos (by simp [hst])]
      simp
    · have : pyIdx B.rows (s.mpol : Int) = none := by rw [pyIdx, if_neg (by omega), if_neg (by omega)]
      simp [Mat.get, this]
  simp only [setVncAsarray, resArgs, Option.getD_none, gt_iff_lt, lt_irrefl, if_false, Option.bind_eq_bind, Option.bind_some, hBe]
  rw [hd]; rfl

/-! ## the hypotheses can be met -/

/-- A non-symmetric field with `mpol = 2`, `ntor = 1` and nonzero entries is constructed and agrees with its arrays. -/
example : ∃ s, construct 3 false 2 1 (some ⟨3, 3, fun i j => (i : ℝ) + 10 * j⟩) (some ⟨3, 3, fun i j => (i : ℝ) - j⟩) = some s ∧
    Synced s (s.mpol + 1) s.ntor ∧ s.x.length = 15 ∧ getVns s 2 (-1) = some 2 ∧ getVnc s 2 1 = some 0 ∧ Valid s.mpol s.ntor true 2 (-1) := by
  obtain ⟨s, h1, _, h2, h3, h4, h5, h6, h7, h8⟩ := C147_construct 3 false 2 1 (some ⟨3, 3, fun i j => (i : ℝ) + 10 * j⟩) (some ⟨3, 3, fun i j => (i : ℝ) - j⟩)
    (by intro A h; simp at h; subst h; exact ⟨rfl, rfl⟩) (by intro A h; simp at h; subst h; exact ⟨rfl, rfl⟩)
  refine ⟨s, h1, by rw [h3, h4]; exact h5, by rw [h6]; rfl, ?_, ?_, ?_⟩
  · rw [h7 2 (-1) ⟨by norm_num, by norm_num, by norm_num, by norm_num, by norm_num, by norm_num⟩]; simp [documented]
  · rw [h8 2 1 ⟨by norm_num, by norm_num, by norm_num, by norm_num, by norm_num, by norm_num⟩]; simp [documented]
  · rw [h3, h4]; exact ⟨by norm_num, by norm_num, by norm_num, by norm_num, by norm_num, by norm_num⟩

end Simsopt.NField
