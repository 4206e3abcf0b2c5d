import Verif.NField.Props
/-! # C147: theorems on NormalField -/
namespace Simsopt.NField
open Simsopt Simsopt.RZSurf

theorem col_sym (N : Nat) (n : Int) (h : -(N : Int) ≤ n) : col N n = (n + N).toNat := by
  unfold col; rw [if_pos (by omega)]

/-- The documented meaning of an array argument: entry `[m, ntor + n]`, zero if the argument is `None`. -/
noncomputable def documented (A : Option Mat) (ntor : Nat) (m n : Int) : ℝ := (A.map fun A => A.a m.toNat (n + ntor).toNat).getD 0

/-- **C147.** The constructor with arrays of the documented shape (or `None`) succeeds, makes `ndof` dofs, and `get_vns(m, n)`, `get_vnc(m, n)` return `vns[m, ntor+n]`, `vnc[m, ntor+n]`
for all modes (`vnc` is 0 under stellarator symmetry). -/
theorem C147_construct (nfp : Nat) (st : Bool) (mpol ntor : Nat) (vns vnc : Option Mat)
    (h1 : ∀ A, vns = some A → A.rows = mpol + 1 ∧ A.cols = 2 * ntor + 1) (h2 : ∀ A, vnc = some A → A.rows = mpol + 1 ∧ A.cols = 2 * ntor + 1) :
    ∃ s, construct nfp st mpol ntor vns vnc = some s ∧ s.nfp = nfp ∧ s.stellsym = st ∧ s.mpol = mpol ∧ s.ntor = ntor ∧
      Synced s (mpol + 1) ntor ∧ s.x.length = ndof st mpol ntor ∧
      (∀ m n, Valid mpol ntor false m n → getVns s m n = some (documented vns ntor m n)) ∧
      (∀ m n, Valid mpol ntor true m n → getVnc s m n = some (if st then 0 else documented vnc ntor m n)) := by
  let V := vns.getD (Mat.zeros (mpol + 1) (2 * ntor + 1))
  let W := if !st && vnc.isNone then some (Mat.zeros (mpol + 1) (2 * ntor + 1)) else vnc
  let s0 : NF := ⟨nfp, st, mpol, ntor, V, W, []⟩
  have hV : V.rows = mpol + 1 ∧ V.cols = 2 * ntor + 1 := by
    cases vns with
    | none => exact ⟨rfl, rfl⟩
    | some A => exact h1 A rfl
  have hW : st = false → ∃ C, W = some C ∧ C.cols = 2 * ntor + 1 ∧ C.rows = mpol + 1 := by
    intro hst
    cases vnc with
    | none => exact ⟨Mat.zeros (mpol + 1) (2 * ntor + 1), by simp [W, hst], rfl, rfl⟩
    | some A => exact ⟨A, by simp [W], (h2 A rfl).2, (h2 A rfl).1⟩
  have hS : Shape s0 (mpol + 1) ntor := by
    refine ⟨hV.1, hV.2, by show ntor ≤ 3 * ntor + 1; omega, fun hst => ?_⟩
    obtain ⟨C, a, b, c⟩ := hW hst
    exact ⟨C, a, b, by rw [c]; simp [s0]⟩
  obtain ⟨d, hd, hlen, _⟩ := getDofs_spec s0 _ _ hS
  let s : NF := { s0 with x := d }
  have hsy : Synced s (mpol + 1) ntor := ⟨hS, hd⟩
  refine ⟨s, ?_, rfl, rfl, rfl, rfl, hsy, hlen, ?_, ?_⟩
  · show (do let dofs ← getDofs s0; return { s0 with x := dofs }) = some s
    rw [hd]; rfl
  · intro m n hva
    rw [synced_vns hsy m n hva]
    obtain ⟨b1, b2, b3, b4, b5, b6⟩ := hva
    have : entry s ntor false m n = V.a m.toNat (n + ntor).toNat := by
      have hr : m < s.vns.rows ∧ n ≤ ntor := ⟨by show m < V.rows; rw [hV.1]; push_cast; omega, b4⟩
      simp only [entry, if_pos hr, col_sym ntor n b3]
      rfl
    rw [this]
    cases vns with
    | none => simp [V, documented, Mat.zeros]
    | some A => simp [V, documented]
  · intro m n hva
    rw [synced_vnc hsy m n hva]
    cases st with
    | true => rfl
    | false =>
      obtain ⟨b1, b2, b3, b4, b5, b6⟩ := hva
      show some (if false = true then 0 else entry s ntor true m n) = _
      simp only [Bool.false_eq_true, if_false]
      have hr : m < s.vns.rows ∧ n ≤ ntor := ⟨by show m < V.rows; rw [hV.1]; push_cast; omega, b4⟩
      simp only [entry, if_pos hr, col_sym ntor n b3, if_true]
      cases vnc with
      | none => simp [s, s0, W, documented, Mat.zeros]
      | some A => simp [s, s0, W, documented]

/-- **C147.** Modes outside `0 ≤ m ≤ mpol`, `|n| ≤ ntor` (`n ≥ 0` for `m = 0`) are rejected by all four accessors, whatever the state. -/
theorem C147_bounds (s : NF) (m n : Int) (v : ℝ) (h : ¬ Valid s.mpol s.ntor true m n) :
    getVns s m n = none ∧ getVnc s m n = none ∧ setVns s m n v = none ∧ setVnc s m n v = none := by
  have hc : checkMn s.mpol s.ntor m n = false := by
    simp only [Valid] at h
    by_contra hc
    simp only [checkMn, Bool.not_eq_false, Bool.not_eq_true', Bool.or_eq_false_iff, decide_eq_false_iff_not] at hc
    exact h ⟨by omega, by omega, by omega, by omega, by omega, by simp⟩
  refine ⟨?_, ?_, ?_, ?_⟩ <;> simp [getVns, getVnc, setVns, setVnc, hc]

theorem checkMn_of {s : NF} {m n : Int} (h : Valid s.mpol s.ntor true m n) : checkMn s.mpol s.ntor m n = true := by
  obtain ⟨h1, h2, h3, h4, h5, h6⟩ := h
  simp [checkMn]; omega

theorem indexArray_of {s : NF} {m n : Int} (h : Valid s.mpol s.ntor true m n) : indexArray s.mpol s.ntor m n = some (m, n + s.ntor) := by
  obtain ⟨h1, h2, h3, h4, h5, h6⟩ := h
  have : ¬ |n| > (s.ntor : Int) := by rw [gt_iff_lt, not_lt, abs_le]; omega
  rw [indexArray, if_neg (by omega), if_neg this, if_neg (by omega)]

/-- Writing the column `n + ntor` of `_vns` (that of the toroidal mode `n + ntor - N` of an array with `2 N + 1` columns), then reading the dofs again. -/
theorem setVns_spec {s : NF} {R N : Nat} (hs : Shape s R N) (m n : Int) (v : ℝ) (hva : Valid s.mpol s.ntor true m n) (hr : m < R) (hn : n + s.ntor ≤ 2 * N) :
    ∃ s', setVns s m n v = some s' ∧ Synced s' R N ∧ s'.mpol = s.mpol ∧ s'.ntor = s.ntor ∧ s'.stellsym = s.stellsym ∧ s'.nfp = s.nfp ∧ s'.vnc = s.vnc ∧
      s'.vns = { s.vns with a := fun i j => if i = m.toNat ∧ j = (n + s.ntor).toNat then v else s.vns.a i j } := by
  obtain ⟨b1, b2, b3, b4, b5, b6⟩ := id hva
  have hset : s.vns.set m (n + s.ntor) v = some { s.vns with a := fun i j => if i = m.toNat ∧ j = (n + s.ntor).toNat then v else s.vns.a i j } := by
    simp [Mat.set, pyIdx_eq s.vns.rows m b1 (by rw [hs.1]; exact hr), pyIdx_eq s.vns.cols (n + s.ntor) (by omega) (by rw [hs.2.1]; push_cast; omega)]
  let s1 : NF := { s with vns := { s.vns with a := fun i j => if i = m.toNat ∧ j = (n + s.ntor).toNat then v else s.vns.a i j } }
  have hS1 : Shape s1 R N := hs
  obtain ⟨d, hd, _⟩ := getDofs_spec s1 R N hS1
  refine ⟨{ s1 with x := d }, ?_, ⟨hS1, hd⟩, rfl, rfl, rfl, rfl, rfl, rfl⟩
  simp only [setVns, checkMn_of hva, indexArray_of hva, guard_true, Option.bind_eq_bind, Option.bind_some, hset]
  show (do let x ← getDofs s1; return { s1 with x := x }) = _
  rw [hd]; rfl

/-- **C147.** On a field whose dofs agree with its arrays, `set_vns(m, n, v)` succeeds and changes the mode `(m, n)` of vns to `v` and no other mode of vns or vnc; the result again agrees. -/
theorem C147_set_vns {s : NF} (hs : Synced s (s.mpol + 1) s.ntor) (m n : Int) (v : ℝ) (hva : Valid s.mpol s.ntor true m n) :
    ∃ s', setVns s m n v = some s' ∧ Synced s' (s'.mpol + 1) s'.ntor ∧ s'.mpol = s.mpol ∧ s'.ntor = s.ntor ∧ s'.stellsym = s.stellsym ∧ s'.nfp = s.nfp ∧
      (∀ m' n', Valid s.mpol s.ntor false m' n' → getVns s' m' n' = if m' = m ∧ n' = n then some v else getVns s m' n') ∧
      (∀ m' n', getVnc s' m' n' = getVnc s m' n') := by
  obtain ⟨b1, b2, b3, b4, b5, b6⟩ := id hva
  obtain ⟨s', e1, e2, e3, e4, e5, e6, e7, e8⟩ := setVns_spec hs.1 m n v hva (by push_cast; omega) (by omega)
  refine ⟨s', e1, by rw [e3, e4]; exact e2, e3, e4, e5, e6, ?_, ?_⟩
  · intro m' n' hva'
    rw [synced_vns e2 m' n' (by rw [e3, e4]; exact hva'), synced_vns hs m' n' hva']
    obtain ⟨c1, c2, c3, c4, c5, c6⟩ := hva'
    simp only [entry, e8, Bool.false_eq_true, if_false, col_sym _ _ c3]
    have hR := hs.1.1
    have hin : m' < s.vns.rows ∧ n' ≤ s.ntor := ⟨by rw [hR]; push_cast; omega, c4⟩
    simp only [if_pos hin]
    by_cases heq : m' = m ∧ n' = n
    · rw [if_pos heq, if_pos (by rw [heq.1, heq.2]; exact ⟨rfl, rfl⟩)]
    · rw [if_neg heq, if_neg (by omega)]
  · intro m' n'
    by_cases hva' : Valid s.mpol s.ntor true m' n'
    · rw [synced_vnc e2 m' n' (by rw [e3, e4]; exact hva'), synced_vnc hs m' n' hva', e5]
      cases hst : s.stellsym with
      | true => rfl
      | false =>
        obtain ⟨C, hC, _⟩ := hs.1.2.2.2 hst
        simp [entry, e8, e7, hC]
    · rw [(C147_bounds s m' n' 0 hva').2.1, (C147_bounds s' m' n' 0 (by rw [e3, e4]; exact hva')).2.1]

/-- **C147.** The same for `set_vnc` on a field without stellarator symmetry; with stellarator symmetry it raises. -/
theorem C147_set_vnc {s : NF} (hs : Synced s (s.mpol + 1) s.ntor) (m n : Int) (v : ℝ) (hva : Valid s.mpol s.ntor true m n) :
    (s.stellsym = true → setVnc s m n v = none) ∧ (s.stellsym = false →
    ∃ s', setVnc s m n v = some s' ∧ Synced s' (s'.mpol + 1) s'.ntor ∧ s'.mpol = s.mpol ∧ s'.ntor = s.ntor ∧ s'.stellsym = s.stellsym ∧ s'.nfp = s.nfp ∧
      (∀ m' n', Valid s.mpol s.ntor true m' n' → getVnc s' m' n' = if m' = m ∧ n' = n then some v else getVnc s m' n') ∧
      (∀ m' n', Valid s.mpol s.ntor false m' n' → getVns s' m' n' = getVns s m' n')) := by
  obtain ⟨b1, b2, b3, b4, b5, b6⟩ := id hva
  constructor
  · intro hst
    simp [setVnc, checkMn_of hva, indexArray_of hva, hst]
  · intro hst
    obtain ⟨C, hC, hcc, hcr⟩ := hs.1.2.2.2 hst
    simp only [min_self] at hcr
    have hset : C.set m (n + s.ntor) v = some { C with a := fun i j => if i = m.toNat ∧ j = (n + s.ntor).toNat then v else C.a i j } := by
      simp [Mat.set, pyIdx_eq C.rows m b1 (by omega), pyIdx_eq C.cols (n + s.ntor) (by omega) (by rw [hcc]; push_cast; omega)]
    let s1 : NF := { s with vnc := some { C with a := fun i j => if i = m.toNat ∧ j = (n + s.ntor).toNat then v else C.a i j } }
    have hS1 : Shape s1 (s.mpol + 1) s.ntor := ⟨hs.1.1, hs.1.2.1, hs.1.2.2.1, fun _ => ⟨_, rfl, hcc, (min_le_right _ _).trans hcr⟩⟩
    obtain ⟨d, hd, _⟩ := getDofs_spec s1 _ _ hS1
    have hsy : Synced { s1 with x := d } (s.mpol + 1) s.ntor := ⟨hS1, hd⟩
    refine ⟨{ s1 with x := d }, ?_, hsy, rfl, rfl, rfl, rfl, ?_, ?_⟩
    · have hg : (!s.stellsym) = true := by rw [hst]; rfl
      simp only [setVnc, checkMn_of hva, indexArray_of hva, hg, hC, guard_true, Option.bind_eq_bind, Option.bind_some, hset]
      show (do let x ← getDofs s1; return { s1 with x := x }) = _
      rw [hd]; rfl
    · intro m' n' hva'
      rw [synced_vnc hsy m' n' hva', synced_vnc hs m' n' hva']
      obtain ⟨c1, c2, c3, c4, c5, c6⟩ := hva'
      have hR := hs.1.1
      show some (if s.stellsym = true then (0 : ℝ) else entry { s1 with x := d } s.ntor true m' n') = _
      have hne : ¬ s.stellsym = true := by simp [hst]
      simp only [if_neg hne]
      have h1 : entry { s1 with x := d } s.ntor true m' n' = if m' = m ∧ n' = n then v else C.a m'.toNat (n' + s.ntor).toNat := by
        simp only [entry, s1]
        rw [if_pos ⟨by rw [hR]; push_cast; omega, c4⟩]
        simp only [if_true, Option.getD_some, col_sym _ _ c3]
        by_cases heq : m' = m ∧ n' = n
        · rw [if_pos heq, if_pos (by rw [heq.1, heq.2]; exact ⟨rfl, rfl⟩)]
        · rw [if_neg heq, if_neg (by omega)]
      have h2 : entry s s.ntor true m' n' = C.a m'.toNat (n' + s.ntor).toNat := by
        simp only [entry]
        rw [if_pos ⟨by rw [hR]; push_cast; omega, c4⟩]
        simp [hC, col_sym _ _ c3]
      rw [h1, h2]
      split <;> rfl
    · intro m' n' hva'
      rw [synced_vns hsy m' n' hva', synced_vns hs m' n' hva']
      rfl

/-- **C147.** After assigning the dof vector, `get_vns`/`get_vnc` return the entry at the index of the mode. -/
theorem C147_set_x (s : NF) (d : List ℝ) (hd : d.length = ndof s.stellsym s.mpol s.ntor) (m n : Int) (k : Nat) (hk : k < d.length) :
    (indexDofs s.mpol s.ntor m n false = some (k : Int) → getVns (setX s d) m n = some d[k]) ∧
    (indexDofs s.mpol s.ntor m n true = some (k : Int) → s.stellsym = false → getVnc (setX s d) m n = some d[k]) :=
  ⟨fun h => getVns_of (setX s d) m n k _ h (by simp [setX, hk]), fun h hst => getVnc_of (setX s d) m n k _ hst h (by simp [setX, hk])⟩

/-- **C147.** `change_resolution(mpol, ntor)` keeps every mode within both resolutions and gives zero to the new ones. -/
theorem C147_change_resolution (s : NF) (hx : s.x.length = ndof s.stellsym s.mpol s.ntor) (mpol ntor : Nat) :
    ∃ s', changeResolution s mpol ntor = some s' ∧ s'.mpol = mpol ∧ s'.ntor = ntor ∧ s'.stellsym = s.stellsym ∧ s'.nfp = s.nfp ∧
      s'.x.length = ndof s.stellsym mpol ntor ∧
      (∀ m n, Valid mpol ntor false m n → (Valid s.mpol s.ntor false m n → getVns s' m n = getVns s m n) ∧ (¬ Valid s.mpol s.ntor false m n → getVns s' m n = some 0)) ∧
      (∀ m n, Valid mpol ntor true m n → (Valid s.mpol s.ntor true m n → getVnc s' m n = getVnc s m n) ∧ (¬ Valid s.mpol s.ntor true m n → getVnc s' m n = some 0)) := by
  -- the value of the old field for a mode
  have hget : ∀ e m n, (e = true → s.stellsym = false) → Valid s.mpol s.ntor e m n → ∃ v, (if e then getVnc s m n else getVns s m n) = some v := by
    intro e m n he hva
    obtain ⟨i, hi⟩ := ((C147_index s.mpol s.ntor s.stellsym).1 e m n).mpr hva
    have hb := (C147_index s.mpol s.ntor s.stellsym).2.1 e m n i he hi
    obtain ⟨k, rfl⟩ := Int.eq_ofNat_of_zero_le hb.1
    have hk : k < s.x.length := by omega
    cases e with
    | false => exact ⟨s.x[k], by simpa using getVns_of s m n k _ hi (by simp [hk])⟩
    | true => exact ⟨s.x[k], by simpa using getVnc_of s m n k _ (he rfl) hi (by simp [hk])⟩
  let P : Nat → ℝ → Prop := fun k v => ∃ e m n, (e = true → s.stellsym = false) ∧ indexDofs mpol ntor m n e = some (k : Int) ∧
    (if e then getVnc s m n else getVns s m n) = some v
  have hPf : ∀ k v v', P k v → P k v' → v = v' := by
    rintro k v v' ⟨e, m, n, _, h, hv⟩ ⟨e', m', n', _, h', hv'⟩
    obtain ⟨rfl, rfl, rfl⟩ := index_inj _ _ _ _ _ _ _ _ _ h h'
    rw [hv] at hv'; simpa using hv'
  set l : List (Option Int × Option ℝ) := (List.range (min mpol s.mpol + 1)).flatMap fun (m : Nat) => (intRange (-(min ntor s.ntor : Nat)) ((min ntor s.ntor : Nat) + 1)).flatMap fun (n : Int) =>
      if m = 0 ∧ n < 0 then [] else
        (if m > 0 ∨ n > 0 then [(indexDofs mpol ntor m n false, getVns s m n)] else []) ++
        (if !s.stellsym then [(indexDofs mpol ntor m n true, getVnc s m n)] else []) with hl
  have hmem : ∀ p, p ∈ l ↔ ∃ e m n, (e = true → s.stellsym = false) ∧ Valid mpol ntor e m n ∧ Valid s.mpol s.ntor e m n ∧
      p = (indexDofs mpol ntor m n e, if e then getVnc s m n else getVns s m n) := by
    intro p
    rw [hl]
    simp only [List.mem_flatMap, List.mem_range, Garab.mem_intRange]
    constructor
    · rintro ⟨mm, hmm, nn, ⟨hn1, hn2⟩, hp⟩
      by_cases c1 : mm = 0 ∧ nn < 0
      · rw [if_pos c1] at hp; simp at hp
      rw [if_neg c1, List.mem_append] at hp
      rcases hp with hp | hp
      · by_cases c4 : mm > 0 ∨ nn > 0
        · rw [if_pos c4] at hp
          exact ⟨false, mm, nn, by simp, ⟨by omega, by omega, by omega, by omega, by omega, by omega⟩, ⟨by omega, by omega, by omega, by omega, by omega, by omega⟩, by simpa using hp⟩
        · rw [if_neg c4] at hp; simp at hp
      · by_cases c4 : s.stellsym = true
        · simp [c4] at hp
        · rw [if_pos (by simpa using c4)] at hp
          exact ⟨true, mm, nn, by simpa using c4, ⟨by omega, by omega, by omega, by omega, by omega, by simp⟩, ⟨by omega, by omega, by omega, by omega, by omega, by simp⟩, by simpa using hp⟩
    · rintro ⟨e, m, n, he, ⟨h1, h2, h3, h4, h5, h6⟩, ⟨g1, g2, g3, g4, g5, g6⟩, rfl⟩
      obtain ⟨mm, rfl⟩ := Int.eq_ofNat_of_zero_le h1
      refine ⟨mm, by omega, n, ⟨by omega, by omega⟩, ?_⟩
      rw [if_neg (by omega), List.mem_append]
      cases e with
      | false => left; rw [if_pos (by have := h6 rfl; omega)]; simp
      | true => right; rw [if_pos (by simp [he rfl])]; simp
  obtain ⟨d, e1, e2, e3, e4⟩ := writes_rel P hPf l (List.replicate (ndof s.stellsym mpol ntor) 0) (by
    intro p hp
    obtain ⟨e, m, n, he, hva, hvo, rfl⟩ := (hmem p).mp hp
    obtain ⟨i, hi⟩ := ((C147_index mpol ntor s.stellsym).1 e m n).mpr hva
    have hb := (C147_index mpol ntor s.stellsym).2.1 e m n i he hi
    obtain ⟨k, rfl⟩ := Int.eq_ofNat_of_zero_le hb.1
    obtain ⟨v, hv⟩ := hget e m n he hvo
    exact ⟨k, v, by simp; omega, by rw [hi, hv], e, m, n, he, hi, hv⟩)
  let s' : NF := { s with mpol := mpol, ntor := ntor, x := d }
  have hcr : changeResolution s mpol ntor = some s' := by
    show (do let dofs ← writes (List.replicate (ndof s.stellsym mpol ntor) 0) l; return { s with mpol := mpol, ntor := ntor, x := dofs }) = some s'
    rw [e1]; rfl
  have hmain : ∀ e m n, (e = true → s.stellsym = false) → Valid mpol ntor e m n →
      (Valid s.mpol s.ntor e m n → (if e then getVnc s' m n else getVns s' m n) = (if e then getVnc s m n else getVns s m n)) ∧
      (¬ Valid s.mpol s.ntor e m n → (if e then getVnc s' m n else getVns s' m n) = some 0) := by
    intro e m n he hva
    obtain ⟨i, hi⟩ := ((C147_index mpol ntor s.stellsym).1 e m n).mpr hva
    have hb := (C147_index mpol ntor s.stellsym).2.1 e m n i he hi
    obtain ⟨k, rfl⟩ := Int.eq_ofNat_of_zero_le hb.1
    have hnew : ∀ v, d[k]? = some v → (if e then getVnc s' m n else getVns s' m n) = some v := by
      intro v hv
      cases e with
      | false => simpa using getVns_of s' m n k v hi hv
      | true => simpa using getVnc_of s' m n k v (he rfl) hi hv
    constructor
    · intro hvo
      obtain ⟨v, hv⟩ := hget e m n he hvo
      rw [hv]
      exact hnew v (e3 k v ⟨e, m, n, he, hi, hv⟩ ⟨_, (hmem _).mpr ⟨e, m, n, he, hva, hvo, rfl⟩, hi⟩)
    · intro hvo
      refine hnew 0 ?_
      rw [e4 k (fun p hp hpk => by
        obtain ⟨e', m', n', _, _, hvo', rfl⟩ := (hmem p).mp hp
        obtain ⟨rfl, rfl, rfl⟩ := index_inj _ _ _ _ _ _ _ _ _ hi hpk
        exact hvo hvo')]
      rw [List.getElem?_replicate, if_pos (by omega)]
  refine ⟨s', hcr, rfl, rfl, rfl, rfl, by simpa using e2, ?_, ?_⟩
  · intro m n hva; simpa using hmain false m n (by simp) hva
  · intro m n hva
    cases hst : s.stellsym with
    | true => exact ⟨fun hvo => by rw [getVnc_stellsym s m n hst hvo, getVnc_stellsym s' m n hst hva], fun _ => getVnc_stellsym s' m n hst hva⟩
    | false => simpa using hmain true m n (fun _ => hst) hva

end Simsopt.NField
