import Verif.Surfaces.RZJac
/-!
# C65, C68, C69: histories, symmetries, change of resolution of SurfaceRZFourier
-/
namespace Simsopt.RZSurf
open Simsopt Simsopt.Coils

/-! ### More of the model -/

/-- The constructor raises an `IndexError` at `self.rc[1, ntor] = 0.1` if `mpol = 0` (surfacerzfourier.py L76). -/
noncomputable def construct (mpol ntor nfp : Nat) (stellsym : Bool) : Option Surf := if 1 ≤ mpol then some (create mpol ntor nfp stellsym) else none

/-- `allocate` (surfacerzfourier.h L46-51) with new values of `mpol` and `ntor`. -/
def blank (mpol ntor nfp : Nat) (stellsym : Bool) : Surf := ⟨mpol, ntor, nfp, stellsym, fun _ => 0, fun _ => 0, fun _ => 0, fun _ => 0⟩

/-- The body of the loops of `change_resolution` (surfacerzfourier.py L605-610). -/
def copyMode (old : Surf) (s : Surf) (mn : Nat × Int) : Surf :=
  let v := fun k => old.at k mn.1 (mn.2 + old.ntor).toNat
  let s := poke (poke s .rc mn.1 mn.2 (v .rc)) .zs mn.1 mn.2 (v .zs)
  if s.stellsym then s else poke (poke s .rs mn.1 mn.2 (v .rs)) .zc mn.1 mn.2 (v .zc)

/-- `change_resolution` (surfacerzfourier.py L583-615), the coefficient arrays.  (The new `DOFs` object has the values `get_dofs()` and the names
`_make_names()`.) -/
def changeRes (s : Surf) (mpol ntor : Nat) : Surf :=
  ((List.range (min mpol s.mpol + 1)).flatMap fun m => (intRange (-(min ntor s.ntor : Nat)) ((min ntor s.ntor : Nat) + 1)).map fun n => (m, n)).foldl
    (copyMode s) (blank mpol ntor s.nfp s.stellsym)

/-- `copy` (surfacerzfourier.py L513-577) with the arguments `mpol`, `ntor`, `nfp`, `stellsym`; quadrature points are not modelled here. -/
noncomputable def copy (s : Surf) (mpol ntor nfp : Nat) (stellsym : Bool) : Option Surf :=
  (construct s.mpol s.ntor nfp stellsym).map fun c =>
    let c := { c with rc := s.rc, zs := s.zs }
    let c := if s.stellsym then c else { c with rs := s.rs, zc := s.zc }
    changeRes c mpol ntor

/-! ### Which surfaces are reached through the API -/

/-- The surfaces reached by the constructor, `set_dofs`/`local_full_x = ...`/`x = ...`, the setters `set_rc(m, n, v)`, ... for the modes that have a dof, and
`change_resolution`. -/
inductive Reach : Surf → Prop
  | construct {mpol ntor nfp stellsym s} : construct mpol ntor nfp stellsym = some s → Reach s
  | setDofs {s} (d : List ℝ) : Reach s → Reach (setDofs s d)
  | setCoef {s t} (k : Kind) (m : Nat) (n : Int) (v : ℝ) : Reach s → (k, m, n) ∈ makeNames s → setCoef s k m n v = some t → Reach t
  | changeRes {s} (mpol ntor : Nat) : Reach s → Reach (changeRes s mpol ntor)

theorem clean_setDofs (s : Surf) (d : List ℝ) (h : Clean s) : Clean (setDofs s d) := by
  intro k j hj
  rw [(setDofs_params s d).2.1] at hj
  rw [setDofs_other, h k j hj]
  rw [mem_layout]
  rintro ⟨_, hlo, _⟩
  cases k <;> simp [Surf.lo] at hlo <;> omega

theorem clean_poke (s : Surf) (k : Kind) (m : Nat) (n : Int) (v : ℝ) (h : Clean s) (hmn : ¬ (m = 0 ∧ n < 0)) (hn : -(s.ntor : Int) ≤ n) : Clean (poke s k m n v) := by
  intro k' j hj
  rw [(poke_params s k m n v).2.1] at hj
  rw [poke_buf, if_neg, h k' j hj]
  rintro ⟨rfl, rfl⟩
  rcases Nat.eq_zero_or_pos m with rfl | hm
  · simp at hj hmn; omega
  · have : s.width ≤ m * s.width := Nat.le_mul_of_pos_left _ hm
    simp only [Surf.width] at this hj; omega

theorem clean_create (mpol ntor nfp : Nat) (st : Bool) : Clean (create mpol ntor nfp st) := by
  unfold create
  refine clean_poke _ _ _ _ _ (clean_poke _ _ _ _ _ (clean_poke _ _ _ _ _ ?_ (by simp) (by simp)) (by simp) (by simp [poke])) (by simp) (by simp [poke])
  intro k j _
  cases k <;> rfl

/-! Entries after `change_resolution`. -/

theorem copyMode_params (old s : Surf) (mn : Nat × Int) :
    (copyMode old s mn).mpol = s.mpol ∧ (copyMode old s mn).ntor = s.ntor ∧ (copyMode old s mn).nfp = s.nfp ∧ (copyMode old s mn).stellsym = s.stellsym := by
  unfold copyMode
  cases h : s.stellsym <;> simp [poke, h]

theorem copyMode_at (old s : Surf) (mn : Nat × Int) (k : Kind) (m i : Nat) (hi : i < s.width) (hn : (mn.2 + s.ntor).toNat < s.width) :
    (copyMode old s mn).at k m i = if available s k = true ∧ m = mn.1 ∧ i = (mn.2 + s.ntor).toNat then old.at k mn.1 (mn.2 + old.ntor).toNat else s.at k m i := by
  have hix : ∀ a b : Nat, a < s.width → (m * s.width + i = b * s.width + a ↔ m = b ∧ i = a) := by
    intro a b ha
    have e := (at_of_pos s b a _ ha).mp rfl
    rw [at_of_pos s m i _ hi, ← e.1, ← e.2]
  have hw : ∀ (t : Surf) (k : Kind) (m : Nat) (n : Int) (v : ℝ), (poke t k m n v).width = t.width := fun t k m n v => by
    simp [Surf.width, (poke_params t k m n v).2.1]
  have hat : ∀ (t : Surf) (k0 : Kind) (v : ℝ), t.width = s.width → t.ntor = s.ntor →
      ((poke t k0 mn.1 mn.2 v).at k m i = if k = k0 ∧ m = mn.1 ∧ i = (mn.2 + s.ntor).toNat then v else t.at k m i) := by
    intro t k0 v h1 h2
    simp only [Surf.at, hw, poke_buf, h1, h2]
    simp only [hix _ _ hn]
  unfold copyMode
  cases hs : s.stellsym
  · have e4 : (poke (poke s .rc mn.1 mn.2 (old.at .rc mn.1 (mn.2 + old.ntor).toNat)) .zs mn.1 mn.2 (old.at .zs mn.1 (mn.2 + old.ntor).toNat)).stellsym = false := by simp [poke, hs]
    simp only [e4, Bool.false_eq_true, if_false]
    rw [hat _ .zc _ (by simp [hw]) (by simp [poke]), hat _ .rs _ (by simp [hw]) (by simp [poke]), hat _ .zs _ (by simp [hw]) (by simp [poke]), hat _ .rc _ rfl rfl]
    cases k <;> simp [available, hs]
  · have e4 : (poke (poke s .rc mn.1 mn.2 (old.at .rc mn.1 (mn.2 + old.ntor).toNat)) .zs mn.1 mn.2 (old.at .zs mn.1 (mn.2 + old.ntor).toNat)).stellsym = true := by simp [poke, hs]
    simp only [e4, if_true]
    rw [hat _ .zs _ (by simp [hw]) (by simp [poke]), hat _ .rc _ rfl rfl]
    cases k <;> simp [available, hs]

theorem copyFold (old : Surf) (l : List (Nat × Int)) (s : Surf) (hl : ∀ mn ∈ l, -(s.ntor : Int) ≤ mn.2 ∧ mn.2 ≤ s.ntor) :
    let t := l.foldl (copyMode old) s
    (t.mpol = s.mpol ∧ t.ntor = s.ntor ∧ t.nfp = s.nfp ∧ t.stellsym = s.stellsym) ∧
    ∀ k m i, i < s.width → t.at k m i = if available s k = true ∧ (m, (i : Int) - s.ntor) ∈ l then old.at k m ((i : Int) - s.ntor + old.ntor).toNat else s.at k m i := by
  induction l generalizing s with
  | nil => simp
  | cons mn l ih =>
    obtain ⟨h1, h2, h3, h4⟩ := copyMode_params old s mn
    have hw : (copyMode old s mn).width = s.width := by simp [Surf.width, h2]
    have hav : ∀ k, available (copyMode old s mn) k = available s k := fun k => by cases k <;> simp [available, h4]
    obtain ⟨⟨g1, g2, g3, g4⟩, hat⟩ := ih (copyMode old s mn) (by rw [h2]; exact fun x hx => hl x (List.mem_cons_of_mem _ hx))
    have hr := hl mn List.mem_cons_self
    refine ⟨⟨g1.trans h1, g2.trans h2, g3.trans h3, g4.trans h4⟩, ?_⟩
    intro k m i hi
    rw [List.foldl_cons, hat k m i (by rw [hw]; exact hi), hav, h2, copyMode_at old s mn k m i hi (by simp [Surf.width]; omega)]
    by_cases ha : available s k = true
    · simp only [ha, true_and, List.mem_cons]
      by_cases hm : (m, (i : Int) - s.ntor) ∈ l
      · simp [hm]
      · by_cases he : (m, (i : Int) - s.ntor) = mn
        · subst he
          simp [hm]
        · have : ¬ (m = mn.1 ∧ i = (mn.2 + s.ntor).toNat) := by
            rintro ⟨rfl, rfl⟩
            apply he
            refine Prod.ext rfl ?_
            simp only; omega
          simp [hm, he, this]
    · simp [ha]

theorem changeRes_params (s : Surf) (mpol ntor : Nat) :
    (changeRes s mpol ntor).mpol = mpol ∧ (changeRes s mpol ntor).ntor = ntor ∧ (changeRes s mpol ntor).nfp = s.nfp ∧ (changeRes s mpol ntor).stellsym = s.stellsym := by
  have hl : ∀ mn ∈ ((List.range (min mpol s.mpol + 1)).flatMap fun m => (intRange (-(min ntor s.ntor : Nat)) ((min ntor s.ntor : Nat) + 1)).map fun n => (m, n)),
      -((blank mpol ntor s.nfp s.stellsym).ntor : Int) ≤ mn.2 ∧ mn.2 ≤ (blank mpol ntor s.nfp s.stellsym).ntor := by
    intro mn h
    simp [intRange, blank] at h ⊢
    obtain ⟨a, _, j, hj, rfl⟩ := h
    simp only; omega
  exact (copyFold s _ _ hl).1

theorem changeRes_at (s : Surf) (mpol ntor : Nat) (k : Kind) (m i : Nat) (hi : i < 2 * ntor + 1) :
    (changeRes s mpol ntor).at k m i =
      if available s k = true ∧ m ≤ mpol ∧ m ≤ s.mpol ∧ -(s.ntor : Int) ≤ (i : Int) - ntor ∧ (i : Int) - ntor ≤ s.ntor
      then s.at k m ((i : Int) - ntor + s.ntor).toNat else 0 := by
  have hl : ∀ mn ∈ ((List.range (min mpol s.mpol + 1)).flatMap fun m => (intRange (-(min ntor s.ntor : Nat)) ((min ntor s.ntor : Nat) + 1)).map fun n => (m, n)),
      -((blank mpol ntor s.nfp s.stellsym).ntor : Int) ≤ mn.2 ∧ mn.2 ≤ (blank mpol ntor s.nfp s.stellsym).ntor := by
    intro mn h
    simp [intRange, blank] at h ⊢
    obtain ⟨a, _, j, hj, rfl⟩ := h
    simp only; omega
  have h := (copyFold s _ _ hl).2 k m i hi
  have hb : (blank mpol ntor s.nfp s.stellsym).at k m i = 0 := by cases k <;> rfl
  have hav : available (blank mpol ntor s.nfp s.stellsym) k = available s k := by cases k <;> rfl
  rw [changeRes, h, hb, hav]
  have hmem : ((m, (i : Int) - ((blank mpol ntor s.nfp s.stellsym).ntor : Int)) ∈
      ((List.range (min mpol s.mpol + 1)).flatMap fun m => (intRange (-(min ntor s.ntor : Nat)) ((min ntor s.ntor : Nat) + 1)).map fun n => (m, n))) ↔
      (m ≤ mpol ∧ m ≤ s.mpol ∧ -(s.ntor : Int) ≤ (i : Int) - ntor ∧ (i : Int) - ntor ≤ s.ntor) := by
    simp only [blank, List.mem_flatMap, List.mem_range, List.mem_map, intRange, Prod.mk.injEq]
    constructor
    · rintro ⟨a, ha, b, ⟨c, hc, rfl⟩, rfl, he⟩
      omega
    · intro hh
      refine ⟨m, by omega, (i : Int) - ntor, ⟨((i : Int) - ntor + (min ntor s.ntor : Nat)).toNat, by omega, by omega⟩, rfl, rfl⟩
  simp only [hmem]
  rfl

theorem clean_changeRes (s : Surf) (mpol ntor : Nat) (h : Clean s) : Clean (changeRes s mpol ntor) := by
  intro k j hj
  obtain ⟨g1, g2, g3, g4⟩ := changeRes_params s mpol ntor
  rw [g2] at hj
  have e : (changeRes s mpol ntor).buf k j = (changeRes s mpol ntor).at k 0 j := by simp [Surf.at]
  rw [e, changeRes_at s mpol ntor k 0 j (by omega)]
  split
  · rename_i hh
    rw [Surf.at, Nat.zero_mul, Nat.zero_add]
    exact h k _ (by omega)
  · rfl

theorem reach_clean {s : Surf} (h : Reach s) : Clean s := by
  induction h with
  | construct hc =>
    simp only [construct] at hc
    split at hc
    · simp only [Option.some.injEq] at hc; subst hc; exact clean_create _ _ _ _
    · exact absurd hc (by simp)
  | setDofs d _ ih => exact clean_setDofs _ d ih
  | @setCoef s t k m n v _ hm hs ih =>
    rw [setCoef_eq] at hs
    split at hs
    · simp only [Option.some.injEq] at hs; subst hs
      have hh := (C65_which_modes s k m n).mp hm
      rw [Int.toNat_natCast]
      exact clean_poke s k m n v ih hh.2.2.2.2.1 hh.2.2.1
    · exact absurd hs (by simp)
  | changeRes mpol ntor _ ih => exact clean_changeRes _ _ _ ih

/-! ### Arrays in terms of the coefficients -/

/-- Row of the Jacobian in terms of the mode number `n`. -/
noncomputable def rowN (nfp : Nat) (f : Fam) (k : Kind) (phi theta : ℝ) (m : Nat) (n : Int) : V3 :=
  dRow (blank 0 n.natAbs nfp false) f k phi theta (m, (n + n.natAbs).toNat)

theorem rowN_eq (s : Surf) (f : Fam) (k : Kind) (phi theta : ℝ) (m i : Nat) : dRow s f k phi theta (m, i) = rowN s.nfp f k phi theta m ((i : Int) - s.ntor) := by
  have hc : ((((i : Int) - s.ntor + ((i : Int) - s.ntor).natAbs).toNat : Nat) : ℝ) - (((i : Int) - s.ntor).natAbs : ℝ) = (i : ℝ) - s.ntor := by
    have : ((((i : Int) - s.ntor + ((i : Int) - s.ntor).natAbs).toNat : Nat) : Int) - ((((i : Int) - s.ntor).natAbs : Nat) : Int) = (i : Int) - s.ntor := by omega
    exact_mod_cast this
  have hn : nn (blank 0 ((i : Int) - s.ntor).natAbs s.nfp false) ((i : Int) - s.ntor + ((i : Int) - s.ntor).natAbs).toNat = nn s i := by
    simp only [nn, blank]; rw [hc]
  have ha : angle (blank 0 ((i : Int) - s.ntor).natAbs s.nfp false) phi theta m ((i : Int) - s.ntor + ((i : Int) - s.ntor).natAbs).toNat = angle s phi theta m i := by
    simp only [angle, blank]; rw [hc]
  simp only [rowN, dRow, hn, ha]

/-- The sum of the four terms of a mode. -/
noncomputable def modeN (s : Surf) (f : Fam) (phi theta : ℝ) (m : Nat) (n : Int) : V3 :=
  coef s .rc m n • rowN s.nfp f .rc phi theta m n + coef s .rs m n • rowN s.nfp f .rs phi theta m n +
    coef s .zc m n • rowN s.nfp f .zc phi theta m n + coef s .zs m n • rowN s.nfp f .zs phi theta m n

theorem value_modes (s : Surf) (junk : Nat → ℝ × ℝ) (f : Fam) (p q : ℝ) :
    value s junk f p q = ∑ m ∈ Finset.range (s.mpol + 1), ∑ n ∈ Finset.Icc (-(s.ntor : Int)) s.ntor, modeN s f (2 * Real.pi * p) (2 * Real.pi * q) m n := by
  rw [value_lin, lin]
  apply Finset.sum_congr rfl; intro m hm
  rw [sum_icc]
  apply Finset.sum_congr rfl; intro i hi
  have hm := Finset.mem_range.mp hm
  have hi := Finset.mem_range.mp hi
  simp only [modeTerm, modeN, coef_at s _ m i hm hi, rowN_eq]
  cases hs : s.stellsym <;> simp [available, hs] ; module

theorem coef_out (s : Surf) (k : Kind) (m : Nat) (n : Int) (h : ¬ (m ≤ s.mpol ∧ -(s.ntor : Int) ≤ n ∧ n ≤ s.ntor)) : coef s k m n = 0 := by
  have : validMn s m n = false := by
    by_contra hv
    apply h
    simp [validMn] at hv
    omega
  simp [coef, getCoef, this]

/-- Sum over any larger range of modes. -/
theorem value_modes_ge (s : Surf) (junk : Nat → ℝ × ℝ) (f : Fam) (p q : ℝ) (M N : Nat) (hM : s.mpol ≤ M) (hN : s.ntor ≤ N) :
    value s junk f p q = ∑ m ∈ Finset.range (M + 1), ∑ n ∈ Finset.Icc (-(N : Int)) N, modeN s f (2 * Real.pi * p) (2 * Real.pi * q) m n := by
  rw [value_modes]
  have z : ∀ m n, ¬ (m ≤ s.mpol ∧ -(s.ntor : Int) ≤ n ∧ n ≤ s.ntor) → modeN s f (2 * Real.pi * p) (2 * Real.pi * q) m n = 0 := by
    intro m n h
    simp [modeN, coef_out s _ m n h]
  have e1 : ∀ m, ∑ n ∈ Finset.Icc (-(s.ntor : Int)) s.ntor, modeN s f (2 * Real.pi * p) (2 * Real.pi * q) m n = ∑ n ∈ Finset.Icc (-(N : Int)) N, modeN s f (2 * Real.pi * p) (2 * Real.pi * q) m n := by
    intro m
    apply Finset.sum_subset
    · intro n hn; simp at hn ⊢; omega
    · intro n _ hn; apply z; simp at hn; omega
  simp only [e1]
  apply Finset.sum_subset
  · intro m hm; simp at hm ⊢; omega
  · intro m _ hm
    apply Finset.sum_eq_zero
    intro n _
    apply z
    simp at hm
    omega

/-- Surfaces with the same `nfp` and the same coefficients have the same shape. -/
theorem value_of_coef (s t : Surf) (h3 : s.nfp = t.nfp) (h : ∀ k m n, coef s k m n = coef t k m n) (junk junk' : Nat → ℝ × ℝ) (f : Fam) (p q : ℝ) :
    value s junk f p q = value t junk' f p q := by
  rw [value_modes_ge s junk f p q (max s.mpol t.mpol) (max s.ntor t.ntor) (le_max_left _ _) (le_max_left _ _),
    value_modes_ge t junk' f p q (max s.mpol t.mpol) (max s.ntor t.ntor) (le_max_right _ _) (le_max_right _ _)]
  simp only [modeN, h, h3]

/-! ### C65: the shape is a function of the dofs -/

/-- **C65.** Two surfaces reached through the API with the same resolution, `nfp`, `stellsym` and dof vector have the same position, first and second derivatives
at every quadrature point, whatever their histories. -/
theorem C65_shape_determined (s t : Surf) (hs : Reach s) (ht : Reach t) (h1 : s.mpol = t.mpol) (h2 : s.ntor = t.ntor) (h3 : s.nfp = t.nfp)
    (h4 : s.stellsym = t.stellsym) (hd : getDofs s = getDofs t) (junk junk' : Nat → ℝ × ℝ) (f : Fam) (p q : ℝ) :
    value s junk f p q = value t junk' f p q := by
  rw [value_lin, value_lin, dRow_congr s t h2 h3, lin, lin, h1]
  have hw : s.width = t.width := by simp [Surf.width, h2]
  rw [hw]
  apply Finset.sum_congr rfl; intro m hm
  apply Finset.sum_congr rfl; intro i hi
  have hm := Finset.mem_range.mp hm
  have hi := Finset.mem_range.mp hi
  have hl := layout_congr s t h1 h2 h4
  -- entries that matter agree
  have hent : ∀ k, available t k = true → ∀ (B : V3), (m * t.width + i = t.ntor → k = .rs ∨ k = .zs → B = 0) → s.at k m i • B = t.at k m i • B := by
    intro k hk B hB
    by_cases hmem : (k, m * t.width + i) ∈ layout t
    · obtain ⟨x, hx, he⟩ := List.getElem_of_mem hmem
      have hlx : (layout t)[x]? = some (k, m * t.width + i) := by rw [List.getElem?_eq_getElem hx, he]
      have e := congrArg (fun l => l[x]?) hd
      simp only [getDofs_layout, hl, List.getElem?_map, hlx, Option.map_some, Option.some.injEq] at e
      simp only [Surf.at, hw, e]
    · rw [mem_layout_skip t k m i hm hi] at hmem
      have hsk : skip t (decide (k = .rc ∨ k = .zc)) m i = true := by
        cases h : skip t (decide (k = .rc ∨ k = .zc)) m i with
        | true => rfl
        | false => exact absurd ⟨hk, h⟩ hmem
      simp only [skip, Bool.and_eq_true, decide_eq_true_eq] at hsk
      obtain ⟨rfl, hsk⟩ := hsk
      by_cases hlt : i < t.ntor
      · have a1 := reach_clean hs k i (by rw [h2]; exact hlt)
        have a2 := reach_clean ht k i hlt
        simp only [Surf.at, Nat.zero_mul, Nat.zero_add, a1, a2]
      · have hBz : B = 0 := by
          cases k
          · simp at hsk; omega
          · exact hB (by simp at hsk; omega) (Or.inl rfl)
          · simp at hsk; omega
          · exact hB (by simp at hsk; omega) (Or.inr rfl)
        rw [hBz, smul_zero, smul_zero]
  have hzero' : ∀ k, (k = Kind.rs ∨ k = Kind.zs) → m * t.width + i = t.ntor → dRow t f k (2 * Real.pi * p) (2 * Real.pi * q) (m, i) = 0 := by
    intro k hk he
    have hm0 : m = 0 := by
      by_contra hne
      have : t.width ≤ m * t.width := Nat.le_mul_of_pos_left _ (Nat.pos_of_ne_zero hne)
      simp only [Surf.width] at this he; omega
    subst hm0
    have hi0 : i = t.ntor := by simpa using he
    subst hi0
    rcases hk with rfl | rfl <;> cases f <;> simp [dRow, angle, nn]
  have hrc := hent .rc rfl (dRow t f .rc (2 * Real.pi * p) (2 * Real.pi * q) (m, i)) (fun _ h => by simp at h)
  have hzs := hent .zs rfl (dRow t f .zs (2 * Real.pi * p) (2 * Real.pi * q) (m, i)) (fun he _ => hzero' .zs (Or.inr rfl) he)
  simp only [modeTerm, h4, hrc, hzs]
  cases hst : t.stellsym with
  | true => rfl
  | false =>
    have hrs := hent .rs (by simp [available, hst]) (dRow t f .rs (2 * Real.pi * p) (2 * Real.pi * q) (m, i)) (fun he _ => hzero' .rs (Or.inl rfl) he)
    have hzc := hent .zc (by simp [available, hst]) (dRow t f .zc (2 * Real.pi * p) (2 * Real.pi * q) (m, i)) (fun _ h => by simp at h)
    simp only [hrs, hzc]

end Simsopt.RZSurf
