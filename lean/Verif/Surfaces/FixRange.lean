import Verif.Surfaces.RZDofs
/-!
# Fixing a range of modes of a surface (C196)

Model of `SurfaceRZFourier.fixed_range` (src/simsopt/geo/surfacerzfourier.py L712-736) with `Optimizable.fix` and `unfix` of one local dof (src/simsopt/_core/optimizable.py L180-204, L1421-1443): names are the triples of C65, the flags are kept by
name, and an unknown name raises `ValueError`.
-/
namespace Simsopt.FixRange
open Simsopt Simsopt.RZSurf

/-- A name as the loops write it; mode numbers may be negative. -/
abbrev Key := Kind × Int × Int

/-- `self._names.index(key)` (optimizable.py L188) finds the key. -/
def knows (s : Surf) (k : Key) : Prop := 0 ≤ k.2.1 ∧ (k.1, k.2.1.toNat, k.2.2) ∈ makeNames s

instance (s : Surf) (k : Key) : Decidable (knows s k) := inferInstanceAs (Decidable (_ ∧ _))

/-- The `free` flags by name, and the exception, if any. -/
structure FixSt where
  free : Key → Bool
  err : Option Err

/-- `fn(name)` with `fn` one of `fix`, `unfix` (optimizable.py L180-204); nothing happens any more after an exception. -/
def touch (s : Surf) (fixed : Bool) (st : FixSt) (k : Key) : FixSt :=
  match st.err with
  | some _ => st
  | none => if knows s k then { st with free := fun k' => if k' = k then !fixed else st.free k' } else { st with err := some .valueError }

/-- The calls for one mode (L730-736). -/
def modeCalls (stellsym : Bool) (m n : Int) : List Key :=
  [(.rc, m, n)] ++ (if m > 0 ∨ n ≠ 0 then [(.zs, m, n)] else []) ++
    if stellsym then [] else [(.zc, m, n)] ++ if m > 0 ∨ n ≠ 0 then [(.rs, m, n)] else []

/-- All calls of the double loop (L725-736). -/
def rangeCalls (stellsym : Bool) (mmin mmax nmin nmax : Int) : List Key :=
  (intRange mmin (mmax + 1)).flatMap fun m => (intRange (if m = 0 ∧ nmin < 0 then 0 else nmin) (nmax + 1)).flatMap fun n => modeCalls stellsym m n

/-- `fixed_range(mmin, mmax, nmin, nmax, fixed)` (L712-736). -/
def fixedRange (s : Surf) (mmin mmax nmin nmax : Int) (fixed : Bool) (free : Key → Bool) : FixSt :=
  (rangeCalls s.stellsym mmin mmax nmin nmax).foldl (touch s fixed) ⟨free, none⟩

/-! ### Specification -/

/-- The modes named in the call, both ends included; `(0, n)` with `n < 0` is not a mode. -/
def InBox (mmin mmax nmin nmax m n : Int) : Prop := mmin ≤ m ∧ m ≤ mmax ∧ nmin ≤ n ∧ n ≤ nmax ∧ ¬ (m = 0 ∧ n < 0)

/-! ### Proofs -/

theorem mem_intRange (lo hi k : Int) : k ∈ intRange lo hi ↔ lo ≤ k ∧ k < hi := by
  simp only [intRange, List.mem_map, List.mem_range]
  constructor
  · rintro ⟨j, hj, rfl⟩; omega
  · intro h; exact ⟨(k - lo).toNat, by omega, by omega⟩

theorem mem_rangeCalls (ss : Bool) (mmin mmax nmin nmax : Int) (k : Kind) (m n : Int) :
    (k, m, n) ∈ rangeCalls ss mmin mmax nmin nmax ↔
      InBox mmin mmax nmin nmax m n ∧ (ss = true → k = .rc ∨ k = .zs) ∧ ((k = .zs ∨ k = .rs) → m > 0 ∨ n ≠ 0) := by
  have hmem : ∀ m' n' : Int, (k, m, n) ∈ modeCalls ss m' n' ↔ m' = m ∧ n' = n ∧ (ss = true → k = .rc ∨ k = .zs) ∧ ((k = .zs ∨ k = .rs) → m > 0 ∨ n ≠ 0) := by
    intro m' n'
    unfold modeCalls
    by_cases hc : m' > 0 ∨ n' ≠ 0
    · rw [if_pos hc, if_pos hc]
      cases ss <;> cases k <;> simp <;> omega
    · rw [if_neg hc, if_neg hc]
      cases ss <;> cases k <;> simp <;> omega
  simp only [rangeCalls, List.mem_flatMap, mem_intRange, hmem, InBox]
  constructor
  · rintro ⟨m', ⟨h1, h2⟩, n', ⟨h3, h4⟩, rfl, rfl, h5, h6⟩
    split at h3
    · exact ⟨⟨h1, by omega, by omega, by omega, by omega⟩, h5, h6⟩
    · exact ⟨⟨h1, by omega, by omega, by omega, by omega⟩, h5, h6⟩
  · rintro ⟨⟨h1, h2, h3, h4, h5⟩, h6, h7⟩
    refine ⟨m, ⟨h1, by omega⟩, n, ⟨?_, by omega⟩, rfl, rfl, h6, h7⟩
    split <;> omega

theorem foldl_touch_err (s : Surf) (fixed : Bool) (l : List Key) (st : FixSt) (e : Err) (h : st.err = some e) : l.foldl (touch s fixed) st = st := by
  induction l with
  | nil => rfl
  | cons a l ih =>
    have : touch s fixed st a = st := by rw [touch, h]
    rw [List.foldl_cons, this, ih]

theorem foldl_touch_ok (s : Surf) (fixed : Bool) (l : List Key) (h : ∀ k ∈ l, knows s k) (free : Key → Bool) :
    (l.foldl (touch s fixed) ⟨free, none⟩).err = none ∧ ∀ k, (l.foldl (touch s fixed) ⟨free, none⟩).free k = if k ∈ l then !fixed else free k := by
  induction l generalizing free with
  | nil => simp
  | cons a l ih =>
    have : touch s fixed ⟨free, none⟩ a = ⟨fun k' => if k' = a then !fixed else free k', none⟩ := by
      simp only [touch]; rw [if_pos (h a (by simp))]
    rw [List.foldl_cons, this]
    obtain ⟨h1, h2⟩ := ih (fun k hk => h k (by simp [hk])) (fun k' => if k' = a then !fixed else free k')
    refine ⟨h1, fun k => ?_⟩
    rw [h2]
    by_cases hk : k ∈ l
    · simp [hk]
    · by_cases ha : k = a
      · simp [ha]
      · simp [hk, ha]

theorem foldl_touch_bad (s : Surf) (fixed : Bool) (l : List Key) (h : ∃ k ∈ l, ¬ knows s k) (free : Key → Bool) : (l.foldl (touch s fixed) ⟨free, none⟩).err = some .valueError := by
  induction l generalizing free with
  | nil => simp at h
  | cons a l ih =>
    rw [List.foldl_cons]
    by_cases ha : knows s a
    · have : touch s fixed ⟨free, none⟩ a = ⟨fun k' => if k' = a then !fixed else free k', none⟩ := by
        simp only [touch]; rw [if_pos ha]
      rw [this]
      apply ih
      obtain ⟨k, hk, hn⟩ := h
      rcases List.mem_cons.mp hk with rfl | hk
      · exact absurd ha hn
      · exact ⟨k, hk, hn⟩
    · have : touch s fixed ⟨free, none⟩ a = ⟨free, some .valueError⟩ := by
        simp only [touch]; rw [if_neg ha]
      rw [this, foldl_touch_err _ _ _ _ .valueError rfl]

theorem foldl_touch_any (s : Surf) (fixed : Bool) (l : List Key) (st : FixSt) (k : Key) :
    (l.foldl (touch s fixed) st).free k = st.free k ∨ (k ∈ l ∧ (l.foldl (touch s fixed) st).free k = !fixed) := by
  induction l generalizing st with
  | nil => exact Or.inl rfl
  | cons a l ih =>
    rw [List.foldl_cons]
    have hstep : (touch s fixed st a).free k = st.free k ∨ (k = a ∧ (touch s fixed st a).free k = !fixed) := by
      unfold touch
      split
      · exact Or.inl rfl
      · split
        · by_cases hk : k = a
          · exact Or.inr ⟨hk, by simp [hk]⟩
          · exact Or.inl (by simp [hk])
        · exact Or.inl rfl
    rcases ih (touch s fixed st a) with h | ⟨h1, h2⟩
    · rcases hstep with h' | ⟨rfl, h'⟩
      · exact Or.inl (h.trans h')
      · exact Or.inr ⟨by simp, h.trans h'⟩
    · exact Or.inr ⟨by simp [h1], h2⟩

theorem knows_iff (s : Surf) (k : Kind) (m n : Int) : knows s (k, m, n) ↔
    (s.stellsym = true → k = .rc ∨ k = .zs) ∧ 0 ≤ m ∧ m ≤ s.mpol ∧ -(s.ntor : Int) ≤ n ∧ n ≤ s.ntor ∧ ¬ (m = 0 ∧ n < 0) ∧ ¬ ((k = .rs ∨ k = .zs) ∧ m = 0 ∧ n = 0) := by
  unfold knows
  rw [C65_which_modes]
  constructor
  · rintro ⟨h0, h1, h2, h3, h4, h5, h6⟩
    dsimp only at h0 h2 h3 h4 h5 h6
    exact ⟨h1, h0, by omega, h3, h4, by omega, fun ⟨a, b, c⟩ => h6 ⟨a, by omega, c⟩⟩
  · rintro ⟨h1, h0, h2, h3, h4, h5, h6⟩
    exact ⟨h0, h1, by simp only; omega, h3, h4, by simp only; omega, fun ⟨a, b, c⟩ => h6 ⟨a, by simp only at b; omega, c⟩⟩

/-- **C196**: when all modes of the range exist, the call succeeds, every dof of the surface with its mode in the range (both ends included) becomes fixed, or free with `fixed=False`, and no other flag changes. -/
theorem C196_range (s : Surf) (mmin mmax nmin nmax : Int) (fixed : Bool) (free : Key → Bool) (h : ∀ m n, InBox mmin mmax nmin nmax m n → 0 ≤ m ∧ m ≤ s.mpol ∧ -(s.ntor : Int) ≤ n ∧ n ≤ s.ntor) :
    (fixedRange s mmin mmax nmin nmax fixed free).err = none ∧
    ∀ (k : Kind) (m : Nat) (n : Int), (k, m, n) ∈ makeNames s →
      (mmin ≤ m ∧ m ≤ mmax ∧ nmin ≤ n ∧ n ≤ nmax → (fixedRange s mmin mmax nmin nmax fixed free).free (k, m, n) = !fixed) ∧
      (¬ (mmin ≤ m ∧ m ≤ mmax ∧ nmin ≤ n ∧ n ≤ nmax) → (fixedRange s mmin mmax nmin nmax fixed free).free (k, m, n) = free (k, m, n)) := by
  have hk : ∀ key ∈ rangeCalls s.stellsym mmin mmax nmin nmax, knows s key := by
    rintro ⟨k, m, n⟩ hm
    rw [mem_rangeCalls] at hm
    obtain ⟨hb, hs, hz⟩ := hm
    obtain ⟨h1, h2, h3, h4⟩ := h m n hb
    rw [knows_iff]
    refine ⟨hs, h1, h2, h3, h4, hb.2.2.2.2, fun ⟨a, b, c⟩ => ?_⟩
    have := hz a.symm
    omega
  obtain ⟨h1, h2⟩ := foldl_touch_ok s fixed _ hk free
  refine ⟨h1, fun k m n hn => ⟨fun hin => ?_, fun hout => ?_⟩⟩
  · have hw := (C65_which_modes s k m n).mp hn
    obtain ⟨w1, w2, w3, w4, w5, w6⟩ := hw
    unfold fixedRange
    rw [h2, if_pos]
    rw [mem_rangeCalls]
    refine ⟨⟨hin.1, hin.2.1, hin.2.2.1, hin.2.2.2, by omega⟩, w1, fun hz => ?_⟩
    by_contra hc
    exact w6 ⟨hz.symm, by omega, by omega⟩
  · unfold fixedRange
    rw [h2, if_neg]
    rw [mem_rangeCalls]
    rintro ⟨hb, -⟩
    exact hout ⟨hb.1, hb.2.1, hb.2.2.1, hb.2.2.2.1⟩

/-- **C196**: a range with a mode that the surface does not have is refused with `ValueError`. -/
theorem C196_refused (s : Surf) (mmin mmax nmin nmax m n : Int) (fixed : Bool) (free : Key → Bool) (hb : InBox mmin mmax nmin nmax m n) (h : ¬ (0 ≤ m ∧ m ≤ s.mpol ∧ -(s.ntor : Int) ≤ n ∧ n ≤ s.ntor)) :
    (fixedRange s mmin mmax nmin nmax fixed free).err = some .valueError := by
  refine foldl_touch_bad s fixed _ ⟨(.rc, m, n), ?_, ?_⟩ free
  · rw [mem_rangeCalls]
    exact ⟨hb, fun _ => Or.inl rfl, fun h => by rcases h with h | h <;> cases h⟩
  · rw [knows_iff]
    rintro ⟨-, h1, h2, h3, h4, -⟩
    exact h ⟨h1, h2, h3, h4⟩

/-- **C196**: refused or not, the flag of a dof outside the range never changes, and a flag that changes gets the requested value. -/
theorem C196_outside (s : Surf) (mmin mmax nmin nmax : Int) (fixed : Bool) (free : Key → Bool) (k : Kind) (m n : Int) :
    (¬ InBox mmin mmax nmin nmax m n → (fixedRange s mmin mmax nmin nmax fixed free).free (k, m, n) = free (k, m, n)) ∧
    ((fixedRange s mmin mmax nmin nmax fixed free).free (k, m, n) = free (k, m, n) ∨ (fixedRange s mmin mmax nmin nmax fixed free).free (k, m, n) = !fixed) := by
  have := foldl_touch_any s fixed (rangeCalls s.stellsym mmin mmax nmin nmax) ⟨free, none⟩ (k, m, n)
  refine ⟨fun hn => ?_, ?_⟩
  · rcases this with h | ⟨h, -⟩
    · exact h
    · rw [mem_rangeCalls] at h; exact absurd h.1 hn
  · rcases this with h | ⟨-, h⟩
    · exact Or.inl h
    · exact Or.inr h

/-- **C196 (exception)**: a refused call is not undone: on a surface with `mpol = 1`, `ntor = 0` the call `fixed_range(0, 2, 0, 0)` raises `ValueError`, but has fixed `rc(0,0)`. -/
theorem C196_atomic_violated (s : Surf) (h1 : s.mpol = 1) (h2 : s.ntor = 0) : let r := fixedRange s 0 2 0 0 true (fun _ => true)
    r.err = some .valueError ∧ r.free (.rc, 0, 0) = false := by
  refine ⟨C196_refused s 0 2 0 0 2 0 true _ ⟨by omega, by omega, by omega, by omega, by omega⟩ (by omega), ?_⟩
  have e : rangeCalls s.stellsym 0 2 0 0 = (.rc, 0, 0) :: (rangeCalls s.stellsym 0 2 0 0).tail := by
    cases s.stellsym <;> decide
  have hk : knows s (.rc, 0, 0) := by
    rw [knows_iff]; exact ⟨fun _ => Or.inl rfl, by omega, by omega, by omega, by omega, by omega, fun ⟨h, _⟩ => by rcases h with h | h <;> cases h⟩
  unfold fixedRange
  rw [e, List.foldl_cons]
  have ht : touch s true ⟨fun _ => true, none⟩ (.rc, 0, 0) = ⟨fun k' => if k' = (.rc, 0, 0) then false else true, none⟩ := by
    simp only [touch]; rw [if_pos hk]; rfl
  rw [ht]
  rcases foldl_touch_any s true (rangeCalls s.stellsym 0 2 0 0).tail ⟨fun k' => if k' = (.rc, 0, 0) then false else true, none⟩ (.rc, 0, 0) with h | ⟨-, h⟩
  · rw [h]; rfl
  · rw [h]; rfl

/-- A range that meets the hypotheses of `C196_range`: the usual call with `max_mode = 1`. -/
theorem C196_usual (s : Surf) (hm : 1 ≤ s.mpol) (hn : 1 ≤ s.ntor) : ∀ m n, InBox 0 1 (-1) 1 m n → 0 ≤ m ∧ m ≤ s.mpol ∧ -(s.ntor : Int) ≤ n ∧ n ≤ s.ntor := by
  rintro m n ⟨h1, h2, h3, h4, -⟩
  omega

end Simsopt.FixRange
