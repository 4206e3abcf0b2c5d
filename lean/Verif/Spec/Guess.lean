import Verif.PyList
import Mathlib.Data.Real.Basic
import Mathlib.Data.List.Nodup
import Mathlib.Tactic.Linarith
import Mathlib.Tactic.Positivity
/-!
# The initial guess of SPEC's interfaces (C192)

Model of `_read_initial_guess` and `_set_spec_initial_guess` (src/simsopt/mhd/spec.py L282-345).  Simplified: the poloidal mode numbers of a file are not negative; `mpol >= 1` (otherwise `SurfaceRZFourier` cannot be made); the arrays of
SPEC are large enough; the guesses are `SurfaceRZFourier` objects, for which `to_RZFourier` returns the object.
-/
namespace Simsopt.Spec
open Simsopt

/-- `allglobal.num_modes`, `mmrzrz`, `nnrzrz`, `allrzrz` (component, volume, mode). -/
structure FSt where
  num : ℕ
  mm : ℕ → ℕ
  nn : ℕ → ℤ
  val : ℕ → ℕ → ℕ → ℝ

/-- A `SurfaceRZFourier`; the components are rc, zs, rs, zc (the order of `allrzrz`). -/
structure GSurf where
  stellsym : Bool
  mpol : ℕ
  ntor : ℕ
  c : ℕ → ℕ → ℤ → ℝ

/-- `get_rc`, `get_zs`, `get_rs`, `get_zc` and the assignment of what they return (surfacerzfourier.py L627-672).  With stellarator symmetry the last two return an exception object, which cannot be assigned to an array. -/
def GSurf.get (s : GSurf) (k m : ℕ) (n : ℤ) : Except Err ℝ :=
  if s.stellsym = true ∧ 2 ≤ k then .error .typeError
  else if s.mpol < m ∨ (s.ntor : ℤ) < n ∨ n < -s.ntor then .error .indexError
  else .ok (s.c k m n)

def FSt.put (F : FSt) (k l i : ℕ) (v : ℝ) : FSt := { F with val := fun k' l' i' => if k' = k ∧ l' = l ∧ i' = i then v else F.val k' l' i' }

/-- The modes of the double loop (L328-331). -/
def modes (mpol ntor : ℕ) : List (ℕ × ℤ) :=
  (List.range (mpol + 1)).flatMap fun m => ((List.range (2 * ntor + 1)).map fun r : ℕ => (m, (r : ℤ) - ntor)).filter fun p => !decide (p.1 = 0 ∧ p.2 < 0)

/-- The body of the innermost loop (L339-345). -/
def putVol (stellsym : Bool) (guess : List GSurf) (i m : ℕ) (n : ℤ) (F : FSt) (l : ℕ) : Except Err FSt :=
  match guess[l]? with
  | none => .error .indexError
  | some s => do
    let a ← s.get 0 m n
    let b ← s.get 1 m n
    let F := (F.put 0 l i a).put 1 l i b
    if stellsym then return F
    let a ← s.get 2 m n
    let b ← s.get 3 m n
    return (F.put 2 l i a).put 3 l i b

/-- The body of the loop over the modes (L333-345). -/
def putMode (stellsym : Bool) (nvol : ℕ) (guess : List GSurf) (F : FSt) (p : ℕ × ℤ) : Except Err FSt :=
  (List.range (nvol - 1)).foldlM (putVol stellsym guess F.num p.1 p.2)
    { F with num := F.num + 1, mm := fun i => if i = F.num then p.1 else F.mm i, nn := fun i => if i = F.num then p.2 else F.nn i }

/-- `_set_spec_initial_guess` (L314-346): the arrays afterwards. -/
def setGuess (stellsym : Bool) (mpol ntor nvol : ℕ) (guess : List GSurf) : Except Err FSt :=
  (modes mpol ntor).foldlM (putMode stellsym nvol guess) ⟨0, fun _ => 0, fun _ => 0, fun _ _ _ => 0⟩

/-- A new `SurfaceRZFourier` (surfacerzfourier.py `__init__`): a torus with radii 1 and 0.1. -/
noncomputable def GSurf.new (stellsym : Bool) (mpol ntor : ℕ) : GSurf :=
  ⟨stellsym, mpol, ntor, fun k m n => if k = 0 ∧ m = 0 ∧ n = 0 then 1 else if k ≤ 1 ∧ m = 1 ∧ n = 0 then 1 / 10 else 0⟩

/-- The body of the loop over the modes when reading (L302-311). -/
def readMode (F : FSt) (l : ℕ) (s : GSurf) (i : ℕ) : GSurf :=
  if s.mpol < F.mm i ∨ (s.ntor : ℤ) < |F.nn i| then s
  else { s with c := fun k m n => if m = F.mm i ∧ n = F.nn i ∧ (k < 2 ∨ s.stellsym = false ∧ k < 4) then F.val k l i else s.c k m n }

/-- `_read_initial_guess` (L282-312). -/
noncomputable def readGuess (stellsym freebound : Bool) (mpol ntor nvol : ℕ) (F : FSt) : List GSurf :=
  (List.range (if freebound then nvol else nvol - 1)).map fun l => (List.range F.num).foldl (readMode F l) (GSurf.new stellsym mpol ntor)

/-! ### Specification -/

/-- The components in use. -/
def Used (stellsym : Bool) (k : ℕ) : Prop := k < 2 ∨ stellsym = false ∧ k < 4

/-- The modes of a resolution, each once. -/
def InRes (mpol ntor m : ℕ) (n : ℤ) : Prop := m ≤ mpol ∧ |n| ≤ ntor ∧ (m = 0 → 0 ≤ n)

/-- Mode `(m, n)` is entry `i`, and no other. -/
def FSt.At (F : FSt) (m : ℕ) (n : ℤ) (i : ℕ) : Prop := i < F.num ∧ F.mm i = m ∧ F.nn i = n

/-- No mode is listed twice. -/
def FSt.Distinct (F : FSt) : Prop := ∀ m n i j, F.At m n i → F.At m n j → i = j

/-! ### The list of modes -/

theorem mem_modes {mpol ntor m : ℕ} {n : ℤ} : (m, n) ∈ modes mpol ntor ↔ InRes mpol ntor m n := by
  simp only [modes, List.mem_flatMap, List.mem_range, List.mem_filter, List.mem_map, Prod.mk.injEq, Bool.not_eq_true', decide_eq_false_iff_not, InRes, abs_le]
  constructor
  · rintro ⟨m', hm, ⟨r, hr, rfl, rfl⟩, h⟩
    exact ⟨by omega, ⟨by omega, by omega⟩, by omega⟩
  · rintro ⟨h1, ⟨h2, h3⟩, h4⟩
    exact ⟨m, by omega, ⟨(n + ntor).toNat, by omega, rfl, by omega⟩, by omega⟩

theorem nodup_modes (mpol ntor : ℕ) : (modes mpol ntor).Nodup := by
  rw [modes, List.nodup_flatMap]
  constructor
  · intro m _
    refine List.Nodup.filter _ (List.Nodup.map (fun a b h => ?_) List.nodup_range)
    have := (Prod.mk.inj h).2
    omega
  · refine List.Pairwise.imp ?_ List.nodup_range
    intro a b hab p h1 h2
    simp only [List.mem_filter, List.mem_map] at h1 h2
    obtain ⟨⟨r, _, rfl⟩, _⟩ := h1
    obtain ⟨⟨r', _, h⟩, _⟩ := h2
    exact hab (Prod.mk.inj h).1.symm

/-! ### Writing -/

/-- The guess has everything that is asked for. -/
def Fits (stellsym : Bool) (mpol ntor : ℕ) (s : GSurf) : Prop := mpol ≤ s.mpol ∧ ntor ≤ s.ntor ∧ (stellsym = true ∨ s.stellsym = false)

theorem get_ok {stellsym : Bool} {mpol ntor : ℕ} {s : GSurf} (h : Fits stellsym mpol ntor s) {k m : ℕ} {n : ℤ} (hm : InRes mpol ntor m n) (hk : Used stellsym k) : s.get k m n = .ok (s.c k m n) := by
  obtain ⟨h1, h2, h3⟩ := h
  obtain ⟨g1, g2, -⟩ := hm
  rw [abs_le] at g2
  rw [GSurf.get, if_neg, if_neg (by omega)]
  rintro ⟨a, b⟩
  rcases hk with hk | ⟨hk, _⟩
  · omega
  · rcases h3 with h3 | h3
    · rw [hk] at h3; simp at h3
    · rw [h3] at a; simp at a

theorem putVol_ok {stellsym : Bool} {mpol ntor : ℕ} {guess : List GSurf} {i m l : ℕ} {n : ℤ} {s : GSurf} (F : FSt) (hl : guess[l]? = some s) (h : Fits stellsym mpol ntor s) (hm : InRes mpol ntor m n) :
    ∃ F', putVol stellsym guess i m n F l = .ok F' ∧ F'.num = F.num ∧ F'.mm = F.mm ∧ F'.nn = F.nn ∧
      ∀ k l' i', (l' = l ∧ i' = i ∧ Used stellsym k → F'.val k l' i' = s.c k m n) ∧ (¬ (l' = l ∧ i' = i ∧ Used stellsym k) → F'.val k l' i' = F.val k l' i') := by
  unfold putVol
  rw [hl]
  simp only [get_ok h hm (show Used stellsym 0 from Or.inl (by omega)), get_ok h hm (show Used stellsym 1 from Or.inl (by omega))]
  cases hs : stellsym with
  | true =>
    refine ⟨_, rfl, rfl, rfl, rfl, fun k l' i' => ⟨?_, ?_⟩⟩
    · rintro ⟨rfl, rfl, hk | ⟨hk, _⟩⟩
      · simp only [FSt.put]
        obtain rfl | rfl : k = 0 ∨ k = 1 := by omega
        · simp
        · simp
      · simp at hk
    · intro hn
      simp only [FSt.put]
      rw [if_neg, if_neg]
      · rintro ⟨rfl, rfl, rfl⟩; exact hn ⟨rfl, rfl, Or.inl (by omega)⟩
      · rintro ⟨rfl, rfl, rfl⟩; exact hn ⟨rfl, rfl, Or.inl (by omega)⟩
  | false =>
    subst hs
    simp only [get_ok h hm (show Used false 2 from Or.inr ⟨rfl, by omega⟩), get_ok h hm (show Used false 3 from Or.inr ⟨rfl, by omega⟩)]
    refine ⟨_, rfl, rfl, rfl, rfl, fun k l' i' => ⟨?_, ?_⟩⟩
    · rintro ⟨rfl, rfl, hk⟩
      simp only [FSt.put]
      have : k < 4 := by rcases hk with h | ⟨_, h⟩ <;> omega
      obtain rfl | rfl | rfl | rfl : k = 0 ∨ k = 1 ∨ k = 2 ∨ k = 3 := by omega
      all_goals simp
    · intro hn
      simp only [FSt.put]
      have : ∀ k0, k0 < 4 → ¬ (k = k0 ∧ l' = l ∧ i' = i) := by
        rintro k0 h0 ⟨rfl, rfl, rfl⟩
        exact hn ⟨rfl, rfl, Or.inr ⟨rfl, h0⟩⟩
      rw [if_neg (this 3 (by omega)), if_neg (this 2 (by omega)), if_neg (this 1 (by omega)), if_neg (this 0 (by omega))]

theorem vols_ok {stellsym : Bool} {mpol ntor : ℕ} {guess : List GSurf} {i m : ℕ} {n : ℤ} (hm : InRes mpol ntor m n) (q : ℕ) (hq : ∀ l < q, ∃ s, guess[l]? = some s ∧ Fits stellsym mpol ntor s) (F : FSt) :
    ∃ F', (List.range q).foldlM (putVol stellsym guess i m n) F = .ok F' ∧ F'.num = F.num ∧ F'.mm = F.mm ∧ F'.nn = F.nn ∧
      ∀ k l' i', (∀ s, guess[l']? = some s → l' < q ∧ i' = i ∧ Used stellsym k → F'.val k l' i' = s.c k m n) ∧ (¬ (l' < q ∧ i' = i ∧ Used stellsym k) → F'.val k l' i' = F.val k l' i') := by
  induction q with
  | zero => exact ⟨F, rfl, rfl, rfl, rfl, fun k l' i' => ⟨fun s _ h => by omega, fun _ => rfl⟩⟩
  | succ q ih =>
    obtain ⟨F1, e1, a1, a2, a3, a4⟩ := ih (fun l hl => hq l (by omega))
    obtain ⟨s, hs, hf⟩ := hq q (by omega)
    obtain ⟨F2, e2, b1, b2, b3, b4⟩ := putVol_ok (i := i) F1 hs hf hm
    refine ⟨F2, ?_, b1.trans a1, b2.trans a2, b3.trans a3, fun k l' i' => ⟨?_, ?_⟩⟩
    · rw [List.range_succ, List.foldlM_append, e1]
      show (do let x ← putVol stellsym guess i m n F1 q; List.foldlM _ x []) = _
      rw [e2]
      rfl
    · rintro s' hs' ⟨h1, h2, h3⟩
      by_cases h : l' = q
      · subst h
        rw [hs] at hs'
        rw [(b4 k l' i').1 ⟨rfl, h2, h3⟩, Option.some.inj hs']
      · rw [(b4 k l' i').2 (fun hc => h hc.1), (a4 k l' i').1 s' hs' ⟨by omega, h2, h3⟩]
    · intro hn
      rw [(b4 k l' i').2 (fun hc => hn ⟨by omega, hc.2⟩), (a4 k l' i').2 (fun hc => hn ⟨by omega, hc.2⟩)]

theorem modes_ok {stellsym : Bool} {mpol ntor nvol : ℕ} {guess : List GSurf} (hq : ∀ l < nvol - 1, ∃ s, guess[l]? = some s ∧ Fits stellsym mpol ntor s) (L : List (ℕ × ℤ)) (hL : ∀ p ∈ L, InRes mpol ntor p.1 p.2) :
    ∃ F, L.foldlM (putMode stellsym nvol guess) ⟨0, fun _ => 0, fun _ => 0, fun _ _ _ => 0⟩ = .ok F ∧ F.num = L.length ∧ (∀ i p, L[i]? = some p → F.mm i = p.1 ∧ F.nn i = p.2) ∧
      (∀ i p l s k, L[i]? = some p → guess[l]? = some s → l < nvol - 1 → Used stellsym k → F.val k l i = s.c k p.1 p.2) ∧
      ∀ k l i, ¬ (i < L.length ∧ l < nvol - 1 ∧ Used stellsym k) → F.val k l i = 0 := by
  induction L using List.reverseRecOn with
  | nil => exact ⟨_, rfl, rfl, by simp, by simp, by simp⟩
  | append_singleton L p ih =>
    obtain ⟨F1, e1, a1, a2, a3, a4⟩ := ih (fun p hp => hL p (by simp [hp]))
    obtain ⟨F2, e2, b1, b2, b3, b4⟩ := vols_ok (i := F1.num) (hL p (by simp)) (nvol - 1) hq
      { F1 with num := F1.num + 1, mm := fun i => if i = F1.num then p.1 else F1.mm i, nn := fun i => if i = F1.num then p.2 else F1.nn i }
    have hidx : ∀ i p', (L ++ [p])[i]? = some p' → (i < L.length ∧ L[i]? = some p') ∨ (i = L.length ∧ p' = p) := by
      intro i p' h
      by_cases hi : i < L.length
      · left; rw [List.getElem?_append_left hi] at h; exact ⟨hi, h⟩
      · right
        rw [List.getElem?_append_right (by omega)] at h
        by_cases h0 : i = L.length
        · subst h0; simp at h; exact ⟨rfl, h.symm⟩
        · rw [List.getElem?_eq_none (by simp; omega)] at h; simp at h
    refine ⟨F2, ?_, ?_, ?_, ?_, ?_⟩
    · rw [List.foldlM_append, e1]
      show (do let x ← putMode stellsym nvol guess F1 p; List.foldlM _ x []) = _
      rw [show putMode stellsym nvol guess F1 p = .ok F2 from e2]
      rfl
    · rw [b1]; simp [a1]
    · intro i p' h
      rw [b2, b3]
      simp only [a1]
      rcases hidx i p' h with ⟨hi, h⟩ | ⟨rfl, rfl⟩
      · rw [if_neg (by omega), if_neg (by omega)]; exact a2 i p' h
      · simp
    · intro i p' l s k h hs hl hk
      rcases hidx i p' h with ⟨hi, h⟩ | ⟨rfl, rfl⟩
      · rw [(b4 k l i).2 (fun hc => by have := hc.2.1; omega)]; exact a3 i p' l s k h hs hl hk
      · exact (b4 k l _).1 s hs ⟨hl, a1.symm, hk⟩
    · intro k l i hn
      rw [List.length_append, List.length_singleton] at hn
      rw [(b4 k l i).2 (fun hc => hn ⟨by have := hc.2.1; omega, hc.1, hc.2.2⟩)]
      exact a4 k l i fun hc => hn ⟨by omega, hc.2⟩

/-- **C192**: if there is a guess of at least SPEC's resolution for every inner interface of the plasma, SPEC gets every mode of its resolution exactly once, with the coefficients of the guesses, and nothing else. -/
theorem C192_write (stellsym : Bool) (mpol ntor nvol : ℕ) (guess : List GSurf) (hq : ∀ l < nvol - 1, ∃ s, guess[l]? = some s ∧ Fits stellsym mpol ntor s) :
    ∃ F, setGuess stellsym mpol ntor nvol guess = .ok F ∧ F.Distinct ∧ (∀ m n, (∃ i, F.At m n i) ↔ InRes mpol ntor m n) ∧
      (∀ m n i l s k, F.At m n i → l < nvol - 1 → guess[l]? = some s → Used stellsym k → F.val k l i = s.c k m n) ∧
      ∀ k l i, ¬ (i < F.num ∧ l < nvol - 1 ∧ Used stellsym k) → F.val k l i = 0 := by
  obtain ⟨F, e, a1, a2, a3, a4⟩ := modes_ok hq (modes mpol ntor) (fun p hp => mem_modes.mp hp)
  have hat : ∀ m n i, F.At m n i ↔ (modes mpol ntor)[i]? = some (m, n) := by
    intro m n i
    constructor
    · rintro ⟨h1, h2, h3⟩
      rw [a1] at h1
      have h := List.getElem?_eq_getElem h1
      obtain ⟨c1, c2⟩ := a2 i _ h
      rw [h, ← h2, ← h3, c1, c2]
    · intro h
      obtain ⟨c1, c2⟩ := a2 i _ h
      refine ⟨?_, c1, c2⟩
      rw [a1]
      exact (List.getElem?_eq_some_iff.mp h).1
  refine ⟨F, e, ?_, ?_, ?_, ?_⟩
  · intro m n i j hi hj
    rw [hat] at hi hj
    exact (List.getElem?_inj (List.getElem?_eq_some_iff.mp hi).1 (nodup_modes mpol ntor)).mp (hi.trans hj.symm)
  · intro m n
    rw [← mem_modes, List.mem_iff_getElem?]
    exact exists_congr fun i => hat m n i
  · intro m n i l s k h hl hs hk
    exact a3 i (m, n) l s k ((hat m n i).mp h) hs hl hk
  · intro k l i hn
    rw [a1] at hn
    exact a4 k l i hn

/-! ### Reading -/

theorem read_loop (stellsym : Bool) (mpol ntor : ℕ) (F : FSt) (l q : ℕ) (hF : F.Distinct) (hq : q ≤ F.num) :
    let s := (List.range q).foldl (readMode F l) (GSurf.new stellsym mpol ntor)
    s.stellsym = stellsym ∧ s.mpol = mpol ∧ s.ntor = ntor ∧
    (∀ m n i k, F.At m n i → i < q → m ≤ mpol → |n| ≤ ntor → Used stellsym k → s.c k m n = F.val k l i) ∧
    ∀ m n k, (¬ Used stellsym k ∨ ∀ i, F.At m n i → q ≤ i) → s.c k m n = (GSurf.new stellsym mpol ntor).c k m n := by
  induction q with
  | zero => exact ⟨rfl, rfl, rfl, fun _ _ _ _ _ h => by omega, fun _ _ _ _ => rfl⟩
  | succ q ih =>
    obtain ⟨a1, a2, a3, a4, a5⟩ := ih (by omega)
    simp only [List.range_succ, List.foldl_append, List.foldl_cons, List.foldl_nil]
    generalize (List.range q).foldl (readMode F l) (GSurf.new stellsym mpol ntor) = s at *
    rw [readMode]
    split
    · rename_i hc
      rw [a2, a3] at hc
      refine ⟨a1, a2, a3, ?_, ?_⟩
      · intro m n i k h hi hm hn hk
        refine a4 m n i k h ?_ hm hn hk
        by_contra hcc
        obtain rfl : i = q := by omega
        rw [h.2.1, h.2.2] at hc
        omega
      · intro m n k h
        exact a5 m n k (h.imp id fun h i hi => by have := h i hi; omega)
    · rename_i hc
      refine ⟨a1, a2, a3, ?_, ?_⟩
      · intro m n i k h hi hm hn hk
        simp only
        by_cases hiq : i = q
        · subst hiq
          rw [if_pos]
          refine ⟨h.2.1.symm, h.2.2.symm, ?_⟩
          rw [a1]; exact hk
        · rw [if_neg]
          · exact a4 m n i k h (by omega) hm hn hk
          · rintro ⟨h1, h2, -⟩
            exact hiq (hF m n i q h ⟨by omega, h1.symm, h2.symm⟩)
      · intro m n k h
        simp only
        rw [if_neg]
        · exact a5 m n k (h.imp id fun h i hi => by have := h i hi; omega)
        · rintro ⟨h1, h2, h3⟩
          rcases h with h | h
          · rw [a1] at h3; exact h h3
          · have := h q ⟨by omega, h1.symm, h2.symm⟩
            omega

/-- **C192**: reading the guesses of a file gives one surface per inner interface of the plasma, and one for the plasma boundary if the boundary is free, at SPEC's resolution, with the coefficients of the file for all its modes that fit.
Modes that the file does not list have the coefficients of a new surface. -/
theorem C192_read (stellsym freebound : Bool) (mpol ntor nvol : ℕ) (F : FSt) (hF : F.Distinct) :
    let r := readGuess stellsym freebound mpol ntor nvol F
    r.length = (if freebound then nvol else nvol - 1) ∧
    ∀ l (s : GSurf), r[l]? = some s → s.stellsym = stellsym ∧ s.mpol = mpol ∧ s.ntor = ntor ∧
      (∀ m n i k, F.At m n i → m ≤ mpol → |n| ≤ ntor → Used stellsym k → s.c k m n = F.val k l i) ∧
      ∀ m n k, (¬ Used stellsym k ∨ ∀ i, ¬ F.At m n i) → s.c k m n = (GSurf.new stellsym mpol ntor).c k m n := by
  refine ⟨by simp [readGuess], ?_⟩
  intro l s h
  simp only [readGuess, List.getElem?_map, Option.map_eq_some_iff] at h
  obtain ⟨l', h1, rfl⟩ := h
  have hl' : l' = l := by
    rw [List.getElem?_eq_some_iff] at h1
    obtain ⟨_, h1⟩ := h1
    simpa using h1.symm
  subst hl'
  obtain ⟨a1, a2, a3, a4, a5⟩ := read_loop stellsym mpol ntor F l' F.num hF le_rfl
  exact ⟨a1, a2, a3, fun m n i k hi hm hn hk => a4 m n i k hi hi.1 hm hn hk, fun m n k h => a5 m n k (h.imp id fun h i hi => absurd hi (h i))⟩

/-- **C192**: what a run sends back of the guesses read from a file: for every mode of SPEC's resolution that the file lists, the coefficients of the file. -/
theorem C192_round_trip (stellsym freebound : Bool) (mpol ntor nvol : ℕ) (F : FSt) (hF : F.Distinct) :
    ∃ F', setGuess stellsym mpol ntor nvol (readGuess stellsym freebound mpol ntor nvol F) = .ok F' ∧ F'.Distinct ∧ (∀ m n, (∃ i, F'.At m n i) ↔ InRes mpol ntor m n) ∧
      ∀ m n i j l k, F.At m n i → F'.At m n j → l < nvol - 1 → Used stellsym k → F'.val k l j = F.val k l i := by
  obtain ⟨h1, h2⟩ := C192_read stellsym freebound mpol ntor nvol F hF
  have hsome : ∀ l < nvol - 1, ∃ s, (readGuess stellsym freebound mpol ntor nvol F)[l]? = some s := by
    intro l hl
    refine ⟨_, List.getElem?_eq_getElem ?_⟩
    rw [h1]; split <;> omega
  obtain ⟨F', e, d, m1, m2, -⟩ := C192_write stellsym mpol ntor nvol (readGuess stellsym freebound mpol ntor nvol F) (by
    intro l hl
    obtain ⟨s, hs⟩ := hsome l hl
    obtain ⟨c1, c2, c3, -⟩ := h2 l s hs
    refine ⟨s, hs, by omega, by omega, ?_⟩
    rw [c1]
    cases stellsym <;> simp)
  refine ⟨F', e, d, m1, ?_⟩
  intro m n i j l k hi hj hl hk
  obtain ⟨s, hs⟩ := hsome l hl
  obtain ⟨-, -, -, c4, -⟩ := h2 l s hs
  obtain ⟨g1, g2, -⟩ := (m1 m n).mp ⟨j, hj⟩
  rw [m2 m n j l s k hj hl hs hk, c4 m n i k hi g1 g2 hk]

/-- **C192** (violated): the modes `(0, 0)` and `(1, 0)`, when the file does not list them, do not come back as zero, but with the radii 1 and 0.1 of a new surface. -/
theorem C192_missing_violated (stellsym freebound : Bool) (mpol ntor nvol : ℕ) (F : FSt) (hF : F.Distinct) (h0 : ∀ i, ¬ F.At 0 0 i) (h1 : ∀ i, ¬ F.At 1 0 i) (l : ℕ) (s : GSurf)
    (hs : (readGuess stellsym freebound mpol ntor nvol F)[l]? = some s) : s.c 0 0 0 = 1 ∧ s.c 0 1 0 = 1 / 10 ∧ s.c 1 1 0 = 1 / 10 := by
  obtain ⟨-, -, -, -, c⟩ := (C192_read stellsym freebound mpol ntor nvol F hF).2 l s hs
  rw [c 0 0 0 (Or.inr h0), c 1 0 0 (Or.inr h1), c 1 0 1 (Or.inr h1)]
  simp [GSurf.new]

/-! ### Refusals -/

theorem foldlM_error {α β : Type} (f : β → α → Except Err β) (l : List α) (a : α) (ha : a ∈ l) (h : ∀ b, ∃ e, f b a = .error e) (b : β) : ∃ e, l.foldlM f b = .error e := by
  induction l generalizing b with
  | nil => simp at ha
  | cons x l ih =>
    rw [List.foldlM_cons]
    cases hx : f b x with
    | error e => exact ⟨e, rfl⟩
    | ok b' =>
      rcases List.mem_cons.mp ha with rfl | ha
      · obtain ⟨e, he⟩ := h b; rw [he] at hx; simp at hx
      · exact ih ha b'

/-- **C192**: the call is refused when a guess is missing, when a guess has fewer modes than SPEC, or is stellarator symmetric when SPEC is not. -/
theorem C192_refused (stellsym : Bool) (mpol ntor nvol : ℕ) (guess : List GSurf) (l : ℕ) (hl : l < nvol - 1) (h : ∀ s, guess[l]? = some s → ¬ Fits stellsym mpol ntor s) :
    ∃ e, setGuess stellsym mpol ntor nvol guess = .error e := by
  have hvol : ∃ m n, InRes mpol ntor m n ∧ ∀ F i, ∃ e, putVol stellsym guess i m n F l = .error e := by
    refine ⟨mpol, ntor, ⟨le_rfl, by simp, fun _ => by omega⟩, fun F i => ?_⟩
    cases hg : guess[l]? with
    | none => exact ⟨.indexError, by rw [putVol, hg]⟩
    | some s =>
      have hs := h s hg
      rw [putVol, hg]
      simp only
      by_cases hr : s.mpol < mpol ∨ s.ntor < ntor
      · refine ⟨.indexError, ?_⟩
        have : s.get 0 mpol ntor = .error .indexError := by
          rw [GSurf.get, if_neg (by omega), if_pos (by omega)]
        rw [this]; rfl
      · have hst : stellsym = false ∧ s.stellsym = true := by
          refine ⟨?_, ?_⟩
          · by_contra hc
            exact hs ⟨by omega, by omega, Or.inl (by simpa using hc)⟩
          · by_contra hc
            exact hs ⟨by omega, by omega, Or.inr (by simpa using hc)⟩
        refine ⟨.typeError, ?_⟩
        have g : ∀ k, k < 2 → s.get k mpol ntor = .ok (s.c k mpol ntor) := by
          intro k hk
          rw [GSurf.get, if_neg (by omega), if_neg (by omega)]
        have g2 : s.get 2 mpol ntor = .error .typeError := by
          rw [GSurf.get, if_pos ⟨hst.2, by omega⟩]
        rw [g 0 (by omega), g 1 (by omega), g2, hst.1]
        rfl
  obtain ⟨m, n, hm, hv⟩ := hvol
  refine foldlM_error _ _ (m, n) (mem_modes.mpr hm) (fun F => ?_) _
  exact foldlM_error _ _ l (List.mem_range.mpr hl) (fun G => hv G F.num) _

/-- Two volumes, one guess: the hypotheses hold, and a coefficient arrives. -/
example : (∀ l < 2 - 1, ∃ s, [(⟨true, 2, 1, fun k m n => k + m + n⟩ : GSurf)][l]? = some s ∧ Fits true 1 1 s) ∧ FSt.Distinct ⟨2, fun i => i, fun _ => 0, fun _ _ _ => 3⟩ := by
  refine ⟨fun l hl => ⟨_, by obtain rfl : l = 0 := by omega
                             rfl, by decide, by decide, Or.inl rfl⟩, ?_⟩
  rintro m n i j ⟨-, h1, -⟩ ⟨-, h2, -⟩
  exact h1.trans h2.symm

end Simsopt.Spec
