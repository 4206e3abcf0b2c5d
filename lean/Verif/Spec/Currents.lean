import Verif.Spec.Profiles
/-!
# Volume currents and the other inputs of SPEC (C173)

Model of src/simsopt/mhd/spec.py L750-815 (`activate_profile`, `set_profile`) and of the parts of `run` for the pressure (L995-999), the interface current (L1020-1022), iota and oita (L1031-1035), mu (L1037-1041) and the helicity (L1071-1074).  The array of the inputlist a slice is taken of is longer than the slice.
-/
namespace Simsopt.Spec
open Simsopt

variable {R : Type} [AddCommGroup R]

/-- `profile.get(np.arange(0, n))` (optimizable.py L226-238 with an index array). -/
def Prof.getRange (p : Prof R) (n : ℕ) : Except Err (List R) := if n ≤ p.size then .ok ((List.range n).map p.x) else .error .indexError

/-- `a[0:k] = v` for a numpy array longer than `k`: as many values, or one value for all. -/
def assignSlice (a : ℕ → R) (k : ℕ) (v : List R) : Except Err (ℕ → R) :=
  if v.length = k then .ok fun i => if i < k then v.getD i 0 else a i
  else if v.length = 1 then .ok fun i => if i < k then v.getD 0 0 else a i
  else .error .valueError

/-- The pressure (L995-999). -/
def runPressure (freebound : Bool) (nvol : ℕ) (p : Prof R) (si : ℕ → R) : Except Err (ℕ → R) := do
  let a ← assignSlice si nvol (← p.getRange nvol)
  return if freebound then put a nvol 0 else a

/-- mu (L1037-1041) and the helicity (L1071-1074): the entry set to zero is that with index `mvol`. -/
def runMu (freebound : Bool) (nvol : ℕ) (p : Prof R) (si : ℕ → R) : Except Err (ℕ → R) := do
  let a ← assignSlice si nvol (← p.getRange nvol)
  return if freebound then put a (mvolOf freebound nvol) 0 else a

/-- iota (L1031-1032) and oita (L1034-1035): the slice has one entry more than the values. -/
def runIota (nvol : ℕ) (p : Prof R) (si : ℕ → R) : Except Err (ℕ → R) := do
  assignSlice si (nvol + 1) (← p.getRange nvol)

/-- The interface currents (L1020-1022). -/
def runIsurf (freebound : Bool) (nvol : ℕ) (p : Prof R) (si : ℕ → R) : Except Err (ℕ → R) := do
  assignSlice si (mvolOf freebound nvol - 1) (← p.getRange (mvolOf freebound nvol - 1))

/-- The profiles `activate_profile` knows (L764-774). -/
inductive Kind | pressure | volumeCurrent | interfaceCurrent | helicity | iota | oita | mu | pflux | tflux
  deriving DecidableEq

/-- The length `activate_profile` gives a profile (L764-774). -/
def activeLength (freebound : Bool) (nvol : ℕ) : Kind → ℕ
  | .pressure => nvol
  | .volumeCurrent => nvol
  | .interfaceCurrent => nvol - 1
  | _ => mvolOf freebound nvol

/-- `activate_profile` (L776-781): the values of the inputlist, all free. -/
def activate (freebound : Bool) (nvol : ℕ) (k : Kind) (si : ℕ → R) : Prof R := ⟨activeLength freebound nvol k, si, fun _ => true⟩

/-! ### Setting an entry -/

/-- **C173**: `set_profile` of a cumulative profile sets the entry, moves all later ones by the same amount and keeps the earlier ones. -/
theorem C173_set_cumulative (mvol : ℕ) (p : Prof R) (l : ℕ) (v : R) (hl : l < mvol) (h : mvol ≤ p.size) :
    ∃ q, p.setCumulative mvol l v = .ok q ∧ q.size = p.size ∧ q.free = p.free ∧ q.x l = v ∧ (∀ i, i < l → q.x i = p.x i) ∧ (∀ i, l < i → i < mvol → q.x i - v = p.x i - p.x l) := by
  unfold Prof.setCumulative Prof.f Prof.set
  rw [if_pos (by omega), if_pos (by omega)]
  refine ⟨{ p with x := fun i => if l < i ∧ i < mvol then put p.x l v i - p.x l + v else put p.x l v i }, ?_, rfl, rfl, ?_, fun i hi => ?_, fun i hi hm => ?_⟩
  · simp only [bind, Except.bind, pure, Except.pure]
    rw [if_neg (show ¬ p.size < mvol by omega)]
  · show (if l < l ∧ l < mvol then _ else put p.x l v l) = v
    rw [if_neg (by omega), put_same]
  · show (if l < i ∧ i < mvol then _ else put p.x l v i) = _
    rw [if_neg (by omega), put_other _ _ _ _ (by omega)]
  · show (if l < i ∧ i < mvol then put p.x l v i - p.x l + v else put p.x l v i) - v = _
    rw [if_pos ⟨hi, hm⟩, put_other _ _ _ _ (by omega)]
    abel

/-- **C173**: of a profile that is not cumulative only the entry changes. -/
theorem C173_set_plain (p : Prof R) (l : ℕ) (v : R) (h : l < p.size) : ∃ q, p.setPlain l v = .ok q ∧ q.x l = v ∧ ∀ i, i ≠ l → q.x i = p.x i := by
  unfold Prof.setPlain Prof.set
  rw [if_pos h]
  exact ⟨_, rfl, put_same _ _ _, fun i hi => put_other _ _ _ _ hi⟩

/-! ### The volume current -/

theorem volStep_eq (mvol : ℕ) (old : ℕ → R) (l : ℕ) (s : PS R) (hl : l < mvol) (h : mvol ≤ s.prof.size) :
    volStep mvol old l s = .ok (if s.prof.free l then ⟨s.prof, put s.si l (s.prof.x l)⟩ else if l = 0 then s else
      ⟨{ s.prof with x := fun i => if l < i ∧ i < mvol then s.prof.x i - s.prof.x l + (s.si l - old (l - 1) + s.si (l - 1)) else put s.prof.x l (s.si l - old (l - 1) + s.si (l - 1)) i }, put s.si l (s.si l - old (l - 1) + s.si (l - 1))⟩) := by
  unfold volStep Prof.isFixed Prof.setCumulative Prof.f Prof.set
  have h' : l < s.prof.size := by omega
  have h2 : ¬ s.prof.size < mvol := by omega
  simp only [if_pos h']
  cases hf : s.prof.free l
  · by_cases h0 : l = 0
    · simp [h0, bind, Except.bind, pure, Except.pure]
    · simp only [h0, bind, Except.bind, pure, Except.pure, Bool.not_false, if_true, if_false, Bool.false_eq_true, if_neg h2]
      congr 3
      funext i
      by_cases hi : l < i ∧ i < mvol
      · rw [if_pos hi, if_pos hi, put_other _ _ _ _ (by omega)]
      · rw [if_neg hi, if_neg hi]
  · simp [bind, Except.bind, pure, Except.pure]

theorem vol_loop (mvol : ℕ) (s : PS R) (h : mvol ≤ s.prof.size) (ho : ∀ l l', 1 ≤ l → l < l' → l' < mvol → s.prof.free l' = true → s.prof.free l = true) (k : ℕ) (hk : k ≤ mvol) :
    ∃ r, loopTo (volStep mvol s.si) k s = .ok r ∧ r.prof.size = s.prof.size ∧ r.prof.free = s.prof.free ∧
      (∀ l, r.si l = if l < k then target s.prof.free s.prof.x s.si l else s.si l) ∧
      (∀ l, l < mvol → s.prof.free l = true → r.prof.x l = s.prof.x l) ∧ (∀ l, mvol ≤ l → r.prof.x l = s.prof.x l) ∧
      (∀ l, l < k → l ≠ 0 → s.prof.free l = false → r.prof.x l = r.si l) := by
  induction k with
  | zero => exact ⟨s, rfl, rfl, rfl, fun l => by simp, fun _ _ _ => rfl, fun _ _ => rfl, fun l hl => by omega⟩
  | succ k ih =>
    obtain ⟨r, e, h1, h2, h3, h4, h5, h6⟩ := ih (by omega)
    have e' : loopTo (volStep mvol s.si) (k + 1) s = volStep mvol s.si k r := by
      simp only [loopTo, e]; rfl
    rw [e', volStep_eq mvol _ _ _ (by omega) (by omega)]
    refine ⟨_, rfl, ?_⟩
    rw [h2]
    cases hf : s.prof.free k
    · by_cases h0 : k = 0
      · subst h0
        simp only [Bool.false_eq_true, if_false, if_true]
        refine ⟨h1, h2, fun l => ?_, h4, h5, fun l hl hl0 => by omega⟩
        rw [h3 l]
        by_cases hl : l = 0
        · subst hl; simp [target, hf]
        · rw [if_neg (by omega), if_neg (by omega)]
      · simp only [Bool.false_eq_true, if_false, if_neg h0]
        have hv : r.si k - s.si (k - 1) + r.si (k - 1) = target s.prof.free s.prof.x s.si k := by
          rw [h3 k, h3 (k - 1), if_neg (by omega), if_pos (by omega)]
          obtain ⟨j, rfl⟩ : ∃ j, k = j + 1 := ⟨k - 1, by omega⟩
          simp only [Nat.add_sub_cancel]
          rw [target, if_neg (by simp [hf])]
          abel
        rw [hv]
        refine ⟨h1, h2, fun l => ?_, fun l hl hfl => ?_, fun l hl => ?_, fun l hl hl0 hfl => ?_⟩
        · by_cases hl : l = k
          · subst hl; rw [put_same, if_pos (by omega)]
          · rw [put_other _ _ _ _ hl, h3 l]
            by_cases hlt : l < k
            · rw [if_pos hlt, if_pos (by omega)]
            · rw [if_neg hlt, if_neg (by omega)]
        · have hkl : ¬ k < l := fun hc => by
            have := ho k l (by omega) hc hl hfl
            rw [hf] at this; exact absurd this (by simp)
          have hne : l ≠ k := fun hc => by subst hc; rw [hf] at hfl; exact absurd hfl (by simp)
          rw [if_neg (by omega), put_other _ _ _ _ hne]
          exact h4 l hl hfl
        · rw [if_neg (by omega), put_other _ _ _ _ (by omega)]
          exact h5 l hl
        · by_cases hl' : l = k
          · subst hl'; rw [if_neg (by omega), put_same, put_same]
          · rw [if_neg (by omega), put_other _ _ _ _ hl', put_other _ _ _ _ hl']
            exact h6 l (by omega) hl0 hfl
    · simp only [if_true]
      have hx : r.prof.x k = target s.prof.free s.prof.x s.si k := by
        rw [h4 k (by omega) hf]
        cases k with
        | zero => rw [target, if_pos hf]
        | succ j => rw [target, if_pos hf]
      refine ⟨h1, h2, fun l => ?_, h4, h5, fun l hl hl0 hfl => ?_⟩
      · by_cases hl : l = k
        · subst hl; rw [put_same, hx, if_pos (by omega)]
        · rw [put_other _ _ _ _ hl, h3 l]
          by_cases hlt : l < k
          · rw [if_pos hlt, if_pos (by omega)]
          · rw [if_neg hlt, if_neg (by omega)]
      · have hne : l ≠ k := fun hc => by subst hc; rw [hf] at hfl; exact absurd hfl (by simp)
        rw [put_other _ _ _ _ hne]
        exact h6 l (by omega) hl0 hfl

/-- **C173**: the volume currents with a fixed boundary, when no free entry comes after a fixed one (the first entry aside): free entries are sent and keep their values, fixed ones keep their difference to the entry before. -/
theorem C173_volume_current (nvol : ℕ) (s : PS R) (h : nvol ≤ s.prof.size) (ho : ∀ l l', 1 ≤ l → l < l' → l' < nvol → s.prof.free l' = true → s.prof.free l = true) :
    ∃ r, runVol false nvol s = .ok r ∧
      (∀ l, l < nvol → s.prof.free l = true → r.si l = s.prof.x l ∧ r.prof.x l = s.prof.x l) ∧
      (∀ l, l + 1 < nvol → s.prof.free (l + 1) = false → r.si (l + 1) - r.si l = s.si (l + 1) - s.si l ∧ r.prof.x (l + 1) = r.si (l + 1)) ∧
      (0 < nvol → s.prof.free 0 = false → r.si 0 = s.si 0) ∧ (∀ l, nvol ≤ l → r.si l = s.si l) := by
  obtain ⟨r, e, h1, h2, h3, h4, h5, h6⟩ := vol_loop nvol s h ho nvol le_rfl
  refine ⟨r, ?_, fun l hl hf => ⟨?_, h4 l hl hf⟩, fun l hl hf => ⟨?_, h6 _ hl (by omega) hf⟩, fun h0 hf => ?_, fun l hl => ?_⟩
  · show (do let s' ← loopTo (volStep nvol s.si) nvol s; _) = _
    rw [e]; rfl
  · rw [h3, if_pos hl]
    cases l with
    | zero => rw [target, if_pos hf]
    | succ j => rw [target, if_pos hf]
  · rw [h3, h3, if_pos hl, if_pos (by omega), target, if_neg (by simp [hf])]
    abel
  · rw [h3, if_pos h0, target, if_neg (by simp [hf])]
  · rw [h3, if_neg (by omega)]

/-- **C173**: with a free boundary and a profile of as many entries as volumes, the plasma volumes get their currents in the same way, and the vacuum region, in the array and in the profile, that of the last plasma volume. -/
theorem C173_vacuum_current (nvol : ℕ) (hn : 0 < nvol) (s : PS R) (h : nvol + 1 ≤ s.prof.size) (ho : ∀ l l', 1 ≤ l → l < l' → l' < nvol + 1 → s.prof.free l' = true → s.prof.free l = true) :
    ∃ r, runVol true nvol s = .ok r ∧ r.si nvol = r.si (nvol - 1) ∧ r.prof.x nvol = r.si (nvol - 1) ∧ (∀ l, l < nvol → r.si l = target s.prof.free s.prof.x s.si l) := by
  obtain ⟨r, e, h1, h2, h3, h4, h5, h6⟩ := vol_loop (nvol + 1) s h ho (nvol + 1) le_rfl
  refine ⟨⟨{ r.prof with x := put r.prof.x nvol (r.si (nvol - 1)) }, put r.si nvol (r.si (nvol - 1))⟩, ?_, ?_, ?_, fun l hl => ?_⟩
  · show (do let s' ← loopTo (volStep (nvol + 1) s.si) (nvol + 1) s; _) = _
    rw [e]
    simp only [bind, Except.bind, mvolOf, if_true, Prof.set, Nat.add_sub_cancel]
    rw [if_pos (show nvol < r.prof.size by omega)]
    rfl
  · show put _ _ _ _ = put _ _ _ _
    rw [put_same, put_other _ _ _ _ (by omega)]
  · show put _ _ _ _ = put _ _ _ _
    rw [put_same, put_other _ _ _ _ (by omega)]
  · show put _ _ _ _ = _
    rw [put_other _ _ _ _ (by omega), h3, if_pos (by omega)]

/-- **C173** (violated): three volumes with the middle current fixed and the last one free: the run adds the change of the first current to the last dof, whatever value was assigned to it. -/
theorem C173_free_dof_changed_violated (s : PS R) (hs : s.prof.size = 3) (hf0 : s.prof.free 0 = true) (hf1 : s.prof.free 1 = false) (hf2 : s.prof.free 2 = true) (hx : s.prof.x 1 = s.si 1) :
    ∃ r, runVol false 3 s = .ok r ∧ r.prof.size = 3 ∧ r.prof.free = s.prof.free ∧ r.si 0 = s.prof.x 0 ∧ r.prof.x 1 = r.si 1 ∧ r.si 2 = s.prof.x 2 + (s.prof.x 0 - s.si 0) ∧ r.prof.x 2 = s.prof.x 2 + (s.prof.x 0 - s.si 0) := by
  unfold runVol
  simp only [mvolOf, Bool.false_eq_true, if_false]
  rw [show loopTo (volStep 3 s.si) 3 s = (((Except.ok s >>= volStep 3 s.si 0) >>= volStep 3 s.si 1) >>= volStep 3 s.si 2) from rfl]
  simp only [bind, Except.bind]
  rw [volStep_eq 3 _ 0 s (by omega) (by omega)]
  simp only [hf0, if_true]
  rw [volStep_eq 3 _ 1 _ (by omega) (by simp [hs])]
  simp only [hf1, Bool.false_eq_true, if_false, one_ne_zero]
  rw [volStep_eq 3 _ 2 _ (by omega) (by simp [hs])]
  simp only [hf2, if_true]
  refine ⟨_, rfl, hs, rfl, ?_, ?_, ?_, ?_⟩
  · simp [put]
  · simp [put]
  · simp only [put, hx]
    simp
    abel
  · simp only [put, hx]
    simp
    abel

/-- **C173** (violated): what SPEC gets for the same values of the dofs depends on the runs before: after a run with other values `z`, the last current is off by the difference of the first one. -/
theorem C173_history_violated (s : PS R) (hs : s.prof.size = 3) (hf0 : s.prof.free 0 = true) (hf1 : s.prof.free 1 = false) (hf2 : s.prof.free 2 = true) (hx : s.prof.x 1 = s.si 1) (y z : ℕ → R) :
    ∃ r r', history (runVol false 3) [y] s = .ok r ∧ history (runVol false 3) [z, y] s = .ok r' ∧ r'.si 2 = r.si 2 + (s.si 0 - z 0) := by
  obtain ⟨r, e, -, -, -, -, a1, -⟩ := C173_free_dof_changed_violated { s with prof := s.prof.setFree y } hs hf0 hf1 hf2 (by simp [Prof.setFree, hf1, hx])
  obtain ⟨q, e1, b0, b1, b2, b3, b4, -⟩ := C173_free_dof_changed_violated { s with prof := s.prof.setFree z } hs hf0 hf1 hf2 (by simp [Prof.setFree, hf1, hx])
  have b1' : q.prof.free = s.prof.free := b1
  obtain ⟨r', e2, -, -, -, -, c1, -⟩ := C173_free_dof_changed_violated { q with prof := q.prof.setFree y } b0 (by simp [Prof.setFree, b1', hf0]) (by simp [Prof.setFree, b1', hf1]) (by simp [Prof.setFree, b1', hf2]) (by simp [Prof.setFree, b1', hf1, b3])
  refine ⟨r, r', ?_, ?_, ?_⟩
  · simp only [history, e, bind, Except.bind]
  · simp only [history, e1, bind, Except.bind, e2]
  · simp only [Prof.setFree, hf0, hf2, b1', if_true] at a1 b2 c1
    rw [a1, c1, b2]
    abel

/-! ### The other profiles -/

omit [AddCommGroup R] in
theorem getRange_ok (p : Prof R) (n : ℕ) (h : n ≤ p.size) : p.getRange n = .ok ((List.range n).map p.x) := if_pos h

theorem assign_range (a : ℕ → R) (p : Prof R) (n : ℕ) : ∃ b, assignSlice a n ((List.range n).map p.x) = .ok b ∧ ∀ l, b l = if l < n then p.x l else a l := by
  unfold assignSlice
  rw [if_pos (by simp)]
  refine ⟨_, rfl, fun l => ?_⟩
  by_cases h : l < n
  · simp only [if_pos h]
    rw [List.getD_eq_getElem?_getD, List.getElem?_map, List.getElem?_range h]
    rfl
  · simp only [if_neg h]

/-- **C173**: every plasma volume gets the pressure of the profile, the vacuum region zero, nothing else changes. -/
theorem C173_pressure (freebound : Bool) (nvol : ℕ) (p : Prof R) (si : ℕ → R) (h : nvol ≤ p.size) :
    ∃ r, runPressure freebound nvol p si = .ok r ∧ (∀ l, l < nvol → r l = p.x l) ∧ (freebound = true → r nvol = 0) ∧ (∀ l, mvolOf freebound nvol ≤ l → r l = si l) := by
  obtain ⟨b, e, hb⟩ := assign_range si p nvol
  unfold runPressure
  rw [getRange_ok p nvol h]
  simp only [bind, Except.bind, e]
  refine ⟨_, rfl, fun l hl => ?_, fun hf => ?_, fun l hl => ?_⟩
  · cases freebound
    · simp [hb, hl]
    · simp [put_other _ _ _ _ (show l ≠ nvol by omega), hb, hl]
  · subst hf
    simp [put_same]
  · cases freebound
    · simp [mvolOf] at hl
      simp [hb, hl]
    · simp [mvolOf] at hl
      simp [put_other _ _ _ _ (show l ≠ nvol by omega), hb, show ¬ l < nvol by omega]

/-- **C173**: mu and the helicity with a fixed boundary. -/
theorem C173_mu (nvol : ℕ) (p : Prof R) (si : ℕ → R) (h : nvol ≤ p.size) : ∃ r, runMu false nvol p si = .ok r ∧ ∀ l, r l = if l < nvol then p.x l else si l := by
  obtain ⟨b, e, hb⟩ := assign_range si p nvol
  unfold runMu
  rw [getRange_ok p nvol h]
  simp only [bind, Except.bind, e]
  exact ⟨_, rfl, fun l => by simp [hb]⟩

/-- **C173** (violated): mu and the helicity with a free boundary: the vacuum region (index `nvol`) keeps its old value, the entry behind it is set to zero. -/
theorem C173_mu_violated (nvol : ℕ) (p : Prof R) (si : ℕ → R) (h : nvol ≤ p.size) : ∃ r, runMu true nvol p si = .ok r ∧ (∀ l, l < nvol → r l = p.x l) ∧ r nvol = si nvol ∧ r (nvol + 1) = 0 := by
  obtain ⟨b, e, hb⟩ := assign_range si p nvol
  unfold runMu
  rw [getRange_ok p nvol h]
  simp only [bind, Except.bind, e]
  refine ⟨_, rfl, fun l hl => ?_, ?_, ?_⟩
  · simp [mvolOf, put_other _ _ _ _ (show l ≠ nvol + 1 by omega), hb, hl]
  · simp [mvolOf, put_other _ _ _ _ (show nvol ≠ nvol + 1 by omega), hb]
  · simp [mvolOf, put_same]

/-- **C173** (violated): with two volumes or more, a profile of iota or oita makes every run fail. -/
theorem C173_iota_violated (nvol : ℕ) (hn : 2 ≤ nvol) (p : Prof R) (si : ℕ → R) (h : nvol ≤ p.size) : runIota nvol p si = .error .valueError := by
  unfold runIota
  rw [getRange_ok p nvol h]
  simp only [bind, Except.bind, assignSlice]
  rw [if_neg (by simp), if_neg (by simp; omega)]

/-- **C173**: the interface currents. -/
theorem C173_isurf (freebound : Bool) (nvol : ℕ) (p : Prof R) (si : ℕ → R) (h : mvolOf freebound nvol - 1 ≤ p.size) :
    ∃ r, runIsurf freebound nvol p si = .ok r ∧ ∀ l, r l = if l < mvolOf freebound nvol - 1 then p.x l else si l := by
  obtain ⟨b, e, hb⟩ := assign_range si p (mvolOf freebound nvol - 1)
  unfold runIsurf
  rw [getRange_ok p _ h]
  simp only [bind, Except.bind, e]
  exact ⟨b, rfl, hb⟩

/-- **C173**: the profiles `activate_profile` makes, as they are, change no input of SPEC with a fixed boundary. -/
theorem C173_activate (nvol : ℕ) (si : ℕ → R) :
    (∃ r, runVol false nvol ⟨activate false nvol .volumeCurrent si, si⟩ = .ok r ∧ ∀ l, r.si l = si l) ∧
    (∃ r, runIsurf false nvol (activate false nvol .interfaceCurrent si) si = .ok r ∧ ∀ l, r l = si l) ∧
    (∃ r, runPressure false nvol (activate false nvol .pressure si) si = .ok r ∧ ∀ l, r l = si l) ∧
    (∃ r, runMu false nvol (activate false nvol .mu si) si = .ok r ∧ ∀ l, r l = si l) ∧
    (∃ r, runMu false nvol (activate false nvol .helicity si) si = .ok r ∧ ∀ l, r l = si l) ∧
    (∃ r, runFlux nvol ⟨activate false nvol .pflux si, si⟩ = .ok r ∧ ∀ l, r.si l = si l) ∧
    (∃ r, runFlux nvol ⟨activate false nvol .tflux si, si⟩ = .ok r ∧ ∀ l, r.si l = si l) := by
  refine ⟨?_, ?_, ?_, ?_, ?_, ?_, ?_⟩
  · obtain ⟨r, e, a, -, -, d⟩ := C173_volume_current nvol ⟨activate false nvol .volumeCurrent si, si⟩ le_rfl (fun _ _ _ _ _ _ => rfl)
    refine ⟨r, e, fun l => ?_⟩
    by_cases hl : l < nvol
    · exact (a l hl rfl).1
    · exact d l (by omega)
  · obtain ⟨r, e, a⟩ := C173_isurf false nvol (activate false nvol .interfaceCurrent si) si le_rfl
    exact ⟨r, e, fun l => by rw [a l]; exact ite_self _⟩
  · obtain ⟨r, e, a, -, d⟩ := C173_pressure false nvol (activate false nvol .pressure si) si le_rfl
    refine ⟨r, e, fun l => ?_⟩
    by_cases hl : l < nvol
    · exact a l hl
    · exact d l (by simp [mvolOf]; omega)
  · obtain ⟨r, e, a⟩ := C173_mu nvol (activate false nvol .mu si) si le_rfl
    exact ⟨r, e, fun l => by rw [a l]; exact ite_self _⟩
  · obtain ⟨r, e, a⟩ := C173_mu nvol (activate false nvol .helicity si) si le_rfl
    exact ⟨r, e, fun l => by rw [a l]; exact ite_self _⟩
  · obtain ⟨r, e, -, -, a, -, -, d⟩ := C172_flux nvol ⟨activate false nvol .pflux si, si⟩ le_rfl
    refine ⟨r, e, fun l => ?_⟩
    by_cases hl : l < nvol
    · exact (a l hl rfl).1
    · exact (d l (by omega)).1
  · obtain ⟨r, e, -, -, a, -, -, d⟩ := C172_flux nvol ⟨activate false nvol .tflux si, si⟩ le_rfl
    refine ⟨r, e, fun l => ?_⟩
    by_cases hl : l < nvol
    · exact (a l hl rfl).1
    · exact (d l (by omega)).1

theorem vol_short (mvol n : ℕ) (s : PS R) (hn : s.prof.size = n) (hfree : ∀ l, s.prof.free l = true) :
    loopTo (volStep mvol s.si) (n + 1) s = .error .indexError := by
  have H : ∀ k, k ≤ n → ∃ r, loopTo (volStep mvol s.si) k s = .ok r ∧ r.prof = s.prof := by
    intro k
    induction k with
    | zero => exact fun _ => ⟨s, rfl, rfl⟩
    | succ k ih =>
      intro hk
      obtain ⟨r, e, hr⟩ := ih (by omega)
      refine ⟨⟨r.prof, put r.si k (r.prof.x k)⟩, ?_, hr⟩
      simp only [loopTo, e, bind, Except.bind]
      unfold volStep Prof.isFixed Prof.f
      rw [if_pos (show k < r.prof.size by rw [hr]; omega), if_pos (show k < r.prof.size by rw [hr]; omega)]
      simp [hr, hfree, bind, Except.bind, pure, Except.pure]
  obtain ⟨r, e, hr⟩ := H n le_rfl
  simp only [loopTo, e, bind, Except.bind]
  unfold volStep Prof.isFixed
  rw [if_neg (show ¬ n < r.prof.size by rw [hr]; omega)]
  rfl

/-- **C173** (violated): with a free boundary, the profiles of volume and interface currents that `activate_profile` makes are too short by one, and every run fails. -/
theorem C173_activate_violated (nvol : ℕ) (hn : 0 < nvol) (si : ℕ → R) :
    runVol true nvol ⟨activate true nvol .volumeCurrent si, si⟩ = .error .indexError ∧ runIsurf true nvol (activate true nvol .interfaceCurrent si) si = .error .indexError := by
  constructor
  · have := vol_short (nvol + 1) nvol ⟨activate true nvol .volumeCurrent si, si⟩ rfl (fun _ => rfl)
    show (do let s' ← loopTo (volStep (nvol + 1) si) (nvol + 1) _; _) = _
    rw [this]
    rfl
  · unfold runIsurf Prof.getRange
    rw [if_neg (by simp [activate, activeLength, mvolOf]; omega)]
    rfl

/-- With a fixed boundary, three volumes and currents 1, 2, 4 with the first two free: new values 3 and 7 send 3, 7, 9. -/
example : ∃ r, runVol false 3 (⟨⟨3, fun l => if l = 0 then 3 else 7, fun l => l != 2⟩, fun l => if l = 0 then 1 else if l = 1 then 2 else 4⟩ : PS ℚ) = .ok r ∧ r.si 0 = 3 ∧ r.si 1 = 7 ∧ r.si 2 = 9 := by
  obtain ⟨r, e, h1, h2, -⟩ := C173_volume_current 3 (⟨⟨3, fun l => if l = 0 then 3 else 7, fun l => l != 2⟩, fun l => if l = 0 then 1 else if l = 1 then 2 else 4⟩ : PS ℚ) le_rfl
    (fun l l' h1 h2 h3 => by have : l = 1 := by omega
                             subst this; exact fun _ => rfl)
  have a := (h1 0 (by omega) rfl).1
  have b := (h1 1 (by omega) rfl).1
  have c := (h2 1 (by omega) rfl).1
  norm_num at a b c
  refine ⟨r, e, a, b, ?_⟩
  rw [b] at c; linarith

end Simsopt.Spec
