import Verif.Util.Lemmas
/-!
# Properties C20, C21, C22 and C45
-/
namespace Simsopt.Util
open Simsopt

/-! ### C20: parallel_loop_bounds -/

theorem bounds_eq {size n rank : Nat} (hr : rank < size) :
    parallelLoopBounds (some (rank, size)) n = .ok (rank * n / size, (rank + 1) * n / size) := by
  unfold parallelLoopBounds
  have hs : 0 < size := by omega
  have hhead : ((List.range (size + 1)).map (fun i => i * n / size)).head? = some 0 := by
    rw [List.range_succ_eq_map]; simp
  have hlast : ((List.range (size + 1)).map (fun i => i * n / size)).getLast? = some n := by
    rw [List.range_succ, List.map_append]; simp [Nat.mul_div_cancel_left n hs]
  have h1 : ((List.range (size + 1)).map (fun i => i * n / size))[rank]? = some (rank * n / size) := by
    rw [List.getElem?_map, List.getElem?_range (by omega)]; rfl
  have h2 : ((List.range (size + 1)).map (fun i => i * n / size))[rank + 1]? = some ((rank + 1) * n / size) := by
    rw [List.getElem?_map, List.getElem?_range (by omega)]; rfl
  simp only [hhead, hlast, h1, h2, ne_eq, not_true_eq_false, if_false]

/-- On every rank the call returns an interval `[a, b)` with `a ≤ b ≤ n`; the first starts at 0, the last ends at `n`, and each ends where
    the next begins. -/
theorem C20_consecutive (size n : Nat) (hs : 0 < size) :
    ∃ a b : Nat → Nat, (∀ r, r < size → parallelLoopBounds (some (r, size)) n = .ok (a r, b r) ∧ a r ≤ b r ∧ b r ≤ n) ∧
      a 0 = 0 ∧ b (size - 1) = n ∧ ∀ r, r + 1 < size → b r = a (r + 1) := by
  refine ⟨fun r => r * n / size, fun r => (r + 1) * n / size, ?_, by simp, ?_, fun r _ => rfl⟩
  · intro r hr
    refine ⟨bounds_eq hr, Nat.div_le_div_right (Nat.mul_le_mul_right n (Nat.le_succ r)), ?_⟩
    have : (r + 1) * n ≤ size * n := Nat.mul_le_mul_right n hr
    exact Nat.le_trans (Nat.div_le_div_right this) (by rw [Nat.mul_div_cancel_left n hs])
  · show (size - 1 + 1) * n / size = n
    rw [Nat.sub_add_cancel hs, Nat.mul_div_cancel_left n hs]

/-- Every index `0 .. n-1` is in the interval of exactly one rank, and no rank gets anything else. -/
theorem C20_exact_cover (size n : Nat) (hs : 0 < size) :
    (∀ k, k < n → ∃ r, r < size ∧ (∃ a b, parallelLoopBounds (some (r, size)) n = .ok (a, b) ∧ a ≤ k ∧ k < b) ∧
      ∀ r', r' < size → (∃ a b, parallelLoopBounds (some (r', size)) n = .ok (a, b) ∧ a ≤ k ∧ k < b) → r' = r) ∧
    (∀ r, r < size → ∀ a b, parallelLoopBounds (some (r, size)) n = .ok (a, b) → ∀ k, a ≤ k → k < b → k < n) := by
  have hmono : ∀ i j, i ≤ j → i * n / size ≤ j * n / size := fun i j h => Nat.div_le_div_right (Nat.mul_le_mul_right n h)
  constructor
  · intro k hk
    have hex : ∃ i, k < i * n / size := ⟨size, by rw [Nat.mul_div_cancel_left n hs]; exact hk⟩
    have hmin := Nat.find_spec hex
    have hpos : Nat.find hex ≠ 0 := by
      intro h0; rw [h0] at hmin; simp at hmin
    have hle : Nat.find hex ≤ size := Nat.find_min' hex (by rw [Nat.mul_div_cancel_left n hs]; exact hk)
    have hprev : ¬ k < (Nat.find hex - 1) * n / size := Nat.find_min hex (by omega)
    refine ⟨Nat.find hex - 1, by omega, ⟨_, _, bounds_eq (by omega), by omega, ?_⟩, ?_⟩
    · rw [show Nat.find hex - 1 + 1 = Nat.find hex by omega]; exact hmin
    · rintro r' hr' ⟨a, b, e, h1, h2⟩
      rw [bounds_eq hr'] at e
      cases e
      have ha : Nat.find hex ≤ r' + 1 := Nat.find_min' hex h2
      by_contra hne
      have : Nat.find hex ≤ r' := by omega
      have := hmono _ _ this
      omega
  · intro r hr a b e k _ hkb
    rw [bounds_eq hr] at e
    cases e
    have := hmono (r + 1) size hr
    rw [Nat.mul_div_cancel_left n hs] at this
    omega

/-- The lengths of any two ranks' intervals differ by at most one. -/
theorem C20_balanced (size n r r' : Nat) (hr : r < size) (hr' : r' < size) (a b a' b' : Nat)
    (h : parallelLoopBounds (some (r, size)) n = .ok (a, b)) (h' : parallelLoopBounds (some (r', size)) n = .ok (a', b')) :
    b - a ≤ (b' - a') + 1 := by
  rw [bounds_eq hr] at h
  rw [bounds_eq hr'] at h'
  cases h; cases h'
  have hs : 0 < size := by omega
  have up : ∀ i, (i + 1) * n / size ≤ i * n / size + n / size + 1 := by
    intro i
    rw [Nat.add_mul, Nat.one_mul]
    have h3 := Nat.add_div (a := i * n) (b := n) hs
    rw [h3]; split <;> omega
  have lo : ∀ i, i * n / size + n / size ≤ (i + 1) * n / size := by
    intro i
    rw [Nat.add_mul, Nat.one_mul]
    rw [Nat.add_div (a := i * n) (b := n) hs]; exact Nat.le_add_right _ _
  have := up r; have := lo r'
  omega

/-- Without a communicator the whole range is returned. -/
theorem C20_no_comm (n : Nat) : parallelLoopBounds none n = .ok (0, n) := rfl

example : parallelLoopBounds (some (1, 3)) 8 = .ok (2, 5) ∧ parallelLoopBounds (some (2, 3)) 8 = .ok (5, 8) := by decide
example : parallelLoopBounds (some (0, 5)) 2 = .ok (0, 0) := by decide

/-! ### C21: MpiPartition -/

/-- The number of groups is forced into `[1, nprocs]`, unchanged if it is already there, `nprocs` by default. -/
theorem C21_clamp (nprocs : Nat) (hN : 0 < nprocs) (ngroups : Option Int) :
    1 ≤ clampGroups nprocs ngroups ∧ clampGroups nprocs ngroups ≤ nprocs ∧
    (∀ g, ngroups = some g → 1 ≤ g → g ≤ nprocs → clampGroups nprocs ngroups = g) ∧
    (ngroups = none → clampGroups nprocs ngroups = nprocs) := by
  refine ⟨?_, ?_, ?_, ?_⟩
  · unfold clampGroups; simp only; split <;> split <;> omega
  · unfold clampGroups; simp only; split <;> split <;> omega
  · rintro g rfl h1 h2; unfold clampGroups; simp only; split <;> split <;> omega
  · rintro rfl; unfold clampGroups; simp only; (repeat' split) <;> omega

section
variable {rnd : ℚ → ℚ} (hrnd : Rounding rnd) {N : Nat} (hN : 0 < N) (hbig : N * N < 2 ^ 53) {ng : Option Int}
include hrnd hN hbig

theorem group_eq (r : Nat) (hr : r < N) : group rnd N (clampGroups N ng) r = ((r * (clampGroups N ng).toNat / N : Nat) : Int) := by
  obtain ⟨h1, h2, _⟩ := C21_clamp N hN ng
  unfold group
  have e : ((r : ℤ) * clampGroups N ng : ℤ) = ((r * (clampGroups N ng).toNat : Nat) : ℤ) := by
    push_cast; rw [Int.toNat_of_nonneg (by omega)]
  rw [e]
  have hlt : r * (clampGroups N ng).toNat < 2 ^ 53 := by
    refine Nat.lt_of_le_of_lt (Nat.mul_le_mul (Nat.le_of_lt hr) (?_ : _ ≤ N)) hbig
    omega
  rw [← hrnd.floor_div hN hlt]
  congr 2

theorem members_eq (r : Nat) (hr : r < N) : groupMembers rnd N (clampGroups N ng) r =
    let n := (clampGroups N ng).toNat; let g := r * n / N
    List.range' (lowRank N n g) (lowRank N n (g + 1) - lowRank N n g) := by
  obtain ⟨h1, h2, _⟩ := C21_clamp N hN ng
  have hn : 0 < (clampGroups N ng).toNat := by omega
  simp only
  rw [← filter_range N]
  · unfold groupMembers
    apply List.filter_congr
    intro q hq
    rw [List.mem_range] at hq
    rw [group_eq hrnd hN hbig q hq, group_eq hrnd hN hbig r hr]
    have := group_iff (N := N) (n := (clampGroups N ng).toNat) (g := r * (clampGroups N ng).toNat / N) (r := q) hN hn
    rw [decide_eq_decide, ← this, Nat.cast_inj]
  · exact lowRank_mono hn (Nat.le_succ _)
  · have hg : r * (clampGroups N ng).toNat / N < (clampGroups N ng).toNat := by
      rw [Nat.div_lt_iff_lt_mul hN, Nat.mul_comm]; exact Nat.mul_lt_mul_of_pos_left hr hn
    have := lowRank_mono (N := N) hn hg
    rw [lowRank_top hn] at this; exact this

theorem leader_iff (r : Nat) (hr : r < N) : isLeader rnd N (clampGroups N ng) r = true ↔
    r = lowRank N (clampGroups N ng).toNat (r * (clampGroups N ng).toNat / N) := by
  obtain ⟨h1, h2, _⟩ := C21_clamp N hN ng
  have hn : 0 < (clampGroups N ng).toNat := by omega
  have hm := (group_iff (N := N) (n := (clampGroups N ng).toNat) (g := r * (clampGroups N ng).toNat / N) (r := r) hN hn).mp rfl
  unfold isLeader rankGroups
  rw [members_eq hrnd hN hbig r hr]
  simp only
  generalize lowRank N (clampGroups N ng).toNat (r * (clampGroups N ng).toNat / N) = a at *
  generalize lowRank N (clampGroups N ng).toNat (r * (clampGroups N ng).toNat / N + 1) = b at *
  have : b - a = (b - a - 1) + 1 := by omega
  rw [this, List.range'_succ, List.idxOf_cons]
  by_cases h : a = r
  · simp [h]
  · have hb : (a == r) = false := by simpa using h
    rw [hb]
    constructor
    · intro h'; simp at h'
    · intro h'; exact absurd h'.symm h

theorem leaders_eq : leaders rnd N (clampGroups N ng) =
    (List.range (clampGroups N ng).toNat).map (lowRank N (clampGroups N ng).toNat) := by
  obtain ⟨h1, h2, _⟩ := C21_clamp N hN ng
  have hn : 0 < (clampGroups N ng).toNat := by omega
  have hle : (clampGroups N ng).toNat ≤ N := by omega
  have s1 : (leaders rnd N (clampGroups N ng)).Pairwise (· < ·) := List.pairwise_lt_range.filter _
  have s2 : ((List.range (clampGroups N ng).toNat).map (lowRank N (clampGroups N ng).toNat)).Pairwise (· < ·) := by
    rw [List.pairwise_map]
    exact List.pairwise_lt_range.imp (fun {a b} h => lowRank_strict hn hle h)
  refine List.Perm.eq_of_pairwise (fun a b _ _ hab hba => absurd hab (Nat.lt_asymm hba)) s1 s2 ?_
  refine (List.perm_ext_iff_of_nodup (s1.imp (fun {a b} h => Nat.ne_of_lt h)) (s2.imp (fun {a b} h => Nat.ne_of_lt h))).mpr ?_
  intro r
  unfold leaders
  rw [List.mem_filter, List.mem_map, List.mem_range]
  constructor
  · rintro ⟨hr, hl⟩
    rw [leader_iff hrnd hN hbig r hr] at hl
    refine ⟨r * (clampGroups N ng).toNat / N, ?_, hl.symm⟩
    rw [List.mem_range, Nat.div_lt_iff_lt_mul hN, Nat.mul_comm]; exact Nat.mul_lt_mul_of_pos_left hr hn
  · rintro ⟨g, hg, rfl⟩
    rw [List.mem_range] at hg
    have hlt : lowRank N (clampGroups N ng).toNat g < N := by
      have := lowRank_strict hn hle hg
      rw [lowRank_top hn] at this; exact this
    refine ⟨hlt, ?_⟩
    rw [leader_iff hrnd hN hbig _ hlt]
    have : lowRank N (clampGroups N ng).toNat g * (clampGroups N ng).toNat / N = g := by
      rw [group_iff hN hn]
      exact ⟨Nat.le_refl _, lowRank_strict hn hle (Nat.lt_succ_self g)⟩
    rw [this]

/-- Every process is in a group numbered `0 .. ngroups-1`, group numbers do not decrease with the rank (so groups are contiguous
    ranges of ranks), and every group has a member. -/
theorem C21_groups (r : Nat) (hr : r < N) :
    (0 ≤ group rnd N (clampGroups N ng) r ∧ group rnd N (clampGroups N ng) r < clampGroups N ng) ∧
    (∀ r', r ≤ r' → r' < N → group rnd N (clampGroups N ng) r ≤ group rnd N (clampGroups N ng) r') ∧
    (∀ g : Int, 0 ≤ g → g < clampGroups N ng → ∃ q, q < N ∧ group rnd N (clampGroups N ng) q = g) := by
  obtain ⟨h1, h2, _⟩ := C21_clamp N hN ng
  have hn : 0 < (clampGroups N ng).toNat := by omega
  have hle : (clampGroups N ng).toNat ≤ N := by omega
  refine ⟨?_, ?_, ?_⟩
  · rw [group_eq hrnd hN hbig r hr]
    have hg : r * (clampGroups N ng).toNat / N < (clampGroups N ng).toNat := by
      rw [Nat.div_lt_iff_lt_mul hN, Nat.mul_comm]; exact Nat.mul_lt_mul_of_pos_left hr hn
    refine ⟨Int.natCast_nonneg _, ?_⟩
    have : ((r * (clampGroups N ng).toNat / N : Nat) : Int) < ((clampGroups N ng).toNat : Int) := by exact_mod_cast hg
    rw [Int.toNat_of_nonneg (by omega)] at this
    exact this
  · intro r' hrr hr'
    rw [group_eq hrnd hN hbig r hr, group_eq hrnd hN hbig r' hr']
    exact_mod_cast Nat.div_le_div_right (Nat.mul_le_mul_right _ hrr)
  · intro g hg0 hg
    obtain ⟨k, rfl⟩ := Int.eq_ofNat_of_zero_le hg0
    have hk : k < (clampGroups N ng).toNat := by omega
    have hlt : lowRank N (clampGroups N ng).toNat k < N := by
      have := lowRank_strict hn hle hk
      rw [lowRank_top hn] at this; exact this
    refine ⟨_, hlt, ?_⟩
    rw [group_eq hrnd hN hbig _ hlt, Nat.cast_inj, group_iff hN hn]
    exact ⟨Nat.le_refl _, lowRank_strict hn hle (Nat.lt_succ_self k)⟩

/-- Group sizes differ by at most one. -/
theorem C21_balanced (r r' : Nat) (hr : r < N) (hr' : r' < N) :
    (groupMembers rnd N (clampGroups N ng) r).length ≤ (groupMembers rnd N (clampGroups N ng) r').length + 1 := by
  obtain ⟨h1, h2, _⟩ := C21_clamp N hN ng
  have hn : 0 < (clampGroups N ng).toNat := by omega
  rw [members_eq hrnd hN hbig r hr, members_eq hrnd hN hbig r' hr']
  simp only [List.length_range']
  have a := lowRank_step (N := N) (n := (clampGroups N ng).toNat) (g := r * (clampGroups N ng).toNat / N) hn
  have b := lowRank_step (N := N) (n := (clampGroups N ng).toNat) (g := r' * (clampGroups N ng).toNat / N) hn
  omega

/-- A process is a leader exactly when it is the lowest rank of its group. -/
theorem C21_leader_is_lowest (r : Nat) (hr : r < N) : isLeader rnd N (clampGroups N ng) r = true ↔
    ∀ q, q < N → group rnd N (clampGroups N ng) q = group rnd N (clampGroups N ng) r → r ≤ q := by
  obtain ⟨h1, h2, _⟩ := C21_clamp N hN ng
  have hn : 0 < (clampGroups N ng).toNat := by omega
  have hm := (group_iff (N := N) (n := (clampGroups N ng).toNat) (g := r * (clampGroups N ng).toNat / N) (r := r) hN hn).mp rfl
  rw [leader_iff hrnd hN hbig r hr]
  constructor
  · intro h q hq hg
    rw [group_eq hrnd hN hbig r hr, group_eq hrnd hN hbig q hq, Nat.cast_inj, group_iff hN hn] at hg
    omega
  · intro h
    have hlow : lowRank N (clampGroups N ng).toNat (r * (clampGroups N ng).toNat / N) < N := by omega
    have := h _ hlow (by
      rw [group_eq hrnd hN hbig r hr, group_eq hrnd hN hbig _ hlow, Nat.cast_inj, group_iff hN hn]
      omega)
    omega

/-- There are exactly `ngroups` leaders, one per group, and the rank of a leader among the leaders is its group number; rank 0 is
    a leader; non-leaders get -1. -/
theorem C21_leaders : ((leaders rnd N (clampGroups N ng)).length : Int) = clampGroups N ng ∧
    isLeader rnd N (clampGroups N ng) 0 = true ∧
    ∀ r, r < N → (isLeader rnd N (clampGroups N ng) r = true → rankLeaders rnd N (clampGroups N ng) r = group rnd N (clampGroups N ng) r) ∧
      (isLeader rnd N (clampGroups N ng) r = false → rankLeaders rnd N (clampGroups N ng) r = -1) := by
  obtain ⟨h1, h2, _⟩ := C21_clamp N hN ng
  have hn : 0 < (clampGroups N ng).toNat := by omega
  have hle : (clampGroups N ng).toNat ≤ N := by omega
  refine ⟨?_, ?_, ?_⟩
  · rw [leaders_eq hrnd hN hbig]; simp; omega
  · rw [leader_iff hrnd hN hbig 0 hN]; simp [lowRank_zero hn]
  · intro r hr
    refine ⟨fun hl => ?_, fun hl => by unfold rankLeaders; rw [hl]; rfl⟩
    unfold rankLeaders
    rw [if_pos hl, leaders_eq hrnd hN hbig, group_eq hrnd hN hbig r hr]
    rw [leader_iff hrnd hN hbig r hr] at hl
    have hg : r * (clampGroups N ng).toNat / N < (clampGroups N ng).toNat := by
      rw [Nat.div_lt_iff_lt_mul hN, Nat.mul_comm]; exact Nat.mul_lt_mul_of_pos_left hr hn
    generalize r * (clampGroups N ng).toNat / N = g at *
    have hnd : ((List.range (clampGroups N ng).toNat).map (lowRank N (clampGroups N ng).toNat)).Nodup := by
      refine List.Nodup.map_on ?_ List.nodup_range
      intro a _ b _ hab
      by_contra hne
      rcases Nat.lt_or_gt_of_ne hne with h | h
      · have := lowRank_strict hn hle h; omega
      · have := lowRank_strict hn hle h; omega
    have := hnd.idxOf_getElem g (by simpa using hg)
    rw [List.getElem_map, List.getElem_range, ← hl] at this
    rw [this]

end

/-- exact arithmetic is a rounding -/
theorem rounding_id : Rounding id := ⟨fun q => by simp; positivity, monotone_id, fun k _ => rfl⟩

example : (List.range 7).map (group id 7 (clampGroups 7 (some 3))) = [0, 0, 0, 1, 1, 2, 2] ∧
    leaders id 7 (clampGroups 7 (some 3)) = [0, 3, 5] ∧ (List.range 7).map (rankLeaders id 7 (clampGroups 7 (some 3))) = [0, -1, -1, 1, -1, 2, -1] := by
  decide +kernel

/-! ### C22: finite-difference steps -/

/-- When the call returns, entry `j` is `max(|x_j| rel_step, abs_step)` and every entry is strictly positive. -/
theorem C22_steps (rnd : ℝ → ℝ) (x : List ℝ) (absStep relStep : ℝ) (l : List ℝ)
    (h : finiteDifferenceSteps rnd x absStep relStep = .ok l) :
    l = x.map (fun xj => max (rnd (|xj| * relStep)) absStep) ∧ (∀ s ∈ l, 0 < s) ∧ 0 ≤ absStep ∧ 0 ≤ relStep := by
  unfold finiteDifferenceSteps at h
  split at h
  · cases h
  rename_i ha
  split at h
  · cases h
  rename_i hr
  simp only at h
  split at h
  · cases h
  rename_i hz
  cases h
  refine ⟨rfl, ?_, not_lt.mp ha, not_lt.mp hr⟩
  intro s hs
  obtain ⟨xj, _, rfl⟩ := List.mem_map.mp hs
  have h0 : (0 : ℝ) ≤ max (rnd (|xj| * relStep)) absStep := le_max_of_le_right (not_lt.mp ha)
  refine lt_of_le_of_ne h0 (fun he => hz ?_)
  rw [List.any_eq_true]
  exact ⟨_, hs, by simp [← he]⟩

/-- The call is rejected exactly when a step argument is negative or some step would be zero. -/
theorem C22_rejects (rnd : ℝ → ℝ) (x : List ℝ) (absStep relStep : ℝ) :
    finiteDifferenceSteps rnd x absStep relStep = .error .valueError ↔
      absStep < 0 ∨ relStep < 0 ∨ ∃ xj ∈ x, max (rnd (|xj| * relStep)) absStep = 0 := by
  unfold finiteDifferenceSteps
  by_cases ha : absStep < 0
  · simp [ha]
  by_cases hr : relStep < 0
  · simp [ha, hr]
  simp only [ha, hr, if_false, false_or]
  split
  · rename_i hz
    rw [List.any_eq_true] at hz
    obtain ⟨s, hs, he⟩ := hz
    obtain ⟨xj, hx, rfl⟩ := List.mem_map.mp hs
    simp only [true_iff]
    exact ⟨xj, hx, by simpa using he⟩
  · rename_i hz
    constructor
    · intro h; cases h
    · rintro ⟨xj, hx, he⟩
      exact absurd (List.any_eq_true.mpr ⟨_, List.mem_map.mpr ⟨xj, hx, rfl⟩, by simp [he]⟩) hz

/-- A positive `abs_step` is always enough. -/
theorem C22_abs_step_suffices (rnd : ℝ → ℝ) (x : List ℝ) (absStep relStep : ℝ) (ha : 0 < absStep) (hr : 0 ≤ relStep) :
    ∃ l, finiteDifferenceSteps rnd x absStep relStep = .ok l ∧ l.length = x.length ∧ ∀ s ∈ l, absStep ≤ s := by
  cases h : finiteDifferenceSteps rnd x absStep relStep with
  | error e =>
    have he : e = .valueError := by
      unfold finiteDifferenceSteps at h; simp only at h; split at h; · exact (by cases h; rfl)
      split at h; · exact (by cases h; rfl)
      split at h
      · cases h; rfl
      · cases h
    rw [he, C22_rejects] at h
    rcases h with h | h | ⟨xj, _, h⟩
    · linarith
    · linarith
    · have := le_max_right (rnd (|xj| * relStep)) absStep; linarith
  | ok l =>
    obtain ⟨e, _⟩ := C22_steps rnd x absStep relStep l h
    refine ⟨l, rfl, by rw [e, List.length_map], ?_⟩
    intro s hs
    rw [e] at hs
    obtain ⟨xj, _, rfl⟩ := List.mem_map.mp hs
    exact le_max_right _ _

example : finiteDifferenceSteps id [2, 0] 0 1 = .error .valueError := by
  rw [C22_rejects]; right; right; exact ⟨0, by simp, by simp⟩
example : finiteDifferenceSteps id [2, -4] 0 (1/2) = .ok [1, 2] := by
  unfold finiteDifferenceSteps
  norm_num [abs_of_nonneg, abs_of_neg]

/-! ### C45: list helpers -/

/-- `unique(l)` has the same elements, none twice, in the order of first occurrence (it is a subsequence of `l`). -/
theorem C45_unique {α : Type} [DecidableEq α] (l : List α) :
    (∀ a, a ∈ unique l ↔ a ∈ l) ∧ (unique l).Nodup ∧ (unique l).Sublist l := unique_spec l

/-- `nested_lists_to_array` returns one row per list, all of the length of the longest list; entry `(m, n)` is the given value, or 0 when
    the value is `None` or the list is too short. -/
theorem C45_nested_lists {α : Type} [Zero α] (ll : List (List (Option α))) (h : ll ≠ []) :
    ∃ arr : List (List α), nestedListsToArray ll = .ok arr ∧ arr.length = ll.length ∧
      (∃ ndim, (∀ r ∈ ll, r.length ≤ ndim) ∧ ((∃ r ∈ ll, r.length = ndim) ∨ ndim = 0) ∧ ∀ r ∈ arr, r.length = ndim) ∧
      ∀ (m n : Nat) (r : List (Option α)), ll[m]? = some r → (∀ v, r[n]? = some (some v) → ∃ row : List α, arr[m]? = some row ∧ row[n]? = some v) ∧
        (∀ row : List α, arr[m]? = some row → n < row.length → (r[n]? = none ∨ r[n]? = some none) → row[n]? = some 0) := by
  obtain ⟨a, l, rfl⟩ := List.exists_cons_of_ne_nil h
  generalize hL : a :: l = ll at *
  have hnd : nestedListsToArray ll = .ok (ll.map (padRow ((ll.map List.length).foldl max 0))) := by
    rw [← hL]; rfl
  have hfold : ∀ (q : List Nat) (b : Nat), (b ≤ q.foldl max b) ∧ (∀ x ∈ q, x ≤ q.foldl max b) ∧ (q.foldl max b = b ∨ q.foldl max b ∈ q) := by
    intro q
    induction q with
    | nil => intro b; simp
    | cons x q ih =>
      intro b
      rw [List.foldl_cons]
      obtain ⟨h1, h2, h3⟩ := ih (max b x)
      refine ⟨le_trans (le_max_left b x) h1, ?_, ?_⟩
      · intro y hy
        rcases List.mem_cons.mp hy with rfl | hy
        · exact le_trans (le_max_right b y) h1
        · exact h2 y hy
      · rcases h3 with h3 | h3
        · rw [h3]
          rcases max_choice b x with h | h
          · exact Or.inl h
          · right; rw [h]; exact List.mem_cons_self
        · exact Or.inr (List.mem_cons_of_mem _ h3)
  obtain ⟨_, hge, hat⟩ := hfold (ll.map List.length) 0
  generalize (ll.map List.length).foldl max 0 = ndim at *
  refine ⟨_, hnd, by simp, ⟨ndim, ?_, ?_, ?_⟩, ?_⟩
  · intro r hr; exact hge _ (List.mem_map.mpr ⟨r, hr, rfl⟩)
  · rcases hat with h0 | hm
    · exact Or.inr h0
    · obtain ⟨r, hr, e⟩ := List.mem_map.mp hm; exact Or.inl ⟨r, hr, e⟩
  · intro r hr
    obtain ⟨q, _, rfl⟩ := List.mem_map.mp hr
    simp [padRow]
  · intro m n r hmr
    have hrow : (ll.map (padRow ndim))[m]? = some (padRow ndim r) := by rw [List.getElem?_map, hmr]; rfl
    have hle : r.length ≤ ndim := hge _ (List.mem_map.mpr ⟨r, List.mem_of_getElem? hmr, rfl⟩)
    constructor
    · intro v hv
      refine ⟨_, hrow, ?_⟩
      have hn : n < ndim := by
        have := (List.getElem?_eq_some_iff.mp hv).1; omega
      unfold padRow
      rw [List.getElem?_map, List.getElem?_range hn]
      simp [hv]
    · intro row hr' hlen hcase
      rw [hrow] at hr'; cases hr'
      have hn : n < ndim := by simpa [padRow] using hlen
      unfold padRow
      rw [List.getElem?_map, List.getElem?_range hn]
      rcases hcase with hc | hc <;> simp [hc]

example : unique [3, 1, 3, 2, 1] = [3, 1, 2] := by decide
example : nestedListsToArray [[some 1, none], [], [some 2, some 3, some (4 : Int)]] = .ok [[1, 0, 0], [0, 0, 0], [2, 3, 4]] := by decide

end Simsopt.Util
