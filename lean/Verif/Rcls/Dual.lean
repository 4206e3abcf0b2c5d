import Verif.Wireframe.GscoGreedy
import Mathlib.Tactic.FieldSimp
/-!
# Currents that violate a single constraint of an unconstrained wireframe

For every continuity constraint, and for the two constraints on total currents, there are currents for which that constraint has the value 1 and all the others the value 0.  So the constraints are independent.
-/
namespace Simsopt.Wireframe

variable {g : Grid}

theorem Grid.cont_iff {i j : Nat} : g.hasContinuity i j = true ↔ ¬ ((i = 0 ∨ i = g.N) ∧ (j = 0 ∨ g.h ≤ j)) := by
  simp only [Grid.hasContinuity, Bool.not_eq_true', Bool.and_eq_false_iff, Bool.or_eq_false_iff, beq_eq_false_iff_ne, decide_eq_false_iff_not]
  tauto

/-- The coefficient of a toroidal segment in a continuity constraint. -/
theorem Grid.row_tor (h2 : 2 ≤ g.N) (h1 : 1 ≤ g.h) {i j a b : Nat} (hi : i ≤ g.N) (hj : j < g.n) (hc : g.hasContinuity i j = true) (ha : a < g.N) (hb : b < g.n) :
    contRow (g.connected i j) (g.torKey a b) =
      (if i = a ∧ j = b then 1 else 0) - (if i = a + 1 ∧ j = b then 1 else 0) - (if a = 0 ∧ i = 0 ∧ j + b = g.n then 1 else 0) + (if a = g.N - 1 ∧ i = g.N ∧ j + b = g.n then 1 else 0) := by
  have hn : g.n = 2 * g.h := rfl
  rw [Grid.cont_iff] at hc
  have np : ∀ {c d : Nat}, g.HasPol c d → (g.torKey a b = g.polKey c d) = False := fun hv => eq_false (Grid.tor_ne_pol h2 h1 ha hb hv)
  have te : ∀ {c d : Nat}, c < g.N → d < g.n → (g.torKey a b = g.torKey c d) = (a = c ∧ b = d) := fun hc hd => propext (Grid.torKey_inj ha hb hc hd)
  rcases Nat.eq_zero_or_pos i with h0 | h0
  · subst h0
    have hj1 : 1 ≤ j ∧ j < g.h := by
      by_contra hcon; exact hc ⟨Or.inl rfl, by omega⟩
    have hm : (g.n - j) % g.n = g.n - j := Nat.mod_eq_of_lt (by omega)
    have e1 : (g.connected 0 j).torOut = g.torKey 0 j := by simp [Grid.connected]
    have e2 : (g.connected 0 j).torIn = g.torKey 0 (g.n - j) := by simp [Grid.connected, hm]
    have e3 : (g.connected 0 j).polOut = g.polKey 0 j := by simp [Grid.connected, hj1.2, show j ≠ 0 by omega]
    have e4 : (g.connected 0 j).polIn = g.polKey 0 (j - 1) := by simp [Grid.connected, hj1.2, show j ≠ 0 by omega]
    simp only [contRow, e1, e2, e3, e4, te (show 0 < g.N by omega) hj, te (show 0 < g.N by omega) (show g.n - j < g.n by omega), np (c := 0) (d := j) (Or.inr ⟨Or.inl rfl, hj1.2⟩), np (c := 0) (d := j - 1) (Or.inr ⟨Or.inl rfl, by omega⟩), or_false, true_and]
    rw [if_neg (show ¬ (0 = a + 1 ∧ j = b) by omega)]
    split_ifs <;> first | (exfalso; omega) | norm_num
  · rcases Nat.lt_or_ge i g.N with hN | hN
    · have e1 : (g.connected i j).torOut = g.torKey i j := by simp [Grid.connected, hN, show i ≠ 0 by omega]
      have e2 : (g.connected i j).torIn = g.torKey (i - 1) j := by simp [Grid.connected, hN, show i ≠ 0 by omega]
      have e3 : ∃ d, d < g.n ∧ (g.connected i j).polOut = g.polKey i d := ⟨j, hj, by simp [Grid.connected, hN, show i ≠ 0 by omega]⟩
      have e4 : ∃ d, d < g.n ∧ (g.connected i j).polIn = g.polKey i d := by
        by_cases hj0 : j = 0
        · exact ⟨g.n - 1, by omega, by simp [Grid.connected, hN, show i ≠ 0 by omega, hj0]⟩
        · exact ⟨j - 1, by omega, by simp [Grid.connected, hN, show i ≠ 0 by omega, hj0]⟩
      obtain ⟨d3, hd3, e3⟩ := e3
      obtain ⟨d4, hd4, e4⟩ := e4
      simp only [contRow, e1, e2, e3, e4, te hN hj, te (show i - 1 < g.N by omega) hj, np (c := i) (d := d3) (Or.inl ⟨h0, hN, hd3⟩), np (c := i) (d := d4) (Or.inl ⟨h0, hN, hd4⟩), or_false, true_and]
      split_ifs <;> first | (exfalso; omega) | norm_num
    · have hiN : i = g.N := by omega
      subst hiN
      have hj1 : 1 ≤ j ∧ j < g.h := by
        by_contra hcon; exact hc ⟨Or.inr rfl, by omega⟩
      have hm : (g.n - j) % g.n = g.n - j := Nat.mod_eq_of_lt (by omega)
      have hN0 : g.N ≠ 0 := by omega
      have e1 : (g.connected g.N j).torOut = g.torKey (g.N - 1) (g.n - j) := by simp [Grid.connected, hm, hN0]
      have e2 : (g.connected g.N j).torIn = g.torKey (g.N - 1) j := by simp [Grid.connected, hN0]
      have e3 : (g.connected g.N j).polOut = g.polKey g.N j := by simp [Grid.connected, hj1.2, show j ≠ 0 by omega, hN0]
      have e4 : (g.connected g.N j).polIn = g.polKey g.N (j - 1) := by simp [Grid.connected, hj1.2, show j ≠ 0 by omega, hN0]
      simp only [contRow, e1, e2, e3, e4, te (show g.N - 1 < g.N by omega) hj, te (show g.N - 1 < g.N by omega) (show g.n - j < g.n by omega), np (c := g.N) (d := j) (Or.inr ⟨Or.inr rfl, hj1.2⟩),
        np (c := g.N) (d := j - 1) (Or.inr ⟨Or.inr rfl, by omega⟩), or_false, true_and]
      split_ifs <;> first | (exfalso; omega) | norm_num

/-- The coefficient of a poloidal segment of the first symmetry plane in a continuity constraint. -/
theorem Grid.row_pol0 (h2 : 2 ≤ g.N) (h1 : 1 ≤ g.h) {i j b : Nat} (hi : i ≤ g.N) (hj : j < g.n) (hc : g.hasContinuity i j = true) (hb : b < g.h) :
    contRow (g.connected i j) (g.polKey 0 b) = (if i = 0 ∧ j = b then 1 else 0) - (if i = 0 ∧ j = b + 1 then 1 else 0) := by
  have hn : g.n = 2 * g.h := rfl
  rw [Grid.cont_iff] at hc
  have hvb : g.HasPol 0 b := Or.inr ⟨Or.inl rfl, hb⟩
  have nt : ∀ {c d : Nat}, c < g.N → d < g.n → (g.polKey 0 b = g.torKey c d) = False := fun hc hd => eq_false (Grid.tor_ne_pol h2 h1 hc hd hvb).symm
  have pe : ∀ {c d : Nat}, g.HasPol c d → (g.polKey 0 b = g.polKey c d) = (0 = c ∧ b = d) := fun hv => propext (Grid.polKey_inj h2 h1 hvb hv)
  rcases Nat.eq_zero_or_pos i with h0 | h0
  · subst h0
    have hj1 : 1 ≤ j ∧ j < g.h := by
      by_contra hcon; exact hc ⟨Or.inl rfl, by omega⟩
    have hm : (g.n - j) % g.n = g.n - j := Nat.mod_eq_of_lt (by omega)
    have e1 : (g.connected 0 j).torOut = g.torKey 0 j := by simp [Grid.connected]
    have e2 : (g.connected 0 j).torIn = g.torKey 0 (g.n - j) := by simp [Grid.connected, hm]
    have e3 : (g.connected 0 j).polOut = g.polKey 0 j := by simp [Grid.connected, hj1.2, show j ≠ 0 by omega]
    have e4 : (g.connected 0 j).polIn = g.polKey 0 (j - 1) := by simp [Grid.connected, hj1.2, show j ≠ 0 by omega]
    simp only [contRow, e1, e2, e3, e4, nt (show 0 < g.N by omega) hj, nt (show 0 < g.N by omega) (show g.n - j < g.n by omega), pe (c := 0) (d := j) (Or.inr ⟨Or.inl rfl, hj1.2⟩), pe (c := 0) (d := j - 1) (Or.inr ⟨Or.inl rfl, by omega⟩), false_or, true_and]
    split_ifs <;> first | (exfalso; omega) | norm_num
  · rcases Nat.lt_or_ge i g.N with hN | hN
    · have e1 : (g.connected i j).torOut = g.torKey i j := by simp [Grid.connected, hN, show i ≠ 0 by omega]
      have e2 : (g.connected i j).torIn = g.torKey (i - 1) j := by simp [Grid.connected, hN, show i ≠ 0 by omega]
      have e3 : ∃ d, d < g.n ∧ (g.connected i j).polOut = g.polKey i d := ⟨j, hj, by simp [Grid.connected, hN, show i ≠ 0 by omega]⟩
      have e4 : ∃ d, d < g.n ∧ (g.connected i j).polIn = g.polKey i d := by
        by_cases hj0 : j = 0
        · exact ⟨g.n - 1, by omega, by simp [Grid.connected, hN, show i ≠ 0 by omega, hj0]⟩
        · exact ⟨j - 1, by omega, by simp [Grid.connected, hN, show i ≠ 0 by omega, hj0]⟩
      obtain ⟨d3, hd3, e3⟩ := e3
      obtain ⟨d4, hd4, e4⟩ := e4
      simp only [contRow, e1, e2, e3, e4, nt hN hj, nt (show i - 1 < g.N by omega) hj, pe (c := i) (d := d3) (Or.inl ⟨h0, hN, hd3⟩), pe (c := i) (d := d4) (Or.inl ⟨h0, hN, hd4⟩), false_or, true_and]
      split_ifs <;> first | (exfalso; omega) | norm_num
    · have hiN : i = g.N := by omega
      subst hiN
      have hj1 : 1 ≤ j ∧ j < g.h := by
        by_contra hcon; exact hc ⟨Or.inr rfl, by omega⟩
      have hm : (g.n - j) % g.n = g.n - j := Nat.mod_eq_of_lt (by omega)
      have hN0 : g.N ≠ 0 := by omega
      have e1 : (g.connected g.N j).torOut = g.torKey (g.N - 1) (g.n - j) := by simp [Grid.connected, hm, hN0]
      have e2 : (g.connected g.N j).torIn = g.torKey (g.N - 1) j := by simp [Grid.connected, hN0]
      have e3 : (g.connected g.N j).polOut = g.polKey g.N j := by simp [Grid.connected, hj1.2, show j ≠ 0 by omega, hN0]
      have e4 : (g.connected g.N j).polIn = g.polKey g.N (j - 1) := by simp [Grid.connected, hj1.2, show j ≠ 0 by omega, hN0]
      simp only [contRow, e1, e2, e3, e4, nt (show g.N - 1 < g.N by omega) hj, nt (show g.N - 1 < g.N by omega) (show g.n - j < g.n by omega), pe (c := g.N) (d := j) (Or.inr ⟨Or.inr rfl, hj1.2⟩),
        pe (c := g.N) (d := j - 1) (Or.inr ⟨Or.inr rfl, by omega⟩), false_or, true_and]
      split_ifs <;> first | (exfalso; omega) | norm_num

/-- A current of one unit in one segment. -/
def unitCur (s : Int) : Int → ℝ := fun t => if t = s then 1 else 0

theorem Grid.apply_unit (r : Row) {s : Int} (h0 : 0 ≤ s) (hs : s < g.nSeg) : g.apply r (unitCur s) = r s := by
  obtain ⟨m, rfl⟩ := Int.eq_ofNat_of_zero_le h0
  rw [Grid.apply, Finset.sum_eq_single m]
  · simp [unitCur]
  · intro t _ ht
    have : ((t : Int) = (m : Int)) = False := eq_false (by omega)
    simp [unitCur, this, ht]
  · intro h; exact absurd (Finset.mem_range.mpr (by omega)) h

theorem Grid.apply_add (r : Row) (x y : Int → ℝ) : g.apply r (fun s => x s + y s) = g.apply r x + g.apply r y := by
  simp only [Grid.apply, mul_add, Finset.sum_add_distrib]

theorem Grid.apply_smul (r : Row) (c : ℝ) (x : Int → ℝ) : g.apply r (fun s => c * x s) = c * g.apply r x := by
  simp only [Grid.apply, Finset.mul_sum]
  exact Finset.sum_congr rfl fun s _ => by ring

/-- Currents for which the given numbers leave the nodes. -/
def Grid.Leaves (g : Grid) (y : Int → ℝ) (δ : Nat → Nat → ℝ) : Prop := ∀ i ≤ g.N, ∀ j < g.n, g.hasContinuity i j = true → g.apply (contRow (g.connected i j)) y = δ i j

theorem Grid.torKey_range {a b : Nat} (ha : a < g.N) (hb : b < g.n) : 0 ≤ g.torKey a b ∧ g.torKey a b < g.nSeg := by
  have hs : g.nSeg = g.nTor + g.nPol := rfl
  have := Grid.torKey_lt ha hb
  rw [Grid.torKey_eq ha]; omega

theorem Grid.polKey_range (h2 : 2 ≤ g.N) (h1 : 1 ≤ g.h) {a b : Nat} (hv : g.HasPol a b) : 0 ≤ g.polKey a b ∧ g.polKey a b < g.nSeg := by
  have hs : g.nSeg = g.nTor + g.nPol := rfl
  have := Grid.polNo_lt h2 h1 hv
  rw [Grid.polKey_eq h2 h1 hv]; omega

/-- For every node there are currents that leave this node alone, as far as the constraints can tell. -/
theorem Grid.exists_leaves (h2 : 2 ≤ g.N) (h1 : 1 ≤ g.h) (a b : Nat) (ha : a ≤ g.N) (hb : b < g.n) (hc : g.hasContinuity a b = true) : ∃ y, g.Leaves y fun i j => if i = a ∧ j = b then 1 else 0 := by
  have hn : g.n = 2 * g.h := rfl
  -- the first plane
  have first : ∀ b, b < g.h → ∃ y, g.Leaves y fun i j => if i = 0 ∧ j = b then 1 else 0 := by
    intro b
    induction b with
    | zero =>
      intro _
      refine ⟨fun _ => 0, fun i _ j _ hc => ?_⟩
      rw [Grid.cont_iff] at hc
      show _ = if i = 0 ∧ j = 0 then (1 : ℝ) else 0
      rw [if_neg fun h => hc ⟨Or.inl h.1, Or.inl h.2⟩]
      simp [Grid.apply]
    | succ b ih =>
      intro hb
      obtain ⟨y, hy⟩ := ih (by omega)
      refine ⟨fun s => y s + -1 * unitCur (g.polKey 0 b) s, fun i hi j hj hc => ?_⟩
      obtain ⟨r0, r1⟩ := Grid.polKey_range h2 h1 (a := 0) (b := b) (Or.inr ⟨Or.inl rfl, by omega⟩)
      rw [Grid.apply_add, Grid.apply_smul, hy i hi j hj hc, Grid.apply_unit _ r0 r1, Grid.row_pol0 h2 h1 hi hj hc (by omega)]
      ring
  -- the second plane
  have second : ∀ b, b < g.n → ∃ y, g.Leaves y fun i j => if i = 1 ∧ j = b then 1 else 0 := by
    intro b hb
    obtain ⟨r0, r1⟩ := Grid.torKey_range (a := 0) (b := b) (by omega) hb
    by_cases hbh : 1 ≤ b ∧ b < g.h
    · obtain ⟨y, hy⟩ := first b hbh.2
      refine ⟨fun s => y s + -1 * unitCur (g.torKey 0 b) s, fun i hi j hj hc => ?_⟩
      rw [Grid.apply_add, Grid.apply_smul, hy i hi j hj hc, Grid.apply_unit _ r0 r1, Grid.row_tor h2 h1 hi hj hc (by omega) hb]
      rw [Grid.cont_iff] at hc
      dsimp only
      split_ifs <;> first | (exfalso; omega) | norm_num
    · by_cases hb' : g.h < b
      · obtain ⟨y, hy⟩ := first (g.n - b) (by omega)
        refine ⟨fun s => -1 * y s + -1 * unitCur (g.torKey 0 b) s, fun i hi j hj hc => ?_⟩
        rw [Grid.apply_add, Grid.apply_smul, Grid.apply_smul, hy i hi j hj hc, Grid.apply_unit _ r0 r1, Grid.row_tor h2 h1 hi hj hc (by omega) hb]
        rw [Grid.cont_iff] at hc
        dsimp only
        split_ifs <;> first | (exfalso; omega) | norm_num
      · refine ⟨fun s => -1 * unitCur (g.torKey 0 b) s, fun i hi j hj hc => ?_⟩
        rw [Grid.apply_smul, Grid.apply_unit _ r0 r1, Grid.row_tor h2 h1 hi hj hc (by omega) hb]
        rw [Grid.cont_iff] at hc
        dsimp only
        split_ifs <;> first | (exfalso; omega) | norm_num
  -- the others
  have rest : ∀ a, 1 ≤ a → a ≤ g.N → ∀ b, b < g.n → (a = g.N → b < g.h) → ∃ y, g.Leaves y fun i j => if i = a ∧ j = b then 1 else 0 := by
    intro a ha
    induction a, ha using Nat.le_induction with
    | base => intro _ b hb _; exact second b hb
    | succ a ha ih =>
      intro haN b hb hbh
      obtain ⟨y, hy⟩ := ih (by omega) b hb (by omega)
      obtain ⟨r0, r1⟩ := Grid.torKey_range (a := a) (b := b) (by omega) hb
      refine ⟨fun s => y s + -1 * unitCur (g.torKey a b) s, fun i hi j hj hc => ?_⟩
      rw [Grid.apply_add, Grid.apply_smul, hy i hi j hj hc, Grid.apply_unit _ r0 r1, Grid.row_tor h2 h1 hi hj hc (by omega) hb]
      rw [Grid.cont_iff] at hc
      dsimp only
      split_ifs <;> first | (exfalso; omega) | norm_num
  rw [Grid.cont_iff] at hc
  rcases Nat.eq_zero_or_pos a with h0 | h0
  · subst h0; exact first b (by by_contra h; exact hc ⟨Or.inl rfl, by omega⟩)
  · exact rest a h0 ha b hb fun e => by by_contra h; exact hc ⟨Or.inr e, by omega⟩

/-- The current `c` in every toroidal segment and `d` in every poloidal segment. -/
def Grid.uniform (g : Grid) (c d : ℝ) : Int → ℝ := fun s => if s < g.nTor then c else d

theorem Grid.uniform_flow (c d : ℝ) : g.IsFlow (g.uniform c d) (fun _ _ => c) (fun _ _ => d) := by
  refine ⟨fun _ _ => ⟨rfl, rfl⟩, fun _ _ => ⟨rfl, rfl⟩, fun s hs i j _ _ => ?_, fun s hs ht i j _ _ => ?_⟩
  · have : ((s : Int) < g.nTor) := by omega
    simp [Grid.uniform, this]
  · have : ¬ ((s : Int) < g.nTor) := by omega
    simp [Grid.uniform, this]

/-- Such currents are continuous, and their totals. -/
theorem Grid.uniform_spec (h2 : 2 ≤ g.N) (h1 : 1 ≤ g.h) (c d : ℝ) : g.Continuous (g.uniform c d) ∧ g.apply g.torRow (g.uniform c d) = g.n * c ∧ g.apply g.polRow (g.uniform c d) = 2 * g.N * d := by
  have hf := Grid.uniform_flow (g := g) c d
  have hx : g.Continuous (g.uniform c d) := (C83_continuity h2 h1 hf).mpr fun I J => rfl
  refine ⟨hx, ?_, ?_⟩
  · rw [C83_toroidal_current h2 h1 hf hx 0]; simp
  · rw [C83_poloidal_current h2 h1 hf hx 0]; simp

/-- Currents that leave a given node alone and have no totals. -/
theorem Grid.dual_node (h2 : 2 ≤ g.N) (h1 : 1 ≤ g.h) (a b : Nat) (ha : a ≤ g.N) (hb : b < g.n) (hc : g.hasContinuity a b = true) :
    ∃ y, (g.Leaves y fun i j => if i = a ∧ j = b then 1 else 0) ∧ g.apply g.torRow y = 0 ∧ g.apply g.polRow y = 0 := by
  obtain ⟨y, hy⟩ := Grid.exists_leaves h2 h1 a b ha hb hc
  have hn : (g.n : ℝ) ≠ 0 := by
    have : g.n = 2 * g.h := rfl
    have : g.n ≠ 0 := by omega
    exact_mod_cast this
  have hN : (g.N : ℝ) ≠ 0 := by
    have : g.N ≠ 0 := by omega
    exact_mod_cast this
  obtain ⟨u1, u2, u3⟩ := Grid.uniform_spec h2 h1 (-(g.apply g.torRow y) / g.n) (-(g.apply g.polRow y) / (2 * g.N))
  refine ⟨fun s => y s + g.uniform (-(g.apply g.torRow y) / g.n) (-(g.apply g.polRow y) / (2 * g.N)) s, fun i hi j hj hc => ?_, ?_, ?_⟩
  · rw [Grid.apply_add, hy i hi j hj hc, u1 i hi j hj hc, add_zero]
  · rw [Grid.apply_add, u2]; field_simp; ring
  · rw [Grid.apply_add, u3]; field_simp; ring

end Simsopt.Wireframe
