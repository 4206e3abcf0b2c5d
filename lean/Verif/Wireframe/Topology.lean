import Verif.Wireframe.Model
import Mathlib.Tactic.LinearCombination
/-!
# C83: the wireframe is a consistent grid on the torus and loops conserve current
-/
namespace Simsopt.Wireframe

variable {g : Grid}

theorem lin_lt {n N i j : Nat} (hi : i < N) (hj : j < n) : i * n + j < n * N := by
  calc i * n + j < i * n + n := by omega
    _ = (i + 1) * n := by ring
    _ ≤ N * n := Nat.mul_le_mul_right _ hi
    _ = n * N := Nat.mul_comm _ _

theorem lin_div {n i j : Nat} (hj : j < n) : (i * n + j) / n = i ∧ (i * n + j) % n = j := by
  constructor
  · rw [Nat.mul_comm, Nat.mul_add_div (by omega), Nat.div_eq_of_lt hj, Nat.add_zero]
  · rw [Nat.mul_comm, Nat.mul_add_mod, Nat.mod_eq_of_lt hj]

theorem lin_inj {n i j i' j' : Nat} (hj : j < n) (hj' : j' < n) (e : i * n + j = i' * n + j') : i = i' ∧ j = j' := by
  constructor
  · rw [← (lin_div hj (i := i)).1, e, (lin_div hj').1]
  · rw [← (lin_div hj (i := i)).2, e, (lin_div hj').2]

theorem Grid.node_inj {i j i' j' : Nat} (hj : j < g.n) (hj' : j' < g.n) (e : g.node i j = g.node i' j') : i = i' ∧ j = j' := lin_inj hj hj' e

/-- The nodes at which a poloidal segment starts. -/
def Grid.HasPol (g : Grid) (i j : Nat) : Prop := (0 < i ∧ i < g.N ∧ j < g.n) ∨ ((i = 0 ∨ i = g.N) ∧ j < g.h)

theorem Grid.torKey_eq {i j : Nat} (hi : i < g.N) : g.torKey i j = ((i * g.n + j : Nat) : Int) := if_pos hi

theorem Grid.torKey_lt {i j : Nat} (hi : i < g.N) (hj : j < g.n) : i * g.n + j < g.nTor := lin_lt hi hj

/-- The number of the poloidal segment that starts at `(i, j)`, without the offset. -/
def Grid.polNo (g : Grid) (i j : Nat) : Nat := if i = 0 then j else g.h + (i - 1) * g.n + j

theorem Grid.last_pol (h2 : 2 ≤ g.N) (h1 : 1 ≤ g.h) : g.nPol - g.h = g.h + (g.N - 1) * g.n := by
  obtain ⟨M, hM⟩ := Nat.exists_eq_add_of_le h2
  have : g.nPol = g.h + (g.N - 1) * g.n + g.h := by
    simp only [Grid.nPol, Grid.n, hM]
    have : 2 + M - 1 = M + 1 := by omega
    rw [this]
    ring
  omega

theorem Grid.polKey_eq (h2 : 2 ≤ g.N) (h1 : 1 ≤ g.h) {i j : Nat} (hv : g.HasPol i j) : g.polKey i j = ((g.nTor + g.polNo i j : Nat) : Int) := by
  have hl := Grid.last_pol h2 h1
  rcases hv with ⟨h0, hN, hj⟩ | ⟨h0 | h0, hj⟩
  · rw [Grid.polKey, if_neg (by omega), if_pos hN, Grid.polNo, if_neg (by omega)]
    congr 1; omega
  · subst h0
    rw [Grid.polKey, if_pos rfl, if_pos hj, Grid.polNo, if_pos rfl]
    congr 1; omega
  · subst h0
    rw [Grid.polKey, if_neg (by omega), if_neg (by omega), if_pos hj, Grid.polNo, if_neg (by omega), hl]
    congr 1; omega

theorem Grid.polNo_lt (h2 : 2 ≤ g.N) (h1 : 1 ≤ g.h) {i j : Nat} (hv : g.HasPol i j) : g.polNo i j < g.nPol := by
  have hl := Grid.last_pol h2 h1
  have hp : g.h + (g.N - 1) * g.n < g.nPol := by
    have : 0 < (g.N - 1) * g.n := Nat.mul_pos (by omega) (by unfold Grid.n; omega)
    omega
  rcases hv with ⟨h0, hN, hj⟩ | ⟨h0 | h0, hj⟩
  · rw [Grid.polNo, if_neg (by omega)]
    have : (i - 1) * g.n + j < (g.N - 1) * g.n := by
      have := lin_lt (i := i - 1) (N := g.N - 1) (by omega) hj
      rw [Nat.mul_comm]; rw [Nat.mul_comm] at this; rw [Nat.mul_comm g.n] ; rw [Nat.mul_comm]; rw [Nat.mul_comm] at this; linarith
    omega
  · rw [Grid.polNo, if_pos h0]; omega
  · subst h0
    rw [Grid.polNo, if_neg (by omega)]
    omega

theorem Grid.segStart_tor {i j : Nat} (hi : i < g.N) (hj : j < g.n) : g.segStart (i * g.n + j) = g.node i j := if_pos (Grid.torKey_lt hi hj)

theorem Grid.segStart_pol (h2 : 2 ≤ g.N) (h1 : 1 ≤ g.h) {i j : Nat} (hv : g.HasPol i j) : g.segStart (g.nTor + g.polNo i j) = g.node i j := by
  have hl := Grid.last_pol h2 h1
  have hn : g.n = 2 * g.h := rfl
  rw [Grid.segStart, if_neg (by omega)]
  simp only [Nat.add_sub_cancel_left]
  rcases hv with ⟨h0, hN, hj⟩ | ⟨h0 | h0, hj⟩
  · rw [show g.polNo i j = g.h + (i - 1) * g.n + j from if_neg (by omega)]
    have hlt : (i - 1) * g.n + j < (g.N - 1) * g.n := by
      have := lin_lt (i := i - 1) (N := g.N - 1) (by omega) hj
      rwa [Nat.mul_comm g.n] at this
    rw [if_neg (by omega), if_pos (by omega)]
    have e : g.h + (i - 1) * g.n + j - g.h = (i - 1) * g.n + j := by omega
    rw [e, (lin_div hj).1, (lin_div hj).2]
    congr 1; omega
  · subst h0
    rw [Grid.polNo, if_pos rfl, if_pos hj]
  · subst h0
    rw [show g.polNo g.N j = g.h + (g.N - 1) * g.n + j from if_neg (by omega), if_neg (by omega), if_neg (by omega)]
    congr 1; omega

/-! ### The currents on the torus -/

variable {x : Int → ℝ} {T P : Int → Int → ℝ}

theorem Grid.IsFlow.atTor (hf : g.IsFlow x T P) {i j : Nat} (hi : i < g.N) (hj : j < g.n) : T i j = x (g.torKey i j) ∧ T (-i - 1) (-j) = x (g.torKey i j) := by
  rw [Grid.torKey_eq hi]
  exact hf.tor _ (Grid.torKey_lt hi hj) i j hj (Grid.segStart_tor hi hj)

theorem Grid.HasPol.lt {i j : Nat} (hv : g.HasPol i j) : j < g.n := by
  have hn : g.n = 2 * g.h := rfl
  rcases hv with ⟨_, _, hj⟩ | ⟨_, hj⟩ <;> omega

theorem Grid.IsFlow.atPol (hf : g.IsFlow x T P) (h2 : 2 ≤ g.N) (h1 : 1 ≤ g.h) {i j : Nat} (hv : g.HasPol i j) : P i j = x (g.polKey i j) ∧ P (-i) (-j - 1) = x (g.polKey i j) := by
  rw [Grid.polKey_eq h2 h1 hv]
  have hlt := Grid.polNo_lt h2 h1 hv
  exact hf.pol _ (by unfold Grid.nSeg; omega) (by omega) i j hv.lt (Grid.segStart_pol h2 h1 hv)

theorem per_mul {f : Int → ℝ} {a : Int} (h : ∀ I, f (I + a) = f I) (k I : Int) : f (I + k * a) = f I := by
  induction k using Int.induction_on with
  | zero => simp
  | succ k ih => rw [show I + ((k : Int) + 1) * a = (I + k * a) + a by ring, h, ih]
  | pred k ih => rw [← h, show I + (-(k : Int) - 1) * a + a = I + -(k : Int) * a by ring, ih]

theorem Grid.IsFlow.shiftT (hf : g.IsFlow x T P) (I J k l : Int) : T (I + k * (2 * g.N)) (J + l * g.n) = T I J := by
  rw [per_mul (f := fun I => T I (J + l * g.n)) (fun I => (hf.perT I _).1), per_mul (f := fun J => T I J) (fun J => (hf.perT I J).2)]

theorem Grid.IsFlow.shiftP (hf : g.IsFlow x T P) (I J k l : Int) : P (I + k * (2 * g.N)) (J + l * g.n) = P I J := by
  rw [per_mul (f := fun I => P I (J + l * g.n)) (fun I => (hf.perP I _).1), per_mul (f := fun J => P I J) (fun J => (hf.perP I J).2)]

/-- Every toroidal index is that of a cell of the half period, up to the symmetries. -/
theorem reduce (a b : Nat) (ha : 0 < a) (hb : 0 < b) (I J : Int) : ∃ (i j : Nat) (k l : Int), i < 2 * a ∧ j < b ∧ I = i + k * (2 * a) ∧ J = j + l * b := by
  have h1 := Int.emod_nonneg I (show (2 * a : Int) ≠ 0 by omega)
  have h2 := Int.emod_lt_of_pos I (show (0 : Int) < 2 * a by omega)
  have h3 := Int.emod_nonneg J (show (b : Int) ≠ 0 by omega)
  have h4 := Int.emod_lt_of_pos J (show (0 : Int) < b by omega)
  refine ⟨(I % (2 * a)).toNat, (J % b).toNat, I / (2 * a), J / b, by omega, by omega, ?_, ?_⟩
  · rw [Int.toNat_of_nonneg h1, mul_comm (I / _)]; exact (Int.emod_add_mul_ediv _ _).symm
  · rw [Int.toNat_of_nonneg h3, mul_comm (J / _)]; exact (Int.emod_add_mul_ediv _ _).symm

/-- Stellarator symmetry of the currents. -/
theorem Grid.IsFlow.symT (hf : g.IsFlow x T P) (h2 : 2 ≤ g.N) (h1 : 1 ≤ g.h) (I J : Int) : T (-I - 1) (-J) = T I J := by
  have hn : g.n = 2 * g.h := rfl
  obtain ⟨i, j, k, l, hi, hj, rfl, rfl⟩ := reduce g.N g.n (by omega) (by omega) I J
  have e : T (-((i : Int) + k * (2 * g.N)) - 1) (-((j : Int) + l * g.n)) = T (-i - 1) (-j) := by
    rw [← hf.shiftT (-i - 1) (-j) (-k) (-l)]; congr 1 <;> ring
  rw [e, hf.shiftT]
  rcases lt_or_ge i g.N with h | h
  · rw [(hf.atTor h hj).1, (hf.atTor h hj).2]
  · -- i = 2N - 1 - i', with image i'
    obtain ⟨i', hi'⟩ : ∃ i', i = 2 * g.N - 1 - i' ∧ i' < g.N := ⟨2 * g.N - 1 - i, by omega, by omega⟩
    have hj' : (g.n - j) % g.n < g.n := Nat.mod_lt _ (by omega)
    have key : ∃ l' : Int, (-(j : Int)) = ((g.n - j) % g.n : Nat) + l' * g.n := by
      rcases Nat.eq_zero_or_pos j with h0 | h0
      · refine ⟨0, ?_⟩; subst h0; simp
      · refine ⟨-1, ?_⟩; rw [Nat.mod_eq_of_lt (by omega)]; push_cast [Nat.cast_sub hj.le]; ring
    obtain ⟨l', hl'⟩ := key
    have a1 : T (-i - 1) (-j) = T i' ((g.n - j) % g.n : Nat) := by
      rw [← hf.shiftT i' _ (-1) l', ← hl']; congr 1; omega
    have a2 : T i j = T (-i' - 1) (-((g.n - j) % g.n : Nat)) := by
      rw [← hf.shiftT (-i' - 1) _ 1 (-l')]; congr 1
      · omega
      · linear_combination -hl'
    rw [a1, a2, (hf.atTor hi'.2 hj').1, (hf.atTor hi'.2 hj').2]

theorem Grid.IsFlow.symP (hf : g.IsFlow x T P) (h2 : 2 ≤ g.N) (h1 : 1 ≤ g.h) (I J : Int) : P (-I) (-J - 1) = P I J := by
  have hn : g.n = 2 * g.h := rfl
  obtain ⟨i, j, k, l, hi, hj, rfl, rfl⟩ := reduce g.N g.n (by omega) (by omega) I J
  have e : P (-((i : Int) + k * (2 * g.N))) (-((j : Int) + l * g.n) - 1) = P (-i) (-j - 1) := by
    rw [← hf.shiftP (-i) (-j - 1) (-k) (-l)]; congr 1 <;> ring
  rw [e, hf.shiftP]
  -- the mirror image of a start node
  have mir : ∀ i j : Nat, g.HasPol i j → ∀ k : Int, P (-i + k * (2 * g.N)) (g.n - 1 - j) = P i j ∧ P (i + k * (2 * g.N)) (-(g.n - 1 - j) - 1) = P (-i) (-j - 1) := by
    intro i j hv k
    obtain ⟨p1, p2⟩ := hf.atPol h2 h1 hv
    constructor
    · rw [show ((g.n : Int) - 1 - j) = (-j - 1) + 1 * g.n by ring, hf.shiftP, p1, p2]
    · rw [show (-((g.n : Int) - 1 - j) - 1) = j + (-1) * g.n by ring, hf.shiftP, p1, p2]
  by_cases hv : g.HasPol i j
  · rw [(hf.atPol h2 h1 hv).1, (hf.atPol h2 h1 hv).2]
  · -- the reflected node has a segment
    obtain ⟨j', hj'⟩ : ∃ j', j = g.n - 1 - j' ∧ j' < g.n := ⟨g.n - 1 - j, by omega, by omega⟩
    have hjc : (j : Int) = g.n - 1 - j' := by omega
    rcases lt_or_ge i (g.N + 1) with h | h
    · -- symmetry planes
      have hi0 : i = 0 ∨ i = g.N := by
        by_contra hc
        exact hv (Or.inl ⟨by omega, by omega, hj⟩)
      have hv' : g.HasPol i j' := Or.inr ⟨hi0, by
        by_contra hc
        exact hv (Or.inr ⟨hi0, by omega⟩)⟩
      rw [hjc]
      rcases hi0 with h0 | h0
      · have m1 := mir i j' hv' 0
        subst h0
        simp only [Nat.cast_zero, neg_zero, zero_mul, add_zero] at m1 ⊢
        have q := hf.atPol h2 h1 hv'
        simp only [Nat.cast_zero, neg_zero] at q
        rw [m1.1, m1.2, q.1, q.2]
      · have m1 := (mir i j' hv' 1).1
        have m2 := (mir i j' hv' (-1)).2
        rw [show (-(i : Int) + 1 * (2 * g.N)) = i by omega] at m1
        rw [show ((i : Int) + -1 * (2 * g.N)) = -i by omega] at m2
        rw [m1, m2, (hf.atPol h2 h1 hv').1, (hf.atPol h2 h1 hv').2]
    · obtain ⟨i', hi'⟩ : ∃ i', i = 2 * g.N - i' ∧ i' < g.N ∧ 0 < i' := ⟨2 * g.N - i, by omega, by omega, by omega⟩
      have hv' : g.HasPol i' j' := Or.inl ⟨hi'.2.2, hi'.2.1, hj'.2⟩
      have m1 := (mir i' j' hv' 1).1
      have m2 := (mir i' j' hv' (-1)).2
      rw [hjc, show (i : Int) = -i' + 1 * (2 * g.N) by omega, m1, show (-(-(i' : Int) + 1 * (2 * g.N))) = i' + -1 * (2 * g.N) by ring, m2, (hf.atPol h2 h1 hv').1, (hf.atPol h2 h1 hv').2]

/-! ### The continuity constraints -/

theorem Grid.polNo_inj (h2 : 2 ≤ g.N) (h1 : 1 ≤ g.h) {i j i' j' : Nat} (hv : g.HasPol i j) (hv' : g.HasPol i' j') (e : g.polNo i j = g.polNo i' j') : i = i' ∧ j = j' := by
  have := Grid.segStart_pol h2 h1 hv
  rw [e, Grid.segStart_pol h2 h1 hv'] at this
  exact Grid.node_inj hv.lt hv'.lt this.symm

theorem sum_ind (m k : Nat) (hk : k < m) (x : Int → ℝ) : ∑ s ∈ Finset.range m, (if (s : Int) = (k : Int) then (1 : ℝ) else 0) * x s = x k := by
  rw [Finset.sum_eq_single k]
  · simp
  · intro b _ hb
    rw [if_neg (by exact_mod_cast hb), zero_mul]
  · intro h; exact absurd (Finset.mem_range.mpr hk) h

theorem apply_contRow (a b c d : Nat) (ha : a < g.nTor) (hc : c < g.nTor) (hb : b < g.nPol) (hd : d < g.nPol) (hac : a ≠ c) (hbd : b ≠ d) :
    g.apply (contRow ⟨a, (g.nTor + b : Nat), c, (g.nTor + d : Nat)⟩) x = x c + x (g.nTor + d : Nat) - x a - x (g.nTor + b : Nat) := by
  have hs : g.nSeg = g.nTor + g.nPol := rfl
  rw [← sum_ind g.nSeg c (by omega) x, ← sum_ind g.nSeg (g.nTor + d) (by omega) x, ← sum_ind g.nSeg a (by omega) x, ← sum_ind g.nSeg (g.nTor + b) (by omega) x,
    ← Finset.sum_add_distrib, ← Finset.sum_sub_distrib, ← Finset.sum_sub_distrib]
  refine Finset.sum_congr rfl fun s _ => ?_
  simp only [contRow, Nat.cast_inj]
  by_cases e1 : s = c
  · subst e1
    rw [if_pos (Or.inl rfl), if_pos rfl, if_neg (by omega), if_neg (by omega), if_neg (by omega)]; ring
  · by_cases e2 : s = g.nTor + d
    · subst e2
      rw [if_pos (Or.inr rfl), if_neg (by omega), if_pos rfl, if_neg (by omega), if_neg (by omega)]; ring
    · rw [if_neg (not_or.mpr ⟨e1, e2⟩), if_neg e1, if_neg e2]
      by_cases e3 : s = a
      · subst e3
        rw [if_pos (Or.inl rfl), if_pos rfl, if_neg (by omega)]; ring
      · by_cases e4 : s = g.nTor + b
        · subst e4
          rw [if_pos (Or.inr rfl), if_pos rfl, if_neg (by omega)]; ring
        · rw [if_neg (not_or.mpr ⟨e3, e4⟩), if_neg e3, if_neg e4]; ring

/-- The left hand side of a continuity constraint, from the four keys. -/
theorem apply_conn (h2 : 2 ≤ g.N) (h1 : 1 ≤ g.h) {a b c d i j k l : Nat} (ha : a < g.N) (hb : b < g.n) (hc : c < g.N) (hd : d < g.n) (hij : g.HasPol i j) (hkl : g.HasPol k l)
    (hne : ¬ (a = c ∧ b = d)) (hne' : ¬ (i = k ∧ j = l)) :
    g.apply (contRow ⟨g.torKey a b, g.polKey i j, g.torKey c d, g.polKey k l⟩) x = x (g.torKey c d) + x (g.polKey k l) - x (g.torKey a b) - x (g.polKey i j) := by
  rw [Grid.torKey_eq ha, Grid.torKey_eq hc, Grid.polKey_eq h2 h1 hij, Grid.polKey_eq h2 h1 hkl]
  exact apply_contRow _ _ _ _ (Grid.torKey_lt ha hb) (Grid.torKey_lt hc hd) (Grid.polNo_lt h2 h1 hij) (Grid.polNo_lt h2 h1 hkl) (fun e => hne (lin_inj hb hd e)) (fun e => hne' (Grid.polNo_inj h2 h1 hij hkl e))

/-- What accumulates at a node of the torus. -/
def divergence (T P : Int → Int → ℝ) (I J : Int) : ℝ := T I J + P I J - T (I - 1) J - P I (J - 1)

/-- The row of a node with a constraint gives the current leaving the node. -/
theorem Grid.IsFlow.row (hf : g.IsFlow x T P) (h2 : 2 ≤ g.N) (h1 : 1 ≤ g.h) {i j : Nat} (hi : i ≤ g.N) (hj : j < g.n) (hc : g.hasContinuity i j = true) :
    g.apply (contRow (g.connected i j)) x = divergence T P i j := by
  have hn : g.n = 2 * g.h := rfl
  have hc' : ¬ ((i = 0 ∨ i = g.N) ∧ (j = 0 ∨ g.h ≤ j)) := by
    intro hcon
    simp only [Grid.hasContinuity] at hc
    rcases hcon with ⟨h3 | h3, h4 | h4⟩ <;> simp [h3, h4] at hc
  have flip : ∀ I : Int, 0 < j → T I (-j) = T I ((g.n - j : Nat)) := by
    intro I _
    rw [← hf.shiftT I (-j) 0 1]; congr 1
    · ring
    · push_cast [Nat.cast_sub hj.le]; ring
  rcases Nat.eq_zero_or_pos i with h0 | h0
  · subst h0
    have hj0 : 0 < j := by by_contra h; exact hc' ⟨Or.inl rfl, Or.inl (by omega)⟩
    have hjh : j < g.h := by by_contra h; exact hc' ⟨Or.inl rfl, Or.inr (by omega)⟩
    simp only [Grid.connected, if_true, if_neg (show ¬ j = 0 by omega), if_pos hjh]
    rw [Nat.mod_eq_of_lt (show g.n - j < g.n by omega)]
    have v1 : g.HasPol 0 (j - 1) := Or.inr ⟨Or.inl rfl, by omega⟩
    have v2 : g.HasPol 0 j := Or.inr ⟨Or.inl rfl, hjh⟩
    rw [apply_conn h2 h1 (by omega) (by omega) (by omega) hj v1 v2 (by omega) (by omega)]
    have t1 : T (((0 : Nat) : Int) - 1) j = x (g.torKey 0 (g.n - j)) := by
      rw [← (hf.atTor (i := 0) (by omega) (show g.n - j < g.n by omega)).1, ← flip _ hj0]
      have := hf.symT h2 h1 0 (-j)
      simpa using this
    have p1 : P ((0 : Nat) : Int) ((j : Int) - 1) = x (g.polKey 0 (j - 1)) := by
      rw [← (hf.atPol h2 h1 v1).1]; congr 1; omega
    rw [divergence, t1, p1, (hf.atTor (i := 0) (by omega) hj).1, (hf.atPol h2 h1 v2).1]
  · rcases lt_or_ge i g.N with hiN | hiN
    · simp only [Grid.connected, if_neg (show ¬ i = 0 by omega), if_pos hiN]
      have v2 : g.HasPol i j := Or.inl ⟨h0, hiN, hj⟩
      have t1 : T ((i : Int) - 1) j = x (g.torKey (i - 1) j) := by
        rw [← (hf.atTor (i := i - 1) (by omega) hj).1]; congr 1; omega
      by_cases hj0 : j = 0
      · rw [if_pos hj0]
        have v1 : g.HasPol i (g.n - 1) := Or.inl ⟨h0, hiN, by omega⟩
        rw [apply_conn h2 h1 (by omega) hj hiN hj v1 v2 (by omega) (by omega)]
        have p1 : P i ((j : Int) - 1) = x (g.polKey i (g.n - 1)) := by
          rw [← (hf.atPol h2 h1 v1).1, ← hf.shiftP i (j - 1) 0 1]; congr 1
          · ring
          · subst hj0; push_cast [Nat.cast_sub (show 1 ≤ g.n by omega)]; ring
        rw [divergence, t1, p1, (hf.atTor hiN hj).1, (hf.atPol h2 h1 v2).1]
      · rw [if_neg hj0]
        have v1 : g.HasPol i (j - 1) := Or.inl ⟨h0, hiN, by omega⟩
        rw [apply_conn h2 h1 (by omega) hj hiN hj v1 v2 (by omega) (by omega)]
        have p1 : P i ((j : Int) - 1) = x (g.polKey i (j - 1)) := by
          rw [← (hf.atPol h2 h1 v1).1]; congr 1; omega
        rw [divergence, t1, p1, (hf.atTor hiN hj).1, (hf.atPol h2 h1 v2).1]
    · have hiN : i = g.N := by omega
      subst hiN
      have hj0 : 0 < j := by by_contra h; exact hc' ⟨Or.inr rfl, Or.inl (by omega)⟩
      have hjh : j < g.h := by by_contra h; exact hc' ⟨Or.inr rfl, Or.inr (by omega)⟩
      simp only [Grid.connected, if_neg (show ¬ g.N = 0 by omega), if_neg (show ¬ g.N < g.N by omega), if_neg (show ¬ j = 0 by omega), if_pos hjh]
      rw [Nat.mod_eq_of_lt (show g.n - j < g.n by omega)]
      have v1 : g.HasPol g.N (j - 1) := Or.inr ⟨Or.inr rfl, by omega⟩
      have v2 : g.HasPol g.N j := Or.inr ⟨Or.inr rfl, hjh⟩
      rw [apply_conn h2 h1 (by omega) hj (by omega) (by omega) v1 v2 (by omega) (by omega)]
      have t1 : T ((g.N : Int) - 1) j = x (g.torKey (g.N - 1) j) := by
        rw [← (hf.atTor (i := g.N - 1) (by omega) hj).1]; congr 1; omega
      have t2 : T g.N j = x (g.torKey (g.N - 1) (g.n - j)) := by
        rw [← (hf.atTor (i := g.N - 1) (by omega) (show g.n - j < g.n by omega)).1, ← flip _ hj0, ← hf.symT h2 h1, ← hf.shiftT (-(g.N : Int) - 1) (-j) 1 0]
        congr 1
        · omega
        · ring
      have p1 : P g.N ((j : Int) - 1) = x (g.polKey g.N (j - 1)) := by
        rw [← (hf.atPol h2 h1 v1).1]; congr 1; omega
      rw [divergence, t1, t2, p1, (hf.atPol h2 h1 v2).1]

/-- Stellarator symmetry of the accumulation. -/
theorem Grid.IsFlow.div_sym (hf : g.IsFlow x T P) (h2 : 2 ≤ g.N) (h1 : 1 ≤ g.h) (I J : Int) : divergence T P (-I) (-J) = -divergence T P I J := by
  have a := hf.symT h2 h1 I J
  have b := hf.symT h2 h1 (I - 1) J
  have c := hf.symP h2 h1 I J
  have d := hf.symP h2 h1 I (J - 1)
  rw [show (-(I - 1) - 1 : Int) = -I by ring] at b
  rw [show (-(J - 1) - 1 : Int) = -J by ring] at d
  simp only [divergence]
  rw [a, b, c, d]
  ring

theorem Grid.IsFlow.div_shift (hf : g.IsFlow x T P) (I J k l : Int) : divergence T P (I + k * (2 * g.N)) (J + l * g.n) = divergence T P I J := by
  simp only [divergence]
  rw [hf.shiftT, hf.shiftP, show I + k * (2 * g.N) - 1 = (I - 1) + k * (2 * g.N) by ring, hf.shiftT, show J + l * g.n - 1 = (J - 1) + l * g.n by ring, hf.shiftP]

/-- **C83.** The continuity constraints of a wireframe, which are imposed on half a field period and only at some of the nodes of the symmetry planes, hold exactly if no current accumulates at any node of the whole torus. -/
theorem C83_continuity (h2 : 2 ≤ g.N) (h1 : 1 ≤ g.h) (hf : g.IsFlow x T P) : g.Continuous x ↔ DivFree T P := by
  have hn : g.n = 2 * g.h := rfl
  constructor
  · intro hx
    suffices hd : ∀ I J, divergence T P I J = 0 by
      intro I J; have := hd I J; simp only [divergence] at this; linarith
    -- nodes of the half period
    have base : ∀ i j : Nat, i ≤ g.N → j < g.n → divergence T P i j = 0 := by
      intro i j hi hj
      by_cases hc : g.hasContinuity i j = true
      · rw [← hf.row h2 h1 hi hj hc]; exact hx i hi j hj hc
      · have hc' : (i = 0 ∨ i = g.N) ∧ (j = 0 ∨ g.h ≤ j) := by
          simp only [Grid.hasContinuity] at hc
          simp at hc
          omega
        -- the mirror image
        have mir : ∀ j' : Nat, (∃ l : Int, (j' : Int) = -j + l * g.n) → divergence T P i j' = -divergence T P i j := by
          rintro j' ⟨l, hl⟩
          rw [← hf.div_sym h2 h1]
          rcases hc'.1 with h0 | h0
          · have := hf.div_shift (-i) (-j) 0 l
            rw [← hl] at this
            rw [← this]; congr 1; subst h0; simp
          · have := hf.div_shift (-i) (-j) 1 l
            rw [← hl] at this
            rw [← this]; congr 1; omega
        rcases Nat.eq_zero_or_pos j with h0 | h0
        · have := mir 0 ⟨0, by subst h0; simp⟩
          rw [h0] at this ⊢; linarith
        · rcases Nat.eq_or_lt_of_le (show g.h ≤ j by omega) with h3 | h3
          · have := mir j ⟨1, by omega⟩
            linarith
          · have h4 := mir (g.n - j) ⟨1, by omega⟩
            have h5 : g.hasContinuity i (g.n - j) = true := by
              simp only [Grid.hasContinuity, Bool.not_eq_true', Bool.and_eq_false_iff, Bool.or_eq_false_iff, beq_eq_false_iff_ne, decide_eq_false_iff_not]
              exact Or.inr ⟨by omega, by omega⟩
            rw [← hf.row h2 h1 hi (by omega) h5, hx i hi _ (by omega) h5] at h4
            linarith
    intro I J
    obtain ⟨i, j, k, l, hi, hj, rfl, rfl⟩ := reduce g.N g.n (by omega) (by omega) I J
    rw [hf.div_shift]
    rcases le_or_gt i g.N with h | h
    · exact base i j h hj
    · have h3 : divergence T P ((2 * g.N - i : Nat) : Int) (((g.n - j) % g.n : Nat) : Int) = -divergence T P i j := by
        rw [← hf.div_sym h2 h1]
        rcases Nat.eq_zero_or_pos j with h0 | h0
        · rw [← hf.div_shift (-i) (-j) 1 0]; congr 1
          · omega
          · subst h0; simp
        · rw [← hf.div_shift (-i) (-j) 1 1, Nat.mod_eq_of_lt (by omega)]; congr 1
          · omega
          · omega
      have := base _ _ (show 2 * g.N - i ≤ g.N by omega) (Nat.mod_lt (g.n - j) (show 0 < g.n by omega))
      linarith
  · intro hd i hi j hj hc
    rw [hf.row h2 h1 hi hj hc, divergence]
    have := hd i j
    linarith

end Simsopt.Wireframe
