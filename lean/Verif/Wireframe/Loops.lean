import Verif.Wireframe.Topology
import Mathlib.Data.Int.ModEq
/-!
# C83: currents on the whole torus, loops around cells
-/
namespace Simsopt.Wireframe

variable {g : Grid} {x : Int → ℝ} {T P : Int → Int → ℝ}

/-- Every poloidal segment starts at a node. -/
theorem Grid.polNo_surj (h2 : 2 ≤ g.N) (h1 : 1 ≤ g.h) {p : Nat} (hp : p < g.nPol) : ∃ i j, g.HasPol i j ∧ p = g.polNo i j := by
  have hl := Grid.last_pol h2 h1
  have hn : g.n = 2 * g.h := rfl
  by_cases h3 : p < g.h
  · exact ⟨0, p, Or.inr ⟨Or.inl rfl, h3⟩, by simp [Grid.polNo]⟩
  · by_cases h4 : p < g.nPol - g.h
    · have hdm := Nat.div_add_mod (p - g.h) g.n
      have hm := Nat.mod_lt (p - g.h) (show 0 < g.n by omega)
      have hd : (p - g.h) / g.n < g.N - 1 := by
        rw [Nat.div_lt_iff_lt_mul (by omega)]; rw [hl] at h4; omega
      generalize (p - g.h) / g.n = q at hdm hd
      generalize (p - g.h) % g.n = r at hdm hm
      refine ⟨1 + q, r, Or.inl ⟨by omega, by omega, hm⟩, ?_⟩
      rw [Grid.polNo, if_neg (by omega), Nat.add_sub_cancel_left, Nat.mul_comm]
      omega
    · refine ⟨g.N, p - (g.nPol - g.h), Or.inr ⟨Or.inr rfl, by omega⟩, ?_⟩
      rw [Grid.polNo, if_neg (by omega)]
      omega

/-- What has to be shown of `T` and `P`. -/
theorem Grid.isFlow_of (h2 : 2 ≤ g.N) (h1 : 1 ≤ g.h) (perT : ∀ I J, T (I + 2 * g.N) J = T I J ∧ T I (J + g.n) = T I J) (perP : ∀ I J, P (I + 2 * g.N) J = P I J ∧ P I (J + g.n) = P I J)
    (tor : ∀ i j : Nat, i < g.N → j < g.n → T i j = x (g.torKey i j) ∧ T (-i - 1) (-j) = x (g.torKey i j))
    (pol : ∀ i j : Nat, g.HasPol i j → P i j = x (g.polKey i j) ∧ P (-i) (-j - 1) = x (g.polKey i j)) : g.IsFlow x T P := by
  have hn : g.n = 2 * g.h := rfl
  refine ⟨perT, perP, fun s hs i j hj e => ?_, fun s hs hs' i j hj e => ?_⟩
  · have e' : s = i * g.n + j := by rw [Grid.segStart, if_pos hs] at e; exact e
    have hi : i < g.N := by
      by_contra hc
      have h3 : g.N * g.n ≤ i * g.n := Nat.mul_le_mul_right _ (by omega)
      have h4 : g.nTor = g.N * g.n := Nat.mul_comm _ _
      omega
    have := tor i j hi hj
    rw [Grid.torKey_eq hi, ← e'] at this
    exact this
  · obtain ⟨i', j', hv, hp⟩ := Grid.polNo_surj h2 h1 (p := s - g.nTor) (by unfold Grid.nSeg at hs; omega)
    have hs'' : s = g.nTor + g.polNo i' j' := by omega
    rw [hs'', Grid.segStart_pol h2 h1 hv] at e
    obtain ⟨rfl, rfl⟩ := Grid.node_inj hv.lt hj e
    have := pol _ _ hv
    rw [Grid.polKey_eq h2 h1 hv, ← hs''] at this
    exact this

theorem emod_neg_nat (m : Nat) (a : Nat) (ha : a < m) : (-(a : Int)) % m = (((m - a) % m : Nat) : Int) := by
  rcases Nat.eq_zero_or_pos a with h | h
  · subst h; simp
  · rw [Nat.mod_eq_of_lt (by omega)]
    have : (-(a : Int)) = ((m - a : Nat) : Int) + (-1) * m := by omega
    rw [this, Int.add_mul_emod_self_right, Int.emod_eq_of_lt (by omega) (by omega)]

/-- **C83.** All currents in the half period determine exactly one distribution on the torus: the images of the half period fit together. -/
theorem C83_unfold (h2 : 2 ≤ g.N) (h1 : 1 ≤ g.h) (x : Int → ℝ) : (∃ T P, g.IsFlow x T P) ∧ ∀ T P T' P', g.IsFlow x T P → g.IsFlow x T' P' → T = T' ∧ P = P' := by
  have hn : g.n = 2 * g.h := rfl
  constructor
  · classical
    refine ⟨fun I J => let i := (I % (2 * g.N)).toNat; let j := (J % g.n).toNat; if i < g.N then x (g.torKey i j) else x (g.torKey (2 * g.N - 1 - i) ((g.n - j) % g.n)),
      fun I J => let i := (I % (2 * g.N)).toNat; let j := (J % g.n).toNat; if g.HasPol i j then x (g.polKey i j) else x (g.polKey (if i ≤ g.N then i else 2 * g.N - i) (g.n - 1 - j)), ?_⟩
    have m1 : ∀ i : Nat, i < 2 * g.N → (((i : Int) % (2 * g.N)).toNat) = i := by
      intro i hi; rw [Int.emod_eq_of_lt (by omega) (by omega)]; simp
    have m2 : ∀ j : Nat, j < g.n → (((j : Int) % g.n).toNat) = j := by
      intro i hi; rw [Int.emod_eq_of_lt (by omega) (by omega)]; simp
    refine Grid.isFlow_of h2 h1 (fun I J => ?_) (fun I J => ?_) (fun i j hi hj => ?_) (fun i j hv => ?_)
    · simp only [Int.add_emod_right, and_self]
    · simp only [Int.add_emod_right, and_self]
    · simp only [m1 i (by omega), m2 j hj, if_pos hi]
      refine ⟨trivial, ?_⟩
      have e1 : (-(i : Int) - 1) % (2 * g.N) = ((2 * g.N - 1 - i : Nat) : Int) := by
        rw [show (-(i : Int) - 1) = ((2 * g.N - 1 - i : Nat) : Int) + (-1) * (2 * g.N) by omega, Int.add_mul_emod_self_right, Int.emod_eq_of_lt (by omega) (by omega)]
      rw [e1, emod_neg_nat g.n j hj]
      simp only [Int.toNat_natCast]
      rw [if_neg (by omega)]
      congr 2
      · omega
      · rcases Nat.eq_zero_or_pos j with h | h
        · subst h; simp
        · rw [Nat.mod_eq_of_lt (show g.n - j < g.n by omega), Nat.mod_eq_of_lt (by omega)]; omega
    · have hj := hv.lt
      have hi : i ≤ g.N := by rcases hv with ⟨_, h, _⟩ | ⟨h | h, _⟩ <;> omega
      simp only [m1 i (by omega), m2 j hj, if_pos hv]
      refine ⟨trivial, ?_⟩
      have e2 : (-(j : Int) - 1) % g.n = ((g.n - 1 - j : Nat) : Int) := by
        rw [show (-(j : Int) - 1) = ((g.n - 1 - j : Nat) : Int) + (-1) * g.n by omega, Int.add_mul_emod_self_right, Int.emod_eq_of_lt (by omega) (by omega)]
      have e1 : (-(i : Int)) % (2 * g.N) = (((2 * g.N - i) % (2 * g.N) : Nat) : Int) := by
        have := emod_neg_nat (2 * g.N) i (by omega)
        simpa using this
      rw [e1, e2]
      simp only [Int.toNat_natCast]
      rcases Nat.eq_zero_or_pos i with h0 | h0
      · subst h0
        have hjh : j < g.h := by rcases hv with ⟨h, _, _⟩ | ⟨_, h⟩ <;> omega
        simp only [Nat.sub_zero, Nat.mod_self]
        rw [if_neg, if_pos (by omega)]
        · congr 2; omega
        · rintro (⟨h, _, _⟩ | ⟨_, h⟩) <;> omega
      · rw [Nat.mod_eq_of_lt (by omega)]
        rcases Nat.lt_or_ge i g.N with h3 | h3
        · rw [if_neg, if_neg (by omega)]
          · congr 2
            · omega
            · omega
          · rintro (⟨_, h, _⟩ | ⟨h | h, _⟩) <;> omega
        · have : i = g.N := by omega
          subst this
          have hjh : j < g.h := by rcases hv with ⟨_, h, _⟩ | ⟨_, h⟩ <;> omega
          have e3 : 2 * g.N - g.N = g.N := by omega
          rw [e3, if_neg, if_pos (by omega)]
          · congr 2; omega
          · rintro (⟨_, h, _⟩ | ⟨_, h⟩) <;> omega
  · intro T P T' P' hf hf'
    constructor
    · funext I J
      obtain ⟨i, j, k, l, hi, hj, rfl, rfl⟩ := reduce g.N g.n (by omega) (by omega) I J
      rw [hf.shiftT, hf'.shiftT]
      rcases lt_or_ge i g.N with h | h
      · rw [(hf.atTor h hj).1, (hf'.atTor h hj).1]
      · rw [← hf.symT h2 h1, ← hf'.symT h2 h1, ← hf.shiftT _ _ 1 1, ← hf'.shiftT _ _ 1 1]
        obtain ⟨i', hi'⟩ : ∃ i', i = 2 * g.N - 1 - i' ∧ i' < g.N := ⟨2 * g.N - 1 - i, by omega, by omega⟩
        rw [show -(i : Int) - 1 + 1 * (2 * g.N) = i' by omega]
        rcases Nat.eq_zero_or_pos j with h0 | h0
        · rw [show -(j : Int) + 1 * g.n = (0 : Nat) + 1 * g.n by omega, show (i' : Int) = i' + 0 * (2 * g.N) by ring, hf.shiftT, hf'.shiftT, (hf.atTor hi'.2 (by omega)).1, (hf'.atTor hi'.2 (by omega)).1]
        · rw [show -(j : Int) + 1 * g.n = ((g.n - j : Nat) : Int) by omega, (hf.atTor hi'.2 (by omega)).1, (hf'.atTor hi'.2 (by omega)).1]
    · funext I J
      obtain ⟨i, j, k, l, hi, hj, rfl, rfl⟩ := reduce g.N g.n (by omega) (by omega) I J
      rw [hf.shiftP, hf'.shiftP]
      by_cases hv : g.HasPol i j
      · rw [(hf.atPol h2 h1 hv).1, (hf'.atPol h2 h1 hv).1]
      · rw [← hf.symP h2 h1, ← hf'.symP h2 h1]
        have e2 : (-(j : Int) - 1) = ((g.n - 1 - j : Nat) : Int) + (-1) * g.n := by omega
        obtain ⟨i', k', hv', e1⟩ : ∃ (i' : Nat) (k' : Int), g.HasPol i' (g.n - 1 - j) ∧ (-(i : Int)) = i' + k' * (2 * g.N) := by
          by_cases h0 : i = 0
          · exact ⟨0, 0, Or.inr ⟨Or.inl rfl, by by_contra hc; exact hv (Or.inr ⟨Or.inl h0, by omega⟩)⟩, by subst h0; simp⟩
          · by_cases h3 : i = g.N
            · exact ⟨g.N, -1, Or.inr ⟨Or.inr rfl, by by_contra hc; exact hv (Or.inr ⟨Or.inr h3, by omega⟩)⟩, by omega⟩
            · have : ¬ i < g.N := fun h => hv (Or.inl ⟨by omega, h, hj⟩)
              exact ⟨2 * g.N - i, -1, Or.inl ⟨by omega, by omega, by omega⟩, by omega⟩
        rw [e1, e2, hf.shiftP, hf'.shiftP, (hf.atPol h2 h1 hv').1, (hf'.atPol h2 h1 hv').1]

/-! ### Loops -/

/-- Adding the current `c` around a cell (src/simsoptpp/wireframe_optimization.cpp L300-307). -/
def addLoop (c : ℝ) (k : Cell) (x : Int → ℝ) : Int → ℝ :=
  let x1 := fun s => if s = k.tor1 then x s + c else x s
  let x2 := fun s => if s = k.pol2 then x1 s + c else x1 s
  let x3 := fun s => if s = k.tor3 then x2 s - c else x2 s
  fun s => if s = k.pol4 then x3 s - c else x3 s

/-- Specification: `1` on the images of cell `(i, j)` in the even half periods, `-1` on the images in the mirrored ones.  (Cell `(I, J)` lies between the nodes `(I, J)` and `(I + 1, J + 1)`.) -/
def Grid.images (g : Grid) (i j : Nat) (I J : Int) : ℝ :=
  if I ≡ i [ZMOD 2 * g.N] ∧ J ≡ j [ZMOD g.n] then 1 else if I ≡ -i - 1 [ZMOD 2 * g.N] ∧ J ≡ -j - 1 [ZMOD g.n] then -1 else 0

theorem modEq_small {m : Nat} {a b : Nat} (ha : a < m) (hb : b < m) : ((a : Int) ≡ b [ZMOD m]) ↔ a = b := by
  constructor
  · intro h
    have : (a : Int) % m = b % m := h
    rw [Int.emod_eq_of_lt (by omega) (by omega), Int.emod_eq_of_lt (by omega) (by omega)] at this
    exact_mod_cast this
  · rintro rfl; rfl

theorem modEq_shift {m a b : Int} (k : Int) : (a ≡ b + k * m [ZMOD m]) ↔ (a ≡ b [ZMOD m]) := by
  unfold Int.ModEq
  rw [Int.add_mul_emod_self_right]

theorem modEq_neg {m a b : Int} : (-a - 1 ≡ -b - 1 [ZMOD m]) ↔ (a ≡ b [ZMOD m]) := by
  rw [Int.modEq_iff_dvd, Int.modEq_iff_dvd, show (-b - 1 - (-a - 1)) = -(b - a) by ring, dvd_neg]

/-- The mirror image. -/
theorem Grid.images_sym (h2 : 2 ≤ g.N) (h1 : 1 ≤ g.h) (i j : Nat) (hi : i < g.N) (I J : Int) : g.images i j (-I - 1) (-J - 1) = -g.images i j I J := by
  have hex : ¬ (I ≡ i [ZMOD 2 * g.N] ∧ I ≡ -i - 1 [ZMOD 2 * g.N]) := by
    rintro ⟨a, b⟩
    have c := a.symm.trans b
    rw [← modEq_shift 1, show (-(i : Int) - 1 + 1 * (2 * g.N)) = ((2 * g.N - 1 - i : Nat) : Int) by omega] at c
    have := (modEq_small (m := 2 * g.N) (show i < 2 * g.N by omega) (show 2 * g.N - 1 - i < 2 * g.N by omega)).mp (by exact_mod_cast c)
    omega
  have hm : ∀ (a b m : Int), (-a - 1 ≡ b [ZMOD m]) ↔ (a ≡ -b - 1 [ZMOD m]) := by
    intro a b m
    rw [← modEq_neg (a := a), show -(-b - 1) - 1 = b by ring]
  simp only [Grid.images]
  have hs : ∀ a : Int, -(-a - 1) - 1 = a := fun a => by ring
  simp only [hm, hs]
  by_cases p : I ≡ i [ZMOD 2 * g.N] ∧ J ≡ j [ZMOD g.n]
  · rw [if_pos p, if_pos p, if_neg (fun q => hex ⟨p.1, q.1⟩)]
  · rw [if_neg p]
    by_cases q : I ≡ -i - 1 [ZMOD 2 * g.N] ∧ J ≡ -j - 1 [ZMOD g.n]
    · rw [if_pos q, if_pos q, if_neg p]; norm_num
    · rw [if_neg q, if_neg q, if_neg p]; norm_num

theorem Grid.images_per (i j : Nat) (I J k l : Int) : g.images i j (I + k * (2 * g.N)) (J + l * g.n) = g.images i j I J := by
  have h : ∀ (a b m k : Int), (a + k * m ≡ b [ZMOD m]) ↔ (a ≡ b [ZMOD m]) := fun a b m k => by
    unfold Int.ModEq; rw [Int.add_mul_emod_self_right]
  simp only [Grid.images, h]

/-- In the half period. -/
theorem Grid.images_base (i j : Nat) (hi : i < g.N) (hj : j < g.n) (i' j' : Nat) (hi' : i' < g.N) (hj' : j' < g.n) : g.images i j i' j' = if i' = i ∧ j' = j then 1 else 0 := by
  have a1 : ((i' : Int) ≡ i [ZMOD 2 * g.N]) ↔ i' = i := by
    have := modEq_small (m := 2 * g.N) (show i' < 2 * g.N by omega) (show i < 2 * g.N by omega)
    exact_mod_cast this
  have a2 : ¬ ((i' : Int) ≡ -i - 1 [ZMOD 2 * g.N]) := by
    intro c
    rw [← modEq_shift 1, show (-(i : Int) - 1 + 1 * (2 * g.N)) = ((2 * g.N - 1 - i : Nat) : Int) by omega] at c
    have := (modEq_small (m := 2 * g.N) (show i' < 2 * g.N by omega) (show 2 * g.N - 1 - i < 2 * g.N by omega)).mp (by exact_mod_cast c)
    omega
  simp only [Grid.images]
  simp only [a1, modEq_small hj' hj]
  split
  · rfl
  · rw [if_neg (fun h => a2 h.1)]

/-- The segments of a cell exist and are different. -/
theorem Grid.cell_spec (h2 : 2 ≤ g.N) (h1 : 1 ≤ g.h) (i j : Nat) (hi : i < g.N) (hj : j < g.n) :
    (g.cell i j).tor1 = g.torKey i j ∧ (g.cell i j).tor3 = g.torKey i ((j + 1) % g.n) ∧
    (∃ a b, (g.cell i j).pol2 = g.polKey a b ∧ g.HasPol a b ∧ a = i + 1 ∧ b = if i + 1 = g.N ∧ g.h ≤ j then g.n - 1 - j else j) ∧
    (∃ a b, (g.cell i j).pol4 = g.polKey a b ∧ g.HasPol a b ∧ a = i ∧ b = if i = 0 ∧ g.h ≤ j then g.n - 1 - j else j) := by
  have hn : g.n = 2 * g.h := rfl
  have e : g.n - j - 1 = g.n - 1 - j := by omega
  rcases Nat.eq_zero_or_pos i with h0 | h0
  · subst h0
    simp only [Grid.cell, if_true]
    refine ⟨trivial, trivial, ⟨0 + 1, j, rfl, Or.inl ⟨by omega, by omega, hj⟩, rfl, ?_⟩, ?_⟩
    · rw [if_neg (by omega)]
    · by_cases hh : j < g.h
      · rw [if_pos hh]
        exact ⟨0, j, rfl, Or.inr ⟨Or.inl rfl, hh⟩, rfl, by rw [if_neg (by omega)]⟩
      · rw [if_neg hh, e]
        exact ⟨0, g.n - 1 - j, rfl, Or.inr ⟨Or.inl rfl, by omega⟩, rfl, by rw [if_pos (by simp; omega)]⟩
  · by_cases h3 : i < g.N - 1
    · simp only [Grid.cell, if_neg (show ¬ i = 0 by omega), if_pos h3]
      refine ⟨trivial, trivial, ⟨i + 1, j, rfl, Or.inl ⟨by omega, by omega, hj⟩, rfl, ?_⟩, ⟨i, j, rfl, Or.inl ⟨by omega, by omega, hj⟩, rfl, ?_⟩⟩
      · rw [if_neg (by omega)]
      · rw [if_neg (by omega)]
    · simp only [Grid.cell, if_neg (show ¬ i = 0 by omega), if_neg h3]
      refine ⟨trivial, trivial, ?_, ⟨i, j, rfl, Or.inl ⟨by omega, by omega, hj⟩, rfl, ?_⟩⟩
      · by_cases hh : j < g.h
        · rw [if_pos hh]
          exact ⟨i + 1, j, rfl, Or.inr ⟨Or.inr (by omega), hh⟩, rfl, by rw [if_neg (by omega)]⟩
        · rw [if_neg hh, e]
          exact ⟨i + 1, g.n - 1 - j, rfl, Or.inr ⟨Or.inr (by omega), by omega⟩, rfl, by rw [if_pos (by omega)]⟩
      · rw [if_neg (by omega)]

theorem Grid.tor_ne_pol (h2 : 2 ≤ g.N) (h1 : 1 ≤ g.h) {i j a b : Nat} (hi : i < g.N) (hj : j < g.n) (hv : g.HasPol a b) : g.torKey i j ≠ g.polKey a b := by
  rw [Grid.torKey_eq hi, Grid.polKey_eq h2 h1 hv]
  have := Grid.torKey_lt hi hj
  omega

theorem Grid.torKey_inj {i j i' j' : Nat} (hi : i < g.N) (hj : j < g.n) (hi' : i' < g.N) (hj' : j' < g.n) : g.torKey i j = g.torKey i' j' ↔ i = i' ∧ j = j' := by
  rw [Grid.torKey_eq hi, Grid.torKey_eq hi', Nat.cast_inj]
  exact ⟨fun e => lin_inj hj hj' e, by rintro ⟨rfl, rfl⟩; rfl⟩

theorem Grid.polKey_inj (h2 : 2 ≤ g.N) (h1 : 1 ≤ g.h) {i j i' j' : Nat} (hv : g.HasPol i j) (hv' : g.HasPol i' j') : g.polKey i j = g.polKey i' j' ↔ i = i' ∧ j = j' := by
  rw [Grid.polKey_eq h2 h1 hv, Grid.polKey_eq h2 h1 hv', Nat.cast_inj]
  exact ⟨fun e => Grid.polNo_inj h2 h1 hv hv' (by omega), by rintro ⟨rfl, rfl⟩; rfl⟩

/-- **C83.** Adding the current `c` to the segments of a cell, with the signs of the code, adds on the whole torus a current `c` around each image of the cell in the even half periods and `-c` around each mirror image. -/
theorem C83_loop (h2 : 2 ≤ g.N) (h1 : 1 ≤ g.h) (i j : Nat) (hi : i < g.N) (hj : j < g.n) (c : ℝ) (hf : g.IsFlow x T P) (T' P' : Int → Int → ℝ) (hf' : g.IsFlow (addLoop c (g.cell i j) x) T' P') (I J : Int) :
    T' I J = T I J + c * (g.images i j I J - g.images i j I (J - 1)) ∧ P' I J = P I J + c * (g.images i j (I - 1) J - g.images i j I J) := by
  have hn : g.n = 2 * g.h := rfl
  obtain ⟨c1, c3, ⟨a2, b2, c2, v2, rfl, hb2⟩, ⟨a4, b4, c4, v4, rfl, hb4⟩⟩ := Grid.cell_spec h2 h1 i j hi hj
  have hjm : (j + 1) % g.n < g.n := Nat.mod_lt _ (by omega)
  -- the values of the new currents
  have xt : ∀ i' j' : Nat, i' < g.N → j' < g.n → addLoop c (g.cell a4 j) x (g.torKey i' j') =
      x (g.torKey i' j') + c * ((if i' = a4 ∧ j' = j then 1 else 0) - (if i' = a4 ∧ j' = (j + 1) % g.n then 1 else 0)) := by
    intro i' j' hi' hj'
    simp only [addLoop, c1, c2, c3, c4]
    rw [if_neg (Grid.tor_ne_pol h2 h1 hi' hj' v4), if_neg (Grid.tor_ne_pol h2 h1 hi' hj' v2)]
    simp only [Grid.torKey_inj hi' hj' hi hj, Grid.torKey_inj hi' hj' hi hjm]
    split_ifs <;> ring
  have xp : ∀ i' j' : Nat, g.HasPol i' j' → addLoop c (g.cell a4 j) x (g.polKey i' j') =
      x (g.polKey i' j') + c * ((if i' = a4 + 1 ∧ j' = b2 then 1 else 0) - (if i' = a4 ∧ j' = b4 then 1 else 0)) := by
    intro i' j' hv
    simp only [addLoop, c1, c2, c3, c4]
    rw [if_neg (Grid.tor_ne_pol h2 h1 hi hj hv).symm, if_neg (Grid.tor_ne_pol h2 h1 hi hjm hv).symm]
    simp only [Grid.polKey_inj h2 h1 hv v2, Grid.polKey_inj h2 h1 hv v4]
    split_ifs <;> ring
  -- the claimed currents are the currents
  have prev : ∀ i' j' : Nat, i' < g.N → j' < g.n → g.images a4 j i' ((j' : Int) - 1) = if i' = a4 ∧ j' = (j + 1) % g.n then 1 else 0 := by
    intro i' j' hi' hj'
    rcases Nat.eq_zero_or_pos j' with h0 | h0
    · have : g.images a4 j i' ((j' : Int) - 1) = g.images a4 j i' ((g.n - 1 : Nat) : Int) := by
        rw [← Grid.images_per a4 j i' ((j' : Int) - 1) 0 1]; congr 1
        · ring
        · omega
      rw [this, Grid.images_base a4 j hi hj i' (g.n - 1) hi' (by omega)]
      have hiff : (g.n - 1 = j) ↔ (j' = (j + 1) % g.n) := by
        subst h0
        constructor
        · intro e; rw [← e, Nat.sub_add_cancel (by omega), Nat.mod_self]
        · intro e
          by_contra hc
          rw [Nat.mod_eq_of_lt (by omega)] at e; omega
      simp only [hiff]
    · have : ((j' : Int) - 1) = ((j' - 1 : Nat) : Int) := by omega
      rw [this, Grid.images_base a4 j hi hj i' (j' - 1) hi' (by omega)]
      have hiff : (j' - 1 = j) ↔ (j' = (j + 1) % g.n) := by
        constructor
        · intro e; rw [Nat.mod_eq_of_lt (by omega)]; omega
        · intro e
          by_cases hc : j + 1 = g.n
          · rw [hc, Nat.mod_self] at e; omega
          · rw [Nat.mod_eq_of_lt (by omega)] at e; omega
      simp only [hiff]
  -- toroidal index -1, seen from the first symmetry plane
  have before : ∀ j' : Nat, j' < g.n → g.images a4 j (-1) j' = -(if 0 = a4 ∧ g.n - 1 - j' = j then 1 else 0) := by
    intro j' hj'
    have := Grid.images_sym h2 h1 a4 j hi 0 (-(j' : Int) - 1)
    rw [show -(-(j' : Int) - 1) - 1 = j' by ring, show (-(0 : Int) - 1) = -1 by ring] at this
    rw [this, ← Grid.images_per a4 j 0 (-(j' : Int) - 1) 0 1, show (-(j' : Int) - 1 + 1 * g.n) = ((g.n - 1 - j' : Nat) : Int) by omega, show (0 + 0 * (2 * (g.N : Int))) = ((0 : Nat) : Int) by simp,
      Grid.images_base a4 j hi hj 0 _ (by omega) (by omega)]
  -- toroidal index N, seen from the second one
  have after : ∀ j' : Nat, j' < g.n → g.images a4 j g.N j' = -(if g.N - 1 = a4 ∧ g.n - 1 - j' = j then 1 else 0) := by
    intro j' hj'
    have := Grid.images_sym h2 h1 a4 j hi ((g.N - 1 : Nat) : Int) ((g.n - 1 - j' : Nat) : Int)
    rw [← Grid.images_base a4 j hi hj (g.N - 1) _ (by omega) (by omega), ← this, ← Grid.images_per a4 j g.N j' (-1) (-1)]
    congr 1 <;> omega
  have key : g.IsFlow (addLoop c (g.cell a4 j) x) (fun I J => T I J + c * (g.images a4 j I J - g.images a4 j I (J - 1))) (fun I J => P I J + c * (g.images a4 j (I - 1) J - g.images a4 j I J)) := by
    have sh1 : ∀ I J : Int, g.images a4 j (I + 2 * g.N) J = g.images a4 j I J := fun I J => by
      have := Grid.images_per (g := g) a4 j I J 1 0
      simpa using this
    have sh2 : ∀ I J : Int, g.images a4 j I (J + g.n) = g.images a4 j I J := fun I J => by
      have := Grid.images_per (g := g) a4 j I J 0 1
      simpa using this
    have base : ∀ i' j' : Nat, g.HasPol i' j' → g.images a4 j ((i' : Int) - 1) j' - g.images a4 j i' j' = (if i' = a4 + 1 ∧ j' = b2 then 1 else 0) - (if i' = a4 ∧ j' = b4 then 1 else 0) := by
      intro i' j' hv
      have hj' := hv.lt
      rcases Nat.eq_zero_or_pos i' with h0 | h0
      · subst h0
        rw [show (((0 : Nat) : Int) - 1) = -1 by simp, before j' hj', Grid.images_base a4 j hi hj 0 j' (by omega) hj', if_neg (show ¬ (0 = a4 + 1 ∧ j' = b2) by omega)]
        have hjh : j' < g.h := by rcases hv with ⟨h, _, _⟩ | ⟨_, h⟩ <;> omega
        by_cases ha : a4 = 0
        · subst ha
          by_cases hh : g.h ≤ j
          · have hb : b4 = g.n - 1 - j := by rw [hb4, if_pos ⟨rfl, hh⟩]
            by_cases q : j' = g.n - 1 - j
            · rw [if_pos ⟨rfl, by omega⟩, if_neg (by omega), if_pos ⟨rfl, by omega⟩]; norm_num
            · rw [if_neg (by omega), if_neg (by omega), if_neg (by omega)]; norm_num
          · have hb : b4 = j := by rw [hb4, if_neg (by omega)]
            by_cases q : j' = j
            · rw [if_neg (by omega), if_pos ⟨rfl, q⟩, if_pos ⟨rfl, by omega⟩]; norm_num
            · rw [if_neg (by omega), if_neg (by omega), if_neg (by omega)]; norm_num
        · rw [if_neg (fun h => ha h.1.symm), if_neg (fun h => ha h.1.symm), if_neg (fun h => ha h.1.symm)]; norm_num
      · have e1 : ((i' : Int) - 1) = ((i' - 1 : Nat) : Int) := by omega
        rcases Nat.lt_or_ge i' g.N with h3 | h3
        · rw [e1, Grid.images_base a4 j hi hj (i' - 1) j' (by omega) hj', Grid.images_base a4 j hi hj i' j' h3 hj']
          have q1 : (i' - 1 = a4 ∧ j' = j) ↔ (i' = a4 + 1 ∧ j' = b2) := by
            constructor
            · rintro ⟨q, q'⟩; exact ⟨by omega, by rw [hb2, if_neg (by omega), q']⟩
            · rintro ⟨q, q'⟩; rw [hb2, if_neg (by omega)] at q'; exact ⟨by omega, q'⟩
          have q2 : (i' = a4 ∧ j' = j) ↔ (i' = a4 ∧ j' = b4) := by
            constructor
            · rintro ⟨q, q'⟩; exact ⟨q, by rw [hb4, if_neg (by omega), q']⟩
            · rintro ⟨q, q'⟩; rw [hb4, if_neg (by omega)] at q'; exact ⟨q, q'⟩
          simp only [q1, q2]
        · have h4 : i' = g.N := by rcases hv with ⟨_, h, _⟩ | ⟨h | h, _⟩ <;> omega
          have hjh : j' < g.h := by rcases hv with ⟨_, h, _⟩ | ⟨_, h⟩ <;> omega
          subst h4
          rw [e1, Grid.images_base a4 j hi hj (g.N - 1) j' (by omega) hj', after j' hj', if_neg (show ¬ (g.N = a4 ∧ j' = b4) by omega)]
          by_cases ha : a4 + 1 = g.N
          · by_cases hh : g.h ≤ j
            · have hb : b2 = g.n - 1 - j := by rw [hb2, if_pos ⟨ha, hh⟩]
              by_cases q : j' = g.n - 1 - j
              · rw [if_neg (by omega), if_pos ⟨by omega, by omega⟩, if_pos ⟨ha.symm, by omega⟩]; norm_num
              · rw [if_neg (by omega), if_neg (by omega), if_neg (by omega)]; norm_num
            · have hb : b2 = j := by rw [hb2, if_neg (by omega)]
              by_cases q : j' = j
              · rw [if_pos ⟨by omega, q⟩, if_neg (by omega), if_pos ⟨ha.symm, by omega⟩]; norm_num
              · rw [if_neg (by omega), if_neg (by omega), if_neg (by omega)]; norm_num
          · rw [if_neg (by omega), if_neg (by omega), if_neg (by omega)]; norm_num
    refine Grid.isFlow_of h2 h1 (fun I J => ?_) (fun I J => ?_) (fun i' j' hi' hj' => ?_) (fun i' j' hv => ?_)
    · constructor
      · simp only [(hf.perT I J).1, sh1]
      · simp only [(hf.perT I J).2, sh2]
        rw [show J + (g.n : Int) - 1 = (J - 1) + g.n by ring, sh2]
    · constructor
      · simp only [(hf.perP I J).1, sh1]
        rw [show I + 2 * (g.N : Int) - 1 = (I - 1) + 2 * g.N by ring, sh1]
      · simp only [(hf.perP I J).2, sh2]
    · rw [xt i' j' hi' hj']
      have p0 := Grid.images_base a4 j hi hj i' j' hi' hj'
      have p1 := prev i' j' hi' hj'
      constructor
      · rw [(hf.atTor hi' hj').1, p0, p1]
      · have s1 := Grid.images_sym h2 h1 a4 j hi i' j'
        have s2 := Grid.images_sym h2 h1 a4 j hi i' ((j' : Int) - 1)
        rw [show -((j' : Int) - 1) - 1 = -j' by ring] at s2
        rw [(hf.atTor hi' hj').2, s1, s2, p0, p1]; ring
    · rw [xp i' j' hv, ← base i' j' hv]
      constructor
      · rw [(hf.atPol h2 h1 hv).1]
      · have s1 := Grid.images_sym h2 h1 a4 j hi i' j'
        have s2 := Grid.images_sym h2 h1 a4 j hi ((i' : Int) - 1) j'
        rw [show -((i' : Int) - 1) - 1 = -i' by ring] at s2
        rw [(hf.atPol h2 h1 hv).2, s1, s2]; ring
  obtain ⟨e1, e2⟩ := (C83_unfold h2 h1 _).2 _ _ _ _ hf' key
  exact ⟨congrFun (congrFun e1 I) J, congrFun (congrFun e2 I) J⟩

/-- **C83.** So loops of current conserve current: the continuity constraints stay satisfied. -/
theorem C83_loop_continuous (h2 : 2 ≤ g.N) (h1 : 1 ≤ g.h) (i j : Nat) (hi : i < g.N) (hj : j < g.n) (c : ℝ) (hx : g.Continuous x) : g.Continuous (addLoop c (g.cell i j) x) := by
  obtain ⟨T, P, hf⟩ := (C83_unfold h2 h1 x).1
  obtain ⟨T', P', hf'⟩ := (C83_unfold h2 h1 (addLoop c (g.cell i j) x)).1
  rw [C83_continuity h2 h1 hf'] 
  have hd := (C83_continuity h2 h1 hf).mp hx
  intro I J
  have l := C83_loop h2 h1 i j hi hj c hf T' P' hf'
  rw [(l (I - 1) J).1, (l I (J - 1)).2, (l I J).1, (l I J).2]
  linarith [hd I J]

end Simsopt.Wireframe
