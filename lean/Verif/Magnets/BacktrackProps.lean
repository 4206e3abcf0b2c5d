import Verif.Magnets.Backtrack
import Mathlib.Tactic.IntervalCases
/-!
# C80: theorems about GPMO_backtracking
-/
namespace Simsopt.Magnets

theorem baseline_vis (N G : Nat) (A : Nat → Nat → ℝ) (b mmax : Nat → ℝ) (single : Option Nat) (hd : ∀ d, single = some d → d < 3) :
    ∃ m < (baseline N G A b mmax single).P, (baseline N G A b mmax single).visit m = true := by
  cases single with
  | none => exact ⟨0, by simp [baseline], rfl⟩
  | some d => exact ⟨d, hd d rfl, by simp [baseline]⟩

/-- A magnet of the baseline configuration is `±1` along an allowed axis. -/
theorem baseline_full (N G : Nat) (A : Nat → Nat → ℝ) (b mmax : Nat → ℝ) (single : Option Nat) (s : Gst) (hinv : (baseline N G A b mmax single).Inv s) (j : Nat) (hj : s.free j = false) :
    ∃ l < 3, (∀ d, single = some d → l = d) ∧ (s.x j l = 1 ∨ s.x j l = -1) ∧ ∀ l', l' ≠ l → s.x j l' = 0 := by
  obtain ⟨_, h2, h3, h4, h5⟩ := hinv.full j hj
  refine ⟨s.kind j, h2, ?_, ?_, fun l' hl' => ?_⟩
  · exact (baseline_visit N G A b mmax single _).mp h3
  · rw [h5, baseline_mom, if_pos rfl, mul_one]; exact h4
  · rw [h5, baseline_mom, if_neg hl', mul_zero]

open Classical in
theorem baseline_count (N G : Nat) (A : Nat → Nat → ℝ) (b mmax : Nat → ℝ) (single : Option Nat) (s : Gst) (hinv : (baseline N G A b mmax single).Inv s) :
    ((Finset.range N).filter fun j => ∃ l < 3, s.x j l ≠ 0).card = s.count N := by
  rw [Gst.count]
  congr 1
  ext j
  simp only [Finset.mem_filter]
  apply and_congr_right
  intro _
  cases hf : s.free j with
  | true =>
    have := (hinv.empty j hf).1
    constructor
    · rintro ⟨l, _, hl⟩; exact absurd (this l) hl
    · intro h; exact absurd h (by decide)
  | false =>
    obtain ⟨l, hl, _, hx, _⟩ := baseline_full N G A b mmax single s hinv j hf
    simp only [iff_true]
    refine ⟨l, hl, ?_⟩
    rcases hx with h | h <;> rw [h] <;> norm_num

open Classical in
/-- **C80.** GPMO_backtracking, for every problem (with values below the marker `1e50`), every neighbour table, all parameters and after every number of passes: every dipole is empty or carries a magnet of full strength along an allowed axis,
the running residual is `A x - b` through all placements and removals, and there are at most as many magnets as dipoles and at most `max_nMagnets` (at least one magnet is placed). -/
theorem C80_backtracking (N G : Nat) (A : Nat → Nat → ℝ) (b mmax : Nat → ℝ) (single : Option Nat) (hd : ∀ d, single = some d → d < 3) (hsm : (baseline N G A b mmax single).Small) (hN : 0 < N) (p : Par) (junk : Nat → Int) (k : Nat) :
    let s := ((baseline N G A b mmax single).runB p junk k).g
    (∀ j, (∀ l, s.x j l = 0) ∨ (j < N ∧ ∃ l < 3, (∀ d, single = some d → l = d) ∧ (s.x j l = 1 ∨ s.x j l = -1) ∧ ∀ l', l' ≠ l → s.x j l' = 0)) ∧
    (∀ i, s.r i = (∑ j ∈ Finset.range N, ∑ l ∈ Finset.range 3, A (3 * j + l) i * s.x j l) - b i) ∧
    ((Finset.range N).filter fun j => ∃ l < 3, s.x j l ≠ 0).card ≤ min N (max 1 p.maxMagnets) := by
  intro s
  have h := runB_inv _ A (baseline_ok N G A b mmax single) hsm (baseline_vis N G A b mmax single hd) hN p junk k
  refine ⟨fun j => ?_, resid_x _ A (baseline_ok N G A b mmax single) _ h.inv, ?_⟩
  · cases hf : s.free j with
    | true => exact Or.inl (h.inv.empty j hf).1
    | false => exact Or.inr ⟨(h.inv.full j hf).1, baseline_full N G A b mmax single s h.inv j hf⟩
  · rw [baseline_count N G A b mmax single s h.inv]
    exact le_min (count_le s N) h.limit

/-- **C80.** The loop ends early only with a full grid, at the magnet limit, or when no magnet is left (the counts are read inside the array as long as `print_iter ≤ nhistory`); and it does end at the first two. -/
theorem C80_stops (N G : Nat) (A : Nat → Nat → ℝ) (b mmax : Nat → ℝ) (single : Option Nat) (hd : ∀ d, single = some d → d < 3) (hsm : (baseline N G A b mmax single).Small) (hN : 0 < N) (p : Par) (junk : Nat → Int) (k : Nat)
    (hs : ((baseline N G A b mmax single).runB p junk (k + 1)).stopped = false) :
    ((baseline N G A b mmax single).runB p junk (k + 1)).g.count N < min N p.maxMagnets := by
  have h := runB_inv _ A (baseline_ok N G A b mmax single) hsm (baseline_vis N G A b mmax single hd) hN p junk (k + 1)
  have hl := runB_length _ p junk _ hs
  rcases h.under hs with h1 | h1
  · rw [h1] at hl; simp at hl
  · exact lt_min (h.go hs) h1

theorem sgn_of_x (N G : Nat) (A : Nat → Nat → ℝ) (b mmax : Nat → ℝ) (single : Option Nat) (s : Gst) (hinv : (baseline N G A b mmax single).Inv s) (j d : Nat) (hj : s.free j = false) (ho : ∀ l, s.x d l = -s.x j l) : Wyrm s j d := by
  obtain ⟨_, _, _, h4, h5⟩ := hinv.full j hj
  have hx : s.x j (s.kind j) = s.sgn j := by rw [h5, baseline_mom, if_pos rfl, mul_one]
  have hne : s.sgn j ≠ 0 := by rcases h4 with h | h <;> rw [h] <;> norm_num
  have hd : s.free d = false := by
    cases hf : s.free d with
    | false => rfl
    | true =>
      have := ho (s.kind j)
      rw [(hinv.empty d hf).1, hx] at this
      exact absurd (by linarith) hne
  obtain ⟨_, _, _, k4, k5⟩ := hinv.full d hd
  have hk : s.kind d = s.kind j := by
    by_contra hcon
    have := ho (s.kind j)
    rw [k5, baseline_mom, if_neg (fun h => hcon h.symm), mul_zero, hx] at this
    exact hne (by linarith)
  refine ⟨hne, ?_, hk.symm⟩
  have := ho (s.kind j)
  rw [k5, baseline_mom, if_pos hk.symm, mul_one, hx] at this
  linarith

/-- **C80.** After an iteration with backtracking, no dipole other than the one placed in that very iteration has an equal and opposite magnet among its `Nadjacent` neighbours. -/
theorem C80_no_opposite (N G : Nat) (A : Nat → Nat → ℝ) (b mmax : Nat → ℝ) (single : Option Nat) (hd : ∀ d, single = some d → d < 3) (hsm : (baseline N G A b mmax single).Small) (hN : 0 < N) (p : Par) (junk : Nat → Int) (k : Nat)
    (hrun : ((baseline N G A b mmax single).runB p junk k).stopped = false) (hbt : p.backtracking ≤ k) (hmod : k % p.backtracking = 0) :
    let before := ((baseline N G A b mmax single).runB p junk k).g.x
    let after := ((baseline N G A b mmax single).runB p junk (k + 1)).g.x
    ∃ new < N, (∀ l, before new l = 0) ∧ ∀ j, j ≠ new → (∃ l, after j l ≠ 0) → ∀ jj < p.nadj, ¬ ∀ l, after (p.conn j jj) l = -after j l := by
  intro before after
  set c := baseline N G A b mmax single with hc
  have hok : c.Ok A := baseline_ok N G A b mmax single
  have hvis := baseline_vis N G A b mmax single hd
  have hB := runB_inv c A hok hsm hvis hN p junk k
  obtain ⟨i1, i2, j0, hj0, m, hm, sign, hsg, hf, hv, e, _⟩ := iter_spec c A hok hsm hvis _ hB.inv (hB.go hrun)
  have hlen := runB_length c p junk k hrun
  have hadv : c.advance p (c.runB p junk k) = c.dewyrm p.conn p.nadj (c.iter (c.runB p junk k).g) (c.runB p junk k).skj := by
    rw [Cfg.advance, if_pos (by rw [hlen]; exact ⟨hbt, hmod⟩)]
  have hg : (c.runB p junk (k + 1)).g = c.dewyrm p.conn p.nadj (c.iter (c.runB p junk k).g) (c.runB p junk k).skj := by
    rw [Cfg.runB, Function.iterate_succ_apply', ← Cfg.runB, Cfg.loop, if_neg (by rw [hrun]; decide)]
    exact hadv
  obtain ⟨d1, d2, d3⟩ := dewyrm_spec c A hok p.conn p.nadj (c.runB p junk k).skj _ i1
  refine ⟨j0, hj0, (hB.inv.empty j0 hf).1, fun j hj hx jj hjj ho => ?_⟩
  have hxe : after = (c.dewyrm p.conn p.nadj (c.iter (c.runB p junk k).g) (c.runB p junk k).skj).x := by rw [← hg]
  rw [hxe] at hx ho
  have hfj : (c.dewyrm p.conn p.nadj (c.iter (c.runB p junk k).g) (c.runB p junk k).skj).free j = false := by
    cases hx' : (c.dewyrm p.conn p.nadj (c.iter (c.runB p junk k).g) (c.runB p junk k).skj).free j with
    | false => rfl
    | true =>
      obtain ⟨l, hl⟩ := hx
      exact absurd ((d1.empty j hx').1 l) hl
  have hpl : j ∈ (c.runB p junk k).skj := by
    have h1 := d2.free j hfj
    rw [e] at h1
    simp only [Cfg.place] at h1
    rw [if_neg hj] at h1
    exact hB.placed j h1
  exact d3 j hpl hfj jj hjj (sgn_of_x N G A b mmax single _ d1 j _ hfj ho)

/-- **C80.** If adjacency is symmetric, no equal and opposite neighbours are left at all after an iteration with backtracking. -/
theorem C80_no_opposite_symmetric (N G : Nat) (A : Nat → Nat → ℝ) (b mmax : Nat → ℝ) (single : Option Nat) (hd : ∀ d, single = some d → d < 3) (hsm : (baseline N G A b mmax single).Small) (hN : 0 < N) (p : Par) (junk : Nat → Int) (k : Nat)
    (hsym : ∀ j < N, ∀ jj < p.nadj, ∃ jj' < p.nadj, p.conn (p.conn j jj) jj' = j)
    (hrun : ((baseline N G A b mmax single).runB p junk k).stopped = false) (hbt : p.backtracking ≤ k) (hmod : k % p.backtracking = 0) :
    let after := ((baseline N G A b mmax single).runB p junk (k + 1)).g.x
    ∀ j < N, (∃ l, after j l ≠ 0) → ∀ jj < p.nadj, ¬ ∀ l, after (p.conn j jj) l = -after j l := by
  intro after j hj hx jj hjj ho
  obtain ⟨new, hn, _, h⟩ := C80_no_opposite N G A b mmax single hd hsm hN p junk k hrun hbt hmod
  by_cases hjn : j = new
  · obtain ⟨jj', hjj', e⟩ := hsym j hj jj hjj
    obtain ⟨l, hl⟩ := hx
    have hne : p.conn j jj ≠ new := by
      intro e'
      have h1 := ho l
      rw [e', ← hjn] at h1
      exact hl (by linarith)
    refine h _ hne ⟨l, ?_⟩ jj' hjj' fun l' => ?_
    · show after (p.conn j jj) l ≠ 0
      rw [ho l]; exact neg_ne_zero.mpr hl
    · rw [e]
      have := ho l'
      linarith
  · exact h j hjn hx jj hjj ho

/-! ### What goes wrong -/

/-- Invariant of the recorded counts: entries from `print_iter` on have not been written. -/
theorem nz_unwritten (c : Cfg) (p : Par) (junk : Nat → Int) (k : Nat) : ∀ i, (c.runB p junk k).print ≤ i → (c.runB p junk k).nz i = if i ≤ p.nhistory then 0 else junk i := by
  induction k with
  | zero => intro i _; rfl
  | succ k ih =>
    intro i hi
    rw [Cfg.runB, Function.iterate_succ_apply', ← Cfg.runB] at hi ⊢
    cases hs : (c.runB p junk k).stopped with
    | true => rw [loop_stopped c p _ hs] at hi ⊢; exact ih i hi
    | false =>
      rw [Cfg.loop, if_neg (by rw [hs]; decide)] at hi ⊢
      simp only [finish] at hi ⊢
      set b := c.runB p junk k
      have h1 : (if p.records b.skj.length = true then b.print + 1 else b.print) ≤ i := by
        have key : ∀ (q : Bool) (a : Nat), a ≤ (if q = true then a + 1 else a) := by intro q a; cases q <;> simp
        exact (key _ _).trans hi
      cases hr : p.records b.skj.length with
      | true =>
        rw [hr] at h1
        simp only [if_true] at h1 ⊢
        rw [if_neg (by omega)]
        exact ih i (by omega)
      | false =>
        rw [hr] at h1
        simp only [Bool.false_eq_true, if_false] at h1 ⊢
        exact ih i h1

/-- **C80, violated.** The loop is meant to stop when the number of magnets has not changed over three recorded iterations, but the test reads the count that has not been written yet (zero): with at least one magnet and below the
limits the loop is never left, whatever the counts were (as long as the reads are inside the array). -/
theorem C80_stagnation_violated (N G : Nat) (A : Nat → Nat → ℝ) (b mmax : Nat → ℝ) (single : Option Nat) (p : Par) (junk : Nat → Int) (k : Nat)
    (hprint : ((baseline N G A b mmax single).runB p junk (k + 1)).print ≤ p.nhistory)
    (hrun : ((baseline N G A b mmax single).runB p junk k).stopped = false)
    (hcount : 0 < ((baseline N G A b mmax single).runB p junk (k + 1)).g.count N) (hlim : ((baseline N G A b mmax single).runB p junk (k + 1)).g.count N < min N p.maxMagnets) :
    ((baseline N G A b mmax single).runB p junk (k + 1)).stopped = false := by
  set c := baseline N G A b mmax single with hc
  have hN : c.N = N := rfl
  have hu := nz_unwritten c p junk k
  rw [Cfg.runB, Function.iterate_succ_apply', ← Cfg.runB, Cfg.loop, if_neg (by rw [hrun]; decide)] at hprint hcount hlim ⊢
  set s := c.runB p junk k
  simp only [finish] at hprint hcount hlim ⊢
  rw [hN] at hprint ⊢
  have hn1 : ¬ (c.advance p s).count N ≥ N := by have := lt_min_iff.mp hlim; omega
  have hn2 : ¬ (c.advance p s).count N ≥ p.maxMagnets := by have := lt_min_iff.mp hlim; omega
  simp only [hn1, hn2, decide_false, Bool.or_self, Bool.and_false, Bool.or_false, Bool.false_eq_true, if_false] at hprint ⊢
  cases hr : p.records s.skj.length with
  | false => simp
  | true =>
    rw [hr] at hprint
    simp only [if_true] at hprint ⊢
    have h0 : s.nz (s.print + 1) = 0 := by rw [hu _ (by omega), if_pos hprint]
    have hne : ((0 : Int) == ((c.advance p s).count N : Int)) = false := by
      rw [beq_eq_false_iff_ne]; omega
    simp only [Nat.add_sub_cancel, Nat.add_eq_left, one_ne_zero, if_false, h0, hne, Bool.and_false, Bool.false_and]

/-- Without backtracking in the first `K` iterations and with at least `K` dipoles and magnets, pass `k < K` records as scheduled and does not stop before the last one. -/
theorem run_schedule (c : Cfg) (A : Nat → Nat → ℝ) (hc : c.Ok A) (hsm : c.Small) (hvis : ∃ m < c.P, c.visit m = true) (p : Par) (junk : Nat → Int) (hN : p.K ≤ c.N) (hM : p.maxMagnets = p.K) (hbt : p.K ≤ p.backtracking)
    (hK : 0 < p.K) (hv : p.verbose = true) (k : Nat) (hk : k < p.K) (hfit : ∀ k < p.K, ((List.range k).filter p.records).length < p.nhistory + 1) :
    (c.runB p junk k).stopped = false ∧ (c.runB p junk k).g.count c.N = k ∧ (c.runB p junk k).print = ((List.range k).filter p.records).length := by
  induction k with
  | zero => exact ⟨rfl, by show c.init.count c.N = 0; simp [Gst.count, Cfg.init], rfl⟩
  | succ k ih =>
    obtain ⟨h1, h2, h3⟩ := ih (by omega)
    have hB := runB_inv c A hc hsm hvis (by omega) p junk k
    obtain ⟨_, i2, _⟩ := iter_spec c A hc hsm hvis _ hB.inv (hB.go h1)
    have hlen := runB_length c p junk k h1
    have hadv : c.advance p (c.runB p junk k) = c.iter (c.runB p junk k).g := by rw [Cfg.advance, if_neg (by rw [hlen]; omega)]
    have hu := nz_unwritten c p junk k
    rw [Cfg.runB, Function.iterate_succ_apply', ← Cfg.runB, Cfg.loop, if_neg (by rw [h1]; decide)]
    rw [hadv]
    have hcnt : (c.iter (c.runB p junk k).g).count c.N = k + 1 := by rw [i2, h2]
    have hf := hfit (k + 1) hk
    rw [List.range_succ, List.filter_append, List.length_append] at hf ⊢
    simp only [finish]
    rw [hcnt, hlen]
    have hn1 : ¬ (k + 1 ≥ c.N) := by omega
    have hn2 : ¬ (k + 1 ≥ p.maxMagnets) := by omega
    simp only [hn1, hn2, decide_false, Bool.or_self, Bool.and_false, Bool.or_false, Bool.false_eq_true, if_false, true_and]
    cases hr : p.records k with
    | false => simp [hr, h3]
    | true =>
      simp only [hr, List.filter_singleton, cond_true, List.length_singleton] at hf ⊢
      simp only [if_true, h3, Bool.true_and, Nat.add_sub_cancel, and_true]
      have h0 : (c.runB p junk k).nz (((List.range k).filter p.records).length + 1) = 0 := by rw [hu _ (by omega), if_pos (by omega)]
      have hne : ((0 : Int) == ((k + 1 : Nat) : Int)) = false := by
        rw [beq_eq_false_iff_ne]; omega
      simp only [Nat.add_eq_left, one_ne_zero, if_false, h0, hne, Bool.and_false, Bool.false_and]

theorem records_eq (p : Par) (hv : p.verbose = true) (q : Nat) (hq : 2 ≤ q) (hn : 0 < p.nhistory) (hK : p.K = p.nhistory * q) :
    (∀ k < p.K, ((List.range k).filter p.records).length < p.nhistory + 1) ∧ ((List.range p.K).filter p.records).length = p.nhistory + 1 := by
  have hdiv : p.K / p.nhistory = q := by rw [hK, Nat.mul_div_cancel_left q hn]
  have hpos : q ≤ p.K := by rw [hK]; exact Nat.le_mul_of_pos_left q hn
  have hrec : p.records = fun k => (k % q == 0 || k == 0 || k == p.K - 1) := by
    funext k; simp only [Par.records, hv, hdiv, Bool.true_and]
  have hlt : ∀ k < p.K, ((List.range k).filter p.records).length ≤ p.nhistory := by
    intro k hk
    have e : (List.range k).filter p.records = (List.range k).filter fun i => i % q == 0 := by
      apply List.filter_congr
      intro i hi
      have hi' := List.mem_range.mp hi
      rw [hrec]
      have h1 : (i == p.K - 1) = false := by rw [beq_eq_false_iff_ne]; omega
      simp only [h1, Bool.or_false]
      by_cases h0 : i = 0
      · subst h0; simp
      · have : (i == 0) = false := by rw [beq_eq_false_iff_ne]; exact h0
        rw [this, Bool.or_false]
    rw [e]
    obtain ⟨d, hd⟩ := Nat.exists_eq_add_of_lt hk
    have h3 := count_multiples q p.nhistory (by omega)
    rw [← hK, show p.K = k + (d + 1) by omega, List.range_add, List.filter_append, List.length_append] at h3
    omega
  refine ⟨fun k hk => by have := hlt k hk; omega, ?_⟩
  have hlast : (p.K - 1) % q ≠ 0 := by
    intro h
    have h1 : q ∣ p.K - 1 := Nat.dvd_of_mod_eq_zero h
    have h2 : q ∣ p.K := by rw [hK]; exact Nat.dvd_mul_left q _
    have h3 := Nat.dvd_sub h2 h1
    rw [show p.K - (p.K - 1) = 1 by omega] at h3
    have := Nat.dvd_one.mp h3
    omega
  have h3 := count_multiples q p.nhistory (by omega)
  rw [← hK] at h3
  obtain ⟨K', hK'⟩ : ∃ K', p.K = K' + 1 := ⟨p.K - 1, by omega⟩
  have e : (List.range K').filter p.records = (List.range K').filter fun i => i % q == 0 := by
    apply List.filter_congr
    intro i hi
    have hi' := List.mem_range.mp hi
    rw [hrec]
    have h1 : (i == p.K - 1) = false := by rw [beq_eq_false_iff_ne]; omega
    simp only [h1, Bool.or_false]
    by_cases h0 : i = 0
    · subst h0; simp
    · have : (i == 0) = false := by rw [beq_eq_false_iff_ne]; exact h0
      rw [this, Bool.or_false]
  rw [hK', show K' + 1 - 1 = K' by omega] at hlast
  rw [hK', List.range_succ, List.filter_append, List.length_append] at h3 ⊢
  rw [e]
  have h4 : ([K'].filter fun i => i % q == 0).length = 0 := by simp [hlast]
  have h5 : ([K'].filter p.records).length = 1 := by
    have : p.records K' = true := by rw [hrec]; simp [hK']
    simp [this]
  rw [h4] at h3
  rw [h5]
  omega

/-- **C80, violated.** Reaching the magnet limit in the last iteration records once more: for every problem, with `nhistory` a proper divisor of `K`, `max_nMagnets = K` up to the number of dipoles and no backtracking, `print_GPMO` is called
`nhistory + 2` times although the histories have `nhistory + 1` entries: a write out of bounds. -/
theorem C80_history_overflow_violated (N G : Nat) (A : Nat → Nat → ℝ) (b mmax : Nat → ℝ) (single : Option Nat) (hd : ∀ d, single = some d → d < 3) (hsm : (baseline N G A b mmax single).Small) (p : Par) (junk : Nat → Int)
    (hN : p.K ≤ N) (hM : p.maxMagnets = p.K) (hbt : p.K ≤ p.backtracking) (hv : p.verbose = true) (q : Nat) (hq : 2 ≤ q) (hn : 0 < p.nhistory) (hK : p.K = p.nhistory * q) (hh : 10 ≤ p.nhistory → junk (p.nhistory + 1) ≠ p.K) :
    ((baseline N G A b mmax single).runB p junk p.K).print = p.nhistory + 2 := by
  set c := baseline N G A b mmax single with hc
  have hcN : c.N = N := rfl
  obtain ⟨r1, r2⟩ := records_eq p hv q hq hn hK
  have hpos : q ≤ p.K := by rw [hK]; exact Nat.le_mul_of_pos_left q hn
  obtain ⟨K', hK'⟩ : ∃ K', p.K = K' + 1 := ⟨p.K - 1, by omega⟩
  have hok : c.Ok A := baseline_ok N G A b mmax single
  have hvis := baseline_vis N G A b mmax single hd
  obtain ⟨h1, h2, h3⟩ := run_schedule c A hok hsm hvis p junk (by rw [hcN]; exact hN) hM hbt (by omega) hv K' (by omega) r1
  have hB := runB_inv c A hok hsm hvis (by rw [hcN]; omega) p junk K'
  obtain ⟨_, i2, _⟩ := iter_spec c A hok hsm hvis _ hB.inv (hB.go h1)
  have hlen := runB_length c p junk K' h1
  have hadv : c.advance p (c.runB p junk K') = c.iter (c.runB p junk K').g := by rw [Cfg.advance, if_neg (by rw [hlen]; omega)]
  have hcnt : (c.iter (c.runB p junk K').g).count c.N = K' + 1 := by rw [i2, h2]
  have hu := nz_unwritten c p junk K'
  have hrec : p.records K' = true := by simp [Par.records, hv, hK']
  have hl : ((List.range K').filter p.records).length = p.nhistory := by
    rw [hK', List.range_succ, List.filter_append, List.length_append] at r2
    simp [hrec] at r2
    exact r2
  rw [hK', Cfg.runB, Function.iterate_succ_apply', ← Cfg.runB, Cfg.loop, if_neg (by rw [h1]; decide), hadv]
  simp only [finish]
  rw [hcnt, hlen, hrec, h3, hl]
  have hn2 : K' + 1 ≥ p.maxMagnets := by omega
  simp only [if_true, Nat.add_sub_cancel, hn2, decide_true, Bool.or_true, Bool.and_true, Bool.true_and]
  have h0 : (c.runB p junk K').nz (p.nhistory + 1) = junk (p.nhistory + 1) := by rw [hu _ (by omega), if_neg (by omega)]
  simp only [Nat.add_eq_left, one_ne_zero, if_false, h0]
  by_cases h10 : 10 ≤ p.nhistory
  · have hne : (junk (p.nhistory + 1) == ((K' + 1 : Nat) : Int)) = false := by
      rw [beq_eq_false_iff_ne, ← hK']; exact hh h10
    simp only [hne, Bool.and_false, Bool.false_and, Bool.not_false, if_true]
  · have : ¬ (p.nhistory + 1 > 10) := by omega
    simp [this]

/-! ### Backtracking can leave an opposite pair -/

/-- Three dipoles on a line, at 0, 1 and -2. -/
noncomputable def line3 : Nat → Nat → ℝ := fun i l => if l = 0 then (if i = 0 then 0 else if i = 1 then 1 else -2) else 0

theorem line3_dist (i j : Nat) : gridDist line3 j i = |line3 i 0 - line3 j 0| := by
  have h : ∀ l, l ≠ 0 → line3 i l - line3 j l = 0 := by intro l hl; simp [line3, hl]
  rw [gridDist, h 1 (by norm_num), h 2 (by norm_num)]
  simp [Real.sqrt_mul_self_eq_abs]

theorem line3_small (j : Nat) : ∀ i < 3, gridDist line3 j i < 1e10 := by
  intro i _
  rw [line3_dist, abs_lt]
  simp only [line3, if_true]
  constructor <;> (split <;> split <;> try split) <;> (try split) <;> norm_num

theorem line3_conn : connect line3 3 0 0 = 0 ∧ connect line3 3 0 1 = 1 ∧ connect line3 3 2 1 = 0 := by
  have hself : ∀ j < 3, connect line3 3 j 0 = j := by
    intro j hj
    refine C79_self line3 3 j hj (line3_small j) fun i hi hne => ⟨0, by norm_num, ?_⟩
    interval_cases i <;> interval_cases j <;> first | exact absurd rfl hne | (simp only [line3]; norm_num)
  have hd : gridDist line3 0 1 = 1 ∧ gridDist line3 0 2 = 2 ∧ gridDist line3 2 0 = 2 ∧ gridDist line3 2 1 = 3 := by
    refine ⟨?_, ?_, ?_, ?_⟩ <;> (rw [line3_dist]; simp only [line3]; norm_num)
  have second : ∀ j < 3, connect line3 3 j 1 < 3 ∧ connect line3 3 j 1 ≠ j ∧ ∀ i < 3, i ≠ j → gridDist line3 j (connect line3 3 j 1) ≤ gridDist line3 j i := by
    intro j hj
    obtain ⟨h1, h2, _, h4⟩ := C79_nearest line3 3 j 2 (by norm_num) (line3_small j)
    refine ⟨h1 1 (by norm_num), fun e => ?_, fun i hi hne => ?_⟩
    · have := h2 1 (by norm_num) 0 (by norm_num) (by rw [e, hself j hj])
      omega
    · by_cases e : i = connect line3 3 j 1
      · rw [e]
      · refine h4 i hi (fun k hk => ?_) 1 (by norm_num)
        interval_cases k
        · rw [hself j hj]; exact hne
        · exact e
  refine ⟨hself 0 (by norm_num), ?_, ?_⟩
  · obtain ⟨h1, h2, h3⟩ := second 0 (by norm_num)
    have h4 := h3 1 (by norm_num) (by norm_num)
    generalize connect line3 3 0 1 = y at *
    interval_cases y
    · exact absurd rfl h2
    · rfl
    · rw [hd.1, hd.2.1] at h4; norm_num at h4
  · obtain ⟨h1, h2, h3⟩ := second 2 (by norm_num)
    have h4 := h3 0 (by norm_num) (by norm_num)
    generalize connect line3 3 2 1 = y at *
    interval_cases y
    · rfl
    · rw [hd.2.2.1, hd.2.2.2] at h4; norm_num at h4
    · exact absurd rfl h2

/-- The field: dipole 0 along x acts on the first grid point, dipole 2 along x on the second. -/
noncomputable def fieldA : Nat → Nat → ℝ := fun q i => if q = 0 ∧ i = 0 then 10 else if q = 6 ∧ i = 1 then 1 else 0

noncomputable def rhsB : Nat → ℝ := fun i => if i = 0 then 10 else -1

noncomputable def witness : Cfg := baseline 3 2 fieldA rhsB (fun _ => 0) none

theorem witness_small : witness.Small := by
  intro j hj m hm
  have hj' : j < 3 := hj
  have hm' : m < 3 := hm
  show (∑ i ∈ Finset.range 2, (|rhsB i| + ∑ j' ∈ Finset.range 3, ∑ m' ∈ Finset.range 3, |fieldA (3 * j' + m') i|) ^ 2) + (0 : ℝ) * 0 < 1e50
  simp only [Finset.sum_range_succ, Finset.sum_range_zero, fieldA, rhsB]
  norm_num

theorem witness_value (r : Nat → ℝ) (j m : Nat) (sign : ℝ) : witness.value r j m sign = (r 0 + sign * fieldA (3 * j + m) 0) * (r 0 + sign * fieldA (3 * j + m) 0) + (r 1 + sign * fieldA (3 * j + m) 1) * (r 1 + sign * fieldA (3 * j + m) 1) := by
  show (∑ i ∈ Finset.range 2, (r i + sign * fieldA (3 * j + m) i) * (r i + sign * fieldA (3 * j + m) i)) + (0 : ℝ) * 0 = _
  simp only [Finset.sum_range_succ, Finset.sum_range_zero]
  ring

theorem witness_first (s : Gst) (h : witness.Inv s) (hc : s.count 3 < 3) (h0 : s.free 0 = true) (r0 : s.r 0 = -10) (r1 : s.r 1 = 1) : witness.iter s = witness.place (witness.sweep s) 0 0 1 := by
  obtain ⟨_, _, j, hj, m, hm, sign, hsg, hf, hv, e, hmin⟩ := iter_spec witness fieldA (baseline_ok _ _ _ _ _ _) witness_small ⟨0, by decide, rfl⟩ s h hc
  have h1 := hmin 0 (by decide) 0 (by decide) h0 rfl 1 (Or.inl rfl)
  have hj' : j < 3 := hj
  have hm' : m < 3 := hm
  simp only [witness_value, r0, r1, fieldA] at h1
  have : j = 0 ∧ m = 0 ∧ sign = 1 := by
    interval_cases j <;> interval_cases m <;> rcases hsg with rfl | rfl <;> first | (exfalso; norm_num at h1; done) | norm_num
  obtain ⟨rfl, rfl, rfl⟩ := this
  exact e

theorem witness_second (s : Gst) (h : witness.Inv s) (hc : s.count 3 < 3) (h0 : s.free 2 = true) (h0' : s.free 0 = false) (r0 : s.r 0 = 0) (r1 : s.r 1 = 1) : witness.iter s = witness.place (witness.sweep s) 2 0 (-1) := by
  obtain ⟨_, _, j, hj, m, hm, sign, hsg, hf, hv, e, hmin⟩ := iter_spec witness fieldA (baseline_ok _ _ _ _ _ _) witness_small ⟨0, by decide, rfl⟩ s h hc
  have h1 := hmin 2 (by decide) 0 (by decide) h0 rfl (-1) (Or.inr rfl)
  have hj' : j < 3 := hj
  have hm' : m < 3 := hm
  simp only [witness_value, r0, r1, fieldA] at h1
  have : j = 2 ∧ m = 0 ∧ sign = -1 := by
    interval_cases j <;> interval_cases m <;> rcases hsg with rfl | rfl <;> first | (exfalso; norm_num at h1; done) | norm_num
  obtain ⟨rfl, rfl, rfl⟩ := this
  exact e

/-- The parameters: `K = 2`, backtracking in every iteration from the second on, two neighbours (the dipole itself and the nearest one). -/
noncomputable def witnessPar : Par := ⟨2, false, 1, 1, 2, 3, connect line3 3⟩

/-- **C80, violated.** The magnet placed last is not examined, and adjacency is not symmetric: after an iteration with backtracking the magnet just placed (dipole 2) has an equal and opposite magnet (dipole 0) as its nearest neighbour. -/
theorem C80_opposite_remains_violated (junk : Nat → Int) :
    let x := (witness.runB witnessPar junk 2).g.x
    witnessPar.backtracking ≤ 1 ∧ 1 % witnessPar.backtracking = 0 ∧ (∃ l, x 2 l ≠ 0) ∧ connect line3 3 2 1 = 0 ∧ ∀ l, x 0 l = -x 2 l := by
  obtain ⟨c1, c2, c3⟩ := line3_conn
  set s0 := witness.init with hs0
  have inv0 : witness.Inv s0 := init_inv witness
  have cnt0 : s0.count 3 = 0 := by simp [hs0, Gst.count, Cfg.init]
  have e1 : witness.iter s0 = witness.place (witness.sweep s0) 0 0 1 := witness_first s0 inv0 (by omega) rfl (by simp [hs0, Cfg.init, witness, baseline, rhsB]) (by simp [hs0, Cfg.init, witness, baseline, rhsB])
  have i1 := iter_spec witness fieldA (baseline_ok _ _ _ _ _ _) witness_small ⟨0, by decide, rfl⟩ s0 inv0 (show s0.count 3 < 3 by omega)
  have hch1 : (witness.choice (witness.sweep s0)).1 = 0 := by
    by_contra hne
    have h1 : (witness.iter s0).free 0 = false := by rw [e1]; simp [Cfg.place]
    have h2 : (witness.iter s0).free 0 = true := by
      simp only [Cfg.iter, Cfg.place]
      rw [if_neg (fun h => hne h.symm)]
      rfl
    rw [h1] at h2; exact absurd h2 (by decide)
  set s1 := witness.iter s0 with hs1
  have cnt1 : s1.count 3 = 1 := by have := i1.2.1; rw [show witness.N = 3 from rfl] at this; omega
  have f1 : s1.free 0 = false ∧ s1.free 1 = true ∧ s1.free 2 = true := by rw [e1]; refine ⟨?_, ?_, ?_⟩ <;> simp [Cfg.place, Cfg.sweep, Cfg.sweepWith, hs0, Cfg.init]
  have r1 : s1.r 0 = 0 ∧ s1.r 1 = 1 := by
    rw [e1]
    refine ⟨?_, ?_⟩ <;> simp [Cfg.place, Cfg.sweep, Cfg.sweepWith, hs0, Cfg.init, witness, baseline, rhsB, fieldA]
  have g1 : s1.sgn 0 = 1 ∧ s1.sgn 1 = 0 := by rw [e1]; refine ⟨?_, ?_⟩ <;> simp [Cfg.place, Cfg.sweep, Cfg.sweepWith, hs0, Cfg.init]
  have x1 : ∀ l, s1.x 0 l = if l = 0 then 1 else 0 := by
    intro l; rw [e1]
    simp only [Cfg.place, Cfg.sweep, Cfg.sweepWith, hs0, Cfg.init, witness, baseline, true_and, beq_iff_eq]
    split <;> simp
  have x12 : ∀ l, s1.x 2 l = 0 := by intro l; rw [e1]; simp [Cfg.place, Cfg.sweep, Cfg.sweepWith, hs0, Cfg.init]
  have hrun1 : witness.runB witnessPar junk 1 = ⟨s1, [0], fun i => if i ≤ 1 then 0 else junk i, 0, false⟩ := by
    rw [Cfg.runB, Function.iterate_one, Cfg.loop, if_neg (by simp [Cfg.start])]
    have hadv : witness.advance witnessPar (witness.start witnessPar junk) = s1 := by
      rw [Cfg.advance, if_neg (by simp [Cfg.start, witnessPar])]; rfl
    rw [hadv]
    have hch1' : (witness.choice (witness.sweep (witness.start witnessPar junk).g)).1 = 0 := hch1
    simp only [finish, hch1', show witness.N = 3 from rfl, cnt1]
    simp [Par.records, witnessPar, Cfg.start]
    rfl
  have e2 : witness.iter s1 = witness.place (witness.sweep s1) 2 0 (-1) := witness_second s1 i1.1 (by omega) f1.2.2 f1.1 r1.1 r1.2
  set s2 := witness.iter s1 with hs2
  have g2 : s2.sgn 0 = 1 ∧ s2.sgn 1 = 0 := by rw [e2]; refine ⟨?_, ?_⟩ <;> simp [Cfg.place, Cfg.sweep, Cfg.sweepWith, g1]
  have hfin : (witness.runB witnessPar junk 2).g = s2 := by
    rw [Cfg.runB, Function.iterate_succ_apply', ← Cfg.runB, hrun1, Cfg.loop, if_neg (by simp)]
    show witness.advance witnessPar _ = s2
    rw [Cfg.advance, if_pos (by simp [witnessPar])]
    show witness.dewyrm (connect line3 3) 2 s2 [0] = s2
    have hl : (List.range 2).map (connect line3 3 0) = [0, 1] := by simp [List.range_succ, c1, c2]
    simp only [Cfg.dewyrm, List.foldl_cons, List.foldl_nil, hl, Cfg.dewyrmOne]
    rw [if_neg, if_neg]
    · rintro ⟨_, h, _⟩; rw [g2.1, g2.2] at h; norm_num at h
    · rintro ⟨_, h, _⟩; rw [g2.1] at h; norm_num at h
  intro x
  have hx2 : ∀ l, x 2 l = if l = 0 then -1 else 0 := by
    intro l
    show (witness.runB witnessPar junk 2).g.x 2 l = _
    rw [hfin, e2]
    have hz : (witness.sweep s1).x 2 l = 0 := x12 l
    simp only [Cfg.place, hz, true_and]
    simp only [witness, baseline, beq_iff_eq]
    split <;> simp
  have hx0 : ∀ l, x 0 l = if l = 0 then 1 else 0 := by
    intro l
    show (witness.runB witnessPar junk 2).g.x 0 l = _
    rw [hfin, e2]
    have hz : (witness.sweep s1).x 0 l = _ := x1 l
    simp only [Cfg.place, hz]
    simp
  refine ⟨le_rfl, rfl, ⟨0, by rw [hx2]; norm_num⟩, c3, fun l => ?_⟩
  rw [hx0, hx2]
  split <;> simp

end Simsopt.Magnets
