import Verif.Magnets.Connect
/-!
# C80: greedy optimization with backtracking

Model of `GPMO_backtracking` (src/simsoptpp/permanent_magnet_optimization.cpp L382-578).  Simplifications: as in `Verif.Magnets.Greedy`; `num_nonzeros` is a function that is zero on its `nhistory + 1` entries and arbitrary (`junk`)
outside, where the code reads out of bounds; `mmax_sum`, which is only printed, is left out.
-/
namespace Simsopt.Magnets

/-- Removing the pair `j`, `d` (L466-493 and, with `reset`, L907-938 of the variant with arbitrary vectors, which also clears `x_vec`).  The signs and kinds are those before the removal. -/
noncomputable def Cfg.removePair (c : Cfg) (reset : Bool) (s : Gst) (j d : Nat) : Gst :=
  ⟨fun j' l => if (j' = j ∧ c.touch (s.kind j) l = true) ∨ (j' = d ∧ c.touch (s.kind d) l = true) then 0 else s.x j' l,
   fun j' => if j' = j ∨ j' = d then true else s.free j',
   s.R2s,
   fun i => s.r i - (s.sgn j * c.fld j (s.kind j) i + s.sgn d * c.fld d (s.kind d) i),
   fun j' => if reset = true ∧ (j' = j ∨ j' = d) then 0 else s.kind j',
   fun j' => if j' = j ∨ j' = d then 0 else s.sgn j'⟩

/-- The test for an equal and opposite pair (L463-464). -/
def Wyrm (s : Gst) (j d : Nat) : Prop := s.sgn j ≠ 0 ∧ s.sgn j = -s.sgn d ∧ s.kind j = s.kind d

open Classical in
/-- The loop over the neighbours of one dipole, with its `break` (L459-496). -/
noncomputable def Cfg.dewyrmOne (c : Cfg) (s : Gst) (j : Nat) : List Nat → Gst
  | [] => s
  | d :: ds => if Wyrm s j d then c.removePair false s j d else c.dewyrmOne s j ds

/-- The loop over the dipoles placed so far (L455-497); `conn j jj` is `Connect(j, jj)`. -/
noncomputable def Cfg.dewyrm (c : Cfg) (conn : Nat → Nat → Nat) (nadj : Nat) (s : Gst) (placed : List Nat) : Gst :=
  placed.foldl (fun s j => c.dewyrmOne s j ((List.range nadj).map (conn j))) s

/-- The parameters of a run. -/
structure Par where
  K : Nat
  verbose : Bool
  nhistory : Nat
  backtracking : Nat
  nadj : Nat
  maxMagnets : Nat
  conn : Nat → Nat → Nat

/-- The variables of the main loop: the arrays, `skj[0..k)`, `num_nonzeros`, `print_iter`, and whether a `break` was executed. -/
structure Bst where
  g : Gst
  skj : List Nat
  nz : Nat → Int
  print : Nat
  stopped : Bool

/-- Does iteration `k` record (L512)? -/
def Par.records (p : Par) (k : Nat) : Bool := p.verbose && (k % (p.K / p.nhistory) == 0 || k == 0 || k == p.K - 1)

/-- Placing and backtracking (L424-498). -/
noncomputable def Cfg.advance (c : Cfg) (p : Par) (b : Bst) : Gst :=
  if b.skj.length ≥ p.backtracking ∧ b.skj.length % p.backtracking = 0 then c.dewyrm p.conn p.nadj (c.iter b.g) b.skj else c.iter b.g

/-- The end of an iteration, given the arrays (L500-548): recording, the test for a stuck run, the magnet limit. -/
def finish (p : Par) (N : Nat) (b : Bst) (g : Gst) (chosen : Nat) : Bst :=
  let n := g.count N
  let rec_ := p.records b.skj.length
  let print := if rec_ then b.print + 1 else b.print
  let nz : Nat → Int := if rec_ then fun i => if i = print - 1 then (n : Int) else b.nz i else b.nz
  let stuck := rec_ && decide (print > 10) && (nz print == nz (print - 1)) && (nz print == nz (print - 2))
  let limit := !stuck && (decide (n ≥ N) || decide (n ≥ p.maxMagnets))
  ⟨g, b.skj ++ [chosen], nz, if limit then print + 1 else print, stuck || limit⟩

/-- One pass of the main loop (L421-549). -/
noncomputable def Cfg.loop (c : Cfg) (p : Par) (b : Bst) : Bst :=
  if b.stopped then b else finish p c.N b (c.advance p b) (c.choice (c.sweep b.g)).1

/-- Before the loop (L384-418). -/
noncomputable def Cfg.start (c : Cfg) (p : Par) (junk : Nat → Int) : Bst := ⟨c.init, [], fun i => if i ≤ p.nhistory then 0 else junk i, 0, false⟩

/-- The loop after `k` passes. -/
noncomputable def Cfg.runB (c : Cfg) (p : Par) (junk : Nat → Int) (k : Nat) : Bst := (c.loop p)^[k] (c.start p junk)

/-! ### Removing a pair -/

theorem removePair_inv (c : Cfg) (A : Nat → Nat → ℝ) (hc : c.Ok A) (s : Gst) (h : c.Inv s) (reset : Bool) (j d : Nat) (hjd : j ≠ d) (hj : s.free j = false) (hd : s.free d = false) : c.Inv (c.removePair reset s j d) := by
  have hxz : ∀ a, s.free a = false → ∀ l, c.touch (s.kind a) l = false → s.x a l = 0 := by
    intro a ha l hl
    rw [(h.full a ha).2.2.2.2 l, hc.touch a _ l hl, mul_zero]
  refine ⟨?_, ?_, ?_, ?_⟩
  · intro j' hj' m' hm' hb
    refine h.blocked j' hj' m' hm' ?_
    rcases hb with hb | hb
    · left
      simp only [Cfg.removePair] at hb
      split at hb
      · exact absurd hb (by decide)
      · exact hb
    · exact Or.inr hb
  · intro j' hj'
    simp only [Cfg.removePair] at hj' ⊢
    by_cases e1 : j' = j
    · subst e1
      refine ⟨fun l => ?_, by simp⟩
      by_cases ht : c.touch (s.kind j') l = true
      · rw [if_pos (Or.inl ⟨rfl, ht⟩)]
      · rw [if_neg]
        · exact hxz j' hj l (by simpa using ht)
        · rintro (h' | h')
          · exact ht h'.2
          · exact hjd h'.1
    · by_cases e2 : j' = d
      · subst e2
        refine ⟨fun l => ?_, by simp⟩
        by_cases ht : c.touch (s.kind j') l = true
        · rw [if_pos (Or.inr ⟨rfl, ht⟩)]
        · rw [if_neg]
          · exact hxz j' hd l (by simpa using ht)
          · rintro (h' | h')
            · exact e1 h'.1
            · exact ht h'.2
      · rw [if_neg (by simp [e1, e2])] at hj'
        obtain ⟨h1, h2⟩ := h.empty j' hj'
        simp [e1, e2, h1, h2]
  · intro j' hj'
    simp only [Cfg.removePair] at hj' ⊢
    by_cases e1 : j' = j
    · simp [e1] at hj'
    · by_cases e2 : j' = d
      · simp [e2] at hj'
      · simp only [e1, e2, or_self, if_false, and_false, false_and] at hj' ⊢
        exact h.full j' hj'
  · intro i
    simp only [Cfg.removePair]
    have hjN := (h.full j hj).1
    have hdN := (h.full d hd).1
    have e : ∀ j' ∈ Finset.range c.N, (if j' = j ∨ j' = d then (0 : ℝ) else s.sgn j') * c.fld j' (if reset = true ∧ (j' = j ∨ j' = d) then 0 else s.kind j') i =
        s.sgn j' * c.fld j' (s.kind j') i - ((if j' = j then s.sgn j * c.fld j (s.kind j) i else 0) + (if j' = d then s.sgn d * c.fld d (s.kind d) i else 0)) := by
      intro j' _
      by_cases e1 : j' = j
      · subst e1; simp [hjd]
      · by_cases e2 : j' = d
        · subst e2; simp [e1]
        · simp [e1, e2]
    rw [Finset.sum_congr rfl e, Finset.sum_sub_distrib, Finset.sum_add_distrib, Finset.sum_ite_eq' (Finset.range c.N) j, Finset.sum_ite_eq' (Finset.range c.N) d, if_pos (Finset.mem_range.mpr hjN), if_pos (Finset.mem_range.mpr hdN), h.resid i]
    ring

theorem wyrm_full (c : Cfg) (s : Gst) (h : c.Inv s) (j d : Nat) (hw : Wyrm s j d) : j ≠ d ∧ s.free j = false ∧ s.free d = false := by
  obtain ⟨h1, h2, _⟩ := hw
  refine ⟨?_, ?_, ?_⟩
  · rintro rfl
    apply h1; linarith
  · cases hf : s.free j with
    | false => rfl
    | true => exact absurd (h.empty j hf).2 h1
  · cases hf : s.free d with
    | false => rfl
    | true => rw [(h.empty d hf).2, neg_zero] at h2; exact absurd h2 h1

/-- Backtracking only takes magnets away. -/
structure Fewer (s t : Gst) : Prop where
  free : ∀ j, t.free j = false → s.free j = false
  sgn : ∀ j, t.sgn j = s.sgn j ∨ t.sgn j = 0
  kind : ∀ j, t.free j = false → t.kind j = s.kind j
  same : ∀ j, t.free j = false → t.sgn j = s.sgn j

theorem Fewer.refl (s : Gst) : Fewer s s := ⟨fun _ h => h, fun _ => Or.inl rfl, fun _ _ => rfl, fun _ _ => rfl⟩

theorem Fewer.trans {s t u : Gst} (h : Fewer s t) (h' : Fewer t u) : Fewer s u :=
  ⟨fun j hj => h.free j (h'.free j hj), fun j => by
    rcases h'.sgn j with e | e
    · rw [e]; exact h.sgn j
    · exact Or.inr e, fun j hj => (h'.kind j hj).trans (h.kind j (h'.free j hj)), fun j hj => (h'.same j hj).trans (h.same j (h'.free j hj))⟩

theorem removePair_fewer (c : Cfg) (reset : Bool) (s : Gst) (j d : Nat) : Fewer s (c.removePair reset s j d) := by
  have key : ∀ j', (c.removePair reset s j d).free j' = false → ¬ (j' = j ∨ j' = d) ∧ s.free j' = false := by
    intro j' h
    simp only [Cfg.removePair] at h
    split at h
    · exact absurd h (by decide)
    · exact ⟨‹_›, h⟩
  refine ⟨fun j' h => (key j' h).2, fun j' => ?_, fun j' h => ?_, fun j' h => ?_⟩
  · simp only [Cfg.removePair]
    split
    · exact Or.inr rfl
    · exact Or.inl rfl
  · simp only [Cfg.removePair]
    rw [if_neg (fun h' => (key j' h).1 h'.2)]
  · simp only [Cfg.removePair]
    rw [if_neg (key j' h).1]

theorem dewyrmOne_spec (c : Cfg) (A : Nat → Nat → ℝ) (hc : c.Ok A) (s : Gst) (h : c.Inv s) (j : Nat) (ds : List Nat) :
    c.Inv (c.dewyrmOne s j ds) ∧ Fewer s (c.dewyrmOne s j ds) ∧ ((c.dewyrmOne s j ds).free j = false → ∀ d ∈ ds, ¬ Wyrm (c.dewyrmOne s j ds) j d) := by
  induction ds with
  | nil => exact ⟨h, Fewer.refl s, fun _ d hd => by simp at hd⟩
  | cons a ds ih =>
    by_cases hw : Wyrm s j a
    · obtain ⟨h1, h2, h3⟩ := wyrm_full c s h j a hw
      simp only [Cfg.dewyrmOne, if_pos hw]
      refine ⟨removePair_inv c A hc s h false j a h1 h2 h3, removePair_fewer c false s j a, fun hf => ?_⟩
      simp [Cfg.removePair] at hf
    · simp only [Cfg.dewyrmOne, if_neg hw]
      refine ⟨ih.1, ih.2.1, fun hf d hd => ?_⟩
      rcases List.mem_cons.mp hd with rfl | hd
      · rintro ⟨w1, w2, w3⟩
        have hfd : (c.dewyrmOne s j ds).free d = false := by
          cases hx : (c.dewyrmOne s j ds).free d with
          | false => rfl
          | true => rw [(ih.1.empty d hx).2, neg_zero] at w2; exact absurd w2 w1
        apply hw
        rw [ih.2.1.same j hf] at w1 w2
        rw [ih.2.1.same d hfd] at w2
        rw [ih.2.1.kind j hf, ih.2.1.kind d hfd] at w3
        exact ⟨w1, w2, w3⟩
      · exact ih.2.2 hf d hd

/-- Absence of a pair survives further removals. -/
theorem noWyrm_mono (c : Cfg) (s t : Gst) (ht : c.Inv t) (hl : Fewer s t) (j d : Nat) (hf : t.free j = false) (hn : ¬ Wyrm s j d) : ¬ Wyrm t j d := by
  rintro ⟨w1, w2, w3⟩
  have hfd : t.free d = false := by
    cases hx : t.free d with
    | false => rfl
    | true => rw [(ht.empty d hx).2, neg_zero] at w2; exact absurd w2 w1
  apply hn
  rw [hl.same j hf] at w1 w2
  rw [hl.same d hfd] at w2
  rw [hl.kind j hf, hl.kind d hfd] at w3
  exact ⟨w1, w2, w3⟩

theorem dewyrm_spec (c : Cfg) (A : Nat → Nat → ℝ) (hc : c.Ok A) (conn : Nat → Nat → Nat) (nadj : Nat) (placed : List Nat) : ∀ s, c.Inv s →
    c.Inv (c.dewyrm conn nadj s placed) ∧ Fewer s (c.dewyrm conn nadj s placed) ∧
    ∀ j ∈ placed, (c.dewyrm conn nadj s placed).free j = false → ∀ jj < nadj, ¬ Wyrm (c.dewyrm conn nadj s placed) j (conn j jj) := by
  induction placed with
  | nil => intro s h; exact ⟨h, Fewer.refl s, fun j hj => by simp at hj⟩
  | cons a as ih =>
    intro s h
    obtain ⟨h1, h2, h3⟩ := dewyrmOne_spec c A hc s h a ((List.range nadj).map (conn a))
    obtain ⟨k1, k2, k3⟩ := ih _ h1
    simp only [Cfg.dewyrm, List.foldl_cons] at k1 k2 k3 ⊢
    refine ⟨k1, h2.trans k2, fun j hj hf jj hjj => ?_⟩
    rcases List.mem_cons.mp hj with rfl | hj
    · refine noWyrm_mono c _ _ k1 k2 j _ hf (h3 (k2.free j hf) _ ?_)
      exact List.mem_map.mpr ⟨jj, List.mem_range.mpr hjj, rfl⟩
    · exact k3 j hj hf jj hjj

theorem Fewer.count {s t : Gst} (h : Fewer s t) (N : Nat) : t.count N ≤ s.count N := by
  apply Finset.card_le_card
  intro j hj
  rw [Finset.mem_filter] at hj ⊢
  exact ⟨hj.1, h.free j hj.2⟩

/-! ### The loop -/

/-- Invariant of the main loop. -/
structure InvB (c : Cfg) (p : Par) (b : Bst) : Prop where
  inv : c.Inv b.g
  placed : ∀ j, b.g.free j = false → j ∈ b.skj
  go : b.stopped = false → b.g.count c.N < c.N
  limit : b.g.count c.N ≤ max 1 p.maxMagnets
  under : b.stopped = false → b.skj = [] ∨ b.g.count c.N < p.maxMagnets

theorem count_le (s : Gst) (N : Nat) : s.count N ≤ N := by
  have := Finset.card_filter_le (Finset.range N) fun j => s.free j = false
  rw [Finset.card_range] at this
  exact this

theorem start_inv (c : Cfg) (p : Par) (junk : Nat → Int) (hN : 0 < c.N) : InvB c p (c.start p junk) := by
  have h0 : c.init.count c.N = 0 := by simp [Gst.count, Cfg.init]
  refine ⟨init_inv c, fun j h => by simp [Cfg.start, Cfg.init] at h, fun _ => ?_, ?_, fun _ => Or.inl rfl⟩
  · show c.init.count c.N < c.N; omega
  · show c.init.count c.N ≤ _; omega

theorem finish_not_stopped (p : Par) (N : Nat) (b : Bst) (g : Gst) (j : Nat) (h : (finish p N b g j).stopped = false) : g.count N < N ∧ g.count N < p.maxMagnets := by
  simp only [finish] at h
  obtain ⟨h1, h2⟩ := Bool.or_eq_false_iff.mp h
  rw [h1] at h2
  simpa using h2

/-- One pass of the loop. -/
theorem loop_inv (c : Cfg) (A : Nat → Nat → ℝ) (hc : c.Ok A) (hsm : c.Small) (hvis : ∃ m < c.P, c.visit m = true) (p : Par) (b : Bst) (h : InvB c p b) (hs : b.stopped = false) :
    InvB c p (c.loop p b) ∧ c.Inv (c.iter b.g) ∧ Fewer (c.iter b.g) (c.advance p b) := by
  obtain ⟨i1, i2, j, hj, m, hm, sign, hsg, hf, hv, e, _⟩ := iter_spec c A hc hsm hvis b.g h.inv (h.go hs)
  have hch : (c.choice (c.sweep b.g)).1 = j := by
    by_contra hne
    -- the dipole that is taken is the one that was free
    have h1 : (c.iter b.g).free j = false := by rw [e]; simp [Cfg.place]
    have h2 : (c.iter b.g).free j = true := by
      simp only [Cfg.iter, Cfg.place]
      rw [if_neg (fun h => hne h.symm)]
      exact hf
    rw [h1] at h2; exact absurd h2 (by decide)
  have hadv : c.Inv (c.advance p b) ∧ Fewer (c.iter b.g) (c.advance p b) := by
    rw [Cfg.advance]
    split
    · have := dewyrm_spec c A hc p.conn p.nadj b.skj _ i1
      exact ⟨this.1, this.2.1⟩
    · exact ⟨i1, Fewer.refl _⟩
  have hcount : (c.advance p b).count c.N ≤ b.g.count c.N + 1 := (hadv.2.count c.N).trans i2.le
  rw [Cfg.loop, if_neg (by rw [hs]; decide)]
  refine ⟨⟨hadv.1, fun j' hj' => ?_, fun h' => (finish_not_stopped _ _ _ _ _ h').1, ?_, fun h' => Or.inr (finish_not_stopped _ _ _ _ _ h').2⟩, i1, hadv.2⟩
  · show j' ∈ b.skj ++ [(c.choice (c.sweep b.g)).1]
    rw [hch, List.mem_append]
    have h1 := hadv.2.free j' hj'
    rw [e] at h1
    simp only [Cfg.place] at h1
    by_cases hjj : j' = j
    · right; rw [hjj]; simp
    · left
      rw [if_neg hjj] at h1
      exact h.placed j' h1
  · show (c.advance p b).count c.N ≤ _
    rcases h.under hs with h1 | h1
    · have : b.g.count c.N = 0 := by
        rw [Gst.count, Finset.card_eq_zero, Finset.filter_eq_empty_iff]
        intro j' _ hf'
        have := h.placed j' hf'
        rw [h1] at this; simp at this
      omega
    · omega

theorem loop_stopped (c : Cfg) (p : Par) (b : Bst) (hs : b.stopped = true) : c.loop p b = b := by rw [Cfg.loop, if_pos hs]

theorem runB_inv (c : Cfg) (A : Nat → Nat → ℝ) (hc : c.Ok A) (hsm : c.Small) (hvis : ∃ m < c.P, c.visit m = true) (hN : 0 < c.N) (p : Par) (junk : Nat → Int) (k : Nat) : InvB c p (c.runB p junk k) := by
  induction k with
  | zero => exact start_inv c p junk hN
  | succ k ih =>
    rw [Cfg.runB, Function.iterate_succ_apply', ← Cfg.runB]
    cases hs : (c.runB p junk k).stopped with
    | true => rw [loop_stopped c p _ hs]; exact ih
    | false => exact (loop_inv c A hc hsm hvis p _ ih hs).1

theorem runB_length (c : Cfg) (p : Par) (junk : Nat → Int) (k : Nat) (hs : (c.runB p junk k).stopped = false) : (c.runB p junk k).skj.length = k := by
  induction k with
  | zero => rfl
  | succ k ih =>
    rw [Cfg.runB, Function.iterate_succ_apply', ← Cfg.runB] at hs ⊢
    cases h : (c.runB p junk k).stopped with
    | true => rw [loop_stopped c p _ h, h] at hs; exact absurd hs (by decide)
    | false =>
      rw [Cfg.loop, if_neg (by rw [h]; decide)]
      simp only [finish, List.length_append, List.length_singleton]
      rw [ih h]

end Simsopt.Magnets
