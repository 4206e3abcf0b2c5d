import Verif.Magnets.BacktrackProps
/-!
# C81: greedy optimization with arbitrary vectors, backtracking and an initial guess

Model of `GPMO_ArbVec_backtracking` (src/simsoptpp/permanent_magnet_optimization.cpp L735-986) and `initialize_GPMO_ArbVec` (L993-1124).  Simplifications: as in `Verif.Magnets.Backtrack`; the warning about the initial guess is left out.
-/
namespace Simsopt.Magnets

/-- `sqDiffPos`/`sqDiffNeg` (L1037-1042). -/
def sqDiff (x0 : Nat → ℝ) (pol : Nat → ℝ) (sign : ℝ) : ℝ := ∑ l ∈ Finset.range 3, (x0 l - sign * pol l) ^ 2

open Classical in
/-- The two comparisons for one vector (L1043-1052); `none` is the initial infinity. -/
noncomputable def closer (x0 : Nat → ℝ) (pol : Nat → Nat → ℝ) (best : Option (ℝ × Nat × ℝ)) (m : Nat) : Option (ℝ × Nat × ℝ) :=
  let one := fun (best : Option (ℝ × Nat × ℝ)) (sign : ℝ) =>
    match best with
    | none => some (sqDiff x0 (pol m) sign, m, sign)
    | some t => if sqDiff x0 (pol m) sign < t.1 then some (sqDiff x0 (pol m) sign, m, sign) else some t
  one (one best 1) (-1)

/-- The loop over the allowed vectors (L1033-1053). -/
noncomputable def nearest (x0 : Nat → ℝ) (pol : Nat → Nat → ℝ) (P : Nat) : Option (ℝ × Nat × ℝ) := (List.range P).foldl (closer x0 pol) none

open Classical in
/-- One dipole of the initial guess (L1022-1105). -/
noncomputable def initOne (c : Cfg) (pol : Nat → Nat → Nat → ℝ) (x0 : Nat → Nat → ℝ) (s : Gst) (j : Nat) : Gst :=
  if x0 j 0 = 0 ∧ x0 j 1 = 0 ∧ x0 j 2 = 0 then s
  else match nearest (x0 j) (pol j) c.P with
    | none => s
    | some t => if ∑ l ∈ Finset.range 3, (x0 j l) ^ 2 < t.1 then s else c.place s j t.2.1 t.2.2

/-- `initialize_GPMO_ArbVec`. -/
noncomputable def initial (c : Cfg) (pol : Nat → Nat → Nat → ℝ) (x0 : Nat → Nat → ℝ) : Gst := (List.range c.N).foldl (initOne c pol x0) c.init

/-- `cos_angle` (L889-893). -/
noncomputable def dotX (s : Gst) (j d : Nat) : ℝ := ∑ l ∈ Finset.range 3, s.x j l * s.x d l

open Classical in
/-- The neighbour with the largest angle (L879-899): the smallest cosine and the dipole, starting from `2.0`. -/
noncomputable def worst (s : Gst) (j : Nat) (ds : List Nat) : ℝ × Nat :=
  ds.foldl (fun acc d => if s.free d = true then acc else if dotX s j d < acc.1 then (dotX s j d, d) else acc) (2.0, 0)

open Classical in
/-- The body of the backtracking loop for one dipole (L869-941). -/
noncomputable def splitOne (c : Cfg) (cosT : ℝ) (conn : Nat → Nat → Nat) (nadj : Nat) (s : Gst) (j : Nat) : Gst :=
  if s.free j = true then s
  else
    let w := worst s j ((List.range nadj).map (conn j))
    if w.1 ≤ cosT then c.removePair true s j w.2 else s

/-- The same loop, with the running total `num_nonzero` (L863-943). -/
noncomputable def splitCount (c : Cfg) (cosT : ℝ) (conn : Nat → Nat → Nat) (nadj : Nat) (a : Gst × Int) (j : Nat) : Gst × Int :=
  open Classical in
  (splitOne c cosT conn nadj a.1 j, if a.1.free j = false ∧ (worst a.1 j ((List.range nadj).map (conn j))).1 ≤ cosT then a.2 - 2 else a.2)

/-- The variables of the main loop. -/
structure Ast where
  g : Gst
  num : Int
  k : Nat
  nz : Nat → Int
  print : Nat
  stopped : Bool

/-- Placing (L796-858) and backtracking (L861-944). -/
noncomputable def Cfg.advanceA (c : Cfg) (p : Par) (cosT : ℝ) (a : Ast) : Gst × Int :=
  if a.k % p.backtracking = 0 then (List.range c.N).foldl (splitCount c cosT p.conn p.nadj) (c.iter a.g, a.num + 1) else (c.iter a.g, a.num + 1)

/-- The end of an iteration (L946-983). -/
def finishA (p : Par) (N : Nat) (a : Ast) (g : Gst × Int) : Ast :=
  let rec_ := p.records a.k
  let print := if rec_ then a.print + 1 else a.print
  let nz : Nat → Int := if rec_ then fun i => if i = print - 1 then g.2 else a.nz i else a.nz
  let stuck := rec_ && decide (print > 10) && (nz print == nz (print - 1)) && (nz print == nz (print - 2))
  let limit := !stuck && (decide (g.2 ≥ N) || decide (g.2 ≥ p.maxMagnets))
  ⟨g.1, g.2, a.k + 1, nz, if limit then print + 1 else print, stuck || limit⟩

/-- One pass of the main loop. -/
noncomputable def Cfg.loopA (c : Cfg) (p : Par) (cosT : ℝ) (a : Ast) : Ast := if a.stopped then a else finishA p c.N a (c.advanceA p cosT a)

/-- Before the loop (L741-795): the initial guess, recorded once. -/
noncomputable def Cfg.startA (c : Cfg) (p : Par) (pol : Nat → Nat → Nat → ℝ) (x0 : Nat → Nat → ℝ) (junk : Nat → Int) : Ast :=
  let g := initial c pol x0
  ⟨g, g.count c.N, 0, fun i => if i = 0 then (g.count c.N : Int) else if i ≤ p.nhistory + 1 then 0 else junk i, 1, false⟩

/-- The loop after `k` passes; `cosT` is `cos(thresh_angle)`. -/
noncomputable def Cfg.runA (c : Cfg) (p : Par) (cosT : ℝ) (pol : Nat → Nat → Nat → ℝ) (x0 : Nat → Nat → ℝ) (junk : Nat → Int) (k : Nat) : Ast := (c.loopA p cosT)^[k] (c.startA p pol x0 junk)

/-! ### The initial guess -/

theorem nearest_spec (x0 : Nat → ℝ) (pol : Nat → Nat → ℝ) (P : Nat) (hP : 0 < P) :
    ∃ t, nearest x0 pol P = some t ∧ t.2.1 < P ∧ (t.2.2 = 1 ∨ t.2.2 = -1) ∧ t.1 = sqDiff x0 (pol t.2.1) t.2.2 ∧ ∀ m < P, ∀ sign : ℝ, sign = 1 ∨ sign = -1 → t.1 ≤ sqDiff x0 (pol m) sign := by
  induction P with
  | zero => omega
  | succ P ih =>
    simp only [nearest, List.range_succ, List.foldl_append, List.foldl_cons, List.foldl_nil] at ih ⊢
    rcases Nat.eq_zero_or_pos P with rfl | h
    · simp only [List.range_zero, List.foldl_nil, closer]
      split
      · rename_i hlt
        refine ⟨_, rfl, by simp, Or.inr rfl, rfl, fun m hm sign hs => ?_⟩
        have : m = 0 := by omega
        subst this
        rcases hs with rfl | rfl
        · exact hlt.le
        · exact le_rfl
      · rename_i hlt
        push Not at hlt
        refine ⟨_, rfl, by simp, Or.inl rfl, rfl, fun m hm sign hs => ?_⟩
        have : m = 0 := by omega
        subst this
        rcases hs with rfl | rfl
        · exact le_rfl
        · exact hlt
    · obtain ⟨t, h1, h2, h3, h4, h5⟩ := ih h
      rw [h1]
      have key : ∀ (u : ℝ × Nat × ℝ) (sg : ℝ), (sg = 1 ∨ sg = -1) → u.2.1 < P + 1 → (u.2.2 = 1 ∨ u.2.2 = -1) → u.1 = sqDiff x0 (pol u.2.1) u.2.2 →
          ∃ w, (if sqDiff x0 (pol P) sg < u.1 then some (sqDiff x0 (pol P) sg, P, sg) else some u) = some w ∧ w.2.1 < P + 1 ∧ (w.2.2 = 1 ∨ w.2.2 = -1) ∧ w.1 = sqDiff x0 (pol w.2.1) w.2.2 ∧ w.1 ≤ u.1 ∧ w.1 ≤ sqDiff x0 (pol P) sg := by
        intro u sg hsg hu1 hu2 hu3
        split
        · rename_i hlt
          exact ⟨_, rfl, by simp, hsg, rfl, hlt.le, le_rfl⟩
        · rename_i hlt
          exact ⟨u, rfl, hu1, hu2, hu3, le_rfl, not_lt.mp hlt⟩
      obtain ⟨w, w1, w2, w3, w4, w5, w6⟩ := key t 1 (Or.inl rfl) (by omega) h3 h4
      obtain ⟨v, v1, v2, v3, v4, v5, v6⟩ := key w (-1) (Or.inr rfl) w2 w3 w4
      simp only [closer]
      rw [w1]
      simp only
      rw [v1]
      refine ⟨v, rfl, v2, v3, v4, fun m hm sign hs => ?_⟩
      rcases Nat.lt_succ_iff_lt_or_eq.mp hm with hm | rfl
      · exact v5.trans (w5.trans (h5 m hm sign hs))
      · rcases hs with rfl | rfl
        · exact v5.trans w6
        · exact v6

/-- The state after the first `n` dipoles of the guess. -/
theorem initial_spec (N P G : Nat) (A : Nat → Nat → ℝ) (b mmax : Nat → ℝ) (pol : Nat → Nat → Nat → ℝ) (hP : 0 < P) (x0 : Nat → Nat → ℝ) (n : Nat) (hn : n ≤ N) :
    let c := arbVec N P G A b mmax pol
    let s := (List.range n).foldl (initOne c pol x0) c.init
    c.Inv s ∧ (∀ j, n ≤ j → s.free j = true) ∧
    ∀ j < n, (s.free j = true ∧ ((x0 j 0 = 0 ∧ x0 j 1 = 0 ∧ x0 j 2 = 0) ∨ ∀ m < P, ∀ sign : ℝ, sign = 1 ∨ sign = -1 → ∑ l ∈ Finset.range 3, (x0 j l) ^ 2 < sqDiff (x0 j) (pol j m) sign)) ∨
      (s.free j = false ∧ ¬ (x0 j 0 = 0 ∧ x0 j 1 = 0 ∧ x0 j 2 = 0) ∧ sqDiff (x0 j) (pol j (s.kind j)) (s.sgn j) ≤ ∑ l ∈ Finset.range 3, (x0 j l) ^ 2 ∧
        ∀ m < P, ∀ sign : ℝ, sign = 1 ∨ sign = -1 → sqDiff (x0 j) (pol j (s.kind j)) (s.sgn j) ≤ sqDiff (x0 j) (pol j m) sign) := by
  intro c
  induction n with
  | zero => exact ⟨init_inv c, fun _ _ => rfl, fun j hj => by omega⟩
  | succ n ih =>
    obtain ⟨h1, h2, h3⟩ := ih (by omega)
    simp only [List.range_succ, List.foldl_append, List.foldl_cons, List.foldl_nil]
    set s := (List.range n).foldl (initOne c pol x0) c.init
    by_cases hz : x0 n 0 = 0 ∧ x0 n 1 = 0 ∧ x0 n 2 = 0
    · rw [initOne, if_pos hz]
      refine ⟨h1, fun j hj => h2 j (by omega), fun j hj => ?_⟩
      rcases Nat.lt_succ_iff_lt_or_eq.mp hj with hj | rfl
      · exact h3 j hj
      · exact Or.inl ⟨h2 j le_rfl, Or.inl hz⟩
    · obtain ⟨t, t1, t2, t3, t4, t5⟩ := nearest_spec (x0 n) (pol n) P hP
      rw [initOne, if_neg hz]
      have t1' : nearest (x0 n) (pol n) c.P = some t := t1
      simp only [t1']
      by_cases hnull : ∑ l ∈ Finset.range 3, (x0 n l) ^ 2 < t.1
      · rw [if_pos hnull]
        refine ⟨h1, fun j hj => h2 j (by omega), fun j hj => ?_⟩
        rcases Nat.lt_succ_iff_lt_or_eq.mp hj with hj | rfl
        · exact h3 j hj
        · exact Or.inl ⟨h2 j le_rfl, Or.inr fun m hm sign hs => lt_of_lt_of_le hnull (t5 m hm sign hs)⟩
      · rw [if_neg hnull]
        refine ⟨place_inv c A (arbVec_ok N P G A b mmax pol) s h1 n t.2.1 t.2.2 (by show n < N; omega) t2 (h2 n le_rfl) rfl t3, fun j hj => ?_, fun j hj => ?_⟩
        · simp only [Cfg.place]
          rw [if_neg (by omega)]
          exact h2 j (by omega)
        · rcases Nat.lt_succ_iff_lt_or_eq.mp hj with hj | rfl
          · have hjn : j ≠ n := by omega
            simp only [Cfg.place, if_neg hjn]
            exact h3 j hj
          · right
            simp only [Cfg.place, if_true]
            rw [← t4]
            exact ⟨trivial, hz, not_lt.mp hnull, t5⟩

theorem initial_inv (N P G : Nat) (A : Nat → Nat → ℝ) (b mmax : Nat → ℝ) (pol : Nat → Nat → Nat → ℝ) (hP : 0 < P) (x0 : Nat → Nat → ℝ) : (arbVec N P G A b mmax pol).Inv (initial (arbVec N P G A b mmax pol) pol x0) :=
  (initial_spec N P G A b mmax pol hP x0 N le_rfl).1

/-- **C81.** The initial guess: the residual is `A x - b`; a zero entry stays empty, and every other dipole gets the nearest one among zero and its allowed vectors and their negatives. -/
theorem C81_initial (N P G : Nat) (A : Nat → Nat → ℝ) (b mmax : Nat → ℝ) (pol : Nat → Nat → Nat → ℝ) (hP : 0 < P) (x0 : Nat → Nat → ℝ) :
    let s := initial (arbVec N P G A b mmax pol) pol x0
    (∀ i, s.r i = (∑ j ∈ Finset.range N, ∑ l ∈ Finset.range 3, A (3 * j + l) i * s.x j l) - b i) ∧
    ∀ j < N, ((∀ l, s.x j l = 0) ∨ ∃ m < P, ∃ sign : ℝ, (sign = 1 ∨ sign = -1) ∧ ∀ l, s.x j l = sign * pol j m l) ∧
      ((∀ l < 3, x0 j l = 0) → ∀ l, s.x j l = 0) ∧
      ((¬ ∀ l < 3, x0 j l = 0) → (∑ l ∈ Finset.range 3, (x0 j l - s.x j l) ^ 2 ≤ ∑ l ∈ Finset.range 3, (x0 j l) ^ 2) ∧
        ∀ m < P, ∀ sign : ℝ, sign = 1 ∨ sign = -1 → ∑ l ∈ Finset.range 3, (x0 j l - s.x j l) ^ 2 ≤ ∑ l ∈ Finset.range 3, (x0 j l - sign * pol j m l) ^ 2) := by
  intro s
  obtain ⟨h1, _, h3⟩ := initial_spec N P G A b mmax pol hP x0 N le_rfl
  have hzero : ∀ j, (∀ l < 3, x0 j l = 0) ↔ (x0 j 0 = 0 ∧ x0 j 1 = 0 ∧ x0 j 2 = 0) := by
    intro j
    constructor
    · intro h; exact ⟨h 0 (by norm_num), h 1 (by norm_num), h 2 (by norm_num)⟩
    · rintro ⟨a, b, c⟩ l hl
      interval_cases l <;> assumption
  refine ⟨resid_x _ A (arbVec_ok N P G A b mmax pol) _ h1, fun j hj => ?_⟩
  rcases h3 j hj with ⟨hf, h⟩ | ⟨hf, hnz, hle, hmin⟩
  · have hx : ∀ l, s.x j l = 0 := (h1.empty j hf).1
    refine ⟨Or.inl hx, fun _ => hx, fun hn => ?_⟩
    rw [hzero] at hn
    rcases h with h | h
    · exact absurd h hn
    · simp only [hx, sub_zero]
      exact ⟨le_rfl, fun m hm sign hs => (h m hm sign hs).le⟩
  · obtain ⟨_, k2, _, k4, k5⟩ := h1.full j hf
    have k5' : ∀ l, s.x j l = s.sgn j * pol j (s.kind j) l := k5
    refine ⟨Or.inr ⟨s.kind j, k2, s.sgn j, k4, k5'⟩, fun h => absurd ((hzero j).mp h) hnz, fun _ => ?_⟩
    simp only [k5']
    exact ⟨hle, hmin⟩

/-! ### Backtracking -/

theorem worst_spec (s : Gst) (j : Nat) (ds : List Nat) :
    ((worst s j ds).1 = 2.0 ∨ ((worst s j ds).2 ∈ ds ∧ s.free (worst s j ds).2 = false ∧ (worst s j ds).1 = dotX s j (worst s j ds).2)) ∧
    (worst s j ds).1 ≤ 2.0 ∧ ∀ d ∈ ds, s.free d = false → (worst s j ds).1 ≤ dotX s j d := by
  induction ds using List.reverseRecOn with
  | nil => exact ⟨Or.inl rfl, le_rfl, fun d hd => by simp at hd⟩
  | append_singleton ds a ih =>
    obtain ⟨h1, h2, h3⟩ := ih
    simp only [worst, List.foldl_append, List.foldl_cons, List.foldl_nil] at h1 h2 h3 ⊢
    set w := ds.foldl (fun acc d => if s.free d = true then acc else if dotX s j d < acc.1 then (dotX s j d, d) else acc) ((2.0 : ℝ), 0)
    have up : (w.1 = 2.0 ∨ (w.2 ∈ ds ∧ s.free w.2 = false ∧ w.1 = dotX s j w.2)) → (w.1 = 2.0 ∨ (w.2 ∈ ds ++ [a] ∧ s.free w.2 = false ∧ w.1 = dotX s j w.2)) := by
      rintro (h | ⟨h, h'⟩)
      · exact Or.inl h
      · exact Or.inr ⟨List.mem_append_left _ h, h'⟩
    by_cases hf : s.free a = true
    · rw [if_pos hf]
      refine ⟨up h1, h2, fun d hd hfd => ?_⟩
      rcases List.mem_append.mp hd with hd | hd
      · exact h3 d hd hfd
      · rw [List.mem_singleton] at hd; subst hd; rw [hf] at hfd; exact absurd hfd (by decide)
    · rw [if_neg hf]
      by_cases hlt : dotX s j a < w.1
      · rw [if_pos hlt]
        refine ⟨Or.inr ⟨by simp, by simpa using hf, rfl⟩, (hlt.trans_le h2).le, fun d hd hfd => ?_⟩
        rcases List.mem_append.mp hd with hd | hd
        · exact hlt.le.trans (h3 d hd hfd)
        · rw [List.mem_singleton] at hd; rw [hd]
      · rw [if_neg hlt]
        refine ⟨up h1, h2, fun d hd hfd => ?_⟩
        rcases List.mem_append.mp hd with hd | hd
        · exact h3 d hd hfd
        · rw [List.mem_singleton] at hd; rw [hd]; exact not_lt.mp hlt

/-- Magnets that are still there have not changed. -/
theorem Fewer.x {c : Cfg} {s t : Gst} (hs : c.Inv s) (ht : c.Inv t) (h : Fewer s t) (j : Nat) (hf : t.free j = false) (l : Nat) : t.x j l = s.x j l := by
  rw [(ht.full j hf).2.2.2.2, (hs.full j (h.free j hf)).2.2.2.2, h.same j hf, h.kind j hf]

theorem dot_self (c : Cfg) (s : Gst) (h : c.Inv s) (j : Nat) (hf : s.free j = false) : dotX s j j = ∑ l ∈ Finset.range 3, c.mom j (s.kind j) l ^ 2 := by
  obtain ⟨_, _, _, h4, h5⟩ := h.full j hf
  refine Finset.sum_congr rfl fun l _ => ?_
  rw [h5]
  rcases h4 with e | e <;> rw [e] <;> ring

theorem count_remove (c : Cfg) (s : Gst) (j d : Nat) (hjd : j ≠ d) (hj : s.free j = false) (hd : s.free d = false) (hjN : j < c.N) (hdN : d < c.N) : ((c.removePair true s j d).count c.N : Int) = s.count c.N - 2 := by
  have e : (Finset.range c.N).filter (fun j' => (c.removePair true s j d).free j' = false) = (((Finset.range c.N).filter fun j' => s.free j' = false).erase j).erase d := by
    ext j'
    simp only [Finset.mem_filter, Finset.mem_range, Finset.mem_erase, Cfg.removePair]
    by_cases e1 : j' = j
    · simp [e1]
    · by_cases e2 : j' = d
      · simp [e2]
      · simp [e1, e2]
  have m1 : j ∈ (Finset.range c.N).filter fun j' => s.free j' = false := by simp [hjN, hj]
  have m2 : d ∈ ((Finset.range c.N).filter fun j' => s.free j' = false).erase j := by simp [hdN, hd, Ne.symm hjd]
  have h1 := Finset.card_erase_add_one m1
  have h2 := Finset.card_erase_add_one m2
  rw [Gst.count, e, Gst.count]
  omega

/-- One dipole of the backtracking loop. -/
theorem splitOne_spec (c : Cfg) (A : Nat → Nat → ℝ) (hc : c.Ok A) (cosT : ℝ) (hT : cosT ≤ 1) (hself : ∀ j < c.N, ∀ m < c.P, cosT < ∑ l ∈ Finset.range 3, c.mom j m l ^ 2) (conn : Nat → Nat → Nat) (nadj : Nat) (a : Gst × Int) (h : c.Inv a.1) (hn : a.2 = a.1.count c.N) (j : Nat) :
    let t := splitCount c cosT conn nadj a j
    c.Inv t.1 ∧ t.2 = t.1.count c.N ∧ Fewer a.1 t.1 ∧ (t.1.free j = false → ∀ jj < nadj, t.1.free (conn j jj) = false → cosT < dotX t.1 j (conn j jj)) := by
  obtain ⟨s, n⟩ := a
  simp only at h hn
  simp only [splitCount, splitOne]
  cases hf : s.free j with
  | true =>
    rw [if_pos rfl, if_neg (by simp)]
    exact ⟨h, hn, Fewer.refl s, fun h' => by simp only [hf] at h'; exact absurd h' (by decide)⟩
  | false =>
    rw [if_neg (by simp)]
    obtain ⟨w1, w2, w3⟩ := worst_spec s j ((List.range nadj).map (conn j))
    set w := worst s j ((List.range nadj).map (conn j))
    by_cases hle : w.1 ≤ cosT
    · rw [if_pos hle, if_pos ⟨rfl, hle⟩]
      rcases w1 with h2 | ⟨_, hd, hdot⟩
      · rw [h2] at hle; norm_num at hle; linarith
      · have hne : j ≠ w.2 := by
          intro e
          rw [← e, dot_self c s h j hf] at hdot
          have := hself j (h.full j hf).1 _ (h.full j hf).2.1
          linarith
        refine ⟨removePair_inv c A hc s h true j w.2 hne hf hd, ?_, removePair_fewer c true s j w.2, fun h' => by simp [Cfg.removePair] at h'⟩
        rw [count_remove c s j w.2 hne hf hd (h.full j hf).1 (h.full _ hd).1, hn]
    · rw [if_neg hle, if_neg (fun h' => hle h'.2)]
      refine ⟨h, hn, Fewer.refl s, fun _ jj hjj hfd => ?_⟩
      have := w3 (conn j jj) (List.mem_map.mpr ⟨jj, List.mem_range.mpr hjj, rfl⟩) hfd
      linarith

theorem split_spec (c : Cfg) (A : Nat → Nat → ℝ) (hc : c.Ok A) (cosT : ℝ) (hT : cosT ≤ 1) (hself : ∀ j < c.N, ∀ m < c.P, cosT < ∑ l ∈ Finset.range 3, c.mom j m l ^ 2) (conn : Nat → Nat → Nat) (nadj : Nat) (js : List Nat) :
    ∀ a : Gst × Int, c.Inv a.1 → a.2 = a.1.count c.N →
    let t := js.foldl (splitCount c cosT conn nadj) a
    c.Inv t.1 ∧ t.2 = t.1.count c.N ∧ Fewer a.1 t.1 ∧ ∀ j ∈ js, t.1.free j = false → ∀ jj < nadj, t.1.free (conn j jj) = false → cosT < dotX t.1 j (conn j jj) := by
  induction js with
  | nil => intro a h hn; exact ⟨h, hn, Fewer.refl _, fun j hj => by simp at hj⟩
  | cons j0 js ih =>
    intro a h hn
    obtain ⟨h1, h2, h3, h4⟩ := splitOne_spec c A hc cosT hT hself conn nadj a h hn j0
    obtain ⟨k1, k2, k3, k4⟩ := ih _ h1 h2
    simp only [List.foldl_cons]
    refine ⟨k1, k2, h3.trans k3, fun j hj hf jj hjj hfd => ?_⟩
    rcases List.mem_cons.mp hj with rfl | hj
    · have := h4 (k3.free j hf) jj hjj (k3.free _ hfd)
      have e : dotX (js.foldl (splitCount c cosT conn nadj) (splitCount c cosT conn nadj a j)).1 j (conn j jj) = dotX (splitCount c cosT conn nadj a j).1 j (conn j jj) :=
        Finset.sum_congr rfl fun l _ => by rw [Fewer.x h1 k1 k3 j hf, Fewer.x h1 k1 k3 _ hfd]
      rw [e]; exact this
    · exact k4 j hj hf jj hjj hfd

/-! ### The loop -/

/-- Invariant of the main loop; `n0` is the number of magnets of the initial guess. -/
structure InvA (c : Cfg) (p : Par) (n0 : Nat) (a : Ast) : Prop where
  inv : c.Inv a.g
  num : a.num = a.g.count c.N
  go : a.stopped = false → a.g.count c.N < c.N
  limit : a.g.count c.N ≤ max (n0 + 1) p.maxMagnets
  under : a.stopped = false → (a.k = 0 ∧ a.g.count c.N = n0) ∨ a.g.count c.N < p.maxMagnets

theorem finishA_not_stopped (p : Par) (N : Nat) (a : Ast) (g : Gst × Int) (h : (finishA p N a g).stopped = false) : g.2 < N ∧ g.2 < p.maxMagnets := by
  simp only [finishA] at h
  obtain ⟨h1, h2⟩ := Bool.or_eq_false_iff.mp h
  rw [h1] at h2
  simpa using h2

theorem loopA_inv (c : Cfg) (A : Nat → Nat → ℝ) (hc : c.Ok A) (hsm : c.Small) (hvis : ∃ m < c.P, c.visit m = true) (cosT : ℝ) (hT : cosT ≤ 1) (hself : ∀ j < c.N, ∀ m < c.P, cosT < ∑ l ∈ Finset.range 3, c.mom j m l ^ 2)
    (p : Par) (n0 : Nat) (a : Ast) (h : InvA c p n0 a) (hs : a.stopped = false) :
    InvA c p n0 (c.loopA p cosT a) ∧ (a.k % p.backtracking = 0 → ∀ j < c.N, (c.loopA p cosT a).g.free j = false → ∀ jj < p.nadj, (c.loopA p cosT a).g.free (p.conn j jj) = false → cosT < dotX (c.loopA p cosT a).g j (p.conn j jj)) := by
  obtain ⟨i1, i2, _⟩ := iter_spec c A hc hsm hvis a.g h.inv (h.go hs)
  have hnum : a.num + 1 = ((c.iter a.g).count c.N : Int) := by rw [i2, h.num]; push_cast; ring
  obtain ⟨t1, t2, t3, t4⟩ := split_spec c A hc cosT hT hself p.conn p.nadj (List.range c.N) (c.iter a.g, a.num + 1) i1 hnum
  have hadv : c.Inv (c.advanceA p cosT a).1 ∧ (c.advanceA p cosT a).2 = (c.advanceA p cosT a).1.count c.N ∧ (c.advanceA p cosT a).1.count c.N ≤ a.g.count c.N + 1 ∧
      (a.k % p.backtracking = 0 → ∀ j < c.N, (c.advanceA p cosT a).1.free j = false → ∀ jj < p.nadj, (c.advanceA p cosT a).1.free (p.conn j jj) = false → cosT < dotX (c.advanceA p cosT a).1 j (p.conn j jj)) := by
    rw [Cfg.advanceA]
    split
    · refine ⟨t1, t2, (t3.count c.N).trans i2.le, fun _ j hj hf jj hjj hfd => t4 j (List.mem_range.mpr hj) hf jj hjj hfd⟩
    · rename_i hk
      exact ⟨i1, hnum, i2.le, fun h' => absurd h' hk⟩
  obtain ⟨a1, a2, a3, a4⟩ := hadv
  rw [Cfg.loopA, if_neg (by rw [hs]; decide)]
  refine ⟨⟨a1, a2, fun h' => ?_, ?_, fun h' => Or.inr ?_⟩, a4⟩
  · have := (finishA_not_stopped _ _ _ _ h').1
    rw [a2] at this
    exact_mod_cast this
  · show (c.advanceA p cosT a).1.count c.N ≤ _
    rcases h.under hs with ⟨_, h1⟩ | h1 <;> omega
  · have := (finishA_not_stopped _ _ _ _ h').2
    rw [a2] at this
    exact_mod_cast this

theorem loopA_stopped (c : Cfg) (p : Par) (cosT : ℝ) (a : Ast) (hs : a.stopped = true) : c.loopA p cosT a = a := by rw [Cfg.loopA, if_pos hs]

theorem runA_inv (N P G : Nat) (A : Nat → Nat → ℝ) (b mmax : Nat → ℝ) (pol : Nat → Nat → Nat → ℝ) (hP : 0 < P) (hsm : (arbVec N P G A b mmax pol).Small) (x0 : Nat → Nat → ℝ)
    (cosT : ℝ) (hT : cosT ≤ 1) (hself : ∀ j < N, ∀ m < P, cosT < ∑ l ∈ Finset.range 3, pol j m l ^ 2) (hx0 : (initial (arbVec N P G A b mmax pol) pol x0).count N < N) (p : Par) (junk : Nat → Int) (k : Nat) :
    InvA (arbVec N P G A b mmax pol) p ((initial (arbVec N P G A b mmax pol) pol x0).count N) ((arbVec N P G A b mmax pol).runA p cosT pol x0 junk k) := by
  induction k with
  | zero => exact ⟨initial_inv N P G A b mmax pol hP x0, rfl, fun _ => hx0, (Nat.le_succ _).trans (le_max_left _ _), fun _ => Or.inl ⟨rfl, rfl⟩⟩
  | succ k ih =>
    rw [Cfg.runA, Function.iterate_succ_apply', ← Cfg.runA]
    cases hs : ((arbVec N P G A b mmax pol).runA p cosT pol x0 junk k).stopped with
    | true => rw [loopA_stopped _ p cosT _ hs]; exact ih
    | false => exact (loopA_inv _ A (arbVec_ok N P G A b mmax pol) hsm ⟨0, hP, rfl⟩ cosT hT hself p _ _ ih hs).1

theorem runA_k (c : Cfg) (p : Par) (cosT : ℝ) (pol : Nat → Nat → Nat → ℝ) (x0 : Nat → Nat → ℝ) (junk : Nat → Int) (k : Nat) (hs : (c.runA p cosT pol x0 junk k).stopped = false) : (c.runA p cosT pol x0 junk k).k = k := by
  induction k with
  | zero => rfl
  | succ k ih =>
    rw [Cfg.runA, Function.iterate_succ_apply', ← Cfg.runA] at hs ⊢
    cases h : (c.runA p cosT pol x0 junk k).stopped with
    | true => rw [loopA_stopped c p cosT _ h, h] at hs; exact absurd hs (by decide)
    | false =>
      rw [Cfg.loopA, if_neg (by rw [h]; decide)]
      simp only [finishA, ih h]

/-- **C81.** GPMO_ArbVec_backtracking, for every problem (values below the marker `1e50`), initial guess that leaves a dipole empty, neighbour table and parameters, and after every number of passes: there is a set `D` of dipoles with
magnets, each with one of its allowed vectors or its negative, all the others are zero; the running residual is `A x - b`; the running number of magnets is the size of `D`, which is at most `max_nMagnets` (or one more than the number of magnets of the guess).
Assumed: a vector is not at the threshold angle with itself. -/
theorem C81_arbvec_backtracking (N P G : Nat) (A : Nat → Nat → ℝ) (b mmax : Nat → ℝ) (pol : Nat → Nat → Nat → ℝ) (hP : 0 < P) (hsm : (arbVec N P G A b mmax pol).Small) (x0 : Nat → Nat → ℝ)
    (thresh : ℝ) (hself : ∀ j < N, ∀ m < P, Real.cos thresh < ∑ l ∈ Finset.range 3, pol j m l ^ 2) (hx0 : (initial (arbVec N P G A b mmax pol) pol x0).count N < N) (p : Par) (junk : Nat → Int) (k : Nat) :
    let a := (arbVec N P G A b mmax pol).runA p (Real.cos thresh) pol x0 junk k
    ∃ D ⊆ Finset.range N, (∀ j ∈ D, ∃ m < P, ∃ sign : ℝ, (sign = 1 ∨ sign = -1) ∧ ∀ l, a.g.x j l = sign * pol j m l) ∧ (∀ j ∉ D, ∀ l, a.g.x j l = 0) ∧
      (∀ i, a.g.r i = (∑ j ∈ Finset.range N, ∑ l ∈ Finset.range 3, A (3 * j + l) i * a.g.x j l) - b i) ∧
      a.num = D.card ∧ D.card ≤ max ((initial (arbVec N P G A b mmax pol) pol x0).count N + 1) p.maxMagnets := by
  intro a
  have h := runA_inv N P G A b mmax pol hP hsm x0 _ (Real.cos_le_one thresh) hself hx0 p junk k
  refine ⟨(Finset.range N).filter fun j => a.g.free j = false, Finset.filter_subset _ _, fun j hj => ?_, fun j hj => ?_, resid_x _ A (arbVec_ok N P G A b mmax pol) _ h.inv, h.num, h.limit⟩
  · obtain ⟨_, k2, _, k4, k5⟩ := h.inv.full j (Finset.mem_filter.mp hj).2
    exact ⟨_, k2, _, k4, k5⟩
  · cases hf : a.g.free j with
    | true => exact (h.inv.empty j hf).1
    | false => exact absurd (Finset.mem_filter.mpr ⟨Finset.mem_range.mpr (h.inv.full j hf).1, hf⟩) hj

/-- **C81.** After an iteration with backtracking, the moments of a magnet and of each of its `Nadjacent` neighbours with a magnet make an angle below the threshold: their scalar product is above `cos(thresh_angle)`. -/
theorem C81_angles (N P G : Nat) (A : Nat → Nat → ℝ) (b mmax : Nat → ℝ) (pol : Nat → Nat → Nat → ℝ) (hP : 0 < P) (hsm : (arbVec N P G A b mmax pol).Small) (x0 : Nat → Nat → ℝ)
    (thresh : ℝ) (hself : ∀ j < N, ∀ m < P, Real.cos thresh < ∑ l ∈ Finset.range 3, pol j m l ^ 2)
    (hx0 : (initial (arbVec N P G A b mmax pol) pol x0).count N < N) (p : Par) (junk : Nat → Int) (k : Nat)
    (hrun : ((arbVec N P G A b mmax pol).runA p (Real.cos thresh) pol x0 junk k).stopped = false) (hmod : k % p.backtracking = 0) :
    let x := ((arbVec N P G A b mmax pol).runA p (Real.cos thresh) pol x0 junk (k + 1)).g.x
    ∀ j < N, (∃ l < 3, x j l ≠ 0) → ∀ jj < p.nadj, (∃ l < 3, x (p.conn j jj) l ≠ 0) → Real.cos thresh < ∑ l ∈ Finset.range 3, x j l * x (p.conn j jj) l := by
  intro x j hj hxj jj hjj hxd
  have h := runA_inv N P G A b mmax pol hP hsm x0 _ (Real.cos_le_one thresh) hself hx0 p junk k
  have hk := runA_k _ p (Real.cos thresh) pol x0 junk k hrun
  have hl := loopA_inv _ A (arbVec_ok N P G A b mmax pol) hsm ⟨0, hP, rfl⟩ _ (Real.cos_le_one thresh) hself p _ _ h hrun
  have e : (arbVec N P G A b mmax pol).runA p (Real.cos thresh) pol x0 junk (k + 1) = (arbVec N P G A b mmax pol).loopA p (Real.cos thresh) ((arbVec N P G A b mmax pol).runA p (Real.cos thresh) pol x0 junk k) := by
    rw [Cfg.runA, Function.iterate_succ_apply', ← Cfg.runA]
  have hfull : ∀ d, (∃ l < 3, x d l ≠ 0) → ((arbVec N P G A b mmax pol).loopA p (Real.cos thresh) ((arbVec N P G A b mmax pol).runA p (Real.cos thresh) pol x0 junk k)).g.free d = false := by
    rintro d ⟨l, _, hl'⟩
    cases hf : ((arbVec N P G A b mmax pol).loopA p (Real.cos thresh) ((arbVec N P G A b mmax pol).runA p (Real.cos thresh) pol x0 junk k)).g.free d with
    | false => rfl
    | true =>
      have := (hl.1.inv.empty d hf).1 l
      rw [← e] at this
      exact absurd this hl'
  have := hl.2 (by rw [hk]; exact hmod) j hj (hfull j hxj) jj hjj (hfull _ hxd)
  rw [← e] at this
  exact this

/-! ### What goes wrong -/

theorem splitCount_free (c : Cfg) (cosT : ℝ) (conn : Nat → Nat → Nat) (nadj : Nat) (a : Gst × Int) (js : List Nat) (h : ∀ j ∈ js, a.1.free j = true) : js.foldl (splitCount c cosT conn nadj) a = a := by
  induction js with
  | nil => rfl
  | cons j js ih =>
    have hj := h j (by simp)
    have e : splitCount c cosT conn nadj a j = a := by
      simp only [splitCount, splitOne, hj, if_true]
      rw [if_neg (by simp)]
    rw [List.foldl_cons, e]
    exact ih fun j' hj' => h j' (by simp [hj'])

theorem splitCount_none (c : Cfg) (cosT : ℝ) (hT : cosT ≤ 1) (conn : Nat → Nat → Nat) (a : Gst × Int) (js : List Nat) : js.foldl (splitCount c cosT conn 0) a = a := by
  induction js with
  | nil => rfl
  | cons j js ih =>
    have hw : ¬ (worst a.1 j ((List.range 0).map (conn j))).1 ≤ cosT := by
      show ¬ (2.0 : ℝ) ≤ cosT
      norm_num; linarith
    have e : splitCount c cosT conn 0 a j = a := by
      simp only [splitCount, splitOne]
      rw [if_neg hw, ite_self, if_neg (fun h => hw h.2)]
    rw [List.foldl_cons, e]
    exact ih

/-- **C81, violated.** The magnet limit is tested only after a magnet has been placed: a guess with `M` magnets and `max_nMagnets = M` (or less) ends with `M + 1` of them (shown without neighbours, for every problem). -/
theorem C81_limit_violated (N P G : Nat) (A : Nat → Nat → ℝ) (b mmax : Nat → ℝ) (pol : Nat → Nat → Nat → ℝ) (hP : 0 < P) (hsm : (arbVec N P G A b mmax pol).Small) (x0 : Nat → Nat → ℝ)
    (thresh : ℝ) (M : Nat) (hM : (initial (arbVec N P G A b mmax pol) pol x0).count N = M) (hMN : M < N) (p : Par) (junk : Nat → Int) (hn : p.nadj = 0) (hmax : p.maxMagnets = M) :
    ((arbVec N P G A b mmax pol).runA p (Real.cos thresh) pol x0 junk 1).g.count N = p.maxMagnets + 1 := by
  obtain ⟨_, i2, _⟩ := iter_spec _ A (arbVec_ok N P G A b mmax pol) hsm ⟨0, hP, rfl⟩ _ (initial_inv N P G A b mmax pol hP x0) (show (initial (arbVec N P G A b mmax pol) pol x0).count N < N by omega)
  have hadv : ∀ a, ((arbVec N P G A b mmax pol).advanceA p (Real.cos thresh) a).1 = (arbVec N P G A b mmax pol).iter a.g := by
    intro a
    rw [Cfg.advanceA, hn, splitCount_none _ _ (Real.cos_le_one thresh)]
    split <;> rfl
  rw [Cfg.runA, Function.iterate_one, Cfg.loopA, if_neg (by simp [Cfg.startA])]
  show ((arbVec N P G A b mmax pol).advanceA p (Real.cos thresh) _).1.count N = _
  rw [hadv, hmax, ← hM]
  exact i2

/-- **C81, violated.** A dipole is its own first neighbour.  With `thresh_angle = 0` and unit vectors the magnet just placed is removed together with itself: its field is subtracted twice and the running number of magnets becomes negative. -/
theorem C81_zero_threshold_violated (N P G : Nat) (A : Nat → Nat → ℝ) (b mmax : Nat → ℝ) (pol : Nat → Nat → Nat → ℝ) (hP : 0 < P) (hN : 0 < N) (hsm : (arbVec N P G A b mmax pol).Small) (hunit : ∀ j < N, ∀ m < P, ∑ l ∈ Finset.range 3, pol j m l ^ 2 = 1)
    (p : Par) (junk : Nat → Int) (hn : p.nadj = 1) (hself : ∀ j < N, p.conn j 0 = j) :
    let a := (arbVec N P G A b mmax pol).runA p (Real.cos 0) pol (fun _ _ => 0) junk 1
    a.num = -1 ∧ (∀ j l, a.g.x j l = 0) ∧ ∃ j < N, ∃ m < P, ∃ sign : ℝ, (sign = 1 ∨ sign = -1) ∧ ∀ i, a.g.r i = -b i - sign * ∑ l ∈ Finset.range 3, pol j m l * A (3 * j + l) i := by
  set c := arbVec N P G A b mmax pol with hc
  have hini : initial c pol (fun _ _ => 0) = c.init := by
    rw [initial]
    generalize List.range c.N = js
    induction js with
    | nil => rfl
    | cons j js ih =>
      rw [List.foldl_cons, initOne, if_pos ⟨rfl, rfl, rfl⟩]
      exact ih
  have hcnt : c.init.count N = 0 := by simp [Gst.count, Cfg.init]
  obtain ⟨i1, _, j, hj, m, hm, sign, hsg, _, _, e, _⟩ := iter_spec c A (arbVec_ok N P G A b mmax pol) hsm ⟨0, hP, rfl⟩ c.init (init_inv c) (show c.init.count N < N by omega)
  have hfj : (c.iter c.init).free j = false := by rw [e]; simp [Cfg.place]
  have hfo : ∀ j', j' ≠ j → (c.iter c.init).free j' = true := by
    intro j' hne
    rw [e]
    simp only [Cfg.place, if_neg hne]
    rfl
  have hkind : (c.iter c.init).kind j = m ∧ (c.iter c.init).sgn j = sign := by rw [e]; simp [Cfg.place]
  have hdot : dotX (c.iter c.init) j j = 1 := by
    rw [dot_self c _ i1 j hfj, hkind.1]
    exact hunit j hj m hm
  have hwo : worst (c.iter c.init) j ((List.range 1).map (p.conn j)) = (1, j) := by
    have hl : (List.range 1).map (p.conn j) = [j] := by simp [List.range_succ, hself j hj]
    rw [hl]
    simp only [worst, List.foldl_cons, List.foldl_nil, hfj, hdot]
    rw [if_neg (by simp), if_pos (by norm_num)]
  have hstep : splitCount c (Real.cos 0) p.conn p.nadj (c.iter c.init, 0 + 1) j = (c.removePair true (c.iter c.init) j j, -1) := by
    rw [hn]
    simp only [splitCount, splitOne, hfj, hwo, Real.cos_zero]
    simp
  have hadv : c.advanceA p (Real.cos 0) (c.startA p pol (fun _ _ => 0) junk) = (c.removePair true (c.iter c.init) j j, -1) := by
    have hk : (c.startA p pol (fun _ _ => 0) junk).k = 0 := rfl
    have hg : (c.startA p pol (fun _ _ => 0) junk).g = c.init := hini
    have hnum : (c.startA p pol (fun _ _ => 0) junk).num = 0 := by
      show ((initial c pol fun _ _ => 0).count c.N : Int) = 0
      rw [hini]
      exact_mod_cast hcnt
    rw [Cfg.advanceA, hk, if_pos (Nat.zero_mod _), hg, hnum]
    obtain ⟨as, bs, hab⟩ := List.mem_iff_append.mp (List.mem_range.mpr hj)
    have hnd := List.nodup_range (n := c.N)
    rw [hab] at hnd ⊢
    have hja : j ∉ as ∧ j ∉ bs := by
      rw [List.nodup_append] at hnd
      refine ⟨fun h => hnd.2.2 j h j (by simp) rfl, fun h => ?_⟩
      exact (List.nodup_cons.mp hnd.2.1).1 h
    rw [List.foldl_append, List.foldl_cons, splitCount_free c _ _ _ _ as (fun j' hj' => hfo j' (fun e => hja.1 (e ▸ hj'))), hstep]
    refine splitCount_free c _ _ _ _ bs fun j' hj' => ?_
    simp only [Cfg.removePair]
    split
    · rfl
    · rename_i h
      exact hfo j' (fun e => h (Or.inl e))
  intro a
  have ha : a = finishA p c.N (c.startA p pol (fun _ _ => 0) junk) (c.removePair true (c.iter c.init) j j, -1) := by
    show c.runA p (Real.cos 0) pol (fun _ _ => 0) junk 1 = _
    rw [Cfg.runA, Function.iterate_one, Cfg.loopA, if_neg (by simp [Cfg.startA]), hadv]
  rw [ha]
  refine ⟨rfl, fun j' l => ?_, j, hj, m, hm, sign, hsg, fun i => ?_⟩
  · show (c.removePair true (c.iter c.init) j j).x j' l = 0
    simp only [Cfg.removePair, or_self]
    by_cases hjj : j' = j
    · rw [if_pos ⟨hjj, rfl⟩]
    · rw [if_neg (fun h => hjj h.1)]
      exact (i1.empty j' (hfo j' hjj)).1 l
  · show (c.removePair true (c.iter c.init) j j).r i = _
    simp only [Cfg.removePair, hkind.1, hkind.2]
    have hr : (c.iter c.init).r i = -b i + sign * c.fld j m i := by rw [e]; rfl
    have hfl : c.fld j m i = ∑ l ∈ Finset.range 3, pol j m l * A (3 * j + l) i := rfl
    rw [hr, hfl]
    ring

/-- **C81, violated.** A guess that fills the grid: all the entries of `R2s` carry the marker `1e50`, the first one is taken, and the first vector of dipole 0 is placed on top of its magnet.  The guess (here the negative of the only
allowed vector) is overwritten and the residual, 0, is not `A x - b`, which is 1. -/
theorem C81_full_guess_violated (junk : Nat → Int) (p : Par) (hn : p.nadj = 0) :
    let pol : Nat → Nat → Nat → ℝ := fun _ _ l => if l = 0 then 1 else 0
    let A : Nat → Nat → ℝ := fun q _ => if q = 0 then 1 else 0
    let x0 : Nat → Nat → ℝ := fun _ l => if l = 0 then -1 else 0
    let a := (arbVec 1 1 1 A (fun _ => 0) (fun _ => 0) pol).runA p (Real.cos Real.pi) pol x0 junk 1
    (∀ l, (initial (arbVec 1 1 1 A (fun _ => 0) (fun _ => 0) pol) pol x0).x 0 l = x0 0 l) ∧ (∀ l, a.g.x 0 l = -x0 0 l) ∧ a.g.r 0 = 0 ∧ (∑ j ∈ Finset.range 1, ∑ l ∈ Finset.range 3, A (3 * j + l) 0 * a.g.x j l) - 0 = 1 := by
  intro pol A x0
  set c := arbVec 1 1 1 A (fun _ => 0) (fun _ => 0) pol with hc
  have hnear : nearest (x0 0) (pol 0) 1 = some (0, 0, -1) := by
    have hd : ∀ sign : ℝ, sqDiff (x0 0) (pol 0 0) sign = (-1 - sign) ^ 2 := by
      intro sign
      simp [sqDiff, x0, pol, Finset.sum_range_succ]
    simp only [nearest, List.range_one, List.foldl_cons, List.foldl_nil, closer, hd]
    rw [if_pos (by norm_num)]
    norm_num
  have hini : initial c pol x0 = c.place c.init 0 0 (-1) := by
    have hr : List.range c.N = [0] := rfl
    rw [initial, hr, List.foldl_cons, List.foldl_nil, initOne, if_neg (by rintro ⟨h, _⟩; simp [x0] at h)]
    have : nearest (x0 0) (pol 0) c.P = some (0, 0, -1) := hnear
    simp only [this]
    rw [if_neg]
    simp [x0, Finset.sum_range_succ]
  set s := c.place c.init 0 0 (-1) with hs
  have hR : ∀ i < 2, (c.sweep s).R2s i = 1e50 := by
    intro i hi
    have hP : c.P = 1 := rfl
    have hN : c.N = 1 := rfl
    simp only [Cfg.sweep, Cfg.sweepWith, hP, hN]
    rw [if_neg]
    · simp only [hs, Cfg.place, Cfg.init, ite_self]
    · rintro ⟨_, h, _⟩
      have : (if i < 1 * 1 then i else i - 1 * 1) / 1 = 0 := by split <;> omega
      rw [this] at h
      simp [hs, Cfg.place] at h
  have hch : c.choice (c.sweep s) = (0, 0, 1) := by
    simp only [Cfg.choice]
    have : minElement (c.sweep s).R2s (2 * (c.N * c.P)) = 0 := minElement_const _ 1e50 _ hR
    rw [this]
    have hP : c.P = 1 := rfl
    have hN : c.N = 1 := rfl
    rw [hP, hN]
    norm_num
  have hit : c.iter s = c.place (c.sweep s) 0 0 1 := by simp only [Cfg.iter, hch]
  intro a
  have hag : a.g = c.place (c.sweep s) 0 0 1 := by
    show (c.runA p (Real.cos Real.pi) pol x0 junk 1).g = _
    rw [Cfg.runA, Function.iterate_one, Cfg.loopA, if_neg (by simp [Cfg.startA])]
    show (c.advanceA p (Real.cos Real.pi) _).1 = _
    have hg : (c.startA p pol x0 junk).g = s := hini
    rw [Cfg.advanceA, hn, splitCount_none _ _ (Real.cos_le_one _), ite_self, hg, hit]
  have hx : ∀ l, a.g.x 0 l = if l = 0 then 1 else 0 := by
    intro l; rw [hag]
    simp [Cfg.place, hc, arbVec, pol]
  refine ⟨fun l => ?_, fun l => ?_, ?_, ?_⟩
  · rw [hini]
    simp only [hs, Cfg.place, hc, arbVec, pol, x0]
    split <;> simp_all
  · rw [hx]; simp only [x0]; split <;> simp
  · rw [hag]
    simp [Cfg.place, Cfg.sweep, Cfg.sweepWith, hs, hc, arbVec, pol, A, Cfg.init, Finset.sum_range_succ]
  · simp [hx, A, Finset.sum_range_succ]

end Simsopt.Magnets
