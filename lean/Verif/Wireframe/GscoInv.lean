import Verif.Wireframe.GscoStep
/-!
# C87, C90: the history of the greedy optimization
-/
namespace Simsopt.Wireframe

variable {p : Gsco}

/-! ### The replay -/

theorem Gsco.xAt_append (h : List Rec) (r : Rec) {k : Nat} (hk : k < h.length) : p.xAt (h ++ [r]) k = p.xAt h k := by
  rw [Gsco.xAt, List.take_append_of_le_length hk, Gsco.xAt]

theorem Gsco.xAt_last (h : List Rec) (r : Rec) (hh : h ≠ []) : p.xAt (h ++ [r]) h.length = addLoop r.curr (p.loops r.loop) (p.xAt h (h.length - 1)) := by
  have hl : 0 < h.length := List.length_pos_iff.mpr hh
  rw [Gsco.xAt, List.take_of_length_le (by simp), List.foldl_append, Gsco.xAt, List.take_of_length_le (by omega)]
  rfl

theorem Gsco.countAt_append (h : List Rec) (r : Rec) {k : Nat} (hk : k < h.length) (l : Nat) : p.countAt (h ++ [r]) k l = p.countAt h k l := by
  rw [Gsco.countAt, List.take_append_of_le_length hk, Gsco.countAt]

theorem Gsco.countAt_last (h : List Rec) (r : Rec) (hh : h ≠ []) (l : Nat) : p.countAt (h ++ [r]) h.length l = p.countAt h (h.length - 1) l + if l = r.loop then sgn r.curr else 0 := by
  have hl : 0 < h.length := List.length_pos_iff.mpr hh
  rw [Gsco.countAt, List.take_of_length_le (by simp), Gsco.countAt, List.take_of_length_le (by omega), List.filter_append, List.map_append, List.sum_append, add_assoc]
  congr 2
  by_cases e : r.loop = l
  · rw [if_pos e.symm, List.filter_cons_of_pos (by simpa using e)]; simp
  · rw [if_neg (fun h => e h.symm), List.filter_cons_of_neg (by simpa using e)]; simp

/-! ### The invariant -/

/-- Everything `GSCO` stores is what it is meant to be, and every recorded iteration was allowed and the best of those allowed. -/
structure Gsco.Inv (p : Gsco) (s : GState) : Prop where
  ne : s.hist ≠ []
  x : s.x = p.xAt s.hist (s.hist.length - 1)
  count : ∀ l, s.count l = p.countAt s.hist (s.hist.length - 1) l
  res : ∀ m, s.res m = ∑ t ∈ Finset.range p.nSeg, p.A m t * s.x t - p.b m
  fB2 : s.fB2 = 2 * p.fB s.x
  fS2 : s.fS2 = 2 * p.fS s.x
  f2 : s.f2 = 2 * p.f s.x
  good : ∀ k (h : k < s.hist.length), s.hist[k].fB = p.fB (p.xAt s.hist k) ∧ s.hist[k].fS = p.fS (p.xAt s.hist k) ∧ s.hist[k].f = p.f (p.xAt s.hist k)
  steps : ∀ k (h : k + 1 < s.hist.length), p.Allowed (p.xAt s.hist k) (p.countAt s.hist k) s.hist[k + 1].loop s.hist[k + 1].curr ∧
    ∀ k' c', p.Allowed (p.xAt s.hist k) (p.countAt s.hist k) k' c' → p.f (p.xAt s.hist (k + 1)) ≤ p.f (addLoop c' (p.loops k') (p.xAt s.hist k))
  first : s.hist.head?.map (fun r => (r.curr, r.loop)) = some (0, 0)

theorem Gsco.mod_eq (hv : p.Valid) {j : Nat} (hj : j < 2 * p.nLoop) : (if j < p.nLoop then j else j - p.nLoop) = j % p.nLoop := by
  split
  · rename_i h; exact (Nat.mod_eq_of_lt h).symm
  · rw [Nat.mod_eq_sub_mod (by omega), Nat.mod_eq_of_lt (by omega)]

/-- The objectives that are computed for a loop are those of the new currents. -/
theorem Gsco.cand_spec (hv : p.Valid) {s : GState} (hres : ∀ m, s.res m = ∑ t ∈ Finset.range p.nSeg, p.A m t * s.x t - p.b m) (hS : s.fS2 = 2 * p.fS s.x) (j : Nat) (c : ℝ) :
    p.cand s j c = (2 * p.fB (addLoop c (p.loops (j % p.nLoop)) s.x), 2 * p.fS (addLoop c (p.loops (j % p.nLoop)) s.x), 2 * p.f (addLoop c (p.loops (j % p.nLoop)) s.x)) := by
  have hk : j % p.nLoop < p.nLoop := Nat.mod_lt _ hv.pos
  have e1 : (p.cand s j c).1 = 2 * p.fB (addLoop c (p.loops (j % p.nLoop)) s.x) := by
    simp only [Gsco.cand, Gsco.fB]
    rw [← mul_assoc, show (2 : ℝ) * (1 / 2) = 1 by norm_num, one_mul]
    refine Finset.sum_congr rfl fun m _ => ?_
    rw [addLoop_sum p.nSeg (hv.nodup _ hk) (hv.range hk), hres, Gsco.bnorm]
    ring
  have e2 : (p.cand s j c).2.1 = 2 * p.fS (addLoop c (p.loops (j % p.nLoop)) s.x) := by
    simp only [Gsco.cand]
    rw [addLoop_count hv hk, hS]
  refine Prod.ext e1 (Prod.ext e2 ?_)
  have e3 : (p.cand s j c).2.2 = (p.cand s j c).1 + p.lam * (p.cand s j c).2.1 := rfl
  rw [e3, e1, e2, Gsco.f]; ring

theorem Gsco.inv_start (hv : p.Valid) : p.Inv p.start := by
  have hx : p.xAt p.start.hist 0 = p.x0 := by
    show addLoop 0 (p.loops 0) p.x0 = p.x0
    exact addLoop_zero _ _
  have hB : p.start.fB2 = 2 * p.fB p.x0 := by
    simp only [Gsco.start, Gsco.fB]
    rw [← mul_assoc, show (2 : ℝ) * (1 / 2) = 1 by norm_num, one_mul]
    exact Finset.sum_congr rfl fun m _ => by ring
  have hS : p.start.fS2 = 2 * p.fS p.x0 := by
    simp only [Gsco.start, Gsco.fS]
    rw [Finset.card_filter]
    push_cast
    congr 1
    rw [Finset.mul_sum]
    refine Finset.sum_congr rfl fun s _ => ?_
    simp only [Gsco.active_iff]
    split <;> norm_num
  have hf : p.start.f2 = 2 * p.f p.x0 := by
    have e : p.start.f2 = p.start.fB2 + p.lam * p.start.fS2 := rfl
    rw [e, hB, hS, Gsco.f]; ring
  refine ⟨by simp [Gsco.start], hx.symm, fun l => ?_, fun m => rfl, hB, hS, hf, fun k hk => ?_, fun k hk => ?_, rfl⟩
  · show p.count0 l = p.countAt [_] 0 l
    rw [Gsco.countAt, List.take_of_length_le (by simp)]
    by_cases e : 0 = l
    · rw [List.filter_cons_of_pos (by simpa using e)]; simp [sgn]
    · rw [List.filter_cons_of_neg (by simpa using e)]; simp
  · have h0 : k = 0 := by simp only [Gsco.start, List.length_singleton] at hk; omega
    subst h0
    rw [hx]
    have g1 : p.start.hist[0].fB = 0.5 * p.start.fB2 := rfl
    have g2 : p.start.hist[0].fS = 0.5 * p.start.fS2 := rfl
    have g3 : p.start.hist[0].f = 0.5 * p.start.fB2 + 0.5 * p.lam * p.start.fS2 := rfl
    rw [g1, g2, g3, hB, hS, Gsco.f]
    refine ⟨by ring, by ring, by ring⟩
  · simp [Gsco.start] at hk

/-- Placing the best eligible loop. -/
theorem Gsco.Inv.place (hv : p.Valid) {s : GState} (hi : p.Inv s) {j : Nat} (hj : j < 2 * p.nLoop) (he : p.elig s.x s.count j ≠ 0) (hmin : ∀ a < 2 * p.nLoop, p.vals s j ≤ p.vals s a) : p.Inv (p.place s j) := by
  have hk : j % p.nLoop < p.nLoop := Nat.mod_lt _ hv.pos
  obtain ⟨hal, hsg⟩ := (Gsco.elig_iff hv s.x s.count j _ he).mp rfl
  have hc := Gsco.cand_spec hv hi.res hi.fS2
  have hl : (if j < p.nLoop then j else j - p.nLoop) = j % p.nLoop := Gsco.mod_eq hv hj
  set c := p.elig s.x s.count j with hcdef
  have hx' : (p.place s j).x = addLoop c (p.loops (j % p.nLoop)) s.x := rfl
  have hh : (p.place s j).hist = s.hist ++ [⟨c, j % p.nLoop, 0.5 * (p.cand s j c).1, 0.5 * (p.cand s j c).2.1, 0.5 * (p.cand s j c).2.2⟩] := by
    show s.hist ++ [_] = _
    rw [hl]
  have hlen : (p.place s j).hist.length = s.hist.length + 1 := by rw [hh]; simp
  have hpos : 0 < s.hist.length := List.length_pos_iff.mpr hi.ne
  have hxl : p.xAt (p.place s j).hist s.hist.length = (p.place s j).x := by
    rw [hh, Gsco.xAt_last _ _ hi.ne, hx', ← hi.x]
  have hcl : p.countAt s.hist (s.hist.length - 1) = s.count := funext fun l => (hi.count l).symm
  -- the step is the best one
  have best : ∀ k' c', p.Allowed s.x s.count k' c' → p.f (addLoop c (p.loops (j % p.nLoop)) s.x) ≤ p.f (addLoop c' (p.loops k') s.x) := by
    intro k' c' ha
    obtain ⟨a, ha2, hak, has⟩ : ∃ a < 2 * p.nLoop, a % p.nLoop = k' ∧ sgn c' = p.isign a := by
      have hk' := ha.loop
      rcases lt_or_gt_of_ne ha.ne with h0 | h0
      · refine ⟨k' + p.nLoop, by omega, by rw [Nat.add_mod_right, Nat.mod_eq_of_lt hk'], ?_⟩
        rw [sgn, if_neg (by linarith), if_pos h0, Gsco.isign, if_neg (by omega)]
      · refine ⟨k', by omega, Nat.mod_eq_of_lt hk', ?_⟩
        rw [sgn, if_pos h0, Gsco.isign, if_pos hk']
    have hea : p.elig s.x s.count a = c' := (Gsco.elig_iff hv s.x s.count a c' ha.ne).mpr ⟨by rw [hak]; exact ha, has⟩
    have hm := hmin a ha2
    rw [Gsco.vals, if_neg he, Gsco.vals, hea, if_neg ha.ne, ← hcdef, hc, hc, hak] at hm
    have := WithTop.coe_le_coe.mp hm
    simp only at this
    linarith
  refine ⟨by rw [hh]; simp, ?_, fun l => ?_, fun m => ?_, ?_, ?_, ?_, fun k hk' => ?_, fun k hk' => ?_, ?_⟩
  · rw [hlen, Nat.add_sub_cancel, hxl]
  · rw [hlen, Nat.add_sub_cancel, hh, Gsco.countAt_last _ _ hi.ne, ← hi.count l]
    show (if l = _ then s.count l + p.isign j else s.count l) = _
    rw [hl, ← hsg]
    simp only
    split <;> simp
  · rw [hx', addLoop_sum p.nSeg (hv.nodup _ hk) (hv.range hk)]
    show s.res m + _ + _ - _ - _ = _
    rw [hi.res, ← hcdef]; ring
  · show (p.cand s j c).1 = _
    rw [hc, hx']
  · show (p.cand s j c).2.1 = _
    rw [hc, hx']
  · show (p.cand s j c).2.2 = _
    rw [hc, hx']
  · rw [hlen] at hk'
    rcases Nat.lt_succ_iff_lt_or_eq.mp hk' with h | h
    · have e1 : (p.place s j).hist[k] = s.hist[k] := by simp only [hh]; rw [List.getElem_append_left h]
      rw [e1, hh, Gsco.xAt_append _ _ h]
      exact hi.good k h
    · subst h
      have e1 : (p.place s j).hist[s.hist.length] = ⟨c, j % p.nLoop, 0.5 * (p.cand s j c).1, 0.5 * (p.cand s j c).2.1, 0.5 * (p.cand s j c).2.2⟩ := by simp only [hh]; simp
      rw [e1, hxl, hx', hc]
      refine ⟨by simp only; ring, by simp only; ring, by simp only; ring⟩
  · rw [hlen] at hk'
    have e0 : p.xAt (p.place s j).hist k = p.xAt s.hist k := by rw [hh, Gsco.xAt_append _ _ (by omega)]
    have e0' : p.countAt (p.place s j).hist k = p.countAt s.hist k := funext fun l => by rw [hh, Gsco.countAt_append _ _ (by omega)]
    rcases Nat.lt_succ_iff_lt_or_eq.mp hk' with h | h
    · have e1 : (p.place s j).hist[k + 1] = s.hist[k + 1] := by simp only [hh]; rw [List.getElem_append_left h]
      have e2 : p.xAt (p.place s j).hist (k + 1) = p.xAt s.hist (k + 1) := by rw [hh, Gsco.xAt_append _ _ h]
      rw [e1, e2, e0, e0']
      exact hi.steps k h
    · have e1 : (p.place s j).hist[k + 1] = ⟨c, j % p.nLoop, 0.5 * (p.cand s j c).1, 0.5 * (p.cand s j c).2.1, 0.5 * (p.cand s j c).2.2⟩ := by simp only [hh, h]; simp
      have hk1 : k = s.hist.length - 1 := by omega
      rw [e1, e0, e0', show k + 1 = s.hist.length from h, hxl, hx', hk1, ← hi.x, hcl]
      exact ⟨hal, best⟩
  · rw [hh, List.head?_append_of_ne_nil _ hi.ne]
    exact hi.first

/-- What the loop keeps in mind. -/
structure Gsco.At (p : Gsco) (i : Nat) (s : GState) : Prop where
  inv : p.Inv s
  len : s.hist.length = i + 1
  prev : ∀ h : 0 < i, s.prev < 2 * p.nLoop ∧ s.prev % p.nLoop = s.hist[i].loop ∧ p.isign s.prev = sgn s.hist[i].curr

/-- No allowed loop improves the objective. -/
def Gsco.LocalMin (p : Gsco) (x : Int → ℝ) (count : Nat → Int) : Prop := ∀ k c, p.Allowed x count k c → p.f x ≤ p.f (addLoop c (p.loops k) x)

theorem Gsco.allowed_elig (hv : p.Valid) {x : Int → ℝ} {count : Nat → Int} {k : Nat} {c : ℝ} (ha : p.Allowed x count k c) : ∃ a < 2 * p.nLoop, a % p.nLoop = k ∧ p.elig x count a = c := by
  have hk' := ha.loop
  rcases lt_or_gt_of_ne ha.ne with h0 | h0
  · refine ⟨k + p.nLoop, by omega, by rw [Nat.add_mod_right, Nat.mod_eq_of_lt hk'], ?_⟩
    have hm : (k + p.nLoop) % p.nLoop = k := by rw [Nat.add_mod_right, Nat.mod_eq_of_lt hk']
    refine (Gsco.elig_iff hv x count _ c ha.ne).mpr ⟨by rw [hm]; exact ha, ?_⟩
    rw [sgn, if_neg (by linarith), if_pos h0, Gsco.isign, if_neg (by omega)]
  · refine ⟨k, by omega, Nat.mod_eq_of_lt hk', ?_⟩
    refine (Gsco.elig_iff hv x count _ c ha.ne).mpr ⟨by rw [Nat.mod_eq_of_lt hk']; exact ha, ?_⟩
    rw [sgn, if_pos h0, Gsco.isign, if_pos hk']

theorem Gsco.setPrev_vals (s : GState) (j : Nat) : p.vals (s.setPrev j) = p.vals s ∧ p.Inv (s.setPrev j) = p.Inv s := by
  refine ⟨rfl, ?_⟩
  apply propext
  exact ⟨fun ⟨a, b, c, d, e, f, g, h, i, k⟩ => ⟨a, b, c, d, e, f, g, h, i, k⟩, fun ⟨a, b, c, d, e, f, g, h, i, k⟩ => ⟨a, b, c, d, e, f, g, h, i, k⟩⟩

/-- One iteration: it goes on, or it ends. -/
theorem Gsco.iter_spec (hv : p.Valid) {i : Nat} {s : GState} (ha : p.At i s) (hin : i < p.nIter) :
    ((p.iter i s).2 = false → p.At (i + 1) (p.iter i s).1) ∧
    ((p.iter i s).2 = true → p.Inv (p.iter i s).1 ∧ (p.iter i s).1.hist.length ≤ i + 2 ∧ ((p.iter i s).1.hist.length = p.nIter + 1 ∨ p.matchCurrent = true ∨ p.LocalMin (p.iter i s).1.x (p.iter i s).1.count)) := by
  have hlt : argmin (p.vals s) (2 * p.nLoop) < 2 * p.nLoop := argmin_lt _ _ (by have := hv.pos; omega)
  have hle : ∀ a < 2 * p.nLoop, p.vals s (argmin (p.vals s) (2 * p.nLoop)) ≤ p.vals s a := fun a h => argmin_le _ _ _ h
  rw [Gsco.iter]
  generalize argmin (p.vals s) (2 * p.nLoop) = j at hlt hle
  by_cases h1 : ¬ ∃ a < 2 * p.nLoop, p.elig s.x s.count a ≠ 0
  · rw [if_pos h1]
    refine ⟨fun h => by simp at h, fun _ => ⟨ha.inv, by rw [ha.len]; omega, Or.inr (Or.inr fun k c hal => ?_)⟩⟩
    obtain ⟨a, h2, -, he⟩ := Gsco.allowed_elig hv hal
    exact absurd ⟨a, h2, by rw [he]; exact hal.ne⟩ h1
  rw [if_neg h1]
  push Not at h1
  obtain ⟨a, ha2, hea⟩ := h1
  have hej : p.elig s.x s.count j ≠ 0 := by
    intro h0
    have := hle a ha2
    rw [Gsco.vals, if_pos h0, Gsco.vals, if_neg hea] at this
    exact absurd this (by simp)
  have hpl := ha.inv.place hv hlt hej hle
  have hlenp : (p.place s j).hist.length = i + 2 := by
    show (s.hist ++ [_]).length = _
    rw [List.length_append, ha.len]; rfl
  have hc := Gsco.cand_spec hv ha.inv.res ha.inv.fS2
  have hmod := Gsco.mod_eq hv hlt
  obtain ⟨hal, hsg⟩ := (Gsco.elig_iff hv s.x s.count j _ hej).mp rfl
  have hxp : (p.place s j).x = addLoop (p.elig s.x s.count j) (p.loops (j % p.nLoop)) s.x := rfl
  -- all allowed loops are at least as bad as `j`
  have best : p.LocalMin s.x s.count ∨ p.f (p.place s j).x ≤ p.f s.x := by
    rcases le_or_gt (p.f (p.place s j).x) (p.f s.x) with h | h
    · exact Or.inr h
    · refine Or.inl fun k c hal' => ?_
      obtain ⟨a', h3, h4, h5⟩ := Gsco.allowed_elig hv hal'
      have hm := hle a' h3
      rw [Gsco.vals, if_neg hej, Gsco.vals, h5, if_neg hal'.ne, hc, hc, h4] at hm
      have := WithTop.coe_le_coe.mp hm
      simp only at this
      rw [hxp] at h
      linarith
  by_cases h2 : 0 < i ∧ j + p.nLoop % (2 * p.nLoop) = s.prev
  · rw [if_pos h2]
    refine ⟨fun h => by simp at h, fun _ => ?_⟩
    by_cases h3 : s.f2 < (p.cand s j (p.elig s.x s.count j)).2.2
    · rw [if_pos h3]
      refine ⟨ha.inv, by rw [ha.len]; omega, Or.inr (Or.inr ?_)⟩
      rcases best with h | h
      · exact h
      · rw [ha.inv.f2, hc, ← hxp] at h3
        simp only at h3
        linarith
    · rw [if_neg h3]
      refine ⟨hpl, hlenp.le, ?_⟩
      by_cases hmc : p.matchCurrent = true
      · exact Or.inr (Or.inl hmc)
      refine Or.inr (Or.inr ?_)
      rw [Bool.not_eq_true] at hmc
      -- the loop undoes the last one
      obtain ⟨q1, q2, q3⟩ := ha.prev h2.1
      have hnl := hv.pos
      have hmm : p.nLoop % (2 * p.nLoop) = p.nLoop := Nat.mod_eq_of_lt (by omega)
      rw [hmm] at h2
      have hjl : j < p.nLoop := by omega
      have hjm : j % p.nLoop = (s.hist[i]'(by rw [ha.len]; omega)).loop := by
        rw [← q2, ← h2.2, Nat.add_mod_right]
      obtain ⟨hst, hbest⟩ := ha.inv.steps (i - 1) (by rw [ha.len]; omega)
      have hii : i - 1 + 1 = i := by omega
      simp only [hii] at hst hbest
      set r := s.hist[i]'(by rw [ha.len]; omega) with hr
      have hneg : sgn r.curr = -1 := by rw [← q3, ← h2.2, Gsco.isign, if_neg (by omega)]
      have hposj : sgn (p.elig s.x s.count j) = 1 := by rw [hsg, Gsco.isign, if_pos hjl]
      have sgn_abs : ∀ c : ℝ, c ≠ 0 → c = (sgn c : ℝ) * |c| := by
        intro c h0
        rcases lt_or_gt_of_ne h0 with h | h
        · rw [sgn, if_neg (by linarith), if_pos h, abs_of_neg h]; push_cast; ring
        · rw [sgn, if_pos h, abs_of_pos h]; push_cast; ring
      have hcur : p.elig s.x s.count j = -r.curr := by
        have e1 := sgn_abs _ hej
        have e2 := sgn_abs _ hst.ne
        rw [hal.size hmc, hposj] at e1
        rw [hst.size hmc, hneg] at e2
        rw [e1, e2]; push_cast; ring
      -- the currents and counts before
      have hnd := hv.nodup _ hst.loop
      have hsx : s.x = addLoop r.curr (p.loops r.loop) (p.xAt s.hist (i - 1)) := by
        have e : s.hist = s.hist.take i ++ [r] := by
          rw [hr]
          have : i + 1 = s.hist.length := ha.len.symm
          conv_lhs => rw [← List.take_length (l := s.hist), ← this]
          rw [List.take_succ_eq_append_getElem (by omega)]
        have hne : s.hist.take i ≠ [] := by
          intro h0
          have := congrArg List.length h0
          rw [List.length_take, ha.len] at this
          simp at this; omega
        have hlt' : (s.hist.take i).length = i := by rw [List.length_take, ha.len]; omega
        rw [ha.inv.x, ha.len, Nat.add_sub_cancel]
        have e3 := Gsco.xAt_last (p := p) (s.hist.take i) r hne
        rw [← e, hlt'] at e3
        rw [e3]
        congr 1
        rw [Gsco.xAt, List.take_take, Gsco.xAt]
        congr 2; omega
      have hsc : ∀ l, s.count l = p.countAt s.hist (i - 1) l + if l = r.loop then sgn r.curr else 0 := by
        intro l
        have e : s.hist = s.hist.take i ++ [r] := by
          rw [hr]
          have : i + 1 = s.hist.length := ha.len.symm
          conv_lhs => rw [← List.take_length (l := s.hist), ← this]
          rw [List.take_succ_eq_append_getElem (by omega)]
        have hne : s.hist.take i ≠ [] := by
          intro h0
          have := congrArg List.length h0
          rw [List.length_take, ha.len] at this
          simp at this; omega
        have hlt' : (s.hist.take i).length = i := by rw [List.length_take, ha.len]; omega
        rw [ha.inv.count, ha.len, Nat.add_sub_cancel]
        have e3 := Gsco.countAt_last (p := p) (s.hist.take i) r hne l
        rw [← e, hlt'] at e3
        rw [e3]
        congr 1
        rw [Gsco.countAt, List.take_take, Gsco.countAt]
        congr 5; omega
      have hxx : (p.place s j).x = p.xAt s.hist (i - 1) := by
        rw [hxp, hcur, hjm, hsx, addLoop_undo hnd]
      have hcc : (p.place s j).count = p.countAt s.hist (i - 1) := by
        funext l
        show (if l = _ then s.count l + p.isign j else s.count l) = _
        rw [hmod, hjm, hsc l, ← hsg, hposj, hneg]
        split <;> ring
      intro k c hal'
      rw [hxx, hcc] at hal'
      rw [hxx]
      have hb := hbest k c hal'
      have hxi : p.xAt s.hist i = s.x := by rw [ha.inv.x, ha.len]; rfl
      rw [hxi] at hb
      rw [ha.inv.f2, hc, ← hxp, hxx] at h3
      simp only at h3
      linarith
  · rw [if_neg h2]
    have hsame := Gsco.setPrev_vals (p := p) s j
    have hpl' : p.Inv (p.place (s.setPrev j) j) := by
      have hi' : p.Inv (s.setPrev j) := by rw [hsame.2]; exact ha.inv
      exact hi'.place hv hlt hej (by rw [hsame.1]; exact hle)
    have hlenp' : (p.place (s.setPrev j) j).hist.length = i + 2 := hlenp
    refine ⟨fun _ => ⟨hpl', hlenp', fun _ => ⟨hlt, ?_, ?_⟩⟩, fun h => ⟨hpl', hlenp'.le, Or.inl ?_⟩⟩
    · have e : (p.place (s.setPrev j) j).hist = s.hist ++ [⟨p.elig s.x s.count j, if j < p.nLoop then j else j - p.nLoop, 0.5 * (p.cand s j (p.elig s.x s.count j)).1, 0.5 * (p.cand s j (p.elig s.x s.count j)).2.1, 0.5 * (p.cand s j (p.elig s.x s.count j)).2.2⟩] := rfl
      have hl := ha.len
      simp only [e]
      rw [List.getElem_append_right (by omega)]
      simp only [hl, Nat.sub_self, List.getElem_singleton]
      exact hmod.symm
    · have e : (p.place (s.setPrev j) j).hist = s.hist ++ [⟨p.elig s.x s.count j, if j < p.nLoop then j else j - p.nLoop, 0.5 * (p.cand s j (p.elig s.x s.count j)).1, 0.5 * (p.cand s j (p.elig s.x s.count j)).2.1, 0.5 * (p.cand s j (p.elig s.x s.count j)).2.2⟩] := rfl
      have hl := ha.len
      simp only [e]
      rw [List.getElem_append_right (by omega)]
      simp only [hl, Nat.sub_self, List.getElem_singleton]
      exact hsg.symm
    · have : i + 1 = p.nIter := by simpa using h
      rw [hlenp']; omega

theorem Gsco.loop_spec (hv : p.Valid) (fuel i : Nat) (s : GState) (ha : p.At i s) (hf : i + fuel = p.nIter) :
    p.Inv (p.loop fuel i s) ∧ (p.loop fuel i s).hist.length ≤ p.nIter + 1 ∧ ((p.loop fuel i s).hist.length = p.nIter + 1 ∨ p.matchCurrent = true ∨ p.LocalMin (p.loop fuel i s).x (p.loop fuel i s).count) := by
  induction fuel generalizing i s with
  | zero =>
    rw [Gsco.loop]
    exact ⟨ha.inv, by rw [ha.len]; omega, Or.inl (by rw [ha.len]; omega)⟩
  | succ fuel ih =>
    obtain ⟨h1, h2⟩ := Gsco.iter_spec hv ha (by omega)
    rw [Gsco.loop]
    rcases Bool.eq_false_or_eq_true (p.iter i s).2 with h | h
    · rw [if_pos h]
      obtain ⟨a, b, c⟩ := h2 h
      exact ⟨a, by omega, c⟩
    · rw [if_neg (by rw [h]; decide)]
      exact ih (i + 1) _ (h1 h) (by omega)

theorem Gsco.run_spec (hv : p.Valid) : p.Inv p.run ∧ p.run.hist.length ≤ p.nIter + 1 ∧ (p.run.hist.length = p.nIter + 1 ∨ p.matchCurrent = true ∨ p.LocalMin p.run.x p.run.count) :=
  Gsco.loop_spec hv p.nIter 0 p.start ⟨Gsco.inv_start hv, rfl, fun h => absurd h (Nat.lt_irrefl 0)⟩ (Nat.zero_add _)

end Simsopt.Wireframe
