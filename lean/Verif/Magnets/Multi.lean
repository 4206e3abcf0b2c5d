import Verif.Magnets.ArbBack
/-!
# C82: placing several magnets per iteration

Model of `GPMO_multi` (src/simsoptpp/permanent_magnet_optimization.cpp L582-711).  Simplifications: as in `Verif.Magnets.Greedy`.  Where the search for an available neighbour runs off the 2000 columns of the connectivity matrix, the
model returns `none`.
-/
namespace Simsopt.Magnets

/-- The neighbours used for a candidate (L640-652): each of the first `Nadjacent` entries, or, if that one is taken, the next available one of the entries after them (`cj_counter` goes on from where it was). -/
def pick (free : Nat → Bool) : List Nat → List Nat → Option (List Nat)
  | [], _ => some []
  | d :: ds, tl =>
    if free d then (pick free ds tl).map (d :: ·)
    else match tl.dropWhile fun e => !free e with
      | [] => none
      | e :: tl' => (pick free ds tl').map (e :: ·)

/-- Placing the magnets (L683-706): the same search, with `Gamma_complement` changing on the way. -/
noncomputable def placeMulti (c : Cfg) (m : Nat) (sign : ℝ) : List Nat → List Nat → Gst → Option Gst
  | [], _, s => some s
  | d :: ds, tl, s =>
    if s.free d then placeMulti c m sign ds tl (c.place s d m sign)
    else match tl.dropWhile fun e => !s.free e with
      | [] => none
      | e :: tl' => placeMulti c m sign ds tl' (c.place s e m sign)

/-- The first `Nadjacent` entries of row `j`. -/
def rowHead (conn : Nat → Nat → Nat) (nadj j : Nat) : List Nat := (List.range nadj).map (conn j)

/-- The other entries of row `j`. -/
def rowTail (conn : Nat → Nat → Nat) (nadj j : Nat) : List Nat := (List.range (2000 - nadj)).map fun i => conn j (nadj + i)

/-- `R2` and `R2minus` of a candidate with `mmax_partial_sum` (L632-662). -/
noncomputable def groupValue (c : Cfg) (mmax : Nat → ℝ) (s : Gst) (group : List Nat) (m : Nat) (sign : ℝ) : ℝ :=
  (group.map fun d => ∑ i ∈ Finset.range c.G, (s.r i + sign * c.fld d m i) * (s.r i + sign * c.fld d m i)).sum + (group.map fun d => mmax d * mmax d).sum

open Classical in
/-- One iteration (L624-707). -/
noncomputable def iterM (c : Cfg) (mmax : Nat → ℝ) (conn : Nat → Nat → Nat) (nadj : Nat) (s : Gst) : Option Gst :=
  if ∃ j < c.N, s.free j = true ∧ pick s.free (rowHead conn nadj j) (rowTail conn nadj j) = none then none
  else
    let s1 := c.sweepWith (fun j m sign => groupValue c mmax s ((pick s.free (rowHead conn nadj j) (rowTail conn nadj j)).getD []) m sign) s
    let p := c.choice s1
    placeMulti c p.2.1 p.2.2 (rowHead conn nadj p.1) (rowTail conn nadj p.1) s1

/-- The loop after `k` iterations. -/
noncomputable def runM (c : Cfg) (mmax : Nat → ℝ) (conn : Nat → Nat → Nat) (nadj : Nat) : Nat → Option Gst
  | 0 => some c.init
  | k + 1 => (runM c mmax conn nadj k).bind (iterM c mmax conn nadj)

/-! ### The search -/

theorem dropWhile_filter (free : Nat → Bool) (tl : List Nat) (e : Nat) (tl' : List Nat) (h : (tl.dropWhile fun e => !free e) = e :: tl') : free e = true ∧ tl.filter free = e :: tl'.filter free ∧ (e :: tl').Sublist tl := by
  induction tl with
  | nil => simp at h
  | cons a as ih =>
    cases ha : free a with
    | true =>
      rw [List.dropWhile_cons, ha] at h
      simp only [Bool.not_true, Bool.false_eq_true, if_false, List.cons.injEq] at h
      obtain ⟨rfl, rfl⟩ := h
      exact ⟨ha, by simp [ha], List.Sublist.refl _⟩
    | false =>
      rw [List.dropWhile_cons, ha] at h
      simp only [Bool.not_false, if_true] at h
      obtain ⟨h1, h2, h3⟩ := ih h
      exact ⟨h1, by simp [ha, h2], h3.cons _⟩

theorem dropWhile_nil (free : Nat → Bool) (tl : List Nat) (h : (tl.dropWhile fun e => !free e) = []) : tl.filter free = [] := by
  induction tl with
  | nil => rfl
  | cons a as ih =>
    cases ha : free a with
    | true => rw [List.dropWhile_cons, ha] at h; simp at h
    | false =>
      rw [List.dropWhile_cons, ha] at h
      simp only [Bool.not_false, if_true] at h
      simp [ha, ih h]

/-- The search finds the first available entries of the row, in some order. -/
theorem pick_spec (free : Nat → Bool) (hd : List Nat) : ∀ tl : List Nat, hd.length ≤ (hd.filter free).length + (tl.filter free).length →
    ∃ ds, pick free hd tl = some ds ∧ ds.Perm (hd.filter free ++ (tl.filter free).take (hd.length - (hd.filter free).length)) := by
  induction hd with
  | nil => intro tl _; exact ⟨[], rfl, by simp⟩
  | cons d hd ih =>
    intro tl hlen
    have hfl : (hd.filter free).length ≤ hd.length := List.length_filter_le _ _
    cases hfd : free d with
    | true =>
      simp only [List.filter_cons, hfd, if_true, List.length_cons] at hlen ⊢
      obtain ⟨ds, h1, h2⟩ := ih tl (by omega)
      refine ⟨d :: ds, by simp [pick, hfd, h1], ?_⟩
      rw [List.cons_append, show hd.length + 1 - ((hd.filter free).length + 1) = hd.length - (hd.filter free).length by omega]
      exact h2.cons d
    | false =>
      simp only [List.filter_cons, hfd, Bool.false_eq_true, if_false, List.length_cons] at hlen ⊢
      cases htl : tl.dropWhile fun e => !free e with
      | nil =>
        rw [dropWhile_nil free tl htl] at hlen
        simp at hlen
        omega
      | cons e tl' =>
        obtain ⟨_, h2, _⟩ := dropWhile_filter free tl e tl' htl
        rw [h2] at hlen ⊢
        simp only [List.length_cons] at hlen
        obtain ⟨ds, k1, k2⟩ := ih tl' (by omega)
        refine ⟨e :: ds, by simp [pick, hfd, htl, k1], ?_⟩
        rw [show hd.length + 1 - (hd.filter free).length = (hd.length - (hd.filter free).length) + 1 by omega, List.take_succ_cons]
        exact (k2.cons e).trans List.perm_middle.symm

theorem pick_take (free : Nat → Bool) (hd tl : List Nat) (h : hd.length ≤ ((hd ++ tl).filter free).length) : ∃ ds, pick free hd tl = some ds ∧ ds.Perm (((hd ++ tl).filter free).take hd.length) := by
  rw [List.filter_append, List.length_append] at h
  obtain ⟨ds, h1, h2⟩ := pick_spec free hd tl h
  refine ⟨ds, h1, ?_⟩
  rw [List.filter_append, List.take_append, List.take_of_length_le (List.length_filter_le _ _)]
  exact h2

theorem pick_congr (free free' : Nat → Bool) (hd : List Nat) : ∀ tl : List Nat, (∀ d ∈ hd ++ tl, free d = free' d) → pick free hd tl = pick free' hd tl := by
  induction hd with
  | nil => intro tl _; rfl
  | cons d hd ih =>
    intro tl h
    have hfd := h d (by simp)
    have htl : (tl.dropWhile fun e => !free e) = tl.dropWhile fun e => !free' e := by
      have : ∀ l : List Nat, (∀ e ∈ l, free e = free' e) → (l.dropWhile fun e => !free e) = l.dropWhile fun e => !free' e := by
        intro l
        induction l with
        | nil => intro _; rfl
        | cons a as ih' =>
          intro hl
          rw [List.dropWhile_cons, List.dropWhile_cons, hl a (by simp)]
          split
          · exact ih' fun e he => hl e (by simp [he])
          · rfl
      exact this tl fun e he => h e (by simp [he])
    simp only [pick, hfd, htl]
    rw [ih tl fun e he => h e (by rw [List.cons_append]; exact List.mem_cons_of_mem _ he)]
    split
    · rfl
    · cases hx : tl.dropWhile fun e => !free' e with
      | nil => rfl
      | cons e tl' =>
        simp only
        have hsub : (e :: tl').Sublist tl := (dropWhile_filter free' tl e tl' hx).2.2
        rw [ih tl' fun a ha => h a ?_]
        rcases List.mem_append.mp ha with ha | ha
        · simp [ha]
        · have := hsub.subset (List.mem_cons_of_mem e ha)
          simp [this]

theorem placeMulti_append (c : Cfg) (m : Nat) (sign : ℝ) (hd : List Nat) : ∀ (tl tl2 : List Nat) (s t : Gst), placeMulti c m sign hd tl s = some t → placeMulti c m sign hd (tl ++ tl2) s = some t := by
  induction hd with
  | nil => intro tl tl2 s t h; exact h
  | cons d hd ih =>
    intro tl tl2 s t h
    cases hfd : s.free d with
    | true =>
      simp only [placeMulti, hfd, if_true] at h ⊢
      exact ih tl tl2 _ t h
    | false =>
      simp only [placeMulti, hfd, Bool.false_eq_true, if_false] at h ⊢
      cases hx : tl.dropWhile fun e => !s.free e with
      | nil => rw [hx] at h; simp at h
      | cons e tl' =>
        rw [hx] at h
        rw [List.dropWhile_append, hx]
        simp only [List.isEmpty_cons, Bool.false_eq_true, if_false, List.cons_append] at h ⊢
        exact ih tl' tl2 _ t h

/-- The placing loop places the neighbours found for the candidate. -/
theorem placeMulti_pick (c : Cfg) (m : Nat) (sign : ℝ) (hd : List Nat) : ∀ (tl : List Nat) (s : Gst), (hd ++ tl).Nodup → ∀ ds, pick s.free hd tl = some ds →
    placeMulti c m sign hd tl s = some (ds.foldl (fun s d => c.place s d m sign) s) ∧ ds.Nodup ∧ (∀ d ∈ ds, d ∈ hd ++ tl ∧ s.free d = true) ∧ ds.length = hd.length := by
  induction hd with
  | nil =>
    intro tl s _ ds h
    simp only [pick, Option.some.injEq] at h
    subst h
    exact ⟨rfl, List.nodup_nil, fun d hd => by simp at hd, rfl⟩
  | cons d hd ih =>
    intro tl s hnd ds h
    rw [List.cons_append, List.nodup_cons] at hnd
    have step : ∀ (e : Nat) (tl' : List Nat), s.free e = true → (hd ++ tl').Nodup → e ∉ hd ++ tl' → (∀ a ∈ hd ++ tl', a ∈ d :: hd ++ tl) → e ∈ d :: hd ++ tl → (pick s.free hd tl').map (e :: ·) = some ds →
        placeMulti c m sign hd tl' (c.place s e m sign) = some (ds.foldl (fun s d => c.place s d m sign) s) ∧ ds.Nodup ∧ (∀ a ∈ ds, a ∈ d :: hd ++ tl ∧ s.free a = true) ∧ ds.length = (d :: hd).length := by
      intro e tl' he hnd' hne hsub hemem hp
      obtain ⟨ds', hp', rfl⟩ := Option.map_eq_some_iff.mp hp
      have hcong : pick (c.place s e m sign).free hd tl' = some ds' := by
        rw [← hp']
        apply pick_congr
        intro a ha
        simp only [Cfg.place]
        have hae : a ≠ e := fun h' => hne (h' ▸ ha)
        rw [if_neg hae]
      obtain ⟨k1, k2, k3, k4⟩ := ih tl' _ hnd' ds' hcong
      refine ⟨k1, List.nodup_cons.mpr ⟨fun hmem => hne (k3 e hmem).1, k2⟩, fun a ha => ?_, by simp [k4]⟩
      rcases List.mem_cons.mp ha with rfl | ha
      · exact ⟨hemem, he⟩
      · refine ⟨hsub a (k3 a ha).1, ?_⟩
        have := (k3 a ha).2
        simp only [Cfg.place] at this
        split at this
        · exact absurd this (by decide)
        · exact this
    cases hfd : s.free d with
    | true =>
      simp only [pick, placeMulti, hfd, if_true] at h ⊢
      exact step d tl hfd hnd.2 hnd.1 (fun a ha => by simp only [List.cons_append, List.mem_cons]; exact Or.inr ha) (by simp) h
    | false =>
      simp only [pick, placeMulti, hfd, Bool.false_eq_true, if_false] at h ⊢
      cases hx : tl.dropWhile fun e => !s.free e with
      | nil => rw [hx] at h; simp at h
      | cons e tl' =>
        rw [hx] at h
        simp only at h ⊢
        obtain ⟨he, _, hsub⟩ := dropWhile_filter s.free tl e tl' hx
        have hnd' : (hd ++ e :: tl').Nodup := List.Nodup.sublist (List.Sublist.append (List.Sublist.refl hd) hsub) hnd.2
        rw [List.nodup_middle, List.nodup_cons] at hnd'
        refine step e tl' he hnd'.2 hnd'.1 (fun a ha => ?_) ?_ h
        · rcases List.mem_append.mp ha with ha | ha
          · simp [ha]
          · have := hsub.subset (List.mem_cons_of_mem e ha); simp [this]
        · have := hsub.subset (List.mem_cons_self (a := e) (l := tl')); simp [this]

/-! ### The loop -/

/-- Placing several magnets keeps the invariant. -/
theorem placeList_inv (c : Cfg) (A : Nat → Nat → ℝ) (hc : c.Ok A) (m : Nat) (sign : ℝ) (hm : m < c.P) (hv : c.visit m = true) (hs : sign = 1 ∨ sign = -1) (ds : List Nat) : ∀ s, c.Inv s → ds.Nodup → (∀ d ∈ ds, d < c.N ∧ s.free d = true) →
    c.Inv (ds.foldl (fun s d => c.place s d m sign) s) ∧ (ds.foldl (fun s d => c.place s d m sign) s).count c.N = s.count c.N + ds.length ∧
    (∀ j, (ds.foldl (fun s d => c.place s d m sign) s).free j = (s.free j && !decide (j ∈ ds))) ∧ (∀ j, j ∉ ds → ∀ l, (ds.foldl (fun s d => c.place s d m sign) s).x j l = s.x j l) ∧
    ∀ d ∈ ds, (ds.foldl (fun s d => c.place s d m sign) s).kind d = m ∧ (ds.foldl (fun s d => c.place s d m sign) s).sgn d = sign := by
  induction ds with
  | nil => intro s h _ _; exact ⟨h, by simp, by simp, fun j _ l => rfl, fun d hd => by simp at hd⟩
  | cons d ds ih =>
    intro s h hnd hmem
    rw [List.nodup_cons] at hnd
    obtain ⟨hdN, hdf⟩ := hmem d (by simp)
    obtain ⟨h1, h2, h3, h4, h5⟩ := ih (c.place s d m sign) (place_inv c A hc s h d m sign hdN hm hdf hv hs) hnd.2 (fun a ha => by
      refine ⟨(hmem a (by simp [ha])).1, ?_⟩
      simp only [Cfg.place]
      have hae : a ≠ d := fun h' => hnd.1 (h' ▸ ha)
      rw [if_neg hae]
      exact (hmem a (by simp [ha])).2)
    simp only [List.foldl_cons]
    have hkeep : ∀ (ds : List Nat) (s : Gst), d ∉ ds → (ds.foldl (fun s d => c.place s d m sign) s).kind d = s.kind d ∧ (ds.foldl (fun s d => c.place s d m sign) s).sgn d = s.sgn d := by
      intro ds
      induction ds with
      | nil => intro s _; exact ⟨rfl, rfl⟩
      | cons a as ih' =>
        intro s hn
        rw [List.mem_cons, not_or] at hn
        obtain ⟨k1, k2⟩ := ih' (c.place s a m sign) hn.2
        simp only [List.foldl_cons, k1, k2]
        simp [Cfg.place, hn.1]
    refine ⟨h1, ?_, fun j => ?_, fun j hj l => ?_, fun a ha => ?_⟩
    · rw [h2, count_place c s d m sign hdN hdf, List.length_cons]; omega
    · rw [h3]
      simp only [Cfg.place, List.mem_cons]
      by_cases e : j = d
      · simp [e]
      · simp [e]
    · rw [List.mem_cons, not_or] at hj
      rw [h4 j hj.2 l]
      simp [Cfg.place, hj.1]
    · rcases List.mem_cons.mp ha with rfl | ha
      · obtain ⟨k1, k2⟩ := hkeep ds (c.place s a m sign) hnd.1
        rw [k1, k2]
        simp [Cfg.place]
      · exact h5 a ha

/-- The row of a dipole: the first `N` entries, and what comes after them. -/
theorem row_split (conn : Nat → Nat → Nat) (nadj j N : Nat) (hn : nadj ≤ N) (hN : N ≤ 2000) :
    ∃ tl1 tl2, rowTail conn nadj j = tl1 ++ tl2 ∧ rowHead conn nadj j ++ tl1 = (List.range N).map (conn j) := by
  refine ⟨(List.range (N - nadj)).map fun i => conn j (nadj + i), (List.range (2000 - N)).map fun i => conn j (nadj + (N - nadj + i)), ?_, ?_⟩
  · rw [rowTail, show 2000 - nadj = (N - nadj) + (2000 - N) by omega, List.range_add, List.map_append, List.map_map]
    rfl
  · rw [rowHead, show List.range N = List.range (nadj + (N - nadj)) by rw [Nat.add_sub_cancel' hn], List.range_add, List.map_append, List.map_map]
    rfl

theorem count_free (s : Gst) (N : Nat) : ((List.range N).filter s.free).length + s.count N = N := by
  have h1 : s.count N = ((List.range N).filter fun j => !s.free j).length := by
    rw [Gst.count, ← List.toFinset_card_of_nodup (List.Nodup.filter _ List.nodup_range)]
    congr 1
    ext j
    simp
  rw [h1]
  have := List.length_eq_length_filter_add (l := List.range N) s.free
  rw [List.length_range] at this
  exact this.symm

/-- The entries of a row that are available. -/
theorem row_free (xyz : Nat → Nat → ℝ) (N j : Nat) (hd : ∀ i < N, gridDist xyz j i < 1e10) (s : Gst) : (((List.range N).map (connect xyz N j)).filter s.free).length + s.count N = N ∧ ((List.range N).map (connect xyz N j)).Nodup := by
  obtain ⟨h1, h2, _, _⟩ := C79_nearest xyz N j N le_rfl hd
  have hnd : ((List.range N).map (connect xyz N j)).Nodup := by
    refine List.Nodup.map_on ?_ List.nodup_range
    intro a ha b hb e
    exact h2 a (List.mem_range.mp ha) b (List.mem_range.mp hb) e
  refine ⟨?_, hnd⟩
  have hperm : ((List.range N).map (connect xyz N j)).Perm (List.range N) := by
    refine (List.Nodup.subperm hnd ?_).perm_of_length_le (by simp)
    intro a ha
    obtain ⟨k, hk, rfl⟩ := List.mem_map.mp ha
    exact List.mem_range.mpr (h1 k (List.mem_range.mp hk))
  rw [(hperm.filter s.free).length_eq]
  exact count_free s N

/-- What one iteration does. -/
theorem iterM_spec (c : Cfg) (A : Nat → Nat → ℝ) (hc : c.Ok A) (hvis : ∃ m < c.P, c.visit m = true) (mmax : Nat → ℝ) (xyz : Nat → Nat → ℝ) (hdist : ∀ j < c.N, ∀ i < c.N, gridDist xyz j i < 1e10) (nadj : Nat) (hpos : 0 < nadj) (hN : c.N ≤ 2000)
    (hsm : nadj * (∑ i ∈ Finset.range c.G, (|c.b i| + ∑ j' ∈ Finset.range c.N, ∑ m' ∈ Finset.range c.P, |c.fld j' m' i|) ^ 2) + ∑ d ∈ Finset.range c.N, mmax d * mmax d < 1e50)
    (s : Gst) (h : c.Inv s) (hk : s.count c.N + nadj ≤ c.N) :
    ∃ group : Nat → List Nat, (∀ j < c.N, (group j).Nodup ∧ (group j).length = nadj ∧ (∀ d ∈ group j, d < c.N ∧ s.free d = true) ∧ (∀ d ∈ group j, ∀ e < c.N, s.free e = true → e ∉ group j → gridDist xyz j d ≤ gridDist xyz j e)) ∧
      ∃ j < c.N, ∃ m < c.P, ∃ sign : ℝ, (sign = 1 ∨ sign = -1) ∧ s.free j = true ∧ c.visit m = true ∧
        (∀ j' < c.N, ∀ m' < c.P, s.free j' = true → c.visit m' = true → ∀ sign' : ℝ, sign' = 1 ∨ sign' = -1 → groupValue c mmax s (group j) m sign ≤ groupValue c mmax s (group j') m' sign') ∧
        ∃ t, iterM c mmax (connect xyz c.N) nadj s = some t ∧ c.Inv t ∧ t.count c.N = s.count c.N + nadj ∧ (∀ j', t.free j' = (s.free j' && !decide (j' ∈ group j))) ∧ (∀ j', j' ∉ group j → ∀ l, t.x j' l = s.x j' l) ∧
          ∀ d ∈ group j, t.kind d = m ∧ t.sgn d = sign := by
  have hrow : ∀ j < c.N, ∃ ds, pick s.free (rowHead (connect xyz c.N) nadj j) (rowTail (connect xyz c.N) nadj j) = some ds ∧ ds.Nodup ∧ ds.length = nadj ∧ (∀ d ∈ ds, d < c.N ∧ s.free d = true) ∧
      (∀ d ∈ ds, ∀ e < c.N, s.free e = true → e ∉ ds → gridDist xyz j d ≤ gridDist xyz j e) ∧
      ∀ s1 : Gst, s1.free = s.free → ∀ m sign, placeMulti c m sign (rowHead (connect xyz c.N) nadj j) (rowTail (connect xyz c.N) nadj j) s1 = some (ds.foldl (fun s d => c.place s d m sign) s1) := by
    intro j hj
    obtain ⟨tl1, tl2, ht, hh⟩ := row_split (connect xyz c.N) nadj j c.N (by omega) hN
    obtain ⟨hlen, hnd⟩ := row_free xyz c.N j (hdist j hj) s
    have hhl : (rowHead (connect xyz c.N) nadj j).length = nadj := by simp [rowHead]
    obtain ⟨h1, h2, h3, _⟩ := C79_nearest xyz c.N j c.N le_rfl (hdist j hj)
    -- the search in the whole row stays in its first `N` entries
    obtain ⟨ds, e1, e2⟩ := pick_take s.free (rowHead (connect xyz c.N) nadj j) (tl1 ++ tl2) (by
      rw [← List.append_assoc, hh, hhl, List.filter_append, List.length_append]; omega)
    obtain ⟨ds', e1', e2'⟩ := pick_take s.free (rowHead (connect xyz c.N) nadj j) tl1 (by rw [hh, hhl]; omega)
    have heq : ∀ s1 : Gst, s1.free = s.free → ∀ m sign, placeMulti c m sign (rowHead (connect xyz c.N) nadj j) (rowTail (connect xyz c.N) nadj j) s1 = some (ds'.foldl (fun s d => c.place s d m sign) s1) := by
      intro s1 hs1 m sign
      rw [ht]
      apply placeMulti_append
      exact (placeMulti_pick c m sign _ tl1 s1 (by rw [hh]; exact hnd) ds' (by rw [hs1]; exact e1')).1
    obtain ⟨_, p2, p3, p4⟩ := placeMulti_pick c 0 1 _ tl1 s (by rw [hh]; exact hnd) ds' e1'
    -- the two searches agree
    have hsame : pick s.free (rowHead (connect xyz c.N) nadj j) (tl1 ++ tl2) = some ds' := by
      have : ∀ (hd tl tl2 : List Nat) (u : List Nat), pick s.free hd tl = some u → pick s.free hd (tl ++ tl2) = some u := by
        intro hd
        induction hd with
        | nil => intro tl tl2 u hu; exact hu
        | cons d hd ih =>
          intro tl tl2 u hu
          cases hfd : s.free d with
          | true =>
            simp only [pick, hfd, if_true] at hu ⊢
            obtain ⟨u', hu', rfl⟩ := Option.map_eq_some_iff.mp hu
            rw [ih tl tl2 u' hu']; rfl
          | false =>
            simp only [pick, hfd, Bool.false_eq_true, if_false] at hu ⊢
            cases hx : tl.dropWhile fun e => !s.free e with
            | nil => rw [hx] at hu; simp at hu
            | cons e tl' =>
              rw [hx] at hu
              rw [List.dropWhile_append, hx]
              simp only [List.isEmpty_cons, Bool.false_eq_true, if_false, List.cons_append] at hu ⊢
              obtain ⟨u', hu', rfl⟩ := Option.map_eq_some_iff.mp hu
              rw [ih tl' tl2 u' hu']; rfl
      exact this _ _ _ _ e1'
    refine ⟨ds', by rw [ht]; exact hsame, p2, by rw [p4, hhl], fun d hd => ?_, fun d hd e he hfe hne => ?_, heq⟩
    · have := p3 d hd
      rw [hh] at this
      obtain ⟨k, hk', rfl⟩ := List.mem_map.mp this.1
      exact ⟨h1 k (List.mem_range.mp hk'), this.2⟩
    · -- `ds'` is an initial part of the available entries, which are sorted
      rw [hh, hhl] at e2'
      have hsort : (((List.range c.N).map (connect xyz c.N j)).filter s.free).Pairwise fun a b => gridDist xyz j a ≤ gridDist xyz j b := by
        apply List.Pairwise.filter
        rw [List.pairwise_map]
        have hlt : (List.range c.N).Pairwise (· < ·) := List.pairwise_lt_range
        refine hlt.imp_of_mem ?_
        intro a b ha hb hab
        exact h3 b (List.mem_range.mp hb) a hab.le
      have hmem : ∀ a, a < c.N → s.free a = true → a ∈ ((List.range c.N).map (connect xyz c.N j)).filter s.free := by
        intro a ha hfa
        rw [List.mem_filter]
        refine ⟨?_, hfa⟩
        have hperm : ((List.range c.N).map (connect xyz c.N j)).Perm (List.range c.N) := by
          refine (List.Nodup.subperm hnd ?_).perm_of_length_le (by simp)
          intro a ha
          obtain ⟨k, hk, rfl⟩ := List.mem_map.mp ha
          exact List.mem_range.mpr (h1 k (List.mem_range.mp hk))
        exact hperm.mem_iff.mpr (List.mem_range.mpr ha)
      have hm := hmem e he hfe
      generalize ((List.range c.N).map (connect xyz c.N j)).filter s.free = L at *
      rw [← List.take_append_drop nadj L] at hm hsort
      rw [List.pairwise_append] at hsort
      have hdt := e2'.mem_iff.mp hd
      rcases List.mem_append.mp hm with hm | hm
      · exact absurd (e2'.mem_iff.mpr hm) hne
      · exact hsort.2.2 d hdt e hm
  choose group hg using fun j => show ∃ ds, j < c.N → pick s.free (rowHead (connect xyz c.N) nadj j) (rowTail (connect xyz c.N) nadj j) = some ds ∧ ds.Nodup ∧ ds.length = nadj ∧ (∀ d ∈ ds, d < c.N ∧ s.free d = true) ∧
      (∀ d ∈ ds, ∀ e < c.N, s.free e = true → e ∉ ds → gridDist xyz j d ≤ gridDist xyz j e) ∧
      ∀ s1 : Gst, s1.free = s.free → ∀ m sign, placeMulti c m sign (rowHead (connect xyz c.N) nadj j) (rowTail (connect xyz c.N) nadj j) s1 = some (ds.foldl (fun s d => c.place s d m sign) s1) from by
    by_cases hj : j < c.N
    · obtain ⟨ds, h⟩ := hrow j hj; exact ⟨ds, fun _ => h⟩
    · exact ⟨[], fun h => absurd h hj⟩
  refine ⟨group, fun j hj => ⟨(hg j hj).2.1, (hg j hj).2.2.1, (hg j hj).2.2.2.1, (hg j hj).2.2.2.2.1⟩, ?_⟩
  -- every candidate has a value below the marker
  have hval : ∀ j < c.N, ∀ m < c.P, ∀ sign : ℝ, (sign = 1 ∨ sign = -1) → groupValue c mmax s (group j) m sign < 1e50 := by
    intro j hj m hm sign hs
    obtain ⟨_, g2, g3, g4, _, _⟩ := hg j hj
    refine lt_of_le_of_lt ?_ hsm
    rw [groupValue]
    apply add_le_add
    · have : ∀ ds : List Nat, (∀ d ∈ ds, d < c.N ∧ s.free d = true) → (ds.map fun d => ∑ i ∈ Finset.range c.G, (s.r i + sign * c.fld d m i) * (s.r i + sign * c.fld d m i)).sum ≤
          ds.length * (∑ i ∈ Finset.range c.G, (|c.b i| + ∑ j' ∈ Finset.range c.N, ∑ m' ∈ Finset.range c.P, |c.fld j' m' i|) ^ 2) := by
        intro ds
        induction ds with
        | nil => intro _; simp
        | cons d ds ih =>
          intro hds
          have h1 := ih fun a ha => hds a (by simp [ha])
          have h2 : ∑ i ∈ Finset.range c.G, (s.r i + sign * c.fld d m i) * (s.r i + sign * c.fld d m i) ≤ ∑ i ∈ Finset.range c.G, (|c.b i| + ∑ j' ∈ Finset.range c.N, ∑ m' ∈ Finset.range c.P, |c.fld j' m' i|) ^ 2 := by
            refine Finset.sum_le_sum fun i _ => ?_
            have hb := resid_bound c s h d m (hds d (by simp)).1 hm (hds d (by simp)).2 sign hs i
            rw [← sq, ← sq_abs]
            exact pow_le_pow_left₀ (abs_nonneg _) hb 2
          simp only [List.map_cons, List.sum_cons, List.length_cons]
          push_cast
          linarith
      have := this (group j) g4
      rw [g3] at this
      exact this
    · have e : (List.map (fun d => mmax d * mmax d) (group j)).sum = ∑ d ∈ (group j).toFinset, mmax d * mmax d := (List.sum_toFinset _ g2).symm
      rw [e]
      apply Finset.sum_le_sum_of_subset_of_nonneg
      · intro d hd
        exact Finset.mem_range.mpr (g4 d (List.mem_toFinset.mp hd)).1
      · intro d _ _
        exact mul_self_nonneg _
  obtain ⟨j0, hj0, hf0⟩ := exists_free c s (by omega)
  obtain ⟨m0, hm0, hv0⟩ := hvis
  have hgd : ∀ j < c.N, (pick s.free (rowHead (connect xyz c.N) nadj j) (rowTail (connect xyz c.N) nadj j)).getD [] = group j := fun j hj => by rw [(hg j hj).1]; rfl
  obtain ⟨c1, c2, c3, c4, c5, c6⟩ := choice_spec c (fun j m sign => groupValue c mmax s ((pick s.free (rowHead (connect xyz c.N) nadj j) (rowTail (connect xyz c.N) nadj j)).getD []) m sign) s h.blocked
    ⟨j0, hj0, m0, hm0, hf0, hv0, by rw [hgd j0 hj0]; exact hval j0 hj0 m0 hm0 1 (Or.inl rfl)⟩
  set s1 := c.sweepWith (fun j m sign => groupValue c mmax s ((pick s.free (rowHead (connect xyz c.N) nadj j) (rowTail (connect xyz c.N) nadj j)).getD []) m sign) s with hs1
  set p := c.choice s1 with hp
  obtain ⟨_, g2, g3, g4, _, g6⟩ := hg p.1 c1
  have hinv1 : c.Inv s1 := ⟨sweep_blocked c _ s h.blocked, h.empty, h.full, h.resid⟩
  obtain ⟨k1, k2, k3, k4, k5⟩ := placeList_inv c A hc p.2.1 p.2.2 c2 c4 c5 (group p.1) s1 hinv1 g2 g4
  refine ⟨p.1, c1, p.2.1, c2, p.2.2, c5, c3, c4, fun j' hj' m' hm' hf' hv' sign' hs' => ?_, _, ?_, k1, ?_, k3, k4, k5⟩
  · have := c6 j' hj' m' hm' hf' hv' sign' hs'
    rw [hgd _ c1, hgd j' hj'] at this
    exact this
  · rw [iterM, if_neg]
    · exact g6 s1 rfl p.2.1 p.2.2
    · rintro ⟨j', hj', _, hn⟩
      rw [(hg j' hj').1] at hn
      exact absurd hn (by simp)
  · rw [k2, g3]; rfl

/-- The values of all the groups stay below the marker `1e50`. -/
def SmallM (N G : Nat) (A : Nat → Nat → ℝ) (b mmax : Nat → ℝ) (nadj : Nat) : Prop :=
  nadj * (∑ i ∈ Finset.range G, (|b i| + ∑ j ∈ Finset.range N, ∑ l ∈ Finset.range 3, |A (3 * j + l) i|) ^ 2) + ∑ d ∈ Finset.range N, mmax d * mmax d < 1e50

theorem runM_inv (N G : Nat) (A : Nat → Nat → ℝ) (b mmax : Nat → ℝ) (single : Option Nat) (hd : ∀ d, single = some d → d < 3) (xyz : Nat → Nat → ℝ) (hdist : ∀ j < N, ∀ i < N, gridDist xyz j i < 1e10) (nadj : Nat) (hpos : 0 < nadj) (hN : N ≤ 2000)
    (hsm : SmallM N G A b mmax nadj) (k : Nat) (hk : k * nadj ≤ N) :
    ∃ s, runM (baseline N G A b mmax single) mmax (connect xyz N) nadj k = some s ∧ (baseline N G A b mmax single).Inv s ∧ s.count N = k * nadj := by
  induction k with
  | zero => exact ⟨_, rfl, init_inv _, by simp [Gst.count, Cfg.init]⟩
  | succ k ih =>
    have hk' : k * nadj + nadj ≤ N := by rw [← Nat.succ_mul]; exact hk
    obtain ⟨s, h1, h2, h3⟩ := ih (by omega)
    obtain ⟨_, _, j, _, m, _, sign, _, _, _, _, t, ht, hi, hc, _⟩ := iterM_spec (baseline N G A b mmax single) A (baseline_ok N G A b mmax single) (baseline_vis N G A b mmax single hd) mmax xyz hdist nadj hpos hN hsm s h2
      (show s.count N + nadj ≤ N by omega)
    refine ⟨t, by rw [runM, h1]; exact ht, hi, ?_⟩
    have : t.count N = s.count N + nadj := hc
    rw [this, h3, Nat.succ_mul]

open Classical in
/-- **C82.** GPMO_multi, for every grid of at most 2000 dipoles and every number `K` of iterations with `K * Nadjacent ≤ N`: the search for available neighbours always succeeds, exactly `K * Nadjacent` dipoles carry a magnet, each of full
strength along one allowed axis, the others are zero, and the running residual is `A x - b`. -/
theorem C82_multi (N G : Nat) (A : Nat → Nat → ℝ) (b mmax : Nat → ℝ) (single : Option Nat) (hd : ∀ d, single = some d → d < 3) (xyz : Nat → Nat → ℝ) (hdist : ∀ j < N, ∀ i < N, gridDist xyz j i < 1e10) (nadj : Nat) (hpos : 0 < nadj) (hN : N ≤ 2000)
    (hsm : SmallM N G A b mmax nadj) (K : Nat) (hK : K * nadj ≤ N) :
    ∃ s, runM (baseline N G A b mmax single) mmax (connect xyz N) nadj K = some s ∧
      ((Finset.range N).filter fun j => ∃ l < 3, s.x j l ≠ 0).card = K * nadj ∧
      (∀ j, (∀ l, s.x j l = 0) ∨ ∃ l < 3, (∀ d, single = some d → l = d) ∧ (s.x j l = 1 ∨ s.x j l = -1) ∧ ∀ l', l' ≠ l → s.x j l' = 0) ∧
      (∀ i, s.r i = (∑ j ∈ Finset.range N, ∑ l ∈ Finset.range 3, A (3 * j + l) i * s.x j l) - b i) := by
  obtain ⟨s, h1, h2, h3⟩ := runM_inv N G A b mmax single hd xyz hdist nadj hpos hN hsm K hK
  refine ⟨s, h1, ?_, fun j => ?_, resid_x _ A (baseline_ok N G A b mmax single) _ h2⟩
  · rw [baseline_count N G A b mmax single s h2, h3]
  · cases hf : s.free j with
    | true => exact Or.inl (h2.empty j hf).1
    | false => exact Or.inr (baseline_full N G A b mmax single s h2 j hf)

/-- The sum that a candidate group is judged by: the misfits with each magnet of the group placed alone, plus the penalties. -/
noncomputable def separately (N G : Nat) (A : Nat → Nat → ℝ) (b mmax : Nat → ℝ) (x : Nat → Nat → ℝ) (group : List Nat) (m : Nat) (sign : ℝ) : ℝ :=
  (group.map fun d => misfit N G A b (put x d m sign)).sum + (group.map fun d => mmax d * mmax d).sum

theorem groupValue_eq (N G : Nat) (A : Nat → Nat → ℝ) (b mmax : Nat → ℝ) (single : Option Nat) (s : Gst) (h : (baseline N G A b mmax single).Inv s) (group : List Nat) (hg : ∀ d ∈ group, d < N ∧ s.free d = true) (m : Nat) (hm : m < 3) (hv : ∀ d, single = some d → m = d)
    (sign : ℝ) (hs : sign = 1 ∨ sign = -1) : groupValue (baseline N G A b mmax single) mmax s group m sign = separately N G A b mmax s.x group m sign := by
  rw [groupValue, separately]
  congr 2
  apply List.map_congr_left
  intro d hd
  have hvm := value_misfit (baseline N G A b mmax single) A (baseline_ok N G A b mmax single) s h d m sign (hg d hd).1 hm (hg d hd).2 ((baseline_visit N G A b mmax single m).mpr hv) hs
  have hx : ((baseline N G A b mmax single).place s d m sign).x = put s.x d m sign := by
    funext j' l'
    simp only [Cfg.place, put, baseline, beq_iff_eq]
    split
    · rename_i hc; rw [if_pos hc.2, mul_one]
    · rfl
  rw [hx, Cfg.value] at hvm
  have := add_right_cancel hvm
  exact this

/-- **C82.** An iteration of GPMO_multi places equal magnets on the `Nadjacent` available dipoles nearest to some available dipole and changes nothing else; the groups are compared by the sum of the misfits of their magnets placed separately. -/
theorem C82_group (N G : Nat) (A : Nat → Nat → ℝ) (b mmax : Nat → ℝ) (single : Option Nat) (hd : ∀ d, single = some d → d < 3) (xyz : Nat → Nat → ℝ) (hdist : ∀ j < N, ∀ i < N, gridDist xyz j i < 1e10) (nadj : Nat) (hpos : 0 < nadj) (hN : N ≤ 2000)
    (hsm : SmallM N G A b mmax nadj) (k : Nat) (hk : (k + 1) * nadj ≤ N) :
    ∃ s t, runM (baseline N G A b mmax single) mmax (connect xyz N) nadj k = some s ∧ runM (baseline N G A b mmax single) mmax (connect xyz N) nadj (k + 1) = some t ∧
      ∃ group : Nat → List Nat, (∀ j < N, (group j).Nodup ∧ (group j).length = nadj ∧ (∀ d ∈ group j, d < N ∧ ∀ l, s.x d l = 0) ∧ (∀ d ∈ group j, ∀ e < N, (∀ l, s.x e l = 0) → e ∉ group j → gridDist xyz j d ≤ gridDist xyz j e)) ∧
        ∃ j < N, ∃ m < 3, ∃ sign : ℝ, (sign = 1 ∨ sign = -1) ∧ (∀ d, single = some d → m = d) ∧ (∀ l, s.x j l = 0) ∧ (∀ d ∈ group j, ∀ l, t.x d l = if l = m then sign else 0) ∧ (∀ e, e ∉ group j → ∀ l, t.x e l = s.x e l) ∧
          ∀ j' < N, (∀ l, s.x j' l = 0) → ∀ m' < 3, (∀ d, single = some d → m' = d) → ∀ sign' : ℝ, sign' = 1 ∨ sign' = -1 → separately N G A b mmax s.x (group j) m sign ≤ separately N G A b mmax s.x (group j') m' sign' := by
  have hk' : k * nadj + nadj ≤ N := by rw [← Nat.succ_mul]; exact hk
  obtain ⟨s, h1, h2, h3⟩ := runM_inv N G A b mmax single hd xyz hdist nadj hpos hN hsm k (by omega)
  have hxf : ∀ e, (∀ l, s.x e l = 0) → s.free e = true := by
    intro e hx
    cases hf : s.free e with
    | true => rfl
    | false =>
      obtain ⟨l, _, _, h4, _⟩ := baseline_full N G A b mmax single s h2 e hf
      rw [hx] at h4; norm_num at h4
  obtain ⟨group, hg, j, hj, m, hm, sign, hs, hf, hv, hmin, t, ht, hi, hc, hfree, hx, hks⟩ := iterM_spec (baseline N G A b mmax single) A (baseline_ok N G A b mmax single) (baseline_vis N G A b mmax single hd) mmax xyz hdist nadj hpos hN hsm s h2
    (show s.count N + nadj ≤ N by omega)
  refine ⟨s, t, h1, by rw [runM, h1]; exact ht, group, fun j hj => ?_, j, hj, m, hm, sign, hs, (baseline_visit N G A b mmax single m).mp hv, (h2.empty j hf).1, fun d hdg l => ?_, hx, fun j' hj' hx' m' hm' hv' sign' hs' => ?_⟩
  · obtain ⟨g1, g2, g3, g4⟩ := hg j hj
    exact ⟨g1, g2, fun d hd => ⟨(g3 d hd).1, (h2.empty d (g3 d hd).2).1⟩, fun d hd e he hxe hne => g4 d hd e he (hxf e hxe) hne⟩
  · have hfd : t.free d = false := by rw [hfree]; simp [hdg]
    obtain ⟨_, _, _, _, k5⟩ := hi.full d hfd
    rw [k5, (hks d hdg).1, (hks d hdg).2, baseline_mom]
    split <;> simp
  · have hmv := (baseline_visit N G A b mmax single m).mp hv
    have := hmin j' hj' m' hm' (hxf j' hx') ((baseline_visit N G A b mmax single m').mpr hv') sign' hs'
    rw [groupValue_eq N G A b mmax single s h2 (group j) (hg j hj).2.2.1 m hm hmv sign hs, groupValue_eq N G A b mmax single s h2 (group j') (hg j' hj').2.2.1 m' hm' hv' sign' hs'] at this
    exact this

/-! ### What goes wrong -/

theorem placeMulti_count (c : Cfg) (m : Nat) (sign : ℝ) (hd : List Nat) : ∀ (tl : List Nat) (s t : Gst), (∀ d ∈ hd ++ tl, d < c.N) → placeMulti c m sign hd tl s = some t → t.count c.N = s.count c.N + hd.length := by
  induction hd with
  | nil => intro tl s t _ h; simp only [placeMulti, Option.some.injEq] at h; subst h; rfl
  | cons d hd ih =>
    intro tl s t hN h
    cases hfd : s.free d with
    | true =>
      simp only [placeMulti, hfd, if_true] at h
      rw [ih tl _ t (fun a ha => hN a (by rw [List.cons_append]; exact List.mem_cons_of_mem _ ha)) h, count_place c s d m sign (hN d (by simp)) hfd, List.length_cons]
      omega
    | false =>
      simp only [placeMulti, hfd, Bool.false_eq_true, if_false] at h
      cases hx : tl.dropWhile fun e => !s.free e with
      | nil => rw [hx] at h; simp at h
      | cons e tl' =>
        rw [hx] at h
        obtain ⟨he, _, hsub⟩ := dropWhile_filter s.free tl e tl' hx
        simp only at h
        rw [ih tl' _ t (fun a ha => ?_) h, count_place c s e m sign (hN e ?_) he, List.length_cons]
        · omega
        · have := hsub.subset (List.mem_cons_self (a := e) (l := tl')); simp [this]
        · apply hN
          rcases List.mem_append.mp ha with ha | ha
          · simp [ha]
          · have := hsub.subset (List.mem_cons_of_mem e ha); simp [this]

theorem connect_lt (xyz : Nat → Nat → ℝ) (N j k : Nat) (hN : 0 < N) : connect xyz N j k < N := (minElement_spec _ N hN).1

/-- **C82, violated.** `GPMO` only limits `K` to the number of dipoles (permanent_magnet_optimization.py L390-397), not `K * Nadjacent`: with two or more neighbours per iteration and `K = N`, for every problem, the search for
available neighbours reads past the 2000 columns of the table (or past the grid). -/
theorem C82_exhausted_violated (N G : Nat) (A : Nat → Nat → ℝ) (b mmax : Nat → ℝ) (single : Option Nat) (xyz : Nat → Nat → ℝ) (nadj : Nat) (hn : 2 ≤ nadj) (hN : 0 < N) :
    runM (baseline N G A b mmax single) mmax (connect xyz N) nadj N = none := by
  have key : ∀ k s, runM (baseline N G A b mmax single) mmax (connect xyz N) nadj k = some s → s.count N = k * nadj := by
    intro k
    induction k with
    | zero => intro s h; simp only [runM, Option.some.injEq] at h; subst h; simp [Gst.count, Cfg.init]
    | succ k ih =>
      intro s h
      rw [runM] at h
      obtain ⟨s', h1, h2⟩ := Option.bind_eq_some_iff.mp h
      rw [iterM] at h2
      split at h2
      · exact absurd h2 (by simp)
      · have hin : ∀ j, ∀ d ∈ rowHead (connect xyz N) nadj j ++ rowTail (connect xyz N) nadj j, d < (baseline N G A b mmax single).N := by
          intro j d hd
          rcases List.mem_append.mp hd with hd | hd
          · obtain ⟨i, _, rfl⟩ := List.mem_map.mp hd; exact connect_lt xyz N j i hN
          · obtain ⟨i, _, rfl⟩ := List.mem_map.mp hd; exact connect_lt xyz N j _ hN
        have := placeMulti_count _ _ _ _ _ _ _ (hin _) h2
        rw [rowHead, List.length_map, List.length_range] at this
        have h3 : s.count N = s'.count N + nadj := this
        rw [h3, ih s' h1, Nat.succ_mul]
  cases h : runM (baseline N G A b mmax single) mmax (connect xyz N) nadj N with
  | none => rfl
  | some s =>
    have h1 := key N s h
    have h2 := count_le s N
    rw [h1] at h2
    nlinarith

/-- Two pairs of dipoles, far from each other. -/
noncomputable def pairsXyz : Nat → Nat → ℝ := fun i l => if l = 0 then (if i = 0 then 0 else if i = 1 then 1 else if i = 2 then 10 else 11) else 0

/-- The magnets of the first pair contribute 1 each, those of the second 3/2. -/
noncomputable def pairsA : Nat → Nat → ℝ := fun q _ => if q = 0 ∨ q = 3 then 1 else if q = 6 ∨ q = 9 then 3 / 2 else 0

theorem pairs_dist (i j : Nat) : gridDist pairsXyz j i = |pairsXyz i 0 - pairsXyz j 0| := by
  have h : ∀ l, l ≠ 0 → pairsXyz i l - pairsXyz j l = 0 := by intro l hl; simp [pairsXyz, hl]
  rw [gridDist, h 1 (by norm_num), h 2 (by norm_num)]
  simp [Real.sqrt_mul_self_eq_abs]

theorem nodup_pair (L : List Nat) (h1 : L.Nodup) (h2 : L.length = 2) : ∃ a b, a ≠ b ∧ L = [a, b] := by
  match L, h2 with
  | [a, b], _ => exact ⟨a, b, by simpa using h1, rfl⟩

/-- **C82, violated.** The comment announces the dipole and neighbours that most minimize the least-squares term; the groups are compared by their magnets placed one at a time.  Here the first iteration takes a pair with misfit 1 although
the other pair, in the same direction, would bring the misfit to 0. -/
theorem C82_joint_violated : ∃ s, runM (baseline 4 1 pairsA (fun _ => 2) (fun _ => 0) none) (fun _ => 0) (connect pairsXyz 4) 2 1 = some s ∧
    misfit 4 1 pairsA (fun _ => 2) s.x = 1 ∧ misfit 4 1 pairsA (fun _ => 2) (put (put (fun _ _ => 0) 0 0 1) 1 0 1) = 0 := by
  have hdist : ∀ j < 4, ∀ i < 4, gridDist pairsXyz j i < 1e10 := by
    intro j hj i hi
    rw [pairs_dist]
    interval_cases i <;> interval_cases j <;> (simp only [pairsXyz]; norm_num)
  have hsm : SmallM 4 1 pairsA (fun _ => 2) (fun _ => 0) 2 := by
    simp only [SmallM, Finset.sum_range_succ, Finset.sum_range_zero, pairsA]
    norm_num
  obtain ⟨s, t, h1, h2, group, hg, j, hj, m, hm, sign, hs, _, hxj, hgx, hox, hmin⟩ := C82_group 4 1 pairsA (fun _ => 2) (fun _ => 0) none (fun d h => by simp at h) pairsXyz hdist 2 (by norm_num) (by norm_num) hsm 0 (by norm_num)
  have hs0 : s = (baseline 4 1 pairsA (fun _ => 2) (fun _ => 0) none).init := by
    simp only [runM, Option.some.injEq] at h1; exact h1.symm
  have hsx : s.x = fun _ _ => 0 := by rw [hs0]; rfl
  -- the group of a dipole is its pair
  have hpair : ∀ j < 4, ∀ d, d ∈ group j ↔ (d < 4 ∧ d / 2 = j / 2) := by
    intro j hj
    obtain ⟨g1, g2, g3, g4⟩ := hg j hj
    have hclose : ∀ d ∈ group j, d / 2 = j / 2 := by
      intro d hd
      by_contra hne
      -- one of the two dipoles of the pair of `j` is left out, and it is nearer
      have hd4 := (g3 d hd).1
      have : ∃ e < 4, e / 2 = j / 2 ∧ e ∉ group j := by
        by_contra hcon
        push Not at hcon
        have m1 := hcon (2 * (j / 2)) (by omega) (by omega)
        have m2 := hcon (2 * (j / 2) + 1) (by omega) (by omega)
        obtain ⟨a, b, hab, e⟩ := nodup_pair _ g1 g2
        rw [e] at m1 m2 hd
        simp only [List.mem_cons, List.not_mem_nil, or_false] at m1 m2 hd
        omega
      obtain ⟨e, he4, he, hnot⟩ := this
      have hle := g4 d hd e he4 (fun l => by rw [hsx]) hnot
      rw [pairs_dist, pairs_dist] at hle
      interval_cases j <;> interval_cases d <;> first | omega | (interval_cases e <;> first | omega | (simp only [pairsXyz] at hle; norm_num at hle))
    intro d
    constructor
    · intro hd; exact ⟨(g3 d hd).1, hclose d hd⟩
    · rintro ⟨hd4, hde⟩
      obtain ⟨a, b, hab, e⟩ := nodup_pair _ g1 g2
      have ha := hclose a (by rw [e]; simp)
      have hb := hclose b (by rw [e]; simp)
      rw [e]
      simp only [List.mem_cons, List.not_mem_nil, or_false]
      omega
  have hmis : ∀ d < 4, ∀ m < 3, ∀ sign : ℝ, misfit 4 1 pairsA (fun _ => 2) (put (fun _ _ => 0) d m sign) = (pairsA (3 * d + m) 0 * sign - 2) ^ 2 := by
    intro d hd m hm sign
    simp only [misfit, Finset.sum_range_one]
    congr 2
    rw [Finset.sum_eq_single d, Finset.sum_eq_single m]
    · simp [put]
    · intro l _ hl; simp [put, hl]
    · intro h; exact absurd (Finset.mem_range.mpr hm) h
    · intro a _ ha; simp [put, ha]
    · intro h; exact absurd (Finset.mem_range.mpr hd) h
  have hsep : ∀ j < 4, ∀ m < 3, ∀ sign : ℝ, separately 4 1 pairsA (fun _ => 2) (fun _ => 0) s.x (group j) m sign = (pairsA (3 * (2 * (j / 2)) + m) 0 * sign - 2) ^ 2 + (pairsA (3 * (2 * (j / 2) + 1) + m) 0 * sign - 2) ^ 2 := by
    intro j hj m hm sign
    obtain ⟨g1, g2, g3, _⟩ := hg j hj
    obtain ⟨a, b, hab, e⟩ := nodup_pair _ g1 g2
    have ha := (hpair j hj a).mp (by rw [e]; simp)
    have hb := (hpair j hj b).mp (by rw [e]; simp)
    rw [separately, e, hsx]
    simp only [List.map_cons, List.map_nil, List.sum_cons, List.sum_nil, mul_zero, add_zero]
    rw [hmis a ha.1 m hm, hmis b hb.1 m hm]
    rcases (show (a = 2 * (j / 2) ∧ b = 2 * (j / 2) + 1) ∨ (b = 2 * (j / 2) ∧ a = 2 * (j / 2) + 1) by omega) with ⟨e1, e2⟩ | ⟨e1, e2⟩
    · rw [e1, e2]
    · rw [e1, e2]; ring
  have hch : (j = 2 ∨ j = 3) ∧ m = 0 ∧ sign = 1 := by
    have h := hmin 2 (by norm_num) (fun l => by rw [hsx]) 0 (by norm_num) (fun d h => by simp at h) 1 (Or.inl rfl)
    rw [hsep 2 (by norm_num) 0 (by norm_num), hsep j hj m hm] at h
    simp only [pairsA] at h
    interval_cases j <;> interval_cases m <;> rcases hs with rfl | rfl <;> first | (exfalso; norm_num at h; done) | norm_num
  obtain ⟨hj2, rfl, rfl⟩ := hch
  have hjd : j / 2 = 1 := by omega
  have htx : t.x = fun d l => if (d = 2 ∨ d = 3) ∧ l = 0 then 1 else 0 := by
    funext d l
    by_cases hd : d ∈ group j
    · rw [hgx d hd l]
      have := (hpair j hj d).mp hd
      have hd' : d = 2 ∨ d = 3 := by omega
      simp [hd']
    · rw [hox d hd l, hsx]
      have : ¬ (d = 2 ∨ d = 3) := fun h => hd ((hpair j hj d).mpr (by omega))
      simp [this]
  refine ⟨t, h2, ?_, ?_⟩
  · rw [htx]
    simp only [misfit, Finset.sum_range_succ, Finset.sum_range_zero, pairsA]
    norm_num
  · simp only [misfit, Finset.sum_range_succ, Finset.sum_range_zero, pairsA, put]
    norm_num

end Simsopt.Magnets
