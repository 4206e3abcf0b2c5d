import Verif.Rcls.Rank
/-! # C93: free segments that form an island -/
namespace Simsopt.Rcls
open Matrix Simsopt.Wireframe

variable {μ : Type} [Fintype μ] {g : Grid}

/-- The coefficient of a segment in the constraint of a node between the symmetry planes: `1` where the segment starts, `-1` where it ends. -/
theorem inner_row (h2 : 2 ≤ g.N) (h1 : 1 ≤ g.h) {i j : Nat} (h0 : 0 < i) (hN : i < g.N) (hj : j < g.n) {s : Nat} (hs : s < g.nSeg) :
    contRow (g.connected i j) s = (if g.segStart s = g.node i j then 1 else 0) - (if g.segEnd s = g.node i j then 1 else 0) := by
  have hn : g.n = 2 * g.h := rfl
  have hsg : g.nSeg = g.nTor + g.nPol := rfl
  have hc : g.hasContinuity i j = true := by rw [Grid.cont_iff]; omega
  have ne : ∀ {a b : Nat}, b < g.n → (g.node a b = g.node i j) = (i = a ∧ j = b) := fun hb => propext
    ⟨fun e => by obtain ⟨x, y⟩ := Grid.node_inj hb hj e; exact ⟨x.symm, y.symm⟩, by rintro ⟨rfl, rfl⟩; rfl⟩
  obtain ⟨a, b, ha, hb, hst, ⟨hlt, haN, hen⟩ | ⟨hge, hen⟩⟩ := C83_segments h2 h1 s hs
  · have hk : (s : Int) = g.torKey a b := by
      have : s = g.node a b := by rw [← hst, Grid.segStart, if_pos hlt]
      rw [Grid.torKey_eq haN, this]; rfl
    rw [hk, Grid.row_tor h2 h1 hN.le hj hc haN hb, hst, hen]
    simp only [ne hb]
    rw [if_neg (show ¬ (a = 0 ∧ i = 0 ∧ j + b = g.n) by omega), if_neg (show ¬ (a = g.N - 1 ∧ i = g.N ∧ j + b = g.n) by omega)]
    ring
  · obtain ⟨a', b', hv, hp⟩ := Grid.polNo_surj h2 h1 (p := s - g.nTor) (by omega)
    have e : s = g.nTor + g.polNo a' b' := by omega
    have hst' : g.segStart s = g.node a' b' := by rw [e]; exact Grid.segStart_pol h2 h1 hv
    obtain ⟨rfl, rfl⟩ := Grid.node_inj hb hv.lt (hst.symm.trans hst')
    have hbm : (b + 1) % g.n < g.n := Nat.mod_lt _ (by omega)
    have hk : (s : Int) = g.polKey a b := by rw [Grid.polKey_eq h2 h1 hv, e]
    have nt : ∀ {c d : Nat}, c < g.N → d < g.n → (g.polKey a b = g.torKey c d) = False := fun hc hd => eq_false (Grid.tor_ne_pol h2 h1 hc hd hv).symm
    have pe : ∀ {c d : Nat}, g.HasPol c d → (g.polKey a b = g.polKey c d) = (a = c ∧ b = d) := fun hv' => propext (Grid.polKey_inj h2 h1 hv hv')
    have e1 : (g.connected i j).torOut = g.torKey i j := by simp [Grid.connected, hN, show i ≠ 0 by omega]
    have e2 : (g.connected i j).torIn = g.torKey (i - 1) j := by simp [Grid.connected, hN, show i ≠ 0 by omega]
    have e3 : (g.connected i j).polOut = g.polKey i j := by simp [Grid.connected, hN, show i ≠ 0 by omega]
    rw [hst, hen, hk]
    simp only [ne hb, ne hbm]
    by_cases hj0 : j = 0
    · have e4 : (g.connected i j).polIn = g.polKey i (g.n - 1) := by simp [Grid.connected, hN, show i ≠ 0 by omega, hj0]
      simp only [contRow, e1, e2, e3, e4, nt hN hj, nt (show i - 1 < g.N by omega) hj, pe (c := i) (d := j) (Or.inl ⟨h0, hN, hj⟩), pe (c := i) (d := g.n - 1) (Or.inl ⟨h0, hN, by omega⟩), false_or]
      by_cases hbn : b + 1 = g.n
      · rw [hbn, Nat.mod_self]
        split_ifs <;> first | (exfalso; omega) | norm_num
      · rw [Nat.mod_eq_of_lt (by omega)]
        split_ifs <;> first | (exfalso; omega) | norm_num
    · have e4 : (g.connected i j).polIn = g.polKey i (j - 1) := by simp [Grid.connected, hN, show i ≠ 0 by omega, hj0]
      simp only [contRow, e1, e2, e3, e4, nt hN hj, nt (show i - 1 < g.N by omega) hj, pe (c := i) (d := j) (Or.inl ⟨h0, hN, hj⟩), pe (c := i) (d := j - 1) (Or.inl ⟨h0, hN, by omega⟩), false_or]
      by_cases hbn : b + 1 = g.n
      · rw [hbn, Nat.mod_self]
        split_ifs <;> first | (exfalso; omega) | norm_num
      · rw [Nat.mod_eq_of_lt (by omega)]
        split_ifs <;> first | (exfalso; omega) | norm_num

/-- A sum that picks one name out of a list. -/
theorem sum_name (L : List Constraint) (hn : (L.map (·.name)).Nodup) (n : Name) (hm : ∃ c ∈ L, c.name = n) : ∑ i : Fin L.length, (if L[i].name = n then (1 : ℝ) else 0) = 1 := by
  obtain ⟨c, hc, hcn⟩ := hm
  obtain ⟨k, hk, rfl⟩ := List.mem_iff_getElem.mp hc
  rw [Finset.sum_eq_single ⟨k, hk⟩]
  · exact if_pos hcn
  · intro i _ hi
    refine if_neg fun e => hi (Fin.ext ?_)
    have : (L.map (·.name))[i.1]'(by rw [List.length_map]; exact i.2) = (L.map (·.name))[k]'(by rw [List.length_map]; exact hk) := by
      rw [List.getElem_map, List.getElem_map, hcn]; exact e
    exact (List.Nodup.getElem_inj_iff hn).mp this
  · intro h; exact absurd (Finset.mem_univ _) h

/-- **C93** If some of the free segments form an island, a set of nodes between the symmetry planes that no free segment leaves or enters, then the constraint matrix has dependent rows although "redundant" rows have been removed, and
`rcls_wireframe` (without `assume_no_crossings`) raises. -/
theorem C93_island (h2 : 2 ≤ g.N) (h1 : 1 ≤ g.h) {w : Wf} (hr : g.Reach w) (S : Nat → Prop)
    (hS : ∀ v, S v → ∃ i j, 0 < i ∧ i < g.N ∧ j < g.n ∧ v = g.node i j) (hclosed : ∀ s ∈ g.freeSegs (g.fresh w), S (g.segStart s) ↔ S (g.segEnd s)) (hne : ∃ s ∈ g.freeSegs (g.fresh w), S (g.segStart s)) :
    ¬ FullRank (consMat (g.matrices true true w)) ∧ ∀ (A : μ → Nat → ℝ) (b : μ → ℝ) (W : SegReg) (o : Out), ¬ Returns g A b W w o := by
  classical
  suffices hF : ¬ FullRank (consMat (g.matrices true true w)) from
    ⟨hF, fun A b W o ⟨_, q, _, _, hs, _⟩ => hF ((C91_full_rank q).mp hs.regular)⟩
  intro hF
  have hn : g.n = 2 * g.h := rfl
  obtain ⟨⟨hb, -⟩, -, -⟩ := (hr.inv h2 h1).fresh h2 h1
  have hlen : (g.matrices true true w).1.length = (kept g w).length := by rw [matrices_eq]; exact List.length_map ..
  have hget : ∀ i : Fin (g.matrices true true w).1.length, (g.matrices true true w).1[i].1 = ((kept g w)[i.1]'(hlen ▸ i.2)).row := by
    intro i
    show ((kept g w).map fun c => (c.row, c.const))[i.1].1 = _
    rw [List.getElem_map]
  have hnd : ((kept g w).map (·.name)).Nodup := hb.nodup.sublist (List.Sublist.map _ List.filter_sublist)
  let inS : Name → Prop := fun n => ∃ v, S v ∧ n = .cont v
  -- the rows of the active nodes of the island are there
  have active : ∀ s ∈ g.freeSegs (g.fresh w), ∀ v, S v → (v = g.segStart s ∨ v = g.segEnd s) → ∃ c ∈ kept g w, c.name = .cont v := by
    intro s hs v hv hse
    obtain ⟨i, j, h0, hN, hj, rfl⟩ := hS v hv
    have hc : g.hasContinuity i j = true := by rw [Grid.cont_iff]; omega
    obtain ⟨c, hc1, hc2⟩ := Wf.has_iff.mp (hb.cont i hN.le j hj hc)
    refine ⟨c, List.mem_filter.mpr ⟨hc1, ?_⟩, hc2⟩
    have hwf := hb.wf c hc1
    unfold Grid.WellFormed at hwf
    rw [hc2] at hwf
    have htype : c.type = .continuity := hwf.1
    rw [htype]
    simp only [CType.isSeg, Bool.and_false, Bool.or_false, Bool.true_and, Bool.not_eq_true', List.any_eq_false, List.mem_filter, decide_eq_true_eq, and_imp]
    intro v' hv' hz hname
    rw [hc2] at hname
    have hnn : g.node i j = g.node v'.1 v'.2 := by injection hname
    obtain ⟨m1, m2⟩ := Grid.mem_nodes.mp hv'
    obtain ⟨e1, e2⟩ := Grid.node_inj hj m2 hnn
    have hv'' : v' = (i, j) := Prod.ext e1.symm e2.symm
    subst hv''
    rw [Grid.nodeSum_eq h2 h1 _ hN.le hj, Grid.degree, List.countP_eq_zero] at hz
    -- the segment is listed at the node
    have hrow := inner_row h2 h1 h0 hN hj (free_lt g _ hs)
    have hne' : g.segStart s ≠ g.segEnd s := by
      obtain ⟨a, b, -, hb', hst, ⟨-, -, hen⟩ | ⟨-, hen⟩⟩ := C83_segments h2 h1 s (free_lt g _ hs)
      · intro e
        have := (Grid.node_inj hb' hb' (hst.symm.trans (e.trans hen))).1
        omega
      · intro e
        have := (Grid.node_inj hb' (Nat.mod_lt _ (by omega)) (hst.symm.trans (e.trans hen))).2
        by_cases hbn : b + 1 = g.n
        · rw [hbn, Nat.mod_self] at this; omega
        · rw [Nat.mod_eq_of_lt (by omega)] at this; omega
    have hnz : contRow (g.connected i j) s ≠ 0 := by
      rw [hrow]
      rcases hse with h | h
      · rw [if_pos h.symm, if_neg fun e => hne' (h.symm.trans e.symm)]; norm_num
      · rw [if_pos h.symm, if_neg fun e => hne' (e.trans h)]; norm_num
    have hmem : (s : Int) ∈ g.conn (i, j) := by
      by_contra hcon
      simp only [Grid.conn, List.mem_cons, List.not_mem_nil, or_false, not_or] at hcon
      exact hnz (by simp only [contRow]; rw [if_neg (by tauto), if_neg (by tauto)])
    have := hz s hmem
    simp only [Int.toNat_natCast, decide_eq_true_eq] at this
    exact this hs
  let z : Fin (g.matrices true true w).1.length → ℝ := fun i => if inS ((kept g w)[i.1]'(hlen ▸ i.2)).name then 1 else 0
  have hz : z = 0 := by
    refine hF z fun k => ?_
    have hs : (g.matrices true true w).2[k] ∈ g.freeSegs (g.fresh w) := List.getElem_mem _
    set s := (g.matrices true true w).2[k] with hsdef
    have hslt := free_lt g _ hs
    have hterm : ∀ i : Fin (g.matrices true true w).1.length, z i * consMat (g.matrices true true w) i k =
        (if S (g.segStart s) then (if ((kept g w)[i.1]'(hlen ▸ i.2)).name = .cont (g.segStart s) then 1 else 0) else 0) -
        (if S (g.segEnd s) then (if ((kept g w)[i.1]'(hlen ▸ i.2)).name = .cont (g.segEnd s) then 1 else 0) else 0) := by
      intro i
      have hcm : consMat (g.matrices true true w) i k = ((kept g w)[i.1]'(hlen ▸ i.2)).row s := by rw [← hget]; rfl
      rw [hcm]
      set c := (kept g w)[i.1]'(hlen ▸ i.2) with hcdef
      have hck : c ∈ kept g w := List.getElem_mem _
      show (if inS c.name then (1 : ℝ) else 0) * c.row s = _
      by_cases hin : inS c.name
      · obtain ⟨v, hv, hvn⟩ := hin
        obtain ⟨i', j', h0', hN', hj', rfl⟩ := hS v hv
        have hwf := hb.wf c (List.mem_filter.mp hck).1
        unfold Grid.WellFormed at hwf
        rw [hvn] at hwf
        obtain ⟨-, a, b, -, hb', -, hab, hrow, -⟩ := hwf
        obtain ⟨rfl, rfl⟩ := Grid.node_inj hj' hb' hab
        rw [if_pos ⟨_, hv, hvn⟩, one_mul, hrow, inner_row h2 h1 h0' hN' hj' hslt, hvn]
        simp only [Name.cont.injEq]
        congr 1
        · by_cases he : g.segStart s = g.node i' j'
          · rw [if_pos he, he, if_pos hv, if_pos rfl]
          · rw [if_neg he, if_neg (Ne.symm he)]; simp
        · by_cases he : g.segEnd s = g.node i' j'
          · rw [if_pos he, he, if_pos hv, if_pos rfl]
          · rw [if_neg he, if_neg (Ne.symm he)]; simp
      · rw [if_neg hin, zero_mul]
        have p1 : ∀ v, S v → c.name ≠ .cont v := fun v hv e => hin ⟨v, hv, e⟩
        have q1 : (if S (g.segStart s) then (if c.name = .cont (g.segStart s) then (1 : ℝ) else 0) else 0) = 0 := by
          by_cases h : S (g.segStart s)
          · rw [if_pos h, if_neg (p1 _ h)]
          · rw [if_neg h]
        have q2 : (if S (g.segEnd s) then (if c.name = .cont (g.segEnd s) then (1 : ℝ) else 0) else 0) = 0 := by
          by_cases h : S (g.segEnd s)
          · rw [if_pos h, if_neg (p1 _ h)]
          · rw [if_neg h]
        rw [q1, q2, sub_zero]
    rw [Finset.sum_congr rfl fun i _ => hterm i, Finset.sum_sub_distrib]
    have tot : ∀ v, (S v → ∃ c ∈ kept g w, c.name = .cont v) →
        ∑ i : Fin (g.matrices true true w).1.length, (if S v then (if ((kept g w)[i.1]'(hlen ▸ i.2)).name = .cont v then (1 : ℝ) else 0) else 0) = if S v then 1 else 0 := by
      intro v hv
      by_cases h : S v
      · simp only [if_pos h]
        exact (Fintype.sum_equiv (finCongr hlen) _ _ fun i => rfl).trans (sum_name _ hnd (.cont v) (hv h))
      · simp only [if_neg h, Finset.sum_const_zero]
    rw [tot _ fun h => active s hs _ h (Or.inl rfl), tot _ fun h => active s hs _ h (Or.inr rfl)]
    have := hclosed s hs
    by_cases h : S (g.segStart s)
    · rw [if_pos h, if_pos (this.mp h), sub_self]
    · rw [if_neg h, if_neg fun h' => h (this.mpr h'), sub_self]
  obtain ⟨s, hs, hv⟩ := hne
  obtain ⟨c, hc, hcn⟩ := active s hs _ hv (Or.inl rfl)
  obtain ⟨k, hk, rfl⟩ := List.mem_iff_getElem.mp hc
  have := congrFun hz ⟨k, by rw [hlen]; exact hk⟩
  have h1' : z ⟨k, by rw [hlen]; exact hk⟩ = 1 := if_pos ⟨_, hv, hcn⟩
  rw [h1'] at this
  norm_num at this

/-- A wireframe on which all the segments are constrained except those around one cell. -/
def ring : Grid := ⟨3, 2⟩

def others : List Int := ((List.range 24).filter fun s => !(s == 5 || s == 6 || s == 15 || s == 19)).map fun (s : Nat) => (s : Int)

/-- It has such an island. -/
example : ∃ w, ring.Reach w ∧ ∀ (A : Unit → Nat → ℝ) (b : Unit → ℝ) (W : SegReg) (o : Out), ¬ Returns ring A b W w o := by
  have h2 : 2 ≤ ring.N := by decide
  have h1 : 1 ≤ ring.h := by decide
  have hr0 : ring.Reach ring.init := Grid.Reach.init
  have hr : ring.Reach (ring.exec (.setConstrained others) ring.init).1 := Grid.Reach.step _ hr0
  have hex := (C85_set_constrained h2 h1 hr0 others (by decide) (by decide)).2
  obtain ⟨-, c2, c3, -⟩ := C84_closure h2 h1 hr
  have hsub : ∀ s ∈ ring.freeSegs (ring.fresh (ring.exec (.setConstrained others) ring.init).1), s = 5 ∨ s = 6 ∨ s = 15 ∨ s = 19 := by
    intro s hs
    obtain ⟨hlt, hne⟩ := (c2 (Classical.decPred _)).1 s hs
    have hno : (s : Int) ∉ others := fun h => hne ((hex s).mpr (Or.inr h))
    by_contra hcon
    have hlt' : s < 24 := hlt
    apply hno
    refine List.mem_map.mpr ⟨s, List.mem_filter.mpr ⟨List.mem_range.mpr hlt', ?_⟩, rfl⟩
    simp only [Bool.not_eq_true', Bool.or_eq_false_iff, beq_eq_false_iff_ne]
    omega
  have hdeg : ∀ i ≤ ring.N, ∀ j < ring.n, ring.degree (fun s => s = 5 ∨ s = 6 ∨ s = 15 ∨ s = 19) (i, j) ≠ 1 := by decide
  have hsup : ∀ s, s = 5 ∨ s = 6 ∨ s = 15 ∨ s = 19 → s ∈ ring.freeSegs (ring.fresh (ring.exec (.setConstrained others) ring.init).1) := by
    refine c3 (fun s => s = 5 ∨ s = 6 ∨ s = 15 ∨ s = 19) ?_
    intro dF
    refine ⟨fun s hs => ⟨?_, fun he => ?_⟩, fun i hi j hj => ?_⟩
    · have : ring.nSeg = 24 := by decide
      omega
    · rcases (hex s).mp he with h | h
      · exact Grid.init_explicit h2 h1 s h
      · rcases hs with rfl | rfl | rfl | rfl <;> exact absurd h (by decide)
    · convert hdeg i hi j hj
  refine ⟨_, hr, (C93_island h2 h1 hr (fun v => v = 5 ∨ v = 6 ∨ v = 9 ∨ v = 10) ?_ ?_ ?_).2⟩
  · rintro v (rfl | rfl | rfl | rfl)
    · exact ⟨1, 1, by decide⟩
    · exact ⟨1, 2, by decide⟩
    · exact ⟨2, 1, by decide⟩
    · exact ⟨2, 2, by decide⟩
  · intro s hs
    rcases hsub s hs with rfl | rfl | rfl | rfl <;> decide
  · exact ⟨5, hsup 5 (by decide), by decide⟩

end Simsopt.Rcls
