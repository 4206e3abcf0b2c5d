import Verif.Caches.ClassesSound
/-!
# Values computed afresh are the values of the specification
-/
namespace Simsopt.Caches
open Simsopt
open Simsopt.Graph (State Cfg Op DependsOn SameInputs MirrorInSync)
variable {V P X : Type} {M : Math V P X} {kind : Nat → Kind V} {g : State V} {p : P}

theorem asks_length : ∀ (cs : List (Nat × CurExpr V)),
    (cs.flatMap (fun c => [(c.1, Qty.gamma 0), (c.1, Qty.gamma 1)])).length = 2 * cs.length
  | [] => rfl
  | c :: cs => by
    simp only [List.flatMap_cons, List.length_append, List.length_cons, List.length_nil, asks_length cs]
    omega

theorem asks_get : ∀ (cs : List (Nat × CurExpr V)) (i : Nat) (h : i < cs.length),
    (cs.flatMap (fun c => [(c.1, Qty.gamma 0), (c.1, Qty.gamma 1)]))[2 * i]? = some (cs[i].1, .gamma 0) ∧
    (cs.flatMap (fun c => [(c.1, Qty.gamma 0), (c.1, Qty.gamma 1)]))[2 * i + 1]? = some (cs[i].1, .gamma 1)
  | c :: cs, 0, h => ⟨rfl, rfl⟩
  | c :: cs, i + 1, h => by
    obtain ⟨h1, h2⟩ := asks_get cs i (by simpa using h)
    have e1 : 2 * (i + 1) = (2 * i) + 1 + 1 := by omega
    simp only [List.flatMap_cons, List.cons_append, List.nil_append, e1, List.getElem?_cons_succ]
    exact ⟨h1, h2⟩

/-- The specification determines the value. -/
theorem Val.unique {o : Nat} {q : Qty} {x : X} (h : Val M kind g p o q x) : ∀ {x'}, Val M kind g p o q x' → x = x' := by
  induction h with
  | curve d hk =>
    intro x' h'
    cases h' with
    | curve _ hk' => rw [hk] at hk'; cases hk'; rfl
    | rotated hk' _ => rw [hk] at hk'; cases hk'
  | dcurve d hk =>
    intro x' h'
    cases h' with
    | dcurve _ hk' => rw [hk] at hk'; cases hk'; rfl
    | drotated hk' _ => rw [hk] at hk'; cases hk'
  | rotated hk _ ih =>
    intro x' h'
    cases h' with
    | curve _ hk' => rw [hk] at hk'; cases hk'
    | rotated hk' h2 => rw [hk] at hk'; cases hk'; rw [ih h2]
  | drotated hk _ ih =>
    intro x' h'
    cases h' with
    | dcurve _ hk' => rw [hk] at hk'; cases hk'
    | drotated hk' h2 => rw [hk] at hk'; cases hk'; rw [ih h2]
  | @geo o k xs hk hl _ ih =>
    intro x' h'
    cases h' with
    | @geo _ _ xs' _ hl' h2 =>
      have : xs = xs' := by
        apply List.ext_getElem (hl.trans hl'.symm)
        intro i h1 h3
        exact ih i (by omega) h1 (h2 i (by omega) h3)
      rw [this]
  | @coil o cs a i d x y hi hk _ _ _ ih1 ih2 =>
    intro x' h'
    cases h' with
    | @coil _ cs' _ _ _ x1 y1 hi' hk' _ hx hy =>
      rw [hk] at hk'; cases hk'
      rw [ih1 hx, ih2 hy]
  | @biotSavart o cs a d ks hk _ hl _ ih =>
    intro x' h'
    cases h' with
    | @biotSavart _ cs' _ _ ks' hk' _ hl' h2 =>
      rw [hk] at hk'; cases hk'
      have : ks = ks' := by
        apply List.ext_getElem (hl.trans hl'.symm)
        intro i h1 h3
        exact ih i h1 (h2 i h3)
      rw [this]
    | multiply hk' _ => rw [hk] at hk'; cases hk'
    | sum hk' _ _ => rw [hk] at hk'; cases hk'
  | multiply hk _ ih =>
    intro x' h'
    cases h' with
    | biotSavart hk' _ _ _ => rw [hk] at hk'; cases hk'
    | multiply hk' h2 => rw [hk] at hk'; cases hk'; rw [ih h2]
    | sum hk' _ _ => rw [hk] at hk'; cases hk'
  | @sum o fs a d xs hk hl _ ih =>
    intro x' h'
    cases h' with
    | biotSavart hk' _ _ _ => rw [hk] at hk'; cases hk'
    | multiply hk' h2 => rw [hk] at hk'; cases hk'
    | @sum _ fs' _ _ xs' hk' hl' h2 =>
      rw [hk] at hk'; cases hk'
      have : xs = xs' := by
        apply List.ext_getElem (hl.trans hl'.symm)
        intro i h1 h3
        exact ih i (by omega) h1 (h2 i (by omega) h3)
      rw [this]
  | @fld o k xs hk hl _ ih =>
    intro x' h'
    cases h' with
    | @fld _ _ xs' _ hl' h2 =>
      have : xs = xs' := by
        apply List.ext_getElem (hl.trans hl'.symm)
        intro i h1 h3
        exact ih i (by omega) h1 (h2 i (by omega) h3)
      rw [this]

theorem compute_val (hwk : WellKinded kind) (hl : Linked kind g) (hm : MirrorInSync g) {o : Nat} (ho : g.alive o = true)
    {cs : List (Nat × CurExpr V)} (hk : kind o = .biotSavart cs) {a : Pot} {d : Nat} (hd : d ≤ 2) {q : Qty} {l : List (Qty × X)} {x : X}
    (hr : RunW (Val M kind g p) (compute M (exts g) p cs a d) l) (hx : (q, x) ∈ l) : Val M kind g p o q x := by
  have hvals : compute M (exts g) p cs a d = compute M (dofsOf g) p cs a d := by
    apply compute_congr
    intro c hc u hu
    have hmem : u ∈ (kind o).uses := by rw [hk]; exact List.mem_flatMap.2 ⟨c, hc, List.mem_cons_of_mem _ hu⟩
    exact exts_eq hl hm ((hl o ho).1 u hmem).1 (Or.inr ((hwk.coil o cs hk c hc).2 u hu))
  rw [hvals] at hr
  simp only [compute] at hr
  rw [askAll_run] at hr
  obtain ⟨xs, hlen, hxs, hr⟩ := hr
  cases hr
  rw [asks_length] at hlen
  have hcoil : ∀ i (h : i < cs.length) e, e ≤ 2 →
      Val M kind g p o (.coil a i e) (M.ker a e p (pairs M.zero xs i).1 (pairs M.zero xs i).2) := by
    intro i h e he
    obtain ⟨g0, g1⟩ := asks_get cs i h
    have l0 : 2 * i < xs.length := by omega
    have l1 : 2 * i + 1 < xs.length := by omega
    have k0 := hxs (2 * i) (by rw [asks_length]; omega) l0
    have k1 := hxs (2 * i + 1) (by rw [asks_length]; omega) l1
    rw [List.getElem?_eq_getElem (by rw [asks_length]; omega)] at g0 g1
    simp only [Option.some.injEq] at g0 g1
    rw [g0] at k0
    rw [g1] at k1
    have e0 : (pairs M.zero xs i).1 = xs[2 * i] := by simp [pairs, List.getD, l0]
    have e1 : (pairs M.zero xs i).2 = xs[2 * i + 1] := by simp [pairs, List.getD, l1]
    rw [e0, e1]
    exact .coil h hk he k0 k1
  obtain ⟨q1, hq1, e⟩ := List.mem_map.1 hx
  cases e
  rcases mem_computeKeys.1 hq1 with ⟨e, he, rfl⟩ | ⟨i, e, he, hi, rfl⟩
  · have he2 : e ≤ 2 := Nat.le_trans he hd
    have h1 : computeVal M (dofsOf g) p cs xs (.pot a e) = M.lin ((cs.map (fun c => c.2.value M (dofsOf g))).zip
        ((List.range cs.length).map (fun i => M.ker a e p (pairs M.zero xs i).1 (pairs M.zero xs i).2))) := by
      simp only [computeVal]
      congr 1
      apply List.ext_getElem
      · simp
      · intro i h1 h2
        simp
    rw [h1]
    refine .biotSavart hk he2 (by simp) ?_
    intro i h
    simp only [List.length_map, List.length_range] at h
    simp only [List.getElem_map, List.getElem_range]
    exact hcoil i h e he2
  · have he2 : e ≤ 2 := Nat.le_trans he hd
    exact hcoil i hi e he2

/-- One step: implementations turn correct values into correct values. -/
theorem impl_val (hwk : WellKinded kind) (hl : Linked kind g) (hm : MirrorInSync g) {o : Nat} (ho : g.alive o = true) {q : Qty}
    {l : List (Qty × X)} {x : X} (hr : RunW (Val M kind g p) (impl M kind g p o q) l) (hx : (q, x) ∈ l) : Val M kind g p o q x := by
  have geoCase : ∀ k, ((∃ fam, kind o = .curve fam) ∨ ∃ b r, kind o = .rotated b r) →
      RunW (Val M kind g p) (askAll (k.inputs.map (fun q => (o, q))) (fun xs => .done [(.geo k, M.geo k xs)])) l →
      (Qty.geo k, x) ∈ l → Val M kind g p o (.geo k) x := by
    intro k hk hr hx
    rw [askAll_run] at hr
    obtain ⟨xs, h1, h2, hr⟩ := hr
    cases hr
    simp only [List.mem_singleton, Prod.mk.injEq, true_and] at hx
    subst hx
    refine .geo hk (by simpa using h1) ?_
    intro i h h'
    have := h2 i (by simpa using h) h'
    simpa using this
  have fldCase : ∀ k, (kind o).isField = true →
      RunW (Val M kind g p) (askAll (k.inputs.map (fun q => (o, q))) (fun xs => .done [(.fld k, M.fld k p xs)])) l →
      (Qty.fld k, x) ∈ l → Val M kind g p o (.fld k) x := by
    intro k hk hr hx
    rw [askAll_run] at hr
    obtain ⟨xs, h1, h2, hr⟩ := hr
    cases hr
    simp only [List.mem_singleton, Prod.mk.injEq, true_and] at hx
    subst hx
    refine .fld hk (by simpa using h1) ?_
    intro i h h'
    have := h2 i (by simpa using h) h'
    simpa using this
  have one : ∀ (b : Nat) (q' : Qty) (f : X → X), RunW (Val M kind g p) (askAll [(b, q')] (fun xs => .done [(q, f (xs.headD M.zero))])) l →
      ∃ y, Val M kind g p b q' y ∧ x = f y := by
    intro b q' f hr
    rw [askAll_run] at hr
    obtain ⟨xs, h1, h2, hr⟩ := hr
    cases hr
    simp only [List.mem_singleton, Prod.mk.injEq, true_and] at hx
    cases xs with
    | nil => simp at h1
    | cons y xs => exact ⟨y, h2 0 (by simp) (by simp), hx⟩
  cases hk : kind o with
  | other => simp only [impl, hk] at hr; cases hr
  | current => simp only [impl, hk] at hr; cases hr
  | curve fam =>
    cases q with
    | gamma d =>
      simp only [impl, hk] at hr; cases hr
      simp only [List.mem_singleton, Prod.mk.injEq, true_and] at hx
      subst hx
      rw [exts_eq hl hm ho (Or.inl ⟨fam, hk⟩)]
      exact .curve d hk
    | dgamma d =>
      simp only [impl, hk] at hr; cases hr
      simp only [List.mem_singleton, Prod.mk.injEq, true_and] at hx
      subst hx
      rw [exts_eq hl hm ho (Or.inl ⟨fam, hk⟩)]
      exact .dcurve d hk
    | geo k => simp only [impl, hk] at hr; exact geoCase k (Or.inl ⟨fam, hk⟩) hr hx
    | _ => simp only [impl, hk] at hr; cases hr
  | rotated b r =>
    cases q with
    | gamma d =>
      simp only [impl, hk] at hr
      obtain ⟨y, hy, rfl⟩ := one b _ (M.rot r) hr
      exact .rotated hk hy
    | dgamma d =>
      simp only [impl, hk] at hr
      obtain ⟨y, hy, rfl⟩ := one b _ (M.rotT r) hr
      exact .drotated hk hy
    | geo k => simp only [impl, hk] at hr; exact geoCase k (Or.inr ⟨b, r, hk⟩) hr hx
    | _ => simp only [impl, hk] at hr; cases hr
  | biotSavart cs =>
    cases q with
    | pot a d =>
      by_cases h : d ≤ 2
      · simp only [impl, hk, h, if_true] at hr
        exact compute_val hwk hl hm ho hk h hr hx
      · simp only [impl, hk, h, if_false] at hr; cases hr
    | coil a i d =>
      by_cases h : d ≤ 2 ∧ i < cs.length
      · simp only [impl, hk, h, and_self, if_true] at hr
        exact compute_val hwk hl hm ho hk h.1 hr hx
      · simp only [impl, hk, h, if_false] at hr; cases hr
    | fld k => simp only [impl, hk] at hr; exact fldCase k (by rw [hk]; rfl) hr hx
    | _ => simp only [impl, hk] at hr; cases hr
  | multiply c f =>
    cases q with
    | pot a d =>
      simp only [impl, hk] at hr
      obtain ⟨y, hy, rfl⟩ := one f _ (M.times c) hr
      exact .multiply hk hy
    | fld k => simp only [impl, hk] at hr; exact fldCase k (by rw [hk]; rfl) hr hx
    | _ => simp only [impl, hk] at hr; cases hr
  | sum fs =>
    cases q with
    | pot a d =>
      simp only [impl, hk] at hr
      rw [askAll_run] at hr
      obtain ⟨xs, h1, h2, hr⟩ := hr
      cases hr
      simp only [List.mem_singleton, Prod.mk.injEq, true_and] at hx
      subst hx
      refine .sum hk (by simpa using h1) ?_
      intro i h h'
      have := h2 i (by simpa using h) h'
      simpa using this
    | fld k => simp only [impl, hk] at hr; exact fldCase k (by rw [hk]; rfl) hr hx
    | _ => simp only [impl, hk] at hr; cases hr

/-- Values computed afresh are the values of the specification. -/
theorem fresh_val (hwk : WellKinded kind) (hl : Linked kind g) (hm : MirrorInSync g) {o : Nat} (ho : g.alive o = true)
    {q : Qty} {x : X} (h : Fresh (sys M kind) g p o q x) : Val M kind g p o q x := by
  obtain ⟨l, hr, hx⟩ := h
  have hc : ∀ o q, g.alive o = true → (impl M kind g p o q).Calls (fun o' => g.alive o' = true) := by
    intro o q ho
    rcases shape M kind g p o q with ⟨x, h, _⟩ | ⟨l, f, h, h1, _, _, _⟩ | ⟨cs, a, d, hk, h, _, _, _⟩ | ⟨h, _⟩
    · rw [h]; trivial
    · rw [h]
      refine askAll_calls _ _ ?_ (fun xs => trivial)
      intro a ha
      rcases h1 a ha with e | hu
      · rw [e]; exact ho
      · exact ((hl o ho).1 _ hu).1
    · rw [h]
      apply compute_calls
      intro c hc
      exact ((hl o ho).1 c.1 (by rw [hk]; exact List.mem_flatMap.2 ⟨c, hc, List.mem_cons_self⟩)).1
    · rw [h]; trivial
  have := Run.sat (S := sys M kind) (g := g) (p := p) (A := fun o => g.alive o = true) (T := Val M kind g p) hc
    (fun o q l x ho hr hx => impl_val hwk hl hm ho hr hx) hr (hc o q ho)
  exact impl_val hwk hl hm ho this hx

end Simsopt.Caches
