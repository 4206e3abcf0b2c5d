import Verif.Ports.Props
/-!
# C165: symmetric sets of ports
-/
namespace Simsopt.Ports
open Simsopt Coils

theorem turn_eq (phi : ℝ) (v : V3) : turn phi v = rotZ phi v := rfl

theorem dot_turn (phi : ℝ) (u v : V3) : dot (turn phi u) (turn phi v) = dot u v := by
  have e := Real.sin_sq_add_cos_sq phi
  simp only [dot, Geometry.inner, turn]
  linear_combination (u.1 * v.1 + u.2.1 * v.2.1) * e

theorem turn_sub (phi : ℝ) (u v : V3) : turn phi (u - v) = turn phi u - turn phi v := by
  unfold turn
  refine Prod.ext ?_ (Prod.ext ?_ ?_) <;> simp only [Prod.fst_sub, Prod.snd_sub] <;> ring
theorem turn_add (phi : ℝ) (u v : V3) : turn phi (u + v) = turn phi u + turn phi v := by
  unfold turn
  refine Prod.ext ?_ (Prod.ext ?_ ?_) <;> simp only [Prod.fst_add, Prod.snd_add] <;> ring
theorem turn_smul (phi r : ℝ) (u : V3) : turn phi (r • u) = r • turn phi u := by
  unfold turn
  refine Prod.ext ?_ (Prod.ext ?_ ?_) <;> simp only [Prod.smul_fst, Prod.smul_snd, smul_eq_mul] <;> ring

theorem dot_mirror (u v : V3) : dot (mirror u) (mirror v) = dot u v := by simp only [dot, Geometry.inner, mirror]; ring
theorem mirror_sub (u v : V3) : mirror (u - v) = mirror u - mirror v := by
  unfold mirror
  refine Prod.ext ?_ (Prod.ext ?_ ?_) <;> simp only [Prod.fst_sub, Prod.snd_sub] <;> ring
theorem mirror_add (u v : V3) : mirror (u + v) = mirror u + mirror v := by
  unfold mirror
  refine Prod.ext ?_ (Prod.ext ?_ ?_) <;> simp only [Prod.fst_add, Prod.snd_add] <;> ring
theorem mirror_smul (r : ℝ) (u : V3) : mirror (r • u) = r • mirror u := by
  unfold mirror
  refine Prod.ext ?_ (Prod.ext ?_ ?_) <;> simp only [Prod.smul_fst, Prod.smul_snd, smul_eq_mul] <;> ring
theorem mirror_mirror (u : V3) : mirror (mirror u) = u := by unfold mirror; simp

theorem turn_neg_turn (phi : ℝ) (v : V3) : turn (-phi) (turn phi v) = v := by
  rw [turn_eq, turn_eq, rotZ_add, neg_add_cancel, rotZ_zero]
theorem turn_turn_neg (phi : ℝ) (v : V3) : turn phi (turn (-phi) v) = v := by
  rw [turn_eq, turn_eq, rotZ_add, add_neg_cancel, rotZ_zero]

theorem height_turn (phi : ℝ) (a w : V3) : height (turn phi a) (turn phi w) = turn phi (height a w) := by
  have e := Real.sin_sq_add_cos_sq phi
  unfold height turn
  refine Prod.ext ?_ (Prod.ext ?_ ?_) <;> simp only
  · ring
  · ring
  · linear_combination (a.1 * w.2.1 - a.2.1 * w.1) * e

/-- The copy of a port under an isometry `F` that fixes the lengths. -/
def Circ.image (F : V3 → V3) (c : Circ) : Circ := { c with o := F c.o, a := F c.a }
def Rect.image (F : V3 → V3) (c : Rect) : Rect := { c with o := F c.o, a := F c.a, w := F c.w, h := F c.h }

theorem circ_collides_turn (c : Circ) (phi : ℝ) (p : V3) (gap : ℝ) : (c.image (turn phi)).collides p gap ↔ c.collides (turn (-phi) p) gap := by
  obtain ⟨q, rfl⟩ : ∃ q, p = turn phi q := ⟨turn (-phi) p, (turn_turn_neg phi p).symm⟩
  unfold Circ.collides Circ.image
  simp only [turn_neg_turn, ← turn_sub, dot_turn, ← turn_smul, ← turn_add]

theorem rect_collides_turn (c : Rect) (phi : ℝ) (p : V3) (gap : ℝ) : (c.image (turn phi)).collides p gap ↔ c.collides (turn (-phi) p) gap := by
  obtain ⟨q, rfl⟩ : ∃ q, p = turn phi q := ⟨turn (-phi) p, (turn_turn_neg phi p).symm⟩
  unfold Rect.collides Rect.image
  simp only [turn_neg_turn, ← turn_sub, dot_turn]

/-- The mirrored copy of the code: axis and width reversed, ends exchanged. -/
def Circ.flip (c : Circ) : Circ := { c with o := mirror c.o, a := -mirror c.a, l0 := -c.l1, l1 := -c.l0 }
def Rect.flip (c : Rect) : Rect := { c with o := mirror c.o, a := -mirror c.a, w := -mirror c.w, h := mirror c.h, l0 := -c.l1, l1 := -c.l0 }

theorem dot_neg_right (a b : V3) : dot a (-b) = -dot a b := by simp only [dot, Geometry.inner, Prod.fst_neg, Prod.snd_neg]; ring

theorem ends (a b g l : ℝ) : (min (-b) (-a) - g ≤ -l ∧ -l ≤ max (-b) (-a) + g) ↔ (min a b - g ≤ l ∧ l ≤ max a b + g) := by
  rw [min_neg_neg, max_neg_neg, max_comm b a, min_comm b a]
  constructor <;> rintro ⟨h1, h2⟩ <;> constructor <;> linarith

theorem circ_collides_flip (c : Circ) (p : V3) (gap : ℝ) : c.flip.collides p gap ↔ c.collides (mirror p) gap := by
  obtain ⟨q, rfl⟩ : ∃ q, p = mirror q := ⟨mirror p, (mirror_mirror p).symm⟩
  unfold Circ.collides Circ.flip
  simp only [mirror_mirror, ← mirror_sub, dot_neg_right, dot_mirror]
  rw [ends]
  have e : mirror q - (-dot (q - c.o) c.a • -mirror c.a + mirror c.o) = mirror (q - (dot (q - c.o) c.a • c.a + c.o)) := by
    rw [mirror_sub, mirror_add, mirror_smul]; module
  rw [e, dot_mirror]

theorem rect_collides_flip (c : Rect) (p : V3) (gap : ℝ) : c.flip.collides p gap ↔ c.collides (mirror p) gap := by
  obtain ⟨q, rfl⟩ : ∃ q, p = mirror q := ⟨mirror p, (mirror_mirror p).symm⟩
  unfold Rect.collides Rect.flip
  simp only [mirror_mirror, ← mirror_sub, dot_neg_right, dot_mirror, abs_neg]
  rw [ends]

/-! ### The constructors on copies -/

theorem circ_make_unit (o a : V3) (ir thick l0 l1 : ℝ) (ha : dot a a = 1) : Circ.make o a ir thick l0 l1 = .ok { o := o, a := a, ir := ir, thick := thick, l0 := l0, l1 := l1 } := by
  have h1 := norm_eq_one a ha
  unfold Circ.make
  rw [if_neg (by rw [h1]; norm_num), h1, inv_one, one_smul]

theorem rect_make_unit (o a w : V3) (iw ih thick l0 l1 : ℝ) (ha : dot a a = 1) (hw : dot w w = 1) (haw : dot a w = 0) :
    Rect.make o a w iw ih thick l0 l1 = .ok { o := o, a := a, w := w, h := height a w, iw := iw, ih := ih, thick := thick, l0 := l0, l1 := l1 } := by
  have h1 := norm_eq_one a ha
  have h2 := norm_eq_one w hw
  have h3 : dot (height a w) (height a w) = 1 := by
    have e : dot (height a w) (height a w) = dot a a * dot w w - dot a w ^ 2 := by simp only [dot, Geometry.inner, height]; ring
    rw [e, ha, hw, haw]; norm_num
  unfold Rect.make
  rw [if_neg (by rw [h1, h2]; norm_num), h1, h2, inv_one, one_smul, one_smul]
  simp only
  rw [if_neg (by rw [haw]; norm_num), if_pos (by rw [norm_eq_one _ h3]; norm_num)]

/-- A port as the constructors make it. -/
def Port.Good : Port → Prop
  | .circ c => c.Unit
  | .rect r => r.Frame

noncomputable def Port.turned (phi : ℝ) : Port → Port
  | .circ c => .circ (c.image (turn phi))
  | .rect r => .rect (r.image (turn phi))

def Port.flipped : Port → Port
  | .circ c => .circ c.flip
  | .rect r => .rect r.flip

theorem collides_turned (q : Port) (phi : ℝ) (p : V3) (gap : ℝ) : (q.turned phi).collides p gap ↔ q.collides (turn (-phi) p) gap := by
  cases q with
  | circ c => exact circ_collides_turn c phi p gap
  | rect c => exact rect_collides_turn c phi p gap

theorem collides_flipped (q : Port) (p : V3) (gap : ℝ) : q.flipped.collides p gap ↔ q.collides (mirror p) gap := by
  cases q with
  | circ c => exact circ_collides_flip c p gap
  | rect c => exact rect_collides_flip c p gap

theorem mapM_ok {α β : Type} (f : α → β) (g : α → Except Err β) (l : List α) (h : ∀ a, g a = .ok (f a)) : l.mapM g = .ok (l.map f) := by
  induction l with
  | nil => rfl
  | cons a l ih => rw [List.mapM_cons, h a, ih]; rfl

/-- What the loop adds for field period `i`. -/
noncomputable def added (q : Port) (nfp : ℕ) (stellsym : Bool) (i : ℕ) : List Port :=
  (if 0 < i then [q.turned (i * (2 * Real.pi / nfp))] else []) ++ (if stellsym then [(q.turned (i * (2 * Real.pi / nfp))).flipped] else [])

theorem good_turned (q : Port) (h : q.Good) (phi : ℝ) : (q.turned phi).Good := by
  cases q with
  | circ c => exact (dot_turn phi c.a c.a).trans h
  | rect c => exact ⟨(dot_turn _ _ _).trans h.a, (dot_turn _ _ _).trans h.w, (dot_turn _ _ _).trans h.aw, by show turn phi c.h = height (turn phi c.a) (turn phi c.w); rw [height_turn, h.h]⟩

theorem copies_eq (q : Port) (h : q.Good) (nfp : ℕ) (stellsym includeSelf : Bool) :
    q.copies nfp stellsym includeSelf = .ok ((if includeSelf then [q] else []) ++ ((List.range nfp).map (added q nfp stellsym)).flatten) := by
  cases q with
  | circ c =>
    unfold Port.copies Circ.copies
    simp only
    have e := mapM_ok (added (.circ c) nfp stellsym) (fun (i : ℕ) => (do
      let u ← if 0 < i then (Circ.make (turn (i * (2 * Real.pi / nfp)) c.o) (turn (i * (2 * Real.pi / nfp)) c.a) c.ir c.thick c.l0 c.l1).map fun p => [Port.circ p] else pure []
      let v ← if stellsym then (Circ.make ((turn (i * (2 * Real.pi / nfp)) c.o).1, -(turn (i * (2 * Real.pi / nfp)) c.o).2.1, -(turn (i * (2 * Real.pi / nfp)) c.o).2.2)
        (-(turn (i * (2 * Real.pi / nfp)) c.a).1, (turn (i * (2 * Real.pi / nfp)) c.a).2.1, (turn (i * (2 * Real.pi / nfp)) c.a).2.2) c.ir c.thick (-c.l1) (-c.l0)).map fun p => [Port.circ p] else pure []
      return u ++ v : Except Err (List Port))) (List.range nfp) ?_
    · rw [e]; cases includeSelf <;> rfl
    · intro i
      have hu : dot (turn (i * (2 * Real.pi / nfp)) c.a) (turn (i * (2 * Real.pi / nfp)) c.a) = 1 := (dot_turn _ _ _).trans h
      generalize ho : turn (i * (2 * Real.pi / nfp)) c.o = o
      generalize hax : turn (i * (2 * Real.pi / nfp)) c.a = a at *
      have hv : dot ((-a.1, a.2.1, a.2.2) : V3) (-a.1, a.2.1, a.2.2) = 1 := by rw [← hu]; simp only [dot, Geometry.inner]; ring
      rw [circ_make_unit _ _ _ _ _ _ hu, circ_make_unit _ _ _ _ _ _ hv]
      have e1 : (Port.circ c).turned (i * (2 * Real.pi / nfp)) = .circ { o := o, a := a, ir := c.ir, thick := c.thick, l0 := c.l0, l1 := c.l1 } := by
        simp only [Port.turned, Circ.image, ho, hax]
      have e2 : (Port.circ { o := o, a := a, ir := c.ir, thick := c.thick, l0 := c.l0, l1 := c.l1 }).flipped =
          .circ { o := (o.1, -o.2.1, -o.2.2), a := (-a.1, a.2.1, a.2.2), ir := c.ir, thick := c.thick, l0 := -c.l1, l1 := -c.l0 } := by
        unfold Port.flipped Circ.flip mirror; simp
      unfold added
      rw [e1, e2]
      by_cases hi : 0 < i
      · cases stellsym <;> simp [hi, Except.map, bind, Except.bind, pure, Except.pure]
      · cases stellsym <;> simp [hi, Except.map, bind, Except.bind, pure, Except.pure]
  | rect c =>
    unfold Port.copies Rect.copies
    simp only
    have e := mapM_ok (added (.rect c) nfp stellsym) (fun (i : ℕ) => (do
      let u ← if 0 < i then (Rect.make (turn (i * (2 * Real.pi / nfp)) c.o) (turn (i * (2 * Real.pi / nfp)) c.a) (turn (i * (2 * Real.pi / nfp)) c.w) c.iw c.ih c.thick c.l0 c.l1).map fun p => [Port.rect p] else pure []
      let v ← if stellsym then (Rect.make ((turn (i * (2 * Real.pi / nfp)) c.o).1, -(turn (i * (2 * Real.pi / nfp)) c.o).2.1, -(turn (i * (2 * Real.pi / nfp)) c.o).2.2)
        (-(turn (i * (2 * Real.pi / nfp)) c.a).1, (turn (i * (2 * Real.pi / nfp)) c.a).2.1, (turn (i * (2 * Real.pi / nfp)) c.a).2.2)
        (-(turn (i * (2 * Real.pi / nfp)) c.w).1, (turn (i * (2 * Real.pi / nfp)) c.w).2.1, (turn (i * (2 * Real.pi / nfp)) c.w).2.2) c.iw c.ih c.thick (-c.l1) (-c.l0)).map fun p => [Port.rect p] else pure []
      return u ++ v : Except Err (List Port))) (List.range nfp) ?_
    · rw [e]; cases includeSelf <;> rfl
    · intro i
      have hu : dot (turn (i * (2 * Real.pi / nfp)) c.a) (turn (i * (2 * Real.pi / nfp)) c.a) = 1 := (dot_turn _ _ _).trans h.a
      have hw : dot (turn (i * (2 * Real.pi / nfp)) c.w) (turn (i * (2 * Real.pi / nfp)) c.w) = 1 := (dot_turn _ _ _).trans h.w
      have huw : dot (turn (i * (2 * Real.pi / nfp)) c.a) (turn (i * (2 * Real.pi / nfp)) c.w) = 0 := (dot_turn _ _ _).trans h.aw
      have hh : turn (i * (2 * Real.pi / nfp)) c.h = height (turn (i * (2 * Real.pi / nfp)) c.a) (turn (i * (2 * Real.pi / nfp)) c.w) := by rw [height_turn, h.h]
      generalize ho : turn (i * (2 * Real.pi / nfp)) c.o = o
      generalize hax : turn (i * (2 * Real.pi / nfp)) c.a = a at *
      generalize hwx : turn (i * (2 * Real.pi / nfp)) c.w = w at *
      have hv : dot ((-a.1, a.2.1, a.2.2) : V3) (-a.1, a.2.1, a.2.2) = 1 := by rw [← hu]; simp only [dot, Geometry.inner]; ring
      have hv2 : dot ((-w.1, w.2.1, w.2.2) : V3) (-w.1, w.2.1, w.2.2) = 1 := by rw [← hw]; simp only [dot, Geometry.inner]; ring
      have hv3 : dot ((-a.1, a.2.1, a.2.2) : V3) (-w.1, w.2.1, w.2.2) = 0 := by rw [← huw]; simp only [dot, Geometry.inner]; ring
      rw [rect_make_unit _ _ _ _ _ _ _ _ hu hw huw, rect_make_unit _ _ _ _ _ _ _ _ hv hv2 hv3]
      have e1 : (Port.rect c).turned (i * (2 * Real.pi / nfp)) = .rect { o := o, a := a, w := w, h := height a w, iw := c.iw, ih := c.ih, thick := c.thick, l0 := c.l0, l1 := c.l1 } := by
        simp only [Port.turned, Rect.image, ho, hax, hwx, hh]
      have e3 : height (-a.1, a.2.1, a.2.2) (-w.1, w.2.1, w.2.2) = mirror (height a w) := by
        unfold height mirror; refine Prod.ext ?_ (Prod.ext ?_ ?_) <;> simp only <;> ring
      have e2 : (Port.rect { o := o, a := a, w := w, h := height a w, iw := c.iw, ih := c.ih, thick := c.thick, l0 := c.l0, l1 := c.l1 }).flipped =
          .rect { o := (o.1, -o.2.1, -o.2.2), a := (-a.1, a.2.1, a.2.2), w := (-w.1, w.2.1, w.2.2), h := height (-a.1, a.2.1, a.2.2) (-w.1, w.2.1, w.2.2), iw := c.iw, ih := c.ih, thick := c.thick, l0 := -c.l1, l1 := -c.l0 } := by
        rw [e3]
        unfold Port.flipped Rect.flip mirror; simp
      unfold added
      rw [e1, e2]
      by_cases hi : 0 < i
      · cases stellsym <;> simp [hi, Except.map, bind, Except.bind, pure, Except.pure]
      · cases stellsym <;> simp [hi, Except.map, bind, Except.bind, pure, Except.pure]

/-- **C165**: `repeat_via_symmetries` returns `nfp (1 + stell_sym)` ports, the first one the port itself; a point collides with one of them iff one of its images (rotated back by field periods, and with stellarator
symmetry mirrored) collides with the port. -/
theorem C165_copies (q : Port) (h : q.Good) (nfp : ℕ) (hn : 0 < nfp) (stellsym : Bool) : ∃ l, q.copies nfp stellsym true = .ok l ∧ l.length = nfp * (1 + stellsym.toNat) ∧ l.head? = some q ∧
    ∀ p gap, (∃ r ∈ l, r.collides p gap) ↔ ∃ k < nfp, q.collides (rotZ (-(2 * Real.pi * k / nfp)) p) gap ∨ (stellsym = true ∧ q.collides (rotZ (-(2 * Real.pi * k / nfp)) (mirror p)) gap) := by
  refine ⟨_, copies_eq q h nfp stellsym true, ?_, rfl, fun p gap => ?_⟩
  · simp only [if_true, List.length_append, List.length_singleton, List.length_flatten, List.map_map]
    obtain ⟨m, rfl⟩ : ∃ m, nfp = m + 1 := ⟨nfp - 1, by omega⟩
    have e : List.map (List.length ∘ added q (m + 1) stellsym) (List.range (m + 1)) = stellsym.toNat :: List.replicate m (1 + stellsym.toNat) := by
      rw [List.range_succ_eq_map, List.map_cons, List.map_map]
      congr 1
      · cases stellsym <;> simp [added]
      · rw [List.eq_replicate_iff]
        refine ⟨by simp, fun b hb => ?_⟩
        obtain ⟨i, -, rfl⟩ := List.mem_map.1 hb
        cases stellsym <;> simp [added]
    rw [e, List.sum_cons, List.sum_replicate, smul_eq_mul]
    ring
  · have hk : ∀ k : ℕ, -((k : ℝ) * (2 * Real.pi / nfp)) = -(2 * Real.pi * k / nfp) := fun k => by ring
    simp only [if_true, List.singleton_append, List.mem_cons, List.mem_flatten, List.mem_map, List.mem_range]
    constructor
    · rintro ⟨r, rfl | ⟨l, ⟨i, hi, rfl⟩, hr⟩, hc⟩
      · refine ⟨0, hn, Or.inl ?_⟩
        simpa [rotZ_zero] using hc
      · refine ⟨i, hi, ?_⟩
        unfold added at hr
        rw [List.mem_append] at hr
        rcases hr with hr | hr
        · by_cases h0 : 0 < i
          · rw [if_pos h0, List.mem_singleton] at hr
            subst hr
            rw [collides_turned, hk, turn_eq] at hc
            exact Or.inl hc
          · rw [if_neg h0] at hr; simp at hr
        · by_cases hs : stellsym = true
          · rw [if_pos hs, List.mem_singleton] at hr
            subst hr
            rw [collides_flipped, collides_turned, hk, turn_eq] at hc
            exact Or.inr ⟨hs, hc⟩
          · rw [if_neg hs] at hr; simp at hr
    · rintro ⟨k, hkn, hc | ⟨hs, hc⟩⟩
      · rcases Nat.eq_zero_or_pos k with rfl | h0
        · exact ⟨q, Or.inl rfl, by simpa [rotZ_zero] using hc⟩
        · refine ⟨q.turned (k * (2 * Real.pi / nfp)), Or.inr ⟨_, ⟨k, hkn, rfl⟩, ?_⟩, ?_⟩
          · unfold added; rw [if_pos h0]; simp
          · rw [collides_turned, hk, turn_eq]; exact hc
      · refine ⟨(q.turned (k * (2 * Real.pi / nfp))).flipped, Or.inr ⟨_, ⟨k, hkn, rfl⟩, ?_⟩, ?_⟩
        · unfold added; rw [if_pos hs]; simp
        · rw [collides_flipped, collides_turned, hk, turn_eq]; exact hc

theorem setCopies_eq (ports : List Port) (h : ∀ q ∈ ports, q.Good) (nfp : ℕ) (stellsym : Bool) (acc : List Port) :
    ports.foldlM (fun acc p => do
      let q ← p.copies nfp stellsym true
      return acc ++ q) acc = (.ok (acc ++ ports.flatMap fun q => [q] ++ ((List.range nfp).map (added q nfp stellsym)).flatten) : Except Err (List Port)) := by
  induction ports generalizing acc with
  | nil => simp [pure, Except.pure]
  | cons q ports ih =>
    rw [List.foldlM_cons, copies_eq q (h q (by simp))]
    simp only [bind, Except.bind, pure, Except.pure]
    have := ih (fun r hr => h r (by simp [hr])) (acc ++ ([q] ++ ((List.range nfp).map (added q nfp stellsym)).flatten))
    simp only [bind, Except.bind, pure, Except.pure] at this
    simp only [if_true, this, List.flatMap_cons, List.append_assoc]

/-- Rotation by one field period permutes the rotated images. -/
theorem shift_images (nfp : ℕ) (hn : 0 < nfp) (P : V3 → Prop) (p : V3) :
    (∃ k < nfp, P (rotZ (-(2 * Real.pi * ((k : ℕ) : ℝ) / nfp)) (rotZ (2 * Real.pi / nfp) p))) ↔ ∃ k < nfp, P (rotZ (-(2 * Real.pi * ((k : ℕ) : ℝ) / nfp)) p) := by
  have hn' : (nfp : ℝ) ≠ 0 := by exact_mod_cast hn.ne'
  constructor
  · rintro ⟨k, hk, h⟩
    rw [rotZ_add] at h
    rcases Nat.eq_zero_or_pos k with rfl | h0
    · refine ⟨nfp - 1, by omega, ?_⟩
      have e : -(2 * Real.pi * (((nfp - 1 : ℕ) : ℕ) : ℝ) / nfp) + 2 * Real.pi = -(2 * Real.pi * ((0 : ℕ) : ℝ) / nfp) + 2 * Real.pi / nfp := by
        rw [Nat.cast_sub (by omega)]; push_cast; field_simp; ring
      rw [← rotZ_turn, e]; exact h
    · refine ⟨k - 1, by omega, ?_⟩
      have e : -(2 * Real.pi * (((k - 1 : ℕ) : ℕ) : ℝ) / nfp) = -(2 * Real.pi * (k : ℝ) / nfp) + 2 * Real.pi / nfp := by
        rw [Nat.cast_sub (by omega)]; push_cast; field_simp; ring
      rw [e]; exact h
  · rintro ⟨k, hk, h⟩
    by_cases hl : k + 1 < nfp
    · refine ⟨k + 1, hl, ?_⟩
      rw [rotZ_add]
      have e : -(2 * Real.pi * ((k + 1 : ℕ) : ℝ) / nfp) + 2 * Real.pi / nfp = -(2 * Real.pi * (k : ℝ) / nfp) := by push_cast; field_simp; ring
      rw [e]; exact h
    · refine ⟨0, hn, ?_⟩
      rw [rotZ_add]
      obtain rfl : nfp = k + 1 := by omega
      have e : -(2 * Real.pi * ((0 : ℕ) : ℝ) / ((k + 1 : ℕ) : ℝ)) + 2 * Real.pi / ((k + 1 : ℕ) : ℝ) = -(2 * Real.pi * (k : ℝ) / ((k + 1 : ℕ) : ℝ)) + 2 * Real.pi := by
        push_cast at hn' ⊢; field_simp; ring
      rw [e, rotZ_turn]; exact h

theorem mirror_rotZ (phi : ℝ) (p : V3) : mirror (rotZ phi p) = rotZ (-phi) (mirror p) := by
  unfold mirror rotZ
  rw [Real.cos_neg, Real.sin_neg]
  refine Prod.ext ?_ (Prod.ext ?_ ?_) <;> simp only <;> ring

/-- The rotated images in the other direction are the same. -/
theorem reverse_images (nfp : ℕ) (hn : 0 < nfp) (P : V3 → Prop) (p : V3) :
    (∃ k < nfp, P (rotZ (2 * Real.pi * ((k : ℕ) : ℝ) / nfp) p)) ↔ ∃ k < nfp, P (rotZ (-(2 * Real.pi * ((k : ℕ) : ℝ) / nfp)) p) := by
  have hn' : (nfp : ℝ) ≠ 0 := by exact_mod_cast hn.ne'
  have key : ∀ k : ℕ, 0 < k → k < nfp → 2 * Real.pi * ((nfp - k : ℕ) : ℝ) / nfp = -(2 * Real.pi * (k : ℝ) / nfp) + 2 * Real.pi := by
    intro k _ h; rw [Nat.cast_sub h.le]; field_simp; ring
  constructor
  · rintro ⟨k, hk, h⟩
    rcases Nat.eq_zero_or_pos k with rfl | h0
    · exact ⟨0, hn, by simpa using h⟩
    · refine ⟨nfp - k, by omega, ?_⟩
      rw [key k h0 hk, neg_add, neg_neg, ← rotZ_turn, neg_add_cancel_right]; exact h
  · rintro ⟨k, hk, h⟩
    rcases Nat.eq_zero_or_pos k with rfl | h0
    · exact ⟨0, hn, by simpa using h⟩
    · refine ⟨nfp - k, by omega, ?_⟩
      rw [key k h0 hk, rotZ_turn]; exact h

/-- **C165**: the set returned by `PortSet.repeat_via_symmetries` has the symmetry: its collisions are the same at a point and at its rotation by a field period, and with stellarator symmetry at `(x, -y, -z)`; every point
that collides with a port of the original set collides with it. -/
theorem C165_symmetric (ports : List Port) (h : ∀ q ∈ ports, q.Good) (nfp : ℕ) (hn : 0 < nfp) (stellsym : Bool) : ∃ l, setCopies ports nfp stellsym = .ok l ∧ l.length = ports.length * (nfp * (1 + stellsym.toNat)) ∧
    (∀ p gap, (∃ r ∈ l, r.collides (rotZ (2 * Real.pi / nfp) p) gap) ↔ ∃ r ∈ l, r.collides p gap) ∧
    (stellsym = true → ∀ p gap, (∃ r ∈ l, r.collides (mirror p) gap) ↔ ∃ r ∈ l, r.collides p gap) ∧
    (∀ p gap, (∃ r ∈ ports, r.collides p gap) → ∃ r ∈ l, r.collides p gap) := by
  refine ⟨_, (setCopies_eq ports h nfp stellsym []).trans (by rw [List.nil_append]), ?_, ?_, ?_, ?_⟩
  · rw [List.length_flatMap]
    have e : (ports.map fun q => ([q] ++ ((List.range nfp).map (added q nfp stellsym)).flatten).length) = List.replicate ports.length (nfp * (1 + stellsym.toNat)) := by
      rw [List.eq_replicate_iff]
      refine ⟨by simp, fun b hb => ?_⟩
      obtain ⟨q, hq, rfl⟩ := List.mem_map.1 hb
      obtain ⟨l, hl, h2, -, -⟩ := C165_copies q (h q hq) nfp hn stellsym
      rw [copies_eq q (h q hq)] at hl
      cases hl
      simpa using h2
    rw [e, List.sum_replicate, smul_eq_mul]
  all_goals
    have main : ∀ p gap, (∃ r ∈ ports.flatMap (fun q => [q] ++ ((List.range nfp).map (added q nfp stellsym)).flatten), r.collides p gap) ↔
        ∃ q ∈ ports, (∃ k < nfp, q.collides (rotZ (-(2 * Real.pi * ((k : ℕ) : ℝ) / nfp)) p) gap) ∨ (stellsym = true ∧ ∃ k < nfp, q.collides (rotZ (-(2 * Real.pi * ((k : ℕ) : ℝ) / nfp)) (mirror p)) gap) := by
      intro p gap
      constructor
      · rintro ⟨r, hr, hc⟩
        obtain ⟨q, hq, hr⟩ := List.mem_flatMap.1 hr
        obtain ⟨l, hl, -, -, h2⟩ := C165_copies q (h q hq) nfp hn stellsym
        rw [copies_eq q (h q hq)] at hl
        cases hl
        obtain ⟨k, hk, h3 | ⟨hs, h3⟩⟩ := (h2 p gap).1 ⟨r, hr, hc⟩
        · exact ⟨q, hq, Or.inl ⟨k, hk, h3⟩⟩
        · exact ⟨q, hq, Or.inr ⟨hs, k, hk, h3⟩⟩
      · rintro ⟨q, hq, hc⟩
        obtain ⟨l, hl, -, -, h2⟩ := C165_copies q (h q hq) nfp hn stellsym
        rw [copies_eq q (h q hq)] at hl
        cases hl
        obtain ⟨r, hr, h4⟩ := (h2 p gap).2 (by
          rcases hc with ⟨k, hk, h3⟩ | ⟨hs, k, hk, h3⟩
          · exact ⟨k, hk, Or.inl h3⟩
          · exact ⟨k, hk, Or.inr ⟨hs, h3⟩⟩)
        exact ⟨r, List.mem_flatMap.2 ⟨q, hq, hr⟩, h4⟩
  · intro p gap
    rw [main, main]
    refine exists_congr fun q => and_congr_right fun _ => or_congr (shift_images nfp hn (fun v => q.collides v gap) p) (and_congr_right fun _ => ?_)
    rw [mirror_rotZ]
    have := shift_images nfp hn (fun v => q.collides v gap) (rotZ (-(2 * Real.pi / nfp)) (mirror p))
    rw [rotZ_add, add_neg_cancel, rotZ_zero] at this
    exact this.symm
  · intro hs p gap
    rw [main, main]
    refine exists_congr fun q => and_congr_right fun _ => ?_
    rw [mirror_mirror]
    simp only [hs, true_and]
    exact or_comm
  · rintro p gap ⟨r, hr, hc⟩
    rw [main]
    exact ⟨r, hr, Or.inl ⟨0, hn, by simpa [rotZ_zero] using hc⟩⟩

/-- A concrete case: the default ports. -/
example : ∃ c r, Circ.make (1, 0, 0) (1, 0, 0) 0.5 0.01 0 0.5 = .ok c ∧ Rect.make (1, 0, 0) (1, 0, 0) (0, 1, 0) 0.5 0.5 0.01 0 0.5 = .ok r ∧ (Port.circ c).Good ∧ (Port.rect r).Good := by
  have ha : dot ((1, 0, 0) : V3) (1, 0, 0) = 1 := by simp [dot, Geometry.inner]
  have hw : dot ((0, 1, 0) : V3) (0, 1, 0) = 1 := by simp [dot, Geometry.inner]
  have haw : dot ((1, 0, 0) : V3) (0, 1, 0) = 0 := by simp [dot, Geometry.inner]
  exact ⟨_, _, circ_make_unit _ _ _ _ _ _ ha, rect_make_unit _ _ _ _ _ _ _ _ ha hw haw, ha, ⟨ha, hw, haw, rfl⟩⟩

end Simsopt.Ports
