import Verif.Labels.Props
/-!
# C154: where QfmResidual and ToroidalFlux evaluate the field

Model of `invalidate_cache`/`recompute_bell`/`J` of `ToroidalFlux` (src/simsopt/geo/surfaceobjectives.py L209-225) and of `QfmResidual` (L567-589), with the bell that `Optimizable.__init__` rings on the new object
(src/simsopt/_core/optimizable.py L685) and the recursion of `set_recompute_flag` (L1112-1120) as a list of bells in any order and with repetitions.
The caches of fields, curves and surfaces are C39/C40; `set_points` of the field stores the given points (C40_after_set_points).  Real numbers instead of doubles; `idx` is a natural number.
-/
namespace Simsopt.Labels
open Simsopt Simsopt.Coils Simsopt.Surface
open Simsopt.Geometry hiding norm normal

/-- A surface: its arrays at the flat index `i*ntheta + j`, with the shape of `gamma`. -/
structure Surf where
  nphi : Nat
  ntheta : Nat
  S : Shape Nat

/-- The two classes. -/
inductive Kind where
  | qfm
  | flux (idx : Nat)

/-- An object: its class, its surface and its field. -/
structure Obj where
  kind : Kind
  surf : Nat
  field : Nat

/-- Row `idx` of a surface. -/
def rowShape (s : Surf) (idx : Nat) : Shape Nat where
  x := fun j => s.S.x (idx * s.ntheta + j)
  g1 := fun j => s.S.g1 (idx * s.ntheta + j)
  g2 := fun j => s.S.g2 (idx * s.ntheta + j)
  g11 := fun j => s.S.g11 (idx * s.ntheta + j)
  g12 := fun j => s.S.g12 (idx * s.ntheta + j)
  g22 := fun j => s.S.g22 (idx * s.ntheta + j)

/-- What `invalidate_cache` passes to `set_points`: `gamma().reshape((-1, 3))` (L575-577), or `gamma()[idx]` (L213-214). -/
def own (s : Surf) : Kind → List V3
  | .qfm => (List.range (s.nphi * s.ntheta)).map s.S.x
  | .flux idx => (List.range s.ntheta).map (rowShape s idx).x

/-- The state: surfaces, the functions `B` and `A` of the fields (their coils), the points set in each field, the objects. -/
structure PWorld where
  surf : Nat → Surf
  B : Nat → V3 → V3
  A : Nat → V3 → V3
  pts : Nat → List V3
  objs : List Obj

/-- One bell: `recompute_bell` → `invalidate_cache` → `biotsavart.set_points` (L209-214, L572-577). -/
def ring (w : PWorld) (o : Obj) : PWorld :=
  { w with pts := fun f => if f = o.field then own (w.surf o.surf) o.kind else w.pts f }

/-- The bells of a recursion. -/
def rings (w : PWorld) (l : List Obj) : PWorld := l.foldl ring w

/-- The value `J()` with the arrays of the field at the points set in it; `none` is the exception of `reshape` (L586) or of a product of arrays whose shapes cannot be broadcast (L224). -/
noncomputable def value (w : PWorld) (o : Obj) : Option ℝ :=
  let s := w.surf o.surf
  let p := w.pts o.field
  match o.kind with
  | .qfm => if p.length = s.nphi * s.ntheta then some (qfmJ (fun i => w.B o.field (p.getD i 0)) s.S (List.range (s.nphi * s.ntheta))) else none
  | .flux idx =>
    if p.length = s.ntheta then some (tfJ (fun j => w.A o.field (p.getD j 0)) (rowShape s idx) (List.range s.ntheta))
    else if p.length = 1 then some (tfJ (fun _ => w.A o.field (p.getD 0 0)) (rowShape s idx) (List.range s.ntheta))
    else if s.ntheta = 1 then some ((p.map fun q => inner (w.A o.field q) ((rowShape s idx).g2 0)).sum)
    else none

/-- What a user can do. -/
inductive PEvent where
  /-- construct an object; `before` are the objects rung by `append_parent` (L570) -/
  | create (o : Obj) (before : List Obj)
  /-- new dofs of surfaces or coils, followed by the bells -/
  | change (surf : Nat → Surf) (B A : Nat → V3 → V3) (bells : List Obj)
  /-- `set_points` on a field -/
  | setPoints (f : Nat) (p : List V3)

/-- The effect of an event. -/
def pstep (w : PWorld) : PEvent → PWorld
  | .create o before => ring { rings w before with objs := w.objs ++ [o] } o
  | .change surf B A bells => rings { w with surf := surf, B := B, A := A } bells
  | .setPoints f p => { w with pts := fun g => if g = f then p else w.pts g }

/-- What the dependency graph guarantees (C09): only existing objects are rung, and every object of a surface that changed is. -/
def Allowed (w : PWorld) : PEvent → Prop
  | .create _ before => ∀ o ∈ before, o ∈ w.objs
  | .change surf _ _ bells => (∀ o ∈ bells, o ∈ w.objs) ∧ ∀ o ∈ w.objs, surf o.surf ≠ w.surf o.surf → o ∈ bells
  | .setPoints _ _ => True

/-- The use that is safe: a new object comes with a field that no other object uses, and `set_points` is called only on other fields. -/
def Separate (w : PWorld) : PEvent → Prop
  | .create o _ => ∀ o' ∈ w.objs, o'.field ≠ o.field
  | .change _ _ _ _ => True
  | .setPoints f _ => ∀ o ∈ w.objs, o.field ≠ f

/-- Histories. -/
inductive PHist (w0 : PWorld) : PWorld → Prop where
  | start (h : w0.objs = []) : PHist w0 w0
  | step (w : PWorld) (e : PEvent) (h : PHist w0 w) (ha : Allowed w e) (hs : Separate w e) : PHist w0 (pstep w e)

theorem ring_surf (w : PWorld) (o : Obj) : (ring w o).surf = w.surf ∧ (ring w o).B = w.B ∧ (ring w o).A = w.A ∧ (ring w o).objs = w.objs := ⟨rfl, rfl, rfl, rfl⟩

theorem rings_surf (w : PWorld) (l : List Obj) : (rings w l).surf = w.surf ∧ (rings w l).B = w.B ∧ (rings w l).A = w.A ∧ (rings w l).objs = w.objs := by
  induction l generalizing w with
  | nil => exact ⟨rfl, rfl, rfl, rfl⟩
  | cons o l ih => exact ih (ring w o)

/-- Every object's field has the object's points. -/
def Present (w : PWorld) : Prop := (∀ o ∈ w.objs, ∀ o' ∈ w.objs, o.field = o'.field → o = o') ∧ ∀ o ∈ w.objs, w.pts o.field = own (w.surf o.surf) o.kind

theorem rings_pts (w : PWorld) (l : List Obj) (hl : ∀ o ∈ l, o ∈ w.objs) (hi : ∀ o ∈ w.objs, ∀ o' ∈ w.objs, o.field = o'.field → o = o') (o : Obj) (ho : o ∈ w.objs)
    (h : o ∈ l ∨ w.pts o.field = own (w.surf o.surf) o.kind) : (rings w l).pts o.field = own (w.surf o.surf) o.kind := by
  induction l generalizing w with
  | nil => simpa [rings] using h
  | cons a l ih =>
    have h1 : (rings (ring w a) l).pts o.field = own ((ring w a).surf o.surf) o.kind := by
      refine ih (ring w a) (fun b hb => hl b (List.mem_cons_of_mem _ hb)) hi ho ?_
      by_cases hf : o.field = a.field
      · right
        have : o = a := hi o ho a (hl a List.mem_cons_self) hf
        subst this
        simp [ring]
      · rcases h with h | h
        · rcases List.mem_cons.mp h with h | h
          · exact absurd (by rw [h]) hf
          · exact Or.inl h
        · right; simpa [ring, hf] using h
    exact h1

theorem present_hist (w0 w : PWorld) (h : PHist w0 w) : Present w := by
  induction h with
  | start h => constructor <;> simp [h]
  | step w e _ ha hs ih =>
    obtain ⟨hi, hp⟩ := ih
    cases e with
    | create o before =>
      have ho : (pstep w (.create o before)).objs = w.objs ++ [o] := by simp [pstep, ring]
      have hsf : (pstep w (.create o before)).surf = w.surf := by simp [pstep, ring, (rings_surf w before).1]
      constructor
      · rw [ho]
        intro a ha' b hb hf
        rcases List.mem_append.mp ha' with ha' | ha' <;> rcases List.mem_append.mp hb with hb | hb
        · exact hi a ha' b hb hf
        · rw [List.mem_singleton.mp hb] at hf; exact absurd hf (hs a ha')
        · rw [List.mem_singleton.mp ha'] at hf; exact absurd hf.symm (hs b hb)
        · rw [List.mem_singleton.mp ha', List.mem_singleton.mp hb]
      · rw [ho, hsf]
        intro a ha'
        rcases List.mem_append.mp ha' with ha' | ha'
        · have hne : a.field ≠ o.field := hs a ha'
          have := rings_pts w before ha hi a ha' (Or.inr (hp a ha'))
          simpa [pstep, ring, hne] using this
        · rw [List.mem_singleton.mp ha']
          simp [pstep, ring, (rings_surf w before).1]
    | change surf B A bells =>
      have hr := rings_surf { w with surf := surf, B := B, A := A } bells
      refine ⟨by simp only [pstep, hr.2.2.2]; exact hi, ?_⟩
      simp only [pstep, hr.2.2.2, hr.1]
      intro o ho
      refine rings_pts { w with surf := surf, B := B, A := A } bells ha.1 hi o ho ?_
      by_cases hc : surf o.surf = w.surf o.surf
      · right; simp only [hc]; exact hp o ho
      · exact Or.inl (ha.2 o ho hc)
    | setPoints f p =>
      refine ⟨hi, ?_⟩
      intro o ho
      have : o.field ≠ f := hs o ho
      simp only [pstep, this, if_false]
      exact hp o ho

theorem getD_range_map (g : Nat → V3) (n i : Nat) (h : i < n) : ((List.range n).map g).getD i 0 = g i := by
  simp [List.getD_eq_getElem?_getD, h]

theorem qfmJ_congr (B B' : Nat → V3) (S : Shape Nat) (pts : List Nat) (h : ∀ p ∈ pts, B p = B' p) : qfmJ B S pts = qfmJ B' S pts := by
  simp only [qfmJ]
  congr 2 <;> · apply List.map_congr_left; intro p hp; rw [h p hp]

theorem tfJ_congr (A A' : Nat → V3) (S : Shape Nat) (pts : List Nat) (h : ∀ p ∈ pts, A p = A' p) : tfJ A S pts = tfJ A' S pts := by
  simp only [tfJ]
  congr 2; apply List.map_congr_left; intro p hp; rw [h p hp]

/-- **C154.** In every state reached by constructing objects on fields of their own, changing surfaces and coils, and setting the points of other fields, `J()` does not raise and is the formula of C152 or C150
with the present field at the present points of the object's own surface, however the bells were ordered; from its construction on. -/
theorem C154_present (w0 w : PWorld) (h : PHist w0 w) (o : Obj) (ho : o ∈ w.objs) :
    value w o = some (match o.kind with
      | .qfm => qfmJ (fun p => w.B o.field ((w.surf o.surf).S.x p)) (w.surf o.surf).S (List.range ((w.surf o.surf).nphi * (w.surf o.surf).ntheta))
      | .flux idx => tfJ (fun j => w.A o.field ((rowShape (w.surf o.surf) idx).x j)) (rowShape (w.surf o.surf) idx) (List.range (w.surf o.surf).ntheta)) := by
  have hp := (present_hist w0 w h).2 o ho
  simp only [value, hp]
  cases hk : o.kind with
  | qfm =>
    simp only [own, List.length_map, List.length_range, if_true]
    congr 1
    exact qfmJ_congr _ _ _ _ fun p hp => by simp only [getD_range_map _ _ _ (List.mem_range.mp hp)]
  | flux idx =>
    simp only [own, List.length_map, List.length_range, if_true]
    congr 1
    exact tfJ_congr _ _ _ _ fun p hp => by simp only [getD_range_map _ _ _ (List.mem_range.mp hp)]

/-- **C154, violated.** A `QfmResidual` and a `ToroidalFlux` of one surface (at least 2 × 2 points) and one field: whatever happened before and however the bells were ordered, at least one of the two raises. -/
theorem C154_shared_violated (w : PWorld) (s f idx : Nat) (h1 : 2 ≤ (w.surf s).nphi) (h2 : 2 ≤ (w.surf s).ntheta) :
    value w ⟨.qfm, s, f⟩ = none ∨ value w ⟨.flux idx, s, f⟩ = none := by
  simp only [value]
  by_cases hq : (w.pts f).length = (w.surf s).nphi * (w.surf s).ntheta
  · right
    have hn : (w.surf s).ntheta < (w.surf s).nphi * (w.surf s).ntheta := by nlinarith
    rw [if_neg (by omega), if_neg (by omega), if_neg (by omega)]
  · left; rw [if_neg hq]

/-- **C154, violated.** Two objects of one class that share a field: when their surfaces have different points, at least one is evaluated off its surface, in every state. -/
theorem C154_two_surfaces_violated (w : PWorld) (o o' : Obj) (hf : o.field = o'.field) (hd : own (w.surf o.surf) o.kind ≠ own (w.surf o'.surf) o'.kind) :
    w.pts o.field ≠ own (w.surf o.surf) o.kind ∨ w.pts o'.field ≠ own (w.surf o'.surf) o'.kind := by
  by_contra hc
  push Not at hc
  exact hd (by rw [← hc.1, ← hc.2, hf])

/-- A surface with two points `(a, 0, 0)`, `(a, 1, 0)`, area elements along `z`. -/
def twoPts (a : ℝ) : Surf where
  nphi := 2
  ntheta := 1
  S := { x := fun i => (a, (i : ℝ), 0), g1 := fun _ => (1, 0, 0), g2 := fun _ => (0, 1, 0), g11 := fun _ => 0, g12 := fun _ => 0, g22 := fun _ => 0 }

/-- The field `B(x) = (0, x, 1)` (any function will do). -/
def aField (q : V3) : V3 := (0, q.1, 1)

/-- **C154, violated, silently.** Two `QfmResidual`s of two surfaces with one field: after the second is constructed the first returns, without an exception, a value that is not the residual of its surface. -/
theorem C154_silent_violated : ∃ (w0 : PWorld) (o o' : Obj) (v : ℝ), w0.objs = [] ∧
    value (pstep (pstep w0 (.create o [])) (.create o' [])) o = some v ∧
    v ≠ qfmJ (fun p => w0.B o.field ((w0.surf o.surf).S.x p)) (w0.surf o.surf).S (List.range ((w0.surf o.surf).nphi * (w0.surf o.surf).ntheta)) := by
  refine ⟨⟨fun i => if i = 0 then twoPts 1 else twoPts 2, fun _ => aField, fun _ => aField, fun _ => [], []⟩, ⟨.qfm, 0, 0⟩, ⟨.qfm, 1, 0⟩, 1 / 5, rfl, ?_, ?_⟩
  · simp [value, pstep, ring, rings, own, twoPts, List.range_succ, qfmJ, aField, normal, len, inner]
    norm_num
  · simp [twoPts, List.range_succ, qfmJ, aField, normal, len, inner]
    norm_num

/-- A history that meets the hypotheses of `C154_present`: an object of each class, each with its field; then the surface changes, the flux rung first. -/
example : ∃ (w0 w : PWorld), PHist w0 w ∧ w.objs = [⟨.qfm, 0, 0⟩, ⟨.flux 1, 0, 1⟩] ∧ w.surf 0 = twoPts 2 ∧ w0.surf 0 = twoPts 1 := by
  let w0 : PWorld := ⟨fun _ => twoPts 1, fun _ => aField, fun _ => aField, fun _ => [], []⟩
  let o : Obj := ⟨.qfm, 0, 0⟩
  let o' : Obj := ⟨.flux 1, 0, 1⟩
  have h1 := PHist.step (w0 := w0) w0 (.create o []) (.start rfl) (by intro a ha; simp at ha) (by intro a ha; simp [w0] at ha)
  have h2 := PHist.step _ (.create o' []) h1 (by intro a ha; simp at ha) (by intro a ha; simp [pstep, ring, rings, w0] at ha; rw [ha]; simp [o, o'])
  have h3 := PHist.step _ (.change (fun _ => twoPts 2) (fun _ => aField) (fun _ => aField) [o', o]) h2
    ⟨by intro a ha; simp [pstep, ring, rings, w0]; simp at ha; tauto, by intro a ha _; simp [pstep, ring, rings, w0] at ha; simp; tauto⟩ trivial
  exact ⟨w0, _, h3, by simp [pstep, ring, rings, w0, o, o'], by simp [pstep, ring, rings], rfl⟩

end Simsopt.Labels
