import Verif.Caches.Props
import Verif.Graph.Witness
/-!
# Concrete histories of curves and fields: the hypotheses are met, and the exclusions are needed
-/
namespace Simsopt.Caches
open Simsopt
open Simsopt.Graph (State Cfg Op DependsOn MirrorInSync NameInj ShuffleOK next returns next_step cfg0 cfg0_names cfg0_shuffle)
variable {V P X : Type}

/-- is there a path to an ancestor, of bounded length? -/
def depB (s : State V) : Nat → Nat → Nat → Bool
  | 0, o, u => o == u
  | n + 1, o, u => o == u || (s.alive o && (s.obj o).parents.any (fun p => depB s n p u))

theorem depB_sound (s : State V) : ∀ n o u, depB s n o u = true → DependsOn s o u := by
  intro n
  induction n with
  | zero => intro o u h; simp only [depB, beq_iff_eq] at h; exact Or.inl h
  | succ n ih =>
    intro o u h
    simp only [depB, Bool.or_eq_true, beq_iff_eq, Bool.and_eq_true, List.any_eq_true] at h
    rcases h with h | ⟨ha, p, hp, h⟩
    · exact Or.inl h
    · exact Graph.DependsOn.trans' (Or.inr (Relation.TransGen.single ⟨ha, hp⟩)) (ih p u h)

def Kind.isLeaf : Kind V → Bool
  | .curve _ => true
  | .current => true
  | _ => false

def linkedB (kind : Nat → Kind V) (s : State V) : Bool :=
  (List.range s.nobj).all (fun o => !(s.alive o) || ((kind o).uses.all (fun u => s.alive u && depB s 5 o u) && (!(kind o).isLeaf || (s.obj o).setter)))

def guardB (kind : Nat → Kind V) (s t : State V) : Bool :=
  (List.range s.nobj).all (fun o => !(kind o).isField || !(decide ((s.obj o).bells < (t.obj o).bells)) || (Graph.freeStatus t o).any id)

/-- an API call -/
def gstep (cfg : Cfg V) (M : Math V P X) (kind : Nat → Kind V) (op : Op V) (w : World V P Qty X) : World V P Qty X :=
  ring (sys M kind) (next cfg op w.g) w

theorem FHist.next {cfg : Cfg V} (hn : NameInj cfg) (hsh : ShuffleOK cfg) {M : Math V P X} {kind : Nat → Kind V} {p0 : P} {w : World V P Qty X}
    (hwk : WellKinded kind) (hpl : PersistLinear M) (h : FHist cfg M kind p0 w) (op : Op V)
    (hs : op.Safe w.g) (hno : ∀ i d, op = .replaceDofs i d → (w.g.obj i).setter = false) (hr : returns cfg op w.g = true)
    (hl : linkedB kind (Graph.next cfg op w.g) = true) (hg : guardB kind w.g (Graph.next cfg op w.g) = true) :
    FHist cfg M kind p0 (gstep cfg M kind op w) := by
  have hi := (h.inv (sys_sound M kind hwk hpl) hn hsh linked_empty).reach
  have hst : Graph.Step cfg w.g op (Graph.next cfg op w.g) := Or.inl (next_step hr)
  have hr' := (Graph.ReachableNoSwap.step hi hs hno hst).reachable.inv hn hsh
  refine .graph h hs hno hst ?_ ?_
  · intro o ho
    simp only [linkedB, List.all_eq_true, List.mem_range] at hl
    have := hl o (hr'.graph.lt o ho)
    simp only [ho, Bool.not_true, Bool.false_or, Bool.and_eq_true, List.all_eq_true, Bool.or_eq_true, Bool.not_eq_true'] at this
    refine ⟨fun u hu => ⟨(this.1 u hu).1, depB_sound _ _ _ _ (this.1 u hu).2⟩, ?_⟩
    intro hk
    rcases this.2 with h2 | h2
    · exfalso
      rcases hk with ⟨fam, hk⟩ | hk <;> rw [hk] at h2 <;> cases h2
    · exact h2
  · intro j hj hf hb
    simp only [guardB, List.all_eq_true, List.mem_range] at hg
    have := hg j ((hi.reachable.inv hn hsh).graph.lt j hj)
    have hf : (kind j).isField = true := hf
    simpa [hf, hb] using this

/-- Toy numerics over the integers. -/
def M0 : Math Int Int Int where
  gamma := fun fam d l => 100 * fam + 10 * l.headD 0 + d
  dgamma := fun _ d _ => 7 + d
  persist := fun _ => true
  rot := fun r x => r * x
  rotT := fun r x => r * x + 1
  geo := fun _ xs => xs.sum
  cur := fun l => l.headD 0
  scale := fun c x => c * x
  plus := fun a b => a + b
  ker := fun a d p x y => (match a with | .B => 1 | .A => 1000) * (p * x + y) + d
  lin := fun l => (l.map (fun a => a.1 * a.2)).sum
  times := fun c x => c * x
  add := fun l => l.sum
  fld := fun _ p xs => p + xs.sum
  zero := 0

/-- Two coils made from one curve (one of them rotated, with the opposite current), their field and five times their field. -/
def kind0 : Nat → Kind Int
  | 0 => .curve 0
  | 1 => .current
  | 2 => .rotated 0 3
  | 5 => .biotSavart [(0, .base 1), (2, .scaled (-1) (.base 1))]
  | 6 => .multiply 5 5
  | _ => .other

theorem kind0_ok : WellKinded kind0 := by
  constructor
  · intro o b r h
    unfold kind0 at h
    split at h <;> cases h
    rfl
  · intro o cs h
    unfold kind0 at h
    split at h <;> cases h
    intro c hc
    simp only [List.mem_cons, List.not_mem_nil, or_false] at hc
    rcases hc with rfl | rfl
    · exact ⟨rfl, fun u hu => by simp only [CurExpr.bases, List.mem_singleton] at hu; subst hu; rfl⟩
    · exact ⟨rfl, fun u hu => by simp only [CurExpr.bases, List.mem_singleton] at hu; subst hu; rfl⟩

theorem M0_lin : PersistLinear M0 := fun _ _ _ _ _ => rfl

def W0 : World Int Int Qty Int := ⟨State.empty, fun _ => 1, fun _ _ => ⟨false, 0⟩⟩
def W1 := gstep cfg0 M0 kind0 (.new 0 (.fresh { x := some [1, 2] }) true [] false) W0
def W2 := gstep cfg0 M0 kind0 (.new 1 (.fresh { x := some [3] }) true [] false) W1
def W3 := gstep cfg0 M0 kind0 (.new 2 (.fresh {}) false [0] false) W2
def W4 := gstep cfg0 M0 kind0 (.new 3 (.fresh {}) false [0, 1] false) W3
def W5 := gstep cfg0 M0 kind0 (.new 3 (.fresh {}) false [2, 1] false) W4
def W6 := gstep cfg0 M0 kind0 (.new 4 (.fresh {}) false [3, 4] false) W5
def W7 := gstep cfg0 M0 kind0 (.new 5 (.fresh {}) false [5] false) W6

theorem W7_hist : FHist cfg0 M0 kind0 1 W7 := by
  have h0 : FHist cfg0 M0 kind0 1 W0 := .start
  have h1 := h0.next cfg0_names cfg0_shuffle kind0_ok M0_lin (.new 0 (.fresh { x := some [1, 2] }) true [] false) ⟨by simp, trivial⟩ (fun _ _ h => by cases h) (by decide +kernel) (by decide +kernel) (by decide +kernel)
  have h2 := h1.next cfg0_names cfg0_shuffle kind0_ok M0_lin (.new 1 (.fresh { x := some [3] }) true [] false) ⟨by simp, trivial⟩ (fun _ _ h => by cases h) (by decide +kernel) (by decide +kernel) (by decide +kernel)
  have h3 := h2.next cfg0_names cfg0_shuffle kind0_ok M0_lin (.new 2 (.fresh {}) false [0] false) ⟨by decide +kernel, trivial⟩ (fun _ _ h => by cases h) (by decide +kernel) (by decide +kernel) (by decide +kernel)
  have h4 := h3.next cfg0_names cfg0_shuffle kind0_ok M0_lin (.new 3 (.fresh {}) false [0, 1] false) ⟨by decide +kernel, trivial⟩ (fun _ _ h => by cases h) (by decide +kernel) (by decide +kernel) (by decide +kernel)
  have h5 := h4.next cfg0_names cfg0_shuffle kind0_ok M0_lin (.new 3 (.fresh {}) false [2, 1] false) ⟨by decide +kernel, trivial⟩ (fun _ _ h => by cases h) (by decide +kernel) (by decide +kernel) (by decide +kernel)
  have h6 := h5.next cfg0_names cfg0_shuffle kind0_ok M0_lin (.new 4 (.fresh {}) false [3, 4] false) ⟨by decide +kernel, trivial⟩ (fun _ _ h => by cases h) (by decide +kernel) (by decide +kernel) (by decide +kernel)
  exact h6.next cfg0_names cfg0_shuffle kind0_ok M0_lin (.new 5 (.fresh {}) false [5] false) ⟨by decide +kernel, trivial⟩ (fun _ _ h => by cases h) (by decide +kernel) (by decide +kernel) (by decide +kernel)

/-- the world after an evaluation -/
def evW (o : Nat) (q : Qty) (w : World Int Int Qty Int) : World Int Int Qty Int := (eval (sys M0 kind0) 10 o q w).2
def evX (o : Nat) (q : Qty) (w : World Int Int Qty Int) : Option Int := (eval (sys M0 kind0) 10 o q w).1

theorem evXW (o : Nat) (q : Qty) (w : World Int Int Qty Int) : eval (sys M0 kind0) 10 o q w = (evX o q w, evW o q w) := rfl

def W8 := evW 6 (.fld .gradAbsB) W7
def W9 := gstep cfg0 M0 kind0 (.setX 6 [4, 2, 5]) W8

theorem al6 {w : World Int Int Qty Int} (h : w.pts 5 = w.pts 6) : Aligned (sys M0 kind0) w 6 := by
  intro c hc
  cases hc with
  | refl => rfl
  | step hm hw =>
    replace hm : _ ∈ compsOf kind0 6 := hm
    simp only [compsOf, kind0, List.mem_singleton] at hm
    subst hm
    cases hw with
    | refl => exact h
    | step hm2 _ =>
      replace hm2 : _ ∈ compsOf kind0 5 := hm2
      simp only [compsOf, kind0] at hm2
      cases hm2

theorem W9_hist : FHist cfg0 M0 kind0 1 W9 := by
  have h8 : FHist cfg0 M0 kind0 1 W8 := by
    refine .eval (n := 10) (o := 6) (q := .fld .gradAbsB) (r := evX 6 (.fld .gradAbsB) W7) W7_hist (by decide +kernel) (al6 (by decide +kernel)) (evXW _ _ _) ?_
    intro h
    exact absurd h (by decide +kernel)
  exact h8.next cfg0_names cfg0_shuffle kind0_ok M0_lin (.setX 6 [4, 2, 5]) (by show W8.g.alive 6 = true; decide +kernel)
    (fun _ _ h => by cases h) (by decide +kernel) (by decide +kernel) (by decide +kernel)

/-- After an evaluation and a change of all dofs, `B()` of the multiple is five times the current (5) times the difference of the
    kernels at the new dofs; before, it was something else. -/
example : evX 6 (.pot .B 0) W9 = some (5 * (5 * (1 * 40 + 41) - 5 * (1 * 120 + 123))) ∧
    evX 6 (.pot .B 0) W7 ≠ evX 6 (.pot .B 0) W9 ∧ (W8.cache 6 (.pot .B 0)).status = true ∧ (W9.cache 6 (.pot .B 0)).status = false := by
  decide +kernel

example : Val M0 kind0 W9.g (W9.pts 6) 6 (.pot .B 0) (5 * (5 * (1 * 40 + 41) - 5 * (1 * 120 + 123))) := by
  have h := evXW 6 (.pot .B 0) W9
  have hx : evX 6 (.pot .B 0) W9 = some (5 * (5 * (1 * 40 + 41) - 5 * (1 * 120 + 123))) := by decide +kernel
  rw [hx] at h
  exact C40_field_values cfg0_names cfg0_shuffle kind0_ok M0_lin W9_hist (by decide +kernel) (al6 (by decide +kernel)) h

example : ∃ w', eval (sys M0 kind0) 1 0 (.gamma 1) W9 = (some 41, w') := by
  obtain ⟨w', h⟩ := (C39_gamma cfg0_names cfg0_shuffle kind0_ok M0_lin W9_hist (o := 0) (fam := 0) (by decide +kernel) rfl 0 1).1
  have : M0.gamma 0 1 (dofsOf W9.g 0) = 41 := by decide +kernel
  rw [this] at h
  exact ⟨w', h⟩

/-! ### violations -/

/-- `B()`, then all dofs of the field fixed, then `bs.full_x = …` -/
def Wf1 := evW 5 (.pot .B 0) W7
def Wf2 := gstep cfg0 M0 kind0 (.fixAll 5) Wf1
def Wf3 := gstep cfg0 M0 kind0 (.setFullX 5 [4, 2, 5]) Wf2

theorem unique_ne {M : Math V P X} {kind : Nat → Kind V} {g : State V} {p : P} {o : Nat} {q : Qty} {x y : X} (h : Val M kind g p o q x)
    (hne : x ≠ y) : ¬ Val M kind g p o q y := fun h' => hne (h.unique h')

/-- the field of the two coils, by the specification -/
theorem val5 (g : State Int) (p : Int) (d : Nat) (a : Pot) (hd : d ≤ 2) :
    Val M0 kind0 g p 5 (.pot a d) (M0.lin [((dofsOf g 1).headD 0, M0.ker a d p (M0.gamma 0 0 (dofsOf g 0)) (M0.gamma 0 1 (dofsOf g 0))),
      (-1 * (dofsOf g 1).headD 0, M0.ker a d p (3 * M0.gamma 0 0 (dofsOf g 0)) (3 * M0.gamma 0 1 (dofsOf g 0)))]) := by
  have c0 : Val M0 kind0 g p 5 (.coil a 0 d) _ := .coil (cs := [(0, .base 1), (2, .scaled (-1) (.base 1))]) (by decide) rfl hd
    (.curve 0 rfl) (.curve 1 rfl)
  have c1 : Val M0 kind0 g p 5 (.coil a 1 d) _ := .coil (cs := [(0, .base 1), (2, .scaled (-1) (.base 1))]) (by decide) rfl hd
    (.rotated rfl (.curve 0 rfl)) (.rotated rfl (.curve 1 rfl))
  refine .biotSavart (cs := [(0, .base 1), (2, .scaled (-1) (.base 1))]) (ks := [_, _]) rfl hd rfl ?_
  intro i hi
  match i, hi with
  | 0, _ => exact c0
  | 1, _ => exact c1

/-- C40: when no dof of a field is free, notifications do not clear its cache: after `fix_all()` and `full_x = …` the field still returns the
    value for the old dofs. -/
theorem C40_all_fixed_violated : ∃ (w w1 w2 : World Int Int Qty Int) (x : Int),
    FHist cfg0 M0 kind0 1 w ∧ w.g.alive 5 = true ∧ w1 = gstep cfg0 M0 kind0 (.fixAll 5) w ∧ w2 = gstep cfg0 M0 kind0 (.setFullX 5 [4, 2, 5]) w1 ∧
    returns cfg0 (.fixAll 5) w.g = true ∧ returns cfg0 (.setFullX 5 [4, 2, 5]) w1.g = true ∧
    (∃ w', eval (sys M0 kind0) 10 5 (.pot .B 0) w2 = (some x, w')) ∧ ¬ Val M0 kind0 w2.g (w2.pts 5) 5 (.pot .B 0) x := by
  refine ⟨Wf1, Wf2, Wf3, 3 * (1 * 10 + 11) - 3 * (1 * 30 + 33), ?_, by decide +kernel, rfl, rfl, by decide +kernel, by decide +kernel,
    ⟨evW 5 (.pot .B 0) Wf3, ?_⟩, ?_⟩
  · refine .eval (n := 10) (o := 5) (q := .pot .B 0) (r := evX 5 (.pot .B 0) W7) W7_hist (by decide +kernel) ?_ (evXW _ _ _) ?_
    · intro c hc
      cases hc with
      | refl => rfl
      | step hm _ =>
        replace hm : _ ∈ compsOf kind0 5 := hm
        simp only [compsOf, kind0] at hm
        cases hm
    · intro h; exact absurd h (by decide +kernel)
  · have : evX 5 (.pot .B 0) Wf3 = some (3 * (1 * 10 + 11) - 3 * (1 * 30 + 33)) := by decide +kernel
    rw [evXW, this]
  · exact unique_ne (val5 Wf3.g _ 0 .B (by decide)) (by decide +kernel)

/-- C40: a multiple (or sum) of a field does not notice when the points of the component field are changed behind it. -/
theorem C40_component_points_violated : ∃ (w w1 w2 : World Int Int Qty Int) (x : Int),
    FHist cfg0 M0 kind0 1 w ∧ w.g.alive 6 = true ∧ setPoints (sys M0 kind0) 10 1 6 w = some w1 ∧
    setPoints (sys M0 kind0) 10 8 5 w1 = some w2 ∧ w2.pts 6 = 1 ∧
    (∃ w', eval (sys M0 kind0) 10 6 (.pot .B 0) w2 = (some x, w')) ∧ ¬ Val M0 kind0 w2.g (w2.pts 6) 6 (.pot .B 0) x := by
  refine ⟨W7, _, _, 5 * (3 * (8 * 10 + 11) - 3 * (8 * 30 + 33)), W7_hist, by decide +kernel, rfl, rfl, by decide +kernel, ⟨_, Prod.ext ?_ rfl⟩, ?_⟩
  · decide +kernel
  · exact unique_ne (.multiply rfl (val5 _ _ 0 .B (by decide))) (by decide +kernel)

/-- C40: `dA_by_dcoilcurrents()` calls `compute` instead of `compute_A`: it returns the untouched arrays. -/
theorem C40_dA_by_dcoilcurrents_violated : ∃ (w w' : World Int Int Qty Int) (xs : List Int),
    FHist cfg0 M0 kind0 1 w ∧ w.g.alive 5 = true ∧ byCurrents M0 kind0 10 .A 2 5 0 w = (some xs, w') ∧
    (∃ x ∈ xs[0]?, ¬ Val M0 kind0 w.g (w.pts 5) 5 (.coil .A 0 0) x) ∧
    -- and what it leaves behind is used by later calls
    (w'.cache 5 (.coil .A 0 0)).status = true ∧ (w'.cache 5 (.coil .A 0 0)).data = 0 := by
  refine ⟨W7, (byCurrents M0 kind0 10 .A 2 5 0 W7).2, [0, 0], W7_hist, by decide +kernel, Prod.ext (by decide +kernel) rfl,
    ⟨0, rfl, ?_⟩, by decide +kernel, by decide +kernel⟩
  exact unique_ne (Val.coil (cs := [(0, .base 1), (2, .scaled (-1) (.base 1))]) (by decide) rfl (by decide) (.curve 0 rfl) (.curve 1 rfl))
    (by decide +kernel)

/-- A coil whose curve does not implement `gamma`. -/
def kindR : Nat → Kind Int
  | 1 => .current
  | 2 => .biotSavart [(0, .base 1)]
  | _ => .other

theorem kindR_ok : WellKinded kindR := by
  constructor
  · intro o b r h
    unfold kindR at h
    split at h <;> cases h
  · intro o cs h
    unfold kindR at h
    split at h <;> cases h
    intro c hc
    simp only [List.mem_cons, List.not_mem_nil, or_false] at hc
    subst hc
    exact ⟨rfl, fun u hu => by simp only [CurExpr.bases, List.mem_singleton] at hu; subst hu; rfl⟩

def R1 := gstep cfg0 M0 kindR (.new 0 (.fresh { x := some [1] }) false [] false) W0
def R2 := gstep cfg0 M0 kindR (.new 1 (.fresh { x := some [3] }) true [] false) R1
def R3 := gstep cfg0 M0 kindR (.new 3 (.fresh {}) false [0, 1] false) R2

/-- C40: an evaluation that raises leaves the array marked as valid: `B()` raises the first time and returns zeros the second time. -/
theorem C40_raise_violated : ∃ (w w1 : World Int Int Qty Int), FHist cfg0 M0 kindR 1 w ∧ w.g.alive 2 = true ∧
    eval (sys M0 kindR) 10 2 (.pot .B 0) w = (none, w1) ∧ (∃ w2, eval (sys M0 kindR) 10 2 (.pot .B 0) w1 = (some 0, w2)) ∧
    ∀ x, ¬ Val M0 kindR w1.g (w1.pts 2) 2 (.pot .B 0) x := by
  refine ⟨R3, (eval (sys M0 kindR) 10 2 (.pot .B 0) R3).2, ?_, by decide +kernel, Prod.ext (by decide +kernel) rfl,
    ⟨_, Prod.ext (by decide +kernel) rfl⟩, ?_⟩
  · have h0 : FHist cfg0 M0 kindR 1 W0 := .start
    have h1 := h0.next cfg0_names cfg0_shuffle kindR_ok M0_lin (.new 0 (.fresh { x := some [1] }) false [] false) ⟨by simp, trivial⟩ (fun _ _ h => by cases h) (by decide +kernel) (by decide +kernel) (by decide +kernel)
    have h2 := h1.next cfg0_names cfg0_shuffle kindR_ok M0_lin (.new 1 (.fresh { x := some [3] }) true [] false) ⟨by simp, trivial⟩ (fun _ _ h => by cases h) (by decide +kernel) (by decide +kernel) (by decide +kernel)
    exact h2.next cfg0_names cfg0_shuffle kindR_ok M0_lin (.new 3 (.fresh {}) false [0, 1] false) ⟨by decide +kernel, trivial⟩ (fun _ _ h => by cases h) (by decide +kernel) (by decide +kernel) (by decide +kernel)
  · intro x h
    cases h with
    | @biotSavart _ cs _ _ ks hk _ hl h2 =>
      cases hk
      cases ks with
      | nil => simp at hl
      | cons k ks =>
        have := h2 0 (by simp)
        cases this with
        | coil h hk _ hx _ =>
          cases hk
          cases hx with
          | curve _ hk => cases hk
          | rotated hk _ => cases hk
    | multiply hk => cases hk
    | sum hk => cases hk

/-! ### curves -/

/-- `R_{xx}` of the rotation by the quaternion `q = dofs[1..4]` of a planar curve of order 0: `1 - 2 (q_2^2 + q_3^2) / |q|^2`
    (curveplanarfourier.cpp L4-12, L173, L194: `inv_magnitude` is 1 for `q = 0`). -/
def planarRot (l : List Rat) : Rat :=
  let q := fun i => l.getD (i + 1) 0
  let s := q 0 * q 0 + q 1 * q 1 + q 2 * q 2 + q 3 * q 3
  1 - 2 * (q 2 * q 2 + q 3 * q 3) / (if s = 0 then 1 else s)

/-- A `CurvePlanarFourier` of order 0 with the single quadrature point 0, reduced to the x component of its position (curveplanarfourier.cpp
    L15-46) and of the derivative of the latter by the first coefficient `rc[0]` (L170-199).  Its class uses the persistent cache
    (curveplanarfourier.h L96-107). -/
def Mp : Math Rat Unit Rat where
  gamma := fun _ _ l => l.getD 0 0 * planarRot l + l.getD 5 0
  dgamma := fun _ _ l => planarRot l
  persist := fun _ => true
  rot := fun _ x => x
  rotT := fun _ x => x
  geo := fun _ xs => xs.sum
  cur := fun l => l.headD 0
  scale := fun c x => c * x
  plus := fun a b => a + b
  ker := fun _ _ _ x y => x + y
  lin := fun l => (l.map (fun a => a.1 * a.2)).sum
  times := fun c x => c * x
  add := fun l => l.sum
  fld := fun _ _ xs => xs.sum
  zero := 0

def kindP : Nat → Kind Rat
  | 0 => .curve 0
  | _ => .other

def cfgQ : Cfg Rat :=
  { limit := 1000, shuffle := fun _ l => l, cname := fun c => String.ofList (List.replicate (c + 1) 'A'),
    ninf := -1000, pinf := 1000 }

/-- `CurvePlanarFourier` with `rc = [2]`, `q = (1, 0, 0, 0)`, centre 0 -/
def P0 : World Rat Unit Qty Rat := ⟨State.empty, fun _ => (), fun _ _ => ⟨false, 0⟩⟩
def P1 := gstep cfgQ Mp kindP (.new 0 (.fresh { x := some [2, 1, 0, 0, 0, 0, 0, 0] }) true [] false) P0
def P2 := (eval (sys Mp kindP) 10 0 (.dgamma 0) P1).2
/-- `q = (0, 0, 0, 1)` -/
def P3 := gstep cfgQ Mp kindP (.setX 0 [2, 0, 0, 0, 1, 0, 0, 0]) P2

/-- C39: `CurvePlanarFourier` keeps `dgamma_by_dcoeff` for ever although its dofs enter nonlinearly: after a change of the dofs through `x` the
    Jacobian is still the old one, while `gamma()` is the new one.  Here the derivative of the position by `rc[0]` is `-1` but `1` is
    returned. -/
theorem C39_planar_jacobian_violated :
    returns cfgQ (.new 0 (.fresh { x := some [2, 1, 0, 0, 0, 0, 0, 0] }) true [] false) P0.g = true ∧
    (eval (sys Mp kindP) 10 0 (.dgamma 0) P1).1 = some 1 ∧ returns cfgQ (.setX 0 [2, 0, 0, 0, 1, 0, 0, 0]) P2.g = true ∧
    dofsOf P3.g 0 = [2, 0, 0, 0, 1, 0, 0, 0] ∧
    (eval (sys Mp kindP) 10 0 (.gamma 0) P3).1 = some (-2) ∧ (eval (sys Mp kindP) 10 0 (.dgamma 0) P3).1 = some 1 ∧
    Val Mp kindP P3.g () 0 (.dgamma 0) (-1) ∧ ¬ Val Mp kindP P3.g () 0 (.dgamma 0) 1 ∧ ¬ PersistLinear Mp := by
  have hd : Mp.dgamma 0 0 (dofsOf P3.g 0) = -1 := by decide +kernel
  have hv : Val Mp kindP P3.g () 0 (.dgamma 0) (-1) := by rw [← hd]; exact .dcurve 0 rfl
  refine ⟨by decide +kernel, by decide +kernel, by decide +kernel, by decide +kernel, by decide +kernel, by decide +kernel, hv,
    unique_ne hv (by decide +kernel), ?_⟩
  intro h
  exact absurd (h 0 0 [2, 1, 0, 0, 0, 0, 0, 0] [2, 0, 0, 0, 1, 0, 0, 0] rfl) (by decide +kernel)

/-- C39: replacing the DOFs object of a curve (its `dofs` setter) does not reach the C++ side: the curve keeps its old shape. -/
theorem C39_replace_dofs_violated : ∃ (w w1 : World Int Int Qty Int) (x : Int), FHist cfg0 M0 kind0 1 w ∧
    w1 = gstep cfg0 M0 kind0 (.replaceDofs 0 1) w ∧ returns cfg0 (.replaceDofs 0 1) w.g = true ∧
    (∃ w', eval (sys M0 kind0) 10 0 (.gamma 0) w1 = (some x, w')) ∧ ¬ Val M0 kind0 w1.g (w1.pts 0) 0 (.gamma 0) x := by
  refine ⟨W7, gstep cfg0 M0 kind0 (.replaceDofs 0 1) W7, 10, W7_hist, rfl, by decide +kernel, ⟨evW 0 (.gamma 0) (gstep cfg0 M0 kind0 (.replaceDofs 0 1) W7), ?_⟩, ?_⟩
  · rw [evXW]
    have : evX 0 (.gamma 0) (gstep cfg0 M0 kind0 (.replaceDofs 0 1) W7) = some 10 := by decide +kernel
    rw [this]
  · refine unique_ne (Val.curve (fam := 0) 0 rfl) (by decide +kernel)

end Simsopt.Caches
