import Verif.Mhd.VmecInv
/-!
# C96: a result of VMEC is the result for the present boundary, profiles and DOFs
-/
namespace Simsopt.Vmec
variable {V Arr Rest Out : Type} [Zero V] [One V]

/-- The specification determines the input of VMEC: two histories that end with the same file, boundary, profiles and DOFs ask for the same calculation. -/
theorem Expected.unique {E : Env V Arr Rest Out} {w w' : World V Arr Rest Out} {v v' : Vm V Arr Rest Out} {g g' : Indata V Arr Rest}
    (h : Expected E w v g) (h' : Expected E w' v' g') (hf : v'.file = v.file) (hb : w'.surfs[v'.boundary]? = w.surfs[v.boundary]?)
    (hp : ∀ s, w'.fn v' s = w.fn v s) (hx : v'.x = v.x) (hn : v'.n = v.n) : g' = g := by
  obtain ⟨file, b, e1, e2, e3, e4, e5, e6, e7, e8, e9, e10, e11, e12, e13⟩ := h
  obtain ⟨file', b', d1, d2, d3, d4, d5, d6, d7, d8, d9, d10, d11, d12, d13⟩ := h'
  have hfile : file' = file := by rw [hf, e1] at d1; exact (Option.some.inj d1).symm
  have hbb : b' = b := by rw [hb, e2] at d2; exact (Option.some.inj d2).symm
  subst hfile hbb
  rw [hp] at d9 d10 d11 d12 d13
  rw [hx] at d8 d9 d10
  rw [hn] at d11 d12 d13
  obtain ⟨rbc, zbs, rbs, zbc, phi, cur, pre, am, ac, ai, rest⟩ := g
  obtain ⟨rbc', zbs', rbs', zbc', phi', cur', pre', am', ac', ai', rest'⟩ := g'
  dsimp only at *
  have hcur : cur' = cur := by
    revert e9 d9
    cases w.fn v .current with
    | none => exact fun a b => b.trans a.symm
    | some f => exact fun a b => b.trans a.symm
  have hpre : pre' = pre := by
    revert e10 d10
    cases w.fn v .pressure with
    | none => exact fun a b => b.trans a.symm
    | some f => exact fun a b => b.trans a.symm
  have ham : am' = am := by
    revert e11 d11
    cases w.fn v .pressure with
    | none => exact fun a b => b.trans a.symm
    | some f => exact fun a b => Option.some.inj (b.symm.trans a)
  have hac : ac' = ac := by
    revert e12 d12
    cases w.fn v .current with
    | none => exact fun a b => b.trans a.symm
    | some f => exact fun a b => Option.some.inj (b.symm.trans a)
  have hai : ai' = ai := by
    revert e13 d13
    cases w.fn v .iota with
    | none => exact fun a b => b.trans a.symm
    | some f => exact fun a b => Option.some.inj (b.symm.trans a)
  rw [d3, d4, d5, d6, d7, d8, hcur, hpre, ham, hac, hai, e3, e4, e5, e6, e7, e8]

/-- **C96.** After any careful history a query that returns a value returns what VMEC gives for the present boundary, profiles and DOFs. -/
theorem C96_current_partial {E : Env V Arr Rest Out} {w : World V Arr Rest Out} (h : Hist E (Careful E) w) {i : Nat} {v : Vm V Arr Rest Out} {o : Out}
    (hv : w.vs[i]? = some v) (hr : v.runnable = true) (hq : (exec E w (.query i)).2 = .value o) :
    ∃ g, Expected E w v g ∧ E.solve g = some o := by
  have hi := h.inv
  have hm := List.mem_of_getElem? hv
  simp only [exec, hv] at hq
  unfold query at hq
  cases hn : v.need with
  | false =>
    rw [hn] at hq
    obtain ⟨o', ho, hg⟩ := hi.fresh v hm hn
    rw [if_pos (by rfl), ho] at hq
    cases hq
    exact hg hr
  | true =>
    rw [hn, if_neg (by simp), hr, if_neg (by simp)] at hq
    dsimp only at hq
    split at hq
    · cases hq
    · next hok =>
      have hex : Expected E w v (setIndata E w v).1 := setIndata_expected hi.plain (hi.own v hm) (by simpa using hok)
      cases hs : E.solve (setIndata E w v).1 with
      | none => rw [hs] at hq; cases hq
      | some o' => rw [hs] at hq; cases hq; exact ⟨_, hex, hs⟩

/-- **C96.** Conversely a query raises an exception only when there is no such calculation or it fails: a failure in the past, or an old result, make no difference. -/
theorem C96_answers_partial {E : Env V Arr Rest Out} {w : World V Arr Rest Out} (h : Hist E (Careful E) w) {i : Nat} {v : Vm V Arr Rest Out} {g : Indata V Arr Rest}
    (hv : w.vs[i]? = some v) (hg : Expected E w v g) (hres : E.mpol g.rest ≤ 101 ∧ E.ntor g.rest ≤ 101) :
    (exec E w (.query i)).2 = match E.solve g with | none => .raised | some o => .value o := by
  have hi := h.inv
  have hm := List.mem_of_getElem? hv
  have hg0 := hg
  obtain ⟨file, b, e1, e2, e3, e4, e5, e6, e7, e8, e9, e10, e11, e12, e13⟩ := hg
  have hr : v.runnable = true := by unfold Vm.runnable; rw [e1]; rfl
  have Ho := hi.own v hm file e1
  simp only [exec, hv]
  unfold query
  cases hn : v.need with
  | false =>
    obtain ⟨o', ho, hgg⟩ := hi.fresh v hm hn
    obtain ⟨g', hE, hs⟩ := hgg hr
    have := hg0.unique hE rfl rfl (fun _ => rfl) rfl rfl
    subst this
    rw [if_pos (by rfl), ho, hs]
  | true =>
    rw [if_neg (by simp), hr, if_neg (by simp)]
    dsimp only
    have fit_ok : ∀ s old, (∀ f, w.fn v s = some f → ∃ a, E.fit s file.rest f (v.n s) = some a) → ∃ a, fitSlot E w v s old = some a := by
      intro s old hf
      unfold fitSlot
      unfold World.fn at hf
      cases hp : v.profile s with
      | none => exact ⟨old, rfl⟩
      | some k =>
        rw [hp] at hf
        obtain ⟨a, ha⟩ := hf _ rfl
        exact ⟨a, by dsimp only; rw [Ho.1]; exact ha⟩
    have hok : (setIndata E w v).2 = true := by
      unfold setIndata
      rw [hr, if_neg (by simp), Ho.1, ← e3, if_neg (by omega), e2]
      dsimp only
      obtain ⟨am, ham⟩ := fit_ok .pressure (w.glob.setBoundary (modes b b.rc) (modes b b.zs)).am (fun f hf => by rw [hf] at e11; exact ⟨_, e11⟩)
      rw [ham]
      dsimp only
      obtain ⟨ac, hac⟩ := fit_ok .current ((w.glob.setBoundary (modes b b.rc) (modes b b.zs)).setAm am).ac (fun f hf => by rw [hf] at e12; exact ⟨_, e12⟩)
      rw [hac]
      dsimp only
      obtain ⟨ai, hai⟩ := fit_ok .iota (((w.glob.setBoundary (modes b b.rc) (modes b b.zs)).setAm am).setAc ac).ai (fun f hf => by rw [hf] at e13; exact ⟨_, e13⟩)
      rw [hai]
    have := hg0.unique (setIndata_expected hi.plain (hi.own v hm) hok) rfl rfl (fun _ => rfl) rfl rfl
    rw [hok, if_neg (by simp), this]
    cases E.solve g <;> rfl

/-- **C96.** A second query, with nothing in between, runs nothing and returns the same. -/
theorem C96_cached {E : Env V Arr Rest Out} {w : World V Arr Rest Out} {i : Nat} {o : Out} (hq : (exec E w (.query i)).2 = .value o) :
    exec E (exec E w (.query i)).1 (.query i) = ((exec E w (.query i)).1, .value o) := by
  simp only [exec] at hq ⊢
  cases hv : w.vs[i]? with
  | none => rw [hv] at hq; cases hq
  | some v =>
    rw [hv] at hq
    dsimp only at hq ⊢
    unfold query at hq ⊢
    cases hn : v.need with
    | false =>
      rw [hn] at hq
      rw [if_pos (by rfl)] at hq ⊢
      dsimp only
      rw [hv]
      dsimp only
      rw [hn, if_pos (by rfl)]
      exact Prod.ext rfl hq
    | true =>
      rw [hn, if_neg (by simp)] at hq
      rw [if_neg (by simp)]
      split at hq
      · cases hq
      next hr =>
      rw [if_neg hr]
      dsimp only at hq ⊢
      split at hq
      · cases hq
      next hok =>
      rw [if_neg hok]
      cases hs : E.solve (setIndata E w v).1 with
      | none => rw [hs] at hq; cases hq
      | some o' =>
        rw [hs] at hq
        cases hq
        dsimp only
        have hil : i < w.vs.length := by
          by_contra hlt; rw [List.getElem?_eq_none (by omega)] at hv; cases hv
        have : ((w.setGlob (setIndata E w v).1).put i ((v.setWout o).setNeed false)).vs[i]? = some ((v.setWout o).setNeed false) := by
          show (w.vs.set i _)[i]? = _
          rw [List.getElem?_set_self hil]
        rw [this]
        dsimp only [Vm.setNeed, Vm.setWout]
        rfl

/-- **C96, objects from an output file.** They return the contents of the file; after a change of the boundary a query raises an exception. -/
theorem C96_output_file {E : Env V Arr Rest Out} {w : World V Arr Rest Out} (h : Hist E (Careful E) w) {i : Nat} {v : Vm V Arr Rest Out}
    (hv : w.vs[i]? = some v) (hr : v.runnable = false) :
    (∀ o, (exec E w (.query i)).2 = .value o → v.wout = some o) ∧
    ∀ b, (exec E (exec E w (.setSurf v.boundary b)).1 (.query i)).2 = .raised := by
  constructor
  · intro o hq
    simp only [exec, hv] at hq
    unfold query at hq
    split at hq
    · cases hw : v.wout with
      | none => rw [hw] at hq; cases hq
      | some o' => rw [hw] at hq; cases hq; rfl
    · rw [hr] at hq; cases hq
  · intro b
    have H := h.inv.wf v (List.mem_of_getElem? hv)
    simp only [exec]
    have : ((w.setSurfs (w.surfs.set v.boundary b)).notify (.surf v.boundary)).vs[i]? = some (v.setNeed true) := by
      show (w.vs.map _)[i]? = _
      rw [List.getElem?_map, hv]
      show some (if _ then _ else _) = _
      rw [if_pos H.2.1]
    rw [this]
    dsimp only
    unfold query
    rw [if_neg (by simp [Vm.setNeed]), if_pos (by have : (v.setNeed true).runnable = v.runnable := rfl; rw [this, hr]; rfl)]

/-- **C96, objects from an output file.** A new one can be queried, and goes on answering while its boundary, its profiles and its DOFs are left alone: the flag of an object is raised only by a change of its parents or by its own setters. -/
theorem C96_output_file_readable {E : Env V Arr Rest Out} (w : World V Arr Rest Out) (b : Bdry V) (o : Out) (ops : List (Op V Arr Rest Out))
    (hops : ∀ op ∈ ops, match op with
      | .setSurf k _ => k ≠ w.surfs.length
      | .setProf .. => True
      | .setX i _ => i ≠ w.vs.length
      | .setBoundary i _ => i ≠ w.vs.length
      | .setProfile i _ _ => i ≠ w.vs.length
      | .setN i _ _ => i ≠ w.vs.length
      | _ => True) :
    (exec E (ops.foldl (fun w op => (exec E w op).1) (exec E w (.newWout b o)).1) (.query w.vs.length)).2 = .value o := by
  have key : ∀ (ops : List (Op V Arr Rest Out)) (u : World V Arr Rest Out), u.vs[w.vs.length]? = some (Simsopt.Vmec.fresh none w.surfs.length (1, 0, 1) (some o)) →
      (∀ op ∈ ops, match op with
      | .setSurf k _ => k ≠ w.surfs.length
      | .setProf .. => True
      | .setX i _ => i ≠ w.vs.length
      | .setBoundary i _ => i ≠ w.vs.length
      | .setProfile i _ _ => i ≠ w.vs.length
      | .setN i _ _ => i ≠ w.vs.length
      | _ => True) →
      (ops.foldl (fun w op => (exec E w op).1) u).vs[w.vs.length]? = some (Simsopt.Vmec.fresh none w.surfs.length (1, 0, 1) (some o)) := by
    intro ops
    induction ops with
    | nil => exact fun u hu _ => hu
    | cons op ops ih =>
      intro u hu hops
      refine ih _ ?_ fun op' h' => hops op' (List.mem_cons_of_mem _ h')
      have h0 := hops op (List.mem_cons_self ..)
      have hlt : w.vs.length < u.vs.length := by
        by_contra hn; rw [List.getElem?_eq_none (by omega)] at hu; cases hu
      have put_ne : ∀ (u' : World V Arr Rest Out) i v, u'.vs = u.vs → i ≠ w.vs.length → (u'.put i v).vs[w.vs.length]? = some (Simsopt.Vmec.fresh none w.surfs.length (1, 0, 1) (some o)) := by
        intro u' i v he hi
        show (u'.vs.set i v)[_]? = _
        rw [List.getElem?_set_ne hi, he]; exact hu
      have note : ∀ (u' : World V Arr Rest Out) ob, u'.vs = u.vs → ob ≠ Obj.surf w.surfs.length → (u'.notify ob).vs[w.vs.length]? = some (Simsopt.Vmec.fresh none w.surfs.length (1, 0, 1) (some o)) := by
        intro u' ob he hob
        show (u'.vs.map _)[_]? = _
        rw [List.getElem?_map, he, hu]
        show some (if _ then _ else _) = _
        rw [if_neg (by simpa [Simsopt.Vmec.fresh] using hob)]
      cases op with
      | newInput file => show (u.vs ++ [_])[_]? = _; rw [List.getElem?_append_left hlt]; exact hu
      | newWout b o => show (u.vs ++ [_])[_]? = _; rw [List.getElem?_append_left hlt]; exact hu
      | newSurf b => exact hu
      | newProf f => exact hu
      | setSurf k b => exact note _ _ rfl (by intro e; cases e; exact h0 rfl)
      | setProf k f => exact note _ _ rfl (by intro e; cases e)
      | setX i x =>
        simp only [exec]
        cases hv : u.vs[i]? with
        | none => exact hu
        | some v => dsimp only; split <;> exact put_ne _ i _ rfl h0
      | setBoundary i k =>
        simp only [exec]
        cases hv : u.vs[i]? with
        | none => exact hu
        | some v => dsimp only; split
                    · exact hu
                    · exact put_ne _ i _ rfl h0
      | setProfile i s k =>
        simp only [exec]
        cases hv : u.vs[i]? with
        | none => exact hu
        | some v => dsimp only; cases replaceProfile v s k with
                    | none => exact hu
                    | some v' => exact put_ne _ i _ rfl h0
      | setN i s n =>
        simp only [exec]
        cases hv : u.vs[i]? with
        | none => exact hu
        | some v => exact put_ne _ i _ rfl h0
      | getInput i =>
        simp only [exec]
        cases hv : u.vs[i]? with
        | none => exact hu
        | some v => exact hu
      | query i =>
        simp only [exec]
        cases hv : u.vs[i]? with
        | none => exact hu
        | some v =>
          dsimp only
          unfold query
          split
          · exact hu
          split
          · exact hu
          next hr =>
          dsimp only
          split
          · exact hu
          cases E.solve (setIndata E u v).1 with
          | none => exact hu
          | some o' =>
            refine put_ne _ i _ rfl fun e => ?_
            subst e
            rw [hu] at hv
            cases hv
            exact hr rfl
  have := key ops (exec E w (.newWout b o)).1 (by
    show (w.vs ++ [_])[_]? = _
    rw [List.getElem?_append_right (Nat.le_refl _)]; simp) hops
  simp only [exec] at this ⊢
  rw [this]
  rfl

/-! ## Histories that go wrong -/

/-- A query that returns the result of another calculation. -/
def Stale (E : Env V Arr Rest Out) (w : World V Arr Rest Out) (i : Nat) : Prop :=
  ∃ v o, w.vs[i]? = some v ∧ (exec E w (.query i)).2 = .value o ∧ ∃ g, Expected E w v g ∧ E.solve g ≠ some o

theorem Hist.run {E : Env V Arr Rest Out} {ok} {w : World V Arr Rest Out} (h : Hist E ok w) :
    ∀ ops : List (Op V Arr Rest Out), (∀ w op, ok w op) → Hist E ok (ops.foldl (fun w op => (exec E w op).1) w) := by
  intro ops
  induction ops generalizing w with
  | nil => exact fun _ => h
  | cons op ops ih => exact fun hok => ih (h.step op (hok w op)) hok

namespace Examples

/-- A toy VMEC that reports its input: the scalars, the profiles and some boundary modes. -/
def E : Env Int Int (Nat × Nat × Bool) (List Int) where
  solve g := if g.phiedge = 0 then none else some [g.phiedge, g.curtor, g.presScale, g.am, g.ac, g.ai, g.rbc 0 0, g.rbs 0 1, g.rbc 102 0]
  fit _ _ f n := some (1000 * n + f 1)
  total _ f := f 1
  mpol r := r.1
  ntor r := r.2.1
  lasym r := r.2.2

def file (lasym : Bool) (phi : Int) : Indata Int Int (Nat × Nat × Bool) :=
  { rbc := fun m n => if m = 0 ∧ n = 0 then 10 else 0, zbs := fun _ _ => 0, rbs := fun m n => if lasym ∧ m = 0 ∧ n = 1 then 1 else 0, zbc := fun _ _ => 0,
    phiedge := phi, curtor := 2, presScale := 3, am := 4, ac := 5, ai := 6, rest := (3, 3, lasym) }

def bdry (mpol : Nat) (a b c : Int) : Bdry Int :=
  { mpol := mpol, ntor := 3, rc := fun m n => if m = 0 ∧ n = 0 then a else if m = 102 ∧ n = 0 then c else 0, zs := fun _ _ => 0,
    rs := fun m n => if m = 0 ∧ n = 1 then b else 0, zc := fun _ _ => 0 }

def start : World Int Int (Nat × Nat × Bool) (List Int) := { glob := file false 1, surfs := [], profs := [], vs := [] }

def runs (ops : List (Op Int Int (Nat × Nat × Bool) (List Int))) : World Int Int (Nat × Nat × Bool) (List Int) := ops.foldl (fun w op => (exec E w op).1) start

theorem runs_hist (ops : List (Op Int Int (Nat × Nat × Bool) (List Int))) : Hist E (fun _ _ => True) (runs ops) :=
  (Hist.start _).run ops fun _ _ => trivial

/-- What VMEC should be given, as a function of the present state; only for objects from a file. -/
def wanted (w : World Int Int (Nat × Nat × Bool) (List Int)) (v : Vm Int Int (Nat × Nat × Bool) (List Int)) (f : Indata Int Int (Nat × Nat × Bool)) (b : Bdry Int) :
    Indata Int Int (Nat × Nat × Bool) :=
  { rbc := coef b b.rc, zbs := coef b b.zs, rbs := coef b b.rs, zbc := coef b b.zc, phiedge := v.x.1,
    curtor := match w.fn v .current with | none => v.x.2.1 | some p => p 1,
    presScale := match w.fn v .pressure with | none => v.x.2.2 | some _ => 1,
    am := match w.fn v .pressure with | none => f.am | some p => 1000 * v.n .pressure + p 1,
    ac := match w.fn v .current with | none => f.ac | some p => 1000 * v.n .current + p 1,
    ai := match w.fn v .iota with | none => f.ai | some p => 1000 * v.n .iota + p 1,
    rest := f.rest }

theorem wanted_expected {w : World Int Int (Nat × Nat × Bool) (List Int)} {v : Vm Int Int (Nat × Nat × Bool) (List Int)} {f : Indata Int Int (Nat × Nat × Bool)} {b : Bdry Int}
    (hf : v.file = some f) (hb : w.surfs[v.boundary]? = some b) : Expected E w v (wanted w v f b) := by
  refine ⟨f, b, hf, hb, rfl, rfl, rfl, rfl, rfl, rfl, ?_, ?_, ?_, ?_, ?_⟩
  · cases h : w.fn v .current <;> simp [wanted, h, E]
  · cases h : w.fn v .pressure <;> simp [wanted, h]
  · cases h : w.fn v .pressure <;> simp [wanted, h, E]
  · cases h : w.fn v .current <;> simp [wanted, h, E]
  · cases h : w.fn v .iota <;> simp [wanted, h, E]

/-- Reads off a state that the answer is the wrong one. -/
def staleAt (w : World Int Int (Nat × Nat × Bool) (List Int)) (i : Nat) : Bool :=
  match w.vs[i]? with
  | none => false
  | some v => match v.file, w.surfs[v.boundary]?, (exec E w (.query i)).2 with
    | some f, some b, .value o => E.solve (wanted w v f b) != some o
    | _, _, _ => false

theorem staleAt_spec {w : World Int Int (Nat × Nat × Bool) (List Int)} {i : Nat} (h : staleAt w i = true) : Stale E w i := by
  unfold staleAt at h
  cases hv : w.vs[i]? with
  | none => rw [hv] at h; cases h
  | some v =>
    rw [hv] at h
    dsimp only at h
    cases hf : v.file with
    | none => rw [hf] at h; cases h
    | some f =>
      cases hb : w.surfs[v.boundary]? with
      | none => rw [hf, hb] at h; cases h
      | some b =>
        cases hq : (exec E w (.query i)).2 with
        | done => rw [hf, hb, hq] at h; cases h
        | raised => rw [hf, hb, hq] at h; cases h
        | value o =>
          rw [hf, hb, hq] at h
          exact ⟨v, o, hv, hq, _, wanted_expected hf hb, by simpa using h⟩

end Examples
open Examples

/-- A careful history with a result: a profile, a failed run (no flux), another boundary. -/
example : ∃ w v o, Hist E (Careful E) w ∧ w.vs[0]? = some v ∧ v.runnable = true ∧ (exec E w (.query 0)).2 = .value o ∧ o = [7, 2, 1, 10009, 5, 6, 12, 0, 0] := by
  have pl : ∀ b : Int, (bdry 2 b 0 0).Plain := fun b => ⟨by simp [bdry], by simp [bdry], by intro m n; simp [bdry], by intro m n; rfl⟩
  have h1 := (Hist.start (file false 1)).step (E := E) (ok := Careful E) (.newInput (file false 1))
    ⟨by simp, ⟨by decide, by decide, by intro m n; rfl, by intro m n; rfl⟩, by intro m n; simp [file], by intro m n; rfl⟩
  have h2 := h1.step (.newProf fun s => 9 * s) trivial
  have h3 := h2.step (.setProfile 0 .pressure (some 0)) ⟨by decide, by
    intro v hv t _ ht
    cases hv
    cases ht⟩
  have h4 := h3.step (.setX 0 (0, 2, 3)) trivial
  have h5 := h4.step (.query 0) trivial
  have h6 := h5.step (.setX 0 (7, 2, 3)) trivial
  have h7 := h6.step (.query 0) trivial
  have h8 := h7.step (.newSurf (bdry 2 12 0 0)) (pl 12)
  have h9 := h8.step (.setBoundary 0 1) (show 1 < 2 by decide)
  exact ⟨_, _, _, h9, rfl, rfl, rfl, by decide⟩

/-- **C96.** A profile that is taken away again stays in VMEC's arrays, and the scalars that it replaced do not come back. -/
theorem C96_removed_violated : ∃ w, Hist E (fun _ _ => True) w ∧ Stale E w 0 :=
  ⟨_, runs_hist [.newInput (file false 1), .newProf fun s => 9 * s, .setProfile 0 .current (some 0), .query 0, .setProfile 0 .current none],
    staleAt_spec (by decide)⟩

/-- **C96.** One profile object in two places is one parent: when it is removed from one place, its changes are no longer noticed in the other. -/
theorem C96_shared_profile_violated : ∃ w, Hist E (fun _ _ => True) w ∧ Stale E w 0 :=
  ⟨_, runs_hist [.newInput (file false 1), .newProf fun s => 9 * s, .newProf fun s => 4 * s, .setProfile 0 .pressure (some 0), .setProfile 0 .iota (some 0),
      .setProfile 0 .iota (some 1), .query 0, .setProf 0 fun s => 8 * s],
    staleAt_spec (by decide)⟩

/-- **C96.** Two objects share the module variables: the second input file replaces the scalars and profiles of the first object. -/
theorem C96_two_objects_violated : ∃ w, Hist E (fun _ _ => True) w ∧ Stale E w 0 :=
  ⟨_, runs_hist [.newInput (file false 1), .newInput (file false 8)], staleAt_spec (by decide)⟩

/-- **C96.** A change of `n_pressure` has no effect until something else changes. -/
theorem C96_points_violated : ∃ w, Hist E (fun _ _ => True) w ∧ Stale E w 0 :=
  ⟨_, runs_hist [.newInput (file false 1), .newProf fun s => 9 * s, .setProfile 0 .pressure (some 0), .query 0, .setN 0 .pressure 20], staleAt_spec (by decide)⟩

/-- **C96.** Without stellarator symmetry the coefficients `rs` and `zc` of the boundary never reach VMEC. -/
theorem C96_asymmetric_violated : ∃ w, Hist E (fun _ _ => True) w ∧ Stale E w 0 :=
  ⟨_, runs_hist [.newInput (file true 1), .setSurf 0 (bdry 3 10 5 0)], staleAt_spec (by decide)⟩

/-- **C96.** Modes of the boundary above 101 are left out without a word. -/
theorem C96_cap_violated : ∃ w, Hist E (fun _ _ => True) w ∧ Stale E w 0 :=
  ⟨_, runs_hist [.newInput (file false 1), .newSurf (bdry 102 10 0 1), .setBoundary 0 1], staleAt_spec (by decide)⟩

end Simsopt.Vmec
