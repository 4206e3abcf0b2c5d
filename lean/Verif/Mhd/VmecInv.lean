import Verif.Mhd.Vmec
import Mathlib.Tactic.Linarith
/-!
# What a VMEC result belongs to

The invariant behind C96: the flag `need_to_run_code` is down only when the stored output is the output for the present boundary, profiles and DOFs.
-/
namespace Simsopt.Vmec
variable {V Arr Rest Out : Type} [Zero V] [One V]

/-- References are to existing objects, and the object is told about the changes of everything that it uses. -/
def Vm.Wf (ns np : Nat) (v : Vm V Arr Rest Out) : Prop :=
  v.boundary < ns ∧ Obj.surf v.boundary ∈ v.parents ∧ v.parents.Nodup ∧
  (∀ s k, v.profile s = some k → k < np ∧ Obj.prof k ∈ v.parents) ∧
  (∀ s t k, v.profile s = some k → v.profile t = some k → s = t) ∧
  (∀ k, Obj.surf k ∈ v.parents → k = v.boundary) ∧
  (∀ k, Obj.prof k ∈ v.parents → ∃ s, v.profile s = some k)

/-- The module variables hold what the object has not replaced. -/
def Vm.Own (g : Indata V Arr Rest) (v : Vm V Arr Rest Out) : Prop :=
  ∀ file, v.file = some file → g.rest = file.rest ∧ (∀ m n, g.rbs m n = 0) ∧ (∀ m n, g.zbc m n = 0) ∧ g.phiedge = v.x.1 ∧
    (v.profile .current = none → g.curtor = v.x.2.1 ∧ g.ac = file.ac) ∧
    (v.profile .pressure = none → g.presScale = v.x.2.2 ∧ g.am = file.am) ∧
    (v.profile .iota = none → g.ai = file.ai)

/-- What the flag promises. -/
def Vm.Fresh (E : Env V Arr Rest Out) (w : World V Arr Rest Out) (v : Vm V Arr Rest Out) : Prop :=
  v.need = false → ∃ o, v.wout = some o ∧ (v.runnable = true → ∃ g, Expected E w v g ∧ E.solve g = some o)

structure Inv (E : Env V Arr Rest Out) (w : World V Arr Rest Out) : Prop where
  plain : ∀ b ∈ w.surfs, b.Plain
  wf : ∀ v ∈ w.vs, v.Wf w.surfs.length w.profs.length
  own : ∀ v ∈ w.vs, v.Own w.glob
  fresh : ∀ v ∈ w.vs, v.Fresh E w
  one : w.vs.Pairwise fun a b => ¬(a.runnable = true ∧ b.runnable = true)

theorem Inv.replace {E : Env V Arr Rest Out} {w : World V Arr Rest Out} (h : Inv E w) {i : Nat} {v v' : Vm V Arr Rest Out} {g : Indata V Arr Rest}
    (hv : w.vs[i]? = some v) (hf : v'.file = v.file) (hw : v'.Wf w.surfs.length w.profs.length) (ho : v'.Own g) (hfr : v'.Fresh E w)
    (hg : g = w.glob ∨ v.runnable = true) : Inv E ((w.setGlob g).put i v') := by
  have hrun : v'.runnable = v.runnable := by unfold Vm.runnable; rw [hf]
  have hil : i < w.vs.length := by
    by_contra hn; rw [List.getElem?_eq_none (by omega)] at hv; cases hv
  have hvi : w.vs[i] = v := by rw [List.getElem?_eq_getElem hil] at hv; exact Option.some.inj hv
  have hmem : ∀ a ∈ ((w.setGlob g).put i v').vs, a = v' ∨ ∃ j, ∃ hj : j < w.vs.length, j ≠ i ∧ w.vs[j] = a := by
    intro a ha
    replace ha : a ∈ w.vs.set i v' := ha
    obtain ⟨j, hj, rfl⟩ := List.getElem_of_mem ha
    rw [List.getElem_set]
    split
    · exact Or.inl rfl
    · next hne => exact Or.inr ⟨j, by simpa using hj, fun e => hne e.symm, rfl⟩
  have hpw := List.pairwise_iff_getElem.mp h.one
  have hother : ∀ j (hj : j < w.vs.length), j ≠ i → ¬(w.vs[j].runnable = true ∧ v.runnable = true) := by
    intro j hj hne hh
    rcases Nat.lt_or_gt_of_ne hne with hlt | hlt
    · exact hpw j i hj hil hlt ⟨hh.1, hvi ▸ hh.2⟩
    · exact hpw i j hil hj hlt ⟨hvi ▸ hh.2, hh.1⟩
  refine ⟨h.plain, fun a ha => ?_, fun a ha => ?_, fun a ha => ?_, ?_⟩
  · rcases hmem a ha with rfl | ⟨j, hj, -, rfl⟩
    · exact hw
    · exact h.wf _ (List.getElem_mem hj)
  · rcases hmem a ha with rfl | ⟨j, hj, hne, rfl⟩
    · exact ho
    · show w.vs[j].Own g
      rcases hg with rfl | hg
      · exact h.own _ (List.getElem_mem hj)
      · intro file hfile
        exact absurd ⟨by unfold Vm.runnable; rw [hfile]; rfl, hg⟩ (hother j hj hne)
  · rcases hmem a ha with rfl | ⟨j, hj, -, rfl⟩
    · exact hfr
    · exact h.fresh _ (List.getElem_mem hj)
  · show (w.vs.set i v').Pairwise _
    rw [List.pairwise_iff_getElem]
    intro a b ha hb hab
    rw [List.getElem_set, List.getElem_set]
    simp only [List.length_set] at ha hb
    split <;> split
    · omega
    · next h1 h2 => rw [hrun]; intro hh; exact hother b hb (fun e => h2 e.symm) ⟨hh.2, hh.1⟩
    · next h1 h2 => rw [hrun]; intro hh; exact hother a ha (fun e => h1 e.symm) hh
    · exact hpw a b ha hb hab

omit [One V] in
theorem modes_plain {b : Bdry V} (hb : b.Plain) (c : Nat → Int → V) : modes b c = coef b c := by
  funext m n
  unfold modes coef
  rw [Nat.min_eq_left hb.1, Nat.min_eq_left hb.2.1]

omit [One V] in
theorem coef_zero {b : Bdry V} {c : Nat → Int → V} (hc : ∀ m n, c m n = 0) : coef b c = fun _ _ => 0 := by
  funext m n
  unfold coef
  rw [hc, ite_self]

omit [One V] in
theorem fitSlot_spec {E : Env V Arr Rest Out} {w : World V Arr Rest Out} {v : Vm V Arr Rest Out} {s : Slot} {old a : Arr}
    (h : fitSlot E w v s old = some a) :
    match w.fn v s with | none => a = old | some f => E.fit s w.glob.rest f (v.n s) = some a := by
  unfold fitSlot at h
  unfold World.fn
  cases hp : v.profile s with
  | none => rw [hp] at h; cases h; rfl
  | some k => rw [hp] at h; exact h

omit [One V] in
theorem fitSlot_none {E : Env V Arr Rest Out} {w : World V Arr Rest Out} {v : Vm V Arr Rest Out} {s : Slot} {old a : Arr}
    (h : fitSlot E w v s old = some a) (hp : v.profile s = none) : a = old := by
  unfold fitSlot at h
  rw [hp] at h; cases h; rfl

theorem setIndata_own (E : Env V Arr Rest Out) (w : World V Arr Rest Out) (v : Vm V Arr Rest Out) (ho : v.Own w.glob) :
    v.Own (setIndata E w v).1 := by
  intro file hfile
  have H := ho file hfile
  unfold setIndata
  split
  · exact H
  split
  · exact H
  split
  · exact H
  · dsimp only
    cases h1 : fitSlot E w v .pressure (w.glob.setBoundary (modes _ _) (modes _ _)).am with
    | none => exact H
    | some am =>
      dsimp only
      have e1 := fun hp => fitSlot_none h1 hp
      have H1 : ∀ rbc zbs, ((w.glob.setBoundary rbc zbs).setAm am).presScale = w.glob.presScale := fun _ _ => rfl
      cases h2 : fitSlot E w v .current ((w.glob.setBoundary (modes _ _) (modes _ _)).setAm am).ac with
      | none =>
        refine ⟨H.1, H.2.1, H.2.2.1, H.2.2.2.1, H.2.2.2.2.1, fun hp => ⟨(H.2.2.2.2.2.1 hp).1, ?_⟩, H.2.2.2.2.2.2⟩
        show am = file.am
        rw [e1 hp]; exact (H.2.2.2.2.2.1 hp).2
      | some ac =>
        dsimp only
        have e2 := fun hp => fitSlot_none h2 hp
        cases h3 : fitSlot E w v .iota (((w.glob.setBoundary (modes _ _) (modes _ _)).setAm am).setAc ac).ai with
        | none =>
          refine ⟨H.1, H.2.1, H.2.2.1, H.2.2.2.1, fun hp => ⟨(H.2.2.2.2.1 hp).1, ?_⟩, fun hp => ⟨(H.2.2.2.2.2.1 hp).1, ?_⟩, H.2.2.2.2.2.2⟩
          · show ac = file.ac
            rw [e2 hp]; exact (H.2.2.2.2.1 hp).2
          · show am = file.am
            rw [e1 hp]; exact (H.2.2.2.2.2.1 hp).2
        | some ai =>
          have e3 := fun hp => fitSlot_none h3 hp
          refine ⟨H.1, H.2.1, H.2.2.1, H.2.2.2.1, fun hp => ⟨?_, ?_⟩, fun hp => ⟨?_, ?_⟩, fun hp => ?_⟩
          · show (match w.fn v .current with | none => w.glob.curtor | some f => E.total w.glob.rest f) = _
            unfold World.fn
            rw [hp]; exact (H.2.2.2.2.1 hp).1
          · show ac = file.ac
            rw [e2 hp]; exact (H.2.2.2.2.1 hp).2
          · show (if (v.profile .pressure).isSome then 1 else w.glob.presScale) = _
            rw [hp, if_neg (by simp)]; exact (H.2.2.2.2.2.1 hp).1
          · show am = file.am
            rw [e1 hp]; exact (H.2.2.2.2.2.1 hp).2
          · show ai = file.ai
            rw [e3 hp]; exact H.2.2.2.2.2.2 hp

theorem setIndata_expected {E : Env V Arr Rest Out} {w : World V Arr Rest Out} {v : Vm V Arr Rest Out} (hp : ∀ b ∈ w.surfs, b.Plain) (ho : v.Own w.glob)
    (hok : (setIndata E w v).2 = true) : Expected E w v (setIndata E w v).1 := by
  unfold setIndata at hok ⊢
  cases hf : v.file with
  | none =>
    rw [if_pos (by unfold Vm.runnable; rw [hf]; rfl)] at hok
    cases hok
  | some file =>
    have H := ho file hf
    have hr : ¬((!v.runnable) = true) := by unfold Vm.runnable; rw [hf]; simp
    rw [if_neg hr] at hok ⊢
    split at hok
    · cases hok
    · next hres =>
      rw [if_neg hres]
      cases hb : w.surfs[v.boundary]? with
      | none => rw [hb] at hok; cases hok
      | some b =>
        rw [hb] at hok
        dsimp only at hok ⊢
        have hpl := hp b (List.mem_of_getElem? hb)
        cases h1 : fitSlot E w v .pressure (w.glob.setBoundary (modes b b.rc) (modes b b.zs)).am with
        | none => rw [h1] at hok; cases hok
        | some am =>
          rw [h1] at hok
          dsimp only at hok ⊢
          cases h2 : fitSlot E w v .current ((w.glob.setBoundary (modes b b.rc) (modes b b.zs)).setAm am).ac with
          | none => rw [h2] at hok; cases hok
          | some ac =>
            rw [h2] at hok
            dsimp only at hok ⊢
            cases h3 : fitSlot E w v .iota (((w.glob.setBoundary (modes b b.rc) (modes b b.zs)).setAm am).setAc ac).ai with
            | none => rw [h3] at hok; cases hok
            | some ai =>
              dsimp only
              have e1 := fitSlot_spec h1
              have e2 := fitSlot_spec h2
              have e3 := fitSlot_spec h3
              have hnone : ∀ s, w.fn v s = none → v.profile s = none := fun s hs => by
                unfold World.fn at hs; simpa using hs
              have hsome : ∀ s f, w.fn v s = some f → (v.profile s).isSome = true := fun s f hs => by
                unfold World.fn at hs
                cases hq : v.profile s with
                | none => rw [hq] at hs; cases hs
                | some k => rfl
              refine ⟨file, b, hf, hb, H.1, modes_plain hpl _, modes_plain hpl _, ?_, ?_, H.2.2.2.1, ?_, ?_, ?_, ?_, ?_⟩
              · rw [coef_zero hpl.2.2.1]; funext m n; exact H.2.1 m n
              · rw [coef_zero hpl.2.2.2]; funext m n; exact H.2.2.1 m n
              · show match w.fn v .current with | none => (match w.fn v .current with | none => w.glob.curtor | some f => E.total w.glob.rest f) = v.x.2.1 | some f => (match w.fn v .current with | none => w.glob.curtor | some f => E.total w.glob.rest f) = E.total file.rest f
                cases hc : w.fn v .current with
                | none => exact (H.2.2.2.2.1 (hnone _ hc)).1
                | some f => dsimp only; rw [H.1]
              · show match w.fn v .pressure with | none => (if (v.profile .pressure).isSome then 1 else w.glob.presScale) = v.x.2.2 | some _ => (if (v.profile .pressure).isSome then 1 else w.glob.presScale) = 1
                cases hc : w.fn v .pressure with
                | none => dsimp only; rw [hnone _ hc, if_neg (by simp)]; exact (H.2.2.2.2.2.1 (hnone _ hc)).1
                | some f => dsimp only; rw [if_pos (hsome _ _ hc)]
              · show match w.fn v .pressure with | none => am = file.am | some f => E.fit .pressure file.rest f (v.n .pressure) = some am
                cases hc : w.fn v .pressure with
                | none => rw [hc] at e1; dsimp only at e1 ⊢; rw [e1]; exact (H.2.2.2.2.2.1 (hnone _ hc)).2
                | some f => rw [hc] at e1; dsimp only at e1 ⊢; rw [← H.1]; exact e1
              · show match w.fn v .current with | none => ac = file.ac | some f => E.fit .current file.rest f (v.n .current) = some ac
                cases hc : w.fn v .current with
                | none => rw [hc] at e2; dsimp only at e2 ⊢; rw [e2]; exact (H.2.2.2.2.1 (hnone _ hc)).2
                | some f => rw [hc] at e2; dsimp only at e2 ⊢; rw [← H.1]; exact e2
              · show match w.fn v .iota with | none => ai = file.ai | some f => E.fit .iota file.rest f (v.n .iota) = some ai
                cases hc : w.fn v .iota with
                | none => rw [hc] at e3; dsimp only at e3 ⊢; rw [e3]; exact H.2.2.2.2.2.2 (hnone _ hc)
                | some f => rw [hc] at e3; dsimp only at e3 ⊢; rw [← H.1]; exact e3

/-- The module variables of an object depend only on the objects that it uses. -/
theorem Expected.congr {E : Env V Arr Rest Out} {w w' : World V Arr Rest Out} {v : Vm V Arr Rest Out} {g : Indata V Arr Rest} (h : Expected E w v g)
    (hs : w'.surfs[v.boundary]? = w.surfs[v.boundary]?) (hp : ∀ s, w'.fn v s = w.fn v s) : Expected E w' v g := by
  obtain ⟨file, b, h1, h2, h3⟩ := h
  refine ⟨file, b, h1, hs.trans h2, ?_⟩
  rw [hp, hp, hp]
  exact h3

omit [One V] in
theorem fn_congr {w w' : World V Arr Rest Out} {v : Vm V Arr Rest Out} (h : ∀ s k, v.profile s = some k → w'.profs[k]? = w.profs[k]?) (s : Slot) :
    w'.fn v s = w.fn v s := by
  unfold World.fn
  cases hq : v.profile s with
  | none => rfl
  | some k =>
    show some (w'.profs.getD k fun _ => 0) = some (w.profs.getD k fun _ => 0)
    rw [List.getD_eq_getElem?_getD, List.getD_eq_getElem?_getD, h s k hq]

/-- The rest of the invariant, when surfaces and profiles are added or changed. -/
theorem Inv.env {E : Env V Arr Rest Out} {w w' : World V Arr Rest Out} (h : Inv E w) (hg : w'.glob = w.glob) (hpl : ∀ b ∈ w'.surfs, b.Plain)
    (hns : w.surfs.length ≤ w'.surfs.length) (hnp : w.profs.length ≤ w'.profs.length)
    (F : Vm V Arr Rest Out → Vm V Arr Rest Out) (hvs : w'.vs = w.vs.map F) (hF : ∀ v, F v = v ∨ F v = v.setNeed true)
    (hsame : ∀ v ∈ w.vs, (F v).need = false → w'.surfs[v.boundary]? = w.surfs[v.boundary]? ∧ ∀ s k, v.profile s = some k → w'.profs[k]? = w.profs[k]?) :
    Inv E w' := by
  have hfile : ∀ v, (F v).file = v.file := fun v => by rcases hF v with e | e <;> rw [e] <;> rfl
  refine ⟨hpl, ?_, ?_, ?_, ?_⟩
  · rw [hvs]
    intro a ha
    obtain ⟨v, hv, rfl⟩ := List.mem_map.mp ha
    have H := h.wf v hv
    have H' : (F v).Wf w.surfs.length w.profs.length := by rcases hF v with e | e <;> rw [e] <;> exact H
    exact ⟨by have := H'.1; omega, H'.2.1, H'.2.2.1, fun s k hk => ⟨by have := (H'.2.2.2.1 s k hk).1; omega, (H'.2.2.2.1 s k hk).2⟩, H'.2.2.2.2⟩
  · rw [hvs, hg]
    intro a ha
    obtain ⟨v, hv, rfl⟩ := List.mem_map.mp ha
    rcases hF v with e | e <;> rw [e] <;> exact h.own v hv
  · rw [hvs]
    intro a ha
    obtain ⟨v, hv, rfl⟩ := List.mem_map.mp ha
    intro hn
    have hs := hsame v hv hn
    rcases hF v with e | e
    · rw [e] at hn ⊢
      obtain ⟨o, ho, hr⟩ := h.fresh v hv hn
      refine ⟨o, ho, fun hrun => ?_⟩
      obtain ⟨g, hE, hsol⟩ := hr hrun
      exact ⟨g, hE.congr hs.1 (fn_congr hs.2), hsol⟩
    · rw [e] at hn; cases hn
  · rw [hvs, List.pairwise_map]
    refine h.one.imp fun {a b} hab => ?_
    unfold Vm.runnable at hab ⊢
    rwa [hfile, hfile]

theorem step_inv {E : Env V Arr Rest Out} {w : World V Arr Rest Out} (h : Inv E w) (op : Op V Arr Rest Out) (hc : Careful E w op) : Inv E (exec E w op).1 := by
  have hplain : ∀ b, b.Plain → ∀ a ∈ w.surfs ++ [b], a.Plain := fun b hb a ha => by
    rcases List.mem_append.mp ha with h1 | h1
    · exact h.plain a h1
    · rw [List.mem_singleton] at h1; exact h1 ▸ hb
  have happ : ∀ b, b.Plain → Inv E (w.setSurfs (w.surfs ++ [b])) := fun b hb => by
    refine h.env (w' := w.setSurfs (w.surfs ++ [b])) rfl (hplain b hb) (by show _ ≤ (w.surfs ++ [b]).length; simp) (Nat.le_refl _) id (by simp [World.setSurfs]) (fun v => Or.inl rfl) fun v hv _ => ⟨?_, fun _ _ _ => rfl⟩
    show (w.surfs ++ [b])[v.boundary]? = _
    rw [List.getElem?_append_left (h.wf v hv).1]
  cases op with
  | newInput file =>
    obtain ⟨hnr, hpl, hs1, hs2⟩ := hc
    refine ⟨hplain _ hpl, ?_, ?_, ?_, ?_⟩
    · intro v hv
      replace hv : v ∈ w.vs ++ [_] := hv
      show v.Wf (w.surfs ++ [_]).length w.profs.length
      rw [List.length_append, List.length_singleton]
      rcases List.mem_append.mp hv with hv | hv
      · have H := h.wf v hv
        exact ⟨by have := H.1; omega, H.2⟩
      · rw [List.mem_singleton] at hv
        subst hv
        refine ⟨by simp [fresh], by simp [fresh], by simp [fresh], ?_, ?_, ?_, ?_⟩
        · intro s k hk; cases hk
        · intro s t k hk; cases hk
        · intro k hk; simpa [fresh] using hk
        · intro k hk; simp [fresh] at hk
    · intro v hv
      replace hv : v ∈ w.vs ++ [_] := hv
      show v.Own file
      rcases List.mem_append.mp hv with hv | hv
      · intro f hf
        have := hnr v hv
        unfold Vm.runnable at this
        rw [hf] at this
        cases this
      · rw [List.mem_singleton] at hv
        subst hv
        intro f hf
        cases hf
        exact ⟨rfl, hs1, hs2, rfl, fun _ => ⟨rfl, rfl⟩, fun _ => ⟨rfl, rfl⟩, fun _ => rfl⟩
    · intro v hv
      replace hv : v ∈ w.vs ++ [_] := hv
      intro hn
      rcases List.mem_append.mp hv with hv | hv
      · obtain ⟨o, ho, -⟩ := h.fresh v hv hn
        exact ⟨o, ho, fun hr => by rw [hnr v hv] at hr; cases hr⟩
      · rw [List.mem_singleton] at hv
        subst hv
        cases hn
    · show (w.vs ++ [_]).Pairwise _
      rw [List.pairwise_append]
      refine ⟨h.one, List.pairwise_singleton _ _, fun a ha b _ hh => ?_⟩
      rw [hnr a ha] at hh
      cases hh.1
  | newWout b o =>
    have h1 := happ b hc
    refine ⟨h1.plain, ?_, ?_, ?_, ?_⟩
    · intro v hv
      replace hv : v ∈ w.vs ++ [_] := hv
      show v.Wf (w.surfs ++ [_]).length w.profs.length
      rcases List.mem_append.mp hv with hv | hv
      · exact h1.wf v hv
      · rw [List.mem_singleton] at hv
        subst hv
        refine ⟨by simp [fresh], by simp [fresh], by simp [fresh], ?_, ?_, ?_, ?_⟩
        · intro s k hk; cases hk
        · intro s t k hk; cases hk
        · intro k hk; simpa [fresh] using hk
        · intro k hk; simp [fresh] at hk
    · intro v hv
      replace hv : v ∈ w.vs ++ [_] := hv
      show v.Own w.glob
      rcases List.mem_append.mp hv with hv | hv
      · exact h1.own v hv
      · rw [List.mem_singleton] at hv
        subst hv
        intro f hf
        cases hf
    · intro v hv
      replace hv : v ∈ w.vs ++ [_] := hv
      rcases List.mem_append.mp hv with hv | hv
      · exact h1.fresh v hv
      · rw [List.mem_singleton] at hv
        subst hv
        exact fun _ => ⟨o, rfl, fun hr => by cases hr⟩
    · show (w.vs ++ [_]).Pairwise _
      rw [List.pairwise_append]
      refine ⟨h.one, List.pairwise_singleton _ _, fun a _ b hb hh => ?_⟩
      rw [List.mem_singleton] at hb
      subst hb
      cases hh.2
  | newSurf b => exact happ b hc
  | newProf f =>
    refine h.env (w' := w.setProfs (w.profs ++ [f])) rfl h.plain (Nat.le_refl _) (by show _ ≤ (w.profs ++ [f]).length; simp) id (by simp [World.setProfs]) (fun v => Or.inl rfl) fun v hv _ => ⟨rfl, fun s k hk => ?_⟩
    show (w.profs ++ [f])[k]? = _
    rw [List.getElem?_append_left ((h.wf v hv).2.2.2.1 s k hk).1]
  | setSurf k b =>
    refine h.env (w' := (w.setSurfs (w.surfs.set k b)).notify (.surf k)) rfl ?_ (by show _ ≤ (w.surfs.set k b).length; simp) (Nat.le_refl _) (fun v => if Obj.surf k ∈ v.parents then v.setNeed true else v) rfl ?_ ?_
    · intro a ha
      replace ha : a ∈ w.surfs.set k b := ha
      rcases List.mem_or_eq_of_mem_set ha with h1 | h1
      · exact h.plain a h1
      · exact h1 ▸ hc
    · intro v; by_cases hk : Obj.surf k ∈ v.parents
      · exact Or.inr (if_pos hk)
      · exact Or.inl (if_neg hk)
    · intro v hv hn
      refine ⟨?_, fun _ _ _ => rfl⟩
      show (w.surfs.set k b)[v.boundary]? = _
      rw [List.getElem?_set]
      split
      · next e => rw [if_pos (e ▸ (h.wf v hv).2.1)] at hn; cases hn
      · rfl
  | setProf k f =>
    refine h.env (w' := (w.setProfs (w.profs.set k f)).notify (.prof k)) rfl h.plain (Nat.le_refl _) (by show _ ≤ (w.profs.set k f).length; simp) (fun v => if Obj.prof k ∈ v.parents then v.setNeed true else v) rfl ?_ ?_
    · intro v; by_cases hk : Obj.prof k ∈ v.parents
      · exact Or.inr (if_pos hk)
      · exact Or.inl (if_neg hk)
    · intro v hv hn
      refine ⟨rfl, fun s j hj => ?_⟩
      show (w.profs.set k f)[j]? = _
      rw [List.getElem?_set]
      split
      · next e => rw [if_pos (e ▸ ((h.wf v hv).2.2.2.1 s j hj).2)] at hn; cases hn
      · rfl
  | setX i x =>
    simp only [exec]
    cases hv : w.vs[i]? with
    | none => exact h
    | some v =>
      have hm := List.mem_of_getElem? hv
      dsimp only
      by_cases hr : v.runnable = true
      · rw [if_pos hr]
        refine h.replace hv rfl (h.wf v hm) ?_ (fun hn => by cases hn) (Or.inr hr)
        intro file hf
        have H := h.own v hm file hf
        exact ⟨H.1, H.2.1, H.2.2.1, rfl, fun hp => ⟨rfl, (H.2.2.2.2.1 hp).2⟩, fun hp => ⟨rfl, (H.2.2.2.2.2.1 hp).2⟩, H.2.2.2.2.2.2⟩
      · rw [if_neg hr]
        refine h.replace (g := w.glob) hv rfl (h.wf v hm) ?_ (fun hn => by cases hn) (Or.inl rfl)
        intro file hf
        replace hf : v.file = some file := hf
        exact absurd (by unfold Vm.runnable; rw [hf]; rfl) hr
  | setBoundary i k =>
    simp only [exec]
    cases hv : w.vs[i]? with
    | none => exact h
    | some v =>
      have hm := List.mem_of_getElem? hv
      dsimp only
      by_cases hk : k = v.boundary
      · rw [if_pos hk]; exact h
      · rw [if_neg hk]
        have H := h.wf v hm
        refine h.replace (g := w.glob) hv rfl ?_ (h.own v hm) (fun hn => by cases hn) (Or.inl rfl)
        refine ⟨hc, ?_, ?_, ?_, H.2.2.2.2.1, ?_, ?_⟩
        · show Obj.surf k ∈ v.parents.erase (.surf v.boundary) ++ [.surf k]
          simp
        · show (v.parents.erase (.surf v.boundary) ++ [Obj.surf k]).Nodup
          rw [List.nodup_append]
          refine ⟨H.2.2.1.erase _, by simp, fun a ha b hb e => ?_⟩
          rw [List.mem_singleton] at hb
          subst hb
          subst e
          exact hk (H.2.2.2.2.2.1 k (List.mem_of_mem_erase ha))
        · intro s j hj
          refine ⟨(H.2.2.2.1 s j hj).1, ?_⟩
          show Obj.prof j ∈ v.parents.erase (.surf v.boundary) ++ [.surf k]
          refine List.mem_append_left _ ((List.mem_erase_of_ne (by intro e; cases e)).mpr (H.2.2.2.1 s j hj).2)
        · intro j hj
          replace hj : Obj.surf j ∈ v.parents.erase (.surf v.boundary) ++ [.surf k] := hj
          show j = k
          rcases List.mem_append.mp hj with hj | hj
          · have e := H.2.2.2.2.2.1 j (List.mem_of_mem_erase hj)
            subst e
            exact absurd hj (List.Nodup.not_mem_erase H.2.2.1)
          · rw [List.mem_singleton] at hj; cases hj; rfl
        · intro j hj
          replace hj : Obj.prof j ∈ v.parents.erase (.surf v.boundary) ++ [.surf k] := hj
          rcases List.mem_append.mp hj with hj | hj
          · exact H.2.2.2.2.2.2 j (List.mem_of_mem_erase hj)
          · rw [List.mem_singleton] at hj; cases hj
  | setProfile i s new =>
    simp only [exec]
    cases hv : w.vs[i]? with
    | none => exact h
    | some v =>
      have hm := List.mem_of_getElem? hv
      dsimp only
      have H := h.wf v hm
      have Ho := h.own v hm
      cases hr : replaceProfile v s new with
      | none => exact h
      | some v' =>
        dsimp only
        unfold replaceProfile at hr
        by_cases he : new = v.profile s
        · rw [if_pos he] at hr
          cases hr
          exact h.replace (g := w.glob) hv rfl H Ho (h.fresh v hm) (Or.inl rfl)
        · rw [if_neg he] at hr
          cases new with
          | none =>
            have := hc v hv
            exact absurd this.symm he
          | some k =>
            obtain ⟨hk, hdist⟩ := hc
            have hdist := hdist v hv
            -- the list of parents without the old profile
            obtain ⟨ps, hps, hnd, hsurf, hprof⟩ : ∃ ps : List Obj, v' = ((v.setProfile s (some k)).setParents (if Obj.prof k ∈ ps then ps else ps ++ [.prof k])).setNeed true ∧ ps.Nodup ∧
                (∀ j, Obj.surf j ∈ ps ↔ Obj.surf j ∈ v.parents) ∧ (∀ j, Obj.prof j ∈ ps ↔ Obj.prof j ∈ v.parents ∧ v.profile s ≠ some j) := by
              cases ho : v.profile s with
              | none =>
                rw [ho] at hr
                cases hr
                exact ⟨v.parents, rfl, H.2.2.1, fun _ => Iff.rfl, fun j => by simp⟩
              | some old =>
                rw [ho] at hr
                dsimp only at hr
                rw [if_pos (H.2.2.2.1 s old ho).2] at hr
                cases hr
                refine ⟨v.parents.erase (.prof old), rfl, H.2.2.1.erase _, fun j => List.mem_erase_of_ne (by intro e; cases e), fun j => ?_⟩
                rw [H.2.2.1.mem_erase_iff]
                constructor
                · rintro ⟨h1, h2⟩; exact ⟨h2, fun e => h1 (by cases e; rfl)⟩
                · rintro ⟨h1, h2⟩; exact ⟨fun e => h2 (by cases e; rfl), h1⟩
            subst hps
            have hnotin : Obj.prof k ∉ ps := by
              intro hin
              obtain ⟨h1, h2⟩ := (hprof k).mp hin
              obtain ⟨t, ht⟩ := H.2.2.2.2.2.2 k h1
              by_cases hts : t = s
              · subst hts; exact h2 ht
              · exact hdist t hts ht
            rw [if_neg hnotin]
            refine h.replace (g := w.glob) hv rfl ?_ ?_ (fun hn => by cases hn) (Or.inl rfl)
            · refine ⟨H.1, ?_, ?_, ?_, ?_, ?_, ?_⟩
              · exact List.mem_append_left _ ((hsurf _).mpr H.2.1)
              · show (ps ++ [Obj.prof k]).Nodup
                rw [List.nodup_append]
                refine ⟨hnd, by simp, fun a ha b hb e => ?_⟩
                rw [List.mem_singleton] at hb
                subst hb; subst e
                exact hnotin ha
              · intro t j hj
                replace hj : (if t = s then some k else v.profile t) = some j := hj
                show j < _ ∧ Obj.prof j ∈ ps ++ [.prof k]
                by_cases hts : t = s
                · rw [if_pos hts] at hj
                  cases hj
                  exact ⟨hk, by simp⟩
                · rw [if_neg hts] at hj
                  refine ⟨(H.2.2.2.1 t j hj).1, List.mem_append_left _ ((hprof j).mpr ⟨(H.2.2.2.1 t j hj).2, fun e => hts (H.2.2.2.2.1 t s j hj e)⟩)⟩
              · intro t u j ht hu
                replace ht : (if t = s then some k else v.profile t) = some j := ht
                replace hu : (if u = s then some k else v.profile u) = some j := hu
                by_cases hts : t = s <;> by_cases hus : u = s
                · rw [hts, hus]
                · rw [if_pos hts] at ht; rw [if_neg hus] at hu; cases ht; exact absurd hu (hdist u hus)
                · rw [if_neg hts] at ht; rw [if_pos hus] at hu; cases hu; exact absurd ht (hdist t hts)
                · rw [if_neg hts] at ht; rw [if_neg hus] at hu; exact H.2.2.2.2.1 t u j ht hu
              · intro j hj
                replace hj : Obj.surf j ∈ ps ++ [.prof k] := hj
                rcases List.mem_append.mp hj with hj | hj
                · exact H.2.2.2.2.2.1 j ((hsurf j).mp hj)
                · rw [List.mem_singleton] at hj; cases hj
              · intro j hj
                replace hj : Obj.prof j ∈ ps ++ [.prof k] := hj
                show ∃ t, (if t = s then some k else v.profile t) = some j
                rcases List.mem_append.mp hj with hj | hj
                · obtain ⟨h1, h2⟩ := (hprof j).mp hj
                  obtain ⟨t, ht⟩ := H.2.2.2.2.2.2 j h1
                  refine ⟨t, ?_⟩
                  rw [if_neg (by rintro rfl; exact h2 ht)]
                  exact ht
                · rw [List.mem_singleton] at hj; cases hj
                  exact ⟨s, if_pos rfl⟩
            · intro file hf
              have Hf := Ho file hf
              have hpn : ∀ t, (if t = s then some k else v.profile t) = none → v.profile t = none := by
                intro t ht
                by_cases hts : t = s
                · rw [if_pos hts] at ht; cases ht
                · rwa [if_neg hts] at ht
              exact ⟨Hf.1, Hf.2.1, Hf.2.2.1, Hf.2.2.2.1, fun hp => Hf.2.2.2.2.1 (hpn _ hp), fun hp => Hf.2.2.2.2.2.1 (hpn _ hp), fun hp => Hf.2.2.2.2.2.2 (hpn _ hp)⟩
  | setN i s n =>
    simp only [exec]
    cases hv : w.vs[i]? with
    | none => exact h
    | some v =>
      have hm := List.mem_of_getElem? hv
      have hp := hc v hv
      dsimp only
      refine h.replace (g := w.glob) hv rfl (h.wf v hm) (h.own v hm) ?_ (Or.inl rfl)
      intro hn
      obtain ⟨o, ho, hr⟩ := h.fresh v hm hn
      refine ⟨o, ho, fun hrun => ?_⟩
      obtain ⟨g, ⟨file, b, e1, e2, e3, e4, e5, e6, e7, e8, e9, e10, e11, e12, e13⟩, hs⟩ := hr hrun
      have hfn : w.fn v s = none := by unfold World.fn; rw [hp]; rfl
      have hfn' : ∀ t, w.fn (v.setN s n) t = w.fn v t := fun t => rfl
      have hnn : ∀ t, t ≠ s → (v.setN s n).n t = v.n t := fun t ht => if_neg ht
      refine ⟨g, ⟨file, b, e1, e2, e3, e4, e5, e6, e7, e8, e9, e10, ?_, ?_, ?_⟩, hs⟩
      · by_cases hs' : Slot.pressure = s
        · rw [hfn', hs', hfn]; rw [hs', hfn] at e11; exact e11
        · rw [hfn', hnn _ hs']; exact e11
      · by_cases hs' : Slot.current = s
        · rw [hfn', hs', hfn]; rw [hs', hfn] at e12; exact e12
        · rw [hfn', hnn _ hs']; exact e12
      · by_cases hs' : Slot.iota = s
        · rw [hfn', hs', hfn]; rw [hs', hfn] at e13; exact e13
        · rw [hfn', hnn _ hs']; exact e13
  | getInput i =>
    simp only [exec]
    cases hv : w.vs[i]? with
    | none => exact h
    | some v =>
      have hm := List.mem_of_getElem? hv
      dsimp only
      have hput : w.setGlob (setIndata E w v).1 = (w.setGlob (setIndata E w v).1).put i v := by
        have : w.vs.set i v = w.vs := by
          have hil : i < w.vs.length := by by_contra hn; rw [List.getElem?_eq_none (by omega)] at hv; cases hv
          rw [List.getElem?_eq_getElem hil] at hv
          rw [← Option.some.inj hv, List.set_getElem_self]
        show _ = World.mk _ _ _ (w.vs.set i v)
        rw [this]; rfl
      rw [hput]
      refine h.replace hv rfl (h.wf v hm) (setIndata_own E w v (h.own v hm)) (h.fresh v hm) ?_
      by_cases hr : v.runnable = true
      · exact Or.inr hr
      · left; unfold setIndata; rw [if_pos (by simpa using hr)]
  | query i =>
    simp only [exec]
    cases hv : w.vs[i]? with
    | none => exact h
    | some v =>
      have hm := List.mem_of_getElem? hv
      dsimp only
      unfold query
      split
      · exact h
      split
      · exact h
      next hnr =>
      have hr : v.runnable = true := by simpa using hnr
      have hput : w.setGlob (setIndata E w v).1 = (w.setGlob (setIndata E w v).1).put i v := by
        have : w.vs.set i v = w.vs := by
          have hil : i < w.vs.length := by by_contra hn; rw [List.getElem?_eq_none (by omega)] at hv; cases hv
          rw [List.getElem?_eq_getElem hil] at hv
          rw [← Option.some.inj hv, List.set_getElem_self]
        show _ = World.mk _ _ _ (w.vs.set i v)
        rw [this]; rfl
      have hfail : Inv E (w.setGlob (setIndata E w v).1) := by
        rw [hput]
        exact h.replace hv rfl (h.wf v hm) (setIndata_own E w v (h.own v hm)) (h.fresh v hm) (Or.inr hr)
      dsimp only
      split
      · exact hfail
      · next hok =>
        cases hsol : E.solve (setIndata E w v).1 with
        | none => exact hfail
        | some o =>
          dsimp only
          refine h.replace hv rfl (h.wf v hm) (setIndata_own E w v (h.own v hm)) ?_ (Or.inr hr)
          intro _
          have hex : Expected E w v (setIndata E w v).1 := setIndata_expected h.plain (h.own v hm) (by simpa using hok)
          exact ⟨o, rfl, fun _ => ⟨_, hex, hsol⟩⟩

theorem Hist.inv {E : Env V Arr Rest Out} {w : World V Arr Rest Out} (h : Hist E (Careful E) w) : Inv E w := by
  induction h with
  | start g => exact ⟨by intro b hb; simp at hb, by intro v hv; simp at hv, by intro v hv; simp at hv, by intro v hv; simp at hv, List.Pairwise.nil⟩
  | step op _ hc ih => exact step_inv ih op hc

end Simsopt.Vmec
