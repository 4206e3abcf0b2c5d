import Verif.Constrained.Spec
import Verif.LeastSquares.Build
/-! Helper lemmas for constrained problems. -/
namespace Simsopt.Constrained
open Simsopt Simsopt.LSq
open Simsopt.Graph (State Cfg Op Reachable Step NameInj ShuffleOK)
variable {V R : Type} {cfg : Cfg V}

theorem bcast_mem {α β : Type} {a : Out α} {b : Out β} {ps : List (α × β)} (h : bcast a b = some ps) {e : α × β} (he : e ∈ ps) :
    e.1 ∈ a.toArray ∧ e.2 ∈ b.toArray := by
  cases a with
  | scalar a =>
    cases b with
    | scalar b =>
      have h : some [(a, b)] = some ps := h
      injection h with h; subst h; simp at he; subst he; simp [Out.toArray]
    | array m =>
      have h : some (m.map fun b => (a, b)) = some ps := h
      injection h with h; subst h
      obtain ⟨b, hb, rfl⟩ := List.mem_map.mp he
      exact ⟨by simp [Out.toArray], hb⟩
  | array l =>
    cases b with
    | scalar b =>
      have h : some (l.map fun a => (a, b)) = some ps := h
      injection h with h; subst h
      obtain ⟨b, hb, rfl⟩ := List.mem_map.mp he
      exact ⟨hb, by simp [Out.toArray]⟩
    | array m =>
      simp only [bcast] at h
      split at h
      · injection h with h; subst h
        exact ⟨(List.of_mem_zip he).1, (List.of_mem_zip he).2⟩
      · split at h
        · injection h with h; subst h
          obtain ⟨b, hb, rfl⟩ := List.mem_map.mp he
          exact ⟨by simp [Out.toArray], hb⟩
        · injection h with h; subst h
          obtain ⟨b, hb, rfl⟩ := List.mem_map.mp he
          exact ⟨hb, by simp [Out.toArray]⟩
        · cases h

section
variable [Sub R]

/-- each side that has a finite bound fits the value -/
def FitsFinite (c : Con V R) (o : Out R) : Prop :=
  (c.lhs.toArray.any Ext.isFinite = true → (bcast c.lhs o).isSome) ∧ (c.rhs.toArray.any Ext.isFinite = true → (bcast o c.rhs).isSome)

/-- some side of the constraint has a finite bound -/
def Con.Active (c : Con V R) : Prop := c.lhs.toArray.any Ext.isFinite = true ∨ c.rhs.toArray.any Ext.isFinite = true

theorem sides_spec (c : Con V R) (o : Out R) :
    match sides c o with
    | (.ok a, n) => a.flatten = conEntry c o ∧ FitsFinite c o ∧ (a = [] ↔ ¬ c.Active) ∧ n = (conEntry c o).length
    | (.error e, _) => e = .valueError ∧ ¬ FitsFinite c o := by
  unfold sides side conEntry FitsFinite Con.Active
  by_cases hl : c.lhs.toArray.any Ext.isFinite = true <;> by_cases hr : c.rhs.toArray.any Ext.isFinite = true <;>
    simp only [hl, hr, if_true, if_false] <;> cases hb : bcast c.lhs o <;> cases hb' : bcast o c.rhs <;> simp

theorem conLoop_spec (g : State V) : ∀ (cons : List (Con V R)),
    match conLoop g cons with
    | (.done os, n) => ∃ outs, Gives (cons.map (·.fn)) g outs ∧ os.flatten = constraintVector cons outs ∧
        (∀ e ∈ cons.zip outs, FitsFinite e.1 e.2) ∧ (os = [] ↔ ∀ c ∈ cons, ¬ c.Active) ∧ n = os.flatten.length
    | (.failed, _) => Breaks (cons.map (·.fn)) g
    | (.raised _, _) => ¬ (∃ outs, Gives (cons.map (·.fn)) g outs ∧ ∀ e ∈ cons.zip outs, FitsFinite e.1 e.2)
  | [] => ⟨[], List.Forall₂.nil, rfl, by simp, by simp, rfl⟩
  | c :: l => by
    have ih := conLoop_spec g l
    have inv : ∀ {outs}, Gives ((c :: l).map (·.fn)) g outs → ∃ o outs', outs = o :: outs' ∧ c.fn.call g = .ok o ∧ Gives (l.map (·.fn)) g outs' := by
      intro outs h
      cases h with
      | cons h1 h2 => exact ⟨_, _, rfl, h1, h2⟩
    unfold conLoop
    cases hc : c.fn.call g with
    | error e =>
      have hnr : ¬ (∃ outs, Gives ((c :: l).map (·.fn)) g outs ∧ ∀ e ∈ (c :: l).zip outs, FitsFinite e.1 e.2) := by
        rintro ⟨outs, h, _⟩; obtain ⟨o, _, _, h1, _⟩ := inv h; rw [hc] at h1; cases h1
      by_cases he : e = .objectiveFailure
      · subst he; exact ⟨[], c.fn, l.map (·.fn), [], rfl, List.Forall₂.nil, hc⟩
      · cases e <;> first | exact absurd rfl he | exact hnr
    | ok out =>
      simp only
      have hs := sides_spec c out
      cases hsd : sides c out with
      | mk r n =>
        rw [hsd] at hs
        cases r with
        | error e =>
          simp only
          rintro ⟨outs, h, h2⟩
          obtain ⟨o, outs', rfl, h1, _⟩ := inv h
          rw [hc] at h1; injection h1 with h1; subst h1
          exact hs.2 (h2 (c, out) (by simp))
        | ok a =>
          obtain ⟨s1, s2, s3, s4⟩ := hs
          simp only
          generalize hr : conLoop g l = r at ih
          obtain ⟨r, m⟩ := r
          cases r with
          | done os =>
            obtain ⟨outs, h1, h2, h3, h4, h5⟩ := ih
            refine ⟨out :: outs, List.Forall₂.cons hc h1, ?_, ?_, ?_, ?_⟩
            · rw [List.flatten_append, s1, h2]; simp [constraintVector]
            · intro e he
              rw [List.zip_cons_cons] at he
              rcases List.mem_cons.mp he with rfl | he
              · exact s2
              · exact h3 e he
            · rw [List.append_eq_nil_iff, s3, h4]
              simp
            · rw [List.flatten_append, List.length_append, s1, ← s4, ← h5]
          | failed =>
            obtain ⟨pre, k, post, outs, he, h1, h2⟩ := ih
            exact ⟨c.fn :: pre, k, post, out :: outs, by rw [List.map_cons, he]; rfl, List.Forall₂.cons hc h1, h2⟩
          | raised e =>
            simp only
            rintro ⟨outs, h, h2⟩
            obtain ⟨o, outs', rfl, h1, h3⟩ := inv h
            exact ih ⟨outs', h3, fun e he => h2 e (by rw [List.zip_cons_cons]; exact List.mem_cons_of_mem _ he)⟩

theorem conLoop_congr {g g' : State V} : ∀ (cons : List (Con V R)), (∀ c ∈ cons, c.fn.call g' = c.fn.call g) → conLoop g' cons = conLoop g cons
  | [], _ => rfl
  | c :: l, h => by
    have ih := conLoop_congr l (fun c hc => h c (List.mem_cons_of_mem _ hc))
    unfold conLoop
    rw [h c List.mem_cons_self, ih]

end

theorem Gives.congr {fs : List (Bound V R)} {g g' : State V} {outs : List (Out R)} (h : Gives fs g outs)
    (hc : ∀ f ∈ fs, f.call g' = f.call g) : Gives fs g' outs := by
  induction h with
  | nil => exact List.Forall₂.nil
  | cons h1 h2 ih =>
    refine List.Forall₂.cons ?_ (ih (fun f hf => hc f (List.mem_cons_of_mem _ hf)))
    rw [hc _ List.mem_cons_self]; exact h1

theorem Gives.unique {fs : List (Bound V R)} {g : State V} {outs outs' : List (Out R)} (h : Gives fs g outs)
    (h' : Gives fs g outs') : outs = outs' := by
  induction h generalizing outs' with
  | nil => cases h'; rfl
  | cons h1 h2 ih =>
    cases h' with
    | cons h3 h4 =>
      rw [h1] at h3; injection h3 with h3; subst h3
      rw [ih h4]

theorem Gives.not_breaks {fs : List (Bound V R)} {g : State V} {outs : List (Out R)} (h : Gives fs g outs) : ¬ Breaks fs g := by
  rintro ⟨pre, k, post, outs', he, _, h2⟩
  subst he
  have : ∀ {fs outs}, Gives fs g outs → ∀ f ∈ fs, ∃ o, (f : Bound V R).call g = .ok o := by
    intro fs outs h
    induction h with
    | nil => intro f hf; cases hf
    | cons h1 _ ih =>
      intro f hf
      rcases List.mem_cons.mp hf with rfl | hf
      · exact ⟨_, h1⟩
      · exact ih f hf
  obtain ⟨o, e⟩ := this h k (by simp)
  rw [h2] at e; cases e

/-! ### feasibility -/

section
variable [Field R] [LinearOrder R] [IsStrictOrderedRing R]

theorem minus_nonpos (l : Ext R) (c : R) : (l.minus c).nonpos ↔ l.below c := by
  cases l <;> simp [Ext.minus, Ext.nonpos, Ext.below]

theorem minusExt_nonpos (c : R) (u : Ext R) : (minusExt c u).nonpos ↔ u.above c := by
  cases u <;> simp [minusExt, Ext.nonpos, Ext.above]

theorem conEntry_nonpos {c : Con V R} {o : Out R} (hp : c.Proper) (hf : FitsFinite c o) :
    (∀ v ∈ conEntry c o, v.nonpos) ↔ Feasible c.lhs c.rhs o := by
  have hL : (∀ v ∈ (if c.lhs.toArray.any Ext.isFinite then ((bcast c.lhs o).getD []).map fun e => e.1.minus e.2 else []), v.nonpos) ↔
      (∀ ps, bcast c.lhs o = some ps → ∀ e ∈ ps, e.1.below e.2) := by
    by_cases h : c.lhs.toArray.any Ext.isFinite = true
    · rw [if_pos h]
      obtain ⟨ps, hps⟩ := Option.isSome_iff_exists.mp (hf.1 h)
      rw [hps]
      constructor
      · intro hv ps' h1 e he
        injection h1 with h1; subst h1
        rw [← minus_nonpos]
        exact hv _ (List.mem_map_of_mem he)
      · intro hv v hvm
        obtain ⟨e, he, rfl⟩ := List.mem_map.mp hvm
        exact (minus_nonpos _ _).mpr (hv ps rfl e he)
    · rw [if_neg h]
      refine ⟨fun _ ps hps e he => ?_, fun _ v hv => by cases hv⟩
      have hm := (bcast_mem hps he).1
      cases h1 : e.1 with
      | ninf => trivial
      | fin l => exact absurd (List.any_eq_true.mpr ⟨e.1, hm, by rw [h1]; rfl⟩) h
      | pinf => rw [h1] at hm; exact absurd hm hp.1
  have hR : (∀ v ∈ (if c.rhs.toArray.any Ext.isFinite then ((bcast o c.rhs).getD []).map fun e => minusExt e.1 e.2 else []), v.nonpos) ↔
      (∀ ps, bcast o c.rhs = some ps → ∀ e ∈ ps, e.2.above e.1) := by
    by_cases h : c.rhs.toArray.any Ext.isFinite = true
    · rw [if_pos h]
      obtain ⟨ps, hps⟩ := Option.isSome_iff_exists.mp (hf.2 h)
      rw [hps]
      constructor
      · intro hv ps' h1 e he
        injection h1 with h1; subst h1
        rw [← minusExt_nonpos]
        exact hv _ (List.mem_map_of_mem he)
      · intro hv v hvm
        obtain ⟨e, he, rfl⟩ := List.mem_map.mp hvm
        exact (minusExt_nonpos _ _).mpr (hv ps rfl e he)
    · rw [if_neg h]
      refine ⟨fun _ ps hps e he => ?_, fun _ v hv => by cases hv⟩
      have hm := (bcast_mem hps he).2
      cases h1 : e.2 with
      | pinf => trivial
      | fin l => exact absurd (List.any_eq_true.mpr ⟨e.2, hm, by rw [h1]; rfl⟩) h
      | ninf => rw [h1] at hm; exact absurd hm hp.2
  unfold conEntry Feasible
  rw [← hL, ← hR]
  constructor
  · intro h
    exact ⟨fun v hv => h v (List.mem_append_left _ hv), fun v hv => h v (List.mem_append_right _ hv)⟩
  · rintro ⟨h1, h2⟩ v hv
    rcases List.mem_append.mp hv with hv | hv
    · exact h1 v hv
    · exact h2 v hv
end

/-! ### the invariant -/

section
variable [Sub R]

def ObjOK (w : World V R) (o : Out R) : Prop :=
  w.p.obj.call w.g = .ok o ∨ (w.p.obj.call w.g = .error .objectiveFailure ∧ ∃ v, w.p.fail = some v ∧ o = .scalar v)

def ConOK (w : World V R) (c : List (Ext R)) : Prop :=
  (∃ os, (conLoop w.g w.p.nlc).1 = .done os ∧ os ≠ [] ∧ c = os.flatten) ∨
  ((conLoop w.g w.p.nlc).1 = .failed ∧ w.p.firstCon = false ∧ ∃ v, w.p.fail = some v ∧ c = List.replicate w.p.nvals (.fin v))

structure CInv (cfg : Cfg V) (w0 w : World V R) : Prop where
  att : Attached cfg w.g w.p.self w.p.funcs
  same : w.p.self = w0.p.self ∧ w.p.fail = w0.p.fail ∧ w.p.obj = w0.p.obj ∧ w.p.cons = w0.p.cons
  obj : (w.g.obj w.p.self).newX = false → ∀ o, w.p.objCache = some o → ObjOK w o
  con : (w.g.obj w.p.self).newX = false → ∀ c, w.p.conCache = some c → ConOK w c

theorem nlc_mem {p : Prob V R} {c : Con V R} (h : c ∈ p.nlc) : c.fn ∈ p.funcs := List.mem_cons_of_mem _ (List.mem_map_of_mem h)

theorem ObjOK.congr {w w' : World V R} {o : Out R} (h : ObjOK w o) (h1 : w'.p.obj = w.p.obj) (h2 : w'.p.fail = w.p.fail)
    (hc : w.p.obj.call w'.g = w.p.obj.call w.g) : ObjOK w' o := by
  unfold ObjOK; rw [h1, h2, hc]; exact h

theorem ConOK.congr {w w' : World V R} {c : List (Ext R)} (h : ConOK w c) (h1 : w'.p.cons = w.p.cons) (h2 : w'.p.fail = w.p.fail)
    (h3 : w'.p.nvals = w.p.nvals) (h4 : w'.p.firstCon = w.p.firstCon) (hc : ∀ f ∈ w.p.funcs, f.call w'.g = f.call w.g) : ConOK w' c := by
  have hn : w'.p.nlc = w.p.nlc := by unfold Prob.nlc; rw [h1]
  unfold ConOK; rw [h2, h3, h4, hn, conLoop_congr _ (fun c hm => hc _ (nlc_mem hm))]; exact h

theorem CInv.graph (hn : NameInj cfg) (hsh : ShuffleOK cfg) {w0 w : World V R} (h : CInv cfg w0 w) {op : Op V} (hsafe : op.Safe w.g)
    (hne : op ≠ .clearNewX w.p.self) {g' : State V} (hst : Step cfg w.g op g') (ha' : g'.alive w.p.self = true)
    (hatt : ∀ f ∈ w.p.funcs, f.owner ∈ (g'.obj w.p.self).parents) : CInv cfg w0 { w with g := g' } := by
  obtain ⟨h1, h2⟩ := h.att.graph hn hsh hsafe hne hst ha' hatt
  refine ⟨h1, h.same, fun hx o ho => ?_, fun hx c hc => ?_⟩
  · obtain ⟨h3, h4⟩ := h2 hx
    exact (h.obj h3 o ho).congr rfl rfl (h4 _ List.mem_cons_self)
  · obtain ⟨h3, h4⟩ := h2 hx
    exact (h.con h3 c hc).congr rfl rfl rfl rfl h4

variable [DecidableEq V]

theorem differs_false {cur v : List V} (h : differs cur v = some false) (hl : cur.length = v.length) : cur = v := by
  simp only [differs, bcast] at h
  rw [if_pos hl] at h
  simp only [Option.map_some, Option.some.injEq, List.any_eq_false, decide_eq_true_eq] at h
  apply List.ext_getElem hl
  intro i h1 h2
  have := h (cur[i], v[i]) (by
    have : (cur.zip v)[i]'(by simp; omega) = (cur[i], v[i]) := List.getElem_zip
    rw [← this]; exact List.getElem_mem _)
  simpa using this

theorem assignX_inv (hn : NameInj cfg) (hsh : ShuffleOK cfg) {w0 w : World V R} (h : CInv cfg w0 w) (x : Option (List V)) :
    match assignX cfg x w with
    | .ok _ w' => CInv cfg w0 w' ∧ w'.p = w.p ∧ (x = none → w' = w) ∧
        (∀ v, x = some v → v.length = (Graph.getX w.g w.p.self).length → Graph.getX w'.g w.p.self = v)
    | .error e w' => e = .recursionError ∨ (e = .valueError ∧ w' = w) := by
  unfold assignX
  cases x with
  | none => exact ⟨h, rfl, fun _ => rfl, fun _ hv => by cases hv⟩
  | some v =>
    simp only
    cases hd : differs (Graph.getX w.g w.p.self) v with
    | none => exact Or.inr ⟨rfl, rfl⟩
    | some b =>
      cases b with
      | false =>
        refine ⟨h, rfl, fun _ => rfl, fun u hu hl => ?_⟩
        injection hu with hu; subst hu
        exact differs_false hd hl.symm
      | true =>
        simp only
        have hs := h.att.setX hn hsh v
        cases he : Graph.setX cfg w.p.self v w.g with
        | error e g =>
          rw [he] at hs
          rcases hs with hs | ⟨hs, hg⟩
          · exact Or.inl hs
          · subst hg; exact Or.inr ⟨hs, rfl⟩
        | ok u g =>
          rw [he] at hs
          obtain ⟨a1, a2, a3⟩ := hs
          refine ⟨⟨a1, h.same, fun hx o ho => ?_, fun hx c hc => ?_⟩, rfl, (fun hc => by cases hc), fun u hu _ => ?_⟩
          · obtain ⟨h3, h4⟩ := a3 hx
            exact (h.obj h3 o ho).congr rfl rfl (h4 _ List.mem_cons_self)
          · obtain ⟨h3, h4⟩ := a3 hx
            exact (h.con h3 c hc).congr rfl rfl rfl rfl h4
          · injection hu with hu; subst hu; exact a2

omit [DecidableEq V] in
theorem empty_inv {w0 w : World V R} (h : CInv cfg w0 w) : CInv cfg w0 (empty w) ∧ (empty w).g = w.g ∧ (empty w).p.self = w.p.self ∧
    (empty w).p.obj = w.p.obj ∧ (empty w).p.cons = w.p.cons ∧ (empty w).p.fail = w.p.fail ∧ (empty w).p.nvals = w.p.nvals ∧
    (empty w).p.firstCon = w.p.firstCon ∧ (empty w).p.firstObj = w.p.firstObj ∧
    (∀ o, (empty w).p.objCache = some o → ObjOK (empty w) o) ∧ (∀ c, (empty w).p.conCache = some c → ConOK (empty w) c) := by
  unfold empty
  split
  · refine ⟨⟨h.att, h.same, (fun _ o ho => by cases ho), (fun _ c hc => by cases hc)⟩, rfl, rfl, rfl, rfl, rfl, rfl, rfl, rfl, (fun o ho => by cases ho), (fun c hc => by cases hc)⟩
  · rename_i hx
    have hx : (w.g.obj w.p.self).newX = false := by simpa using hx
    exact ⟨h, rfl, rfl, rfl, rfl, rfl, rfl, rfl, rfl, h.obj hx, h.con hx⟩

omit [DecidableEq V] in
/-- One evaluation of the objective, from a world with valid caches. -/
theorem evalObj_inv (hn : NameInj cfg) (hsh : ShuffleOK cfg) {w0 w : World V R} (h : CInv cfg w0 w)
    (ho : ∀ o, w.p.objCache = some o → ObjOK w o) (hc : ∀ c, w.p.conCache = some c → ConOK w c) :
    match evalObj w with
    | .ok o w' => CInv cfg w0 w' ∧ ObjOK w' o ∧ w'.p.firstCon = w.p.firstCon ∧ w'.p.nvals = w.p.nvals ∧ w'.g.dof = w.g.dof ∧
        Graph.getX w'.g w.p.self = Graph.getX w.g w.p.self ∧ (∀ f ∈ w.p.funcs, f.call w'.g = f.call w.g) ∧ w'.p.firstObj = (if w.p.objCache = none then false else w.p.firstObj)
    | .error e w' => w' = w ∧ w.p.obj.call w.g = .error e ∧ (e = .objectiveFailure → w.p.fail = none ∨ w.p.firstObj = true) := by
  unfold evalObj
  obtain ⟨l1, l2, l3, l4, l5⟩ := h.att.lower hn hsh
  have fin : ∀ o, w.p.objCache = none → ObjOK w o →
      CInv cfg w0 { g := lower w.g w.p.self, p := w.p.keepObj o } ∧
      ObjOK { g := lower w.g w.p.self, p := w.p.keepObj o } o := by
    intro o hnone hoo
    have hoo' : ObjOK { g := lower w.g w.p.self, p := w.p.keepObj o } o := hoo.congr rfl rfl (l3 _ List.mem_cons_self)
    refine ⟨⟨l1, h.same, fun _ o' ho' => ?_, fun _ c hcc => (hc c hcc).congr rfl rfl rfl rfl l3⟩, hoo'⟩
    injection ho' with ho'; subst ho'
    exact hoo'
  cases hcache : w.p.objCache with
  | some o => exact ⟨h, ho o hcache, rfl, rfl, rfl, rfl, fun _ _ => rfl, by simp⟩
  | none =>
    simp only
    cases hcall : w.p.obj.call w.g with
    | ok o => obtain ⟨f1, f2⟩ := fin o hcache (Or.inl hcall); exact ⟨f1, f2, rfl, rfl, l4, l5, l3, by simp [Prob.keepObj]⟩
    | error e =>
      by_cases he : e = .objectiveFailure
      · subst he
        simp only
        cases hf : w.p.fail with
        | none => exact ⟨rfl, rfl, fun _ => Or.inl rfl⟩
        | some v =>
          simp only
          by_cases hfe : w.p.firstObj = true
          · rw [if_pos hfe]; exact ⟨rfl, rfl, fun _ => Or.inr hfe⟩
          · rw [if_neg hfe]
            have hff := hf
            obtain ⟨f1, f2⟩ := fin (.scalar v) hcache (Or.inr ⟨hcall, v, hf, rfl⟩)
            exact ⟨f1, f2, rfl, rfl, l4, l5, l3, by simp [Prob.keepObj]⟩
      · cases e <;> first | exact absurd rfl he | exact ⟨rfl, rfl, fun hc => absurd hc he⟩

omit [DecidableEq V] in
/-- One evaluation of the constraints, from a world with valid caches. -/
theorem evalCon_inv (hn : NameInj cfg) (hsh : ShuffleOK cfg) {w0 w : World V R} (h : CInv cfg w0 w)
    (ho : ∀ o, w.p.objCache = some o → ObjOK w o) (hc : ∀ c, w.p.conCache = some c → ConOK w c) :
    match evalCon w with
    | .ok c w' => CInv cfg w0 w' ∧ ConOK w' c ∧ w.p.cons ≠ none ∧ w'.g.dof = w.g.dof ∧
        Graph.getX w'.g w.p.self = Graph.getX w.g w.p.self ∧ (∀ f ∈ w.p.funcs, f.call w'.g = f.call w.g)
    | .error e w' => CInv cfg w0 w' ∧ w'.g = w.g ∧
        ((w.p.cons = none ∧ e = .runtimeError) ∨ (w.p.cons ≠ none ∧ ((conLoop w.g w.p.nlc).1 = .raised e ∨
          ((conLoop w.g w.p.nlc).1 = .failed ∧ e = .objectiveFailure ∧ (w.p.fail = none ∨ w.p.firstCon = true)) ∨
          ((conLoop w.g w.p.nlc).1 = .done [] ∧ e = .valueError)))) := by
  unfold evalCon
  obtain ⟨l1, l2, l3, l4, l5⟩ := h.att.lower hn hsh
  cases hcons : w.p.cons with
  | none => exact ⟨h, rfl, Or.inl ⟨rfl, rfl⟩⟩
  | some cons =>
    have hnlc : w.p.nlc = cons := by unfold Prob.nlc; rw [hcons]; rfl
    simp only
    cases hcache : w.p.conCache with
    | some c => exact ⟨h, hc c hcache, by simp, rfl, rfl, fun _ _ => rfl⟩
    | none =>
      simp only
      have bp : ∀ (q : Prob V R), q = w.p.count (conLoop w.g cons).2 →
          q.self = w.p.self ∧ q.fail = w.p.fail ∧ q.obj = w.p.obj ∧ q.cons = w.p.cons ∧ q.objCache = w.p.objCache ∧ q.conCache = none ∧
          q.firstCon = w.p.firstCon ∧ (w.p.firstCon = false → q.nvals = w.p.nvals) ∧ q.funcs = w.p.funcs ∧ q.nlc = w.p.nlc := by
        intro q hq
        subst hq
        unfold Prob.count
        split
        · rename_i hfc
          exact ⟨rfl, rfl, rfl, rfl, rfl, hcache, rfl, (fun h => by rw [hfc] at h; cases h), rfl, rfl⟩
        · exact ⟨rfl, rfl, rfl, rfl, rfl, hcache, rfl, fun _ => rfl, rfl, rfl⟩
      generalize hq : w.p.count (conLoop w.g cons).2 = q at *
      obtain ⟨b1, b2, b3, b4, b5, b6, b7, b8, b9, b10⟩ := bp q rfl
      have wb : ∀ (q' : Prob V R), q'.self = q.self → q'.fail = q.fail → q'.obj = q.obj → q'.cons = q.cons → q'.objCache = q.objCache → q'.conCache = q.conCache →
          CInv cfg w0 { w with p := q' } := by
        intro q' e1 e2 e3 e4 e5 e6
        have ef : q'.funcs = w.p.funcs := by unfold Prob.funcs Prob.nlc; rw [e3, b3, e4, b4]
        refine ⟨by simp only [e1, b1, ef]; exact h.att, by simp only [e1, b1, e2, b2, e3, b3, e4, b4]; exact h.same, fun _ o hoo => ?_, fun _ c hcc => ?_⟩
        · simp only [e5, b5] at hoo
          exact (ho o hoo).congr (by simp only [e3, b3]) (by simp only [e2, b2]) rfl
        · simp only [e6, b6] at hcc; cases hcc
      have wf : ∀ (q' : Prob V R) (c : List (Ext R)), q'.self = q.self → q'.fail = q.fail → q'.obj = q.obj → q'.cons = q.cons → q'.objCache = q.objCache →
          q'.conCache = some c → ConOK { g := lower w.g w.p.self, p := q' } c →
          CInv cfg w0 { g := lower w.g w.p.self, p := q' } := by
        intro q' c e1 e2 e3 e4 e5 e6 hok
        have ef : q'.funcs = w.p.funcs := by unfold Prob.funcs Prob.nlc; rw [e3, b3, e4, b4]
        refine ⟨by simp only [e1, b1, ef]; exact l1, by simp only [e1, b1, e2, b2, e3, b3, e4, b4]; exact h.same, fun _ o hoo => ?_, fun _ c' hcc => ?_⟩
        · simp only [e5, b5] at hoo
          exact (ho o hoo).congr (by simp only [e3, b3]) (by simp only [e2, b2]) (l3 _ List.mem_cons_self)
        · simp only [e6, Option.some.injEq] at hcc; subst hcc; exact hok
      have hl3 : ∀ c ∈ cons, c.fn.call (lower w.g w.p.self) = c.fn.call w.g := fun c hm => l3 _ (nlc_mem (by rw [hnlc]; exact hm))
      have hloop : conLoop (lower w.g w.p.self) cons = conLoop w.g cons := conLoop_congr _ hl3
      rw [hnlc]
      cases hl : (conLoop w.g cons).1 with
      | raised e => exact ⟨wb q rfl rfl rfl rfl rfl rfl, rfl, Or.inr ⟨by simp, Or.inl rfl⟩⟩
      | failed =>
        simp only
        cases hf : w.p.fail with
        | none => exact ⟨wb q rfl rfl rfl rfl rfl rfl, rfl, Or.inr ⟨by simp, Or.inr (Or.inl ⟨trivial, rfl, Or.inl rfl⟩)⟩⟩
        | some v =>
          simp only
          by_cases hfc : w.p.firstCon = true
          · rw [if_pos hfc]; exact ⟨wb q rfl rfl rfl rfl rfl rfl, rfl, Or.inr ⟨by simp, Or.inr (Or.inl ⟨trivial, rfl, Or.inr hfc⟩)⟩⟩
          · rw [if_neg hfc]
            have hok : ConOK { g := lower w.g w.p.self, p := q.keepCon (List.replicate q.nvals (.fin v)) } (List.replicate q.nvals (.fin v)) := by
              right
              have hn' : (q.keepCon (List.replicate q.nvals (.fin v))).nlc = cons := by
                rw [← hnlc, ← b10]; rfl
              simp only [hn']
              rw [hloop]
              exact ⟨hl, by show q.firstCon = false; rw [b7]; simpa using hfc, v, by show q.fail = _; rw [b2, hf], rfl⟩
            exact ⟨wf _ _ rfl rfl rfl rfl rfl rfl hok, hok, by simp, l4, l5, l3⟩
      | done os =>
        simp only
        by_cases hE : os.isEmpty = true
        · rw [if_pos hE]
          exact ⟨wb _ rfl rfl rfl rfl rfl rfl, rfl, Or.inr ⟨by simp, Or.inr (Or.inr ⟨by rw [List.isEmpty_iff] at hE; rw [hE], rfl⟩)⟩⟩
        · rw [if_neg hE]
          have hok : ConOK { g := lower w.g w.p.self, p := q.pastFirst.keepCon os.flatten } os.flatten := by
            left
            have hn' : (q.pastFirst.keepCon os.flatten).nlc = cons := by
              rw [← hnlc, ← b10]; rfl
            simp only [hn']
            rw [hloop]
            exact ⟨os, hl, by simpa using hE, rfl⟩
          exact ⟨wf _ _ rfl rfl rfl rfl rfl rfl hok, hok, by simp, l4, l5, l3⟩

end
end Simsopt.Constrained
