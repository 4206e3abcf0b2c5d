import Verif.Caches.Coherent
/-!
# Every history keeps the caches right
-/
namespace Simsopt.Caches
open Simsopt
open Simsopt.Graph (State Cfg Op DependsOn SameInputs MirrorInSync Inv NameInj ShuffleOK Notified ReachableNoSwap)
set_option linter.unusedSectionVars false
variable {V P Q X : Type} [DecidableEq Q] {S : Sys V P Q X} {field : Nat → Prop} {Link : State V → Prop}

theorem alive_of_same {cfg : Cfg V} {g g' : State V} (hi' : Inv cfg g') {o : Nat} (ho' : g'.alive o = true) (hs : SameInputs g g' o) {a : Nat}
    (ha : DependsOn g o a) : g'.alive a = true := by
  rcases ha with rfl | ha
  · exact ho'
  · induction ha using Relation.TransGen.head_induction_on with
    | single h =>
      have hp := (hs _ (Or.inl rfl)).2.1
      exact hi'.graph.parAlive _ _ ho' (by rw [hp]; exact h.2)
    | head h hb ih =>
      have hp := (hs _ (Or.inr hb)).2.1
      exact hi'.graph.parAlive _ _ ih (by rw [hp]; exact h.2)

theorem ring_ok (hS : Sound S field Link) {cfg : Cfg V} (hn : NameInj cfg) (hsh : ShuffleOK cfg) {w : World V P Q X} (hw : WInv cfg S Link (fun _ _ => False) w)
    {op : Op V} {g' : State V} (hsafe : op.Safe w.g) (hno : ∀ i d, op = .replaceDofs i d → (w.g.obj i).setter = false)
    (hst : Graph.Step cfg w.g op g') (hl : Link g')
    (hgd : ∀ j, w.g.alive j = true → S.guarded j = true → (w.g.obj j).bells < (g'.obj j).bells → (Graph.freeStatus g' j).any id = true) :
    WInv cfg S Link (fun _ _ => False) (ring S g' w) := by
  have hr' : ReachableNoSwap cfg g' := .step hw.reach hsafe hno hst
  refine ⟨hr', hl, ?_⟩
  intro o q _ ho' hs
  have hi := hw.reach.reachable.inv hn hsh
  have hi' := hr'.reachable.inv hn hsh
  have hm := Graph.C42_mirror_in_sync hn hsh hw.reach
  have hm' := Graph.C42_mirror_in_sync hn hsh hr'
  replace ho' : g'.alive o = true := ho'
  show Fresh S g' (w.pts o) o q _
  by_cases ho : w.g.alive o = true
  swap
  · simp only [Bool.not_eq_true] at ho
    simp only [ring, ho, if_true] at hs
    cases hs
  have hcache : (ring S g' w).cache o q = w.cache o q := by
    simp only [ring, ho] at hs ⊢
    simp only [Bool.true_eq_false, if_false] at hs ⊢
    split at hs
    · cases hs
    · rename_i hc; rw [if_neg hc]
  rw [hcache] at hs ⊢
  have hold := hw.good o q id ho hs
  by_cases hp : S.persistent o q = true
  · obtain ⟨l, hl⟩ := hS.persist o q hp
    obtain ⟨l', h1, h2⟩ := hold
    refine ⟨l', ?_, h2⟩
    rw [hl] at h1 ⊢
    cases h1
    exact .done _
  · rcases (Graph.step_inputs hn hsh hi hsafe hst ho).1 with hN | hs'
    · exfalso
      have hb := hN.2
      have hc : (ring S g' w).cache o q = ⟨false, (w.cache o q).data⟩ := by
        simp only [ring, ho]
        simp only [Bool.true_eq_false, if_false]
        rw [if_pos]
        refine ⟨hb, ?_, by simpa using hp⟩
        rintro ⟨hg, hf⟩
        have := hgd o ho hg hb
        rw [hf] at this; cases this
      rw [hcache] at hc
      rw [hc] at hs
      cases hs
    · refine hold.transport (T := fun a => DependsOn w.g o a) ?_ ?_ (Or.inl rfl)
      · intro a q' ha
        have ha1 : w.g.alive a = true := ha.alive hi.graph ho
        have ha2 : g'.alive a = true := by
          exact alive_of_same hi' ho' hs' ha
        exact hS.reads _ _ _ _ _ hw.link hl hm hm' ha1 ha2 (hs'.of_dep ha)
      · intro a q' ha
        have ha1 : w.g.alive a = true := ha.alive hi.graph ho
        refine Prog.Calls.mono ?_ _ (hS.calls _ _ _ _ hw.link ha1)
        intro b hb
        exact ha.trans' hb

theorem setPoints_ok {cfg : Cfg V} (hS : Sound S field Link) : ∀ (n : Nat) (p : P) (o : Nat) (w w' : World V P Q X), WInv cfg S Link (fun _ _ => False) w →
    setPoints S n p o w = some w' → WInv cfg S Link (fun _ _ => False) w' ∧ w'.g = w.g := by
  intro n
  induction n with
  | zero => intro p o w w' _ h; simp [setPoints] at h
  | succ n ih =>
    intro p o w w' hw h
    simp only [setPoints] at h
    have h0 : WInv cfg S Link (fun _ _ => False) { w.invalidate S o with pts := fun o' => if o' = o then p else w.pts o' } := by
      refine ⟨hw.reach, hw.link, ?_⟩
      intro o' q _ ho' hs
      simp only [World.invalidate] at hs ho' ⊢
      by_cases ho : o' = o
      · subst ho
        by_cases hp : S.persistent o' q = true
        · simp only [hp] at hs ⊢
          simp only [Bool.true_eq_false, and_false, if_false] at hs ⊢
          obtain ⟨l, hl⟩ := hS.persist o' q hp
          obtain ⟨l', h1, h2⟩ := hw.good o' q id ho' hs
          refine ⟨l', ?_, h2⟩
          rw [hl] at h1 ⊢
          cases h1
          exact .done _
        · simp only [Bool.not_eq_true] at hp
          simp [hp] at hs
      · simp only [ho, false_and, if_false] at hs ⊢
        exact hw.good o' q id ho' hs
    have hfold : ∀ (l : List Nat) (u u' : World V P Q X), WInv cfg S Link (fun _ _ => False) u → u.g = w.g →
        l.foldlM (fun w c => setPoints S n p c w) u = some u' → WInv cfg S Link (fun _ _ => False) u' ∧ u'.g = w.g := by
      intro l
      induction l with
      | nil => intro u u' hu hg h; simp only [List.foldlM_nil] at h; cases h; exact ⟨hu, hg⟩
      | cons c l ihl =>
        intro u u' hu hg h
        simp only [List.foldlM_cons] at h
        cases hc : setPoints S n p c u with
        | none => rw [hc] at h; cases h
        | some u1 =>
          rw [hc] at h
          obtain ⟨a, b⟩ := ih p c u u1 hu hc
          exact ihl u1 u' a (b.trans hg) h
    exact hfold _ _ _ h0 rfl h

theorem Hist.inv (hS : Sound S field Link) {cfg : Cfg V} (hn : NameInj cfg) (hsh : ShuffleOK cfg) (h0 : Link State.empty) {p0 : P}
    {w : World V P Q X} (h : Hist cfg S field Link p0 w) : WInv cfg S Link (fun _ _ => False) w := by
  induction h with
  | start => exact ⟨.init, h0, fun o q _ _ hs => by cases hs⟩
  | graph _ hsafe hno hst hl hgd ih => exact ring_ok hS hn hsh ih hsafe hno hst hl hgd
  | setPoints _ hp ih => exact (setPoints_ok hS _ _ _ _ _ ih hp).1
  | eval _ ho hal he hnf ih =>
    exact (eval_ok hS hn hsh _ _ _ _ _ ih (fun _ _ h => h.elim) (Or.inr (fun _ _ h => h)) ho hal _ _ he).1 hnf
  | force _ ho hal he hnf ih =>
    exact (force_ok hS hn hsh _ (eval_ok hS hn hsh _) _ _ _ _ ih (fun _ _ h => h.elim) (Or.inr (fun _ _ h => h)) ho hal _ _ he).1 hnf

/-- After any history, an evaluation returns the value computed afresh from the current dofs at the current points. -/
theorem Hist.eval_fresh (hS : Sound S field Link) {cfg : Cfg V} (hn : NameInj cfg) (hsh : ShuffleOK cfg) (h0 : Link State.empty) {p0 : P}
    {w : World V P Q X} (h : Hist cfg S field Link p0 w) {n o : Nat} {q : Q} (ho : w.g.alive o = true) (hal : Aligned S w o) {x : X}
    {w' : World V P Q X} (he : Caches.eval S n o q w = (some x, w')) : Fresh S w.g (w.pts o) o q x :=
  (eval_ok hS hn hsh _ _ _ _ _ (h.inv hS hn hsh h0) (fun _ _ h => h.elim) (Or.inr (fun _ _ h => h)) ho hal _ _ he).2.2.2 x rfl

end Simsopt.Caches
