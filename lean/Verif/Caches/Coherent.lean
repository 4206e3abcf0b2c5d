import Verif.Caches.Spec
/-!
# Cached values are the values computed afresh
-/
namespace Simsopt.Caches
open Simsopt
open Simsopt.Graph (State Cfg Op DependsOn SameInputs MirrorInSync Inv NameInj ShuffleOK Notified ReachableNoSwap)
set_option linter.unusedSectionVars false
variable {V P Q X : Type} [DecidableEq Q] {S : Sys V P Q X} {field : Nat → Prop} {Link : State V → Prop}

theorem mem_unique {l : List (Q × X)} (hn : (l.map Prod.fst).Nodup) {q : Q} {x x' : X} (hm : (q, x) ∈ l) (hm' : (q, x') ∈ l) : x = x' := by
  induction l with
  | nil => cases hm
  | cons a l ih =>
    simp only [List.map_cons, List.nodup_cons, List.mem_map, not_exists, not_and] at hn
    rcases List.mem_cons.1 hm with rfl | hm1
    · rcases List.mem_cons.1 hm' with e | hm2
      · cases e; rfl
      · exact (hn.1 _ hm2 rfl).elim
    · rcases List.mem_cons.1 hm' with rfl | hm2
      · exact (hn.1 _ hm1 rfl).elim
      · exact ih hn.2 hm1 hm2

/-- Runs are deterministic. -/
theorem Run.det (hS : Sound S field Link) {g : State V} {p : P} {pr : Prog Q X} {l : List (Q × X)} (h : Run S g p pr l) :
    ∀ {l'}, Run S g p pr l' → l = l' := by
  induction h with
  | done l => intro l' h'; cases h'; rfl
  | @call o q k l l1 x h1 hm h2 ih1 ih2 =>
    intro l' h'
    cases h' with
    | @call _ _ _ _ l1' x' h1' hm' h2' =>
      have := ih1 h1'
      subst this
      have hx : x = x' := mem_unique (hS.nodup g p o q l1 h1) hm hm'
      subst hx
      exact ih2 h2'

theorem Fresh.unique (hS : Sound S field Link) {g : State V} {p : P} {o : Nat} {q : Q} {x x' : X} (h : Fresh S g p o q x)
    (h' : Fresh S g p o q x') : x = x' := by
  obtain ⟨l, hl, hm⟩ := h
  obtain ⟨l', hl', hm'⟩ := h'
  have := hl.det hS hl'
  subst this
  exact mem_unique (hS.nodup _ _ _ _ _ hl) hm hm'

theorem Prog.Calls.mono {T T' : Nat → Prop} (h : ∀ o, T o → T' o) : ∀ (pr : Prog Q X), pr.Calls T → pr.Calls T'
  | .done _, _ => trivial
  | .call _ _ k, hc => ⟨h _ hc.1, fun x => Prog.Calls.mono h (k x) (hc.2 x)⟩
  | .raise, _ => trivial

theorem Prog.Calls.and {T T' : Nat → Prop} : ∀ (pr : Prog Q X), pr.Calls T → pr.Calls T' → pr.Calls (fun o => T o ∧ T' o)
  | .done _, _, _ => trivial
  | .call _ _ k, hc, hc' => ⟨⟨hc.1, hc'.1⟩, fun x => Prog.Calls.and (k x) (hc.2 x) (hc'.2 x)⟩
  | .raise, _, _ => trivial

/-- Runs carry over to a store in which the objects asked have the same implementations. -/
theorem Run.transport {g g' : State V} {p p' : P} {T : Nat → Prop}
    (heq : ∀ o q, T o → S.impl g' p' o q = S.impl g p o q) (hcl : ∀ o q, T o → (S.impl g p o q).Calls T)
    {pr : Prog Q X} {l : List (Q × X)} (h : Run S g p pr l) : pr.Calls T → Run S g' p' pr l := by
  induction h with
  | done l => intro _; exact .done l
  | @call o q k l l1 x h1 hm h2 ih1 ih2 =>
    intro hc
    refine .call (l' := l1) ?_ hm (ih2 (hc.2 x))
    rw [heq o q hc.1]
    exact ih1 (hcl o q hc.1)

theorem Fresh.transport {g g' : State V} {p p' : P} {T : Nat → Prop}
    (heq : ∀ o q, T o → S.impl g' p' o q = S.impl g p o q) (hcl : ∀ o q, T o → (S.impl g p o q).Calls T)
    {o : Nat} (ho : T o) {q : Q} {x : X} (h : Fresh S g p o q x) : Fresh S g' p' o q x := by
  obtain ⟨l, hl, hm⟩ := h
  refine ⟨l, ?_, hm⟩
  rw [heq o q ho]
  exact hl.transport heq hcl (hcl o q ho)

/-- Objects without points have the same values at all points. -/
theorem Fresh.points (hS : Sound S field Link) {g : State V} {p : P} (p' : P) {o : Nat} (ho : ¬ field o) {q : Q} {x : X}
    (h : Fresh S g p o q x) : Fresh S g p' o q x := by
  refine h.transport (T := fun o => ¬ field o) (fun o q ho => hS.points _ _ _ _ _ ho) ?_ ho
  intro o q ho
  refine Prog.Calls.mono ?_ _ (hS.fields g p o q)
  rintro o' (h | ⟨h, _⟩)
  · exact h
  · exact absurd h ho

/-- What all histories preserve; `D`: entries being recomputed. -/
structure WInv (cfg : Cfg V) (S : Sys V P Q X) (Link : State V → Prop) (D : Nat → Q → Prop) (w : World V P Q X) : Prop where
  reach : ReachableNoSwap cfg w.g
  link : Link w.g
  good : ∀ o q, ¬ D o q → w.g.alive o = true → (w.cache o q).status = true → Fresh S w.g (w.pts o) o q (w.cache o q).data

theorem write_cache (o : Nat) : ∀ (l : List (Q × X)) (w : World V P Q X), (l.map Prod.fst).Nodup →
    (w.write o l).g = w.g ∧ (w.write o l).pts = w.pts ∧
    (∀ q x, (q, x) ∈ l → (w.write o l).cache o q = ⟨true, x⟩) ∧
    (∀ o' q, (o' ≠ o ∨ ∀ x, (q, x) ∉ l) → (w.write o l).cache o' q = w.cache o' q) := by
  intro l
  induction l with
  | nil => intro w _; exact ⟨rfl, rfl, (fun _ _ h => by cases h), fun _ _ _ => rfl⟩
  | cons a l ih =>
    intro w hn
    obtain ⟨q0, x0⟩ := a
    simp only [List.map_cons, List.nodup_cons, List.mem_map, not_exists, not_and] at hn
    obtain ⟨h1, h2, h3, h4⟩ := ih { w with cache := fun o' q' => if o' = o ∧ q' = q0 then ⟨true, x0⟩ else w.cache o' q' } hn.2
    refine ⟨h1, h2, ?_, ?_⟩
    · intro q x hm
      rcases List.mem_cons.1 hm with e | hm
      · cases e
        simp only [World.write]
        rw [h4 o _ (Or.inr (fun x hx => hn.1 _ hx rfl))]
        simp
      · exact h3 q x hm
    · intro o' q hq
      simp only [World.write]
      rw [h4 o' q (by
        rcases hq with h | h
        · exact Or.inl h
        · exact Or.inr (fun x hx => h x (List.mem_cons_of_mem _ hx)))]
      have : ¬ (o' = o ∧ q = q0) := by
        rintro ⟨rfl, rfl⟩
        rcases hq with h | h
        · exact h rfl
        · exact h x0 List.mem_cons_self
      simp [this]

/-- A recomputation keeps the invariant and returns the value computed afresh, if the evaluations it asks for do. -/
theorem force_ok (hS : Sound S field Link) {cfg : Cfg V} (hn : NameInj cfg) (hsh : ShuffleOK cfg)
    (ev : Nat → Q → World V P Q X → Option X × World V P Q X)
    (ih : ∀ (o : Nat) (q : Q) (D : Nat → Q → Prop) (w : World V P Q X), WInv cfg S Link D w →
      (∀ a b, D a b → field a) → (¬ field o ∨ ∀ a b, ¬ D a b) → w.g.alive o = true → Aligned S w o → ∀ r w', ev o q w = (r, w') →
      ((r = none → ¬ field o) → WInv cfg S Link D w') ∧ w'.g = w.g ∧ w'.pts = w.pts ∧ ∀ x, r = some x → Fresh S w.g (w.pts o) o q x)
    (o : Nat) (q : Q) (D : Nat → Q → Prop) (w : World V P Q X) (hw : WInv cfg S Link D w) (hF : ∀ a b, D a b → field a)
    (hD : ¬ field o ∨ ∀ a b, ¬ D a b) (ho : w.g.alive o = true) (hal : Aligned S w o) (r : Option X) (w' : World V P Q X)
    (h : force ev S o q w = (r, w')) :
    ((r = none → ¬ field o) → WInv cfg S Link D w') ∧ w'.g = w.g ∧ w'.pts = w.pts ∧ ∀ x, r = some x → Fresh S w.g (w.pts o) o q x := by
  obtain ⟨e1, e2, e3, e4⟩ := write_cache o (S.early o q) w (hS.earlyKeys o q)
  -- entries being recomputed
  let D' : Nat → Q → Prop := fun a b => D a b ∨ (a = o ∧ ∃ x, (b, x) ∈ S.early o q)
  have hw0 : WInv cfg S Link D' (w.write o (S.early o q)) := by
    refine ⟨by rw [e1]; exact hw.reach, by rw [e1]; exact hw.link, ?_⟩
    intro a b hd ha hs
    rw [e1] at ha ⊢
    rw [e2]
    have hne : a ≠ o ∨ ∀ x, (b, x) ∉ S.early o q := by
      by_cases hao : a = o
      · exact Or.inr (fun x hx => hd (Or.inr ⟨hao, x, hx⟩))
      · exact Or.inl hao
    rw [e4 a b hne] at hs ⊢
    exact hw.good a b (fun h => hd (Or.inl h)) ha hs
  have hF' : ∀ a b, D' a b → field a := by
    rintro a b (h | ⟨rfl, x, hx⟩)
    · exact hF a b h
    · exact hS.early a q (fun h => by rw [h] at hx; cases hx)
  have hcalls : (S.impl w.g (w.pts o) o q).Calls (fun o' => ¬ field o' ∨ ∀ a b, ¬ D' a b) := by
    by_cases he : S.early o q = []
    · rcases hD with hD | hD
      · refine Prog.Calls.mono ?_ _ (hS.fields w.g (w.pts o) o q)
        rintro o' (h | ⟨h, _⟩)
        · exact Or.inl h
        · exact absurd h hD
      · refine Prog.Calls.mono (fun o' _ => Or.inr ?_) _ (hS.calls _ (w.pts o) _ q hw.link ho)
        rintro a b (h | ⟨_, x, hx⟩)
        · exact hD a b h
        · rw [he] at hx; cases hx
    · exact Prog.Calls.mono (fun o' h => Or.inl h) _ (hS.earlyCalls w.g (w.pts o) o q he)
  have key : ∀ (pr : Prog Q X) (w1 : World V P Q X), WInv cfg S Link D' w1 → w1.g = w.g → w1.pts = w.pts →
      pr.Calls (fun o' => DependsOn w.g o o') → pr.Calls (fun o' => ¬ field o' ∨ (field o ∧ (o' = o ∨ o' ∈ S.comps o))) →
      pr.Calls (fun o' => ¬ field o' ∨ ∀ a b, ¬ D' a b) →
      ∀ b w2, runProg ev o pr w1 = (b, w2) →
      ∃ w3, w3.g = w.g ∧ w3.pts = w.pts ∧
        ((b = false ∧ w2 = w3 ∧ (¬ field o → WInv cfg S Link D' w3)) ∨
          (b = true ∧ WInv cfg S Link D' w3 ∧ ∃ l, Run S w.g (w.pts o) pr l ∧ w2 = w3.write o l)) := by
    intro pr
    induction pr with
    | done l =>
      intro w1 hw1 hg hp _ _ _ b w2 h
      simp only [runProg, Prod.mk.injEq] at h
      obtain ⟨rfl, rfl⟩ := h
      exact ⟨w1, hg, hp, Or.inr ⟨rfl, hw1, l, .done l, rfl⟩⟩
    | raise =>
      intro w1 hw1 hg hp _ _ _ b w2 h
      simp only [runProg, Prod.mk.injEq] at h
      obtain ⟨rfl, rfl⟩ := h
      exact ⟨w1, hg, hp, Or.inl ⟨rfl, rfl, fun _ => hw1⟩⟩
    | call o' q' k ihk =>
      intro w1 hw1 hg hp hc1 hc2 hc3 b w2 h
      simp only [runProg] at h
      have ho' : w1.g.alive o' = true := by
        rw [hg]
        exact hc1.1.alive ((hg ▸ hw1.reach).reachable.inv hn hsh).graph ho
      have hal' : Aligned S w1 o' ∧ (∀ x, Fresh S w.g (w1.pts o') o' q' x → Fresh S w.g (w.pts o) o' q' x) := by
        rcases hc2.1 with hnf | ⟨hf, rfl | hcomp⟩
        · constructor
          · intro c hc
            cases hc with
            | refl => rfl
            | step hm _ => rw [hS.comps _ hnf] at hm; cases hm
          · intro x hx; exact hx.points hS _ hnf
        · constructor
          · intro c hc; rw [hp]; exact hal c hc
          · intro x hx; rw [hp] at hx; exact hx
        · have e : w.pts o' = w.pts o := hal o' (.step hcomp (.refl _))
          constructor
          · intro c hc; rw [hp, e]; exact hal c (.step hcomp hc)
          · intro x hx; rw [hp, e] at hx; exact hx
      rcases he : ev o' q' w1 with ⟨r1, w1'⟩
      obtain ⟨i1, i2, i3, i4⟩ := ih o' q' D' w1 hw1 hF' hc3.1 ho' hal'.1 r1 w1' he
      rw [he] at h
      cases r1 with
      | none =>
        simp only [Prod.mk.injEq] at h
        obtain ⟨rfl, rfl⟩ := h
        refine ⟨w1', i2.trans hg, i3.trans hp, Or.inl ⟨rfl, rfl, fun hnf => i1 (fun _ => ?_)⟩⟩
        rcases hc2.1 with h | ⟨h, _⟩
        · exact h
        · exact absurd h hnf
      | some x =>
        obtain ⟨w3, j2, j3, j4⟩ := ihk x w1' (i1 (fun h => by cases h)) (i2.trans hg) (i3.trans hp) (hc1.2 x) (hc2.2 x) (hc3.2 x) b w2 h
        refine ⟨w3, j2, j3, ?_⟩
        rcases j4 with j4 | ⟨jb, jw, l, jl, je⟩
        · exact Or.inl j4
        · refine Or.inr ⟨jb, jw, l, ?_, je⟩
          have hx := i4 x rfl
          rw [hg] at hx
          obtain ⟨l', hl', hm'⟩ := hal'.2 x hx
          exact .call hl' hm' jl
  rcases hr : runProg ev o (S.impl w.g (w.pts o) o q) (w.write o (S.early o q)) with ⟨b, w2⟩
  obtain ⟨w3, j2, j3, j4⟩ := key _ _ hw0 e1 e2 (hS.calls _ _ _ _ hw.link ho) (hS.fields _ _ _ _) hcalls b w2 hr
  simp only [force, hr] at h
  rcases j4 with ⟨rfl, rfl, jw⟩ | ⟨rfl, jw, l, jl, rfl⟩
  · simp only [Prod.mk.injEq] at h
    obtain ⟨rfl, rfl⟩ := h
    refine ⟨fun hnf => ?_, j2, j3, fun x hx => by cases hx⟩
    have hnf := hnf rfl
    have hw3 := jw hnf
    refine ⟨hw3.reach, hw3.link, fun a b hd => hw3.good a b ?_⟩
    rintro (h | ⟨_, x, hx⟩)
    · exact hd h
    · exact hnf (hS.early o q (fun h => by rw [h] at hx; cases hx))
  · simp only [Prod.mk.injEq] at h
    obtain ⟨rfl, rfl⟩ := h
    obtain ⟨c1, c2, c3, c4⟩ := write_cache o l w3 (hS.nodup _ _ _ _ _ jl)
    obtain ⟨x, hx⟩ := hS.has _ _ _ _ _ jl
    have hmark : ∀ o' q', ((w3.write o l).mark o q).cache o' q' = (w3.write o l).cache o' q' := by
      intro o' q'
      simp only [World.mark]
      split
      · rename_i h
        obtain ⟨rfl, rfl⟩ := h
        rw [c3 _ _ hx]
      · rfl
    refine ⟨fun _ => ⟨?_, ?_, ?_⟩, c1.trans j2, c2.trans j3, ?_⟩
    · show ReachableNoSwap cfg (w3.write o l).g
      rw [c1]; exact jw.reach
    · show Link (w3.write o l).g
      rw [c1]; exact jw.link
    · intro o' q' hd ha hs
      rw [hmark] at hs ⊢
      have ha : (w3.write o l).g.alive o' = true := ha
      rw [c1] at ha
      show Fresh S (w3.write o l).g ((w3.write o l).pts o') o' q' _
      rw [c1, c2]
      by_cases hin : o' = o ∧ ∃ x, (q', x) ∈ l
      · obtain ⟨rfl, x', hx'⟩ := hin
        rw [c3 _ _ hx', j2, j3]
        exact hS.agree _ _ _ _ _ _ _ jl hx'
      · have hin' : o' ≠ o ∨ ∀ x, (q', x) ∉ l := by
          by_cases h : o' = o
          · exact Or.inr (fun x hx => hin ⟨h, x, hx⟩)
          · exact Or.inl h
        rw [c4 o' q' hin'] at hs ⊢
        refine jw.good o' q' ?_ ha hs
        rintro (h | ⟨rfl, y, hy⟩)
        · exact hd h
        · obtain ⟨z, hz⟩ := hS.earlyIn _ _ _ _ _ _ _ jl hy
          exact hin ⟨rfl, z, hz⟩
    · intro x' hx'
      simp only [Option.some.injEq] at hx'
      rw [hmark, c3 _ _ hx] at hx'
      subst hx'
      exact ⟨l, jl, hx⟩

/-- An evaluation keeps the invariant and returns the value computed afresh. -/
theorem eval_ok (hS : Sound S field Link) {cfg : Cfg V} (hn : NameInj cfg) (hsh : ShuffleOK cfg) : ∀ (n : Nat) (o : Nat) (q : Q)
    (D : Nat → Q → Prop) (w : World V P Q X), WInv cfg S Link D w → (∀ a b, D a b → field a) → (¬ field o ∨ ∀ a b, ¬ D a b) →
    w.g.alive o = true → Aligned S w o → ∀ r w', eval S n o q w = (r, w') →
    ((r = none → ¬ field o) → WInv cfg S Link D w') ∧ w'.g = w.g ∧ w'.pts = w.pts ∧ ∀ x, r = some x → Fresh S w.g (w.pts o) o q x := by
  intro n
  induction n with
  | zero =>
    intro o q D w hw _ _ _ _ r w' h
    simp only [eval, Prod.mk.injEq] at h
    obtain ⟨rfl, rfl⟩ := h
    exact ⟨fun _ => hw, rfl, rfl, fun x hx => by cases hx⟩
  | succ n ih =>
    intro o q D w hw hF hD ho hal r w' h
    by_cases hst : (w.cache o q).status = true
    · simp only [eval, hst, if_true, Prod.mk.injEq] at h
      obtain ⟨rfl, rfl⟩ := h
      refine ⟨fun _ => hw, rfl, rfl, fun x hx => ?_⟩
      cases hx
      refine hw.good o q (fun hd => ?_) ho hst
      rcases hD with hD | hD
      · exact hD (hF o q hd)
      · exact hD o q hd
    · simp only [eval, hst] at h
      exact force_ok hS hn hsh (eval S n) ih o q D w hw hF hD ho hal r w' h

end Simsopt.Caches
