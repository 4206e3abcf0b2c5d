import Verif.MakeOpt.Props
/-!
# C13: construction succeeds for sensible marks; concrete calls; what edits of the parent list do
-/
namespace Simsopt.MakeOpt
open Simsopt.Graph
variable {V A : Type} {cfg : Cfg V}

/-- The mark fits the argument. -/
def Fits (s : State V) (k : String) (a : Arg V A) : Prop :=
  (k = "opt" ∧ ∃ o, a = .obj o ∧ s.alive o = true) ∨ (k = "dof" ∧ ∃ v, a = .num v) ∨ k = "non-dof"

theorem splitLoop_fits {ind : List String} {s : State V} : ∀ (l : List (Arg V A)) (i : Nat) (p : Parts V A),
    (∀ j a, l[j]? = some a → ∃ k, ind[i + j]? = some k ∧ Fits s k a) →
    (∀ a ∈ p.dofs, ∃ v, a = .num v) → (∀ a ∈ p.opts, ∃ o, a = .obj o ∧ s.alive o = true) →
    ∃ p', splitLoop ind i l p = .ok p' ∧ (∀ a ∈ p'.dofs, ∃ v, a = .num v) ∧ (∀ a ∈ p'.opts, ∃ o, a = .obj o ∧ s.alive o = true)
  | [], i, p, _, h1, h2 => ⟨p, rfl, h1, h2⟩
  | a :: l, i, p, h, h1, h2 => by
    obtain ⟨k, hk, hf⟩ := h 0 a rfl
    rw [Nat.add_zero] at hk
    have hrest : ∀ j a', l[j]? = some a' → ∃ k, ind[i + 1 + j]? = some k ∧ Fits s k a' := by
      intro j a' hj
      have := h (j + 1) a' (by simpa using hj)
      rw [show i + (j + 1) = i + 1 + j by omega] at this
      exact this
    simp only [splitLoop, hk]
    rcases hf with ⟨rfl, hf⟩ | ⟨rfl, hf⟩ | rfl
    · rw [if_pos rfl]
      refine splitLoop_fits l (i + 1) _ hrest h1 ?_
      intro b hb
      rcases List.mem_append.mp hb with hb | hb
      · exact h2 b hb
      · rw [List.mem_singleton] at hb; subst hb; exact hf
    · rw [if_neg (by decide), if_neg (by decide), if_pos rfl]
      refine splitLoop_fits l (i + 1) _ hrest ?_ h2
      intro b hb
      rcases List.mem_append.mp hb with hb | hb
      · exact h1 b hb
      · rw [List.mem_singleton] at hb; subst hb; exact hf
    · rw [if_neg (by decide), if_pos rfl]
      exact splitLoop_fits l (i + 1) _ hrest h1 h2

theorem asNums_ok {l : List (Arg V A)} (h : ∀ a ∈ l, ∃ v, a = .num v) : ∃ xs, asNums l = .ok xs := by
  induction l with
  | nil => exact ⟨[], rfl⟩
  | cons a l ih =>
    obtain ⟨v, rfl⟩ := h a List.mem_cons_self
    obtain ⟨xs, hx⟩ := ih fun b hb => h b (List.mem_cons_of_mem _ hb)
    exact ⟨v :: xs, by simp only [asNums, hx]⟩

theorem asObjs_ok {s : State V} {l : List (Arg V A)} (h : ∀ a ∈ l, ∃ o, a = .obj o ∧ s.alive o = true) :
    ∃ os, asObjs l = .ok os ∧ ∀ o ∈ os, s.alive o = true := by
  induction l with
  | nil => exact ⟨[], rfl, by simp⟩
  | cons a l ih =>
    obtain ⟨o, rfl, ho⟩ := h a List.mem_cons_self
    obtain ⟨os, hx, hl⟩ := ih fun b hb => h b (List.mem_cons_of_mem _ hb)
    refine ⟨o :: os, by simp only [asObjs, hx], ?_⟩
    intro b hb
    rcases List.mem_cons.mp hb with rfl | hb
    · exact ho
    · exact hl b hb

/-- **C13.** In any reachable store, a call whose marks fit its arguments creates the object (or exhausts the
    recursion limit while linking it). -/
theorem C13_created (hn : NameInj cfg) (hsh : ShuffleOK cfg) {s : State V} (hr : Reachable cfg s) (cls : Nat)
    (args : List (Arg V A)) (kwargs : List (String × Arg V A)) (ind : List String)
    (hkw : ∀ k ∈ kwargs.map Prod.fst, k ≠ "func" ∧ k ≠ "self")
    (hlen : ind.length = args.length + kwargs.length)
    (hfit : ∀ (j : Nat) k a, ind[j]? = some k → (args ++ kwargs.map Prod.snd)[j]? = some a → Fits s k a) :
    (∃ t s', make cfg cls args kwargs (some ind) s = .ok t s') ∨
    (∃ s', make cfg cls args kwargs (some ind) s = .error .recursionError s') := by
  have hI := hr.inv hn hsh
  obtain ⟨p, hp, hd, ho⟩ := splitLoop_fits (ind := ind) (s := s) (args ++ kwargs.map Prod.snd) 0 {} (by
    intro j a hj
    have hlt : j < ind.length := by
      have := (List.getElem?_eq_some_iff.mp hj).1
      simp at this; omega
    refine ⟨ind[j], by rw [Nat.zero_add]; exact List.getElem?_eq_getElem hlt, hfit j _ a (List.getElem?_eq_getElem hlt) hj⟩)
    (by simp) (by simp)
  obtain ⟨xs, hxs⟩ := asNums_ok hd
  obtain ⟨os, hos, hal⟩ := asObjs_ok ho
  have hsplit : split args kwargs (some ind) = .ok (p, ind) := by
    simp only [split]
    rw [if_pos hlen.symm]
    rw [splitLoop_append] at hp
    cases h1 : splitLoop ind 0 args ({} : Parts V A) with
    | error e => rw [h1] at hp; cases hp
    | ok q =>
      rw [h1] at hp
      simp only [Nat.zero_add] at hp
      simp only [hp]
  have hrun : make cfg cls args kwargs (some ind) s =
      (match new cfg cls (.fresh { x := some xs }) false os false s with
      | .ok i s' => .ok { oid := i, argLen := args.length, kwargKeys := kwargs.map Prod.fst, nonDofs := p.nonDofs, ind := ind } s'
      | .error e s' => .error e s') := by
    unfold make
    rw [if_neg]
    · simp only [run_bind, liftG_run, hsplit, hxs, hos]
      cases new cfg cls (.fresh { x := some xs }) false os false s <;> rfl
    · simp only [List.any_eq_true, Bool.or_eq_true, beq_iff_eq, not_exists, not_and, not_or]
      exact hkw
  rw [hrun, new_fresh_eq, run_bind]
  have hinit : ∃ r, Dofs.init cfg.ninf cfg.pinf (some xs) none none none none = .ok r := by
    unfold Dofs.init
    simp only [Option.getD_some, Option.getD_none]
    rw [if_pos, if_pos]
    · exact ⟨_, rfl⟩
    · simp [Dofs.defaultNames]
    · unfold Dofs.defaultNames
      refine List.Nodup.map_on ?_ List.nodup_range
      intro a _ b _ hab
      have h1 : "x" ++ toString a = "x" ++ toString b := hab
      have h2 : (toString a).toList = (toString b).toList := by
        have := congrArg String.toList h1
        simpa using this
      rw [Nat.toString_eq_repr, Nat.repr_eq_ofList_toDigits, Nat.toString_eq_repr, Nat.repr_eq_ofList_toDigits,
        String.toList_ofList, String.toList_ofList] at h2
      have := congrArg (fun l => Nat.ofDigitChars 10 l 0) h2
      simpa [Nat.ofDigitChars_toDigits] using this
  obtain ⟨r, hr'⟩ := hinit
  rcases newDofs_spec hn { x := some xs } s hI with ⟨e, _, he⟩ | ⟨r, _, he, hI2⟩
  · exfalso
    unfold newDofs at he
    simp only [run_bind, run_get, hr'] at he
    cases he
  · rw [he]
    simp only []
    rcases newWith_spec hn hsh cls s.ndof false os false _ hI2 (Nat.lt_succ_self _) hal with ⟨s', e⟩ | ⟨ps, s', _, e, _⟩
    · right; rw [e]; exact ⟨s', rfl⟩
    · left; rw [e]; exact ⟨_, s', rfl⟩

/-! ### concrete calls -/

/-- `make_optimizable(f, 10, a, "f", k=b, w=3, dof_indicators=["dof","opt","non-dof","opt","dof"])` -/
def exArgs : List (Arg Int String) := [.num 10, .obj 0, .other "f"]
def exKw : List (String × Arg Int String) := [("k", .obj 1), ("w", .num 3)]
def exInd : List String := ["dof", "opt", "non-dof", "opt", "dof"]

/-- result and store of a construction -/
def made (m : M Int (Temp Int String)) (s : State Int) : Option (Temp Int String × State Int) :=
  match m s with
  | .ok t s' => some (t, s')
  | .error _ _ => none

/-- the call `J()` makes after some further operations on the store -/
def callAfter (m : M Int (Temp Int String)) (s : State Int) (ops : Nat → List (Op Int)) :
    Option (List (Arg Int String) × List (String × Arg Int String)) :=
  (made m s).bind fun r =>
    match J ((ops r.1.oid).foldl (fun s op => after (exec cfg0 op s)) r.2) r.1 with
    | .ok c => some (c.args, c.kwargs)
    | .error _ => none

theorem ex_created : (made (make cfg0 5 exArgs exKw (some exInd)) w2).isSome = true := by decide +kernel

/-- `obj.local_full_x = [7, 8]; b.x = …; obj.fix(0)`: the two marked numbers follow, everything else stays. -/
theorem ex_call : callAfter (make cfg0 5 exArgs exKw (some exInd)) w2
      (fun o => [.setLocalFullX o [7, 8], .setX 1 [1, 1, 1], .fix o (.idx 0)]) =
    some ([.num 7, .obj 0, .other "f"], [("k", .obj 1), ("w", .num 8)]) := by decide +kernel

/-- hypotheses of `C13_created` -/
example : ∀ (j : Nat) k a, exInd[j]? = some k → (exArgs ++ exKw.map Prod.snd)[j]? = some a → Fits w2 k a := by
  have h0 : w2.alive 0 = true := by decide +kernel
  have h1 : w2.alive 1 = true := by decide +kernel
  intro j k a hk ha
  rcases j with _ | _ | _ | _ | _ | j <;> simp [exInd, exArgs, exKw] at hk ha <;> subst hk <;> subst ha <;> simp [Fits, h0, h1]

/-- The restriction on parent edits is needed: after `obj.add_parent(0, c)` the function receives `c` in place of
    `a`, and `a` in place of `b`. -/
theorem C13_parent_edit_violated : callAfter (make cfg0 5 exArgs exKw (some exInd)) w3
      (fun o => [.addParent o 0 2]) =
    some ([.num 10, .obj 2, .other "f"], [("k", .obj 0), ("w", .num 3)]) := by decide +kernel

end Simsopt.MakeOpt
