import Verif.Mpi.Proto
/-!
# C25: the leader/worker protocol never mismatches
-/
namespace Simsopt.Mpi

variable {X : Type}

/-- The partition is one that `MpiPartition` produces (C21): at least one group, no empty group. -/
structure Cfg.OK (cfg : Cfg X) : Prop where
  ng : 0 < cfg.ngroups
  sz : ∀ g, g < cfg.ngroups → 0 < cfg.size g

/-- The script asks for normal evaluations only. -/
def Action.normal : Action X → Prop
  | .feval _ => True
  | .jac _ => True
  | .jacRaise _ _ => False

/-- Does the script contain a Jacobian? -/
def Action.isJac : Action X → Prop
  | .jac _ => True
  | _ => False

/-- Specification: the points at which group `g` is to evaluate, in order: all function evaluations belong to group 0; the first Jacobian is preceded by one evaluation
    in group 0; the trial point number `j` of a Jacobian belongs to group `j mod ngroups`. -/
def pointsOf (cfg : Cfg X) (g : Nat) : Bool → List (Action X) → List X
  | _, [] => []
  | known, .feval v :: as => (if g = 0 then [v] else []) ++ pointsOf cfg g known as
  | known, .jac v :: as => (if g = 0 ∧ known = false then [v] else []) ++
      ((List.range (nevals cfg cfg.centered)).filter (fun j => j % cfg.ngroups == g)).map (cfg.pt cfg.centered v (cfg.stepsOf v)) ++ pointsOf cfg g true as
  | _, .jacRaise _ _ :: _ => []

/-- What every process should look like at the end. -/
def Finished (cfg : Cfg X) (acts : List (Action X)) (xres : X) (p : Proc) : PState X → Prop
  | .proc0 calls => calls = []
  | .leader pc stops seen xr => (∃ h : pc = .done, True) ∧ stops = 1 ∧ seen = pointsOf cfg p.1 false acts ∧ xr = some xres
  | .worker pc stops seen xr => pc = .done ∧ stops = 1 ∧ seen = pointsOf cfg p.1 false acts ∧ xr = some xres
  | .absent => valid cfg p = false

/-- the global order of collectives -/
def word (cfg : Cfg X) (xres : X) : Bool → List (Action X) → List (Comm × Kind × Msg X)
  | _, [] => [(.leaders, .bcast, .stop)] ++ (List.range cfg.ngroups).map (fun g => (.group g, .bcast, .stop)) ++ [(.world, .bufBcast, .x xres)]
  | known, .feval v :: as => evalCalls 0 1 v ++ word cfg xres known as
  | known, .jac v :: as => jacPrologue cfg known v ++ proc0Evals (sharePts cfg cfg.centered v (cfg.stepsOf v) 0) ++
      (List.range' 1 (cfg.ngroups - 1)).flatMap (fun g => (sharePts cfg cfg.centered v (cfg.stepsOf v) g).flatMap (evalCalls g 100)) ++
      [(.leaders, .reduce, .evals)] ++ word cfg xres true as
  | _, .jacRaise _ _ :: _ => []

/-- `filter` to the letters that concern `p` -/
abbrev proj (cfg : Cfg X) (p : Proc) (w : List (Comm × Kind × Msg X)) : List (Comm × Kind × Msg X) := w.filter (fun l => member cfg l.1 p)

theorem proj_evalCalls (cfg : Cfg X) (p : Proc) (hv : valid cfg p = true) (g n : Nat) (v : X) :
    proj cfg p (evalCalls g n v) = if p.1 = g then evalCalls g n v else [] := by
  by_cases h : p.1 = g <;> simp [proj, evalCalls, member, hv, h]

theorem proj_evals (cfg : Cfg X) (p : Proc) (hv : valid cfg p = true) (g n : Nat) (vs : List X) :
    proj cfg p (vs.flatMap (evalCalls g n)) = if p.1 = g then vs.flatMap (evalCalls g n) else [] := by
  induction vs with
  | nil => simp [proj]
  | cons v vs ih =>
    have ih' : List.filter (fun l => member cfg l.1 p) (vs.flatMap (evalCalls g n)) = if p.1 = g then vs.flatMap (evalCalls g n) else [] := ih
    have h1 : List.filter (fun l => member cfg l.1 p) (evalCalls g n v) = if p.1 = g then evalCalls g n v else [] := proj_evalCalls cfg p hv g n v
    simp only [proj, List.flatMap_cons, List.filter_append, ih', h1]
    by_cases h : p.1 = g <;> simp [h]

theorem proj_others (cfg : Cfg X) (p : Proc) (hv : valid cfg p = true) (f : Nat → List X) (a k : Nat) :
    proj cfg p ((List.range' a k).flatMap (fun g => (f g).flatMap (evalCalls g 100))) =
      if a ≤ p.1 ∧ p.1 < a + k then (f p.1).flatMap (evalCalls p.1 100) else [] := by
  induction k generalizing a with
  | zero =>
    have : ¬ (a ≤ p.1 ∧ p.1 < a + 0) := by omega
    rw [if_neg this]; rfl
  | succ k ih =>
    have e := ih (a + 1)
    have h1 := proj_evals cfg p hv a 100 (f a)
    simp only [proj] at e h1
    simp only [proj, List.range'_succ, List.flatMap_cons, List.filter_append, e, h1]
    by_cases h : p.1 = a
    · have n1 : ¬ (a + 1 ≤ p.1 ∧ p.1 < a + 1 + k) := by omega
      have n2 : a ≤ p.1 ∧ p.1 < a + (k + 1) := by omega
      rw [if_pos h, if_neg n1, if_pos n2, h]; simp
    · by_cases h2 : a + 1 ≤ p.1 ∧ p.1 < a + 1 + k
      · have n2 : a ≤ p.1 ∧ p.1 < a + (k + 1) := by omega
        rw [if_neg h, if_pos h2, if_pos n2]; rfl
      · have n2 : ¬ (a ≤ p.1 ∧ p.1 < a + (k + 1)) := by omega
        rw [if_neg h, if_neg h2, if_neg n2]; rfl

theorem proj_stops (cfg : Cfg X) (p : Proc) (hv : valid cfg p = true) :
    proj cfg p ((List.range cfg.ngroups).map (fun g => (Comm.group g, Kind.bcast, (Msg.stop : Msg X)))) = [(.group p.1, .bcast, .stop)] := by
  have hlt : p.1 < cfg.ngroups := by
    unfold valid at hv; simp at hv; exact hv.1
  suffices h : ∀ n, proj cfg p ((List.range n).map (fun g => (Comm.group g, Kind.bcast, (Msg.stop : Msg X)))) = if p.1 < n then [(.group p.1, .bcast, .stop)] else [] by
    rw [h, if_pos hlt]
  intro n
  induction n with
  | zero => rfl
  | succ n ih =>
    simp only [proj] at ih
    have hm : member cfg (.group n) p = decide (p.1 = n) := by simp [member, hv]; rfl
    simp only [proj, List.range_succ, List.map_append, List.filter_append, ih, List.map_cons, List.map_nil, List.filter_cons, List.filter_nil, hm]
    by_cases h : p.1 = n
    · have n1 : ¬ p.1 < n := by omega
      have n2 : p.1 < n + 1 := by omega
      simp [h]
    · by_cases h2 : p.1 < n
      · have n2 : p.1 < n + 1 := by omega
        simp [h, h2, n2]
      · have n2 : ¬ p.1 < n + 1 := by omega
        simp [h, h2, n2]

/-! ### The three kinds of processes follow the word -/

section
variable (cfg : Cfg X) (Fin : Proc → PState X → Prop)

/-- proc 0 executes its list -/
theorem follows_proc0 (calls : List (Comm × Kind × Msg X)) (h : Fin (0, 0) (.proc0 [])) : Follows (net cfg) Fin (0, 0) (.proc0 calls) calls := by
  induction calls with
  | nil => exact ⟨rfl, h⟩
  | cons a l ih =>
    obtain ⟨c, k, v⟩ := a
    exact ⟨⟨v, rfl, fun _ => rfl⟩, ih⟩

theorem follows_leader_evals (g : Nat) (pts : List X) (st : Nat) (seen : List X) (xr : Option X) (w : List (Comm × Kind × Msg X))
    (h : Follows (net cfg) Fin (g, 0) (.leader (.eval []) st (seen ++ pts) xr) w) :
    Follows (net cfg) Fin (g, 0) (.leader (.eval pts) st seen xr) (pts.flatMap (evalCalls g 100) ++ w) := by
  induction pts generalizing seen with
  | nil => simpa using h
  | cons p ps ih =>
    simp only [List.flatMap_cons, evalCalls, List.cons_append, List.nil_append]
    refine ⟨⟨.task 100, rfl, fun _ => rfl⟩, ⟨.x p, rfl, fun _ => rfl⟩, ?_⟩
    exact ih (seen ++ [p]) (by simpa using h)

theorem follows_worker_evals (g r n : Nat) (hr : r ≠ 0) (pts : List X) (st : Nat) (seen : List X) (xr : Option X) (w : List (Comm × Kind × Msg X))
    (h : Follows (net cfg) Fin (g, r) (.worker .wait st (seen ++ pts) xr) w) :
    Follows (net cfg) Fin (g, r) (.worker .wait st seen xr) (pts.flatMap (evalCalls g n) ++ w) := by
  induction pts generalizing seen with
  | nil => simpa using h
  | cons p ps ih =>
    simp only [List.flatMap_cons, evalCalls, List.cons_append, List.nil_append]
    have hroot : ∀ g', (g, r) ≠ (net cfg).root (.group g') := by intro g' h; simp [net, rootOf] at h; exact hr h.2
    refine ⟨⟨.nothing, rfl, fun h => absurd h (hroot _)⟩, ⟨.nothing, rfl, fun h => absurd h (hroot _)⟩, ?_⟩
    exact ih (seen ++ [p]) (by simpa using h)
end

theorem valid_lt {cfg : Cfg X} {p : Proc} (hv : valid cfg p = true) : p.1 < cfg.ngroups ∧ p.2 < cfg.size p.1 := by
  unfold valid at hv; simpa using hv

/-- Projection of the word on proc 0 is its list of calls. -/
theorem word_proc0 (cfg : Cfg X) (xres : X) (h0 : valid cfg (0, 0) = true) (acts : List (Action X)) (known : Bool) (hn : ∀ a ∈ acts, a.normal) :
    proj cfg (0, 0) (word cfg xres known acts) = proc0Calls cfg (.together xres) known acts := by
  have ml : member cfg .leaders (0, 0) = true := by simp [member, h0]
  have mw : member cfg .world (0, 0) = true := by simp [member, h0]
  induction acts generalizing known with
  | nil =>
    have := proj_stops cfg (0, 0) h0
    simp only [proj] at this
    simp [proj, word, proc0Calls, endCalls, List.filter_append, this, ml, mw]
  | cons a as ih =>
    have ih' := fun k => ih k (fun b hb => hn b (by simp [hb]))
    simp only [proj] at ih'
    cases a with
    | feval v =>
      have h1 := proj_evalCalls cfg (0, 0) h0 0 1 v
      simp only [proj] at h1
      simp [proj, word, proc0Calls, List.filter_append, h1, ih']
    | jac v =>
      have h1 : ∀ (n : Nat) (v : X), List.filter (fun l => member cfg l.1 (0, 0)) (evalCalls 0 n v) = evalCalls 0 n v := by
        intro n v; have := proj_evalCalls cfg (0, 0) h0 0 n v; simpa [proj] using this
      have h2 : ∀ (n : Nat) (vs : List X), List.filter (fun l => member cfg l.1 (0, 0)) (vs.flatMap (evalCalls 0 n)) = vs.flatMap (evalCalls 0 n) := by
        intro n vs; have := proj_evals cfg (0, 0) h0 0 n vs; simpa [proj] using this
      have h3 := proj_others cfg (0, 0) h0 (fun g => sharePts cfg cfg.centered v (cfg.stepsOf v) g) 1 (cfg.ngroups - 1)
      simp only [proj] at h3
      rw [if_neg (by simp)] at h3
      have h4 : List.filter (fun l => member cfg l.1 (0, 0)) (jacPrologue cfg known v) = jacPrologue cfg known v := by
        unfold jacPrologue
        cases known <;> simp [List.filter_append, h1, ml]
      have h5 : ∀ pts : List X, List.filter (fun l => member cfg l.1 (0, 0)) (proc0Evals pts) = proc0Evals pts := by
        intro pts
        cases pts with
        | nil => rfl
        | cons p ps => simp [proc0Evals, List.filter_append, h1, h2, ml]
      simp only [proj, word, proc0Calls, List.filter_append, h3, h4, h5, ih', List.append_nil]
      simp [ml]
    | jacRaise v k => exact (hn (.jacRaise v k) (by simp)).elim

/-- A group leader other than proc 0 follows the word. -/
theorem word_leader (cfg : Cfg X) (xres : X) (g : Nat) (hg : g ≠ 0) (hv : valid cfg (g, 0) = true)
    (total : List X) (Fin : Proc → PState X → Prop) (hFin : Fin (g, 0) (.leader .done 1 total (some xres)))
    (acts : List (Action X)) (known : Bool) (hn : ∀ a ∈ acts, a.normal) (hj : ∀ a ∈ acts, a.isJac → cfg.grad = true ∧ 0 < nevals cfg cfg.centered)
    (seen : List X) (ht : seen ++ pointsOf cfg g known acts = total) :
    Follows (net cfg) Fin (g, 0) (.leader .wait 0 seen none) (proj cfg (g, 0) (word cfg xres known acts)) := by
  have ml : member cfg .leaders (g, 0) = true := by simp [member, hv]
  have mw : member cfg .world (g, 0) = true := by simp [member, hv]
  have nroot : ∀ c, c = Comm.leaders ∨ c = Comm.world → (g, 0) ≠ (net cfg).root c := by
    rintro c (rfl | rfl) h <;> simp [net, rootOf] at h <;> exact hg h
  induction acts generalizing known seen with
  | nil =>
    have h := proj_stops cfg (g, 0) hv
    simp only [proj] at h
    simp only [proj, word, List.filter_append, h, List.filter_cons, ml, mw, if_true, List.filter_nil, List.cons_append, List.nil_append]
    simp only [pointsOf, List.append_nil] at ht
    subst ht
    exact ⟨⟨.nothing, rfl, fun h => absurd h (nroot _ (Or.inl rfl))⟩, ⟨.stop, rfl, fun _ => rfl⟩, ⟨.nothing, rfl, fun h => absurd h (nroot _ (Or.inr rfl))⟩, rfl, hFin⟩
  | cons a as ih =>
    cases a with
    | feval v =>
      have h1 := proj_evalCalls cfg (g, 0) hv 0 1 v
      simp only [proj, if_neg hg] at h1
      simp only [proj, word, List.filter_append, h1, List.nil_append]
      exact ih known (fun b hb => hn b (by simp [hb])) (fun b hb => hj b (by simp [hb])) seen (by simpa [pointsOf, hg] using ht)
    | jac v =>
      obtain ⟨hgr, hne⟩ := hj (.jac v) (by simp) trivial
      have h1 : ∀ (n : Nat) (v : X), List.filter (fun l => member cfg l.1 (g, 0)) (evalCalls 0 n v) = [] := by
        intro n v; have := proj_evalCalls cfg (g, 0) hv 0 n v; simpa [proj, hg] using this
      have h2 : ∀ (n : Nat) (vs : List X), List.filter (fun l => member cfg l.1 (g, 0)) (vs.flatMap (evalCalls 0 n)) = [] := by
        intro n vs; have := proj_evals cfg (g, 0) hv 0 n vs; simpa [proj, hg] using this
      have h3 := proj_others cfg (g, 0) hv (fun g => sharePts cfg cfg.centered v (cfg.stepsOf v) g) 1 (cfg.ngroups - 1)
      have := (valid_lt hv).1
      simp only [proj] at h3
      rw [if_pos (by simp only at this ⊢; omega)] at h3
      obtain ⟨p0, ps, hp0⟩ : ∃ p0 ps, sharePts cfg cfg.centered v (cfg.stepsOf v) 0 = p0 :: ps := by
        have h0 : 0 ∈ share cfg cfg.centered 0 := by
          unfold share; rw [List.mem_filter]; exact ⟨List.mem_range.mpr hne, by simp⟩
        unfold sharePts
        cases hs : share cfg cfg.centered 0 with
        | nil => rw [hs] at h0; cases h0
        | cons a l => exact ⟨_, _, rfl⟩
      have hpro : List.filter (fun l => member cfg l.1 (g, 0)) (jacPrologue cfg known v) =
          [(.leaders, .bcast, .task 100), (.leaders, .bcast, .fullX), (.leaders, .bufBcast, .x0 v), (.leaders, .bufBcast, .steps (cfg.stepsOf v)),
            (.leaders, .bcast, .method cfg.centered)] := by
        unfold jacPrologue
        cases known <;> simp [List.filter_append, h1, ml]
      have hsz : List.filter (fun l => member cfg l.1 (g, 0)) (proc0Evals (p0 :: ps)) = [(.leaders, .bcast, .size)] := by
        simp [proc0Evals, List.filter_append, h1, h2, ml]
      simp only [proj, word, List.filter_append, hp0, hpro, hsz, h3, List.cons_append, List.nil_append, List.filter_cons, ml, if_true, List.filter_nil, List.append_assoc]
      have nl := nroot _ (Or.inl rfl)
      refine ⟨⟨.nothing, rfl, fun h => absurd h nl⟩, ?_⟩
      show Follows (net cfg) Fin (g, 0) (leaderStep cfg g .wait 0 seen none (.task 100)) _
      simp only [leaderStep, hgr, if_true]
      refine ⟨⟨.nothing, rfl, fun h => absurd h nl⟩, ⟨.nothing, rfl, fun h => absurd h nl⟩, ⟨.nothing, rfl, fun h => absurd h nl⟩,
        ⟨.nothing, rfl, fun h => absurd h nl⟩, ⟨.nothing, rfl, fun h => absurd h nl⟩, ?_⟩
      show Follows (net cfg) Fin (g, 0) (.leader (.eval (sharePts cfg cfg.centered v (cfg.stepsOf v) g)) 0 seen none) _
      apply follows_leader_evals
      refine ⟨⟨.nothing, rfl, fun h => absurd h nl⟩, ?_⟩
      show Follows (net cfg) Fin (g, 0) (.leader .wait 0 _ none) _
      refine ih true (fun b hb => hn b (by simp [hb])) (fun b hb => hj b (by simp [hb])) _ ?_
      rw [← ht]
      simp [pointsOf, hg, sharePts, share]
    | jacRaise v k => exact (hn (.jacRaise v k) (by simp)).elim

/-- A worker follows the word. -/
theorem word_worker (cfg : Cfg X) (xres : X) (g r : Nat) (hr : r ≠ 0) (hv : valid cfg (g, r) = true)
    (total : List X) (Fin : Proc → PState X → Prop) (hFin : Fin (g, r) (.worker .done 1 total (some xres)))
    (acts : List (Action X)) (known : Bool) (hn : ∀ a ∈ acts, a.normal) (hj : ∀ a ∈ acts, a.isJac → 0 < nevals cfg cfg.centered)
    (seen : List X) (ht : seen ++ pointsOf cfg g known acts = total) :
    Follows (net cfg) Fin (g, r) (.worker .wait 0 seen none) (proj cfg (g, r) (word cfg xres known acts)) := by
  have ml : member cfg .leaders (g, r) = false := by simp [member, hr]
  have mw : member cfg .world (g, r) = true := by simp [member, hv]
  have nroot : ∀ c, (g, r) ≠ (net cfg).root c := by
    intro c h; change (g, r) = rootOf c at h; cases c <;> simp [rootOf] at h <;> exact hr h.2
  induction acts generalizing known seen with
  | nil =>
    have h := proj_stops cfg (g, r) hv
    simp only [proj] at h
    simp only [proj, word, List.filter_append, h, List.filter_cons, ml, mw, if_true, List.filter_nil, List.cons_append, List.nil_append, Bool.false_eq_true, if_false]
    simp only [pointsOf, List.append_nil] at ht
    subst ht
    exact ⟨⟨.nothing, rfl, fun h => absurd h (nroot _)⟩, ⟨.nothing, rfl, fun h => absurd h (nroot _)⟩, rfl, hFin⟩
  | cons a as ih =>
    have ih' := fun k s => ih k (fun b hb => hn b (by simp [hb])) (fun b hb => hj b (by simp [hb])) s
    cases a with
    | feval v =>
      have h1 := proj_evalCalls cfg (g, r) hv 0 1 v
      simp only [proj] at h1
      simp only [proj, word, List.filter_append, h1]
      by_cases hg : g = 0
      · subst hg
        have := follows_worker_evals cfg Fin 0 r 1 hr [v] 0 seen none (List.filter (fun l => member cfg l.1 (0, r)) (word cfg xres known as))
          (ih' known (seen ++ [v]) (by rw [← ht]; simp [pointsOf]))
        simpa using this
      · simp only [if_neg hg, List.nil_append]
        exact ih' known seen (by simpa [pointsOf, hg] using ht)
    | jac v =>
      have hne := hj (.jac v) (by simp) trivial
      have h1 : ∀ (n : Nat) (v : X), List.filter (fun l => member cfg l.1 (g, r)) (evalCalls 0 n v) = if g = 0 then evalCalls 0 n v else [] := by
        intro n v; exact proj_evalCalls cfg (g, r) hv 0 n v
      have h2 : ∀ (n : Nat) (vs : List X), List.filter (fun l => member cfg l.1 (g, r)) (vs.flatMap (evalCalls 0 n)) = if g = 0 then vs.flatMap (evalCalls 0 n) else [] := by
        intro n vs; exact proj_evals cfg (g, r) hv 0 n vs
      have h3 := proj_others cfg (g, r) hv (fun g => sharePts cfg cfg.centered v (cfg.stepsOf v) g) 1 (cfg.ngroups - 1)
      have hlt := (valid_lt hv).1
      simp only [proj] at h3
      obtain ⟨p0, ps, hp0⟩ : ∃ p0 ps, sharePts cfg cfg.centered v (cfg.stepsOf v) 0 = p0 :: ps := by
        have h0 : 0 ∈ share cfg cfg.centered 0 := by
          unfold share; rw [List.mem_filter]; exact ⟨List.mem_range.mpr hne, by simp⟩
        unfold sharePts
        cases hs : share cfg cfg.centered 0 with
        | nil => rw [hs] at h0; cases h0
        | cons a l => exact ⟨_, _, rfl⟩
      have hpro : List.filter (fun l => member cfg l.1 (g, r)) (jacPrologue cfg known v) = if g = 0 ∧ known = false then evalCalls 0 100 v else [] := by
        unfold jacPrologue
        cases known <;> simp [List.filter_append, h1, ml]
      have hsz : List.filter (fun l => member cfg l.1 (g, r)) (proc0Evals (p0 :: ps)) = if g = 0 then (p0 :: ps).flatMap (evalCalls 0 100) else [] := by
        simp only [proc0Evals, List.filter_append, h1, h2, List.filter_cons, ml, Bool.false_eq_true, if_false, List.filter_nil]
        by_cases hg : g = 0 <;> simp [hg]
      simp only [proj, word, List.filter_append, hp0, hpro, hsz, h3, List.filter_cons, ml, List.filter_nil, Bool.false_eq_true, if_false, List.append_assoc]
      by_cases hg : g = 0
      · subst hg
        rw [if_neg (by simp : ¬ (1 ≤ 0 ∧ 0 < 1 + (cfg.ngroups - 1)))]
        simp only [true_and, if_true, List.nil_append]
        have key : Follows (net cfg) Fin (0, r) (.worker .wait 0 (seen ++ (if known = false then [v] else [])) none)
            ((p0 :: ps).flatMap (evalCalls 0 100) ++ List.filter (fun l => member cfg l.1 (0, r)) (word cfg xres true as)) := by
          apply follows_worker_evals cfg Fin 0 r 100 hr
          apply ih'
          rw [← ht, ← hp0]
          simp [pointsOf, sharePts, share]
        cases known with
        | true => simpa using key
        | false =>
          have := follows_worker_evals cfg Fin 0 r 100 hr [v] 0 seen none _ key
          simpa using this
      · have n2 : 1 ≤ g ∧ g < 1 + (cfg.ngroups - 1) := by simp only at hlt; omega
        rw [if_pos n2]
        have n1 : ¬ (g = 0 ∧ known = false) := fun h => hg h.1
        simp only [n1, if_false, if_neg hg, List.nil_append]
        apply follows_worker_evals cfg Fin g r 100 hr
        apply ih'
        rw [← ht]
        simp [pointsOf, sharePts, share, hg]
    | jacRaise v k => exact (hn (.jacRaise v k) (by simp)).elim

theorem proj_invalid (cfg : Cfg X) (p : Proc) (hv : ¬ valid cfg p = true) (w : List (Comm × Kind × Msg X)) : proj cfg p w = [] := by
  simp only [proj]
  rw [List.filter_eq_nil_iff]
  rintro ⟨c, k, m⟩ _
  cases c <;> simp [member, hv]

theorem word_roots (cfg : Cfg X) (hc : cfg.OK) (xres : X) (acts : List (Action X)) (known : Bool) (hn : ∀ a ∈ acts, a.normal) :
    ∀ l ∈ word cfg xres known acts, member cfg l.1 (rootOf l.1) = true := by
  have v0 : ∀ g, g < cfg.ngroups → valid cfg (g, 0) = true := by
    intro g hg; simp [valid, hg, hc.sz g hg]
  have hl : member cfg .leaders (rootOf .leaders) = true := by simp [member, rootOf, v0 0 hc.ng]
  have hw : member cfg .world (rootOf .world) = true := by simp [member, rootOf, v0 0 hc.ng]
  have hg : ∀ g, g < cfg.ngroups → member cfg (.group g) (rootOf (.group g)) = true := by
    intro g h; simp [member, rootOf, v0 g h]
  have he : ∀ g, g < cfg.ngroups → ∀ n (v : X), ∀ l ∈ evalCalls g n v, member cfg l.1 (rootOf l.1) = true := by
    intro g h n v l hl'
    simp only [evalCalls, List.mem_cons, List.not_mem_nil, or_false] at hl'
    rcases hl' with rfl | rfl <;> exact hg g h
  induction acts generalizing known with
  | nil =>
    intro l hl'
    simp only [word, List.mem_append, List.mem_singleton, List.mem_map, List.mem_range] at hl'
    rcases hl' with (rfl | ⟨g, hlt, rfl⟩) | rfl
    exacts [hl, hg g hlt, hw]
  | cons a as ih =>
    have ih' := fun k => ih k (fun b hb => hn b (by simp [hb]))
    cases a with
    | feval v =>
      intro l hl'
      simp only [word, List.mem_append] at hl'
      rcases hl' with h | h
      exacts [he 0 hc.ng _ _ l h, ih' _ l h]
    | jac v =>
      intro l hl'
      simp only [word, List.mem_append, List.mem_flatMap, List.mem_singleton] at hl'
      rcases hl' with (((h | h) | ⟨g, hgr, p, _, h⟩) | rfl) | h
      · unfold jacPrologue at h
        rw [List.mem_append] at h
        rcases h with h | h
        · split at h
          · cases h
          · exact he 0 hc.ng _ _ l h
        · simp only [List.mem_cons, List.not_mem_nil, or_false] at h
          rcases h with rfl | rfl | rfl | rfl | rfl <;> exact hl
      · unfold proc0Evals at h
        split at h
        · cases h
        · simp only [List.mem_append, List.mem_singleton, List.mem_flatMap] at h
          rcases h with (h | rfl) | ⟨q, _, h⟩
          exacts [he 0 hc.ng _ _ l h, hl, he 0 hc.ng _ _ l h]
      · rw [List.mem_range'_1] at hgr
        exact he g (by omega) _ _ l h
      · exact hl
      · exact ih' _ l h
    | jacRaise v k => exact (hn (.jacRaise v k) (by simp)).elim

/-- All processes follow the word. -/
theorem good_initial (cfg : Cfg X) (hc : cfg.OK) (acts : List (Action X)) (xres : X) (hn : ∀ a ∈ acts, a.normal)
    (hj : ∀ a ∈ acts, a.isJac → cfg.grad = true ∧ 0 < nevals cfg cfg.centered) :
    Good (net cfg) (Finished cfg acts xres) (initial cfg acts (.together xres)) (word cfg xres false acts) := by
  refine ⟨?_, word_roots cfg hc xres acts false hn⟩
  intro p
  by_cases hv : valid cfg p = true
  · by_cases h0 : p = (0, 0)
    · subst h0
      have e := word_proc0 cfg xres hv acts false hn
      simp only [proj] at e
      show Follows _ _ _ _ (List.filter (fun l => member cfg l.1 (0, 0)) _)
      rw [e]
      simp only [initial, hv, if_true]
      exact follows_proc0 cfg _ _ rfl
    · obtain ⟨g, r⟩ := p
      by_cases hr : r = 0
      · subst hr
        have hg : g ≠ 0 := fun h => h0 (by rw [h])
        simp only [initial, hv, if_true, h0, if_false]
        exact word_leader cfg xres g hg hv (pointsOf cfg g false acts) _ ⟨⟨rfl, trivial⟩, rfl, rfl, rfl⟩ acts false hn hj [] (by simp)
      · simp only [initial, hv, if_true, h0, if_false, hr]
        exact word_worker cfg xres g r hr hv (pointsOf cfg g false acts) _ ⟨rfl, rfl, rfl, rfl⟩ acts false hn (fun a ha h => (hj a ha h).2) [] (by simp)
  · have e := proj_invalid cfg p hv (word cfg xres false acts)
    simp only [proj] at e
    show Follows _ _ _ _ (List.filter (fun l => member cfg l.1 p) _)
    rw [e]
    simp only [initial, hv]
    exact ⟨rfl, by simpa [Finished] using hv⟩

/-! ### The theorems -/

/-- **C25.**  For any partition, any sequence of function and Jacobian evaluations that the solver asks for, and whatever the order in which collectives complete:
    no two processes are ever in different kinds of calls on the same communicator, the system never gets stuck, and when all processes have returned, every group
    leader and worker has received exactly one STOP, has evaluated at exactly the points assigned to its group, in order, and holds the solver's result. -/
theorem C25_protocol (cfg : Cfg X) (hc : cfg.OK) (acts : List (Action X)) (xres : X) (hn : ∀ a ∈ acts, a.normal)
    (hj : ∀ a ∈ acts, a.isJac → cfg.grad = true ∧ 0 < nevals cfg cfg.centered) (st : Proc → PState X)
    (hr : Run (net cfg) (initial cfg acts (.together xres)) st) :
    ¬ Mismatch (net cfg) st ∧ ¬ Deadlock (net cfg) st ∧ (AllDone (net cfg) st → ∀ p, Finished cfg acts xres p (st p)) :=
  good_safe (good_initial cfg hc acts xres hn hj) hr

/-- **C25, termination.**  The number of collectives in any execution is bounded; an execution that cannot be continued has all processes finished. -/
theorem C25_terminates (cfg : Cfg X) (hc : cfg.OK) (acts : List (Action X)) (xres : X) (hn : ∀ a ∈ acts, a.normal)
    (hj : ∀ a ∈ acts, a.isJac → cfg.grad = true ∧ 0 < nevals cfg cfg.centered) :
    ∃ B, ∀ n st, RunN (net cfg) n (initial cfg acts (.together xres)) st → n ≤ B ∧ ((¬ ∃ c st', Fires (net cfg) st c st') → AllDone (net cfg) st) := by
  refine ⟨(word cfg xres false acts).length, fun n st hr => ?_⟩
  obtain ⟨h1, W', h2, _⟩ := good_bounded (good_initial cfg hc acts xres hn hj) hr
  refine ⟨h1, fun hno => ?_⟩
  by_contra hd
  exact (good_safe h2 Relation.ReflTransGen.refl).2.1 ⟨hd, hno⟩

/-- **C25, completion.**  There is an execution in which all processes return (by `C25_protocol` and `C25_terminates` every execution can only end so). -/
theorem C25_completes (cfg : Cfg X) (hc : cfg.OK) (acts : List (Action X)) (xres : X) (hn : ∀ a ∈ acts, a.normal)
    (hj : ∀ a ∈ acts, a.isJac → cfg.grad = true ∧ 0 < nevals cfg cfg.centered) :
    ∃ st, Run (net cfg) (initial cfg acts (.together xres)) st ∧ AllDone (net cfg) st ∧ ∀ p, Finished cfg acts xres p (st p) := by
  obtain ⟨st, h1, h2⟩ := good_completes (good_initial cfg hc acts xres hn hj)
  exact ⟨st, h1, h2, (C25_protocol cfg hc acts xres hn hj st h1).2.2 h2⟩

/-- Non-vacuity: three groups of sizes 2, 1, 2, centered scheme with 2 dofs, two Jacobians and a function evaluation. -/
example : let cfg : Cfg Nat := ⟨3, fun g => if g = 1 then 1 else 2, 2, true, true, fun _ x _ j => x + j, id⟩
    cfg.OK ∧ (∀ a ∈ [Action.feval 7, .jac 7, .jac 8], a.normal) ∧ (∀ a ∈ [Action.feval 7, .jac 7, .jac 8], a.isJac → cfg.grad = true ∧ 0 < nevals cfg cfg.centered) ∧
    pointsOf cfg 0 false [.feval 7, .jac 7, .jac 8] = [7, 7, 7, 10, 8, 11] ∧ pointsOf cfg 2 false [.feval 7, .jac 7, .jac 8] = [9, 10] := by
  refine ⟨⟨by decide, fun g hg => by simp only; split <;> decide⟩, ?_, fun _ _ _ => ⟨rfl, by decide⟩, rfl, rfl⟩
  intro a ha
  simp at ha
  rcases ha with rfl | rfl | rfl <;> trivial

/-! ### Where the protocol breaks -/

/-- two groups of one process each -/
def cfg2 (nparams : Nat) (centered : Bool) : Cfg Unit := ⟨2, fun _ => 1, nparams, true, centered, fun _ _ _ _ => (), id⟩

theorem cfg2_valid {n : Nat} {c : Bool} {p : Proc} (h : valid (cfg2 n c) p = true) : p = (0, 0) ∨ p = (1, 0) := by
  obtain ⟨h1, h2⟩ := valid_lt h
  obtain ⟨g, r⟩ := p
  simp only [cfg2] at h1 h2
  have : g = 0 ∨ g = 1 := by omega
  rcases this with rfl | rfl
  · left; congr; omega
  · right; congr; omega

/-- Centered differences of a problem without free dofs: proc 0 has no evaluation of its own, never broadcasts `jac_size` for which the other leaders wait, and calls
    `reduce` instead. -/
theorem C25_no_dofs_centered_violated : ∃ st, Run (net (cfg2 0 true)) (initial (cfg2 0 true) [.jac ()] (.together ())) st ∧ Mismatch (net (cfg2 0 true)) st := by
  let target : Proc → PState Unit := fun p =>
    if p = (0, 0) then .proc0 [(.leaders, .reduce, .evals), (.leaders, .bcast, .stop), (.group 0, .bcast, .stop), (.world, .bufBcast, .x ())]
    else if p = (1, 0) then .leader (.size true () ()) 0 [] none else initial (cfg2 0 true) [.jac ()] (.together ()) p
  refine ⟨target, run_of_steps (jacPrologue (cfg2 0 true) false ()) ?_ ?_, ?_⟩
  · intro l hl
    simp only [jacPrologue, evalCalls, Bool.false_eq_true, if_false, List.cons_append, List.nil_append, List.mem_cons, List.not_mem_nil, or_false] at hl
    rcases hl with rfl | rfl | rfl | rfl | rfl | rfl | rfl <;> rfl
  · intro p
    by_cases hv : valid (cfg2 0 true) p = true
    · rcases cfg2_valid hv with rfl | rfl
      · exact ⟨⟨_, rfl, fun _ => rfl⟩, ⟨_, rfl, fun _ => rfl⟩, ⟨_, rfl, fun _ => rfl⟩, ⟨_, rfl, fun _ => rfl⟩, ⟨_, rfl, fun _ => rfl⟩, ⟨_, rfl, fun _ => rfl⟩,
          ⟨_, rfl, fun _ => rfl⟩, rfl⟩
      · have n1 : ∀ c, c = Comm.leaders → ((1, 0) : Proc) ≠ (net (cfg2 0 true)).root c := by rintro c rfl h; simp [net, rootOf] at h
        exact ⟨⟨_, rfl, fun h => absurd h (n1 _ rfl)⟩, ⟨_, rfl, fun h => absurd h (n1 _ rfl)⟩, ⟨_, rfl, fun h => absurd h (n1 _ rfl)⟩,
          ⟨_, rfl, fun h => absurd h (n1 _ rfl)⟩, ⟨_, rfl, fun h => absurd h (n1 _ rfl)⟩, rfl⟩
    · have e := proj_invalid (cfg2 0 true) p hv (jacPrologue (cfg2 0 true) false ())
      show Steps _ _ _ (proj (cfg2 0 true) p _) _
      rw [e]
      have h0 : p ≠ (0, 0) := by rintro rfl; exact hv rfl
      have h1 : p ≠ (1, 0) := by rintro rfl; exact hv rfl
      simp [target, h0, h1, Steps]
  · exact ⟨.leaders, (0, 0), (1, 0), .reduce, .bcast, .evals, .nothing, rfl, rfl, rfl, rfl, by decide⟩

/-- If the user's function raises on proc 0 in the middle of a Jacobian, `together()` broadcasts STOP to leaders that are in `reduce`. -/
theorem C25_exception_in_jac_violated : ∃ st, Run (net (cfg2 2 false)) (initial (cfg2 2 false) [.jacRaise () 1] (.together ())) st ∧ Mismatch (net (cfg2 2 false)) st := by
  let W : List (Comm × Kind × Msg Unit) := jacPrologue (cfg2 2 false) false () ++ (evalCalls 0 100 () ++ [(.leaders, .bcast, .size)] ++ evalCalls 1 100 () ++ evalCalls 0 100 ())
  let target : Proc → PState Unit := fun p =>
    if p = (0, 0) then .proc0 [(.leaders, .bcast, .stop), (.group 0, .bcast, .stop), (.world, .bufBcast, .x ())]
    else if p = (1, 0) then .leader (.eval []) 0 [()] none else initial (cfg2 2 false) [.jacRaise () 1] (.together ()) p
  refine ⟨target, run_of_steps W ?_ ?_, ?_⟩
  · intro l hl
    simp only [W, jacPrologue, evalCalls, Bool.false_eq_true, if_false, List.cons_append, List.nil_append, List.mem_cons, List.not_mem_nil, or_false] at hl
    rcases hl with rfl | rfl | rfl | rfl | rfl | rfl | rfl | rfl | rfl | rfl | rfl | rfl | rfl | rfl <;> rfl
  · intro p
    by_cases hv : valid (cfg2 2 false) p = true
    · rcases cfg2_valid hv with rfl | rfl
      · exact ⟨⟨_, rfl, fun _ => rfl⟩, ⟨_, rfl, fun _ => rfl⟩, ⟨_, rfl, fun _ => rfl⟩, ⟨_, rfl, fun _ => rfl⟩, ⟨_, rfl, fun _ => rfl⟩, ⟨_, rfl, fun _ => rfl⟩,
          ⟨_, rfl, fun _ => rfl⟩, ⟨_, rfl, fun _ => rfl⟩, ⟨_, rfl, fun _ => rfl⟩, ⟨_, rfl, fun _ => rfl⟩, ⟨_, rfl, fun _ => rfl⟩, ⟨_, rfl, fun _ => rfl⟩, rfl⟩
      · have n1 : ∀ c, c = Comm.leaders → ((1, 0) : Proc) ≠ (net (cfg2 2 false)).root c := by rintro c rfl h; simp [net, rootOf] at h
        exact ⟨⟨_, rfl, fun h => absurd h (n1 _ rfl)⟩, ⟨_, rfl, fun h => absurd h (n1 _ rfl)⟩, ⟨_, rfl, fun h => absurd h (n1 _ rfl)⟩,
          ⟨_, rfl, fun h => absurd h (n1 _ rfl)⟩, ⟨_, rfl, fun h => absurd h (n1 _ rfl)⟩, ⟨_, rfl, fun h => absurd h (n1 _ rfl)⟩, ⟨_, rfl, fun _ => rfl⟩, ⟨_, rfl, fun _ => rfl⟩, rfl⟩
    · have e := proj_invalid (cfg2 2 false) p hv W
      show Steps _ _ _ (proj (cfg2 2 false) p _) _
      rw [e]
      have h0 : p ≠ (0, 0) := by rintro rfl; exact hv rfl
      have h1 : p ≠ (1, 0) := by rintro rfl; exact hv rfl
      simp [target, h0, h1, Steps]
  · exact ⟨.leaders, (0, 0), (1, 0), .bcast, .reduce, .stop, .nothing, rfl, rfl, rfl, rfl, by decide⟩

/-- An exception that leaves the derivative-free solve on proc 0 (for instance from `prob.objective()`, which `_f_proc0` calls outside its `try`, solve/mpi.py L155)
    skips `together()`: the other processes wait for ever. -/
theorem C25_exception_outside_try_violated : ∃ st, Run (net (cfg2 1 false)) (initial (cfg2 1 false) [.feval ()] .dead) st ∧ Deadlock (net (cfg2 1 false)) st := by
  let target : Proc → PState Unit := fun p => if p = (0, 0) then .proc0 [] else initial (cfg2 1 false) [.feval ()] .dead p
  refine ⟨target, run_of_steps (evalCalls 0 1 ()) ?_ ?_, ?_, ?_⟩
  · intro l hl
    simp only [evalCalls, List.mem_cons, List.not_mem_nil, or_false] at hl
    rcases hl with rfl | rfl <;> rfl
  · intro p
    by_cases hv : valid (cfg2 1 false) p = true
    · rcases cfg2_valid hv with rfl | rfl
      · exact ⟨⟨_, rfl, fun _ => rfl⟩, ⟨_, rfl, fun _ => rfl⟩, rfl⟩
      · rfl
    · have e := proj_invalid (cfg2 1 false) p hv (evalCalls 0 1 ())
      show Steps _ _ _ (proj (cfg2 1 false) p _) _
      rw [e]
      have h0 : p ≠ (0, 0) := by rintro rfl; exact hv rfl
      simp [target, h0, Steps]
  · intro h
    have := h (1, 0)
    exact absurd this (by simp [net, target, initial, nextCall]; decide)
  · rintro ⟨c, st', hr, k, v, hm, _⟩
    have hz : ∀ c, member (cfg2 1 false) c (0, 0) = true → ¬ ∃ u, nextCall (0, 0) (target (0, 0)) = some (c, k, u) := by
      rintro c _ ⟨u, hu⟩; cases hu
    cases c with
    | leaders => obtain ⟨u, hu, _⟩ := hm (0, 0) rfl; cases hu
    | world => obtain ⟨u, hu, _⟩ := hm (0, 0) rfl; cases hu
    | group g =>
      have hv : valid (cfg2 1 false) (g, 0) = true := by
        have : member (cfg2 1 false) (.group g) (g, 0) = true := hr
        simp only [member, Bool.and_eq_true] at this; exact this.1
      rcases cfg2_valid hv with h | h
      · cases h; obtain ⟨u, hu, _⟩ := hm (0, 0) rfl; cases hu
      · cases h; obtain ⟨u, hu, _⟩ := hm (1, 0) rfl; cases hu

end Simsopt.Mpi
