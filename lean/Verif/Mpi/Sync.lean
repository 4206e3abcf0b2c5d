import Mathlib.Data.List.Basic
import Mathlib.Logic.Relation
import Mathlib.Tactic.Tauto
/-!
# Synchronous collectives

A system of processes, each a deterministic state machine whose steps are collective calls on communicators.  A communicator fires when all of its members
are at a call of the same kind on it; the value offered by the root is delivered to every member.  This is the MPI behaviour of DESIGN.md "Trusted base" 5: a call blocks
until all members have called; different kinds on the same communicator never complete.
-/
namespace Simsopt.Mpi

variable {P C K V σ : Type}

/-- Static description: who belongs to a communicator, its root, what a process in a state is about to call (communicator, kind, value offered), and how it
    continues on the delivered value. -/
structure Net (P C K V σ : Type) where
  member : C → P → Bool
  root : C → P
  next : P → σ → Option (C × K × V)
  resume : P → σ → V → σ

/-- one collective completes, on a communicator that exists (has its root) -/
def Fires (N : Net P C K V σ) (st : P → σ) (c : C) (st' : P → σ) : Prop :=
  N.member c (N.root c) = true ∧ ∃ k v, (∀ p, N.member c p = true → ∃ u, N.next p (st p) = some (c, k, u) ∧ (p = N.root c → u = v)) ∧
    (∀ p, st' p = if N.member c p then N.resume p (st p) v else st p)

/-- reachable by completing collectives in any order -/
def Run (N : Net P C K V σ) : (P → σ) → (P → σ) → Prop := Relation.ReflTransGen (fun a b => ∃ c, Fires N a c b)

/-- All processes have finished. -/
def AllDone (N : Net P C K V σ) (st : P → σ) : Prop := ∀ p, N.next p (st p) = none

/-- No communicator can fire although some process still waits in a call. -/
def Deadlock (N : Net P C K V σ) (st : P → σ) : Prop := ¬ AllDone N st ∧ ¬ ∃ c st', Fires N st c st'

/-- Two members of a communicator are in calls of different kinds on it. -/
def Mismatch (N : Net P C K V σ) (st : P → σ) : Prop :=
  ∃ c p q k k' u u', N.member c p = true ∧ N.member c q = true ∧ N.next p (st p) = some (c, k, u) ∧ N.next q (st q) = some (c, k', u') ∧ k ≠ k'

/-- Process `p` in state `s` will take part in exactly the collectives of the word `w`, in this order, and then satisfy `Fin`. -/
def Follows (N : Net P C K V σ) (Fin : P → σ → Prop) (p : P) : σ → List (C × K × V) → Prop
  | s, [] => N.next p s = none ∧ Fin p s
  | s, (c, k, v) :: w => (∃ u, N.next p s = some (c, k, u) ∧ (p = N.root c → u = v)) ∧ Follows N Fin p (N.resume p s v) w

/-- There is one global order of collectives that every process follows. -/
def Good (N : Net P C K V σ) (Fin : P → σ → Prop) (st : P → σ) (W : List (C × K × V)) : Prop :=
  (∀ p, Follows N Fin p (st p) (W.filter (fun l => N.member l.1 p))) ∧ ∀ l ∈ W, N.member l.1 (N.root l.1) = true

theorem follows_next {N : Net P C K V σ} {Fin : P → σ → Prop} {p : P} {s : σ} {w : List (C × K × V)} {c : C} {k : K} {u : V}
    (h : Follows N Fin p s w) (hn : N.next p s = some (c, k, u)) :
    ∃ v w', w = (c, k, v) :: w' ∧ (p = N.root c → u = v) ∧ Follows N Fin p (N.resume p s v) w' := by
  match w, h with
  | [], h => rw [h.1] at hn; cases hn
  | (c', k', v) :: w', ⟨⟨u', h1, h2⟩, h3⟩ =>
    rw [h1] at hn; cases hn
    exact ⟨v, w', rfl, h2, h3⟩

theorem filter_first {α : Type} (f : α → Bool) : ∀ (W : List α) (a : α) (w' : List α), W.filter f = a :: w' →
    ∃ W1 W2, W = W1 ++ a :: W2 ∧ (∀ b ∈ W1, f b = false) ∧ f a = true ∧ W2.filter f = w'
  | [], a, w', h => by simp at h
  | b :: W, a, w', h => by
    rw [List.filter_cons] at h
    split at h
    · rename_i hb
      cases h
      exact ⟨[], W, rfl, by simp, hb, rfl⟩
    · rename_i hb
      obtain ⟨W1, W2, rfl, h1, h2, h3⟩ := filter_first f W a w' h
      exact ⟨b :: W1, W2, rfl, by intro x hx; rcases List.mem_cons.mp hx with rfl | hx; exacts [by simpa using hb, h1 x hx], h2, h3⟩

/-- If a process is at a call on `c`, then before the first letter on `c` nothing in the global word concerns it. -/
theorem first_letter {N : Net P C K V σ} {Fin : P → σ → Prop} {st : P → σ} {W : List (C × K × V)} (h : Good N Fin st W)
    {p : P} {c : C} {k : K} {u : V} (hn : N.next p (st p) = some (c, k, u)) :
    ∃ W1 v W2, W = W1 ++ (c, k, v) :: W2 ∧ (∀ b ∈ W1, N.member b.1 p = false) := by
  obtain ⟨v, w', hw, _, _⟩ := follows_next (h.1 p) hn
  obtain ⟨W1, W2, e, h1, _, _⟩ := filter_first _ _ _ _ hw
  exact ⟨W1, v, W2, e, h1⟩

theorem split_unique {α : Type} (f : α → Bool) {W1 W2 W1' W2' : List α} {a b : α} (e : W1 ++ a :: W2 = W1' ++ b :: W2')
    (h1 : ∀ x ∈ W1, f x = false) (h2 : ∀ x ∈ W1', f x = false) (ha : f a = true) (hb : f b = true) : W1 = W1' ∧ a = b ∧ W2 = W2' := by
  induction W1 generalizing W1' with
  | nil =>
    cases W1' with
    | nil => simpa using e
    | cons x l => simp at e; rw [e.1] at ha; rw [h2 x (by simp)] at ha; cases ha
  | cons y W1 ih =>
    cases W1' with
    | nil => simp at e; rw [← e.1] at hb; rw [h1 y (by simp)] at hb; cases hb
    | cons x l =>
      simp only [List.cons_append, List.cons.injEq] at e
      obtain ⟨rfl, e⟩ := e
      obtain ⟨rfl, h⟩ := ih e (fun z hz => h1 z (by simp [hz])) (fun z hz => h2 z (by simp [hz]))
      exact ⟨rfl, h⟩

/-- No mismatch in a good state. -/
theorem good_no_mismatch {N : Net P C K V σ} {Fin : P → σ → Prop} {st : P → σ} {W : List (C × K × V)} (h : Good N Fin st W) : ¬ Mismatch N st := by
  rintro ⟨c, p, q, k, k', u, u', mp, mq, np, nq, hk⟩
  obtain ⟨W1, v, W2, e, h1⟩ := first_letter h np
  obtain ⟨W1', v', W2', e', h1'⟩ := first_letter h nq
  classical
  have key := split_unique (fun l : C × K × V => decide (l.1 = c)) (e.symm.trans e')
    (fun x hx => by
      have := h1 x hx
      by_contra hc
      simp at hc; rw [hc, mp] at this; cases this)
    (fun x hx => by
      have := h1' x hx
      by_contra hc
      simp at hc; rw [hc, mq] at this; cases this) (by simp) (by simp)
  have := key.2.1
  simp at this
  exact hk this.1

/-- A collective that completes in a good state leads to a good state with one letter less. -/
theorem good_fires {N : Net P C K V σ} {Fin : P → σ → Prop} {st st' : P → σ} {W : List (C × K × V)} {c : C} (h : Good N Fin st W)
    (hf : Fires N st c st') : ∃ W', Good N Fin st' W' ∧ W.length = W'.length + 1 := by
  obtain ⟨hrm, k, v, hm, hs⟩ := hf
  obtain ⟨u0, hn0, hv0⟩ := hm _ hrm
  obtain ⟨w, w', hw, hroot, _⟩ := follows_next (h.1 (N.root c)) hn0
  have hvw : v = w := (hv0 rfl).symm.trans (hroot rfl)
  subst hvw
  obtain ⟨W1, W2, e, h1, _, _⟩ := filter_first _ _ _ _ hw
  classical
  -- nothing in `W1` concerns any member of `c`
  have hdis : ∀ q, N.member c q = true → ∀ b ∈ W1, N.member b.1 q = false := by
    intro q hq
    obtain ⟨u, hnq, _⟩ := hm q hq
    obtain ⟨W1', v', W2', e', h1'⟩ := first_letter h hnq
    have key := split_unique (fun l : C × K × V => decide (l.1 = c)) (e.symm.trans e')
      (fun x hx => by
        have := h1 x hx
        by_contra hc
        simp at hc; rw [hc, hrm] at this; cases this)
      (fun x hx => by
        have := h1' x hx
        by_contra hc
        simp at hc; rw [hc, hq] at this; cases this) (by simp) (by simp)
    rw [key.1]; exact h1'
  refine ⟨W1 ++ W2, ⟨?_, fun l hl => h.2 l (by rw [e]; simp only [List.mem_append, List.mem_cons] at hl ⊢; tauto)⟩, by rw [e]; simp; omega⟩
  intro p
  rw [hs p]
  have hp := h.1 p
  rw [e, List.filter_append, List.filter_cons] at hp
  by_cases hmem : N.member c p = true
  · rw [if_pos hmem, List.filter_append]
    simp only [hmem, if_true] at hp
    have h0 : W1.filter (fun l => N.member l.1 p) = [] := by
      rw [List.filter_eq_nil_iff]; intro b hb; simp [hdis p hmem b hb]
    rw [h0, List.nil_append] at hp ⊢
    exact hp.2
  · rw [if_neg hmem, List.filter_append]
    simp only [hmem] at hp
    exact hp

/-- The first letter of the global word can fire. -/
theorem good_progress {N : Net P C K V σ} {Fin : P → σ → Prop} {st : P → σ} {c : C} {k : K} {v : V} {W : List (C × K × V)}
    (h : Good N Fin st ((c, k, v) :: W)) : ∃ st', Fires N st c st' := by
  refine ⟨fun p => if N.member c p then N.resume p (st p) v else st p, h.2 (c, k, v) (by simp), k, v, ?_, fun p => rfl⟩
  intro p hp
  have := h.1 p
  rw [List.filter_cons] at this
  simp only [hp, if_true] at this
  exact this.1

theorem good_run {N : Net P C K V σ} {Fin : P → σ → Prop} {st st' : P → σ} {W : List (C × K × V)} (h : Good N Fin st W) (hr : Run N st st') :
    ∃ W', Good N Fin st' W' ∧ W'.length ≤ W.length := by
  induction hr with
  | refl => exact ⟨W, h, Nat.le_refl _⟩
  | tail _ hs ih =>
    obtain ⟨W', h1, h2⟩ := ih
    obtain ⟨c, hc⟩ := hs
    obtain ⟨W'', h3, h4⟩ := good_fires h1 hc
    exact ⟨W'', h3, by omega⟩

/-- In every state reachable from a good one: no mismatch; and if nothing can fire, all processes have finished and satisfy `Fin`. -/
theorem good_safe {N : Net P C K V σ} {Fin : P → σ → Prop} {st st' : P → σ} {W : List (C × K × V)} (h : Good N Fin st W) (hr : Run N st st') :
    ¬ Mismatch N st' ∧ ¬ Deadlock N st' ∧ (AllDone N st' → ∀ p, Fin p (st' p)) := by
  obtain ⟨W', h1, _⟩ := good_run h hr
  refine ⟨good_no_mismatch h1, ?_, ?_⟩
  · rintro ⟨hd, hf⟩
    match W', h1 with
    | [], h1 => exact hd (fun p => (h1.1 p).1)
    | (c, k, v) :: W', h1 => exact hf ⟨c, good_progress h1⟩
  · intro hd p
    have hp := h1.1 p
    generalize W'.filter (fun l => N.member l.1 p) = w at hp
    match w, hp with
    | [], hp => exact hp.2
    | (c, k, v) :: w, ⟨⟨u, hu, _⟩, _⟩ => rw [hd] at hu; cases hu

/-- number of completed collectives -/
inductive RunN (N : Net P C K V σ) : Nat → (P → σ) → (P → σ) → Prop
  | zero (st) : RunN N 0 st st
  | succ {n st st' st'' c} : RunN N n st st' → Fires N st' c st'' → RunN N (n + 1) st st''

/-- Every execution completes at most `W.length` collectives (so every maximal execution is finite), whatever the order. -/
theorem good_bounded {N : Net P C K V σ} {Fin : P → σ → Prop} {st st' : P → σ} {W : List (C × K × V)} (h : Good N Fin st W) {n : Nat}
    (hr : RunN N n st st') : n ≤ W.length ∧ ∃ W', Good N Fin st' W' ∧ W'.length + n = W.length := by
  suffices hh : ∃ W', Good N Fin st' W' ∧ W'.length + n = W.length by
    obtain ⟨W', h1, h2⟩ := hh
    exact ⟨by omega, W', h1, h2⟩
  induction hr with
  | zero => exact ⟨W, h, by omega⟩
  | succ _ hs ih =>
    obtain ⟨W', h1, h2⟩ := ih h
    obtain ⟨W'', h3, h4⟩ := good_fires h1 hs
    exact ⟨W'', h3, by omega⟩

/-- From a good state all processes can be brought to the end (and by `good_safe` no execution ends elsewhere). -/
theorem good_completes {N : Net P C K V σ} {Fin : P → σ → Prop} {st : P → σ} {W : List (C × K × V)} (h : Good N Fin st W) :
    ∃ st', Run N st st' ∧ AllDone N st' := by
  generalize hn : W.length = n
  induction n generalizing st W with
  | zero =>
    have : W = [] := List.length_eq_zero_iff.mp hn
    subst this
    exact ⟨st, Relation.ReflTransGen.refl, fun p => (h.1 p).1⟩
  | succ n ih =>
    match W, h with
    | [], _ => simp at hn
    | (c, k, v) :: W, h =>
      obtain ⟨st1, hf⟩ := good_progress h
      obtain ⟨W', h1, h2⟩ := good_fires h hf
      obtain ⟨st', hr, hd⟩ := ih h1 (by omega)
      exact ⟨st', Relation.ReflTransGen.head ⟨c, hf⟩ hr, hd⟩

/-- Process `p` goes from `s` to `s'` by taking part in the collectives of `w`. -/
def Steps (N : Net P C K V σ) (p : P) : σ → List (C × K × V) → σ → Prop
  | s, [], s' => s = s'
  | s, (c, k, v) :: w, s' => (∃ u, N.next p s = some (c, k, u) ∧ (p = N.root c → u = v)) ∧ Steps N p (N.resume p s v) w s'

/-- A word that all processes go through is an execution. -/
theorem run_of_steps {N : Net P C K V σ} : ∀ (W : List (C × K × V)) {st st' : P → σ}, (∀ l ∈ W, N.member l.1 (N.root l.1) = true) →
    (∀ p, Steps N p (st p) (W.filter (fun l => N.member l.1 p)) (st' p)) → Run N st st'
  | [], st, st', _, h => by
    have : st = st' := funext (fun p => h p)
    subst this; exact Relation.ReflTransGen.refl
  | (c, k, v) :: W, st, st', hr, h => by
    refine Relation.ReflTransGen.head (b := fun p => if N.member c p then N.resume p (st p) v else st p) ⟨c, hr (c, k, v) (by simp), k, v, ?_, fun p => rfl⟩
      (run_of_steps W (fun l hl => hr l (by simp [hl])) ?_)
    · intro p hp
      have := h p
      rw [List.filter_cons] at this
      simp only [hp, if_true] at this
      exact this.1
    · intro p
      have := h p
      rw [List.filter_cons] at this
      by_cases hp : N.member c p = true
      · simp only [hp, if_true] at this ⊢; exact this.2
      · simp only [hp] at this ⊢; exact this

end Simsopt.Mpi
