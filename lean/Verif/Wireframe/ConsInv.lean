import Verif.Wireframe.Constraints
import Mathlib.Data.List.Nodup
/-! # Invariants of the constraint dictionary -/
namespace Simsopt.Wireframe

variable {g : Grid}

/-! ### Single entries -/

theorem Wf.has_iff {w : Wf} {n : Name} : w.has n = true ↔ ∃ c ∈ w.cons, c.name = n := by
  simp [Wf.has]

theorem has_add (c : Constraint) (w : Wf) (n : Name) : (addConstraint c w).1.has n = true ↔ w.has n = true ∨ n = c.name := by
  rw [addConstraint]
  split
  · rename_i h
    constructor
    · exact Or.inl
    · rintro (h1 | h1)
      · exact h1
      · rw [h1]; exact h
  · simp only [Wf.has, List.any_append, List.any_cons, List.any_nil, Bool.or_false, Bool.or_eq_true, decide_eq_true_eq]
    exact ⟨fun h => h.imp id Eq.symm, fun h => h.imp id Eq.symm⟩

theorem find_isSome (w : Wf) (n : Name) : (w.cons.find? fun c => decide (c.name = n)).isSome = w.has n := by
  rw [Wf.has, ← Bool.coe_iff_coe, List.find?_isSome]
  simp

theorem has_remove (m : Name) (w : Wf) (n : Name) : (removeConstraint m w).1.has n = true ↔ w.has n = true ∧ n ≠ m := by
  have hs := find_isSome w m
  rw [removeConstraint]
  cases e : w.cons.find? fun c => decide (c.name = m) with
  | none =>
    rw [e] at hs
    simp only
    constructor
    · intro h
      refine ⟨h, fun e' => ?_⟩
      rw [e'] at h; rw [h] at hs; simp at hs
    · exact And.left
  | some c =>
    simp only [Wf.has_iff, List.mem_filter]
    constructor
    · rintro ⟨d, ⟨hd, h1⟩, h2⟩
      refine ⟨⟨d, hd, h2⟩, ?_⟩
      rw [← h2]; simpa using h1
    · rintro ⟨⟨d, hd, h2⟩, h1⟩
      exact ⟨d, ⟨hd, by rw [h2]; simpa using h1⟩, h2⟩

theorem add_err (c : Constraint) (w : Wf) : (addConstraint c w).2 = if w.has c.name then some .exists else none := by
  rw [addConstraint]; split <;> rfl

theorem remove_err (n : Name) (w : Wf) : (removeConstraint n w).2 = if w.has n then none else some .missing := by
  have hs := find_isSome w n
  rw [removeConstraint]
  cases e : w.cons.find? fun c => decide (c.name = n) with
  | none => rw [e] at hs; rw [← hs]; rfl
  | some c => rw [e] at hs; rw [← hs]; rfl

/-- Entries are as the methods build them. -/
def Grid.WellFormed (g : Grid) (c : Constraint) : Prop := match c.name with
  | .seg s => c.type = .segment ∧ s < g.nSeg ∧ c.row = unitRow s ∧ c.const = 0
  | .impl s => c.type = .implicit ∧ s < g.nSeg ∧ c.row = unitRow s ∧ c.const = 0
  | .cont v => c.type = .continuity ∧ ∃ i j, i ≤ g.N ∧ j < g.n ∧ g.hasContinuity i j = true ∧ v = g.node i j ∧ c.row = contRow (g.connected i j) ∧ c.const = 0
  | .pol => c.type = .poloidal ∧ c.row = g.polRow
  | .tor => c.type = .toroidal ∧ c.row = g.torRow
  | .user _ => c.type = .other

theorem wellFormed_seg (b : Bool) (s : Nat) (hs : s < g.nSeg) : g.WellFormed (segConstraint b s) := by
  cases b <;> exact ⟨rfl, hs, rfl, rfl⟩

/-- The part of the invariant that holds in the middle of a method as well. -/
structure Grid.Base (g : Grid) (w : Wf) : Prop where
  nodup : (w.cons.map (·.name)).Nodup
  wf : ∀ c ∈ w.cons, g.WellFormed c
  cont : ∀ i ≤ g.N, ∀ j < g.n, g.hasContinuity i j = true → w.has (.cont (g.node i j)) = true
  disj : ∀ s, w.has (.seg s) = true → w.has (.impl s) = true → False

/-- Are constraints of this name segment constraints? -/
def Name.isSeg : Name → Bool
  | .seg _ => true
  | .impl _ => true
  | _ => false

def Name.isCont : Name → Bool
  | .cont _ => true
  | _ => false

theorem Grid.WellFormed.isSeg {c : Constraint} (h : g.WellFormed c) : c.type.isSeg = c.name.isSeg := by
  unfold Grid.WellFormed at h
  cases e : c.name <;> rw [e] at h
  case seg => rw [h.1]; rfl
  case impl => rw [h.1]; rfl
  case cont => rw [h.1]; rfl
  case pol => rw [h.1]; rfl
  case tor => rw [h.1]; rfl
  all_goals (simp only at h; rw [h]; rfl)

theorem Grid.Base.explicit {w : Wf} (hb : g.Base w) (s : Nat) : s ∈ w.explicit ↔ w.has (.seg s) = true := by
  rw [Wf.has_iff]
  simp only [Wf.explicit, List.mem_map, List.mem_filter, decide_eq_true_eq]
  constructor
  · rintro ⟨c, ⟨hc, ht⟩, rfl⟩
    have := hb.wf c hc
    unfold Grid.WellFormed at this
    refine ⟨c, hc, ?_⟩
    cases e : c.name <;> rw [e] at this <;> simp only [ht, reduceCtorEq, false_and] at this
    rfl
  · rintro ⟨c, hc, hn⟩
    have := hb.wf c hc
    unfold Grid.WellFormed at this
    rw [hn] at this
    exact ⟨c, ⟨hc, this.1⟩, by rw [hn]; rfl⟩

theorem Grid.Base.implicit {w : Wf} (hb : g.Base w) (s : Nat) : s ∈ w.implicit ↔ w.has (.impl s) = true := by
  rw [Wf.has_iff]
  simp only [Wf.implicit, List.mem_map, List.mem_filter, decide_eq_true_eq]
  constructor
  · rintro ⟨c, ⟨hc, ht⟩, rfl⟩
    have := hb.wf c hc
    unfold Grid.WellFormed at this
    refine ⟨c, hc, ?_⟩
    cases e : c.name <;> rw [e] at this <;> simp only [ht, reduceCtorEq, false_and] at this
    rfl
  · rintro ⟨c, hc, hn⟩
    have := hb.wf c hc
    unfold Grid.WellFormed at this
    rw [hn] at this
    exact ⟨c, ⟨hc, this.1⟩, by rw [hn]; rfl⟩

theorem Grid.Base.mem_free {w : Wf} (hb : g.Base w) (s : Nat) : s ∈ g.freeSegs w ↔ s < g.nSeg ∧ ¬ w.has (.seg s) = true ∧ ¬ w.has (.impl s) = true := by
  simp only [Grid.freeSegs, List.mem_filter, List.mem_range, Bool.not_eq_true', decide_eq_false_iff_not, List.mem_append, hb.explicit, hb.implicit, not_or]

theorem Grid.Base.lt {w : Wf} (hb : g.Base w) (s : Nat) (h : w.has (.seg s) = true ∨ w.has (.impl s) = true) : s < g.nSeg := by
  rcases h with h | h <;> obtain ⟨c, hc, hn⟩ := Wf.has_iff.mp h <;> have := hb.wf c hc <;> unfold Grid.WellFormed at this <;> rw [hn] at this <;> exact this.2.1

/-! ### Every single change keeps the invariant -/

theorem mem_add {c d : Constraint} {w : Wf} (h : d ∈ (addConstraint c w).1.cons) : d ∈ w.cons ∨ d = c := by
  rw [addConstraint] at h
  split at h
  · exact Or.inl h
  · simpa using h

theorem mem_remove {d : Constraint} {n : Name} {w : Wf} (h : d ∈ (removeConstraint n w).1.cons) : d ∈ w.cons := by
  rw [removeConstraint] at h
  cases e : w.cons.find? fun c => decide (c.name = n) with
  | none => rw [e] at h; exact h
  | some c => rw [e] at h; exact (List.mem_filter.mp h).1

theorem Grid.Base.add {w : Wf} (hb : g.Base w) (c : Constraint) (hc : g.WellFormed c) (h1 : ∀ s, c.name = .seg s → ¬ w.has (.impl s) = true) (h2 : ∀ s, c.name = .impl s → ¬ w.has (.seg s) = true) :
    g.Base (addConstraint c w).1 where
  nodup := by
    rw [addConstraint]
    split
    · exact hb.nodup
    · rename_i h
      simp only [List.map_append, List.map_cons, List.map_nil]
      rw [List.nodup_append]
      refine ⟨hb.nodup, List.nodup_singleton _, ?_⟩
      intro a ha b hb' e
      obtain ⟨d, hd, rfl⟩ := List.mem_map.mp ha
      rw [List.mem_singleton] at hb'
      exact h (Wf.has_iff.mpr ⟨d, hd, by rw [e, hb']⟩)
  wf := fun d hd => by
    rcases mem_add hd with h | h
    · exact hb.wf d h
    · rw [h]; exact hc
  cont := fun i hi j hj h => by rw [has_add]; exact Or.inl (hb.cont i hi j hj h)
  disj := fun s a b => by
    rw [has_add] at a b
    rcases a with a | a <;> rcases b with b | b
    · exact hb.disj s a b
    · exact h2 s b.symm a
    · exact h1 s a.symm b
    · rw [← a] at b; cases b

theorem Grid.Base.remove {w : Wf} (hb : g.Base w) (n : Name) (hn : n.isCont = false) : g.Base (removeConstraint n w).1 where
  nodup := by
    rw [removeConstraint]
    cases e : w.cons.find? fun c => decide (c.name = n) with
    | none => exact hb.nodup
    | some c => exact hb.nodup.sublist (List.filter_sublist.map _)
  wf := fun d hd => hb.wf d (mem_remove hd)
  cont := fun i hi j hj h => by
    rw [has_remove]; refine ⟨hb.cont i hi j hj h, ?_⟩
    rintro rfl; cases hn
  disj := fun s a b => by
    rw [has_remove] at a b; exact hb.disj s a.1 b.1

theorem each_inv {α : Type} {f : α → Wf → Res} {I : Wf → Prop} (l : List α) (h : ∀ a ∈ l, ∀ w, I w → I (f a w).1) (w : Wf) (hw : I w) : I (each f l w).1 := by
  induction l generalizing w with
  | nil => exact hw
  | cons a l ih =>
    rw [each, Res.andThen]
    have h1 := h a (by simp) w hw
    cases e : (f a w).2 with
    | some _ => exact h1
    | none => exact ih (fun b hb => h b (by simp [hb])) _ h1

/-- A loop that never raises. -/
theorem each_ok {α : Type} {f : α → Wf → Res} {I : List α → Wf → Prop} (l : List α) (h : ∀ a l w, I (a :: l) w → (f a w).2 = none ∧ I l (f a w).1) (w : Wf) (hw : I l w) :
    (each f l w).2 = none ∧ I [] (each f l w).1 := by
  induction l generalizing w with
  | nil => exact ⟨rfl, hw⟩
  | cons a l ih =>
    obtain ⟨h1, h2⟩ := h a l w hw
    rw [each, Res.andThen, h1]
    exact ih _ h2

theorem Grid.inRange_iff {l : List Int} : g.inRange l = true ↔ ∀ s ∈ l, 0 ≤ s ∧ s < g.nSeg := by
  simp [Grid.inRange]

/-- The names a method may touch. -/
theorem Grid.Base.addSegs {w : Wf} (hb : g.Base w) (l : List Int) (b : Bool) (h : b = true → ∀ s ∈ l, ¬ w.has (.seg s.toNat) = true) : g.Base (g.addSegs l b w).1 := by
  rw [Grid.addSegs]
  split
  · exact hb
  · rename_i h1
    rw [Bool.not_eq_true, Bool.not_eq_false', Grid.inRange_iff] at h1
    split
    · exact hb
    · rename_i h2
      have h2' : b = false → ∀ s ∈ l, ¬ w.has (.impl s.toNat) = true := by
        intro hbf s hs hh
        refine h2 ?_
        rw [hbf]; simp only [Bool.not_false, Bool.true_and, List.any_eq_true]
        exact ⟨s, hs, hh⟩
      refine (each_inv (I := fun w => g.Base w ∧ (b = true → ∀ s ∈ l, ¬ w.has (.seg s.toNat) = true) ∧ (b = false → ∀ s ∈ l, ¬ w.has (.impl s.toNat) = true)) l ?_ w ⟨hb, h, h2'⟩).1
      rintro a ha v ⟨hv, k1, k2⟩
      have ha' := h1 a ha
      refine ⟨hv.add _ (wellFormed_seg b _ (by omega)) ?_ ?_, ?_, ?_⟩
      · intro s hs
        cases b
        · simp only [segConstraint] at hs; injection hs with hs; rw [← hs]; exact k2 rfl a ha
        · cases hs
      · intro s hs
        cases b
        · cases hs
        · simp only [segConstraint] at hs; injection hs with hs; rw [← hs]; exact k1 rfl a ha
      · intro hbt s hs
        rw [has_add, hbt]
        simp only [segConstraint, if_true, reduceCtorEq, or_false]
        exact k1 hbt s hs
      · intro hbt s hs
        rw [has_add, hbt]
        simp only [segConstraint, Bool.false_eq_true, if_false, reduceCtorEq, or_false]
        exact k2 hbt s hs

/-! ### The nodes -/

theorem Grid.mem_nodes {v : Nat × Nat} : v ∈ g.nodes ↔ v.1 ≤ g.N ∧ v.2 < g.n := by
  simp only [Grid.nodes, List.mem_flatMap, List.mem_range, List.mem_map]
  constructor
  · rintro ⟨i, hi, j, hj, rfl⟩; exact ⟨by omega, hj⟩
  · rintro ⟨h1, h2⟩; exact ⟨v.1, by omega, v.2, h2, rfl⟩

/-- All four places at a node are segments. -/
theorem Grid.conn_range (h2 : 2 ≤ g.N) (h1 : 1 ≤ g.h) {i j : Nat} (hi : i ≤ g.N) (hj : j < g.n) {t : Int} (ht : t ∈ g.conn (i, j)) : 0 ≤ t ∧ t < g.nSeg := by
  classical
  have hf : g.IsFlow (fun s => if 0 ≤ s ∧ s < g.nSeg then 0 else 1) (fun _ _ => 0) (fun _ _ => 0) := by
    have hs' : g.nSeg = g.nTor + g.nPol := rfl
    refine ⟨fun _ _ => ⟨rfl, rfl⟩, fun _ _ => ⟨rfl, rfl⟩, fun s hs i j _ _ => ?_, fun s hs _ i j _ _ => ?_⟩
    · rw [if_pos ⟨by omega, by omega⟩]; exact ⟨rfl, rfl⟩
    · rw [if_pos ⟨by omega, by omega⟩]; exact ⟨rfl, rfl⟩
  obtain ⟨a, b, c, d⟩ := C83_connected h2 h1 hf i j hi hj
  simp only [Grid.conn, List.mem_cons, List.not_mem_nil, or_false] at ht
  have key : (if 0 ≤ t ∧ t < g.nSeg then (0 : ℝ) else 1) = 0 := by
    rcases ht with rfl | rfl | rfl | rfl
    · exact a
    · exact b
    · exact c
    · exact d
  by_contra hne
  rw [if_neg hne] at key
  exact one_ne_zero key

theorem sum_countP (free : List Nat) (hn : free.Nodup) (l : List Int) (hl : ∀ t ∈ l, 0 ≤ t) :
    (free.map fun (s : Nat) => l.countP fun t => decide (t = (s : Int))).sum = l.countP fun t => decide (t.toNat ∈ free) := by
  induction l with
  | nil => simp
  | cons t l ih =>
    simp only [List.countP_cons, decide_eq_true_eq]
    rw [← ih fun t' h' => hl t' (by simp [h'])]
    have e : ∀ s : Nat, (if t = (s : Int) then 1 else 0) = if s = t.toNat then 1 else 0 := by
      intro s
      have := hl t (by simp)
      by_cases h : s = t.toNat
      · rw [if_pos h, if_pos (by omega)]
      · rw [if_neg h, if_neg (by omega)]
    simp only [e]
    rw [List.sum_map_add]
    congr 1
    clear ih
    induction free with
    | nil => simp
    | cons s free ih =>
      simp only [List.map_cons, List.sum_cons]
      rw [ih (List.nodup_cons.mp hn).2]
      have hs := (List.nodup_cons.mp hn).1
      by_cases h : s = t.toNat
      · subst h
        rw [if_pos rfl]
        simp [hs]
      · rw [if_neg h]
        simp [Ne.symm h]

theorem Grid.nodeSum_eq (h2 : 2 ≤ g.N) (h1 : 1 ≤ g.h) (w : Wf) {i j : Nat} (hi : i ≤ g.N) (hj : j < g.n) :
    g.nodeSum (g.freeSegs w) (i, j) = g.degree (fun s => s ∈ g.freeSegs w) (i, j) :=
  sum_countP _ (List.nodup_range.sublist List.filter_sublist) _ fun t ht => (Grid.conn_range h2 h1 hi hj ht).1

theorem Grid.degree_mono {F F' : Nat → Prop} [DecidablePred F] [DecidablePred F'] (v : Nat × Nat) (h : ∀ s, F s → F' s) : g.degree F v ≤ g.degree F' v := by
  refine List.countP_mono_left fun t _ ht => ?_
  simp only [decide_eq_true_eq] at ht ⊢
  exact h _ ht

end Simsopt.Wireframe
