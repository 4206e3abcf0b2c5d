import Verif.Objectives.Props
/-!
# C19: MPIObjective
-/
set_option linter.unusedSectionVars false
set_option linter.unusedSimpArgs false
namespace Simsopt.Objectives
open Deriv
open Simsopt.Graph hiding upd run_bind run_pure run_throw

theorem collect_ok {α : Type} : ∀ (l : List α), collect (l.map Except.ok) = some l
  | [] => rfl
  | a :: l => by simp [collect, collect_ok l]

theorem slices_flatten {α : Type} (all : List α) (a : Nat → Nat) (ha : ∀ r, a r ≤ a (r + 1)) (h0 : a 0 = 0) :
    ∀ m, ((List.range m).map (fun r => pySlice all (a r) (a (r + 1)))).flatten = all.take (a m) := by
  intro m
  induction m with
  | zero => simp [h0]
  | succ m ih =>
    rw [List.range_succ, List.map_append, List.flatten_append, ih]
    simp only [List.map_cons, List.map_nil, List.flatten_cons, List.flatten_nil, List.append_nil, pySlice]
    have : all.take (a m) = (all.take (a (m + 1))).take (a m) := by
      rw [List.take_take, Nat.min_eq_left (ha m)]
    rw [this, List.take_append_drop]

/-- Splitting gives every rank a slice, and the slices of all ranks together are the list. -/
theorem split_spec {α : Type} (all : List α) (size : Nat) (hs : 0 < size) :
    ∃ objs : List (List α), objs.length = size ∧ (∀ r, r < size → ∃ l, objs[r]? = some l ∧ splitObjectives r size all = .ok l) ∧ objs.flatten = all := by
  have hmono : ∀ r, r * all.length / size ≤ (r + 1) * all.length / size := fun r =>
    Nat.div_le_div_right (Nat.mul_le_mul_right _ (Nat.le_succ r))
  refine ⟨(List.range size).map (fun r => pySlice all (r * all.length / size) ((r + 1) * all.length / size)), by simp, ?_, ?_⟩
  · intro r hr
    refine ⟨pySlice all (r * all.length / size) ((r + 1) * all.length / size), by simp [hr], ?_⟩
    unfold splitObjectives
    rw [Util.bounds_eq hr]; rfl
  · rw [slices_flatten all (fun r => r * all.length / size) hmono (by simp) size]
    show all.take (size * all.length / size) = all
    rw [Nat.mul_div_cancel_left _ hs, List.take_length]

section
variable {K : Type} {L : Leaves K} {w : Nat → ℝ} {X : K → List ℝ}

theorem Js_ok (val : Expr → ℝ) : ∀ (l : List Expr), (∀ e ∈ l, e.J L w X = .ok (val e)) → Expr.Js L w X l = .ok (l.map val)
  | [], _ => by simp [Expr.Js]
  | e :: l, h => by
    simp only [Expr.Js, h e List.mem_cons_self, Js_ok val l (fun f hf => h f (List.mem_cons_of_mem _ hf)), bind, Except.bind, pure, Except.pure,
      List.map_cons]

theorem mpiJ_ok (val : Expr → ℝ) (objs : List (List Expr)) (hne : objs.flatten ≠ []) (h : ∀ e ∈ objs.flatten, e.J L w X = .ok (val e)) :
    mpiJ L w X objs = List.replicate objs.length (.ret ((objs.flatten.map val).sum / objs.flatten.length)) := by
  have hloc : objs.map (Expr.Js L w X) = (objs.map (fun l => l.map val)).map Except.ok := by
    rw [List.map_map]
    apply List.map_congr_left
    intro l hl
    exact Js_ok val l (fun e he => h e (List.mem_flatten.mpr ⟨l, hl, he⟩))
  have htot : totalCount objs = objs.flatten.length := by
    unfold totalCount; rw [List.length_flatten]
  unfold mpiJ
  rw [hloc, htot]
  unfold allgather
  rw [collect_ok]
  have hn0 : objs.flatten.length ≠ 0 := fun hc => hne (List.length_eq_zero_iff.mp hc)
  simp only [List.map_map, Function.comp_def, Outcome.bind, hn0, if_false]
  rw [List.map_const', ← List.map_flatten]

/-- With any number of processes, `needs_splitting=True` gives every process the plain mean of all objectives. -/
theorem C19_value_split (all : List Expr) (size : Nat) (hs : 0 < size) (hne : all ≠ []) (val : Expr → ℝ)
    (h : ∀ e ∈ all, e.J L w X = .ok (val e)) :
    ∃ objs : List (List Expr), objs.length = size ∧ (∀ r, r < size → ∃ l, objs[r]? = some l ∧ splitObjectives r size all = .ok l) ∧
      mpiJ L w X objs = List.replicate size (.ret ((all.map val).sum / all.length)) := by
  obtain ⟨objs, hl, hsp, hfl⟩ := split_spec all size hs
  refine ⟨objs, hl, hsp, ?_⟩
  have := mpiJ_ok val objs (by rw [hfl]; exact hne) (by rw [hfl]; exact h)
  rw [this, hfl, hl]

/-- Without splitting it is the mean over the objectives of all processes, however they are distributed. -/
theorem C19_value (objs : List (List Expr)) (hne : objs.flatten ≠ []) (val : Expr → ℝ) (h : ∀ e ∈ objs.flatten, e.J L w X = .ok (val e)) :
    mpiJ L w X objs = List.replicate objs.length (.ret ((objs.flatten.map val).sum / objs.flatten.length)) :=
  mpiJ_ok val objs hne h

/-- The value does not depend on the number of processes. -/
theorem C19_value_serial (all : List Expr) (hne : all ≠ []) (val : Expr → ℝ) (h : ∀ e ∈ all, e.J L w X = .ok (val e)) :
    (Expr.mean all).J L w X = .ok ((all.map val).sum / all.length) := by
  have hn0 : all.length ≠ 0 := fun hc => hne (List.length_eq_zero_iff.mp hc)
  simp only [Expr.J, Js_ok val all h, bind, Except.bind, hn0, if_false, pure, Except.pure]

/-! ### the gradient -/

theorem npAdd_foldl (n : Nat) : ∀ (l : List (List ℝ)) (a : List ℝ), a.length = n → (∀ b ∈ l, b.length = n) →
    ∃ c, l.foldlM npAdd a = .ok c ∧ c.length = n ∧ ∀ v, dot c v = dot a v + (l.map (fun b => dot b v)).sum
  | [], a, ha, _ => ⟨a, rfl, ha, fun v => by simp⟩
  | b :: l, a, ha, hl => by
    have hb := hl b List.mem_cons_self
    obtain ⟨c, e, hc, hd⟩ := npAdd_foldl n l (List.zipWith (· + ·) a b) (by simp [ha, hb]) (fun b hb => hl b (List.mem_cons_of_mem _ hb))
    refine ⟨c, ?_, hc, fun v => ?_⟩
    · rw [List.foldlM_cons]
      have : npAdd a b = .ok (List.zipWith (· + ·) a b) := by unfold npAdd; rw [if_pos (ha.trans hb.symm)]
      rw [this]; exact e
    · rw [hd v, dot_add _ _ _ (ha.trans hb.symm), List.map_cons, List.sum_cons]; ring

theorem sum_map_sum_cons {α β : Type} (F : α → ℝ) (G : α → β → ℝ) (l : List α) (t : α → List β) :
    (l.map (fun a => F a + ((t a).map (G a)).sum)).sum = (l.map F).sum + (l.map (fun a => ((t a).map (G a)).sum)).sum :=
  List.sum_map_add

/-- When all processes hold the same keys in the same order, every one of them gets the sums. -/
theorem sumAcross_same (size : K → Nat) : ∀ (ks : List K) (fuel : Nat) (cs : List (List (K × List ℝ))), ks.length ≤ fuel → cs ≠ [] →
    (∀ c ∈ cs, c.map (·.1) = ks ∧ ∀ e ∈ c, e.2.length = size e.1) →
    ∃ c', sumAcross fuel cs = cs.map (fun _ => Outcome.ret c') ∧ c'.map (·.1) = ks ∧ (∀ e ∈ c', e.2.length = size e.1) ∧
      ∀ v : K → List ℝ, (c'.map (fun e => dot e.2 (v e.1))).sum = (cs.map (fun c => (c.map (fun e => dot e.2 (v e.1))).sum)).sum := by
  intro ks
  induction ks with
  | nil =>
    intro fuel cs _ _ h
    have hnil : ∀ c ∈ cs, c = [] := fun c hc => List.map_eq_nil_iff.mp (h c hc).1
    refine ⟨[], ?_, rfl, by simp, ?_⟩
    · have : ∀ c ∈ cs, (if c.isEmpty then Outcome.ret ([] : List (K × List ℝ)) else .blocked) = .ret [] := by
        intro c hc; rw [hnil c hc]; rfl
      cases fuel with
      | zero => unfold sumAcross; exact List.map_congr_left this
      | succ fuel =>
        unfold sumAcross
        split
        · exact List.map_congr_left this
        · next hany =>
          obtain ⟨c, cs', rfl⟩ := List.exists_cons_of_ne_nil ‹cs ≠ []›
          exfalso; apply hany; simp [hnil c List.mem_cons_self]
    · intro v
      have : cs.map (fun c => (c.map (fun e => dot e.2 (v e.1))).sum) = cs.map (fun _ => (0:ℝ)) :=
        List.map_congr_left (fun c hc => by rw [hnil c hc]; rfl)
      rw [this]; simp
  | cons k ks ih =>
    intro fuel cs hf hne h
    obtain ⟨fuel, rfl⟩ : ∃ f, fuel = f + 1 := ⟨fuel - 1, by simp at hf; omega⟩
    have hcons : ∀ c ∈ cs, ∃ a t, c = (k, a) :: t ∧ t.map (·.1) = ks ∧ a.length = size k ∧ ∀ e ∈ t, e.2.length = size e.1 := by
      intro c hc
      obtain ⟨h1, h2⟩ := h c hc
      cases c with
      | nil => cases h1
      | cons e t =>
        simp only [List.map_cons, List.cons.injEq] at h1
        refine ⟨e.2, t, by rw [← h1.1], h1.2, by rw [← h1.1]; exact h2 e List.mem_cons_self, fun f hf => h2 f (List.mem_cons_of_mem _ hf)⟩
    obtain ⟨c', e', k', s', p'⟩ := ih fuel (cs.map List.tail) (by simpa using hf) (by simpa using hne) (by
      intro c hc
      obtain ⟨c0, hc0, rfl⟩ := List.mem_map.mp hc
      obtain ⟨a, t, rfl, h1, _, h2⟩ := hcons c0 hc0
      exact ⟨h1, h2⟩)
    -- the collective call for the first key
    let arrs := cs.map fun c => (c.head?.map (·.2)).getD []
    have harr : ∀ b ∈ arrs, b.length = size k := by
      intro b hb
      obtain ⟨c, hc, rfl⟩ := List.mem_map.mp hb
      obtain ⟨a, t, rfl, _, ha, _⟩ := hcons c hc
      exact ha
    obtain ⟨b0, bs, hab⟩ := List.exists_cons_of_ne_nil (show arrs ≠ [] by simpa [arrs] using hne)
    obtain ⟨tot, et, lt, dt⟩ := npAdd_foldl (size k) bs b0 (harr b0 (by rw [hab]; exact List.mem_cons_self))
      (fun b hb => harr b (by rw [hab]; exact List.mem_cons_of_mem _ hb))
    have hnp : npSum arrs = .ok tot := by rw [hab]; exact et
    refine ⟨(k, tot) :: c', ?_, by simp [k'], ?_, ?_⟩
    · unfold sumAcross
      have hany : ¬ (cs.any (·.isEmpty) = true) := by
        rw [List.any_eq_true]
        rintro ⟨c, hc, he⟩
        obtain ⟨a, t, rfl, _⟩ := hcons c hc
        cases he
      rw [if_neg hany]
      have hnp' : npSum (cs.map fun c => (c.head?.map (·.2)).getD []) = .ok tot := hnp
      rw [hnp', e']
      simp only [List.map_map, Function.comp_def]
      have hz : ∀ l : List (List (K × List ℝ)), (∀ c ∈ l, c ∈ cs) →
          List.zipWith (fun (c : List (K × List ℝ)) (o : Outcome (List (K × List ℝ))) => o.bind fun rest => match c with
            | [] => .ret rest
            | (k, _) :: _ => .ret ((k, tot) :: rest)) l (l.map (fun _ => Outcome.ret c')) = l.map (fun _ => .ret ((k, tot) :: c')) := by
        intro l
        induction l with
        | nil => intro _; rfl
        | cons c l ih =>
          intro hl
          obtain ⟨a, t, rfl, _⟩ := hcons c (hl c List.mem_cons_self)
          rw [List.map_cons, List.zipWith_cons_cons, ih (fun c hc => hl c (List.mem_cons_of_mem _ hc))]
          rfl
      exact hz cs (fun c hc => hc)
    · intro e he
      rcases List.mem_cons.mp he with rfl | he
      · exact lt
      · exact s' e he
    · intro v
      rw [List.map_cons, List.sum_cons, p' v]
      simp only
      rw [dt (v k)]
      have h1 : dot b0 (v k) + (bs.map (fun b => dot b (v k))).sum = (cs.map (fun c => dot ((c.head?.map (·.2)).getD []) (v k))).sum := by
        rw [← List.sum_cons, ← List.map_cons (f := fun b => dot b (v k)), ← hab, List.map_map]; rfl
      rw [h1, List.map_map, ← List.sum_map_add]
      congr 1
      apply List.map_congr_left
      intro c hc
      obtain ⟨a, t, rfl, _⟩ := hcons c hc
      simp

variable [DecidableEq K]

theorem find_contents (h : Heap K ℝ) (d : List (K × Nat)) (k : K) :
    ((d.map (fun e => (e.1, h.arr e.2))).find? (fun e => e.1 = k)).map (·.2) = (find d k).map h.arr := by
  induction d with
  | nil => rfl
  | cons e d ih =>
    rw [find_cons, List.map_cons]
    by_cases he : e.1 = k
    · simp [List.find?_cons, he]
    · simp only [List.find?_cons, he, decide_false, Bool.false_eq_true, if_false]
      exact ih

/-- the local part of one process -/
theorem localPart_spec {size : K → Nat} {U : List K} (hU : U.Nodup) (hX : Shaped size X) (l : List Expr) (hne : l ≠ []) (hok : Expr.OKs l)
    (hl : ∀ n ∈ Expr.leavess l, LeafOK size U L n) (ks : List K) (hks : ∀ n ∈ Expr.leavess l, (L.dJ n X).map (·.1) = ks) (hkU : ∀ k ∈ ks, k ∈ U)
    (h : Heap K ℝ) (hk : HeapOK size h) :
    ∃ φ : (K → List ℝ) → ℝ, (∀ X, ∃ vs, Expr.Js L w X l = .ok vs ∧ vs.sum = φ X) ∧
      ∃ c h', localPart L w X l h = .ok (c, h') ∧ HeapOK size h' ∧ c.map (·.1) = ks ∧ ks.Nodup ∧ (∀ e ∈ c, e.2.length = size e.1) ∧
        ∀ v, Shaped size v → HasDerivAt (fun t => φ (move X v t)) (c.map (fun e => dot e.2 (v e.1))).sum 0 := by
  obtain ⟨e0, l', rfl⟩ := List.exists_cons_of_ne_nil hne
  simp only [Expr.OKs] at hok
  obtain ⟨φ, hJ, hd⟩ := Expr.spec (w := w) hU e0 hok.1 (fun n hn => hl n (by simp [Expr.leavess, hn]))
  obtain ⟨φs, hJs, hds⟩ := Expr.list_spec (w := w) hU l' hok.2 (fun n hn => hl n (by simp [Expr.leavess, hn]))
  refine ⟨fun X => φ X + φs X, ?_, ?_⟩
  · intro X
    obtain ⟨vs, e, hs⟩ := hJs X
    exact ⟨φ X :: vs, by simp only [Expr.Js, hJ X, e, bind, Except.bind, pure, Except.pure], by rw [List.sum_cons, hs]⟩
  · obtain ⟨i, h1, r1, x1, l1, d1, q1⟩ := hd X hX h hk
    obtain ⟨is, h2, r2, x2, l2, d2, q2⟩ := hds X hX h1 x1.ok
    obtain ⟨r, h3, r3, x3, l3, p3, q3⟩ := pySumVals_der U is i h2 x2.ok (Nat.lt_of_lt_of_le l1 x2.nder) l2
    have hkeys : keysOf h3 r = ks := q3 ks (by rw [x2.keys l1]; exact q1 ks (fun n hn => hks n (by simp [Expr.leavess, hn])))
          (q2 ks (fun n hn => hks n (by simp [Expr.leavess, hn])))
    have hdict := x3.ok.ok r l3
    have hnd : ks.Nodup := by rw [← hkeys]; exact hdict.keys
    refine ⟨(h3.der r).map (fun e => (e.1, h3.arr e.2)), h3, ?_, x3.ok, ?_, hnd, ?_, ?_⟩
    · unfold localPart localDerivs
      simp only [List.length_cons, Nat.add_eq_zero_iff, one_ne_zero, and_false, if_false, Expr.dJs, run_bind, r1, r2,
          run_pure, pySumVals, pyAdd, if_true, r3, contents]
    · rw [List.map_map]; exact hkeys
    · intro e he
      obtain ⟨f, hf, rfl⟩ := List.mem_map.mp he
      exact (hdict.ok f hf).2
    · intro v hv
      have h12 : pair U (partialD size h2 i) v = pair U (partialD size h1 i) v := pair_congr (fun k => x2.partialD l1 k)
      have hp := p3 v
      rw [h12] at hp
      have hpair : pair U (partialD size h3 r) v = (((h3.der r).map (fun e => (e.1, h3.arr e.2))).map (fun e => dot e.2 (v e.1))).sum := by
        rw [← pair_dict size U hU v _ (by rw [List.map_map]; exact hdict.keys) (by
          intro e he
          apply hkU
          rw [← hkeys]
          obtain ⟨f, hf, rfl⟩ := List.mem_map.mp he
          exact List.mem_map.mpr ⟨f, hf, rfl⟩)]
        apply pair_congr
        intro k
        unfold Deriv.partialD Deriv.value
        rw [find_contents]
      rw [← hpair, hp]
      exact (d1 v hv).fun_add (d2 v hv)

/-- all processes together -/
theorem parts_spec {size : K → Nat} {U : List K} (hU : U.Nodup) (hX : Shaped size X) (ks : List K) (hkU : ∀ k ∈ ks, k ∈ U) :
    ∀ (objs : List (List Expr)) (hs : List (Heap K ℝ)), objs.length = hs.length →
    (∀ l ∈ objs, l ≠ [] ∧ Expr.OKs l ∧ (∀ n ∈ Expr.leavess l, LeafOK size U L n) ∧ ∀ n ∈ Expr.leavess l, (L.dJ n X).map (·.1) = ks) →
    (∀ h ∈ hs, HeapOK size h) →
    ∃ φ : (K → List ℝ) → ℝ, (∀ X, ∃ vss : List (List ℝ), objs.map (Expr.Js L w X) = vss.map Except.ok ∧ vss.flatten.sum = φ X) ∧
      ∃ parts : List (List (K × List ℝ) × Heap K ℝ), List.zipWith (localPart L w X) objs hs = parts.map Except.ok ∧ parts.length = objs.length ∧
        (∀ p ∈ parts, HeapOK size p.2 ∧ p.1.map (·.1) = ks ∧ ks.Nodup ∧ ∀ e ∈ p.1, e.2.length = size e.1) ∧
        ∀ v, Shaped size v → HasDerivAt (fun t => φ (move X v t)) ((parts.map (·.1)).map (fun c => (c.map (fun e => dot e.2 (v e.1))).sum)).sum 0 := by
  intro objs
  induction objs with
  | nil =>
    intro hs hl _ _
    exact ⟨fun _ => 0, fun X => ⟨[], rfl, rfl⟩, [], by simp, rfl, by simp, fun v _ => hasDerivAt_const _ _⟩
  | cons l objs ih =>
    intro hs hlen ho hh
    cases hs with
    | nil => cases hlen
    | cons h hs =>
      obtain ⟨a1, a2, a3, a4⟩ := ho l List.mem_cons_self
      obtain ⟨φ, hJ, c, h', e1, e2, e3, e4, e5, e6⟩ := localPart_spec (w := w) hU hX l a1 a2 a3 ks a4 hkU h (hh h List.mem_cons_self)
      obtain ⟨φs, hJs, parts, f1, f2, f3, f4⟩ := ih hs (by simpa using hlen) (fun l hl => ho l (List.mem_cons_of_mem _ hl))
        (fun h hm => hh h (List.mem_cons_of_mem _ hm))
      refine ⟨fun X => φ X + φs X, ?_, (c, h') :: parts, ?_, by simp [f2], ?_, ?_⟩
      · intro X
        obtain ⟨vs, g1, g2⟩ := hJ X
        obtain ⟨vss, g3, g4⟩ := hJs X
        exact ⟨vs :: vss, by simp [g1, g3], by rw [List.flatten_cons, List.sum_append, g2, g4]⟩
      · simp [e1, f1]
      · intro p hp
        rcases List.mem_cons.mp hp with rfl | hp
        · exact ⟨e2, e3, e4, e5⟩
        · exact f3 p hp
      · intro v hv
        simp only [List.map_cons, List.sum_cons]
        exact (e6 v hv).fun_add (f4 v hv)

end

theorem le_foldl_max : ∀ (l : List Nat) (a : Nat), a ≤ l.foldl max a ∧ ∀ x ∈ l, x ≤ l.foldl max a
  | [], a => ⟨Nat.le_refl _, by simp⟩
  | y :: l, a => by
    obtain ⟨h1, h2⟩ := le_foldl_max l (max a y)
    refine ⟨Nat.le_trans (Nat.le_max_left _ _) h1, fun x hx => ?_⟩
    rcases List.mem_cons.mp hx with rfl | hx
    · exact Nat.le_trans (Nat.le_max_right _ _) h1
    · exact h2 x hx

section
variable {cfg : Cfg ℝ} {s : State ℝ} (hn : NameInj cfg) (hsh : ShuffleOK cfg) (hr : Graph.Reachable cfg s)
include hn hsh hr

/-- The gradient.  If every process has at least one objective and all basic objectives list the same Optimizables in the same order in
    their Derivatives, then on every process `J()` returns the mean `φ` and `dJ()` the exact gradient of `φ`. -/
theorem C19_gradient (L : Leaves Nat) (w : Nat → ℝ) (objs : List (List Expr)) (hs : List (Heap Nat ℝ)) (hlen : objs.length = hs.length)
    (hne : objs ≠ []) (ks : List Nat) (hkU : ∀ k ∈ ks, s.alive k = true)
    (ho : ∀ l ∈ objs, l ≠ [] ∧ ∀ e ∈ l, e.OK ∧ ∀ n ∈ e.leaves, LeafOK (localFullSize s) (liveObjs s) L n ∧ ∀ X, (L.dJ n X).map (·.1) = ks)
    (hh : ∀ h ∈ hs, Deriv.Reachable (localFullSize s) h) (i : Nat) (hi : s.alive i = true) (hfree : 0 < (s.obj i).freeSize) :
    ∃ φ : (Nat → List ℝ) → ℝ, (∀ X, mpiJ L w X objs = List.replicate objs.length (.ret (φ X))) ∧
      ∃ outs : List (Nat × Heap Nat ℝ), mpiDJ L w (stateX s) objs hs = outs.map (fun o => .ret (.der o.1, o.2)) ∧ outs.length = objs.length ∧
        ∀ o ∈ outs, ∃ g, Gradient (localFullSize s) o.2 o.1 (blocksOf s i) g ∧ IsGradient cfg s i φ g := by
  have hI := hr.inv hn hsh
  have hU : (liveObjs s).Nodup := List.nodup_range.filter _
  have hkU' : ∀ k ∈ ks, k ∈ liveObjs s := fun k hk =>
    List.mem_filter.mpr ⟨List.mem_range.mpr (hI.graph.lt k (hkU k hk)), hkU k hk⟩
  have hX := stateX_shaped hn hsh hr
  have conv : ∀ l : List Expr, (∀ e ∈ l, e.OK ∧ ∀ n ∈ e.leaves, LeafOK (localFullSize s) (liveObjs s) L n ∧ ∀ X, (L.dJ n X).map (·.1) = ks) →
      Expr.OKs l ∧ (∀ n ∈ Expr.leavess l, LeafOK (localFullSize s) (liveObjs s) L n) ∧ ∀ n ∈ Expr.leavess l, (L.dJ n (stateX s)).map (·.1) = ks := by
    intro l
    induction l with
    | nil => intro _; simp [Expr.OKs, Expr.leavess]
    | cons e l ih =>
      intro h
      obtain ⟨i1, i2, i3⟩ := ih (fun e he => h e (List.mem_cons_of_mem _ he))
      obtain ⟨j1, j2⟩ := h e List.mem_cons_self
      simp only [Expr.OKs, Expr.leavess, List.mem_append]
      exact ⟨⟨j1, i1⟩, fun n hn => hn.elim (fun hn => (j2 n hn).1) (i2 n), fun n hn => hn.elim (fun hn => (j2 n hn).2 _) (i3 n)⟩
  obtain ⟨φ, hJ, parts, f1, f2, f3, f4⟩ := parts_spec (L := L) (w := w) hU hX ks hkU' objs hs hlen
    (fun l hl => ⟨(ho l hl).1, conv l (ho l hl).2⟩) (fun h hm => (hh h hm).ok)
  have hpne : parts ≠ [] := by
    intro hc; rw [hc] at f2; exact hne (List.length_eq_zero_iff.mp (by simpa using f2.symm))
  have htot : totalCount objs ≠ 0 := by
    obtain ⟨l, objs', rfl⟩ := List.exists_cons_of_ne_nil hne
    have := List.length_pos_iff.mpr (ho l List.mem_cons_self).1
    unfold totalCount
    simp only [List.map_cons, List.sum_cons]; omega
  refine ⟨fun X => (1 / (totalCount objs : ℝ)) * φ X, ?_, ?_⟩
  · intro X
    obtain ⟨vss, g1, g2⟩ := hJ X
    unfold mpiJ allgather
    rw [g1, collect_ok]
    have hvl : vss.length = objs.length := by simpa using (congrArg List.length g1).symm
    simp only [List.map_map, Function.comp_def, Outcome.bind, htot, if_false, List.map_const', g2, hvl, List.map_replicate]
    rw [show φ X / (totalCount objs : ℝ) = 1 / (totalCount objs : ℝ) * φ X by ring]
  · obtain ⟨c', s1, s2, s3, s4⟩ := sumAcross_same (localFullSize s) ks ((parts.map (fun p => p.1.length)).foldl max 0) (parts.map (·.1))
      (by
        obtain ⟨p, ps, rfl⟩ := List.exists_cons_of_ne_nil hpne
        have := (le_foldl_max (((p :: ps)).map (fun p => p.1.length)) 0).2 p.1.length (by simp)
        have hk := congrArg List.length (f3 p List.mem_cons_self).2.1
        rw [List.length_map] at hk
        omega)
      (by simpa using hpne)
      (by
        intro c hc
        obtain ⟨p, hp, rfl⟩ := List.mem_map.mp hc
        exact ⟨(f3 p hp).2.1, (f3 p hp).2.2.2⟩)
    have hnd : ks.Nodup := by
      obtain ⟨p, ps, hp⟩ := List.exists_cons_of_ne_nil hpne
      exact (f3 p (by rw [hp]; exact List.mem_cons_self)).2.2.1
    have hfin : ∀ h, HeapOK (localFullSize s) h → ∃ r h', finish (totalCount objs) c' h = .ret (.der r, h') ∧
        ∃ g, Gradient (localFullSize s) h' r (blocksOf s i) g ∧ IsGradient cfg s i (fun X => (1 / (totalCount objs : ℝ)) * φ X) g := by
      intro h hk
      obtain ⟨h1, r1, g1, v1⟩ := mk_spec hk c' (by rw [s2]; exact hnd) s3
      have l1 : h.nder < h1.nder := by rw [g1.nder]; omega
      obtain ⟨r, h2, r2, x2, l2, p2, _⟩ := pyMul_der g1.ok l1 (1 / (totalCount objs : ℝ))
      refine ⟨r, h2, by simp only [finish, run_bind, r1, r2], ?_⟩
      refine gradient_entries hn hsh hr x2.ok r l2 i hi hfree _ (fun v hv => ?_)
      rw [pair_mul p2]
      refine HasDerivAt.const_mul _ ((f4 v hv).congr_deriv ?_)
      rw [← s4 v, ← pair_dict (localFullSize s) (liveObjs s) hU v c' (by rw [s2]; exact hnd) (fun e he => hkU' _ (by rw [← s2]; exact List.mem_map_of_mem he))]
      apply pair_congr
      intro k
      unfold Deriv.partialD
      rw [v1 k]
    have hrun : mpiDJ L w (stateX s) objs hs = parts.map (fun p => finish (totalCount objs) c' p.2) := by
      unfold mpiDJ
      simp only [f1, collect_ok, s1, List.map_map, Function.comp_def]
      rw [List.zipWith_map_right, List.zipWith_self]; rfl
    rw [hrun]
    have : ∀ ps : List (List (Nat × List ℝ) × Heap Nat ℝ), (∀ p ∈ ps, HeapOK (localFullSize s) p.2) →
        ∃ outs : List (Nat × Heap Nat ℝ), ps.map (fun p => finish (totalCount objs) c' p.2) = outs.map (fun o => .ret (.der o.1, o.2)) ∧
          outs.length = ps.length ∧ ∀ o ∈ outs, ∃ g, Gradient (localFullSize s) o.2 o.1 (blocksOf s i) g ∧
            IsGradient cfg s i (fun X => (1 / (totalCount objs : ℝ)) * φ X) g := by
      intro ps
      induction ps with
      | nil => intro _; exact ⟨[], rfl, rfl, by simp⟩
      | cons p ps ih =>
        intro h
        obtain ⟨outs, o1, o2, o3⟩ := ih (fun q hq => h q (List.mem_cons_of_mem _ hq))
        obtain ⟨r, h', e, hg⟩ := hfin p.2 (h p List.mem_cons_self)
        refine ⟨(r, h') :: outs, by simp [e, o1], by simp [o2], ?_⟩
        intro o ho
        rcases List.mem_cons.mp ho with rfl | ho
        · exact hg
        · exact o3 o ho
    obtain ⟨outs, o1, o2, o3⟩ := this parts (fun p hp => (f3 p hp).1)
    exact ⟨outs, o1, by rw [o2, f2], o3⟩

end

/-- A process without objectives raises in `dJ()`; with at least one key in its Derivative every other process waits for ever. -/
theorem C19_idle_process_violated : ∃ (s : State ℝ) (L : Leaves Nat), Graph.Reachable cfgR s ∧
    (∀ n, LeafOK (localFullSize s) (liveObjs s) L n) ∧
    (∃ l0 l1, splitObjectives 0 2 [Expr.leaf 0] = .ok l0 ∧ splitObjectives 1 2 [Expr.leaf 0] = .ok l1 ∧
      (∃ v, mpiJ L (fun _ => 0) (stateX s) [l0, l1] = [.ret v, .ret v]) ∧
      mpiDJ L (fun _ => 0) (stateX s) [l0, l1] [Heap.empty, Heap.empty] = [.raised .runtimeError, .blocked]) := by
  refine ⟨r2, leavesR, r2_reach, leavesR_ok, [], [.leaf 0], rfl, rfl, ?_, ?_⟩
  · have := C19_value (L := leavesR) (w := fun _ => 0) (X := stateX r2) [[], [.leaf 0]] (by simp) (fun e => leavesR.J 0 (stateX r2))
      (by intro e he; simp at he; subst he; simp only [Expr.J])
    exact ⟨_, this⟩
  · have e0 : localPart leavesR (fun _ => 0) (stateX r2) [] Heap.empty = .error .runtimeError := by
      unfold localPart localDerivs
      simp [run_bind, run_throw]
    obtain ⟨_, _, c, h', e1, _, e3, _⟩ := localPart_spec (L := leavesR) (w := fun _ => 0) (X := stateX r2) (size := localFullSize r2) (U := liveObjs r2)
      (List.nodup_range.filter _) (stateX_shaped cfgR_names cfgR_shuffle r2_reach) [.leaf 0] (by simp) (by simp [Expr.OKs, Expr.OK])
      (fun n _ => leavesR_ok n) [0] (fun n _ => rfl) (by intro k hk; simp at hk; subst hk; decide) Heap.empty (HeapOK.empty _)
    have hc : c.isEmpty = false := by
      cases c with
      | nil => cases e3
      | cons => rfl
    unfold mpiDJ
    simp only [List.zipWith_cons_cons, List.zipWith_nil_right, e0, e1, collect, List.map_cons, List.map_nil, hc]
    rfl

/-! #### two Optimizables listed in different orders -/

/-- `f0 = a.x[0] + 10*b.x[0]` lists `a` first, `f1 = a.x[0] + 10*b.x[0]` lists `b` first in its Derivative -/
noncomputable def leavesAB : Leaves Nat :=
  { J := fun _ X => (X 0).getD 0 0 + 10 * (X 1).getD 0 0
    dJ := fun n _ => if n = 0 then [(0, [1]), (1, [10])] else [(1, [10]), (0, [1])] }

/-- `a = A(x0=[3]); b = A(x0=[5]); f = AA(depends_on=[a, b])` -/
noncomputable def q1 : State ℝ := next cfgR (.new 0 (.fresh { x := some [3] }) false [] false) State.empty
noncomputable def q2 : State ℝ := next cfgR (.new 0 (.fresh { x := some [5] }) false [] false) q1
noncomputable def q3 : State ℝ := next cfgR (.new 1 (.fresh {}) false [0, 1] true) q2

theorem q1_reach : Graph.Reachable cfgR q1 := reach_next .init ⟨by simp, trivial⟩ rfl
theorem q2_reach : Graph.Reachable cfgR q2 := reach_next q1_reach ⟨by simp, trivial⟩ rfl
theorem q3_reach : Graph.Reachable cfgR q3 := reach_next q2_reach ⟨by intro p hp; simp at hp; rcases hp with rfl | rfl <;> rfl, trivial⟩ rfl

theorem leavesAB_ok (n : Nat) : LeafOK (localFullSize q3) (liveObjs q3) leavesAB n := by
  have hlive : liveObjs q3 = [0, 1, 2] := rfl
  have h0 : localFullSize q3 0 = 1 := rfl
  have h1 : localFullSize q3 1 = 1 := rfl
  refine ⟨fun X => by simp only [leavesAB]; split <;> simp, ?_, ?_⟩
  · intro X e he
    rw [hlive]
    simp only [leavesAB] at he
    split at he
    · simp at he; rcases he with rfl | rfl
      · exact ⟨by simp, by rw [h0]; rfl⟩
      · exact ⟨by simp, by rw [h1]; rfl⟩
    · simp at he; rcases he with rfl | rfl
      · exact ⟨by simp, by rw [h1]; rfl⟩
      · exact ⟨by simp, by rw [h0]; rfl⟩
  · intro X v hX hv
    obtain ⟨a, ha⟩ := List.length_eq_one_iff.mp ((hX 0).trans h0)
    obtain ⟨b, hb⟩ := List.length_eq_one_iff.mp ((hX 1).trans h1)
    obtain ⟨c, hc⟩ := List.length_eq_one_iff.mp ((hv 0).trans h0)
    obtain ⟨d, hd⟩ := List.length_eq_one_iff.mp ((hv 1).trans h1)
    have he : (fun t => leavesAB.J n (move X v t)) = fun t => (a + t * c) + 10 * (b + t * d) := by
      funext t; simp [leavesAB, move, ha, hb, hc, hd]
    rw [he]
    have hlin : ∀ x y : ℝ, HasDerivAt (fun t : ℝ => x + t * y) y 0 := fun x y => by
      simpa using ((hasDerivAt_id (0:ℝ)).mul_const y).const_add x
    refine ((hlin a c).fun_add ((hlin b d).const_mul 10)).congr_deriv ?_
    simp only [leavesAB]
    split <;> simp [hc, hd, dot] <;> ring

/-- C19 fails silently when two processes list the same Optimizables in different orders: both objectives have the gradient
    `[1, 10]`, so the mean has, but `sum_across_comm` adds the array of `a` on one process to the array of `b` on the other. -/
theorem C19_key_order_violated : ∃ (s : State ℝ) (L : Leaves Nat), Graph.Reachable cfgR s ∧
    (∀ n, LeafOK (localFullSize s) (liveObjs s) L n) ∧ (∀ n X, ∀ k, k ∈ (L.dJ n X).map (·.1) ↔ k ∈ (L.dJ 0 X).map (·.1)) ∧
    ∃ (h0 h1 : Heap Nat ℝ) (i0 i1 : Nat), mpiDJ L (fun _ => 0) (stateX s) [[.leaf 0], [.leaf 1]] [Heap.empty, Heap.empty] =
        [.ret (.der i0, h0), .ret (.der i1, h1)] ∧
      partialD (localFullSize s) h0 i0 0 = [11 / 2] ∧ partialD (localFullSize s) h1 i1 0 = [11 / 2] ∧
      partialD (localFullSize s) h0 i0 1 = [11 / 2] ∧ partialD (localFullSize s) h1 i1 1 = [11 / 2] := by
  refine ⟨q3, leavesAB, q3_reach, leavesAB_ok, ?_, ?_⟩
  · intro n X k
    simp only [leavesAB]
    split <;> simp [or_comm]
  · have hpart : ∀ n, localPart leavesAB (fun _ => 0) (stateX q3) [.leaf n] Heap.empty =
        .ok (leavesAB.dJ n (stateX q3), (match mk (leavesAB.dJ n (stateX q3)) (Heap.empty : Heap Nat ℝ) with | .ok _ h => h | .error _ h => h)) := by
      intro n
      obtain ⟨h1, e1, g1, v1⟩ := mk_spec (HeapOK.empty (localFullSize q3)) (leavesAB.dJ n (stateX q3)) ((leavesAB_ok n).keys _)
        (fun e he => ((leavesAB_ok n).shape _ e he).2)
      unfold localPart localDerivs
      simp only [List.length_cons, List.length_nil, Nat.add_eq_zero_iff, one_ne_zero, and_false, if_false, Expr.dJs, Expr.dJ, run_bind, run_pure,
        e1, pySumVals, pyAdd, if_true, contents]
      have : mk (leavesAB.dJ n (stateX q3)) (Heap.empty : Heap Nat ℝ) = .ok 0 h1 := e1
      simp only [leavesAB] at this ⊢
      congr 2
      split at this
      · next hc => simp only [hc, if_true]; cases this; rfl
      · next hc => simp only [hc, if_false]; cases this; rfl
    have hok : ∀ n, ∃ r h', mk (leavesAB.dJ n (stateX q3)) (Heap.empty : Heap Nat ℝ) = .ok r h' ∧ HeapOK (localFullSize q3) h' := by
      intro n
      obtain ⟨h1, e1, g1, v1⟩ := mk_spec (HeapOK.empty (localFullSize q3)) (leavesAB.dJ n (stateX q3)) ((leavesAB_ok n).keys _)
        (fun e he => ((leavesAB_ok n).shape _ e he).2)
      exact ⟨_, h1, e1, g1.ok⟩
    obtain ⟨_, g0, e0, ok0⟩ := hok 0
    obtain ⟨_, g1, e1, ok1⟩ := hok 1
    have hfin : ∀ (c : List (Nat × List ℝ)) (h : Heap Nat ℝ), HeapOK (localFullSize q3) h → (c.map (·.1)).Nodup → (∀ e ∈ c, e.2.length = localFullSize q3 e.1) →
        ∃ r h', finish 2 c h = .ret (.der r, h') ∧ ∀ k, partialD (localFullSize q3) h' r k =
          (((c.find? (fun e => e.1 = k)).map (·.2)).getD (List.replicate (localFullSize q3 k) 0)).map (fun x => x * (1 / 2)) := by
      intro c h hk hnd hsz
      obtain ⟨h1, r1, g1, v1⟩ := mk_spec hk c hnd hsz
      have l1 : h.nder < h1.nder := by rw [g1.nder]; omega
      obtain ⟨r, h2, r2, x2, l2, p2, _⟩ := pyMul_der g1.ok l1 (1 / ((2:ℕ) : ℝ))
      refine ⟨r, h2, by simp only [finish, run_bind, r1, r2], fun k => ?_⟩
      rw [p2 k]
      unfold Deriv.partialD
      rw [v1 k]; norm_num
    obtain ⟨i0, k0, f0, p0⟩ := hfin [(0, [1 + 10]), (1, [10 + 1])] g0 ok0 (by simp) (by
      intro e he; simp at he; rcases he with rfl | rfl <;> rfl)
    obtain ⟨i1, k1, f1, p1⟩ := hfin [(1, [1 + 10]), (0, [10 + 1])] g1 ok1 (by simp) (by
      intro e he; simp at he; rcases he with rfl | rfl <;> rfl)
    refine ⟨k0, k1, i0, i1, ?_, ?_, ?_, ?_, ?_⟩
    · unfold mpiDJ
      simp only [List.zipWith_cons_cons, List.zipWith_nil_right, hpart, e0, e1, collect, Option.map_some, List.map_cons, List.map_nil]
      simp only [leavesAB, if_true, one_ne_zero, if_false, List.length_cons, List.length_nil, List.foldl_cons, List.foldl_nil]
      simp only [sumAcross, totalCount, npSum, npAdd, List.any_cons, List.any_nil, List.isEmpty_cons, List.isEmpty_nil, Bool.or_false, Bool.false_eq_true,
        if_false, List.map_cons, List.map_nil, List.head?_cons, Option.map_some, Option.getD_some, List.foldlM_cons, List.foldlM_nil,
        List.length_cons, List.length_nil, if_true, List.zipWith_cons_cons, List.zipWith_nil_right, List.tail_cons, pure, Except.pure, bind, Except.bind,
        Nat.zero_add, Nat.max_self, Nat.reduceAdd, Nat.max_eq_right, Nat.zero_le, Outcome.bind, List.sum_cons, List.sum_nil]
      simp only [f0, f1]
    · rw [p0 0]; norm_num
    · rw [p1 0]; norm_num
    · rw [p0 1]; norm_num
    · rw [p1 1]; norm_num

/-- Two processes with one objective each, whose Derivatives agree in the order of keys. -/
example : ∃ φ : (Nat → List ℝ) → ℝ, (∀ X, mpiJ leavesR (fun _ => 0) X [[.leaf 0], [.leaf 1, .leaf 2]] = [.ret (φ X), .ret (φ X)]) ∧
    ∃ outs : List (Nat × Heap Nat ℝ), mpiDJ leavesR (fun _ => 0) (stateX r2) [[.leaf 0], [.leaf 1, .leaf 2]] [Heap.empty, Heap.empty] =
        outs.map (fun o => .ret (.der o.1, o.2)) ∧ outs.length = 2 ∧
      ∀ o ∈ outs, ∃ g, Gradient (localFullSize r2) o.2 o.1 (blocksOf r2 1) g ∧ IsGradient cfgR r2 1 φ g :=
  C19_gradient cfgR_names cfgR_shuffle r2_reach leavesR (fun _ => 0) _ _ rfl (by simp) [0] (by intro k hk; simp at hk; subst hk; rfl)
    (by
      intro l hl
      simp at hl
      rcases hl with rfl | rfl
      · refine ⟨by simp, fun e he => ?_⟩
        simp at he; subst he
        exact ⟨by simp [Expr.OK], fun n _ => ⟨leavesR_ok n, fun X => rfl⟩⟩
      · refine ⟨by simp, fun e he => ?_⟩
        simp at he
        rcases he with rfl | rfl <;> exact ⟨by simp [Expr.OK], fun n _ => ⟨leavesR_ok n, fun X => rfl⟩⟩)
    (by intro h hh; simp at hh; subst hh; exact .init) 1 rfl (by show 0 < 2; norm_num)

end Simsopt.Objectives
