import Verif.Objectives.Lemmas
/-!
# Every expression tree: value and derivative
-/
set_option linter.unusedSectionVars false
set_option linter.unusedSimpArgs false
namespace Simsopt.Objectives
open Simsopt Deriv
variable {K : Type} [DecidableEq K]

/-- Derivatives that existed before are unchanged. -/
structure Ext (size : K → Nat) (h h' : Heap K ℝ) : Prop where
  ok : HeapOK size h'
  nder : h.nder ≤ h'.nder
  value : ∀ i, i < h.nder → ∀ k, value h' i k = value h i k
  der : ∀ i, i < h.nder → h'.der i = h.der i

/-- the keys of Derivative `i`, in order -/
def keysOf (h : Heap K ℝ) (i : Nat) : List K := (h.der i).map (·.1)

theorem mergeInto_keys (op : ℝ → ℝ → ℝ) (new : ℝ → ℝ) : ∀ (y z : List (K × Nat)) (h : Heap K ℝ) (z' : List (K × Nat)) (h' : Heap K ℝ),
    (∀ e ∈ y, e.1 ∈ z.map (·.1)) → mergeInto op new z y h = .ok z' h' → z' = z := by
  intro y
  induction y with
  | nil => intro z h z' h' _ he; cases he; rfl
  | cons e y ih =>
    intro z h z' h' hm he
    unfold mergeInto at he
    simp only [run_bind, Deriv.read] at he
    cases hf : find z e.1 with
    | none => exact absurd (hm e List.mem_cons_self) (find_none.mp hf)
    | some a =>
      rw [hf] at he
      simp only [run_bind, Deriv.read] at he
      cases hp : inplace op (h.arr a) (h.arr e.2) with
      | error _ => rw [hp] at he; simp [Deriv.lift] at he
      | ok r =>
        rw [hp] at he
        simp only [Deriv.lift, write] at he
        exact ih z _ z' h' (fun f hf => hm f (List.mem_cons_of_mem _ hf)) he

theorem add_keys {size : K → Nat} {h h' : Heap K ℝ} (hk : HeapOK size h) {i j r : Nat} (hi : i < h.nder)
    (hsub : ∀ k ∈ keysOf h j, k ∈ keysOf h i) (he : Deriv.add i j h = .ok r h') : keysOf h' r = keysOf h i := by
  unfold Deriv.add at he
  simp only [run_bind, dict] at he
  obtain ⟨z, h1, r1, d1, m1, n1, ok1, fr1, in1, kk, v1⟩ := copy_spec size (h.der i) h (hk.ok i hi)
  rw [r1] at he
  simp only at he
  cases hm : mergeInto (· + ·) id z (h.der j) h1 with
  | error _ _ => rw [hm] at he; cases he
  | ok z2 h2 =>
    have hz := mergeInto_keys _ _ _ _ _ _ _ (by
      intro e hej
      rw [kk]
      exact hsub e.1 (List.mem_map.mpr ⟨e, hej, rfl⟩)) hm
    rw [hm] at he
    simp only [allocDer] at he
    cases he
    unfold keysOf
    simp only [upd_same]
    rw [hz, kk]

theorem mul_keys {size : K → Nat} {h h' : Heap K ℝ} (hk : HeapOK size h) {i r : Nat} (hi : i < h.nder) (c : ℝ)
    (he : Deriv.mul i c h = .ok r h') : keysOf h' r = keysOf h i := by
  unfold Deriv.mul at he
  simp only [run_bind, dict] at he
  obtain ⟨z, h1, r1, d1, m1, n1, ok1, fr1, in1, kk, v1⟩ := copy_spec size (h.der i) h (hk.ok i hi)
  rw [r1] at he
  simp only at he
  cases hm : scaleAll c z h1 with
  | error _ _ => rw [hm] at he; cases he
  | ok _ h2 =>
    rw [hm] at he
    simp only [allocDer] at he
    cases he
    unfold keysOf
    simp only [upd_same]
    rw [kk]

theorem mk_keys {size : K → Nat} {h h' : Heap K ℝ} {l : List (K × List ℝ)} (hnd : (l.map (·.1)).Nodup)
    (hsz : ∀ e ∈ l, e.2.length = size e.1) {r : Nat} (he : Deriv.mk l h = .ok r h') : keysOf h' r = l.map (·.1) := by
  unfold Deriv.mk at he
  simp only [run_bind] at he
  obtain ⟨z, h1, r1, d1, m1, n1, ok1, fr1, in1, kk, v1⟩ := mkGo_spec size l h hnd hsz
  rw [r1] at he
  simp only [allocDer] at he
  cases he
  unfold keysOf
  simp only [upd_same]
  exact kk

theorem Ext.refl {size : K → Nat} {h : Heap K ℝ} (hk : HeapOK size h) : Ext size h h := ⟨hk, Nat.le_refl _, fun _ _ _ => rfl, fun _ _ => rfl⟩

theorem Ext.trans {size : K → Nat} {h h1 h2 : Heap K ℝ} (a : Ext size h h1) (b : Ext size h1 h2) : Ext size h h2 :=
  ⟨b.ok, Nat.le_trans a.nder b.nder, fun i hi k => by rw [b.value i (Nat.lt_of_lt_of_le hi a.nder) k, a.value i hi k],
   fun i hi => by rw [b.der i (Nat.lt_of_lt_of_le hi a.nder), a.der i hi]⟩

theorem Ext.partialD {size : K → Nat} {h h' : Heap K ℝ} (a : Ext size h h') {i : Nat} (hi : i < h.nder) (k : K) :
    partialD size h' i k = partialD size h i k := by
  unfold Deriv.partialD; rw [a.value i hi k]

theorem Ext.keys {size : K → Nat} {h h' : Heap K ℝ} (a : Ext size h h') {i : Nat} (hi : i < h.nder) : keysOf h' i = keysOf h i := by
  unfold keysOf; rw [a.der i hi]

theorem Ext.of_grown {size : K → Nat} {h h' : Heap K ℝ} (hk : HeapOK size h) (g : Grown size h h') : Ext size h h' :=
  ⟨g.ok, by rw [g.nder]; omega, fun i hi k => g.value hk i hi k, g.der⟩

theorem pyAdd_der {size : K → Nat} {h : Heap K ℝ} (hk : HeapOK size h) {i j : Nat} (hi : i < h.nder) (hj : j < h.nder) :
    ∃ r h', pyAdd (.der i) (.der j) h = .ok (.der r) h' ∧ Ext size h h' ∧ r < h'.nder ∧
      (∀ k, partialD size h' r k = List.zipWith (· + ·) (partialD size h i k) (partialD size h j k)) ∧
      ∀ ks, keysOf h i = ks → keysOf h j = ks → keysOf h' r = ks := by
  obtain ⟨h', r, g, hv⟩ := newMerge_spec (· + ·) id hk hi hj
  have r' : Deriv.add i j h = .ok h.nder h' := r
  refine ⟨h.nder, h', ?_, Ext.of_grown hk g, by rw [g.nder]; omega, ?_, ?_⟩
  · simp only [pyAdd, run_bind, r', run_pure]
  · exact partial_combine (· + ·) id (fun a => add_zero a) (fun a => zero_add a) hk hk hi hj hv
  · intro ks h1 h2; rw [add_keys hk hi (by rw [h1, h2]; exact fun _ h => h) r', h1]

theorem pyMul_der {size : K → Nat} {h : Heap K ℝ} (hk : HeapOK size h) {i : Nat} (hi : i < h.nder) (c : ℝ) :
    ∃ r h', pyMul c (.der i) h = .ok (.der r) h' ∧ Ext size h h' ∧ r < h'.nder ∧
      (∀ k, partialD size h' r k = (partialD size h i k).map (fun x => x * c)) ∧ keysOf h' r = keysOf h i := by
  obtain ⟨h', r, g, hv⟩ := mul_spec c hk hi
  refine ⟨h.nder, h', ?_, Ext.of_grown hk g, by rw [g.nder]; omega, ?_, mul_keys hk hi c r⟩
  · simp only [pyMul, run_bind, r, run_pure]
  · intro k
    unfold Deriv.partialD
    rw [hv k]
    cases Deriv.value h i k <;> simp

theorem pair_mul {size : K → Nat} {U : List K} {h h' : Heap K ℝ} {i r : Nat} {c : ℝ}
    (he : ∀ k, partialD size h' r k = (partialD size h i k).map (fun x => x * c)) (v : K → List ℝ) :
    pair U (partialD size h' r) v = c * pair U (partialD size h i) v := by
  rw [pair_congr he, pair_smul]

theorem pair_sum {size : K → Nat} {U : List K} {h h' : Heap K ℝ} (hk : HeapOK size h) {i j r : Nat} (hi : i < h.nder) (hj : j < h.nder)
    (he : ∀ k, partialD size h' r k = List.zipWith (· + ·) (partialD size h i k) (partialD size h j k)) (v : K → List ℝ) :
    pair U (partialD size h' r) v = pair U (partialD size h i) v + pair U (partialD size h j) v := by
  rw [pair_congr he, pair_add _ _ _ _ (fun k => by rw [hk.len hi, hk.len hj])]

theorem pySumVals_der {size : K → Nat} (U : List K) : ∀ (is : List Nat) (a : Nat) (h : Heap K ℝ), HeapOK size h → a < h.nder →
    (∀ i ∈ is, i < h.nder) →
    ∃ r h', pySumVals (.der a) (is.map PyVal.der) h = .ok (.der r) h' ∧ Ext size h h' ∧ r < h'.nder ∧
      (∀ v, pair U (partialD size h' r) v = pair U (partialD size h a) v + (is.map (fun i => pair U (partialD size h i) v)).sum) ∧
      ∀ ks, keysOf h a = ks → (∀ i ∈ is, keysOf h i = ks) → keysOf h' r = ks := by
  intro is
  induction is with
  | nil => intro a h hk ha _; exact ⟨a, h, rfl, Ext.refl hk, ha, fun v => by simp, fun ks h1 _ => h1⟩
  | cons j is ih =>
    intro a h hk ha hl
    obtain ⟨r1, h1, e1, x1, l1, p1, k1⟩ := pyAdd_der hk ha (hl j List.mem_cons_self)
    obtain ⟨r2, h2, e2, x2, l2, p2, k2⟩ := ih r1 h1 x1.ok l1 (fun i hi => Nat.lt_of_lt_of_le (hl i (List.mem_cons_of_mem _ hi)) x1.nder)
    refine ⟨r2, h2, ?_, x1.trans x2, l2, ?_, fun ks q1 q2 => k2 ks (k1 ks q1 (q2 j List.mem_cons_self))
      (fun i hi => by rw [x1.keys (hl i (List.mem_cons_of_mem _ hi))]; exact q2 i (List.mem_cons_of_mem _ hi))⟩
    · rw [List.map_cons]
      show (pyAdd (.der a) (.der j) >>= fun a => pySumVals a (is.map PyVal.der)) h = _
      rw [run_bind, e1]; exact e2
    · intro v
      rw [p2 v, pair_sum hk ha (hl j List.mem_cons_self) p1 v, List.map_cons, List.sum_cons]
      have : is.map (fun i => pair U (partialD size h1 i) v) = is.map (fun i => pair U (partialD size h i) v) := by
        apply List.map_congr_left
        intro i hi
        exact pair_congr (fun k => x1.partialD (hl i (List.mem_cons_of_mem _ hi)) k)
      rw [this]; ring

theorem penalty_value {f : String} (hf : f = "max" ∨ f = "min" ∨ f = "identity") :
    ∃ ψ ψ' : ℝ → ℝ, (∀ d, penaltyJ f d = .ok (ψ d)) ∧ (∀ d, penaltyFactor f d = .ok (ψ' d)) ∧ ∀ d, HasDerivAt ψ (ψ' d) d := by
  rcases hf with rfl | rfl | rfl
  · exact ⟨_, _, fun d => rfl, fun d => rfl, hasDerivAt_sqMax⟩
  · exact ⟨_, _, fun d => rfl, fun d => rfl, hasDerivAt_sqMin⟩
  · refine ⟨fun d => 1 / 2 * d ^ 2, id, fun d => rfl, fun d => rfl, fun d => ?_⟩
    refine ((hasDerivAt_pow 2 d).const_mul (1/2 : ℝ)).congr_deriv ?_
    simp

theorem move_zero (X v : K → List ℝ) (h : ∀ k, (X k).length = (v k).length) : move X v 0 = X := by
  funext k
  unfold move
  apply List.ext_getElem
  · simp [h k]
  · intro i h1 h2; simp

section
variable {size : K → Nat} {U : List K} {L : Leaves K} {w : Nat → ℝ}

mutual
/-- For every expression tree whose leaves are right: `J()` is a function of the state, `dJ(partials=True)` returns a Derivative,
    and that Derivative is the derivative of the function in every direction. -/
theorem Expr.spec (hU : U.Nodup) (e : Expr) (hok : e.OK) (hl : ∀ n ∈ e.leaves, LeafOK size U L n) :
    ∃ φ : (K → List ℝ) → ℝ, (∀ X, e.J L w X = .ok (φ X)) ∧
      ∀ X, Shaped size X → ∀ h, HeapOK size h → ∃ i h', e.dJ L w X h = .ok (.der i) h' ∧ Ext size h h' ∧ i < h'.nder ∧
        (∀ v, Shaped size v → HasDerivAt (fun t => φ (move X v t)) (pair U (partialD size h' i) v) 0) ∧
        ∀ ks, (∀ n ∈ e.leaves, (L.dJ n X).map (·.1) = ks) → keysOf h' i = ks := by
  match e, hok, hl with
  | .leaf n, _, hl =>
    have hn := hl n (by simp [Expr.leaves])
    refine ⟨L.J n, fun X => by simp [Expr.J], ?_⟩
    intro X hX h hk
    obtain ⟨h', r, g, hv⟩ := mk_spec hk (L.dJ n X) (hn.keys X) (fun e he => (hn.shape X e he).2)
    refine ⟨h.nder, h', ?_, Ext.of_grown hk g, by rw [g.nder]; omega, ?_, fun ks hks => ?_⟩
    rotate_left 2
    · rw [mk_keys (hn.keys X) (fun e he => (hn.shape X e he).2) r]; exact hks n (by simp [Expr.leaves])
    · simp only [Expr.dJ, run_bind, r, run_pure]
    · intro v hvs
      refine (hn.deriv X v hX hvs).congr_deriv ?_
      rw [← pair_dict size U hU v (L.dJ n X) (hn.keys X) (fun e he => (hn.shape X e he).1)]
      apply pair_congr
      intro k
      unfold Deriv.partialD
      rw [hv k]
  | .scaled c e, hok, hl =>
    obtain ⟨φ, hJ, hd⟩ := Expr.spec hU e (by simpa [Expr.OK] using hok) (by simpa [Expr.leaves] using hl)
    refine ⟨fun X => float w c * φ X, fun X => by simp only [Expr.J, hJ X]; rfl, ?_⟩
    intro X hX h hk
    obtain ⟨i, h1, r1, x1, l1, d1, q1⟩ := hd X hX h hk
    obtain ⟨r, h2, r2, x2, l2, p2, q2⟩ := pyMul_der x1.ok l1 (float w c)
    refine ⟨r, h2, ?_, x1.trans x2, l2, ?_, fun ks hks => by rw [q2]; exact q1 ks (by simpa [Expr.leaves] using hks)⟩
    · simp only [Expr.dJ, run_bind, r1, r2]
    · intro v hv
      rw [pair_mul p2]
      exact (d1 v hv).const_mul _
  | .osum l, hok, hl =>
    simp only [Expr.OK] at hok
    obtain ⟨e0, l', rfl⟩ := List.exists_cons_of_ne_nil hok.1
    have hoks := hok.2
    simp only [Expr.OKs] at hoks
    obtain ⟨φ, hJ, hd⟩ := Expr.spec hU e0 hoks.1 (fun n hn => hl n (by simp [Expr.leaves, Expr.leavess, hn]))
    obtain ⟨φs, hJs, hds⟩ := Expr.fold_spec hU l' hoks.2 (fun n hn => hl n (by simp [Expr.leaves, Expr.leavess, hn]))
    refine ⟨fun X => φ X + φs X, ?_, ?_⟩
    · intro X
      obtain ⟨vs, e, hs⟩ := hJs X
      simp only [Expr.J, Expr.Js, hJ X, e, bind, Except.bind, pure, Except.pure, List.sum_cons, hs]
    · intro X hX h hk
      obtain ⟨i, h1, r1, x1, l1, d1, q1⟩ := hd X hX h hk
      obtain ⟨r, h2, D, r2, x2, l2, p2, d2, q2⟩ := hds X hX h1 x1.ok i l1
      refine ⟨r, h2, ?_, x1.trans x2, l2, ?_, fun ks hks => q2 ks (q1 ks (fun n hn => hks n (by simp [Expr.leaves, Expr.leavess, hn])))
        (fun n hn => hks n (by simp [Expr.leaves, Expr.leavess, hn]))⟩
      · simp only [Expr.dJ, Expr.foldDJ, run_bind, r1, pyAdd, if_true, run_pure]
        exact r2
      · intro v hv
        rw [p2 v]
        exact (d1 v hv).fun_add (d2 v hv)
  | .penalty e cons f, hok, hl =>
    simp only [Expr.OK] at hok
    obtain ⟨φ, hJ, hd⟩ := Expr.spec hU e hok.1 (by simpa [Expr.leaves] using hl)
    obtain ⟨ψ, ψ', hψ, hψ', hD⟩ := penalty_value hok.2
    refine ⟨fun X => ψ (φ X - cons), fun X => by simp only [Expr.J, hJ X, bind, Except.bind, hψ], ?_⟩
    intro X hX h hk
    obtain ⟨i, h1, r1, x1, l1, d1, q1⟩ := hd X hX h hk
    obtain ⟨r, h2, r2, x2, l2, p2, q2⟩ := pyMul_der x1.ok l1 (ψ' (φ X - cons))
    refine ⟨r, h2, ?_, x1.trans x2, l2, ?_, fun ks hks => by rw [q2]; exact q1 ks (by simpa [Expr.leaves] using hks)⟩
    · simp only [Expr.dJ, run_bind, hJ X, Deriv.lift, r1, hψ', r2]
    · intro v hv
      rw [pair_mul p2]
      have hm : move X v 0 = X := move_zero X v (fun k => by rw [hX k, hv k])
      have hc : HasDerivAt (fun t => φ (move X v t) - cons) (pair U (partialD size h1 i) v) 0 := (d1 v hv).sub_const _
      have h2 := HasDerivAt.comp (0:ℝ) (h₂ := ψ) (h := fun t => φ (move X v t) - cons) (by rw [hm]; exact hD _) hc
      exact h2
  | .mean l, hok, hl =>
    simp only [Expr.OK] at hok
    obtain ⟨e0, l', rfl⟩ := List.exists_cons_of_ne_nil hok.1
    have hoks := hok.2
    simp only [Expr.OKs] at hoks
    obtain ⟨φ, hJ, hd⟩ := Expr.spec hU e0 hoks.1 (fun n hn => hl n (by simp [Expr.leaves, Expr.leavess, hn]))
    obtain ⟨φs, hJs, hds⟩ := Expr.list_spec hU l' hoks.2 (fun n hn => hl n (by simp [Expr.leaves, Expr.leavess, hn]))
    refine ⟨fun X => (1 / ((l'.length + 1 : ℕ) : ℝ)) * (φ X + φs X), ?_, ?_⟩
    · intro X
      obtain ⟨vs, e, hs⟩ := hJs X
      simp only [Expr.J, Expr.Js, hJ X, e, bind, Except.bind, pure, Except.pure, List.sum_cons, hs, List.length_cons,
        Nat.add_eq_zero_iff, one_ne_zero, and_false, if_false]
      congr 1; ring
    · intro X hX h hk
      obtain ⟨i, h1, r1, x1, l1, d1, q1⟩ := hd X hX h hk
      obtain ⟨is, h2, r2, x2, l2, d2, q2⟩ := hds X hX h1 x1.ok
      obtain ⟨r, h3, r3, x3, l3, p3, q3⟩ := pySumVals_der U is i h2 x2.ok (Nat.lt_of_lt_of_le l1 x2.nder) l2
      obtain ⟨q, h4, r4, x4, l4, p4, q4⟩ := pyMul_der x3.ok l3 (1 / ((l'.length + 1 : ℕ) : ℝ))
      refine ⟨q, h4, ?_, ((x1.trans x2).trans x3).trans x4, l4, ?_, fun ks hks => by
        rw [q4]
        exact q3 ks (by rw [x2.keys l1]; exact q1 ks (fun n hn => hks n (by simp [Expr.leaves, Expr.leavess, hn])))
          (q2 ks (fun n hn => hks n (by simp [Expr.leaves, Expr.leavess, hn])))⟩
      · simp only [Expr.dJ, List.length_cons, Nat.add_eq_zero_iff, one_ne_zero, and_false, if_false, Expr.dJs, run_bind, r1, r2,
          run_pure, pySumVals, pyAdd, if_true, r3, r4]
      · intro v hv
        rw [pair_mul p4, p3 v]
        have : pair U (partialD size h2 i) v = pair U (partialD size h1 i) v := pair_congr (fun k => x2.partialD l1 k)
        rw [this]
        exact ((d1 v hv).fun_add (d2 v hv)).const_mul _
/-- the terms of a sum, added one after the other to a Derivative -/
theorem Expr.fold_spec (hU : U.Nodup) (l : List Expr) (hok : Expr.OKs l) (hl : ∀ n ∈ Expr.leavess l, LeafOK size U L n) :
    ∃ φ : (K → List ℝ) → ℝ, (∀ X, ∃ vs, Expr.Js L w X l = .ok vs ∧ vs.sum = φ X) ∧
      ∀ X, Shaped size X → ∀ h, HeapOK size h → ∀ a, a < h.nder → ∃ i h', ∃ D : (K → List ℝ) → ℝ,
        Expr.foldDJ L w X (.der a) l h = .ok (.der i) h' ∧ Ext size h h' ∧ i < h'.nder ∧
        (∀ v, pair U (partialD size h' i) v = pair U (partialD size h a) v + D v) ∧
        (∀ v, Shaped size v → HasDerivAt (fun t => φ (move X v t)) (D v) 0) ∧
        ∀ ks, keysOf h a = ks → (∀ n ∈ Expr.leavess l, (L.dJ n X).map (·.1) = ks) → keysOf h' i = ks := by
  match l, hok, hl with
  | [], _, _ =>
    refine ⟨fun _ => 0, fun X => ⟨[], by simp [Expr.Js], rfl⟩, ?_⟩
    intro X hX h hk a ha
    exact ⟨a, h, fun _ => 0, by simp [Expr.foldDJ, run_pure], Ext.refl hk, ha, fun v => by simp, fun v _ => hasDerivAt_const _ _, fun ks h1 _ => h1⟩
  | e :: l, hok, hl =>
    simp only [Expr.OKs] at hok
    obtain ⟨φ, hJ, hd⟩ := Expr.spec hU e hok.1 (fun n hn => hl n (by simp [Expr.leavess, hn]))
    obtain ⟨φs, hJs, hds⟩ := Expr.fold_spec hU l hok.2 (fun n hn => hl n (by simp [Expr.leavess, hn]))
    refine ⟨fun X => φ X + φs X, ?_, ?_⟩
    · intro X
      obtain ⟨vs, e, hs⟩ := hJs X
      exact ⟨φ X :: vs, by simp only [Expr.Js, hJ X, e, bind, Except.bind, pure, Except.pure], by rw [List.sum_cons, hs]⟩
    · intro X hX h hk a ha
      obtain ⟨i, h1, r1, x1, l1, d1, q1⟩ := hd X hX h hk
      have ha1 := Nat.lt_of_lt_of_le ha x1.nder
      obtain ⟨r, h2, r2, x2, l2, p2, q2⟩ := pyAdd_der x1.ok ha1 l1
      obtain ⟨q, h3, D, r3, x3, l3, p3, d3, q3⟩ := hds X hX h2 x2.ok r l2
      refine ⟨q, h3, fun v => pair U (partialD size h1 i) v + D v, ?_, (x1.trans x2).trans x3, l3, ?_, ?_, fun ks ka hks =>
        q3 ks (q2 ks (by rw [x1.keys ha]; exact ka) (q1 ks (fun n hn => hks n (by simp [Expr.leavess, hn]))))
          (fun n hn => hks n (by simp [Expr.leavess, hn]))⟩
      · simp only [Expr.foldDJ, run_bind, r1, r2, r3]
      · intro v
        have : pair U (partialD size h1 a) v = pair U (partialD size h a) v := pair_congr (fun k => x1.partialD ha k)
        rw [p3 v, pair_sum x1.ok ha1 l1 p2 v, this]; ring
      · intro v hv; exact (d1 v hv).fun_add (d3 v hv)
/-- the list of all terms -/
theorem Expr.list_spec (hU : U.Nodup) (l : List Expr) (hok : Expr.OKs l) (hl : ∀ n ∈ Expr.leavess l, LeafOK size U L n) :
    ∃ φ : (K → List ℝ) → ℝ, (∀ X, ∃ vs, Expr.Js L w X l = .ok vs ∧ vs.sum = φ X) ∧
      ∀ X, Shaped size X → ∀ h, HeapOK size h → ∃ (is : List Nat) (h' : Heap K ℝ),
        Expr.dJs L w X l h = .ok (is.map PyVal.der) h' ∧ Ext size h h' ∧ (∀ i ∈ is, i < h'.nder) ∧
        (∀ v, Shaped size v → HasDerivAt (fun t => φ (move X v t)) (is.map (fun i => pair U (partialD size h' i) v)).sum 0) ∧
        ∀ ks, (∀ n ∈ Expr.leavess l, (L.dJ n X).map (·.1) = ks) → ∀ i ∈ is, keysOf h' i = ks := by
  match l, hok, hl with
  | [], _, _ =>
    refine ⟨fun _ => 0, fun X => ⟨[], by simp [Expr.Js], rfl⟩, ?_⟩
    intro X hX h hk
    exact ⟨[], h, by simp [Expr.dJs, run_pure], Ext.refl hk, by simp, fun v _ => hasDerivAt_const _ _, by simp⟩
  | e :: l, hok, hl =>
    simp only [Expr.OKs] at hok
    obtain ⟨φ, hJ, hd⟩ := Expr.spec hU e hok.1 (fun n hn => hl n (by simp [Expr.leavess, hn]))
    obtain ⟨φs, hJs, hds⟩ := Expr.list_spec hU l hok.2 (fun n hn => hl n (by simp [Expr.leavess, hn]))
    refine ⟨fun X => φ X + φs X, ?_, ?_⟩
    · intro X
      obtain ⟨vs, e, hs⟩ := hJs X
      exact ⟨φ X :: vs, by simp only [Expr.Js, hJ X, e, bind, Except.bind, pure, Except.pure], by rw [List.sum_cons, hs]⟩
    · intro X hX h hk
      obtain ⟨i, h1, r1, x1, l1, d1, q1⟩ := hd X hX h hk
      obtain ⟨is, h2, r2, x2, l2, d2, q2⟩ := hds X hX h1 x1.ok
      refine ⟨i :: is, h2, ?_, x1.trans x2, ?_, ?_, ?_⟩
      rotate_left 3
      · intro ks hks j hj
        rcases List.mem_cons.mp hj with rfl | hj
        · rw [x2.keys l1]; exact q1 ks (fun n hn => hks n (by simp [Expr.leavess, hn]))
        · exact q2 ks (fun n hn => hks n (by simp [Expr.leavess, hn])) j hj
      · simp only [Expr.dJs, run_bind, r1, r2, run_pure, List.map_cons]
      · intro j hj
        rcases List.mem_cons.mp hj with rfl | hj
        · exact Nat.lt_of_lt_of_le l1 x2.nder
        · exact l2 j hj
      · intro v hv
        rw [List.map_cons, List.sum_cons]
        have : pair U (partialD size h2 i) v = pair U (partialD size h1 i) v := pair_congr (fun k => x2.partialD l1 k)
        rw [this]
        exact (d1 v hv).fun_add (d2 v hv)
end
end

end Simsopt.Objectives
