import Verif.Deriv.Call
import Mathlib.Algebra.Ring.Defs
import Mathlib.Algebra.Ring.Basic
import Mathlib.Tactic.Abel
import Mathlib.Tactic.Ring
/-!
# Properties C14 and C15 of class `Derivative`

`Reachable` ranges over all histories of constructor calls, `+`, `-`, `+=`, `-=`, `*`, `sum` and gradient
extractions.  The numbers are an arbitrary commutative ring.
-/
set_option linter.unusedSimpArgs false
set_option linter.unusedSectionVars false
namespace Simsopt.Deriv
open Simsopt
variable {K V : Type} [DecidableEq K]

/-! ### helper algebra -/
section algebra
variable [CommRing V]

theorem zip_shuffle (op : V → V → V) (hop : ∀ a b p q : V, op a b + op p q = op (a + p) (b + q)) :
    ∀ a b p q : List V, List.zipWith (· + ·) (List.zipWith op a b) (List.zipWith op p q) =
      List.zipWith op (List.zipWith (· + ·) a p) (List.zipWith (· + ·) b q)
  | [], _, _, _ => by simp
  | _ :: _, [], _, q => by simp
  | _ :: _, _ :: _, [], _ => by simp
  | _ :: _, _ :: _, _ :: _, [] => by simp
  | a :: la, b :: lb, p :: lp, q :: lq => by
    simp only [List.zipWith_cons_cons, hop, zip_shuffle op hop la lb lp lq]

theorem gather_zip (op : V → V → V) : ∀ (m : List Bool) (a b : List V), a.length = b.length →
    gather m (List.zipWith op a b) = List.zipWith op (gather m a) (gather m b)
  | [], a, b, _ => by cases a <;> cases b <;> simp [gather]
  | _ :: _, [], b, _ => by cases b <;> simp [gather]
  | c :: m, a :: la, [], h => by simp at h
  | c :: m, a :: la, b :: lb, h => by
    have := gather_zip op m la lb (by simpa using h)
    cases c <;> simp [gather, this]

theorem acc_hom (op : V → V → V) (hop : ∀ a b p q : V, op a b + op p q = op (a + p) (b + q)) {size : K → Nat}
    {h1 h2 h3 : Heap K V} {i j r : Nat} (he : ∀ k, partialD size h3 r k = List.zipWith op (partialD size h1 i k) (partialD size h2 j k))
    (hl : ∀ k, (partialD size h1 i k).length = (partialD size h2 j k).length) (free : List Bool) : ∀ (ks : List K) (a b : List V),
    accSpec size h3 r free ks (List.zipWith op a b) = List.zipWith op (accSpec size h1 i free ks a) (accSpec size h2 j free ks b) := by
  intro ks
  induction ks with
  | nil => intro a b; rfl
  | cons k ks ih =>
    intro a b
    unfold accSpec at ih ⊢
    simp only [List.foldl_cons]
    rw [he, gather_zip op free _ _ (hl k), zip_shuffle op hop, ih]

theorem flatten_zip (op : V → V → V) {α : Type} (f g : α → List V) (hl : ∀ a, (f a).length = (g a).length) : ∀ l : List α,
    (l.map (fun a => List.zipWith op (f a) (g a))).flatten = List.zipWith op (l.map f).flatten (l.map g).flatten
  | [] => by simp
  | a :: l => by
    simp only [List.map_cons, List.flatten_cons]
    rw [flatten_zip op f g hl l, List.zipWith_append (hl a)]

theorem acc_length {size : K → Nat} {h : Heap K V} {i : Nat} (free : List Bool) : ∀ (ks : List K) (a : List V),
    (∀ k ∈ ks, (partialD size h i k).length = free.length) → a.length = countTrue free → (accSpec size h i free ks a).length = countTrue free := by
  intro ks
  induction ks with
  | nil => intro a _ ha; exact ha
  | cons k ks ih =>
    intro a hk ha
    unfold accSpec at ih ⊢
    rw [List.foldl_cons]
    refine ih _ (fun k' hk' => hk k' (List.mem_cons_of_mem _ hk')) ?_
    rw [List.length_zipWith, ha, gather_length' _ _ (hk k List.mem_cons_self)]; simp

theorem grad_hom (op : V → V → V) (hop : ∀ a b p q : V, op a b + op p q = op (a + p) (b + q)) (h0 : op 0 0 = 0) {size : K → Nat}
    {h1 h2 h3 : Heap K V} {i j r : Nat} (ok1 : HeapOK size h1) (ok2 : HeapOK size h2) (hi : i < h1.nder) (hj : j < h2.nder)
    (he : ∀ k, partialD size h3 r k = List.zipWith op (partialD size h1 i k) (partialD size h2 j k)) (bs : List (Block K)) (hbs : BlocksOK size bs) :
    (gradSpec size h3 r bs).flatten = List.zipWith op (gradSpec size h1 i bs).flatten (gradSpec size h2 j bs).flatten := by
  have hl : ∀ k, (partialD size h1 i k).length = (partialD size h2 j k).length := fun k => by rw [ok1.len hi, ok2.len hj]
  induction bs with
  | nil => simp [gradSpec]
  | cons b bs ih =>
    have ih' := ih (fun c hc => hbs c (List.mem_cons_of_mem _ hc))
    unfold gradSpec at ih' ⊢
    by_cases hb : b.anyFree = true
    · simp only [List.filter_cons, hb, if_true, List.map_cons, List.flatten_cons]
      rw [ih', List.zipWith_append]
      · congr 1
        rw [← acc_hom op hop he hl]
        congr 1
        rw [List.zipWith_replicate, h0, Nat.min_self]
      · rw [acc_length _ _ _ (fun k hk => ?_) (by simp), acc_length _ _ _ (fun k hk => ?_) (by simp)]
        · rw [ok2.len hj, hbs b List.mem_cons_self k hk]
        · rw [ok1.len hi, hbs b List.mem_cons_self k hk]
    · simp only [Bool.not_eq_true] at hb
      simp only [List.filter_cons, hb, Bool.false_eq_true, if_false]
      exact ih'

theorem grad_iff {size : K → Nat} {h : Heap K V} (hk : HeapOK size h) {i : Nat} (hi : i < h.nder) {bs : List (Block K)} (hbs : BlocksOK size bs) (g : List V) :
    Gradient size h i bs g ↔ (∃ b ∈ bs, b.anyFree = true) ∧ g = (gradSpec size h i bs).flatten := by
  obtain ⟨h', _, r⟩ := call_spec bs h hk hi hbs
  unfold Gradient
  rw [r]
  by_cases ha : bs.all (fun b => !b.anyFree) = true
  · simp only [ha, if_true]
    constructor
    · rintro ⟨_, e⟩; cases e
    · rintro ⟨⟨b, hb, hf⟩, _⟩
      have := List.all_eq_true.mp ha b hb
      simp [hf] at this
  · simp only [ha, if_false, Bool.false_eq_true]
    have : ∃ b ∈ bs, b.anyFree = true := by
      simp only [Bool.not_eq_true, List.all_eq_false, Bool.not_eq_true'] at ha
      simpa using ha
    constructor
    · rintro ⟨_, e⟩; cases e; exact ⟨this, rfl⟩
    · rintro ⟨_, rfl⟩; exact ⟨h', rfl⟩

theorem partial_combine (op : V → V → V) (new : V → V) (hz : ∀ a, op a 0 = a) (hn : ∀ a, op 0 a = new a) {size : K → Nat} {h1 h2 h3 : Heap K V}
    {i j r : Nat} (ok1 : HeapOK size h1) (ok2 : HeapOK size h2) (hi : i < h1.nder) (hj : j < h2.nder)
    (hv : ∀ k, value h3 r k = combine op new (value h1 i k) (value h2 j k)) (k : K) :
    partialD size h3 r k = List.zipWith op (partialD size h1 i k) (partialD size h2 j k) := by
  have l1 := ok1.len hi k
  have l2 := ok2.len hj k
  have h00 : op 0 0 = 0 := hz 0
  have right : ∀ (l : List V) n, l.length = n → List.zipWith op l (List.replicate n 0) = l := by
    intro l
    induction l with
    | nil => intro n hn; subst hn; rfl
    | cons a l ih => intro n hn; subst hn; simp [List.replicate_succ, hz, ih]
  have left : ∀ (l : List V) n, l.length = n → List.zipWith op (List.replicate n 0) l = l.map new := by
    intro l
    induction l with
    | nil => intro n hn; subst hn; rfl
    | cons a l ih => intro n hn'; subst hn'; simp [List.replicate_succ, hn, ih]
  unfold partialD at l1 l2 ⊢
  rw [hv k]
  cases ha : value h1 i k with
  | some a =>
    cases hb : value h2 j k with
    | some b => rfl
    | none =>
      simp only [combine, Option.getD_some, Option.getD_none, ha] at l1 ⊢
      rw [right a _ l1]
  | none =>
    cases hb : value h2 j k with
    | some b =>
      simp only [combine, Option.getD_some, Option.getD_none, hb] at l2 ⊢
      rw [left b _ l2]
    | none =>
      simp only [combine, Option.getD_none]
      rw [List.zipWith_replicate, h00, Nat.min_self]

end algebra

section
variable [CommRing V] {size : K → Nat} {h : Heap K V} (hr : Reachable size h)
include hr

/-! ### C14: vector space, linear gradient extraction -/

/-- Whether `D(optim)` returns does not depend on `D`: it returns unless nothing in the lineage is free, and then raises
    `ValueError`. -/
theorem C14_gradient_defined (i : Nat) (hi : i < h.nder) (bs : List (Block K)) (hbs : BlocksOK size bs) :
    ((∃ b ∈ bs, b.anyFree = true) → ∃ g, Gradient size h i bs g) ∧
    ((∀ b ∈ bs, b.anyFree = false) → ∃ h', call size i bs h = .error .valueError h') := by
  constructor
  · intro hb; exact ⟨_, (grad_iff hr.ok hi hbs _).mpr ⟨hb, rfl⟩⟩
  · intro hb
    obtain ⟨h', _, r⟩ := call_spec bs h hr.ok hi hbs
    refine ⟨h', ?_⟩
    rw [r, if_pos]
    rw [List.all_eq_true]; intro b hm; simp [hb b hm]

/-- `(a + b)(o) = a(o) + b(o)`. -/
theorem C14_add (i j : Nat) (hi : i < h.nder) (hj : j < h.nder) :
    ∃ r h', add i j h = .ok r h' ∧ ∀ bs, BlocksOK size bs → ∀ g1 g2, Gradient size h i bs g1 → Gradient size h j bs g2 →
      Gradient size h' r bs (List.zipWith (· + ·) g1 g2) := by
  obtain ⟨h', r, g, v⟩ := newMerge_spec (· + ·) id hr.ok hi hj
  refine ⟨h.nder, h', r, fun bs hbs g1 g2 hg1 hg2 => ?_⟩
  rw [grad_iff hr.ok hi hbs] at hg1
  rw [grad_iff hr.ok hj hbs] at hg2
  rw [grad_iff g.ok (by rw [g.nder]; omega) hbs, hg1.2, hg2.2]
  refine ⟨hg1.1, (grad_hom (· + ·) (fun a b p q => by abel) (add_zero 0) hr.ok hr.ok hi hj ?_ bs hbs).symm⟩
  exact partial_combine _ _ (fun a => add_zero a) (fun a => zero_add a) hr.ok hr.ok hi hj v

/-- `(a - b)(o) = a(o) - b(o)`. -/
theorem C14_sub (i j : Nat) (hi : i < h.nder) (hj : j < h.nder) :
    ∃ r h', sub i j h = .ok r h' ∧ ∀ bs, BlocksOK size bs → ∀ g1 g2, Gradient size h i bs g1 → Gradient size h j bs g2 →
      Gradient size h' r bs (List.zipWith (· - ·) g1 g2) := by
  obtain ⟨h', r, g, v⟩ := newMerge_spec (· - ·) (fun v => -v) hr.ok hi hj
  refine ⟨h.nder, h', r, fun bs hbs g1 g2 hg1 hg2 => ?_⟩
  rw [grad_iff hr.ok hi hbs] at hg1
  rw [grad_iff hr.ok hj hbs] at hg2
  rw [grad_iff g.ok (by rw [g.nder]; omega) hbs, hg1.2, hg2.2]
  refine ⟨hg1.1, (grad_hom (· - ·) (fun a b p q => by ring) (sub_zero 0) hr.ok hr.ok hi hj ?_ bs hbs).symm⟩
  exact partial_combine _ _ (fun a => sub_zero a) (fun a => zero_sub a) hr.ok hr.ok hi hj v

/-- `a += b` gives the same gradients as `a + b`. -/
theorem C14_iadd (i j : Nat) (hi : i < h.nder) (hj : j < h.nder) :
    ∃ h', iadd i j h = .ok i h' ∧ ∀ bs, BlocksOK size bs → ∀ g1 g2, Gradient size h i bs g1 → Gradient size h j bs g2 →
      Gradient size h' i bs (List.zipWith (· + ·) g1 g2) := by
  obtain ⟨h', r, g, v⟩ := inplaceMerge_spec (· + ·) id hr.ok hi hj
  refine ⟨h', r, fun bs hbs g1 g2 hg1 hg2 => ?_⟩
  rw [grad_iff hr.ok hi hbs] at hg1
  rw [grad_iff hr.ok hj hbs] at hg2
  rw [grad_iff g.ok (by rw [g.nder]; exact hi) hbs, hg1.2, hg2.2]
  refine ⟨hg1.1, (grad_hom (· + ·) (fun a b p q => by abel) (add_zero 0) hr.ok hr.ok hi hj ?_ bs hbs).symm⟩
  exact partial_combine _ _ (fun a => add_zero a) (fun a => zero_add a) hr.ok hr.ok hi hj v

/-- `a -= b` gives the same gradients as `a - b`. -/
theorem C14_isub (i j : Nat) (hi : i < h.nder) (hj : j < h.nder) :
    ∃ h', isub i j h = .ok i h' ∧ ∀ bs, BlocksOK size bs → ∀ g1 g2, Gradient size h i bs g1 → Gradient size h j bs g2 →
      Gradient size h' i bs (List.zipWith (· - ·) g1 g2) := by
  obtain ⟨h', r, g, v⟩ := inplaceMerge_spec (· - ·) (fun v => -v) hr.ok hi hj
  refine ⟨h', r, fun bs hbs g1 g2 hg1 hg2 => ?_⟩
  rw [grad_iff hr.ok hi hbs] at hg1
  rw [grad_iff hr.ok hj hbs] at hg2
  rw [grad_iff g.ok (by rw [g.nder]; exact hi) hbs, hg1.2, hg2.2]
  refine ⟨hg1.1, (grad_hom (· - ·) (fun a b p q => by ring) (sub_zero 0) hr.ok hr.ok hi hj ?_ bs hbs).symm⟩
  exact partial_combine _ _ (fun a => sub_zero a) (fun a => zero_sub a) hr.ok hr.ok hi hj v

/-- `(c * a)(o) = c * a(o)`. -/
theorem C14_mul (i : Nat) (hi : i < h.nder) (c : V) :
    ∃ r h', mul i c h = .ok r h' ∧ ∀ bs, BlocksOK size bs → ∀ g, Gradient size h i bs g →
      Gradient size h' r bs (g.map (fun x => c * x)) := by
  obtain ⟨h', r, g, v⟩ := mul_spec c hr.ok hi
  refine ⟨h.nder, h', r, fun bs hbs g1 hg1 => ?_⟩
  rw [grad_iff hr.ok hi hbs] at hg1
  rw [grad_iff g.ok (by rw [g.nder]; omega) hbs, hg1.2]
  refine ⟨hg1.1, ?_⟩
  have hz : ∀ l : List V, List.zipWith (fun x _ => c * x) l l = l.map (fun x => c * x) := by
    intro l; induction l with
    | nil => rfl
    | cons a l ih => simp
  rw [← hz]
  refine (grad_hom (fun x _ => c * x) (fun a b p q => by ring) (mul_zero c) hr.ok hr.ok hi hi ?_ bs hbs).symm
  intro k
  rw [hz]
  unfold partialD
  rw [v k]
  cases value h i k with
  | some l => simp [mul_comm]
  | none => simp

/-- `a + b` and `b + a` give the same gradients. -/
theorem C14_add_comm (i j : Nat) (hi : i < h.nder) (hj : j < h.nder) :
    ∃ r h' r' h'', add i j h = .ok r h' ∧ add j i h = .ok r' h'' ∧
      ∀ bs, BlocksOK size bs → ∀ g, Gradient size h' r bs g ↔ Gradient size h'' r' bs g := by
  obtain ⟨h1, r1, g1, v1⟩ := newMerge_spec (· + ·) id hr.ok hi hj
  obtain ⟨h2, r2, g2, v2⟩ := newMerge_spec (· + ·) id hr.ok hj hi
  refine ⟨_, h1, _, h2, r1, r2, fun bs hbs g => ?_⟩
  rw [grad_iff g1.ok (by rw [g1.nder]; omega) hbs, grad_iff g2.ok (by rw [g2.nder]; omega) hbs]
  have e : (gradSpec size h1 h.nder bs) = (gradSpec size h2 h.nder bs) := by
    refine gradSpec_congr (fun k => ?_) bs
    rw [partial_combine (· + ·) id (fun a => add_zero a) (fun a => zero_add a) hr.ok hr.ok hi hj v1,
      partial_combine (· + ·) id (fun a => add_zero a) (fun a => zero_add a) hr.ok hr.ok hj hi v2]
    exact List.zipWith_comm_of_comm (fun a b => add_comm a b)
  rw [e]

/-- `sum([d1, d2, ...])(o) = d1(o) + d2(o) + ...` for a non-empty list. -/
theorem C14_sum (i : Nat) (l : List Nat) (hi : i < h.nder) (hl : ∀ j ∈ l, j < h.nder) :
    ∃ r h', sum (i :: l) h = .ok (some r) h' ∧ ∀ bs, BlocksOK size bs → ∀ (gs : Nat → List V), (∀ j ∈ i :: l, Gradient size h j bs (gs j)) →
      Gradient size h' r bs ((l.map gs).foldl (List.zipWith (· + ·)) (gs i)) := by
  obtain ⟨r, h', r1, ok1, lt1, _, _, _, _, _, _, v⟩ := foldSum_spec l i h hr.ok hi hl
  refine ⟨r, h', ?_, ?_⟩
  · simp only [sum, radd0, run_bind, run_pure, r1]
  · intro bs hbs gs hgs
    have hgi := (grad_iff hr.ok hi hbs _).mp (hgs i List.mem_cons_self)
    rw [grad_iff ok1 lt1 hbs]
    refine ⟨hgi.1, ?_⟩
    -- redo the fold on gradients
    clear r1
    have key : ∀ (l : List Nat) (a : Nat) (h1 : Heap K V), HeapOK size h1 → a < h1.nder → (∀ j ∈ l, j < h1.nder) →
        ∀ (r : Nat) (h' : Heap K V), (∀ k, value h' r k = (l.map (fun i => value h1 i k)).foldl (combine (· + ·) id) (value h1 a k)) →
        (gradSpec size h' r bs).flatten = (l.map (fun j => (gradSpec size h1 j bs).flatten)).foldl (List.zipWith (· + ·)) (gradSpec size h1 a bs).flatten := by
      intro l
      induction l with
      | nil =>
        intro a h1 _ _ _ r h' hv
        rw [gradSpec_congr (h := h1) (i := a) (fun k => by unfold partialD; rw [hv k]; rfl)]; rfl
      | cons j l ih =>
        intro a h1 hk ha hl r h' hv
        obtain ⟨h2, _, g2, v2⟩ := newMerge_spec (· + ·) id hk ha (hl j List.mem_cons_self)
        have e := ih h1.nder h2 g2.ok (by rw [g2.nder]; omega) (fun i hi => by rw [g2.nder]; have := hl i (List.mem_cons_of_mem _ hi); omega)
          r h' (fun k => by
            rw [hv k, List.map_cons, List.foldl_cons, v2 k]
            congr 1
            apply List.map_congr_left
            intro q hq
            exact (g2.value hk q (hl q (List.mem_cons_of_mem _ hq)) k).symm)
        rw [e, List.map_cons, List.foldl_cons]
        congr 1
        · exact grad_hom (· + ·) (fun a b p q => by abel) (add_zero 0) hk hk ha (hl j List.mem_cons_self)
            (partial_combine _ _ (fun a => add_zero a) (fun a => zero_add a) hk hk ha (hl j List.mem_cons_self) v2) bs hbs
        · apply List.map_congr_left
          intro q hq
          rw [gradSpec_congr (h := h1) (i := q)]
          intro k
          unfold partialD
          rw [g2.value hk q (hl q (List.mem_cons_of_mem _ hq)) k]
    rw [key l i h hr.ok hi hl r h' v, hgi.2]
    congr 1
    apply List.map_congr_left
    intro q hq
    exact ((grad_iff hr.ok (hl q hq) hbs _).mp (hgs q (List.mem_cons_of_mem _ hq))).2

/-- A missing key behaves as zero: leaving out an Optimizable or storing zeros for it gives the same gradients. -/
theorem C14_missing_is_zero (l : List (K × List V)) (k : K) (hnd : (l.map (·.1)).Nodup) (hk : k ∉ l.map (·.1))
    (hsz : ∀ e ∈ l, e.2.length = size e.1) :
    ∃ r h' r' h'', mk l h = .ok r h' ∧ mk (l ++ [(k, List.replicate (size k) 0)]) h = .ok r' h'' ∧
      ∀ bs, BlocksOK size bs → ∀ g, Gradient size h' r bs g ↔ Gradient size h'' r' bs g := by
  obtain ⟨h1, r1, g1, v1⟩ := mk_spec hr.ok l hnd hsz
  obtain ⟨h2, r2, g2, v2⟩ := mk_spec hr.ok (l ++ [(k, List.replicate (size k) 0)])
    (by rw [List.map_append, List.nodup_append]
        refine ⟨hnd, by simp, ?_⟩
        intro a ha b hb hab; simp at hb; subst hb; subst hab; exact hk ha)
    (by intro e he
        rcases List.mem_append.mp he with he | he
        · exact hsz e he
        · simp at he; subst he; simp)
  refine ⟨_, h1, _, h2, r1, r2, fun bs hbs g => ?_⟩
  rw [grad_iff g1.ok (by rw [g1.nder]; omega) hbs, grad_iff g2.ok (by rw [g2.nder]; omega) hbs]
  rw [gradSpec_congr (h := h2) (i := h.nder)]
  intro k'
  unfold partialD
  rw [v1, v2, List.find?_append]
  cases hf : l.find? (fun e => e.1 = k') with
  | some e => rfl
  | none =>
    by_cases hkk : k = k'
    · subst hkk; simp
    · simp [hkk]

/-! ### C15: no aliasing -/

/-- After any history of these operations no two Derivatives have an array in common. -/
theorem C15_no_shared_arrays (i j : Nat) (hi : i < h.nder) (hj : j < h.nder) (hij : i ≠ j) : ¬ SharesArray h i j := by
  rintro ⟨e, he, f, hf, hef⟩
  exact hr.ok.sep i j hi hj hij e he f hf hef

/-- `a + b`, `a - b`, `c * a` return a new object, and leave every existing Derivative exactly as it was. -/
theorem C15_operators_pure (op : Op K V) (hop : (∃ i j, op = .add i j) ∨ (∃ i j, op = .sub i j) ∨ (∃ i c, op = .mul i c))
    (hs : op.Safe size h) :
    ∃ h', exec size op h = .ok () h' ∧ h'.nder = h.nder + 1 ∧
      (∀ q, q < h.nder → h'.der q = h.der q ∧ ∀ k, value h' q k = value h q k) ∧
      (∀ q, q < h.nder → ¬ SharesArray h' h.nder q) := by
  have main : ∀ h', Grown size h h' → h'.nder = h.nder + 1 ∧
      (∀ q, q < h.nder → h'.der q = h.der q ∧ ∀ k, value h' q k = value h q k) ∧
      (∀ q, q < h.nder → ¬ SharesArray h' h.nder q) := by
    intro h' g
    refine ⟨g.nder, fun q hq => ⟨g.der q hq, g.value hr.ok q hq⟩, ?_⟩
    rintro q hq ⟨e, he, f, hf, hef⟩
    exact g.ok.sep h.nder q (by rw [g.nder]; omega) (by rw [g.nder]; omega) (by omega) e he f hf hef
  rcases hop with ⟨i, j, rfl⟩ | ⟨i, j, rfl⟩ | ⟨i, c, rfl⟩
  · obtain ⟨h', r, g, _⟩ := newMerge_spec (· + ·) id hr.ok hs.1 hs.2
    have r' : add i j h = .ok h.nder h' := r
    exact ⟨h', by simp only [exec, run_discard, r'], main h' g⟩
  · obtain ⟨h', r, g, _⟩ := newMerge_spec (· - ·) (fun v => -v) hr.ok hs.1 hs.2
    have r' : sub i j h = .ok h.nder h' := r
    exact ⟨h', by simp only [exec, run_discard, r'], main h' g⟩
  · obtain ⟨h', r, g, _⟩ := mul_spec c hr.ok hs
    exact ⟨h', by simp only [exec, run_discard, r], main h' g⟩

/-- `a += b` and `a -= b` change only `a`: every other Derivative, in particular `b`, keeps its content (when `b` is `a` itself
    it is of course changed). -/
theorem C15_inplace_changes_only_left (i j : Nat) (hi : i < h.nder) (hj : j < h.nder) :
    (∃ h', iadd i j h = .ok i h' ∧ h'.nder = h.nder ∧ ∀ q, q < h.nder → q ≠ i → ∀ k, value h' q k = value h q k) ∧
    (∃ h', isub i j h = .ok i h' ∧ h'.nder = h.nder ∧ ∀ q, q < h.nder → q ≠ i → ∀ k, value h' q k = value h q k) := by
  constructor
  · obtain ⟨h', r, g, _⟩ := inplaceMerge_spec (· + ·) id hr.ok hi hj
    exact ⟨h', r, g.nder, fun q hq hqi k => g.value hi hr.ok q hq hqi k⟩
  · obtain ⟨h', r, g, _⟩ := inplaceMerge_spec (· - ·) (fun v => -v) hr.ok hi hj
    exact ⟨h', r, g.nder, fun q hq hqi k => g.value hi hr.ok q hq hqi k⟩

/-- Extracting a gradient changes no gradient: it may only insert zero arrays for missing keys. -/
theorem C15_call_is_read_only (i : Nat) (hi : i < h.nder) (bs : List (Block K)) (hbs : BlocksOK size bs) :
    ∃ h', (call size i bs h = .error .valueError h' ∨ ∃ g, call size i bs h = .ok g h') ∧ h'.nder = h.nder ∧
      (∀ q, q < h.nder → ∀ k l, value h q k = some l → value h' q k = some l) ∧
      (∀ q, q < h.nder → ∀ bs', BlocksOK size bs' → ∀ g, Gradient size h' q bs' g ↔ Gradient size h q bs' g) := by
  obtain ⟨h', p, r⟩ := call_spec bs h hr.ok hi hbs
  refine ⟨h', ?_, p.nder, ?_, ?_⟩
  · rw [r]; split
    · exact Or.inl rfl
    · exact Or.inr ⟨_, rfl⟩
  · intro q hq k l hv
    by_cases hqi : q = i
    · subst hqi; exact p.keep k l hv
    · rw [p.value hr.ok q hq hqi k]; exact hv
  · intro q hq bs' hbs' g
    rw [grad_iff p.ok (by rw [p.nder]; exact hq) hbs', grad_iff hr.ok hq hbs', gradSpec_congr (p.partialD hr.ok q hq)]

end

/-! ### concrete heaps -/

/-- run a call that returns -/
def after (size : K → Nat) [CommRing V] (op : Op K V) (h : Heap K V) : Heap K V :=
  match exec size op h with
  | .ok _ h' => h'
  | .error _ h' => h'

theorem reach_after [CommRing V] {size : K → Nat} {h : Heap K V} (hr : Reachable size h) (op : Op K V) (hs : op.Safe size h) :
    Reachable size (after size op h) := by
  refine .step hr hs ?_
  unfold after
  cases exec size op h with
  | ok a h' => exact Or.inl rfl
  | error e h' => exact Or.inr ⟨e, rfl⟩

/-- objects 0 (two dofs) and 1 (one dof) -/
def size0 : Nat → Nat := fun k => if k = 0 then 2 else 1

/-- `a = Derivative({o0: [1,2]}); b = Derivative({o0: [3,4], o1: [5]})` -/
def d1 : Heap Nat Int := after size0 (.mk [(0, [1, 2])]) Heap.empty
def d2 : Heap Nat Int := after size0 (.mk [(0, [3, 4]), (1, [5])]) d1

theorem d1_reach : Reachable size0 d1 := reach_after .init _ ⟨by decide, by decide⟩
theorem d2_reach : Reachable size0 d2 := reach_after d1_reach _ ⟨by decide, by decide⟩

/-- an optimizable owning both objects, the second dof of object 0 fixed -/
def blocks0 : List (Block Nat) := [⟨[0], true, [true, false]⟩, ⟨[1], true, [true]⟩]

theorem blocks0_ok : BlocksOK size0 blocks0 := by unfold BlocksOK; decide

example : Gradient size0 d2 0 blocks0 [1, 0] ∧ Gradient size0 d2 1 blocks0 [3, 5] := ⟨⟨_, rfl⟩, ⟨_, rfl⟩⟩

example : ∃ r h', add 0 1 d2 = .ok r h' ∧ Gradient size0 h' r blocks0 [4, 5] := by
  obtain ⟨r, h', e, hg⟩ := C14_add d2_reach 0 1 (by decide) (by decide)
  exact ⟨r, h', e, hg blocks0 blocks0_ok [1, 0] [3, 5] ⟨_, rfl⟩ ⟨_, rfl⟩⟩

example : ∃ r h', sum [0, 1, 1] d2 = .ok (some r) h' ∧ Gradient size0 h' r blocks0 [7, 10] := by
  obtain ⟨r, h', e, hg⟩ := C14_sum d2_reach 0 [1, 1] (by decide) (by decide)
  exact ⟨r, h', e, hg blocks0 blocks0_ok (fun j => if j = 0 then [1, 0] else [3, 5]) (by
    intro j hj; simp at hj; rcases hj with rfl | rfl <;> exact ⟨_, rfl⟩)⟩

example : ¬ SharesArray d2 0 1 := C15_no_shared_arrays d2_reach 0 1 (by decide) (by decide) (by decide)

/-- C15 fails for the `as_derivative=True` form: the returned Derivative shares its arrays with the original, so `+=` on the
    result changes the original. -/
theorem C15_as_derivative_aliases_violated : ∃ (h : Heap Nat Int), Reachable size0 h ∧ ∃ i bs r h1 h2, i < h.nder ∧ BlocksOK size0 bs ∧
    callAsDerivative size0 i bs h = .ok r h1 ∧ r ≠ i ∧ SharesArray h1 r i ∧ iadd r r h1 = .ok r h2 ∧
    value h2 i 0 ≠ value h i 0 := by
  refine ⟨d2, d2_reach, 0, blocks0, _, _, _, by decide, blocks0_ok, rfl, by decide, ?_, rfl, by decide⟩
  exact ⟨_, List.mem_cons_self, _, List.mem_cons_self, rfl⟩

/-- C15 fails for the one-element `sum`: `sum([a])` is `a` itself, so `s = sum([a]); s += b` changes `a`. -/
theorem C15_sum_singleton_violated : ∃ (h : Heap Nat Int), Reachable size0 h ∧ ∃ i h' h2, i < h.nder ∧ sum [i] h = .ok (some i) h' ∧
    iadd i 1 h' = .ok i h2 ∧ value h2 i 0 ≠ value h i 0 := by
  exact ⟨d2, d2_reach, 0, _, _, by decide, rfl, rfl, by decide⟩

end Simsopt.Deriv
