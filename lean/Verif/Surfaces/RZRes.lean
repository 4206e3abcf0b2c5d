import Verif.Surfaces.RZSym
/-!
# C69: change of resolution, copies, and the caches of the arrays
-/
namespace Simsopt.RZSurf
open Simsopt Simsopt.Coils

theorem coef_val (s : Surf) (k : Kind) (m : Nat) (n : Int) (hm : m ≤ s.mpol) (h1 : -(s.ntor : Int) ≤ n) (h2 : n ≤ s.ntor) :
    coef s k m n = if available s k then s.at k m (n + s.ntor).toNat else 0 := by
  have h := coef_at s k m (n + s.ntor).toNat (by omega) (by simp only [Surf.width]; omega)
  rw [show ((n + s.ntor).toNat : Int) - s.ntor = n by omega] at h
  exact h

theorem coef_not_available (s : Surf) (k : Kind) (m : Nat) (n : Int) (h : available s k = false) : coef s k m n = 0 := by
  simp [coef, getCoef, h]

theorem changeRes_coef (s : Surf) (mpol ntor : Nat) (k : Kind) (m : Nat) (n : Int) :
    coef (changeRes s mpol ntor) k m n = if m ≤ mpol ∧ -(ntor : Int) ≤ n ∧ n ≤ ntor then coef s k m n else 0 := by
  obtain ⟨g1, g2, g3, g4⟩ := changeRes_params s mpol ntor
  have hav : available (changeRes s mpol ntor) k = available s k := by cases k <;> simp [available, g4]
  by_cases h : m ≤ mpol ∧ -(ntor : Int) ≤ n ∧ n ≤ ntor
  · rw [if_pos h, coef_val _ k m n (by omega) (by omega) (by omega), hav]
    cases ha : available s k with
    | false => rw [coef_not_available s k m n ha]; rfl
    | true =>
      simp only [if_true]
      rw [changeRes_at s mpol ntor k m _ (by rw [g2]; omega), g2]
      have e : (((n + ntor).toNat : Nat) : Int) - ntor = n := by omega
      rw [e]
      by_cases h' : m ≤ s.mpol ∧ -(s.ntor : Int) ≤ n ∧ n ≤ s.ntor
      · rw [if_pos ⟨ha, h.1, h'⟩, coef_val s k m n h'.1 h'.2.1 h'.2.2, ha, if_pos rfl]
      · rw [if_neg (fun hh => h' hh.2.2), coef_out s k m n h']
  · rw [if_neg h, coef_out]
    rw [g1, g2]; exact h

/-- **C69.** `change_resolution(mpol, ntor)`: the surface keeps `nfp` and `stellsym`; `get_rc`, `get_rs`, `get_zc`, `get_zs` answer exactly for the modes of the new range, with the old
amplitude if the mode was in the old range and with 0 otherwise. -/
theorem C69_change_resolution (s : Surf) (mpol ntor : Nat) (k : Kind) (m : Nat) (n : Int) :
    let t := changeRes s mpol ntor
    (t.mpol = mpol ∧ t.ntor = ntor ∧ t.nfp = s.nfp ∧ t.stellsym = s.stellsym) ∧
    getCoef t k m n = if available s k = true ∧ m ≤ mpol ∧ -(ntor : Int) ≤ n ∧ n ≤ ntor then some ((getCoef s k m n).getD 0) else none := by
  intro t
  have hp := changeRes_params s mpol ntor
  refine ⟨hp, ?_⟩
  have hc := changeRes_coef s mpol ntor k m n
  have hav : available t k = available s k := by cases k <;> simp [available, t, hp.2.2.2]
  have hv : validMn t m n = true ↔ (m ≤ mpol ∧ -(ntor : Int) ≤ n ∧ n ≤ ntor) := by
    simp [validMn, t, hp.1, hp.2.1]; omega
  by_cases h : available s k = true ∧ m ≤ mpol ∧ -(ntor : Int) ≤ n ∧ n ≤ ntor
  · rw [if_pos h]
    rw [if_pos h.2] at hc
    have e : getCoef t k m n = some (coef t k m n) := by
      simp [coef, getCoef, hav, h.1, hv.mpr h.2]
    rw [e, hc]; rfl
  · rw [if_neg h]
    simp only [getCoef, hav]
    rw [if_neg]
    simp only [Bool.and_eq_true]
    exact fun hh => h ⟨hh.1, hv.mp hh.2⟩

/-- **C69.** Enlarging the resolution leaves the shape as it is: position, tangents and second derivatives at every point. -/
theorem C69_enlarge (s : Surf) (mpol ntor : Nat) (hm : s.mpol ≤ mpol) (hn : s.ntor ≤ ntor) (junk junk' : Nat → ℝ × ℝ) (f : Fam) (p q : ℝ) :
    value (changeRes s mpol ntor) junk f p q = value s junk' f p q := by
  apply value_of_coef _ _ (changeRes_params s mpol ntor).2.2.1
  intro k m n
  rw [changeRes_coef]
  split
  · rfl
  · rename_i h; exact (coef_out s k m n (by omega)).symm

/-- **C69.** Going to a larger resolution and back restores all the amplitudes, and so the dof vector. -/
theorem C69_there_and_back (s : Surf) (mpol ntor : Nat) (hm : s.mpol ≤ mpol) (hn : s.ntor ≤ ntor) :
    getDofs (changeRes (changeRes s mpol ntor) s.mpol s.ntor) = getDofs s := by
  set t := changeRes (changeRes s mpol ntor) s.mpol s.ntor with ht
  obtain ⟨g1, g2, g3, g4⟩ := changeRes_params (changeRes s mpol ntor) s.mpol s.ntor
  obtain ⟨_, _, _, h4⟩ := changeRes_params s mpol ntor
  rw [h4] at g4
  have hl : layout t = layout s := layout_congr t s g1 g2 g4
  rw [getDofs_layout, getDofs_layout, hl]
  apply List.map_congr_left
  rintro ⟨k, j⟩ hmem
  obtain ⟨ha, _, hj⟩ := (mem_layout s k j).mp hmem
  have hpm : (s.pos j).1 < s.mpol + 1 := Nat.div_lt_of_lt_mul (by rw [Nat.mul_comm]; exact hj)
  have hpi : (s.pos j).2 < s.width := Nat.mod_lt _ s.width_pos
  have hw : t.width = s.width := by simp only [Surf.width]; rw [ht, g2]
  have hpos : t.pos j = s.pos j := by simp only [Surf.pos, hw]
  have e1 := at_pos t k j
  have e2 := at_pos s k j
  have c1 := coef_at t k (s.pos j).1 (s.pos j).2 (by rw [ht, g1]; exact hpm) (by rw [hw]; exact hpi)
  have c2 := coef_at s k (s.pos j).1 (s.pos j).2 hpm hpi
  have hat : available t k = true := by rw [← ha]; cases k <;> simp [available, ht, g4]
  rw [hat, if_pos rfl, ← hpos, e1] at c1
  rw [ha, if_pos rfl, e2] at c2
  show t.buf k j = s.buf k j
  rw [← c1, ← c2, show t.ntor = s.ntor from g2, ht, changeRes_coef, changeRes_coef, ← ht, hpos]
  have hi2 : (s.pos j).2 < 2 * s.ntor + 1 := hpi
  rw [if_pos (by omega), if_pos (by omega)]

/-- **C69.** `copy()` with the same `nfp` (and the same `stellsym`, or `stellsym=False`) and a resolution that is not smaller has the same shape as the original. -/
theorem C69_copy (s t : Surf) (mpol ntor : Nat) (stellsym : Bool) (hm : s.mpol ≤ mpol) (hn : s.ntor ≤ ntor) (hst : stellsym = s.stellsym ∨ stellsym = false)
    (h : copy s mpol ntor s.nfp stellsym = some t) (junk junk' : Nat → ℝ × ℝ) (f : Fam) (p q : ℝ) :
    (t.mpol = mpol ∧ t.ntor = ntor ∧ t.nfp = s.nfp ∧ t.stellsym = stellsym) ∧ value t junk f p q = value s junk' f p q := by
  by_cases hm1 : 1 ≤ s.mpol
  swap
  · simp [copy, construct, hm1] at h
  rw [copy, construct, if_pos hm1, Option.map_some, Option.some.injEq] at h
  subst h
  set c0 := { create s.mpol s.ntor s.nfp stellsym with rc := s.rc, zs := s.zs } with hc0
  set c : Surf := if s.stellsym then c0 else { c0 with rs := s.rs, zc := s.zc } with hc
  have p1 : c.mpol = s.mpol ∧ c.ntor = s.ntor ∧ c.nfp = s.nfp ∧ c.stellsym = stellsym := by
    rw [hc]; cases s.stellsym <;> exact ⟨rfl, rfl, rfl, rfl⟩
  obtain ⟨g1, g2, g3, g4⟩ := changeRes_params c mpol ntor
  refine ⟨⟨g1, g2, g3.trans p1.2.2.1, g4.trans p1.2.2.2⟩, ?_⟩
  rw [C69_enlarge c mpol ntor (by omega) (by omega) junk junk']
  apply value_of_coef _ _ p1.2.2.1
  intro k m n
  by_cases hr : m ≤ s.mpol ∧ -(s.ntor : Int) ≤ n ∧ n ≤ s.ntor
  · rw [coef_val s k m n hr.1 hr.2.1 hr.2.2, coef_val c k m n (by omega) (by omega) (by omega)]
    have hw : c.width = s.width := by simp [Surf.width, p1.2.1]
    simp only [Surf.at, hw, p1.2.1]
    have hrs : s.stellsym = true → c.rs = (fun _ => 0) ∧ c.zc = (fun _ => 0) := by
      intro h; rw [hc, h]; exact ⟨rfl, rfl⟩
    have hrs' : s.stellsym = false → c.rs = s.rs ∧ c.zc = s.zc := by
      intro h; rw [hc, h]; exact ⟨rfl, rfl⟩
    have hrc : c.rc = s.rc ∧ c.zs = s.zs := by rw [hc]; cases s.stellsym <;> exact ⟨rfl, rfl⟩
    clear_value c
    cases k
    · simp [available, Surf.buf, hrc.1]
    · simp only [available, Surf.buf, p1.2.2.2]
      rcases Bool.eq_false_or_eq_true s.stellsym with hs | hs
      · rw [(hrs hs).1]; simp [hs]
      · rw [(hrs' hs).1]
        rcases hst with h | h <;> simp [h, hs]
    · simp only [available, Surf.buf, p1.2.2.2]
      rcases Bool.eq_false_or_eq_true s.stellsym with hs | hs
      · rw [(hrs hs).2]; simp [hs]
      · rw [(hrs' hs).2]
        rcases hst with h | h <;> simp [h, hs]
    · simp [available, Surf.buf, hrc.2]
  · rw [coef_out s k m n hr, coef_out c k m n (by rw [p1.1, p1.2.1]; exact hr)]

/-- The hypotheses can be met: a surface with `mpol = 2` copied to a larger resolution. -/
example : ∃ t, copy (create 2 1 3 true) 4 5 3 false = some t := by
  simp [copy, construct, create, poke]

/-! ### The caches -/

/-- The cached arrays: the six arrays of the shape and their six Jacobians. -/
inductive Key | arr (f : Fam) | jac (f : Fam)
  deriving DecidableEq

/-- The arrays kept in `cache_persistent` (surface.h L186-194). -/
def persistent : Key → Bool
  | .jac .g => true | .jac .g1 => true | .jac .g2 => true | _ => false

/-- An array in a cache, per quadrature point a list of 3-vectors: one for the shape arrays, one per dof for the Jacobians. -/
structure Cached where
  status : Bool
  data : List (List V3)

/-- A surface object: coefficients, quadrature points, caches (surface.h L30-31; `none`: key not found). -/
structure Obj where
  s : Surf
  pts : List (ℝ × ℝ)
  junk : Nat → ℝ × ℝ
  cache : Key → Option Cached

/-- What a freshly allocated array contains after `impl`. -/
noncomputable def fresh (s : Surf) (junk : Nat → ℝ × ℝ) (pts : List (ℝ × ℝ)) : Key → List (List V3)
  | .arr f => pts.map fun pq => [value s junk f pq.1 pq.2]
  | .jac f => pts.map fun pq => jacobian s f pq.1 pq.2

/-- Running `impl` on an already allocated array: the entries it writes are those of the fresh array; if the array has more columns than the number of dofs, the rest of it stays;
`none`: a write outside of the array. -/
noncomputable def refill (o : Obj) (k : Key) (old : List (List V3)) : Option (List (List V3)) :=
  let new := fresh o.s o.junk o.pts k
  if (List.zip new old).all fun no => no.1.length ≤ no.2.length then some (List.zipWith (fun n old => n ++ old.drop n.length) new old) else none

def Obj.store (o : Obj) (k : Key) (d : List (List V3)) : Obj := { o with cache := Function.update o.cache k (some ⟨true, d⟩) }

/-- `check_the_cache` and `check_the_persistent_cache` (surface.h L34-56). -/
noncomputable def readKey (o : Obj) (k : Key) : Option (List (List V3) × Obj) :=
  match o.cache k with
  | none => let d := fresh o.s o.junk o.pts k; some (d, o.store k d)
  | some c =>
    if c.status then some (c.data, o) else (refill o k c.data).map fun d => (d, o.store k d)

/-- `invalidate_cache` (surface.h L89-94). -/
def Obj.invalidate (o : Obj) : Obj :=
  { o with cache := fun k => if persistent k then o.cache k else (o.cache k).map fun c => ⟨false, c.data⟩ }

/-- Replacing the coefficients. -/
def Obj.withSurf (o : Obj) (s : Surf) : Obj := { o with s := s }

/-- The calls of a user.  Every change of the coefficients ends with `recompute_bell`, i.e. `invalidate_cache` (surfacerzfourier.py L93-94, L674-710, L738-739, L615 through `replace_dofs`). -/
inductive Call | setDofs (d : List ℝ) | setCoef (k : Kind) (m n : Int) (v : ℝ) | changeRes (mpol ntor : Nat) | read (k : Key)

noncomputable def call (o : Obj) : Call → Option Obj
  | .setDofs d => some (o.withSurf (setDofs o.s d)).invalidate
  | .setCoef k m n v => (setCoef o.s k m n v).map fun t => (o.withSurf t).invalidate
  | .changeRes mpol ntor => some (o.withSurf (changeRes o.s mpol ntor)).invalidate
  | .read k => (readKey o k).map fun x => x.2

noncomputable def calls (o : Obj) : List Call → Option Obj
  | [] => some o
  | c :: l => (call o c).bind fun o => calls o l

/-- A new object: nothing is cached. -/
def newObj (s : Surf) (pts : List (ℝ × ℝ)) (junk : Nat → ℝ × ℝ) : Obj := ⟨s, pts, junk, fun _ => none⟩

/-- The invariant for the arrays of the shape. -/
def ShapeOK (o : Obj) : Prop := ∀ f c, o.cache (.arr f) = some c → (c.data.map List.length = o.pts.map fun _ => 1) ∧ (c.status = true → c.data = fresh o.s o.junk o.pts (.arr f))

/-- The invariant for the Jacobians. -/
def JacOK (o : Obj) : Prop := ∀ f c, o.cache (.jac f) = some c →
  (c.data.map List.length = (fresh o.s o.junk o.pts (.jac f)).map List.length) ∧ (c.status = true ∨ persistent (.jac f) = true → c.data = fresh o.s o.junk o.pts (.jac f)) ∧ (persistent (.jac f) = true → c.status = true)

theorem refill_same (o : Obj) (k : Key) (old : List (List V3)) (h : old.map List.length = (fresh o.s o.junk o.pts k).map List.length) : refill o k old = some (fresh o.s o.junk o.pts k) := by
  unfold refill
  generalize fresh o.s o.junk o.pts k = new at h
  have h1 : ((List.zip new old).all fun no => no.1.length ≤ no.2.length) = true := by
    induction new generalizing old with
    | nil => simp
    | cons a new ih =>
      cases old with
      | nil => simp
      | cons b old =>
        simp only [List.map_cons, List.cons.injEq] at h
        simp only [List.zip_cons_cons, List.all_cons, ih old h.2, h.1]; simp
  have h2 : List.zipWith (fun n old => n ++ old.drop n.length) new old = new := by
    induction new generalizing old with
    | nil => simp
    | cons a new ih =>
      cases old with
      | nil => simp at h
      | cons b old =>
        simp only [List.map_cons, List.cons.injEq] at h
        simp only [List.all_cons, List.zip_cons_cons, Bool.and_eq_true] at h1
        simp only [List.zipWith_cons_cons, ih old h.2 h1.2, ← h.1]; simp
  simp only [h1, if_true, h2]

theorem fresh_arr_len (s : Surf) (junk : Nat → ℝ × ℝ) (pts : List (ℝ × ℝ)) (f : Fam) : (fresh s junk pts (.arr f)).map List.length = pts.map fun _ => 1 := by
  simp only [fresh, List.map_map]; rfl

theorem store_fields (o : Obj) (k : Key) (d : List (List V3)) : (o.store k d).s = o.s ∧ (o.store k d).pts = o.pts ∧ (o.store k d).junk = o.junk := ⟨rfl, rfl, rfl⟩

theorem read_shape (o : Obj) (h : ShapeOK o) (f : Fam) : ∃ o', readKey o (.arr f) = some (fresh o.s o.junk o.pts (.arr f), o') := by
  unfold readKey
  cases hc : o.cache (.arr f) with
  | none => exact ⟨_, rfl⟩
  | some c =>
    obtain ⟨h1, h2⟩ := h f c hc
    cases hs : c.status with
    | true => simp only [hs, if_true]; exact ⟨o, by rw [h2 hs]⟩
    | false =>
      simp only [hs, Bool.false_eq_true, if_false]
      rw [refill_same o _ _ (by rw [h1, fresh_arr_len])]
      exact ⟨_, rfl⟩

theorem read_jac (o : Obj) (h : JacOK o) (f : Fam) : ∃ o', readKey o (.jac f) = some (fresh o.s o.junk o.pts (.jac f), o') := by
  unfold readKey
  cases hc : o.cache (.jac f) with
  | none => exact ⟨_, rfl⟩
  | some c =>
    obtain ⟨h1, h2, h3⟩ := h f c hc
    cases hs : c.status with
    | true => simp only [hs, if_true]; exact ⟨o, by rw [h2 (Or.inl hs)]⟩
    | false =>
      simp only [hs, Bool.false_eq_true, if_false]
      rw [refill_same o _ _ h1]
      exact ⟨_, rfl⟩

theorem read_out (o o' : Obj) (k : Key) (d : List (List V3)) (h : readKey o k = some (d, o')) : o' = o ∨ o' = o.store k d := by
  unfold readKey at h
  split at h
  · simp only [Option.some.injEq, Prod.mk.injEq] at h; right; rw [← h.2, h.1]
  · split at h
    · simp only [Option.some.injEq, Prod.mk.injEq] at h; left; exact h.2.symm
    · rename_i c hc _
      cases hr : refill o k c.data with
      | none => rw [hr] at h; simp at h
      | some x => rw [hr] at h; simp only [Option.map_some, Option.some.injEq, Prod.mk.injEq] at h; right; rw [← h.2, h.1]

theorem shapeOK_step (o o' : Obj) (c : Call) (h : ShapeOK o) (hc : call o c = some o') : ShapeOK o' := by
  have hinv : ∀ s, ShapeOK (o.withSurf s).invalidate := by
    intro s f c hc
    simp only [Obj.invalidate, Obj.withSurf, persistent, Bool.false_eq_true, if_false, Option.map_eq_some_iff] at hc
    obtain ⟨c0, hc0, rfl⟩ := hc
    exact ⟨(h f c0 hc0).1, fun hh => absurd hh (by simp)⟩
  cases c with
  | setDofs d => simp only [call, Option.some.injEq] at hc; subst hc; exact hinv _
  | setCoef k m n v =>
    simp only [call, Option.map_eq_some_iff] at hc
    obtain ⟨t, _, rfl⟩ := hc; exact hinv _
  | changeRes a b => simp only [call, Option.some.injEq] at hc; subst hc; exact hinv _
  | read k =>
    simp only [call, Option.map_eq_some_iff] at hc
    obtain ⟨⟨d, o1⟩, hr, rfl⟩ := hc
    rcases read_out o o1 k d hr with rfl | rfl
    · exact h
    · intro f c hc
      by_cases hk : k = .arr f
      · subst hk
        obtain ⟨o2, h2⟩ := read_shape o h f
        rw [hr] at h2
        simp only [Option.some.injEq, Prod.mk.injEq] at h2
        simp only [Obj.store, Function.update_self, Option.some.injEq] at hc
        subst hc
        rw [h2.1]
        exact ⟨fresh_arr_len _ _ _ _, fun _ => rfl⟩
      · simp only [Obj.store, Function.update_of_ne (fun h => hk h.symm)] at hc
        exact h f c hc

/-- **C69.** After any history of dof assignments, setter calls, changes of resolution and evaluations, reading one of `gamma`, `gammadash1`, `gammadash2`, `gammadash1dash1`,
`gammadash1dash2`, `gammadash2dash2` succeeds and gives the values for the current coefficients, at all the quadrature points. -/
theorem C69_shape_current (s : Surf) (pts : List (ℝ × ℝ)) (junk : Nat → ℝ × ℝ) (l : List Call) (o : Obj) (h : calls (newObj s pts junk) l = some o) (f : Fam) :
    ∃ o', readKey o (.arr f) = some (pts.map fun pq => [value o.s junk f pq.1 pq.2], o') := by
  have key : ∀ (l : List Call) (a : Obj), ShapeOK a → a.pts = pts → a.junk = junk → calls a l = some o → ShapeOK o ∧ o.pts = pts ∧ o.junk = junk := by
    intro l
    induction l with
    | nil => intro a h1 h2 h3 h4; simp only [calls, Option.some.injEq] at h4; subst h4; exact ⟨h1, h2, h3⟩
    | cons c l ih =>
      intro a h1 h2 h3 h4
      simp only [calls] at h4
      cases hc : call a c with
      | none => rw [hc] at h4; simp at h4
      | some b =>
        rw [hc] at h4
        have hb : b.pts = a.pts ∧ b.junk = a.junk := by
          cases c with
          | setDofs d => simp only [call, Option.some.injEq] at hc; subst hc; exact ⟨rfl, rfl⟩
          | setCoef k m n v =>
            simp only [call, Option.map_eq_some_iff] at hc
            obtain ⟨t, _, rfl⟩ := hc; exact ⟨rfl, rfl⟩
          | changeRes x y => simp only [call, Option.some.injEq] at hc; subst hc; exact ⟨rfl, rfl⟩
          | read k =>
            simp only [call, Option.map_eq_some_iff] at hc
            obtain ⟨⟨d, o1⟩, hr, rfl⟩ := hc
            rcases read_out a o1 k d hr with rfl | rfl <;> exact ⟨rfl, rfl⟩
        exact ih b (shapeOK_step a b c h1 hc) (hb.1.trans h2) (hb.2.trans h3) h4
  obtain ⟨h1, h2, h3⟩ := key l (newObj s pts junk) (fun f c hc => by simp [newObj] at hc) rfl rfl h
  obtain ⟨o', ho'⟩ := read_shape o h1 f
  exact ⟨o', by rw [ho', h2, h3]; rfl⟩

def Call.isChangeRes : Call → Bool | .changeRes _ _ => true | _ => false

theorem fresh_jac_congr (s t : Surf) (junk : Nat → ℝ × ℝ) (pts : List (ℝ × ℝ)) (f : Fam) (h : ∀ p q, jacobian s f p q = jacobian t f p q) :
    fresh s junk pts (.jac f) = fresh t junk pts (.jac f) := by
  simp only [fresh, h]

theorem jacobian_poke (s : Surf) (k : Kind) (m : Nat) (n : Int) (v : ℝ) (f : Fam) (p q : ℝ) : jacobian (poke s k m n v) f p q = jacobian s f p q := by
  cases k <;> rfl

theorem jacOK_step (o o' : Obj) (c : Call) (h : JacOK o) (hn : c.isChangeRes = false) (hc : call o c = some o') : JacOK o' := by
  have hinv : ∀ t, (∀ f p q, jacobian t f p q = jacobian o.s f p q) → JacOK (o.withSurf t).invalidate := by
    intro t ht f c hc
    have ef : fresh (o.withSurf t).invalidate.s (o.withSurf t).invalidate.junk (o.withSurf t).invalidate.pts (.jac f) = fresh o.s o.junk o.pts (.jac f) :=
      fresh_jac_congr t o.s o.junk o.pts f (ht f)
    rw [ef]
    simp only [Obj.invalidate, Obj.withSurf] at hc
    by_cases hp : persistent (.jac f) = true
    · rw [if_pos hp] at hc
      exact h f c hc
    · rw [if_neg hp, Option.map_eq_some_iff] at hc
      obtain ⟨c0, hc0, rfl⟩ := hc
      exact ⟨(h f c0 hc0).1, fun hh => by simp [hp] at hh, fun hh => absurd hh hp⟩
  cases c with
  | setDofs d => simp only [call, Option.some.injEq] at hc; subst hc; exact hinv _ (fun f p q => jacobian_setDofs _ _ _ _ _)
  | setCoef k m n v =>
    simp only [call, Option.map_eq_some_iff] at hc
    obtain ⟨t, ht, rfl⟩ := hc
    rw [setCoef_eq] at ht
    split at ht
    · simp only [Option.some.injEq] at ht; subst ht; exact hinv _ (fun f p q => jacobian_poke _ _ _ _ _ _ _ _)
    · simp at ht
  | changeRes a b => simp [Call.isChangeRes] at hn
  | read k =>
    simp only [call, Option.map_eq_some_iff] at hc
    obtain ⟨⟨d, o1⟩, hr, rfl⟩ := hc
    rcases read_out o o1 k d hr with rfl | rfl
    · exact h
    · intro f c hc
      by_cases hk : k = .jac f
      · subst hk
        obtain ⟨o2, h2⟩ := read_jac o h f
        rw [hr] at h2
        simp only [Option.some.injEq, Prod.mk.injEq] at h2
        simp only [Obj.store, Function.update_self, Option.some.injEq] at hc
        subst hc
        rw [h2.1]
        exact ⟨rfl, fun _ => rfl, fun _ => rfl⟩
      · simp only [Obj.store, Function.update_of_ne (fun h => hk h.symm)] at hc
        exact h f c hc

/-- **C69.** As long as the resolution is not changed, the same holds for the Jacobians with respect to the dofs (`dgamma_by_dcoeff`, ...): one 3-vector per dof, the derivative with
respect to that dof (C67). -/
theorem C69_jacobian_current (s : Surf) (pts : List (ℝ × ℝ)) (junk : Nat → ℝ × ℝ) (l : List Call) (hl : ∀ c ∈ l, c.isChangeRes = false) (o : Obj)
    (h : calls (newObj s pts junk) l = some o) (f : Fam) :
    ∃ o', readKey o (.jac f) = some (pts.map fun pq => jacobian o.s f pq.1 pq.2, o') := by
  have key : ∀ (l : List Call) (a : Obj), (∀ c ∈ l, c.isChangeRes = false) → JacOK a → a.pts = pts → calls a l = some o → JacOK o ∧ o.pts = pts := by
    intro l
    induction l with
    | nil => intro a _ h1 h2 h4; simp only [calls, Option.some.injEq] at h4; subst h4; exact ⟨h1, h2⟩
    | cons c l ih =>
      intro a hl h1 h2 h4
      simp only [calls] at h4
      cases hc : call a c with
      | none => rw [hc] at h4; simp at h4
      | some b =>
        rw [hc] at h4
        have hb : b.pts = a.pts := by
          cases c with
          | setDofs d => simp only [call, Option.some.injEq] at hc; subst hc; rfl
          | setCoef k m n v =>
            simp only [call, Option.map_eq_some_iff] at hc
            obtain ⟨t, _, rfl⟩ := hc; rfl
          | changeRes x y => simp only [call, Option.some.injEq] at hc; subst hc; rfl
          | read k =>
            simp only [call, Option.map_eq_some_iff] at hc
            obtain ⟨⟨d, o1⟩, hr, rfl⟩ := hc
            rcases read_out a o1 k d hr with rfl | rfl <;> rfl
        exact ih b (fun c hc => hl c (List.mem_cons_of_mem _ hc)) (jacOK_step a b c h1 (hl c List.mem_cons_self) hc) (hb.trans h2) h4
  obtain ⟨h1, h2⟩ := key l (newObj s pts junk) hl (fun f c hc => by simp [newObj] at hc) rfl h
  obtain ⟨o', ho'⟩ := read_jac o h1 f
  exact ⟨o', by rw [ho', h2]; rfl⟩

/-- **C69, violated.** After `change_resolution`, `dgamma_by_dcoeff()` still has the columns of the old resolution: with one quadrature point, `mpol` changed from 1 to 2, `dgamma_by_dcoeff` has
3 columns although the surface has 5 dofs, so every quantity differentiated through it is wrong or fails. -/
theorem C69_stale_jacobian_violated : ∃ o o' d, construct 1 0 1 true = some (create 1 0 1 true) ∧
    calls (newObj (create 1 0 1 true) [(0, 0)] fun _ => (0, 0)) [.read (.jac .g), .changeRes 2 0] = some o ∧
    readKey o (.jac .g) = some (d, o') ∧ (getDofs o.s).length = 5 ∧ d.map List.length = [3] := by
  refine ⟨_, _, _, by simp [construct], rfl, rfl, ?_, ?_⟩
  · have h := C65_lengths (changeRes (create 1 0 1 true) 2 0)
    have hp := changeRes_params (create 1 0 1 true) 2 0
    have : (changeRes (create 1 0 1 true) 2 0).numDofs = 5 := by
      simp only [Surf.numDofs, hp.1, hp.2.1, hp.2.2.2, create, poke]
      decide
    show (getDofs (changeRes (create 1 0 1 true) 2 0)).length = 5
    omega
  · show (fresh (create 1 0 1 true) (fun _ => (0, 0)) [(0, 0)] (.jac .g)).map List.length = [3]
    have h := (C67_jacobian_constant (create 1 0 1 true) .g 0 0 []).1
    have : (create 1 0 1 true).numDofs = 3 := by decide
    simp only [fresh, List.map_cons, List.map_nil, List.cons.injEq, and_true]
    omega

theorem readKey_again (o : Obj) (k : Key) (c : Cached) (hc : o.cache k = some c) (hs : c.status = false) :
    readKey o k = (refill o k c.data).map fun d => (d, o.store k d) := by
  unfold readKey
  rw [hc]
  simp only [hs, Bool.false_eq_true, if_false]

/-- A second way to fail: a Jacobian in the ordinary cache is recomputed into the array of the old size; after enlarging the resolution the writes go out of the array. -/
theorem C69_overrun_violated : ∃ o, calls (newObj (create 1 0 1 true) [(0, 0)] fun _ => (0, 0)) [.read (.jac .g11), .changeRes 2 0] = some o ∧ readKey o (.jac .g11) = none := by
  refine ⟨_, rfl, ?_⟩
  have hp := changeRes_params (create 1 0 1 true) 2 0
  have h1 := (C67_jacobian_constant (changeRes (create 1 0 1 true) 2 0) .g11 0 0 []).1
  have h2 := (C67_jacobian_constant (create 1 0 1 true) .g11 0 0 []).1
  have n1 : (changeRes (create 1 0 1 true) 2 0).numDofs = 5 := by
    simp only [Surf.numDofs, hp.1, hp.2.1, hp.2.2.2, create, poke]
    decide
  have n2 : (create 1 0 1 true).numDofs = 3 := by decide
  rw [readKey_again _ _ ⟨false, fresh (create 1 0 1 true) (fun _ => (0, 0)) [(0, 0)] (.jac .g11)⟩ (by simp [Obj.invalidate, Obj.withSurf, Obj.store, persistent, newObj]) rfl,
    Option.map_eq_none_iff]
  simp only [refill, fresh, List.map_cons, List.map_nil, Obj.invalidate, Obj.withSurf, Obj.store, newObj, List.zip_cons_cons, List.all_cons]
  rw [if_neg]
  simp
  omega

end Simsopt.RZSurf
