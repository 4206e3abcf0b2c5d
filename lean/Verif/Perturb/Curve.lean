import Verif.PyList
import Mathlib.Analysis.Calculus.Deriv.Add
import Mathlib.Analysis.Calculus.Deriv.Mul
/-!
# C156: PerturbationSample and CurvePerturbed

Model of `PerturbationSample` (src/simsopt/geo/curveperturbed.py L95-132) and `CurvePerturbed` (L135-214), with the cache of a curve (src/simsoptpp/curve.h `check_the_cache`, C39) as one optional array per derivative.
An array is an element of any additive group `Q` (a `(n, 3)` array of reals).  The base curve always returns the array of its present dofs (C39).  A dependent is any object with a value computed from the curves' arrays and kept
until its bell rings (for instance the field of a coil, C40).  The draws are arbitrary.
-/
namespace Simsopt.Perturb

variable {Q : Type} [AddGroup Q]

/-- The state: `base c k` is the `k`-th derivative of the base curve of the perturbed curve `c`, `smp c` the sample object of `c`, `sample s` the list of arrays of the sample object `s`, `cache c k` the cached array,
`dep c` what a dependent of `c` computed. -/
structure CWorld (Q : Type) where
  base : Nat → Nat → Q
  smp : Nat → Nat
  sample : Nat → List Q
  cache : Nat → Nat → Option Q
  dep : Nat → Option Q

/-- `sample[deriv]` (L119-132); `none` is the `ValueError`. -/
def getSample (l : List Q) (k : Nat) : Option Q := if k ≥ l.length then none else l[k]?

/-- What `gamma_impl`, `gammadash_impl`, ... compute (L187-199). -/
def impl (w : CWorld Q) (c k : Nat) : Option Q := (getSample (w.sample (w.smp c)) k).map fun s => w.base c k + s

/-- `gamma()`, `gammadash()`, ... : the cached array or, if there is none, a new one, which is kept; a failure leaves the cache as it is (curve.h). -/
def read (w : CWorld Q) (c k : Nat) : Option Q × CWorld Q :=
  match w.cache c k with
  | some a => (some a, w)
  | none =>
    match impl w c k with
    | none => (none, w)
    | some a => (some a, { w with cache := fun c' k' => if c' = c ∧ k' = k then some a else w.cache c' k' })

/-- `invalidate_cache` of a curve. -/
def invalidate (w : CWorld Q) (c : Nat) : CWorld Q := { w with cache := fun c' k => if c' = c then none else w.cache c' k }

/-- New dofs of the base curve of `c`: the bell rings `recompute_bell` of `c` (L184-185) and of its dependents (C09). -/
def setBase (w : CWorld Q) (c : Nat) (b : Nat → Q) : CWorld Q :=
  let w1 := { w with base := fun c' k => if c' = c then b k else w.base c' k }
  let w2 := invalidate w1 c
  { w2 with dep := fun c' => if c' = c then none else w2.dep c' }

/-- `PerturbationSample.resample` (L116-117). -/
def resampleSample (w : CWorld Q) (s : Nat) (draw : List Q) : CWorld Q := { w with sample := fun s' => if s' = s then draw else w.sample s' }

/-- `CurvePerturbed.resample` (L180-182): the sample's `resample`, then `self.recompute_bell()`, which is not passed on to dependents. -/
def resample (w : CWorld Q) (c : Nat) (draw : List Q) : CWorld Q := invalidate (resampleSample w (w.smp c) draw) c

/-- A dependent that uses `gamma()` of `c` and keeps what it computed (here the array itself). -/
def readDep (w : CWorld Q) (c : Nat) : Option Q × CWorld Q :=
  match w.dep c with
  | some a => (some a, w)
  | none =>
    match read w c 0 with
    | (none, w') => (none, w')
    | (some a, w') => (some a, { w' with dep := fun c' => if c' = c then some a else w'.dep c' })

/-- What a user can do. -/
inductive CEvent (Q : Type) where
  | setBase (c : Nat) (b : Nat → Q)
  | resample (c : Nat) (draw : List Q)
  | read (c k : Nat)

/-- The effect. -/
def cstep (w : CWorld Q) : CEvent Q → CWorld Q
  | .setBase c b => setBase w c b
  | .resample c d => resample w c d
  | .read c k => (read w c k).2

/-- Every cached array is the present one. -/
def Fresh (w : CWorld Q) : Prop := ∀ c k a, w.cache c k = some a → ∃ s, (w.sample (w.smp c))[k]? = some s ∧ a = w.base c k + s

theorem getSample_eq (l : List Q) (k : Nat) : getSample l k = l[k]? := by
  by_cases h : k ≥ l.length
  · rw [getSample, if_pos h, List.getElem?_eq_none h]
  · rw [getSample, if_neg h]

theorem fresh_step (w : CWorld Q) (hinj : ∀ c c', w.smp c = w.smp c' → c = c') (e : CEvent Q) (h : Fresh w) : Fresh (cstep w e) ∧ (cstep w e).smp = w.smp := by
  cases e with
  | setBase c b =>
    refine ⟨?_, rfl⟩
    intro c' k a hc
    simp only [cstep, setBase, invalidate] at hc ⊢
    by_cases hcc : c' = c
    · simp [hcc] at hc
    · simp only [hcc, if_false] at hc ⊢
      exact h c' k a hc
  | resample c d =>
    refine ⟨?_, rfl⟩
    intro c' k a hc
    simp only [cstep, resample, invalidate, resampleSample] at hc ⊢
    by_cases hcc : c' = c
    · simp [hcc] at hc
    · simp only [hcc, if_false] at hc
      have : w.smp c' ≠ w.smp c := fun hs => hcc (hinj _ _ hs)
      simp only [this, if_false]
      exact h c' k a hc
  | read c k =>
    have key : ∀ w', (read w c k).2 = w' → w'.smp = w.smp ∧ Fresh w' := by
      intro w' hw
      simp only [read] at hw
      cases hc : w.cache c k with
      | some a => rw [hc] at hw; subst hw; exact ⟨rfl, h⟩
      | none =>
        rw [hc] at hw
        cases hi : impl w c k with
        | none => rw [hi] at hw; subst hw; exact ⟨rfl, h⟩
        | some a =>
          rw [hi] at hw
          subst hw
          refine ⟨rfl, ?_⟩
          intro c' k' a' hc'
          simp only at hc' ⊢
          by_cases hcc : c' = c ∧ k' = k
          · simp only [hcc, and_self, if_true, Option.some.injEq] at hc'
            subst hc'
            rw [hcc.1, hcc.2]
            simp only [impl, getSample_eq, Option.map_eq_some_iff] at hi
            obtain ⟨s, hs, ha⟩ := hi
            exact ⟨s, hs, ha.symm⟩
          · simp only [hcc, if_false] at hc'
            exact h c' k' a' hc'
    exact ⟨(key _ rfl).2, (key _ rfl).1⟩

/-- Histories from empty caches. -/
inductive CHist (w0 : CWorld Q) : CWorld Q → Prop where
  | start (h : ∀ c k, w0.cache c k = none) : CHist w0 w0
  | step (w : CWorld Q) (e : CEvent Q) (h : CHist w0 w) : CHist w0 (cstep w e)

theorem hist_fresh (w0 w : CWorld Q) (hinj : ∀ c c', w0.smp c = w0.smp c' → c = c') (h : CHist w0 w) : Fresh w ∧ w.smp = w0.smp := by
  induction h with
  | start h => exact ⟨by intro c k a hc; rw [h c k] at hc; exact absurd hc (by simp), rfl⟩
  | step w e _ ih =>
    have := fresh_step w (by rw [ih.2]; exact hinj) e ih.1
    exact ⟨this.1, by rw [this.2, ih.2]⟩

/-- **C156.** Each curve with a sample of its own: in every history of new base dofs, calls of the curve's `resample` and evaluations, the `k`-th derivative of a perturbed curve is the base curve's present one plus the sample's
present one, and asking for a derivative that was not sampled always raises. -/
theorem C156_value (w0 w : CWorld Q) (hinj : ∀ c c', w0.smp c = w0.smp c' → c = c') (h : CHist w0 w) (c k : Nat) :
    (∀ s, (w.sample (w.smp c))[k]? = some s → (read w c k).1 = some (w.base c k + s)) ∧
    ((w.sample (w.smp c)).length ≤ k → (read w c k).1 = none) := by
  have hf := (hist_fresh w0 w hinj h).1
  have hi : impl w c k = ((w.sample (w.smp c))[k]?).map fun s => w.base c k + s := by rw [impl, getSample_eq]
  constructor
  · intro s hs
    simp only [read]
    cases hc : w.cache c k with
    | some a =>
      obtain ⟨s', hs', ha⟩ := hf c k a hc
      rw [hs] at hs'
      simp only [Option.some.injEq] at hs'
      rw [ha, hs']
    | none => rw [hi, hs]; rfl
  · intro hk
    have hn : (w.sample (w.smp c))[k]? = none := List.getElem?_eq_none hk
    simp only [read]
    cases hc : w.cache c k with
    | some a =>
      obtain ⟨s', hs', _⟩ := hf c k a hc
      rw [hn] at hs'; exact absurd hs' (by simp)
    | none => rw [hi, hn]; rfl

/-- **C156.** The vector-Jacobian products of the base curve are those of the perturbed curve (L201-214): if `g` is the derivative in a dof of `⟨v, base array⟩`, it is that of `⟨v, perturbed array⟩`. -/
theorem C156_vjp {ι : Type} [Fintype ι] (v s : ι → ℝ) (b : ℝ → ι → ℝ) (g t : ℝ) (h : HasDerivAt (fun x => ∑ i, v i * b x i) g t) :
    HasDerivAt (fun x => ∑ i, v i * (b x i + s i)) g t := by
  have e : (fun x => ∑ i, v i * (b x i + s i)) = fun x => ∑ i, v i * b x i + ∑ i, v i * s i := by
    funext x; rw [← Finset.sum_add_distrib]; exact Finset.sum_congr rfl fun i _ => by ring
  rw [e]
  exact h.add_const _

/-- **C156, violated.** Two curves with one sample (the documented use): after both were evaluated, `resample()` on the first leaves the second with the old perturbation, whatever the draws, unless they agree. -/
theorem C156_shared_violated (w : CWorld Q) (c c' : Nat) (hne : c' ≠ c) (hs : w.smp c' = w.smp c) (hfr : w.cache c' 0 = none) (p d : Q) (ps ds : List Q)
    (hold : w.sample (w.smp c) = p :: ps) (hd : d ≠ p) :
    let w1 := (read w c' 0).2
    let w2 := resample w1 c (d :: ds)
    (read w2 c' 0).1 = some (w.base c' 0 + p) ∧ (read w2 c' 0).1 ≠ some (w2.base c' 0 + d) ∧ (w2.sample (w2.smp c'))[0]? = some d ∧ (read w2 c 0).1 = some (w2.base c 0 + d) := by
  intro w1 w2
  have hi : impl w c' 0 = some (w.base c' 0 + p) := by simp [impl, getSample_eq, hs, hold]
  have h1 : w1 = { w with cache := fun a k => if a = c' ∧ k = 0 then some (w.base c' 0 + p) else w.cache a k } := by
    simp only [w1, read, hfr, hi]
  have hb : w2.base = w.base := by simp [w2, h1, resample, resampleSample, invalidate]
  have hm : w2.smp = w.smp := by simp [w2, h1, resample, resampleSample, invalidate]
  have hsm : w2.sample (w.smp c) = d :: ds := by simp [w2, h1, resample, resampleSample, invalidate]
  have hc : w2.cache c' 0 = some (w.base c' 0 + p) := by simp [w2, h1, resample, resampleSample, invalidate, hne]
  have hc0 : w2.cache c 0 = none := by simp [w2, resample, resampleSample, invalidate]
  have hr : (read w2 c' 0).1 = some (w.base c' 0 + p) := by simp [read, hc]
  refine ⟨hr, ?_, by rw [hm, hs, hsm]; rfl, ?_⟩
  · rw [hr, hb]
    intro h
    simp only [Option.some.injEq, add_right_inj] at h
    exact hd h.symm
  · have : impl w2 c 0 = some (w2.base c 0 + d) := by simp [impl, getSample_eq, hm, hsm]
    simp [read, hc0, this]

/-- **C156, violated.** `resample()` does not tell the dependents of the curve: a dependent evaluated before keeps the value of the old perturbation. -/
theorem C156_dependent_violated (w : CWorld Q) (c : Nat) (hfr : w.cache c 0 = none) (hdep : w.dep c = none) (p d : Q) (ps ds : List Q) (hold : w.sample (w.smp c) = p :: ps) (hd : d ≠ p) :
    let w1 := (readDep w c).2
    let w2 := resample w1 c (d :: ds)
    (readDep w2 c).1 = some (w.base c 0 + p) ∧ (read w2 c 0).1 = some (w.base c 0 + d) ∧ (readDep w2 c).1 ≠ (read w2 c 0).1 := by
  intro w1 w2
  have hi : impl w c 0 = some (w.base c 0 + p) := by simp [impl, getSample_eq, hold]
  have h1 : w1 = { w with cache := fun a k => if a = c ∧ k = 0 then some (w.base c 0 + p) else w.cache a k, dep := fun a => if a = c then some (w.base c 0 + p) else w.dep a } := by
    simp only [w1, readDep, hdep, read, hfr, hi]
  have hdp : w2.dep c = some (w.base c 0 + p) := by simp [w2, h1, resample, resampleSample, invalidate]
  have hc0 : w2.cache c 0 = none := by simp [w2, resample, resampleSample, invalidate]
  have hi2 : impl w2 c 0 = some (w.base c 0 + d) := by simp [impl, getSample_eq, w2, h1, resample, resampleSample, invalidate]
  have ha : (readDep w2 c).1 = some (w.base c 0 + p) := by simp [readDep, hdp]
  have hb : (read w2 c 0).1 = some (w.base c 0 + d) := by simp [read, hc0, hi2]
  refine ⟨ha, hb, ?_⟩
  rw [ha, hb]
  intro h
  simp only [Option.some.injEq, add_right_inj] at h
  exact hd h.symm

/-- **C156, violated.** `resample()` on the sample itself rings no bell: a curve evaluated before keeps the old perturbation. -/
theorem C156_sample_violated (w : CWorld Q) (c : Nat) (hfr : w.cache c 0 = none) (p d : Q) (ps ds : List Q) (hold : w.sample (w.smp c) = p :: ps) :
    (read (resampleSample (read w c 0).2 (w.smp c) (d :: ds)) c 0).1 = some (w.base c 0 + p) := by
  have hi : impl w c 0 = some (w.base c 0 + p) := by simp [impl, getSample_eq, hold]
  have h1 : (read w c 0).2 = { w with cache := fun a k => if a = c ∧ k = 0 then some (w.base c 0 + p) else w.cache a k } := by
    simp only [read, hfr, hi]
  rw [h1]
  simp [read, resampleSample]

/-- A start that meets the hypotheses of `C156_value`, with two curves and two sampled arrays. -/
example : ∃ (w0 w : CWorld Int), (∀ c c', w0.smp c = w0.smp c' → c = c') ∧ CHist w0 w ∧ (w.sample (w.smp 1))[1]? = some 7 ∧ (read w 1 1).1 = some 9 := by
  let w0 : CWorld Int := ⟨fun _ _ => 1, fun c => c, fun _ => [3, 5], fun _ _ => none, fun _ => none⟩
  have h1 := CHist.step _ (.read 1 1) (CHist.start (w0 := w0) (fun _ _ => rfl))
  have h2 := CHist.step _ (.resample 1 [4, 7]) h1
  have h3 := CHist.step _ (.setBase 1 fun _ => 2) h2
  exact ⟨w0, _, fun _ _ h => h, h3, rfl, rfl⟩

/-- **C156.** What each event changes: after new base dofs with arrays `b` the perturbed curve is `b k` plus the sample, after `resample` it is the base curve plus the new draw, in every order of the derivatives; the base
arrays of the other curves do not change, and evaluating changes neither. -/
theorem C156_effect (w : CWorld Q) (c k : Nat) (b : Nat → Q) (d : List Q) :
    (∀ s, (w.sample (w.smp c))[k]? = some s → (read (cstep w (.setBase c b)) c k).1 = some (b k + s)) ∧
    (∀ s, d[k]? = some s → (read (cstep w (.resample c d)) c k).1 = some (w.base c k + s)) ∧
    (∀ c', c' ≠ c → (cstep w (.setBase c b)).base c' k = w.base c' k) ∧ (cstep w (.resample c d)).base = w.base ∧
    (∀ s', s' ≠ w.smp c → (cstep w (.resample c d)).sample s' = w.sample s') ∧ (cstep w (.setBase c b)).sample = w.sample ∧
    (cstep w (.read c k)).base = w.base ∧ (cstep w (.read c k)).sample = w.sample := by
  refine ⟨fun s hs => ?_, fun s hs => ?_, fun c' hc => ?_, rfl, fun s' hs => ?_, rfl, ?_, ?_⟩
  · simp [read, cstep, setBase, invalidate, impl, getSample_eq, hs]
  · simp [read, cstep, resample, resampleSample, invalidate, impl, getSample_eq, hs]
  · simp [cstep, setBase, invalidate, hc]
  · simp [cstep, resample, resampleSample, invalidate, hs]
  · simp only [cstep, read]
    cases w.cache c k with
    | some a => rfl
    | none => cases impl w c k <;> rfl
  · simp only [cstep, read]
    cases w.cache c k with
    | some a => rfl
    | none => cases impl w c k <;> rfl

/-- A state that meets the hypotheses of the `_violated` theorems. -/
example : ∃ w : CWorld Int, w.smp 1 = w.smp 0 ∧ w.cache 1 0 = none ∧ w.cache 0 0 = none ∧ w.dep 0 = none ∧ w.sample (w.smp 0) = 3 :: [5] :=
  ⟨⟨fun _ _ => 1, fun _ => 0, fun _ => [3, 5], fun _ _ => none, fun _ => none⟩, rfl, rfl, rfl, rfl, rfl⟩

end Simsopt.Perturb
