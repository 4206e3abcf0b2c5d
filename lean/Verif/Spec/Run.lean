import Verif.PyList
import Mathlib.Algebra.Order.Field.Rat
import Mathlib.Tactic.NormNum
/-!
# Running SPEC (C174)

Model of `Spec.run` (src/simsopt/mhd/spec.py L914-1217), `recompute_bell` (L846-847), `volume` (L1219-1224) and `Residue.J` (L1378-1409) on the leader of a group.  SPEC itself is an arbitrary function of the inputs (boundary, profiles, normal field), the initial guess, the axis, the flag `linitialize` and the boundary field of the plasma in its memory; what it can do is crash, leave an unreadable file or give a result.  It may change the boundary field in any case.  Files are not modelled.
-/
namespace Simsopt.Spec
open Simsopt

/-- What a call can raise. -/
inductive Exc | objectiveFailure | keyError | attributeError
  deriving DecidableEq

/-- The coefficients of the axis: `rac` and `zas`, and, if present, `ras` and `zac` (L184-189). -/
structure Axis (A : Type) where
  main : A
  extra : Option A

/-- What is read from the output file: the errors, the volume, the interfaces and the axis (`rac` and `zas` only, L1186-1189). -/
structure Res (G A V : Type) where
  forceErr : ℚ
  bnsErr : Option ℚ
  vol : V
  guess : G
  axis : A

/-- What SPEC does. -/
inductive Outcome (G A V : Type) | crash | unreadable | done (r : Res G A V)

/-- The fixed properties of a `Spec` object. -/
structure Cfg where
  freebound : Bool
  stellsym : Bool
  severalVolumes : Bool
  tolerance : ℚ
  gbntol : ℚ

/-- The state of a `Spec` object and of SPEC's memory. -/
structure RSt (I G A B V : Type) where
  need : Bool
  counter : ℕ
  inputs : I
  guess : Option G
  axis : Axis A
  useGuess : Bool
  bns : B
  results : Option (Res G A V)

section
variable {I G A B V : Type}

/-- SPEC. -/
abbrev Solve (I G A B V : Type) := I → Option G → Axis A → Bool → B → Outcome G A V × B

/-- The test of the Picard iteration (L1157): not done if the output has no `BnsErr` (L1163-1165). -/
def bnsBad (c : Cfg) (r : Res G A V) : Bool := match r.bnsErr with
  | some e => decide (c.gbntol < e)
  | none => false

/-- `Spec.run` (L914-1217). -/
def RSt.run (solve : Solve I G A B V) (c : Cfg) (update : Bool) (s : RSt I G A B V) : Except Exc Unit × RSt I G A B V :=
  if s.need = false then (.ok (), s)
  else
    let s1 := { s with counter := s.counter + 1 }
    if c.stellsym = false ∧ s.axis.extra.isNone then (.error .keyError, s1)
    else
      let o := solve s.inputs s.guess s.axis s.useGuess s.bns
      match o.1 with
      | .crash => (.error .objectiveFailure, { s1 with bns := o.2 })
      | .unreadable => (.error .objectiveFailure, { s1 with bns := o.2 })
      | .done r =>
        let s2 := { s1 with bns := o.2, results := some r, need := false }
        if c.tolerance < r.forceErr then (.error .objectiveFailure, if c.freebound then { s2 with bns := s.bns } else s2)
        else if c.freebound && bnsBad c r then (.error .objectiveFailure, { s2 with bns := s.bns })
        else if update then
          (.ok (), { s2 with guess := if c.severalVolumes then some r.guess else none, axis := if c.severalVolumes then ⟨r.axis, none⟩ else s.axis, useGuess := true })
        else (.ok (), s2)

/-- `recompute_bell` (L846-847) with the change of the inputs that rings it. -/
def RSt.setInputs (s : RSt I G A B V) (x : I) : RSt I G A B V := { s with inputs := x, need := true }

/-- `volume` (L1219-1224), up to the constant factor `nfp`; `iota` (L1226-1231) has the same form. -/
def RSt.volume (solve : Solve I G A B V) (c : Cfg) (s : RSt I G A B V) : Except Exc V × RSt I G A B V :=
  match s.run solve c true with
  | (.error e, t) => (.error e, t)
  | (.ok (), t) => match t.results with
    | some r => (.ok r.vol, t)
    | none => (.error .attributeError, t)

/-! ### Specification -/

/-- A result within the tolerances. -/
def Converged (c : Cfg) (r : Res G A V) : Prop := r.forceErr ≤ c.tolerance ∧ (c.freebound = true → ∀ e, r.bnsErr = some e → e ≤ c.gbntol)

/-- What a user does: change inputs, ask for the volume, change how a failed call is handled; here only histories in which every call succeeded. -/
inductive Reach (solve : Solve I G A B V) (c : Cfg) : RSt I G A B V → Prop
  | start (s) (h : s.need = true) : Reach solve c s
  | set (s) (x : I) (h : Reach solve c s) : Reach solve c (s.setInputs x)
  | vol (s t) (v : V) (h : Reach solve c s) (hv : s.volume solve c = (.ok v, t)) : Reach solve c t

/-! ### Theorems -/

theorem bns_test (c : Cfg) (r : Res G A V) : ((c.freebound && bnsBad c r) = true) ↔ c.freebound = true ∧ ∃ e, r.bnsErr = some e ∧ c.gbntol < e := by
  unfold bnsBad
  cases h : r.bnsErr <;> simp

/-- **C174**: a run that is needed and succeeds has a converged result of SPEC at the present inputs, starting from the present guess; the guess of the next run is this result. -/
theorem C174_run (solve : Solve I G A B V) (c : Cfg) (s t : RSt I G A B V) (hn : s.need = true) (h : s.run solve c true = (.ok (), t)) :
    ∃ r b, solve s.inputs s.guess s.axis s.useGuess s.bns = (.done r, b) ∧ Converged c r ∧ t.results = some r ∧ t.need = false ∧ t.inputs = s.inputs ∧ t.bns = b ∧
      t.useGuess = true ∧ (c.severalVolumes = true → t.guess = some r.guess ∧ t.axis.main = r.axis) := by
  unfold RSt.run at h
  rw [if_neg (by simp [hn])] at h
  simp only at h
  split at h
  · simp at h
  · cases ho : solve s.inputs s.guess s.axis s.useGuess s.bns with
    | mk o b =>
      rw [ho] at h
      cases o with
      | crash => simp at h
      | unreadable => simp at h
      | done r =>
        simp only at h
        split at h
        · simp at h
        · next hf =>
          split at h
          · simp at h
          · next hb =>
            rw [if_pos trivial] at h
            have ht := (Prod.mk.inj h).2
            refine ⟨r, b, rfl, ⟨not_lt.mp hf, fun hfb e he => ?_⟩, ?_⟩
            · rw [bns_test] at hb
              exact not_lt.mp fun hlt => hb ⟨hfb, e, he, hlt⟩
            · subst ht
              refine ⟨rfl, rfl, rfl, rfl, rfl, fun hs => ?_⟩
              simp only [hs, if_true]
              exact ⟨trivial, trivial⟩

/-- **C174**: when no run is needed, the stored result is used and nothing changes. -/
theorem C174_stored (solve : Solve I G A B V) (c : Cfg) (s : RSt I G A B V) (r : Res G A V) (hn : s.need = false) (hr : s.results = some r) : s.volume solve c = (.ok r.vol, s) := by
  unfold RSt.volume RSt.run
  rw [if_pos hn]
  simp only [hr]

/-- **C174**: in a history of changes of the inputs and successful evaluations, every value belongs to a converged result of SPEC at the inputs of that moment. -/
theorem C174_history (solve : Solve I G A B V) (c : Cfg) (s t : RSt I G A B V) (v : V) (hs : Reach solve c s) (hv : s.volume solve c = (.ok v, t)) :
    ∃ r g a u b b', solve s.inputs g a u b = (.done r, b') ∧ Converged c r ∧ v = r.vol := by
  have step : ∀ s t : RSt I G A B V, ∀ v, (s.need = false → ∃ r g a u b b', s.results = some r ∧ solve s.inputs g a u b = (.done r, b') ∧ Converged c r) → s.volume solve c = (.ok v, t) →
      ∃ r g a u b b', t.results = some r ∧ solve s.inputs g a u b = (.done r, b') ∧ Converged c r ∧ v = r.vol ∧ t.inputs = s.inputs := by
    intro s t v hinv hv
    cases hn : s.need with
    | false =>
      obtain ⟨r, g, a, u, b, b', h1, h2, h3⟩ := hinv hn
      rw [C174_stored solve c s r hn h1] at hv
      obtain ⟨e1, e2⟩ := Prod.mk.inj hv
      exact ⟨r, g, a, u, b, b', e2 ▸ h1, h2, h3, (Except.ok.inj e1).symm, e2 ▸ rfl⟩
    | true =>
      unfold RSt.volume at hv
      cases hr : s.run solve c true with
      | mk e t' =>
        rw [hr] at hv
        cases e with
        | error e => simp at hv
        | ok x =>
          obtain ⟨r, b', h1, h2, h3, -, h5, -⟩ := C174_run solve c s t' hn hr
          simp only [h3] at hv
          obtain ⟨e1, e2⟩ := Prod.mk.inj hv
          subst e2
          exact ⟨r, _, _, _, _, b', h3, h1, h2, (Except.ok.inj e1).symm, h5⟩
  have inv : ∀ s, Reach solve c s → s.need = false → ∃ r g a u b b', s.results = some r ∧ solve s.inputs g a u b = (.done r, b') ∧ Converged c r := by
    intro s hs
    induction hs with
    | start s h => intro hn; rw [h] at hn; exact absurd hn (by simp)
    | set s x _ _ => intro hn; simp [RSt.setInputs] at hn
    | vol s t v _ hv ih =>
      intro _
      obtain ⟨r, g, a, u, b, b', h1, h2, h3, -, h5⟩ := step s t v ih hv
      exact ⟨r, g, a, u, b, b', h1, by rw [h5]; exact h2, h3⟩
  obtain ⟨r, g, a, u, b, b', -, h2, h3, h4, -⟩ := step s t v (inv s hs) hv
  exact ⟨r, g, a, u, b, b', h2, h3, h4⟩

/-- **C174**: when SPEC crashes or its output cannot be read, the evaluation fails and the next one runs SPEC again. -/
theorem C174_crash (solve : Solve I G A B V) (c : Cfg) (s : RSt I G A B V) (b : B) (hn : s.need = true) (ha : c.stellsym = true ∨ s.axis.extra.isSome)
    (h : solve s.inputs s.guess s.axis s.useGuess s.bns = (.crash, b) ∨ solve s.inputs s.guess s.axis s.useGuess s.bns = (.unreadable, b)) :
    ∃ t, s.volume solve c = (.error .objectiveFailure, t) ∧ t.need = true ∧ t.inputs = s.inputs ∧ t.guess = s.guess ∧ t.bns = b := by
  have hna : ¬ (c.stellsym = false ∧ s.axis.extra.isNone) := by
    rintro ⟨h1, h2⟩
    rcases ha with ha | ha
    · simp [h1] at ha
    · simp at h2; simp [h2] at ha
  refine ⟨{ s with counter := s.counter + 1, bns := b }, ?_, hn, rfl, rfl, rfl⟩
  unfold RSt.volume RSt.run
  rw [if_neg (by simp [hn])]
  simp only [if_neg hna]
  rcases h with h | h <;> rw [h]

/-- An unconverged result. -/
def Unconverged (c : Cfg) (r : Res G A V) : Prop := c.tolerance < r.forceErr ∨ (c.freebound = true ∧ ∃ e, r.bnsErr = some e ∧ c.gbntol < e)

theorem run_unconverged (solve : Solve I G A B V) (c : Cfg) (s : RSt I G A B V) (r : Res G A V) (b : B) (update : Bool) (hn : s.need = true) (ha : c.stellsym = true ∨ s.axis.extra.isSome)
    (h : solve s.inputs s.guess s.axis s.useGuess s.bns = (.done r, b)) (hu : Unconverged c r) :
    s.run solve c update = (.error .objectiveFailure, { s with counter := s.counter + 1, results := some r, need := false, bns := if c.freebound then s.bns else b }) := by
  have hna : ¬ (c.stellsym = false ∧ s.axis.extra.isNone) := by
    rintro ⟨h1, h2⟩
    rcases ha with ha | ha
    · simp [h1] at ha
    · simp at h2; simp [h2] at ha
  unfold RSt.run
  rw [if_neg (by simp [hn])]
  simp only [if_neg hna, h]
  by_cases hf : c.tolerance < r.forceErr
  · rw [if_pos hf]
    cases c.freebound <;> simp
  · rw [if_neg hf, if_pos ((bns_test c r).2 (hu.resolve_left hf))]
    have : c.freebound = true := (hu.resolve_left hf).1
    simp [this]

/-- **C174**: a result that is not converged makes the evaluation fail, and the boundary field of a free boundary is what it was before the run. -/
theorem C174_unconverged (solve : Solve I G A B V) (c : Cfg) (s : RSt I G A B V) (r : Res G A V) (b : B) (hn : s.need = true) (ha : c.stellsym = true ∨ s.axis.extra.isSome)
    (h : solve s.inputs s.guess s.axis s.useGuess s.bns = (.done r, b)) (hu : Unconverged c r) :
    ∃ t, s.volume solve c = (.error .objectiveFailure, t) ∧ (c.freebound = true → t.bns = s.bns) ∧ t.guess = s.guess := by
  refine ⟨{ s with counter := s.counter + 1, results := some r, need := false, bns := if c.freebound then s.bns else b }, ?_, fun hf => ?_, ?_⟩
  · unfold RSt.volume
    rw [run_unconverged solve c s r b true hn ha h hu]
  · simp [hf]
  · rfl

/-- **C174** (violated): the evaluation after such a failure, at the same inputs, returns the volume of the unconverged result. -/
theorem C174_unconverged_returned_violated (solve : Solve I G A B V) (c : Cfg) (s : RSt I G A B V) (r : Res G A V) (b : B) (hn : s.need = true) (ha : c.stellsym = true ∨ s.axis.extra.isSome)
    (h : solve s.inputs s.guess s.axis s.useGuess s.bns = (.done r, b)) (hu : Unconverged c r) :
    ∃ t, s.volume solve c = (.error .objectiveFailure, t) ∧ t.volume solve c = (.ok r.vol, t) := by
  refine ⟨{ s with counter := s.counter + 1, results := some r, need := false, bns := if c.freebound then s.bns else b }, ?_, ?_⟩
  · unfold RSt.volume
    rw [run_unconverged solve c s r b true hn ha h hu]
  · exact C174_stored _ _ _ _ rfl rfl

/-- **C174** (violated): without stellarator symmetry and with several volumes, no run after the first successful one succeeds: the axis stored for it has no `ras`. -/
theorem C174_axis_violated (solve : Solve I G A B V) (c : Cfg) (s t : RSt I G A B V) (hc : c.stellsym = false) (hm : c.severalVolumes = true) (hn : s.need = true) (h : s.run solve c true = (.ok (), t)) (x : I) :
    ((t.setInputs x).volume solve c).1 = .error .keyError := by
  have ht : t.axis.extra = none := by
    unfold RSt.run at h
    rw [if_neg (by simp [hn])] at h
    simp only at h
    split at h
    · simp at h
    · split at h
      · simp at h
      · simp at h
      · split at h
        · simp at h
        · split at h
          · simp at h
          · rw [if_pos trivial] at h
            have ht := (Prod.mk.inj h).2
            rw [← ht]
  unfold RSt.volume RSt.run
  rw [if_neg (by simp [RSt.setInputs])]
  simp only
  rw [if_pos ⟨hc, by simp [RSt.setInputs, ht]⟩]

/-! ### The residue -/

/-- A `Residue` object: its flag (L1363, L1375-1376). -/
structure Residue where
  need : Bool

/-- `Residue.J` (L1378-1409): runs SPEC if its own flag asks for it and computes the residue from the stored result. -/
def Residue.J (find : Res G A V → Option V) (solve : Solve I G A B V) (c : Cfg) (q : Residue) (s : RSt I G A B V) : Except Exc V × Residue × RSt I G A B V :=
  let p := if q.need then s.run solve c true else (.ok (), s)
  match p with
  | (.error e, t) => (.error e, q, t)
  | (.ok (), t) => match t.results with
    | none => (.error .attributeError, q, t)
    | some r => match find r with
      | none => (.error .objectiveFailure, ⟨false⟩, t)
      | some v => (.ok v, ⟨false⟩, t)

/-- **C174**: the residue asked for after a change of the inputs is that of a converged result of SPEC at these inputs. -/
theorem C174_residue (find : Res G A V → Option V) (solve : Solve I G A B V) (c : Cfg) (s t : RSt I G A B V) (q' : Residue) (v : V) (hn : s.need = true) (h : Residue.J find solve c ⟨true⟩ s = (.ok v, q', t)) :
    ∃ r b, solve s.inputs s.guess s.axis s.useGuess s.bns = (.done r, b) ∧ Converged c r ∧ find r = some v := by
  unfold Residue.J at h
  rw [if_pos rfl] at h
  cases hr : s.run solve c true with
  | mk e t' =>
    rw [hr] at h
    cases e with
    | error e => simp at h
    | ok x =>
      obtain ⟨r, b', h1, h2, h3, -⟩ := C174_run solve c s t' hn hr
      simp only [h3] at h
      cases hf : find r with
      | none => simp [hf] at h
      | some w =>
        simp only [hf] at h
        exact ⟨r, b', h1, h2, hf.trans (congrArg some (Except.ok.inj (Prod.mk.inj h).1))⟩

/-- **C174** (violated): asked again after a failed run, the residue is that of the unconverged result. -/
theorem C174_residue_violated (find : Res G A V → Option V) (solve : Solve I G A B V) (c : Cfg) (s : RSt I G A B V) (r : Res G A V) (v : V) (b : B) (hn : s.need = true) (ha : c.stellsym = true ∨ s.axis.extra.isSome)
    (h : solve s.inputs s.guess s.axis s.useGuess s.bns = (.done r, b)) (hu : Unconverged c r) (hv : find r = some v) :
    ∃ q t, Residue.J find solve c ⟨true⟩ s = (.error .objectiveFailure, q, t) ∧ (Residue.J find solve c q t).1 = .ok v := by
  refine ⟨⟨true⟩, { s with counter := s.counter + 1, results := some r, need := false, bns := if c.freebound then s.bns else b }, ?_, ?_⟩
  · unfold Residue.J
    rw [if_pos rfl, run_unconverged solve c s r b true hn ha h hu]
  · unfold Residue.J RSt.run
    simp only [if_true, hv]

end

/-- A history: SPEC gives the volume `x + 1` at the inputs `x` with errors within the tolerance; the volume is asked for, the inputs are changed, the volume is asked for again. -/
example : ∃ s t : RSt ℕ ℕ ℕ ℕ ℕ, Reach (fun x _ _ _ b => (.done ⟨0, none, x + 1, x, x⟩, b)) ⟨false, true, true, 1, 1⟩ s ∧ s.inputs = 7 ∧ s.guess = some 3 ∧
    s.volume (fun x _ _ _ b => (.done ⟨0, none, x + 1, x, x⟩, b)) ⟨false, true, true, 1, 1⟩ = (.ok 8, t) := by
  refine ⟨_, ⟨false, 2, 7, some 7, ⟨7, none⟩, true, 0, some ⟨0, none, 8, 7, 7⟩⟩, .set ⟨false, 1, 3, some 3, ⟨3, none⟩, true, 0, some ⟨0, none, 4, 3, 3⟩⟩ 7 (.vol ⟨true, 0, 3, none, ⟨0, none⟩, false, 0, none⟩ _ 4 (.start _ rfl) ?_), rfl, rfl, ?_⟩
  · simp [RSt.volume, RSt.run, show ¬ ((1 : ℚ) < 0) by norm_num]
  · simp [RSt.volume, RSt.run, RSt.setInputs, show ¬ ((1 : ℚ) < 0) by norm_num]

/-- Unconverged results exist. -/
example : Unconverged ⟨false, true, true, 1, 1⟩ (⟨2, none, 5, 5, 5⟩ : Res ℕ ℕ ℕ) := Or.inl (by norm_num)

end Simsopt.Spec
