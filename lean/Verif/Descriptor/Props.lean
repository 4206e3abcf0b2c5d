import Verif.Descriptor.Model
import Mathlib.Data.String.Basic
/-!
# C41: validated attributes
-/
namespace Simsopt.Descriptor

/-! ### specification -/

/-- `l ≤ x` in the extended reals; NaN is on neither side of anything. -/
def Num.le : Num → Num → Prop
  | .nan, _ => False
  | _, .nan => False
  | .ninf, _ => True
  | _, .pinf => True
  | .rat a, .rat b => a ≤ b
  | _, _ => False

/-- the value is a whole number, `n` -/
def IsInt (v : Val) (n : Int) : Prop := v = .int n ∨ (v = .bool true ∧ n = 1) ∨ (v = .bool false ∧ n = 0)

/-- the value is a real number, `x` -/
def IsReal (v : Val) (x : Num) : Prop := (∃ n, IsInt v n ∧ x = .rat n) ∨ v = .float x

/-- within the bounds that are present -/
def Within (lo hi : Option Num) (x : Num) : Prop := (∀ l, lo = some l → l.le x) ∧ (∀ h, hi = some h → x.le h)

/-- What each kind of attribute is documented to accept, with two corrections recorded below
    (`C41_positive_accepts_zero_violated`, `C41_nan_violated`): "positive" means at least 0, and NaN passes every range. -/
def Accepts : Validator → Val → Prop
  | .string lo hi p, v => ∃ s, v = .str s ∧ (∀ n, lo = some n → n ≤ s.length) ∧ (∀ n, hi = some n → s.length ≤ n) ∧
      (∀ f, p = some f → f s = true)
  | .oneofStrings opts, v => ∃ s ∈ opts, v = .str s
  | .oneofIntegers opts, v => ∃ n ∈ opts, IsInt v n
  | .integer lo hi, v => ∃ n, IsInt v n ∧ Within lo hi (.rat n)
  | .float lo hi, v => ∃ x, IsReal v x ∧ (x = .nan ∨ Within lo hi x)
  | .positiveInteger, v => ∃ n, IsInt v n ∧ 0 ≤ n
  | .positiveFloat, v => ∃ x, IsReal v x ∧ (x = .nan ∨ (Num.rat 0).le x)

/-- the bounds a range descriptor was given are numbers -/
def Proper : Validator → Prop
  | .integer lo hi => lo ≠ some .nan ∧ hi ≠ some .nan
  | .float lo hi => lo ≠ some .nan ∧ hi ≠ some .nan
  | _ => True

/-- A history of assignments `obj.name = value`, each of which may raise. -/
def assigns (c : Cls) (l : List (String × Val)) (o : Inst) : Inst := l.foldl (fun o a => (setAttr c o a.1 a.2).2) o

/-! ### lemmas -/

theorem not_lt_iff {x l : Num} (hx : x ≠ .nan) (hl : l ≠ .nan) : x.lt l = false ↔ l.le x := by
  cases x <;> cases l <;> simp_all [Num.lt, Num.le]

theorem isIntegral_iff (v : Val) : v.isIntegral = true ↔ ∃ n, IsInt v n := by
  cases v with
  | bool b => cases b <;> simp [Val.isIntegral, IsInt]
  | _ => simp [Val.isIntegral, IsInt]

theorem isReal_iff (v : Val) : v.isReal = true ↔ ∃ x, IsReal v x := by
  cases v with
  | int n => simp only [Val.isReal, true_iff]; exact ⟨.rat n, Or.inl ⟨n, Or.inl rfl, rfl⟩⟩
  | bool b =>
    simp only [Val.isReal, true_iff]
    cases b
    · exact ⟨.rat (0 : Int), Or.inl ⟨0, Or.inr (Or.inr ⟨rfl, rfl⟩), rfl⟩⟩
    · exact ⟨.rat (1 : Int), Or.inl ⟨1, Or.inr (Or.inl ⟨rfl, rfl⟩), rfl⟩⟩
  | float x => simp only [Val.isReal, true_iff]; exact ⟨x, Or.inr rfl⟩
  | str s => simp [Val.isReal, IsReal, IsInt]
  | other t => simp [Val.isReal, IsReal, IsInt]

theorem IsInt.num {v : Val} {n : Int} (h : IsInt v n) : v.num? = some (.rat n) := by
  rcases h with rfl | ⟨rfl, rfl⟩ | ⟨rfl, rfl⟩ <;> simp [Val.num?]

theorem IsReal.num {v : Val} {x : Num} (h : IsReal v x) : v.num? = some x := by
  rcases h with ⟨n, h, rfl⟩ | rfl
  · exact h.num
  · rfl

theorem range_run {v : Val} {x : Num} (hv : v.num? = some x) (lo hi : Option Num) (hlo : lo ≠ some .nan) (hhi : hi ≠ some .nan) :
    (Check.range lo hi).run v = .ok () ↔ x = .nan ∨ Within lo hi x := by
  simp only [Check.run, hv]
  by_cases hx : x = .nan
  · subst hx
    have h1 : ∀ l, Num.lt .nan l = false := fun l => by cases l <;> rfl
    have h2 : ∀ h, Num.lt h .nan = false := fun h => by cases h <;> rfl
    cases lo <;> cases hi <;> simp [h1, h2]
  · unfold Within
    cases lo with
    | none =>
      cases hi with
      | none => simp [hx]
      | some h =>
        have := not_lt_iff (x := h) (l := x) (fun e => hhi (by rw [e])) hx
        cases hb : h.lt x <;> simp_all
    | some l =>
      have h1 := not_lt_iff (x := x) (l := l) hx (fun e => hlo (by rw [e]))
      cases hi with
      | none => cases hb : x.lt l <;> simp_all
      | some h =>
        have h2 := not_lt_iff (x := h) (l := x) (fun e => hhi (by rw [e])) hx
        cases hb : x.lt l <;> cases hc : h.lt x <;> simp_all

theorem oneOf_int {v : Val} {n : Int} (h : IsInt v n) (opts : List Int) :
    (Check.oneOf (opts.map .int)).run v = .ok () ↔ n ∈ opts := by
  simp only [Check.run, List.any_map, Function.comp_def]
  have : ∀ m : Int, v.eqv (.int m) = decide (n = m) := by
    intro m
    have e : (Val.int m).num? = some (.rat m) := rfl
    simp only [Val.eqv, h.num, e]
    rw [decide_eq_decide]; exact Rat.intCast_inj
  simp only [this]
  by_cases hm : n ∈ opts <;> simp [hm]

/-! ### theorems -/

/-- **C41.** A validator accepts exactly the documented values (modulo the two recorded corrections). -/
theorem C41_validate_iff (w : Validator) (hw : Proper w) (v : Val) : w.validate v = .ok () ↔ Accepts w v := by
  have two : ∀ a b, runChecks [a, b] v = .ok () ↔ a.run v = .ok () ∧ b.run v = .ok () := by
    intro a b
    simp only [runChecks]
    cases a.run v with
    | error e => simp
    | ok u => cases u; simp only [true_and]; cases b.run v with
      | error e => simp
      | ok u => cases u; simp
  have int : Check.integral.run v = .ok () ↔ ∃ n, IsInt v n := by
    rw [← isIntegral_iff]; simp only [Check.run]; split <;> simp_all
  have real : Check.real.run v = .ok () ↔ ∃ n, IsReal v n := by
    rw [← isReal_iff]; simp only [Check.run]; split <;> simp_all
  cases w with
  | string lo hi p =>
    have one : ∀ a, runChecks [a] v = .ok () ↔ a.run v = .ok () := by
      intro a
      simp only [runChecks]
      cases a.run v with
      | error e => simp
      | ok u => cases u; simp
    simp only [Validator.validate, Validator.checks, Accepts]
    rw [one]
    cases v with
    | str s =>
      simp only [Check.run, Val.str.injEq, exists_eq_left']
      cases lo <;> cases hi <;> cases p <;> simp only [Option.some.injEq, forall_eq', reduceCtorEq, false_implies, implies_true, true_and, and_true] <;>
        split_ifs <;> simp_all
    | _ => simp [Check.run]
  | oneofStrings opts =>
    simp only [Validator.validate, Validator.checks, Accepts]
    rw [two]
    cases v with
    | str s =>
      simp only [Check.run, List.any_map, Function.comp_def, Val.eqv, Val.num?, Val.str.injEq]
      by_cases h : s ∈ opts <;> simp [h]
    | _ => simp [Check.run]
  | oneofIntegers opts =>
    simp only [Validator.validate, Validator.checks, Accepts]
    rw [two, int]
    constructor
    · rintro ⟨⟨n, hn⟩, h⟩; exact ⟨n, (oneOf_int hn opts).mp h, hn⟩
    · rintro ⟨n, h, hn⟩; exact ⟨⟨n, hn⟩, (oneOf_int hn opts).mpr h⟩
  | integer lo hi =>
    simp only [Validator.validate, Validator.checks, Accepts]
    rw [two, int]
    constructor
    · rintro ⟨⟨n, hn⟩, h⟩
      refine ⟨n, hn, ((range_run hn.num lo hi hw.1 hw.2).mp h).resolve_left (by simp)⟩
    · rintro ⟨n, hn, h⟩
      exact ⟨⟨n, hn⟩, (range_run hn.num lo hi hw.1 hw.2).mpr (Or.inr h)⟩
  | float lo hi =>
    simp only [Validator.validate, Validator.checks, Accepts]
    rw [two, real]
    constructor
    · rintro ⟨⟨n, hn⟩, h⟩; exact ⟨n, hn, (range_run hn.num lo hi hw.1 hw.2).mp h⟩
    · rintro ⟨n, hn, h⟩; exact ⟨⟨n, hn⟩, (range_run hn.num lo hi hw.1 hw.2).mpr h⟩
  | positiveInteger =>
    simp only [Validator.validate, Validator.checks, Accepts]
    rw [two, int]
    constructor
    · rintro ⟨⟨n, hn⟩, h⟩
      have := ((range_run hn.num (some (.rat 0)) none (by simp) (by simp)).mp h).resolve_left (by simp)
      have h0 := this.1 _ rfl
      simp only [Num.le] at h0
      exact ⟨n, hn, by exact_mod_cast h0⟩
    · rintro ⟨n, hn, h⟩
      refine ⟨⟨n, hn⟩, (range_run hn.num (some (.rat 0)) none (by simp) (by simp)).mpr (Or.inr ⟨fun l hl => ?_, fun _ hh => by cases hh⟩)⟩
      cases hl
      simp only [Num.le]; exact_mod_cast h
  | positiveFloat =>
    simp only [Validator.validate, Validator.checks, Accepts]
    rw [two, real]
    constructor
    · rintro ⟨⟨n, hn⟩, h⟩
      exact ⟨n, hn, ((range_run hn.num (some (.rat 0)) none (by simp) (by simp)).mp h).imp id (fun h => h.1 _ rfl)⟩
    · rintro ⟨n, hn, h⟩
      refine ⟨⟨n, hn⟩, (range_run hn.num (some (.rat 0)) none (by simp) (by simp)).mpr (h.imp id fun h => ⟨fun l hl => ?_, fun _ hh => by cases hh⟩)⟩
      cases hl; exact h

/-- **C41.** A rejected assignment raises and changes no attribute; an accepted one is what the next read returns, and no
    other attribute changes. -/
theorem C41_assign (c : Cls) (o : Inst) (name : String) (w : Validator) (hw : Proper w) (hc : c name = some w) (v : Val) :
    (¬ Accepts w v → ∃ e, setAttr c o name v = (.error e, o)) ∧
    (Accepts w v → (setAttr c o name v).1 = .ok () ∧ getAttr c (setAttr c o name v).2 name = .ok v ∧
      ∀ n, n ≠ privateName name → (setAttr c o name v).2 n = o n) := by
  constructor
  · intro h
    cases hv : w.validate v with
    | ok u => cases u; exact absurd ((C41_validate_iff w hw v).mp hv) h
    | error e => exact ⟨e, by simp [setAttr, hc, hv]⟩
  · intro h
    have hv := (C41_validate_iff w hw v).mpr h
    simp only [setAttr, hc, hv, getAttr, Option.isSome_some, if_true, true_and]
    intro n hn; simp [hn]

/-- **C41.** After any history of assignments to any attributes (the private one excepted), a validated attribute of a
    new object either has never been set or holds an accepted value. -/
theorem C41_history (c : Cls) (name : String) (w : Validator) (hw : Proper w) (hc : c name = some w)
    (l : List (String × Val)) (hl : ∀ a ∈ l, a.1 = privateName name → (c a.1).isSome) :
    (∃ v, getAttr c (assigns c l (fun _ => none)) name = .ok v ∧ Accepts w v) ∨
    getAttr c (assigns c l (fun _ => none)) name = .error .attributeError := by
  have key : ∀ (l : List (String × Val)) (o : Inst), (∀ a ∈ l, a.1 = privateName name → (c a.1).isSome) →
      (∀ v, o (privateName name) = some v → Accepts w v) → ∀ v, assigns c l o (privateName name) = some v → Accepts w v := by
    intro l
    induction l with
    | nil => intro o _ h; exact h
    | cons a l ih =>
      intro o hl h
      refine ih _ (fun b hb => hl b (List.mem_cons_of_mem _ hb)) ?_
      intro v hv
      replace hv : (setAttr c o a.1 a.2).2 (privateName name) = some v := hv
      have ha := hl a List.mem_cons_self
      unfold setAttr at hv
      cases hd : c a.1 with
      | none =>
        rw [hd] at hv
        simp only at hv
        split at hv
        · rename_i e
          have := ha e.symm
          rw [hd] at this; cases this
        · exact h v hv
      | some w' =>
        rw [hd] at hv
        simp only at hv
        cases hval : w'.validate a.2 with
        | error e => rw [hval] at hv; exact h v hv
        | ok u =>
          cases u
          rw [hval] at hv
          simp only at hv
          split at hv
          · rename_i e
            have e' : a.1 = name := by
              unfold privateName at e
              exact (String.append_right_inj "_").mp e.symm
            rw [e', hc] at hd
            cases hd
            cases hv
            exact (C41_validate_iff w hw _).mp hval
          · exact h v hv
  have hg : getAttr c (assigns c l (fun _ => none)) name =
      (match assigns c l (fun _ => none) (privateName name) with | some v => .ok v | none => .error .attributeError) := by
    simp only [getAttr, hc, Option.isSome_some, if_true]
    cases assigns c l (fun _ => none) (privateName name) <;> rfl
  rw [hg]
  cases h : assigns c l (fun _ => none) (privateName name) with
  | none => right; rfl
  | some v => left; exact ⟨v, rfl, key l _ hl (by simp) v h⟩

/-! ### witnesses -/

/-- a class with two validated attributes: `alpha_fac = OneofIntegers(-1, 0, 1)`, `nmax = PositiveInteger()`
    (surfacehenneberg.py L95-97) -/
def henneberg : Cls := fun n =>
  if n = "alpha_fac" then some (.oneofIntegers [-1, 0, 1]) else if n = "nmax" then some .positiveInteger else none

/-- `obj.alpha_fac = 1; obj.alpha_fac = 2` (raises)`; obj.nmax = 3; obj.nmax = -1` (raises)`; obj.mmax = -7` -/
example : let o := assigns henneberg [("alpha_fac", .int 1), ("alpha_fac", .int 2), ("nmax", .int 3), ("nmax", .int (-1)),
      ("mmax", .int (-7))] (fun _ => none)
    getAttr henneberg o "alpha_fac" = .ok (.int 1) ∧ getAttr henneberg o "nmax" = .ok (.int 3) := by decide +kernel

/-- `PositiveInteger` and `PositiveFloat` ("positive number") accept 0. -/
theorem C41_positive_accepts_zero_violated :
    Validator.positiveInteger.validate (.int 0) = .ok () ∧ Validator.positiveFloat.validate (.float (.rat 0)) = .ok () := by
  decide +kernel

/-- NaN passes every range check: `Float(min_value=0, max_value=1)` accepts it. -/
theorem C41_nan_violated (lo hi : Option Num) : (Validator.float lo hi).validate (.float .nan) = .ok () := by
  have h1 : ∀ l, Num.lt .nan l = false := fun l => by cases l <;> rfl
  have h2 : ∀ h, Num.lt h .nan = false := fun h => by cases h <;> rfl
  cases lo <;> cases hi <;> simp [Validator.validate, Validator.checks, runChecks, Check.run, Val.isReal, Val.num?, h1, h2]

end Simsopt.Descriptor
