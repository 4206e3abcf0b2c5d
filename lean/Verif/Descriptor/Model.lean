import Verif.PyList
import Mathlib.Data.Rat.Defs
import Mathlib.Algebra.Order.Ring.Rat
/-!
# Validated attributes (src/simsopt/_core/descriptor.py)

Every `validate` method of the file, the way the classes combine them (method resolution order), and the descriptor
protocol `__set__`/`__get__` on the attribute dictionary of an instance.
Simplifications: numbers are integers, booleans and floats (exact rationals, the two infinities, NaN); a class does not define
two descriptors of which one is named `_` + the other (the inner `setattr` would then be validated too).
-/
namespace Simsopt.Descriptor

/-- A float. -/
inductive Num where
  | rat (q : Rat) | pinf | ninf | nan
  deriving DecidableEq

/-- A Python value. -/
inductive Val where
  | str (s : String)
  | int (n : Int)
  | bool (b : Bool)
  | float (x : Num)
  | other (tag : Nat)
  deriving DecidableEq

/-- the number a value stands for in comparisons; `none` for values that are not numbers -/
def Val.num? : Val → Option Num
  | .int n => some (.rat n)
  | .bool b => some (.rat (if b then 1 else 0))
  | .float x => some x
  | _ => none

/-- `a < b` on floats: false as soon as NaN is involved -/
def Num.lt : Num → Num → Bool
  | .nan, _ => false
  | _, .nan => false
  | .ninf, .ninf => false
  | .ninf, _ => true
  | _, .ninf => false
  | .pinf, _ => false
  | _, .pinf => true
  | .rat a, .rat b => decide (a < b)

/-- `value == option` for the options a `OneOf` can hold: numbers compare by value across types -/
def Val.eqv (v w : Val) : Bool :=
  match v.num?, w.num? with
  | some (.rat a), some (.rat b) => decide (a = b)
  | some .pinf, some .pinf => true
  | some .ninf, some .ninf => true
  | some _, some _ => false
  | none, none => decide (v = w)
  | _, _ => false

/-- `isinstance(value, numbers.Integral)`: `int` and `bool`. -/
def Val.isIntegral : Val → Bool
  | .int _ | .bool _ => true
  | _ => false

/-- `isinstance(value, numbers.Real)` -/
def Val.isReal : Val → Bool
  | .int _ | .bool _ | .float _ => true
  | _ => false

/-- One `validate` method, without the call of the next one. -/
inductive Check where
  | string (minsize maxsize : Option Nat) (pred : Option (String → Bool))
  | oneOf (options : List Val)
  | real
  | integral
  | range (lo hi : Option Num)

/-- `OneOf.validate` (L52-56), `String.validate` (L75-87), `_Real.validate` (L95-99), `_Integral.validate`
    (L107-111), `RangeChecker.validate` (L126-133; a comparison between a non-number and a number raises `TypeError`). -/
def Check.run : Check → Val → Except Err Unit
  | .oneOf opts, v => if opts.any (fun w => v.eqv w) then .ok () else .error .valueError
  | .string lo hi pred, v =>
    match v with
    | .str s =>
      if (match lo with | some n => decide (s.length < n) | none => false) then .error .valueError
      else if (match hi with | some n => decide (n < s.length) | none => false) then .error .valueError
      else if (match pred with | some p => !p s | none => false) then .error .valueError
      else .ok ()
    | _ => .error .typeError
  | .real, v => if v.isReal then .ok () else .error .typeError
  | .integral, v => if v.isIntegral then .ok () else .error .typeError
  | .range lo hi, v =>
    match v.num? with
    | some x =>
      if (match lo with | some l => x.lt l | none => false) then .error .valueError
      else if (match hi with | some h => h.lt x | none => false) then .error .valueError
      else .ok ()
    | none => if lo.isSome || hi.isSome then .error .typeError else .ok ()

/-- The classes of the module that can be instantiated. -/
inductive Validator where
  | string (minsize maxsize : Option Nat) (pred : Option (String → Bool))
  | oneofStrings (opts : List String)
  | oneofIntegers (opts : List Int)
  | integer (lo hi : Option Num)
  | float (lo hi : Option Num)
  | positiveInteger
  | positiveFloat

/-- The chain of `validate` methods, in method resolution order: `String, OneOf` (L195), `_Integral, OneOf` (L210),
    `_Integral, RangeChecker` (L143), `_Real, RangeChecker` (L167), `_Integral, PositiveChecker, RangeChecker` (L157)
    and `_Real, PositiveChecker, RangeChecker` (L181), where `PositiveChecker.__init__` sets `min_value = 0` (L136-141). -/
def Validator.checks : Validator → List Check
  | .string lo hi p => [.string lo hi p]
  | .oneofStrings opts => [.string none none none, .oneOf (opts.map .str)]
  | .oneofIntegers opts => [.integral, .oneOf (opts.map .int)]
  | .integer lo hi => [.integral, .range lo hi]
  | .float lo hi => [.real, .range lo hi]
  | .positiveInteger => [.integral, .range (some (.rat 0)) none]
  | .positiveFloat => [.real, .range (some (.rat 0)) none]

/-- `self.validate(value)`: each method runs its check, then `super().validate(value)`. -/
def runChecks : List Check → Val → Except Err Unit
  | [], _ => .ok ()
  | c :: cs, v => match c.run v with
    | .ok () => runChecks cs v
    | .error e => .error e

def Validator.validate (w : Validator) (v : Val) : Except Err Unit := runChecks w.checks v

/-- A class: its descriptors by attribute name. -/
abbrev Cls := String → Option Validator

/-- An instance: its attribute dictionary. -/
abbrev Inst := String → Option Val

/-- `__set_name__` (L20-22) -/
def privateName (name : String) : String := "_" ++ name

/-- `obj.name = value`: through `Validator.__set__` (L27-29) if the class has a descriptor of that name, otherwise
    into the instance dictionary. -/
def setAttr (c : Cls) (o : Inst) (name : String) (v : Val) : Except Err Unit × Inst :=
  match c name with
  | some w =>
    match w.validate v with
    | .error e => (.error e, o)
    | .ok () => (.ok (), fun n => if n = privateName name then some v else o n)
  | none => (.ok (), fun n => if n = name then some v else o n)

/-- `obj.name`: through `Validator.__get__` (L24-25), or from the dictionary. -/
def getAttr (c : Cls) (o : Inst) (name : String) : Except Err Val :=
  match o (if (c name).isSome then privateName name else name) with
  | some v => .ok v
  | none => .error .attributeError

end Simsopt.Descriptor
