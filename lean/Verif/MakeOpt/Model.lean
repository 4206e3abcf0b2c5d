import Verif.Graph.Model
/-!
# `make_optimizable` (src/simsopt/_core/optimizable.py L1649-1772)

Modelled: the splitting of the arguments by indicator, the constructor call, and the reassembly in `J`.
`J` is represented by the call it makes (`Call`): what `func` does with its arguments is the user's code.
Simplifications: a `dof`-marked argument must be a number (anything else makes `np.asarray(…, dtype=float)` raise,
represented by `TypeError` before the object exists); an `opt`-marked argument that is not an Optimizable makes
`_add_child` fail with `AttributeError` (represented before the object exists); the keyword names `func` and
`self`, which collide with parameters of the two functions, raise `TypeError`.
-/
namespace Simsopt.MakeOpt
open Simsopt.Graph
variable {V A : Type}

/-- A Python argument: an Optimizable, a number, or anything else. -/
inductive Arg (V A : Type) where
  | obj (o : Nat)
  | num (v : V)
  | other (a : A)
  deriving DecidableEq

/-- `isinstance(arg, Optimizable)` -/
def Arg.isOpt : Arg V A → Bool
  | .obj _ => true
  | _ => false

/-- The three lists built by `TempOptimizable.__init__` (L1687). -/
structure Parts (V A : Type) where
  opts : List (Arg V A) := []
  dofs : List (Arg V A) := []
  nonDofs : List (Arg V A) := []

def Parts.addOpt (p : Parts V A) (a : Arg V A) : Parts V A := { p with opts := p.opts ++ [a] }
def Parts.addDof (p : Parts V A) (a : Arg V A) : Parts V A := { p with dofs := p.dofs ++ [a] }
def Parts.addNonDof (p : Parts V A) (a : Arg V A) : Parts V A := { p with nonDofs := p.nonDofs ++ [a] }

/-- One pass of the loops L1688-1696 (offset 0) and L1697-1706 (offset `arg_len`); `i` is the position in
    `dof_indicators`. -/
def splitLoop (ind : List String) : Nat → List (Arg V A) → Parts V A → Except Err (Parts V A)
  | _, [], p => .ok p
  | i, a :: l, p =>
    match ind[i]? with
    | none => .error .indexError
    | some k =>
      if k = "opt" then splitLoop ind (i + 1) l (p.addOpt a)
      else if k = "non-dof" then splitLoop ind (i + 1) l (p.addNonDof a)
      else if k = "dof" then splitLoop ind (i + 1) l (p.addDof a)
      else .error .valueError

/-- The loops used without indicators (L1710-1724). -/
def autoLoop : List (Arg V A) → Parts V A → List String → Parts V A × List String
  | [], p, ind => (p, ind)
  | a :: l, p, ind =>
    if a.isOpt then autoLoop l (p.addOpt a) (ind ++ ["opt"])
    else autoLoop l (p.addNonDof a) (ind ++ ["non-dof"])

/-- What a `TempOptimizable` keeps besides the `Optimizable` part (L1681-1685, L1728-1729). -/
structure Temp (V A : Type) where
  oid : Nat
  argLen : Nat
  kwargKeys : List String
  nonDofs : List (Arg V A)
  ind : List String

/-- The call `self.func(*args, **kwargs)` (L1770). -/
structure Call (V A : Type) where
  args : List (Arg V A)
  kwargs : List (String × Arg V A)

/-- The list of Optimizables passed as `depends_on`. -/
def asObjs : List (Arg V A) → Except Err (List Nat)
  | [] => .ok []
  | .obj o :: l => match asObjs l with
    | .ok r => .ok (o :: r)
    | .error e => .error e
  | _ :: _ => .error .attributeError

/-- The list of numbers passed as `x0`. -/
def asNums : List (Arg V A) → Except Err (List V)
  | [] => .ok []
  | .num v :: l => match asNums l with
    | .ok r => .ok (v :: r)
    | .error e => .error e
  | _ :: _ => .error .typeError

/-- raise or continue -/
def liftG {α : Type} (e : Except Err α) : M V α :=
  match e with
  | .ok a => pure a
  | .error e => throw e

/-- The splitting part of `__init__` (L1679-1724): with indicators, the assertion, the two loops; without, the
    automatic marking. -/
def split (args : List (Arg V A)) (kwargs : List (String × Arg V A)) :
    Option (List String) → Except Err (Parts V A × List String)
  | some ind =>
    if args.length + kwargs.length = ind.length then
      match splitLoop ind 0 args {} with
      | .error e => .error e
      | .ok p =>
        match splitLoop ind args.length (kwargs.map Prod.snd) p with
        | .error e => .error e
        | .ok p => .ok (p, ind)
    else .error .assertionError
  | none =>
    let r := autoLoop args {} []
    .ok (autoLoop (kwargs.map Prod.snd) r.1 r.2)

/-- `make_optimizable(func, *args, dof_indicators=…, **kwargs)` (L1649, L1679-1729, L1772); `cls` is the class
    created by this call. -/
def make (cfg : Cfg V) (cls : Nat) (args : List (Arg V A)) (kwargs : List (String × Arg V A))
    (ind : Option (List String)) : M V (Temp V A) := do
  if (kwargs.map Prod.fst).any (fun k => k == "func" || k == "self") then throw .typeError
  let p ← liftG (split args kwargs ind)
  let xs ← liftG (asNums p.1.dofs)
  let os ← liftG (asObjs p.1.opts)
  let i ← new cfg cls (.fresh { x := some xs }) false os false
  pure { oid := i, argLen := args.length, kwargKeys := kwargs.map Prod.fst, nonDofs := p.1.nonDofs, ind := p.2 }

/-- The three counters of `J` (L1737-1739). -/
structure Ctr where
  opt : Nat := 0
  dof : Nat := 0
  nonDof : Nat := 0

/-- One iteration of the loops of `J` (L1741-1752, L1754-1767): the argument put at position `i`, and the counters. -/
def pick (ps : List Nat) (xs : List V) (t : Temp V A) (i : Nat) (c : Ctr) : Except Err (Arg V A × Ctr) :=
  match t.ind[i]? with
  | none => .error .indexError
  | some k =>
    if k = "opt" then
      match ps[c.opt]? with
      | some o => .ok (.obj o, { c with opt := c.opt + 1 })
      | none => .error .indexError
    else if k = "dof" then
      match xs[c.dof]? with
      | some v => .ok (.num v, { c with dof := c.dof + 1 })
      | none => .error .indexError
    else if k = "non-dof" then
      match t.nonDofs[c.nonDof]? with
      | some a => .ok (a, { c with nonDof := c.nonDof + 1 })
      | none => .error .indexError
    else .error .valueError

/-- `n` iterations starting at position `i`. -/
def pickLoop (ps : List Nat) (xs : List V) (t : Temp V A) : Nat → Nat → Ctr → Except Err (List (Arg V A) × Ctr)
  | 0, _, c => .ok ([], c)
  | n + 1, i, c =>
    match pick ps xs t i c with
    | .error e => .error e
    | .ok (a, c) =>
      match pickLoop ps xs t n (i + 1) c with
      | .error e => .error e
      | .ok (l, c) => .ok (a :: l, c)

/-- `J()` (L1731-1770) up to the call of `func`. -/
def J (s : State V) (t : Temp V A) : Except Err (Call V A) :=
  let xs := (s.dof (s.obj t.oid).dofs).fullX
  let ps := (s.obj t.oid).parents
  match pickLoop ps xs t t.argLen 0 {} with
  | .error e => .error e
  | .ok (args, c) =>
    match pickLoop ps xs t t.kwargKeys.length t.argLen c with
    | .error e => .error e
    | .ok (vals, _) => .ok { args := args, kwargs := t.kwargKeys.zip vals }

end Simsopt.MakeOpt
