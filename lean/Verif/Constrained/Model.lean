import Verif.Constrained.Attached
/-!
# Model of `ConstrainedProblem` (simsopt/objectives/constrained.py)

Simplifications: function values are finite numbers or 1-d arrays of numbers of an ordered field, bounds may in addition be infinite (no NaN);
extra `*args, **kwargs` are not passed; the linear constraints (only stored, L89-95) are not modelled; absent and `None` caches are
not distinguished (the caches are set to `None` by the first evaluation because a new object has `new_x` set).
-/
namespace Simsopt.Constrained
open Simsopt Simsopt.LSq
open Simsopt.Graph (State Cfg Op)
variable {V R : Type}

/-- A number or an infinity. -/
inductive Ext (R : Type) where
  | ninf
  | fin (r : R)
  | pinf
  deriving DecidableEq

/-- `np.isfinite`. -/
def Ext.isFinite : Ext R → Bool
  | .fin _ => true
  | _ => false

/-- `l - c`. -/
def Ext.minus [Sub R] : Ext R → R → Ext R
  | .ninf, _ => .ninf
  | .fin l, c => .fin (l - c)
  | .pinf, _ => .pinf

/-- `c - u`. -/
def minusExt [Sub R] (c : R) : Ext R → Ext R
  | .ninf => .pinf
  | .fin u => .fin (c - u)
  | .pinf => .ninf

/-- NumPy broadcasting of two scalars or 1-d arrays: the pairs that an elementwise operation combines, `none` if the shapes do not fit. -/
def bcast {α β : Type} : Out α → Out β → Option (List (α × β))
  | .scalar a, .scalar b => some [(a, b)]
  | .scalar a, .array l => some (l.map fun b => (a, b))
  | .array l, .scalar b => some (l.map fun a => (a, b))
  | .array l, .array m =>
    if l.length = m.length then some (l.zip m)
    else match l, m with
      | [a], _ => some (m.map fun b => (a, b))
      | _, [b] => some (l.map fun a => (a, b))
      | _, _ => none

/-- One entry `(c, l, u)` of `tuples_nlc`. -/
structure Con (V R : Type) where
  fn : Bound V R
  lhs : Out (Ext R)
  rhs : Out (Ext R)

/-- Attributes (L72-87). `funcs_in = [f_obj, *f_nlc]`; `cons = none` stands for `has_nlc = False`. -/
structure Prob (V R : Type) where
  self : Nat
  fail : Option R
  obj : Bound V R
  cons : Option (List (Con V R))
  nvals : Nat := 0
  firstObj : Bool := true
  firstCon : Bool := true
  objCache : Option (Out R) := none
  conCache : Option (List (Ext R)) := none

/-- `self.funcs_in[1:]` with the bounds. -/
def Prob.nlc (p : Prob V R) : List (Con V R) := p.cons.getD []

/-- L201, L204-205: store the objective. -/
def Prob.keepObj (p : Prob V R) (o : Out R) : Prob V R := { p with objCache := some o, firstObj := false }

/-- L150-151, L158-159: `if self.first_eval_con: self.nvals += len(output)`. -/
def Prob.count (p : Prob V R) (n : Nat) : Prob V R := if p.firstCon then { p with nvals := p.nvals + n } else p

/-- L162-163: `if self.first_eval_con: self.first_eval_con = False`. -/
def Prob.pastFirst (p : Prob V R) : Prob V R := { p with firstCon := false }

/-- L164, L169: store the constraint vector. -/
def Prob.keepCon (p : Prob V R) (c : List (Ext R)) : Prob V R := { p with conCache := some c }

/-- `self.funcs_in`. -/
def Prob.funcs (p : Prob V R) : List (Bound V R) := p.obj :: p.nlc.map (·.fn)

structure World (V R : Type) where
  g : State V
  p : Prob V R

abbrev Res (V R α : Type) := EStateM.Result Err (World V R) α

/-- `np.any(self.x != x)`; `none`: the comparison (or the assignment that older versions of NumPy go on to) raises `ValueError`. -/
def differs [DecidableEq V] (cur v : List V) : Option Bool :=
  (bcast (.array cur) (.array v)).map fun l => l.any fun e => decide (e.1 ≠ e.2)

/-- L113-116, L181-184: `if x is not None: if np.any(self.x != x): self.x = x`. -/
def assignX [DecidableEq V] (cfg : Cfg V) (x : Option (List V)) (w : World V R) : Res V R Unit :=
  match x with
  | none => .ok () w
  | some v =>
    match differs (Graph.getX w.g w.p.self) v with
    | none => .error .valueError w
    | some false => .ok () w
    | some true =>
      match Graph.setX cfg w.p.self v w.g with
      | .ok _ g => .ok () { w with g := g }
      | .error e g => .error e { w with g := g }

/-- L118-121, L186-189: `if self.new_x: objective_cache = constraint_cache = None`. -/
def empty (w : World V R) : World V R :=
  if (w.g.obj w.p.self).newX then { w with p := { w.p with objCache := none, conCache := none } } else w

/-- L191-209. -/
def evalObj (w : World V R) : Res V R (Out R) :=
  let finish (o : Out R) : Res V R (Out R) :=
    .ok o { g := lower w.g w.p.self, p := w.p.keepObj o }
  match w.p.objCache with
  | some o => .ok o w
  | none =>
    match w.p.obj.call w.g with
    | .ok o => finish o
    | .error .objectiveFailure =>
      match w.p.fail with
      | none => .error .objectiveFailure w
      | some v => if w.p.firstObj then .error .objectiveFailure w else finish (.scalar v)
    | .error e => .error e w

/-- `objective(x)` (L172-209). -/
def objective [DecidableEq V] (cfg : Cfg V) (x : Option (List V)) (w : World V R) : Res V R (Out R) :=
  match assignX cfg x w with
  | .error e w' => .error e w'
  | .ok _ w' => evalObj (empty w')

section
variable [Sub R]
/-- One side of one constraint (L143-159): absent if the bound has no finite entry. -/
def side (bound : Out (Ext R)) (pairs : Option (List (Ext R))) : Except Err (List (List (Ext R))) :=
  if bound.toArray.any Ext.isFinite then
    match pairs with
    | none => .error .valueError
    | some l => .ok [l]
  else .ok []

/-- The arrays that one constraint adds to `outputs`, and the number of values that it adds to `nvals` in a first evaluation. -/
def sides (c : Con V R) (out : Out R) : Except Err (List (List (Ext R))) × Nat :=
  match side c.lhs ((bcast c.lhs out).map fun l => l.map fun e => e.1.minus e.2) with
  | .error e => (.error e, 0)
  | .ok a =>
    match side c.rhs ((bcast out c.rhs).map fun l => l.map fun e => minusExt e.1 e.2) with
    | .error e => (.error e, a.flatten.length)
    | .ok b => (.ok (a ++ b), (a ++ b).flatten.length)

inductive LoopRes (R : Type) where
  | done (outputs : List (List (Ext R)))
  | failed
  | raised (e : Err)

/-- The loop L130-159. -/
def conLoop (g : State V) : List (Con V R) → LoopRes R × Nat
  | [] => (.done [], 0)
  | c :: l =>
    match c.fn.call g with
    | .error .objectiveFailure => (.failed, 0)
    | .error e => (.raised e, 0)
    | .ok out =>
      match sides c out with
      | (.error e, n) => (.raised e, n)
      | (.ok o, n) =>
        match conLoop g l with
        | (.done os, m) => (.done (o ++ os), n + m)
        | (r, m) => (r, n + m)

/-- L123-170. `np.concatenate` of no arrays raises `ValueError`, after `first_eval_con` has been cleared. -/
def evalCon (w : World V R) : Res V R (List (Ext R)) :=
  match w.p.cons with
  | none => .error .runtimeError w
  | some cons =>
    match w.p.conCache with
    | some c => .ok c w
    | none =>
      let r := conLoop w.g cons
      let p := w.p.count r.2
      match r.1 with
      | .raised e => .error e { w with p := p }
      | .failed =>
        match w.p.fail with
        | none => .error .objectiveFailure { w with p := p }
        | some v =>
          if w.p.firstCon then .error .objectiveFailure { w with p := p }
          else .ok (List.replicate p.nvals (.fin v))
            { g := lower w.g w.p.self, p := p.keepCon (List.replicate p.nvals (.fin v)) }
      | .done os =>
        if os.isEmpty then .error .valueError { w with p := p.pastFirst }
        else .ok os.flatten { g := lower w.g w.p.self, p := p.pastFirst.keepCon os.flatten }

/-- `nonlinear_constraints(x)` (L103-170). -/
def constraints [DecidableEq V] (cfg : Cfg V) (x : Option (List V)) (w : World V R) : Res V R (List (Ext R)) :=
  match assignX cfg x w with
  | .error e w' => .error e w'
  | .ok _ w' => evalCon (empty w')

/-- `all_funcs(x)` (L211-225); an array-valued objective cannot be concatenated with the constraints (without constraints it would become a
    2-d array, which is not modelled). -/
def allFuncs [DecidableEq V] (cfg : Cfg V) (x : Option (List V)) (w : World V R) : Res V R (List (Ext R)) :=
  match objective cfg x w with
  | .error e w' => .error e w'
  | .ok o w' =>
    match w'.p.cons with
    | none => match o with
      | .scalar f => .ok [.fin f] w'
      | .array _ => .error .valueError w'
    | some _ =>
      match constraints cfg x w' with
      | .error e w2 => .error e w2
      | .ok c w2 => match o with
        | .scalar f => .ok (.fin f :: c) w2
        | .array _ => .error .valueError w2
end

/-- `__init__` (L66-101) without linear constraints: `zip(*[])` cannot be unpacked.  `cls` is the class number of ConstrainedProblem. -/
def create (cfg : Cfg V) (cls : Nat) (g : State V) (obj : Bound V R) (nlc : Option (List (Con V R))) (fail : Option R) :
    Except Err (World V R) :=
  match nlc with
  | some [] => .error .valueError
  | _ =>
    match Graph.new cfg cls (.fresh {}) false ((obj :: (nlc.getD []).map (·.fn)).map (·.owner)) true g with
    | .error e _ => .error e
    | .ok i g' => .ok { g := g', p := { self := i, fail := fail, obj := obj, cons := nlc } }

end Simsopt.Constrained
