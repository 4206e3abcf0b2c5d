import Verif.PyList
/-!
# Model of class `Derivative` (simsopt/_core/derivative.py)

NumPy arrays and Derivative objects live in a heap, because half of the operations work in place and
the question which results share arrays with which arguments is observable.
Keys are Optimizables (`K`, compared by `==`; that this is identity is property C11).
Simplification: every `Derivative` owns its dict (`Derivative.__init__`, L119-120, copies the dict it is
given), so the dict is stored inside the Derivative object.  Array dtype is not modelled.
-/
namespace Simsopt.Deriv
open Simsopt

variable {K V : Type}

/-- Arrays `0 .. next-1` and Derivative objects `0 .. nder-1`; a Derivative is an insertion-ordered dict from
    Optimizables to array references. -/
structure Heap (K V : Type) where
  next : Nat
  arr : Nat → List V
  nder : Nat
  der : Nat → List (K × Nat)

abbrev M (K V α : Type) := EStateM Err (Heap K V) α

/-- The empty heap. -/
def Heap.empty : Heap K V := { next := 0, arr := fun _ => [], nder := 0, der := fun _ => [] }

def upd {α : Type} (f : Nat → α) (i : Nat) (v : α) : Nat → α := fun j => if j = i then v else f j

/-- a new array with the given content -/
def alloc (l : List V) : M K V Nat := fun h =>
  .ok h.next { h with next := h.next + 1, arr := upd h.arr h.next l }

/-- a new Derivative object owning `d` (L119-120) -/
def allocDer (d : List (K × Nat)) : M K V Nat := fun h =>
  .ok h.nder { h with nder := h.nder + 1, der := upd h.der h.nder d }

/-- content of array `a` -/
def read (a : Nat) : M K V (List V) := fun h => .ok (h.arr a) h

/-- overwrite array `a` in place -/
def write (a : Nat) (l : List V) : M K V Unit := fun h => .ok () { h with arr := upd h.arr a l }

/-- the dict of Derivative `i` -/
def dict (i : Nat) : M K V (List (K × Nat)) := fun h => .ok (h.der i) h

/-- `k in d` / `d[k]` -/
def find [DecidableEq K] (d : List (K × Nat)) (k : K) : Option Nat :=
  (d.find? (fun e => e.1 = k)).map (·.2)

/-- NumPy `a op= b` for one-dimensional arrays: equal shapes, or `b` of length 1 is broadcast, otherwise `ValueError`. -/
def inplace (op : V → V → V) (a b : List V) : Except Err (List V) :=
  if a.length = b.length then .ok (List.zipWith op a b)
  else match b with
    | [y] => .ok (a.map (fun x => op x y))
    | _ => .error .valueError

def lift {α : Type} (e : Except Err α) : M K V α := fun h =>
  match e with
  | .ok a => .ok a h
  | .error e => .error e h

/-- `copy_numpy_dict` (L24-28). -/
def copyDict : List (K × Nat) → M K V (List (K × Nat))
  | [] => pure []
  | e :: l => do
    let v ← read e.2
    let a ← alloc v
    let r ← copyDict l
    pure ((e.1, a) :: r)

/-- The loop body shared by `__add__`, `__sub__`, `__iadd__`, `__isub__` (L126-130, L137-141, L147-151, L157-161): for each
    entry of the right operand, update in place if the key is present, else insert a new array `new v`. -/
def mergeInto [DecidableEq K] (op : V → V → V) (new : V → V) : List (K × Nat) → List (K × Nat) → M K V (List (K × Nat))
  | z, [] => pure z
  | z, e :: y => do
    let v ← read e.2
    match find z e.1 with
    | some a =>
      let w ← read a
      let r ← lift (inplace op w v)
      write a r
      mergeInto op new z y
    | none =>
      let a ← alloc (v.map new)
      mergeInto op new (z ++ [(e.1, a)]) y

section
variable [DecidableEq K] [Add V] [Sub V] [Neg V] [Mul V] [Zero V]

/-- `Derivative({k: array})` from freshly built arrays (L119-120). -/
def mk (l : List (K × List V)) : M K V Nat := do
  let rec go : List (K × List V) → M K V (List (K × Nat))
    | [] => pure []
    | e :: l => do
      let a ← alloc e.2
      let r ← go l
      pure ((e.1, a) :: r)
  let d ← go l
  allocDer d

/-- `__add__` (L122-131). -/
def add (i j : Nat) : M K V Nat := do
  let x ← dict i
  let y ← dict j
  let z ← copyDict x
  let z ← mergeInto (· + ·) id z y
  allocDer z

/-- `__sub__` (L133-142). -/
def sub (i j : Nat) : M K V Nat := do
  let x ← dict i
  let y ← dict j
  let z ← copyDict x
  let z ← mergeInto (· - ·) (fun v => -v) z y
  allocDer z

/-- write back the dict of Derivative `i` -/
def setDict (i : Nat) (d : List (K × Nat)) : M K V Unit := fun h => .ok () { h with der := upd h.der i d }

/-- `__iadd__` (L144-152): in place, returns `self`. -/
def iadd (i j : Nat) : M K V Nat := do
  let x ← dict i
  let y ← dict j
  let z ← mergeInto (· + ·) id x y
  setDict i z
  pure i

/-- `__isub__` (L154-162): in place, returns `self`. -/
def isub (i j : Nat) : M K V Nat := do
  let x ← dict i
  let y ← dict j
  let z ← mergeInto (· - ·) (fun v => -v) x y
  setDict i z
  pure i

/-- `for k in x: x[k] *= other` (L167-168). -/
def scaleAll (c : V) : List (K × Nat) → M K V Unit
  | [] => pure ()
  | e :: l => do
    let v ← read e.2
    write e.2 (v.map (fun x => x * c))
    scaleAll c l

/-- `__mul__`, `__rmul__` (L164-176). -/
def mul (i : Nat) (c : V) : M K V Nat := do
  let x ← dict i
  let z ← copyDict x
  scaleAll c z
  allocDer z

/-- `__radd__` (L219-223) with the start value `0` of `sum`: returns `self`. -/
def radd0 (i : Nat) : M K V Nat := pure i

/-- `sum(list of Derivatives)`: `0 + d1 + d2 + ...` (used at optimizable.py L1850, utilities.py L140). The empty sum is the int 0,
    `none` here. -/
def sum : List Nat → M K V (Option Nat)
  | [] => pure none
  | i :: l => do
    let a ← radd0 i
    let r ← l.foldlM (fun a j => add a j) a
    pure (some r)

/-- `self.data[opt]` through `OptimizableDefaultDict.__missing__` (L18-22): a missing key is inserted with a zero array of
    `local_full_dof_size` entries. -/
def getItem (size : K → Nat) (i : Nat) (k : K) : M K V Nat := do
  let d ← dict i
  match find d k with
  | some a => pure a
  | none =>
    let a ← alloc (List.replicate (size k) 0)
    setDict i (d ++ [(k, a)])
    pure a

/-- What `__call__` reads of one member `k` of `optim.unique_dof_lineage`. -/
structure Block (K : Type) where
  /-- `k.dofs.dep_opts()` -/
  opts : List K
  /-- `np.any(k.dofs_free_status)`: some dof of `k` *or of an ancestor of it* is free -/
  anyFree : Bool
  /-- `local_dofs_free_status` of `k` and of every object sharing its DOFs -/
  free : List Bool

/-- NumPy boolean-mask read; the mask must have the length of the array. -/
def maskRead (v : List V) (m : List Bool) : Except Err (List V) :=
  if v.length = m.length then .ok (gather m v) else .error .indexError

/-- `local_derivs += self.data[opt][opt.local_dofs_free_status]` over `dep_opts()` (L211-212). -/
def accumulate (size : K → Nat) (i : Nat) (free : List Bool) : List K → List V → M K V (List V)
  | [], acc => pure acc
  | k :: l, acc => do
    let a ← getItem size i k
    let v ← read a
    let g ← lift (maskRead v free)
    let acc ← lift (inplace (· + ·) acc g)
    accumulate size i free l acc

/-- the loop L208-213 -/
def gradBlocks (size : K → Nat) (i : Nat) : List (Block K) → M K V (List (List V))
  | [] => pure []
  | b :: bs => do
    if b.anyFree then
      let g ← accumulate size i b.free b.opts (List.replicate (countTrue b.free) 0)
      let r ← gradBlocks size i bs
      pure (g :: r)
    else gradBlocks size i bs

/-- `__call__(optim)` (L178-214): `np.concatenate` of an empty list raises `ValueError`. -/
def call (size : K → Nat) (i : Nat) (bs : List (Block K)) : M K V (List V) := do
  let g ← gradBlocks size i bs
  if g.isEmpty then throw .valueError else pure g.flatten

/-- `__call__(optim, as_derivative=True)` (L192-204): the arrays of the new Derivative are those of the old one; a repeated
    key keeps its position. -/
def callAsDerivative (size : K → Nat) (i : Nat) (bs : List (Block K)) : M K V Nat := do
  let rec go : List K → List (K × Nat) → M K V (List (K × Nat))
    | [], acc => pure acc
    | k :: l, acc => do
      if size k > 0 then
        let a ← getItem size i k
        go l (if (find acc k).isSome then acc else acc ++ [(k, a)])
      else go l acc
  let d ← go (bs.flatMap (·.opts)) []
  allocDer d

/-- Calls that create or change Derivatives. -/
inductive Op (K V : Type) where
  | mk (l : List (K × List V))
  | add (i j : Nat) | sub (i j : Nat) | iadd (i j : Nat) | isub (i j : Nat)
  | mul (i : Nat) (c : V)
  | sum (l : List Nat)
  | call (i : Nat) (bs : List (Block K))

/-- run one call -/
def exec (size : K → Nat) : Op K V → M K V Unit
  | .mk l => discard (mk l)
  | .add i j => discard (add i j)
  | .sub i j => discard (sub i j)
  | .iadd i j => discard (iadd i j)
  | .isub i j => discard (isub i j)
  | .mul i c => discard (mul i c)
  | .sum l => discard (sum l)
  | .call i bs => discard (call size i bs)

end

end Simsopt.Deriv
