import Verif.PyList
/-!
# Model of the graph serialisation (simsopt/_core/json.py)

Objects live in a heap; an object is its module, class, name and the list of attributes `as_dict` writes (constructor arguments, and `dofs` of
an Optimizable, optimizable.py L1571-1576).  Numbers, booleans, None and NumPy arrays are atoms: their own JSON encoding (`GSONEncoder.default`,
`json.dumps`) is not modelled.  Dict keys are strings.  A depth parameter models Python's recursion limit: running out raises RecursionError.
-/
namespace Simsopt.Gson
open Simsopt

/-- Python values as `recursive_as_dict` sees them. -/
inductive Val (A : Type) where
  | atom (a : A)
  | str (s : String)
  | list (l : List (Val A))
  | tuple (l : List (Val A))
  | dict (l : List (String × Val A))
  /-- a GSONable object -/
  | ref (o : Nat)
  /-- the bound method `o.f`: `f.__module__`, `f.__qualname__` -/
  | meth (o : Nat) (mod qual : String)

/-- JSON documents. -/
inductive J (A : Type) where
  | atom (a : A)
  | str (s : String)
  | arr (l : List (J A))
  | dict (l : List (String × J A))

structure Obj (A : Type) where
  mod : String
  cls : String
  name : String
  version : J A
  args : List (String × Val A)

abbrev Heap (A : Type) := Nat → Obj A

/-- `serial_objs_dict`. -/
abbrev Objs (A : Type) := List (String × J A)

/-- `d[k] = v` of a Python dict: an existing key keeps its position. -/
def assign {B : Type} (k : String) (v : B) : List (String × B) → List (String × B)
  | [] => [(k, v)]
  | (k', v') :: r => if k' = k then (k, v) :: r else (k', v') :: assign k v r

/-- `d.get(k)`. -/
def get? {B : Type} (k : String) : List (String × B) → Option B
  | [] => none
  | (k', v') :: r => if k' = k then some v' else get? k r

/-- `k in d`. -/
def hasKey {B : Type} (k : String) (d : List (String × B)) : Bool := (get? k d).isSome

/-- A list comprehension whose elements are computed with a state. -/
def mapS {S X Y : Type} (f : X → S → Except Err (Y × S)) : List X → S → Except Err (List Y × S)
  | [], s => .ok ([], s)
  | x :: xs, s => match f x s with
    | .error e => .error e
    | .ok (y, s1) => match mapS f xs s1 with
      | .error e => .error e
      | .ok (ys, s2) => .ok (y :: ys, s2)

/-- A dict comprehension `{k: f(v) for k, v in d.items()}`. -/
def mapD {S X Y : Type} (f : X → S → Except Err (Y × S)) (d : List (String × X)) (s : S) : Except Err (List (String × Y) × S) :=
  mapS (fun kv s => match f kv.2 s with
    | .error e => .error e
    | .ok (y, s1) => .ok ((kv.1, y), s1)) d s

/-- `{"$type": "ref", "value": name}` (json.py L153, L205, L323). -/
def refDoc {A : Type} (name : String) : J A := .dict [("$type", .str "ref"), ("value", .str name)]

/-- The dict `as_dict` returns (L124-167) for given encoded attributes. -/
def objDoc {A : Type} (o : Obj A) (args : List (String × J A)) : J A :=
  .dict ([("@module", .str o.mod), ("@class", .str o.cls), ("@name", .str o.name), ("@version", o.version)] ++ args)

/-- `recursive_as_dict` (L141-154, L192-206, L312-324), which calls `as_dict` of objects (L120-185) and `_serialize_callable` (L625-652). -/
def enc {A : Type} (H : Heap A) : Nat → Val A → Objs A → Except Err (J A × Objs A)
  | 0, _, _ => .error .recursionError
  | _ + 1, .atom a, s => .ok (.atom a, s)
  | _ + 1, .str t, s => .ok (.str t, s)
  | n + 1, .list l, s => match mapS (enc H n) l s with
    | .error e => .error e
    | .ok (js, s1) => .ok (.arr js, s1)
  | n + 1, .tuple l, s => match mapS (enc H n) l s with
    | .error e => .error e
    | .ok (js, s1) => .ok (.arr js, s1)
  | n + 1, .dict l, s => match mapD (enc H n) l s with
    | .error e => .error e
    | .ok (js, s1) => .ok (.dict js, s1)
  | n + 1, .ref o, s =>
    if hasKey (H o).name s then .ok (refDoc (H o).name, s)
    else match mapD (enc H n) (H o).args s with
      | .error e => .error e
      | .ok (js, s1) => .ok (refDoc (H o).name, assign (H o).name (objDoc (H o) js) s1)
  | n + 1, .meth o mod qual, s => match mapD (enc H n) (H o).args s with
    | .error e => .error e
    | .ok (js, s1) => .ok (.dict [("@module", .str mod), ("@callable", .str qual), ("@bound", objDoc (H o) js)], s1)

/-- `SIMSON(root).as_dict()` (L294-330): the `graph` and `simsopt_objs` parts of the document. -/
def save {A : Type} (H : Heap A) (depth : Nat) (root : Val A) : Except Err (J A × Objs A) := enc H depth root []

/-! ### Loading -/

/-- An object built by the decoder: the class called and the keyword arguments. -/
structure New (A : Type) where
  mod : String
  cls : String
  args : List (String × Val A)

/-- `recon_objs` and the objects constructed so far, in the order of construction. -/
structure DSt (A : Type) where
  recon : List (String × Val A)
  heap : List (New A)

def DSt.register {A : Type} (s : DSt A) (name : String) (v : Val A) : DSt A := ⟨assign name v s.recon, s.heap⟩
def DSt.alloc {A : Type} (s : DSt A) (o : New A) : DSt A := ⟨s.recon, s.heap ++ [o]⟩

/-- `GSONable.REDIRECT`: module, class to new module, new class. -/
abbrev Redirect := List (String × List (String × (String × String)))

/-- The redirection in `process_decoded` (L458-464): the second lookup uses the new module name. -/
def redirect (T : Redirect) (modname classname : String) : Except Err (String × String) :=
  if hasKey classname ((get? modname T).getD []) then
    match get? modname T with
    | none => .error .keyError
    | some t => match get? classname t with
      | none => .error .keyError
      | some p =>
        let modname := p.1
        match get? modname T with
        | none => .error .keyError
        | some t => match get? classname t with
          | none => .error .keyError
          | some p => .ok (modname, p.2)
  else .ok (modname, classname)

/-- `k.startswith("@")`. -/
def isMeta (k : String) : Bool := match k.toList with | '@' :: _ => true | _ => false

/-- `process_decoded` (L446-560).  `known m c`: module `m` can be imported and has a class `c` with `from_dict` (the default one, L210-218);
    the special classes of datetime, uuid, numpy, pandas and bson are atoms here.  Constructors do not raise. -/
def dec {A : Type} (T : Redirect) (known : String → String → Bool) (objs : Objs A) : Nat → J A → DSt A → Except Err (Val A × DSt A)
  | 0, _, _ => .error .recursionError
  | _ + 1, .atom a, s => .ok (.atom a, s)
  | _ + 1, .str t, s => .ok (.str t, s)
  | n + 1, .arr l, s => match mapS (dec T known objs n) l s with
    | .error e => .error e
    | .ok (vs, s1) => .ok (.list vs, s1)
  | n + 1, .dict l, s =>
    match get? "$type" l with
    | some (.str "ref") =>
      match get? "value" l with
      | some (.str name) =>
        match get? name s.recon with
        | some v => .ok (v, s)
        | none => match get? name objs with
          | none => .error .keyError
          | some sub => match dec T known objs n sub s with
            | .error e => .error e
            | .ok (v, s1) => .ok (v, s1.register name v)
      | some _ => .error .typeError
      | none => .error .keyError
    | _ =>
      match get? "@module" l, get? "@class" l, get? "@callable" l with
      | some (.str m), some (.str c), _ =>
        match redirect T m c with
        | .error e => .error e
        | .ok (m, c) =>
          if known m c then
            match mapD (dec T known objs n) (l.filter fun kv => !isMeta kv.1) s with
            | .error e => .error e
            | .ok (args, s1) =>
              let v := Val.ref s1.heap.length
              let s2 := s1.alloc ⟨m, c, args⟩
              match get? "@name" l with
              | some (.str name) => .ok (v, s2.register name v)
              | _ => .ok (v, s2)
          else match mapD (dec T known objs n) l s with
            | .error e => .error e
            | .ok (d, s1) => .ok (.dict d, s1)
      | some (.str m), _, some (.str q) =>
        match get? "@bound" l with
        | some b => match dec T known objs n b s with
          | .error e => .error e
          | .ok (.ref o, s1) => .ok (.meth o m q, s1)
          | .ok (v, s1) => .ok (v, s1)
        | none => .error .keyError
      | _, _, _ => match mapD (dec T known objs n) l s with
        | .error e => .error e
        | .ok (d, s1) => .ok (.dict d, s1)

/-- `load(filename)` (optimizable.py L1614-1632; `SIMSON.from_dict`, json.py L332-339): the loaded value and the objects constructed. -/
def load {A : Type} (T : Redirect) (known : String → String → Bool) (depth : Nat) (doc : J A × Objs A) : Except Err (Val A × List (New A)) :=
  match dec T known doc.2 depth doc.1 ⟨[], []⟩ with
  | .error e => .error e
  | .ok (v, s) => .ok (v, s.heap)

end Simsopt.Gson
