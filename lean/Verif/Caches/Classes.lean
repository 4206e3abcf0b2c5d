import Verif.Caches.History
/-!
# The cached classes: curves, rotated curves, Biot-Savart fields, sums and multiples of fields

The numerical functions (shape of a curve, Biot-Savart kernel, …) are parameters: `Math`.  Modelled is which stored data each implementation
reads, which cached quantities it asks for, and which cached arrays it fills.
-/
namespace Simsopt.Caches
open Simsopt
open Simsopt.Graph (State Cfg Op DependsOn SameInputs MirrorInSync)

/-- quantities of curves derived from `gamma` and its derivatives -/
inductive Geo where
  | arclen | darclen | kappa | dkappa | torsion | dtorsion
  deriving DecidableEq

/-- quantities of fields derived from `B`, `A` and their derivatives -/
inductive Fld where
  | absB | gradAbsB | Bcyl | Acyl | gradAbsBcyl
  deriving DecidableEq

/-- magnetic field or vector potential -/
inductive Pot where
  | B | A
  deriving DecidableEq

/-- The cached arrays.  `gamma d`: `gamma`, `gammadash`, … (curve.h L149-160); `dgamma d`: their derivatives by the coefficients (L162-173);
    `pot B d`: `B`, `dB_by_dX`, `d2B_by_dXdX` (magneticfield.h L212-236); `coil B i d`: the arrays `B_i`, `dB_i`, `ddB_i` of the field cache
    (magneticfield_biotsavart.cpp L38-44). -/
inductive Qty where
  | gamma (d : Nat)
  | dgamma (d : Nat)
  | geo (k : Geo)
  | pot (a : Pot) (d : Nat)
  | coil (a : Pot) (i d : Nat)
  | fld (k : Fld)
  deriving DecidableEq

/-- The value of a current object (coil.py L79-136, current.h): `Current`, `ScaledCurrent`, `CurrentSum`. -/
inductive CurExpr (V : Type) where
  | base (o : Nat)
  | scaled (c : V) (e : CurExpr V)
  | sum (a b : CurExpr V)

/-- The `Current` objects a current is made of. -/
def CurExpr.bases {V : Type} : CurExpr V → List Nat
  | .base o => [o]
  | .scaled _ e => e.bases
  | .sum a b => a.bases ++ b.bases

/-- What an object is.  `curve fam`: a curve class with dofs of its own (`fam`: class, order, quadrature points, …); `rotated b r`: a
    `RotatedCurve` of curve `b`; `biotSavart`: the curve and the current of every coil. -/
inductive Kind (V : Type) where
  | other
  | curve (fam : Nat)
  | current
  | rotated (b r : Nat)
  | biotSavart (coils : List (Nat × CurExpr V))
  | multiply (c : V) (f : Nat)
  | sum (fs : List Nat)

def Kind.isField {V : Type} : Kind V → Bool
  | .biotSavart _ => true
  | .multiply _ _ => true
  | .sum _ => true
  | _ => false

/-- The numerical functions. -/
structure Math (V P X : Type) where
  gamma : Nat → Nat → List V → X
  dgamma : Nat → Nat → List V → X
  /-- the class keeps `dgamma_by_dcoeff`, … in the persistent cache (curvexyzfourier.h L79-90, curverzfourier.h L105-116,
      curveplanarfourier.h L96-107) -/
  persist : Nat → Bool
  rot : Nat → X → X
  rotT : Nat → X → X
  geo : Geo → List X → X
  cur : List V → V
  scale : V → V → V
  plus : V → V → V
  /-- kernel of one coil (biot_savart_impl.h): field, derivative order, points, `gamma`, `gammadash` -/
  ker : Pot → Nat → P → X → X → X
  lin : List (V × X) → X
  times : V → X → X
  add : List X → X
  fld : Fld → P → List X → X
  zero : X

variable {V P X : Type}

/-- `get_value` (current.h L20, coil.py L117-118, L135-136); `vals o`: the dofs held by the `Current` object `o`. -/
def CurExpr.value (M : Math V P X) (vals : Nat → List V) : CurExpr V → V
  | .base o => M.cur (vals o)
  | .scaled c e => M.scale c (e.value M vals)
  | .sum a b => M.plus (a.value M vals) (b.value M vals)

/-- curve.cpp L37-56, curve.py L186-246. -/
def Geo.inputs : Geo → List Qty
  | .arclen => [.gamma 1]
  | .darclen => [.gamma 1, .dgamma 1, .geo .arclen]
  | .kappa => [.gamma 1, .gamma 2]
  | .dkappa => [.gamma 1, .gamma 2, .dgamma 1, .dgamma 2, .geo .arclen]
  | .torsion => [.gamma 1, .gamma 2, .gamma 3]
  | .dtorsion => [.gamma 1, .gamma 2, .gamma 3, .dgamma 1, .dgamma 2, .dgamma 3]

/-- magneticfield.h L77-131. -/
def Fld.inputs : Fld → List Qty
  | .absB => [.pot .B 0]
  | .gradAbsB => [.pot .B 0, .pot .B 1]
  | .Bcyl => [.pot .B 0]
  | .Acyl => [.pot .A 0]
  | .gradAbsBcyl => [.fld .gradAbsB]

/-- Evaluate the listed quantities and go on with their values. -/
def askAll : List (Nat × Qty) → (List X → Prog Qty X) → Prog Qty X
  | [], k => k []
  | (o, q) :: l, k => .call o q (fun x => askAll l (fun xs => k (x :: xs)))

/-- Keys of the arrays filled by `compute(d)` for `n` coils (magneticfield_biotsavart.cpp L21-47). -/
def computeKeys (a : Pot) (n d : Nat) : List Qty :=
  (List.range (d + 1)).map (fun e => .pot a e) ++ (List.range (d + 1)).flatMap (fun e => (List.range n).map (fun i => .coil a i e))

/-- The arrays of `gamma` and `gammadash` of every coil, in the order they are asked for. -/
def pairs (zero : X) (xs : List X) (i : Nat) : X × X := (xs.getD (2 * i) zero, xs.getD (2 * i + 1) zero)

/-- The content of the array with the given key after `compute`: the kernels of the coils and their sums weighted with the currents
    (magneticfield_biotsavart.cpp L49-88, L131-177). -/
def computeVal (M : Math V P X) (vals : Nat → List V) (p : P) (coils : List (Nat × CurExpr V)) (xs : List X) : Qty → X
  | .pot a e => M.lin (coils.zipIdx.map (fun ci => (ci.1.2.value M vals, M.ker a e p (pairs M.zero xs ci.2).1 (pairs M.zero xs ci.2).2)))
  | .coil a i e => M.ker a e p (pairs M.zero xs i).1 (pairs M.zero xs i).2
  | _ => M.zero

/-- `BiotSavart::compute(d)` and `compute_A(d)` (magneticfield_biotsavart.cpp L13-88, L92-177): ask the curves of all coils, fill the arrays.
    Simplification: the currents are read at the end only. -/
def compute (M : Math V P X) (vals : Nat → List V) (p : P) (coils : List (Nat × CurExpr V)) (a : Pot) (d : Nat) : Prog Qty X :=
  askAll (coils.flatMap (fun c => [(c.1, .gamma 0), (c.1, .gamma 1)])) (fun xs =>
    .done ((computeKeys a coils.length d).map (fun q => (q, computeVal M vals p coils xs q))))

/-- The dofs on the C++ side. -/
def exts (g : State V) (o : Nat) : List V := (g.obj o).ext

/-- The implementations.  Curves: curvexyzfourier.cpp etc. read the C++ copy of the dofs; `RotatedCurve` curve.py L657-751 (with the
    quadrature points of the base curve); derived quantities; `BiotSavart` magneticfield_biotsavart.h L74-96; `MagneticFieldMultiply` and
    `MagneticFieldSum` magneticfield.py L174-190, L223-239.  Everything else raises. -/
def impl (M : Math V P X) (kind : Nat → Kind V) (g : State V) (p : P) (o : Nat) (q : Qty) : Prog Qty X :=
  match kind o, q with
  | .curve fam, .gamma d => .done [(.gamma d, M.gamma fam d (exts g o))]
  | .curve fam, .dgamma d => .done [(.dgamma d, M.dgamma fam d (exts g o))]
  | .curve _, .geo k => askAll (k.inputs.map (fun q => (o, q))) (fun xs => .done [(.geo k, M.geo k xs)])
  | .rotated b r, .gamma d => askAll [(b, .gamma d)] (fun xs => .done [(.gamma d, M.rot r (xs.headD M.zero))])
  | .rotated b r, .dgamma d => askAll [(b, .dgamma d)] (fun xs => .done [(.dgamma d, M.rotT r (xs.headD M.zero))])
  | .rotated _ _, .geo k => askAll (k.inputs.map (fun q => (o, q))) (fun xs => .done [(.geo k, M.geo k xs)])
  | .biotSavart cs, .pot a d => if d ≤ 2 then compute M (exts g) p cs a d else .raise
  | .biotSavart cs, .coil a i d => if d ≤ 2 ∧ i < cs.length then compute M (exts g) p cs a d else .raise
  | .biotSavart _, .fld k => askAll (k.inputs.map (fun q => (o, q))) (fun xs => .done [(.fld k, M.fld k p xs)])
  | .multiply c f, .pot a d => askAll [(f, .pot a d)] (fun xs => .done [(.pot a d, M.times c (xs.headD M.zero))])
  | .multiply _ _, .fld k => askAll (k.inputs.map (fun q => (o, q))) (fun xs => .done [(.fld k, M.fld k p xs)])
  | .sum fs, .pot a d => askAll (fs.map (fun f => (f, .pot a d))) (fun xs => .done [(.pot a d, M.add xs)])
  | .sum _, .fld k => askAll (k.inputs.map (fun q => (o, q))) (fun xs => .done [(.fld k, M.fld k p xs)])
  | _, _ => .raise

/-- `get_or_create` at the start of `compute`: zeroed and marked valid.  Simplification: the arrays of the single coils are marked one by one
    between the evaluations of the curves; the model marks all of them at the start. -/
def earlyOf (M : Math V P X) (kind : Nat → Kind V) (o : Nat) (q : Qty) : List (Qty × X) :=
  match kind o, q with
  | .biotSavart cs, .pot a d => if d ≤ 2 then (computeKeys a cs.length d).map (fun q => (q, M.zero)) else []
  | .biotSavart cs, .coil a i d => if d ≤ 2 ∧ i < cs.length then (computeKeys a cs.length d).map (fun q => (q, M.zero)) else []
  | _, _ => []

def persistentOf (M : Math V P X) (kind : Nat → Kind V) (o : Nat) (q : Qty) : Bool :=
  match kind o, q with
  | .curve fam, .dgamma _ => M.persist fam
  | _, _ => false

/-- `_set_points_cb` (magneticfield.py L171-172, L219-221). -/
def compsOf (kind : Nat → Kind V) (o : Nat) : List Nat :=
  match kind o with
  | .multiply _ f => [f]
  | .sum fs => fs
  | _ => []

/-- The objects described by `kind`. -/
def sys (M : Math V P X) (kind : Nat → Kind V) : Sys V P Qty X where
  impl := impl M kind
  early := earlyOf M kind
  persistent := persistentOf M kind
  guarded := fun o => (kind o).isField
  comps := compsOf kind
  zero := M.zero

/-- `dB_by_dcoilcurrents`, `d2B_by_dXdcoilcurrents`, `d3B_…` for `a = B` and `dA_by_dcoilcurrents`, … for `a = A` (biotsavart.py L30-58,
    L121-149): if an array `a_i` is not valid, call `compute` -- for `A` as well, not `compute_A`; then return the arrays `a_i`, marked valid
    (`fieldcache_get_or_create`). -/
def byCurrents (M : Math V P X) (kind : Nat → Kind V) (n : Nat) (a : Pot) (ncoils o d : Nat) (w : World V P Qty X) :
    Option (List X) × World V P Qty X :=
  let get (w : World V P Qty X) : Option (List X) × World V P Qty X :=
    (some ((List.range ncoils).map (fun i => (w.cache o (.coil a i d)).data)), (List.range ncoils).foldl (fun w i => w.mark o (.coil a i d)) w)
  if (List.range ncoils).any (fun i => !(w.cache o (.coil a i d)).status) then
    match force (eval (sys M kind) n) (sys M kind) o (.pot .B d) w with
    | (none, w1) => (none, w1)
    | (some _, w1) => get w1
  else get w

end Simsopt.Caches
