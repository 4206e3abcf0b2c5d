import Verif.Graph.Stable
import Verif.Graph.Props2
/-!
# Model of cached quantities (simsoptpp/curve.h, cachedtensor.h, cache.h, magneticfield.h; `recompute_bell` of the Python classes)

Every object has cached quantities.  A cached quantity is returned from the cache if its status is set; otherwise its implementation runs,
which may evaluate cached quantities of other objects (or other quantities of the same object), and writes one or several entries of the
cache of its own object.  The recompute notifications come from the graph model: an object whose `bells` counter grew during an API call had
its `recompute_bell` called.
-/
namespace Simsopt.Caches
open Simsopt
open Simsopt.Graph (State Cfg Op)

/-- What an implementation does: evaluate quantities, then write entries of its own object's cache, or raise. -/
inductive Prog (Q X : Type) where
  | done (writes : List (Q × X))
  | call (o : Nat) (q : Q) (k : X → Prog Q X)
  | raise

/-- `CachedArray` / `CachedTensor` (cachedarray.h L3-8, cachedtensor.h L10-60): the data survive invalidation. -/
structure Entry (X : Type) where
  status : Bool
  data : X

/-- The static description of the objects: their implementations and how they react to notifications. -/
structure Sys (V P Q X : Type) where
  /-- the `_impl` of quantity `q` of object `o`, reading the store and the evaluation points of `o` -/
  impl : State V → P → Nat → Q → Prog Q X
  /-- arrays that the implementation zeroes and marks as valid before asking anything: `get_or_create` at the start of `compute`
      (magneticfield_biotsavart.cpp L21-47, cachedtensor.h L27-35) -/
  early : Nat → Q → List (Q × X)
  /-- quantities kept in `cache_persistent` (curve.h L49-51, L67-77) -/
  persistent : Nat → Q → Bool
  /-- magnetic fields: `recompute_bell` does nothing when no dof is free (magneticfield.py L57-59) -/
  guarded : Nat → Bool
  /-- the fields whose points are set along (`_set_points_cb`: magneticfield.py L171-172, L219-221) -/
  comps : Nat → List Nat
  /-- content of a freshly allocated array -/
  zero : X

structure World (V P Q X : Type) where
  g : State V
  pts : Nat → P
  cache : Nat → Q → Entry X

variable {V P Q X : Type} [DecidableEq Q]

/-- Write entries of object `o` and set their status. -/
def World.write (w : World V P Q X) (o : Nat) : List (Q × X) → World V P Q X
  | [] => w
  | (q, x) :: l =>
    World.write { w with cache := fun o' q' => if o' = o ∧ q' = q then ⟨true, x⟩ else w.cache o' q' } o l

/-- `loc->second.status = true` (curve.h L61-63, cachedtensor.h L52). -/
def World.mark (w : World V P Q X) (o : Nat) (q : Q) : World V P Q X :=
  { w with cache := fun o' q' => if o' = o ∧ q' = q then ⟨true, (w.cache o' q').data⟩ else w.cache o' q' }

/-- `invalidate_cache` (curve.h L104-108, magneticfield.h L153-165, cache.h L62-66): persistent entries stay. -/
def World.invalidate (S : Sys V P Q X) (w : World V P Q X) (o : Nat) : World V P Q X :=
  { w with cache := fun o' q' => if o' = o ∧ S.persistent o q' = false then ⟨false, (w.cache o' q').data⟩ else w.cache o' q' }

/-- Run an implementation of object `o`, evaluating quantities with `ev`. -/
def runProg (ev : Nat → Q → World V P Q X → Option X × World V P Q X) (o : Nat) : Prog Q X → World V P Q X → Bool × World V P Q X
  | .done l, w => (true, w.write o l)
  | .call o' q' k, w => match ev o' q' w with
    | (none, w1) => (false, w1)
    | (some x, w1) => runProg ev o (k x) w1
  | .raise, w => (false, w)

/-- Run the implementation of `q`, whether it is cached or not (`impl(data); status = true`); `none`: an exception. -/
def force (ev : Nat → Q → World V P Q X → Option X × World V P Q X) (S : Sys V P Q X) (o : Nat) (q : Q) (w : World V P Q X) :
    Option X × World V P Q X :=
  match runProg ev o (S.impl w.g (w.pts o) o q) (w.write o (S.early o q)) with
  | (false, w1) => (none, w1)
  | (true, w1) => (some ((w1.mark o q).cache o q).data, w1.mark o q)

/-- `check_the_cache` (curve.h L54-65), `check_the_persistent_cache` (L67-77), `get_or_create_and_fill` (cachedtensor.h L41-53), nested to a
    limited depth.  `none`: an exception; what was already cached or marked stays. -/
def eval (S : Sys V P Q X) : Nat → Nat → Q → World V P Q X → Option X × World V P Q X
  | 0, _, _, w => (none, w)
  | n + 1, o, q, w =>
    if (w.cache o q).status then (some (w.cache o q).data, w)
    else force (eval S n) S o q w

/-- `recompute_bell` of every object notified during an API call that took the store from `g` to `g'`: `Curve` (curve.py L68-74) invalidates,
    `MagneticField` (magneticfield.py L57-59) only if some dof is free.  The bell of an object is modelled at the end of the call.  An object
    that did not exist before the call starts with an empty cache. -/
def ring (S : Sys V P Q X) (g' : State V) (w : World V P Q X) : World V P Q X :=
  { w with
    g := g'
    cache := fun o q =>
      if w.g.alive o = false then ⟨false, S.zero⟩ else
      if (w.g.obj o).bells < (g'.obj o).bells ∧ ¬ (S.guarded o = true ∧ (Graph.freeStatus g' o).any id = false) ∧ S.persistent o q = false
      then ⟨false, (w.cache o q).data⟩ else w.cache o q }

/-- `set_points_cart` (magneticfield.h L181-190): invalidate, store the points, and set the points of the component fields. -/
def setPoints (S : Sys V P Q X) : Nat → P → Nat → World V P Q X → Option (World V P Q X)
  | 0, _, _, _ => none
  | n + 1, p, o, w =>
    (S.comps o).foldlM (fun w c => setPoints S n p c w)
      { w.invalidate S o with pts := fun o' => if o' = o then p else w.pts o' }

end Simsopt.Caches
