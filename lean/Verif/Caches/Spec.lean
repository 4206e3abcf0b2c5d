import Verif.Caches.Model
/-!
# Specification of cached quantities: what an evaluation should return
-/
namespace Simsopt.Caches
open Simsopt
open Simsopt.Graph (State Cfg Op DependsOn SameInputs MirrorInSync)
variable {V P Q X : Type} [DecidableEq Q]

/-- Running a program without any cache, in the store `g` and with all fields evaluated at the points `p`: every quantity it asks for is
    computed afresh. -/
inductive Run (S : Sys V P Q X) (g : State V) (p : P) : Prog Q X → List (Q × X) → Prop where
  | done (l : List (Q × X)) : Run S g p (.done l) l
  | call {o : Nat} {q : Q} {k : X → Prog Q X} {l l' : List (Q × X)} {x : X} :
      Run S g p (S.impl g p o q) l' → (q, x) ∈ l' → Run S g p (k x) l → Run S g p (.call o q k) l

/-- The value of quantity `q` of object `o` in the store `g` at the points `p`, computed afresh. -/
def Fresh (S : Sys V P Q X) (g : State V) (p : P) (o : Nat) (q : Q) (x : X) : Prop :=
  ∃ l, Run S g p (S.impl g p o q) l ∧ (q, x) ∈ l

/-- All quantities a program may ask for belong to objects satisfying `T`. -/
def Prog.Calls (T : Nat → Prop) : Prog Q X → Prop
  | .done _ => True
  | .call o _ k => T o ∧ ∀ x, (k x).Calls T
  | .raise => True

/-- What the classes have to guarantee; shown below for the modelled classes.  `field o`: object `o` has evaluation points. -/
structure Sound (S : Sys V P Q X) (field : Nat → Prop) (Link : State V → Prop) : Prop where
  /-- implementations read nothing but the inputs of their object -/
  reads : ∀ g g' p o q, Link g → Link g' → MirrorInSync g → MirrorInSync g' → g.alive o = true → g'.alive o = true → SameInputs g g' o →
    S.impl g' p o q = S.impl g p o q
  /-- implementations ask only objects they depend on -/
  calls : ∀ g p o q, Link g → g.alive o = true → (S.impl g p o q).Calls (fun o' => DependsOn g o o')
  /-- fields ask themselves, their components, or objects without points -/
  fields : ∀ g p o q, (S.impl g p o q).Calls (fun o' => ¬ field o' ∨ (field o ∧ (o' = o ∨ o' ∈ S.comps o)))
  /-- objects without points do not read points -/
  points : ∀ g p p' o q, ¬ field o → S.impl g p o q = S.impl g p' o q
  comps : ∀ o, ¬ field o → S.comps o = []
  nodup : ∀ g p o q l, Run S g p (S.impl g p o q) l → (l.map Prod.fst).Nodup
  has : ∀ g p o q l, Run S g p (S.impl g p o q) l → ∃ x, (q, x) ∈ l
  /-- what is written for other quantities on the way is what those quantities should be -/
  agree : ∀ g p o q l q' x', Run S g p (S.impl g p o q) l → (q', x') ∈ l → Fresh S g p o q' x'
  /-- only fields mark arrays early; then they ask only objects without points, and fill all of these arrays -/
  early : ∀ o q, S.early o q ≠ [] → field o
  earlyCalls : ∀ g p o q, S.early o q ≠ [] → (S.impl g p o q).Calls (fun o' => ¬ field o')
  earlyKeys : ∀ o q, ((S.early o q).map Prod.fst).Nodup
  earlyIn : ∀ g p o q l q' x', Run S g p (S.impl g p o q) l → (q', x') ∈ S.early o q → ∃ x, (q', x) ∈ l
  /-- persistent quantities do not depend on the store or the points -/
  persist : ∀ o q, S.persistent o q = true → ∃ l, ∀ g p, S.impl g p o q = .done l

/-- `c` is reached from `o` through component fields. -/
inductive Within (S : Sys V P Q X) : Nat → Nat → Prop where
  | refl (o : Nat) : Within S o o
  | step {o c c' : Nat} : c ∈ S.comps o → Within S c c' → Within S o c'

/-- All component fields of `o` have the points of `o`. -/
def Aligned (S : Sys V P Q X) (w : World V P Q X) (o : Nat) : Prop := ∀ c, Within S o c → w.pts c = w.pts o

/-- Histories of a set of objects: any API calls on the graph, any `set_points`, any evaluations (returning, or raising if the object is not
    a field) of objects whose component fields have their points, and any recomputations.  Excluded: exhausting the recursion limit in API
    calls, replacing the DOFs of objects mirrored in C++, detaching an object from those it is computed from (`Link`), notifying a field none
    of whose dofs is free (`guarded`), evaluations of a field that raise. -/
inductive Hist (cfg : Cfg V) (S : Sys V P Q X) (field : Nat → Prop) (Link : State V → Prop) (p0 : P) : World V P Q X → Prop where
  | start : Hist cfg S field Link p0 ⟨State.empty, fun _ => p0, fun _ _ => ⟨false, S.zero⟩⟩
  | graph {w : World V P Q X} {op : Op V} {g' : State V} : Hist cfg S field Link p0 w → op.Safe w.g →
      (∀ i d, op = .replaceDofs i d → (w.g.obj i).setter = false) → Graph.Step cfg w.g op g' → Link g' →
      (∀ j, w.g.alive j = true → S.guarded j = true → (w.g.obj j).bells < (g'.obj j).bells → (Graph.freeStatus g' j).any id = true) →
      Hist cfg S field Link p0 (ring S g' w)
  | setPoints {w w' : World V P Q X} {n : Nat} {p : P} {o : Nat} : Hist cfg S field Link p0 w → setPoints S n p o w = some w' →
      Hist cfg S field Link p0 w'
  | eval {w w' : World V P Q X} {n : Nat} {o : Nat} {q : Q} {r : Option X} : Hist cfg S field Link p0 w → w.g.alive o = true → Aligned S w o →
      eval S n o q w = (r, w') → (r = none → ¬ field o) → Hist cfg S field Link p0 w'
  | force {w w' : World V P Q X} {n : Nat} {o : Nat} {q : Q} {r : Option X} : Hist cfg S field Link p0 w → w.g.alive o = true → Aligned S w o →
      force (eval S n) S o q w = (r, w') → (r = none → ¬ field o) → Hist cfg S field Link p0 w'

end Simsopt.Caches
