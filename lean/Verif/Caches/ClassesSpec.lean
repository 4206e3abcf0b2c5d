import Verif.Caches.Classes
/-!
# What the cached quantities should be
-/
namespace Simsopt.Caches
open Simsopt
open Simsopt.Graph (State Cfg Op DependsOn SameInputs MirrorInSync)
variable {V P X : Type}

/-- The dofs of an object as the Python side reports them. -/
def dofsOf (g : State V) (o : Nat) : List V := (g.dof (g.obj o).dofs).x

/-- `Val M kind g p o q x`: with the dofs of the store `g` and at the points `p`, quantity `q` of object `o` is `x`, with everything computed
    from scratch. -/
inductive Val (M : Math V P X) (kind : Nat → Kind V) (g : State V) (p : P) : Nat → Qty → X → Prop where
  | curve {o fam : Nat} (d : Nat) : kind o = .curve fam → Val M kind g p o (.gamma d) (M.gamma fam d (dofsOf g o))
  | dcurve {o fam : Nat} (d : Nat) : kind o = .curve fam → Val M kind g p o (.dgamma d) (M.dgamma fam d (dofsOf g o))
  | rotated {o b r : Nat} {d : Nat} {x : X} : kind o = .rotated b r → Val M kind g p b (.gamma d) x → Val M kind g p o (.gamma d) (M.rot r x)
  | drotated {o b r : Nat} {d : Nat} {x : X} : kind o = .rotated b r → Val M kind g p b (.dgamma d) x → Val M kind g p o (.dgamma d) (M.rotT r x)
  | geo {o : Nat} {k : Geo} {xs : List X} : ((∃ fam, kind o = .curve fam) ∨ ∃ b r, kind o = .rotated b r) →
      xs.length = k.inputs.length → (∀ i (h : i < k.inputs.length) (h' : i < xs.length), Val M kind g p o k.inputs[i] xs[i]) →
      Val M kind g p o (.geo k) (M.geo k xs)
  | coil {o : Nat} {cs : List (Nat × CurExpr V)} {a : Pot} {i d : Nat} {x y : X} (h : i < cs.length) : kind o = .biotSavart cs → d ≤ 2 →
      Val M kind g p cs[i].1 (.gamma 0) x → Val M kind g p cs[i].1 (.gamma 1) y → Val M kind g p o (.coil a i d) (M.ker a d p x y)
  | biotSavart {o : Nat} {cs : List (Nat × CurExpr V)} {a : Pot} {d : Nat} {ks : List X} : kind o = .biotSavart cs → d ≤ 2 →
      ks.length = cs.length → (∀ i (h : i < ks.length), Val M kind g p o (.coil a i d) ks[i]) →
      Val M kind g p o (.pot a d) (M.lin ((cs.map (fun c => c.2.value M (dofsOf g))).zip ks))
  | multiply {o f : Nat} {c : V} {a : Pot} {d : Nat} {x : X} : kind o = .multiply c f → Val M kind g p f (.pot a d) x →
      Val M kind g p o (.pot a d) (M.times c x)
  | sum {o : Nat} {fs : List Nat} {a : Pot} {d : Nat} {xs : List X} : kind o = .sum fs → xs.length = fs.length →
      (∀ i (h : i < fs.length) (h' : i < xs.length), Val M kind g p fs[i] (.pot a d) xs[i]) → Val M kind g p o (.pot a d) (M.add xs)
  | fld {o : Nat} {k : Fld} {xs : List X} : (kind o).isField = true → xs.length = k.inputs.length →
      (∀ i (h : i < k.inputs.length) (h' : i < xs.length), Val M kind g p o k.inputs[i] xs[i]) → Val M kind g p o (.fld k) (M.fld k p xs)

/-- Rotated curves are made from curves and coils from curves and currents. -/
structure WellKinded (kind : Nat → Kind V) : Prop where
  rotated : ∀ o b r, kind o = .rotated b r → (kind b).isField = false
  coil : ∀ o cs, kind o = .biotSavart cs → ∀ c ∈ cs, (kind c.1).isField = false ∧ ∀ u ∈ c.2.bases, kind u = .current

/-- The classes that keep `dgamma_by_dcoeff` and the like for ever are linear in their dofs. -/
def PersistLinear (M : Math V P X) : Prop := ∀ fam d v v', M.persist fam = true → M.dgamma fam d v = M.dgamma fam d v'

/-- The objects an object is computed from. -/
def Kind.uses : Kind V → List Nat
  | .rotated b _ => [b]
  | .biotSavart cs => cs.flatMap (fun c => c.1 :: c.2.bases)
  | .multiply _ f => [f]
  | .sum fs => fs
  | _ => []

/-- Live objects depend, in the graph, on the objects they are computed from, and curves and currents have their C++ copy of the dofs
    (`external_dof_setter`). -/
def Linked (kind : Nat → Kind V) (g : State V) : Prop :=
  ∀ o, g.alive o = true →
    (∀ u ∈ (kind o).uses, g.alive u = true ∧ DependsOn g o u) ∧
    (((∃ fam, kind o = .curve fam) ∨ kind o = .current) → (g.obj o).setter = true)

end Simsopt.Caches
