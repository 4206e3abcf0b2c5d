import Verif.Gson.Model
/-!
# Specification of saving and loading (C33, C34): isomorphism of object graphs
-/
namespace Simsopt.Gson
open Simsopt

variable {A : Type}

mutual
/-- The objects a value refers to. -/
def Val.refs : Val A → List Nat
  | .atom _ => []
  | .str _ => []
  | .list l => refsL l
  | .tuple l => refsL l
  | .dict l => refsD l
  | .ref o => [o]
  | .meth o _ _ => [o]
def refsL : List (Val A) → List Nat
  | [] => []
  | v :: l => v.refs ++ refsL l
def refsD : List (String × Val A) → List Nat
  | [] => []
  | (_, v) :: l => v.refs ++ refsD l
end

mutual
/-- The value with every object replaced by its image, tuples having become lists. -/
def Val.image (f : Nat → Nat) : Val A → Val A
  | .atom a => .atom a
  | .str s => .str s
  | .list l => .list (imageL f l)
  | .tuple l => .list (imageL f l)
  | .dict l => .dict (imageD f l)
  | .ref o => .ref (f o)
  | .meth o m q => .meth (f o) m q
def imageL (f : Nat → Nat) : List (Val A) → List (Val A)
  | [] => []
  | v :: l => v.image f :: imageL f l
def imageD (f : Nat → Nat) : List (String × Val A) → List (String × Val A)
  | [] => []
  | (k, v) :: l => (k, v.image f) :: imageD f l
end

mutual
/-- Values without bound methods whose dicts do not use the keys reserved by the format. -/
def Val.plain : Val A → Bool
  | .atom _ => true
  | .str _ => true
  | .list l => plainL l
  | .tuple l => plainL l
  | .dict l => plainD l
  | .ref _ => true
  | .meth _ _ _ => false
def plainL : List (Val A) → Bool
  | [] => true
  | v :: l => v.plain && plainL l
def plainD : List (String × Val A) → Bool
  | [] => true
  | (k, v) :: l => k ≠ "$type" && !isMeta k && v.plain && plainD l
end

/-- `o'` is reached from `o` through attributes. -/
inductive ReachO (H : Heap A) : Nat → Nat → Prop where
  | refl (o : Nat) : ReachO H o o
  | step {o o1 o2 : Nat} : o1 ∈ refsD (H o).args → ReachO H o1 o2 → ReachO H o o2

/-- `o` is reached from the value `v`. -/
def Reach (H : Heap A) (v : Val A) (o : Nat) : Prop := ∃ o0 ∈ v.refs, ReachO H o0 o

/-- The graph hanging off `root` is acyclic, its objects have different names, and their attributes are plain and of importable classes. -/
structure Graph (H : Heap A) (known : String → String → Bool) (root : Val A) : Prop where
  plainRoot : root.plain = true
  plainArgs : ∀ o, Reach H root o → plainD (H o).args = true
  names : ∀ o o', Reach H root o → Reach H root o' → (H o).name = (H o').name → o = o'
  acyclic : ∃ rank : Nat → Nat, ∀ o, Reach H root o → ∀ o' ∈ refsD (H o).args, rank o' < rank o
  known : ∀ o, Reach H root o → known (H o).mod (H o).cls = true

/-- The loaded value and objects are an isomorphic copy of the graph of `root`: `f` matches the objects one to one, the loaded value is the
    image of `root`, and each loaded object was built from the same class with the image of the same arguments. -/
structure Iso (H : Heap A) (root : Val A) (v : Val A) (heap : List (New A)) (f : Nat → Nat) : Prop where
  value : v = root.image f
  objects : ∀ o, Reach H root o → heap[f o]? = some ⟨(H o).mod, (H o).cls, imageD f (H o).args⟩
  injective : ∀ o o', Reach H root o → Reach H root o' → (f o = f o' ↔ o = o')
  onto : ∀ i, i < heap.length → ∃ o, Reach H root o ∧ f o = i

end Simsopt.Gson
