import Verif.Wireframe.Currents
/-!
# The constraints of a wireframe

Model of the constraint dictionary of `ToroidalWireframe` (src/simsopt/geo/wireframe_toroidal.py L311-584, L696-965, L1084-1183).

A dictionary is the list of its entries in the order of insertion.  A constraint's name is a string in the code; here it is one of the built-in patterns with its number, or any other string.  Every method returns the new state and the exception
it raised, if any: Python does not undo what was done before the exception.  Rows are functions of the segment; the check of `matrix_row.size` (L342-344) is left out.
-/
namespace Simsopt.Wireframe

/-- `'segment_%d'`, `'implicit_segment_%d'`, `'continuity_node_%d'`, `'poloidal_current'`, `'toroidal_current'`, and all other names. -/
inductive Name where
  | seg (s : Nat)
  | impl (s : Nat)
  | cont (v : Nat)
  | pol
  | tor
  | user (s : String)
  deriving DecidableEq

/-- `constraint['type']`. -/
inductive CType where
  | segment
  | implicit
  | continuity
  | poloidal
  | toroidal
  | other
  deriving DecidableEq

structure Constraint where
  name : Name
  type : CType
  row : Row
  const : ℝ

/-- The part of a wireframe that the constraint methods change. -/
structure Wf where
  cons : List Constraint
  updated : Bool

inductive Err where
  | exists
  | missing
  | range
  | attribute
  deriving DecidableEq

abbrev Res := Wf × Option Err

/-- The next statement runs unless an exception was raised. -/
def Res.andThen (r : Res) (f : Wf → Res) : Res := match r.2 with
  | some e => (r.1, some e)
  | none => f r.1

/-- `for a in l: f(a)`. -/
def each {α : Type} (f : α → Wf → Res) : List α → Wf → Res
  | [], w => (w, none)
  | a :: l, w => (f a w).andThen (each f l)

/-- `name in self.constraints`. -/
def Wf.has (w : Wf) (n : Name) : Bool := w.cons.any fun c => decide (c.name = n)

/-- Is it a constraint of type `segment` or `implicit_segment`? -/
def CType.isSeg : CType → Bool
  | .segment => true
  | .implicit => true
  | _ => false

/-- `add_constraint` (L316-354). -/
def addConstraint (c : Constraint) (w : Wf) : Res :=
  if w.has c.name then (w, some .exists) else (⟨w.cons ++ [c], w.updated && !c.type.isSeg⟩, none)

/-- `remove_constraint` for one name (L369-379). -/
def removeConstraint (n : Name) (w : Wf) : Res :=
  match w.cons.find? fun c => decide (c.name = n) with
  | none => (w, some .missing)
  | some c => (⟨w.cons.filter fun c => !decide (c.name = n), w.updated && !c.type.isSeg⟩, none)

/-- `matrix_row` of a segment constraint (L528-529). -/
def unitRow (s : Nat) : Row := fun t => if t = s then 1 else 0

/-- The constraint `self.add_constraint(name + '_%d' % s, name, matrix_row, 0)` (L528-532). -/
def segConstraint (implicit : Bool) (s : Nat) : Constraint :=
  if implicit then ⟨.impl s, .implicit, unitRow s, 0⟩ else ⟨.seg s, .segment, unitRow s, 0⟩

variable (g : Grid)

/-- The check at the head of the segment methods (L508-515). -/
def Grid.inRange (segs : List Int) : Bool := segs.all fun s => decide (0 ≤ s) && decide (s < g.nSeg)

/-- `add_segment_constraints` (L492-532).  L521 calls a method that does not exist. -/
def Grid.addSegs (segs : List Int) (implicit : Bool) (w : Wf) : Res :=
  if !g.inRange segs then (w, some .range)
  else if !implicit && segs.any fun s => w.has (.impl s.toNat) then (w, some .attribute)
  else each (fun s => addConstraint (segConstraint implicit s.toNat)) segs w

/-- `remove_segment_constraints` (L534-563). -/
def Grid.removeSegs (segs : List Int) (implicit : Bool) (w : Wf) : Res :=
  if !g.inRange segs then (w, some .range)
  else each (fun s => removeConstraint (if implicit then .impl s.toNat else .seg s.toNat)) segs w

/-- `set_segments_free` (L696-719). -/
def Grid.setFree (segs : List Int) (w : Wf) : Res :=
  if !g.inRange segs then (w, some .range)
  else each (fun s w => if w.has (.seg s.toNat) then removeConstraint (.seg s.toNat) w else if w.has (.impl s.toNat) then removeConstraint (.impl s.toNat) w else (w, none)) segs w

/-- `set_segments_constrained` (L565-583). -/
def Grid.setConstrained (segs : List Int) (implicit : Bool) (w : Wf) : Res := (g.setFree segs w).andThen (g.addSegs segs implicit)

/-- `free_all_segments` (L721-730). -/
def freeAll (w : Wf) : Res := each removeConstraint ((w.cons.filter fun c => c.type.isSeg).map (·.name)) w

/-- `int(key.split('_')[1])` and `[2]`: the number in a name. -/
def Name.number : Name → Nat
  | .seg s => s
  | .impl s => s
  | .cont v => v
  | _ => 0

/-- `expl_ids` (L797-799). -/
def Wf.explicit (w : Wf) : List Nat := (w.cons.filter fun c => decide (c.type = .segment)).map fun c => c.name.number

/-- `impl_ids` (L801-803). -/
def Wf.implicit (w : Wf) : List Nat := (w.cons.filter fun c => decide (c.type = .implicit)).map fun c => c.name.number

/-- `unconstrained_segments(update=False)` (L815-830). -/
def Grid.freeSegs (w : Wf) : List Nat := (List.range g.nSeg).filter fun s => !decide (s ∈ w.explicit ++ w.implicit)

/-- The rows of `connected_segments` as lists. -/
def Grid.conn (v : Nat × Nat) : List Int := [(g.connected v.1 v.2).torIn, (g.connected v.1 v.2).polIn, (g.connected v.1 v.2).torOut, (g.connected v.1 v.2).polOut]

/-- The nodes in the order of their numbers. -/
def Grid.nodes : List (Nat × Nat) := (List.range (g.N + 1)).flatMap fun i => (List.range g.n).map fun j => (i, j)

/-- `node_sum` for a list of free segments (L747-754, L965-970). -/
def Grid.nodeSum (free : List Nat) (v : Nat × Nat) : Nat := (free.map fun (s : Nat) => (g.conn v).countP fun t => decide (t = (s : Int))).sum

/-- The loop over the nodes of one pass (L758-766). -/
def Grid.pass (vs : List (Nat × Nat)) (w : Wf) : Res :=
  each (fun v => each (fun s w => if !w.has (.seg s.toNat) && !w.has (.impl s.toNat) then g.addSegs [s] true w else (w, none)) (g.conn v)) vs w

/-- `while implicits_remain` (L743-768), at most `fuel` times; the flag tells whether the loop ended. -/
def Grid.loop : Nat → Wf → Wf × Bool
  | 0, w => (w, false)
  | fuel + 1, w =>
    let free := g.freeSegs w
    let vs := g.nodes.filter fun v => decide (g.nodeSum free v = 1)
    if vs = [] then (w, true) else loop fuel (g.pass vs w).1

/-- `self.implicits_updated = True` (L770). -/
def Wf.setUpdated (w : Wf) : Wf := { w with updated := true }

/-- The clearing of the implicit constraints (L738-741). -/
def clearImplicit (w : Wf) : Res := each removeConstraint ((w.cons.filter fun c => decide (c.type = .implicit)).map (·.name)) w

/-- `update_implicit_constraints` (L732-770).  Every pass but the last adds a constraint, so `n_segments + 1` passes are enough (proved). -/
def Grid.update (w : Wf) : Wf := (g.loop (g.nSeg + 1) (clearImplicit w).1).1.setUpdated

/-- `if not self.implicits_updated: self.update_implicit_constraints()` (L794-795, L928-929). -/
def Grid.fresh (w : Wf) : Wf := if w.updated then w else g.update w

/-- The number of a node back to its indices. -/
def Grid.contConstraint (v : Nat × Nat) : Constraint := ⟨.cont (g.node v.1 v.2), .continuity, contRow (g.connected v.1 v.2), 0⟩

/-- `initialize_constraints`, `add_continuity_constraints` (L311-314, L832-867) as called by the constructor. -/
def Grid.init : Wf := (each (fun v => addConstraint (g.contConstraint v)) (g.nodes.filter fun v => g.hasContinuity v.1 v.2) ⟨[], true⟩).1

/-- `add_poloidal_current_constraint`, with the sum over a field period as the constant (L381-413). -/
def Grid.addPol (c : ℝ) : Wf → Res := addConstraint ⟨.pol, .poloidal, g.polRow, c⟩

/-- `set_poloidal_current` (L419-441). -/
def Grid.setPol (c : ℝ) (w : Wf) : Res := (if w.has .pol then removeConstraint .pol w else (w, none)).andThen (g.addPol c)

/-- `add_toroidal_current_constraint` (L443-462). -/
def Grid.addTor (c : ℝ) : Wf → Res := addConstraint ⟨.tor, .toroidal, g.torRow, c⟩

/-- `set_toroidal_current` (L468-487). -/
def Grid.setTor (c : ℝ) (w : Wf) : Res := (if w.has .tor then removeConstraint .tor w else (w, none)).andThen (g.addTor c)

/-- What a user does with the constraints.  `query` stands for the methods that bring the implicit constraints up to date and return something: `constrained_segments`, `unconstrained_segments`, `constraint_matrices`, `get_free_cells`,
`check_constraints`.  The methods for internal use (`implicit=True`) and the removal of continuity constraints by name are left out; the user's own constraints have a name and a type of their own. -/
inductive Op where
  | addSegs (segs : List Int)
  | removeSegs (segs : List Int)
  | setConstrained (segs : List Int)
  | setFree (segs : List Int)
  | freeAll
  | addPol (c : ℝ)
  | setPol (c : ℝ)
  | removePol
  | addTor (c : ℝ)
  | setTor (c : ℝ)
  | removeTor
  | addUser (name : String) (row : Row) (c : ℝ)
  | removeUser (name : String)
  | update
  | query

def Grid.exec : Op → Wf → Res
  | .addSegs l, w => g.addSegs l false w
  | .removeSegs l, w => g.removeSegs l false w
  | .setConstrained l, w => g.setConstrained l false w
  | .setFree l, w => g.setFree l w
  | .freeAll, w => Wireframe.freeAll w
  | .addPol c, w => g.addPol c w
  | .setPol c, w => g.setPol c w
  | .removePol, w => removeConstraint .pol w
  | .addTor c, w => g.addTor c w
  | .setTor c, w => g.setTor c w
  | .removeTor, w => removeConstraint .tor w
  | .addUser n r c, w => addConstraint ⟨.user n, .other, r, c⟩ w
  | .removeUser n, w => removeConstraint (.user n) w
  | .update, w => (g.update w, none)
  | .query, w => (g.fresh w, none)

/-- The states a history of calls leads to, whether or not they raise. -/
inductive Grid.Reach : Wf → Prop where
  | init : Grid.Reach g.init
  | step (op : Op) {w : Wf} : Grid.Reach w → Grid.Reach (g.exec op w).1

/-- `constraint_matrices(...)` (L870-965) without `assume_no_crossings`: the rows with their constants, and the columns. -/
def Grid.matrices (noRedundant noConstrained : Bool) (w : Wf) : List (Row × ℝ) × List Nat :=
  let w := g.fresh w
  let free := g.freeSegs w
  let inactive := g.nodes.filter fun v => decide (g.nodeSum free v = 0)
  let excluded (c : Constraint) : Bool := (noRedundant && inactive.any fun v => decide (c.name = .cont (g.node v.1 v.2))) || (noConstrained && c.type.isSeg)
  ((w.cons.filter fun c => !excluded c).map fun c => (c.row, c.const), if noConstrained then free else List.range g.nSeg)

/-- `get_free_cells()` (L1084-1110): is cell `(i, j)` free? -/
def Grid.freeCell (w : Wf) (v : Nat × Nat) : Bool :=
  let w := g.fresh w
  let k := g.cell v.1 v.2
  decide (((w.explicit ++ w.implicit).map fun (s : Nat) => [k.tor1, k.pol2, k.tor3, k.pol4].countP fun t => decide (t = (s : Int))).sum = 0)

/-- `check_constraints` (L1112-1183). -/
noncomputable def Grid.check (atol rtol : ℝ) (x : Int → ℝ) (w : Wf) : Bool :=
  let tol := atol + rtol * ((∑ s ∈ Finset.range g.nSeg, |x s|) / g.nSeg)
  (g.matrices false false w).1.all fun r => !decide (tol ≤ |g.apply r.1 x - r.2|)

/-! ### Specification -/

/-- The number of places at node `v` that belong to a segment of `F`. -/
def Grid.degree (F : Nat → Prop) [DecidablePred F] (v : Nat × Nat) : Nat := (g.conn v).countP fun t => decide (F t.toNat)

/-- A set of segments that could carry current as far as the nodes are concerned: no segment of `E`, and no node with exactly one of them. -/
def Grid.NoDeadEnd (E : Nat → Prop) (F : Nat → Prop) : Prop :=
  ∀ _ : DecidablePred F, (∀ s, F s → s < g.nSeg ∧ ¬ E s) ∧ ∀ i ≤ g.N, ∀ j < g.n, g.degree F (i, j) ≠ 1

/-- The explicit constraints, the continuity and the constraints on total currents or from the user are met by `x`. -/
def Wf.Meets (g : Grid) (w : Wf) (x : Int → ℝ) : Prop := ∀ c ∈ w.cons, c.type ≠ .implicit → g.apply c.row x = c.const

end Simsopt.Wireframe
