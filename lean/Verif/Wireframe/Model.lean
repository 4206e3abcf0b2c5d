import Mathlib.Data.Real.Basic
import Mathlib.Algebra.BigOperators.Group.Finset.Basic
import Mathlib.Algebra.BigOperators.Ring.Finset
import Mathlib.Algebra.BigOperators.Intervals
import Mathlib.Tactic.Linarith
import Mathlib.Tactic.Ring
import Mathlib.Tactic.Push
/-!
# The grid of a toroidal wireframe

Model of the index arrays of `ToroidalWireframe` (src/simsopt/geo/wireframe_toroidal.py L41-309, L381-466, L832-867).

A wireframe covers half a field period with a grid of `N + 1` by `n` nodes, `n = 2 h` (`n_phi = N`, `n_theta = n`; the constructor insists on even numbers, L54-55).  Index arrays are functions; where the code has `-1` for "no segment
starts here", so has the model, because numpy takes `-1` for the last entry.  Currents are real numbers.
-/
namespace Simsopt.Wireframe

/-- `n_phi` and half of `n_theta`. -/
structure Grid where
  N : Nat
  h : Nat

variable (g : Grid)

/-- `n_theta`. -/
def Grid.n : Nat := 2 * g.h

/-- `n_tor_segments` (L121). -/
def Grid.nTor : Nat := g.n * g.N

/-- `n_pol_segments` (L122). -/
def Grid.nPol : Nat := g.n * g.N

/-- `n_segments` (L123). -/
def Grid.nSeg : Nat := g.nTor + g.nPol

/-- `node_inds` (L81). -/
def Grid.node (i j : Nat) : Nat := i * g.n + j

/-- `tor_segment_key` (L134-136). -/
def Grid.torKey (i j : Nat) : Int := if i < g.N then ((i * g.n + j : Nat) : Int) else -1

/-- `pol_segment_key` (L140-165). -/
def Grid.polKey (i j : Nat) : Int :=
  if i = 0 then (if j < g.h then ((j + g.nTor : Nat) : Int) else -1)
  else if i < g.N then ((g.h + (i - 1) * g.n + j + g.nTor : Nat) : Int)
  else (if j < g.h then (((g.nPol - g.h) + j + g.nTor : Nat) : Int) else -1)

/-- `segments[s, 0]` (L126-128, L138-161, L168-171). -/
def Grid.segStart (s : Nat) : Nat :=
  if s < g.nTor then s
  else
    let p := s - g.nTor
    if p < g.h then g.node 0 p
    else if p < g.nPol - g.h then g.node (1 + (p - g.h) / g.n) ((p - g.h) % g.n)
    else g.node g.N (p - (g.nPol - g.h))

/-- `segments[s, 1]` (L129-130, L138-161, L168-171). -/
def Grid.segEnd (s : Nat) : Nat :=
  if s < g.nTor then s + g.n
  else
    let p := s - g.nTor
    if p < g.h then g.node 0 (p + 1)
    else if p < g.nPol - g.h then
      if (p - g.h) % g.n = g.n - 1 then g.node (1 + (p - g.h) / g.n) 0 else g.node (1 + (p - g.h) / g.n) ((p - g.h) % g.n + 1)
    else g.node g.N (p - (g.nPol - g.h) + 1)

/-- The four entries of a row of `connected_segments`. -/
structure Conn where
  torIn : Int
  polIn : Int
  torOut : Int
  polOut : Int

/-- `determine_connected_segments` (L182-243), row `node_inds[i, j]`. -/
def Grid.connected (i j : Nat) : Conn :=
  if i = 0 then
    { torIn := g.torKey i ((g.n - j) % g.n), torOut := g.torKey i j,
      polIn := if j = 0 then g.polKey i j else if j < g.h then g.polKey i (j - 1) else if j = g.h then g.polKey i (j - 1) else g.polKey i (g.n - j),
      polOut := if j = 0 then g.polKey i j else if j < g.h then g.polKey i j else if j = g.h then g.polKey i (j - 1) else g.polKey i (g.n - j - 1) }
  else if i < g.N then
    { torIn := g.torKey (i - 1) j, torOut := g.torKey i j,
      polIn := if j = 0 then g.polKey i (g.n - 1) else g.polKey i (j - 1),
      polOut := g.polKey i j }
  else
    { torIn := g.torKey (i - 1) j, torOut := g.torKey (i - 1) ((g.n - j) % g.n),
      polIn := if j = 0 then g.polKey i 0 else if j < g.h then g.polKey i (j - 1) else if j = g.h then g.polKey i (j - 1) else g.polKey i (g.n - j),
      polOut := if j = 0 then g.polKey i 0 else if j < g.h then g.polKey i j else if j = g.h then g.polKey i (j - 1) else g.polKey i (g.n - j - 1) }

/-- The four entries of a row of `cell_key`. -/
structure Cell where
  tor1 : Int
  pol2 : Int
  tor3 : Int
  pol4 : Int

/-- `set_up_cell_key` (L245-303): the segments around cell `(i, j)`. -/
def Grid.cell (i j : Nat) : Cell :=
  if i = 0 then
    { tor1 := g.torKey i j, pol2 := g.polKey (i + 1) j, tor3 := g.torKey i ((j + 1) % g.n),
      pol4 := if j < g.h then g.polKey i j else g.polKey i (g.n - j - 1) }
  else if i < g.N - 1 then
    { tor1 := g.torKey i j, pol2 := g.polKey (i + 1) j, tor3 := g.torKey i ((j + 1) % g.n), pol4 := g.polKey i j }
  else
    { tor1 := g.torKey i j, pol2 := if j < g.h then g.polKey (i + 1) j else g.polKey (i + 1) (g.n - j - 1), tor3 := g.torKey i ((j + 1) % g.n), pol4 := g.polKey i j }

/-- `set_up_cell_key` (L245-309): the neighbours of cell `(i, j)`, in the order negative poloidal, positive toroidal, positive poloidal, negative toroidal. -/
def Grid.neighbors (i j : Nat) : (Nat × Nat) × (Nat × Nat) × (Nat × Nat) × (Nat × Nat) :=
  let npol := (i, (j + g.n - 1) % g.n)
  let ppol := (i, (j + 1) % g.n)
  if i = 0 then (npol, (i + 1, j), ppol, (i, g.n - j - 1))
  else if i < g.N - 1 then (npol, (i + 1, j), ppol, (i - 1, j))
  else (npol, (i, g.n - j - 1), ppol, (i - 1, j))

/-- Is a continuity constraint added at node `(i, j)` (L839-850)? -/
def Grid.hasContinuity (i j : Nat) : Bool := !((i == 0 || i == g.N) && (j == 0 || decide (g.h ≤ j)))

/-- A row of coefficients. -/
abbrev Row := Int → ℝ

/-- `matrix_row @ x`. -/
def Grid.apply (r : Row) (x : Int → ℝ) : ℝ := ∑ s ∈ Finset.range g.nSeg, r s * x s

/-- `matrix_row` of `add_continuity_constraint` (L861-865): the two assignments, in order. -/
def contRow (c : Conn) : Row := fun s => if s = c.torOut ∨ s = c.polOut then 1 else if s = c.torIn ∨ s = c.polIn then -1 else 0

/-- `matrix_row` of `add_poloidal_current_constraint` (L400-410). -/
def Grid.polRow : Row := fun s =>
  let ind0 : Int := (g.nTor : Int) + g.h - 1
  let ind1a := ind0 + g.h
  let ind2a : Int := g.nSeg
  let ind1b := ind1a + 1
  let ind2b : Int := (g.nSeg : Int) - g.n + 1
  if s = ind0 ∨ (ind1a ≤ s ∧ s < ind2a ∧ (s - ind1a) % g.n = 0) ∨ (ind1b ≤ s ∧ s < ind2b ∧ (s - ind1b) % g.n = 0) then 1 else 0

/-- `matrix_row` of `add_toroidal_current_constraint` (L458-459). -/
def Grid.torRow : Row := fun s => if 0 ≤ s ∧ s < g.n then 1 else 0

/-! ### Specification: the wireframe on the whole torus

The code repeats the half period `2 nfp` times (L85-118): half period `2 m` is rotated by `m` field periods, half period `2 m + 1` is the mirror image `(x, -y, -z)`, rotated, in which the direction of positive current is reversed
(`seg_signs`).  Number the nodes of the whole torus by a toroidal index `I` (with `2 N` per field period) and a poloidal index `J` modulo `n`: the node `(i, j)` of half period `0` is `(i, j)`, its mirror image is `(-i, -j)`.  A
current distribution on the torus is given by the current `T I J` that flows from `(I, J)` to `(I + 1, J)` and the current `P I J` that flows from `(I, J)` to `(I, J + 1)`. -/

/-- `T`, `P` are the currents on the whole torus if the segments of the half period carry the currents `x`.  A segment from `(i, j)` to `(i + 1, j)` has an image from `(-i, -j)` to `(-i - 1, -j)` with current `-x`: a current `x` from
`(-i - 1, -j)` to `(-i, -j)`.  In the same way for the poloidal segments. -/
structure Grid.IsFlow (x : Int → ℝ) (T P : Int → Int → ℝ) : Prop where
  perT : ∀ I J, T (I + 2 * g.N) J = T I J ∧ T I (J + g.n) = T I J
  perP : ∀ I J, P (I + 2 * g.N) J = P I J ∧ P I (J + g.n) = P I J
  tor : ∀ s < g.nTor, ∀ i j : Nat, j < g.n → g.segStart s = g.node i j → T i j = x s ∧ T (-i - 1) (-j) = x s
  pol : ∀ s < g.nSeg, g.nTor ≤ s → ∀ i j : Nat, j < g.n → g.segStart s = g.node i j → P i j = x s ∧ P (-i) (-j - 1) = x s

/-- Nothing is accumulated at any node of the torus. -/
def DivFree (T P : Int → Int → ℝ) : Prop := ∀ I J, T (I - 1) J + P I (J - 1) = T I J + P I J

/-- All the continuity constraints of the wireframe hold. -/
def Grid.Continuous (x : Int → ℝ) : Prop := ∀ i ≤ g.N, ∀ j < g.n, g.hasContinuity i j = true → g.apply (contRow (g.connected i j)) x = 0

end Simsopt.Wireframe
