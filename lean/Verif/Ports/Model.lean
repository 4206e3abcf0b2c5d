import Verif.Curves.Geometry
import Verif.Coils.Sym
/-!
# Ports (C164, C165)

Model of src/simsopt/geo/ports.py.  Real numbers instead of doubles.  A point is one entry of the arrays `x`, `y`, `z` (all the array operations act entry by entry).
-/
namespace Simsopt.Ports
open Simsopt Coils

abbrev dot (a b : V3) : ℝ := Geometry.inner a b

/-- `CircularPort` (L449-494): origin, unit axis, inner radius, wall thickness, ends. -/
structure Circ where
  o : V3
  a : V3
  ir : ℝ
  thick : ℝ
  l0 : ℝ
  l1 : ℝ

/-- `RectangularPort` (L736-806): also the unit vector along the width, and inner width and height. -/
structure Rect where
  o : V3
  a : V3
  w : V3
  h : V3
  iw : ℝ
  ih : ℝ
  thick : ℝ
  l0 : ℝ
  l1 : ℝ

inductive Port where
  | circ (c : Circ)
  | rect (r : Rect)

open Classical in
/-- `CircularPort.__init__` (L455-494). -/
noncomputable def Circ.make (o a : V3) (ir thick l0 l1 : ℝ) : Except Err Circ :=
  if Geometry.norm a = 0 then .error .valueError else .ok { o := o, a := (Geometry.norm a)⁻¹ • a, ir := ir, thick := thick, l0 := l0, l1 := l1 }

/-- `hx, hy, hz` (L797-800). -/
def height (a w : V3) : V3 := (a.2.1 * w.2.2 - a.2.2 * w.2.1, -a.1 * w.2.2 + a.2.2 * w.1, a.1 * w.2.1 - a.2.1 * w.1)

open Classical in
/-- `RectangularPort.__init__` (L741-806), with `tol = 1e-12`. -/
noncomputable def Rect.make (o a w : V3) (iw ih thick l0 l1 : ℝ) : Except Err Rect :=
  if Geometry.norm a = 0 ∨ Geometry.norm w = 0 then .error .valueError
  else
    let a' := (Geometry.norm a)⁻¹ • a
    let w' := (Geometry.norm w)⁻¹ • w
    if |dot a' w'| > 1e-12 then .error .valueError
    else
      let h := height a' w'
      if |Geometry.norm h - 1| < 1e-12 then .ok { o := o, a := a', w := w', h := h, iw := iw, ih := ih, thick := thick, l0 := l0, l1 := l1 } else .error .assertionError

/-- `CircularPort.collides` (L496-545) for one point. -/
def Circ.collides (c : Circ) (p : V3) (gap : ℝ) : Prop :=
  let l := dot (p - c.o) c.a
  let r := p - (l • c.a + c.o)
  (min c.l0 c.l1 - gap ≤ l ∧ l ≤ max c.l0 c.l1 + gap) ∧ dot r r ≤ (c.ir + c.thick + gap) * (c.ir + c.thick + gap)

/-- `RectangularPort.collides` (L808-855). -/
def Rect.collides (c : Rect) (p : V3) (gap : ℝ) : Prop :=
  let l := dot (p - c.o) c.a
  (min c.l0 c.l1 - gap ≤ l ∧ l ≤ max c.l0 c.l1 + gap) ∧ |dot (p - c.o) c.w| < 0.5 * c.iw + c.thick + gap ∧ |dot (p - c.o) c.h| < 0.5 * c.ih + c.thick + gap

def Port.collides : Port → V3 → ℝ → Prop
  | .circ c => c.collides
  | .rect r => r.collides

/-- The rotation of origin and axis in `repeat_via_symmetries` (L575-582, L886-897): `rotZ` with the signs of the code. -/
noncomputable def turn (phi : ℝ) (v : V3) : V3 := (v.1 * Real.cos phi - v.2.1 * Real.sin phi, v.1 * Real.sin phi + v.2.1 * Real.cos phi, v.2.2)

/-- `CircularPort.repeat_via_symmetries` (L547-597). -/
noncomputable def Circ.copies (c : Circ) (nfp : ℕ) (stellsym includeSelf : Bool) : Except Err (List Port) := do
  let first : List Port := if includeSelf then [.circ c] else []
  let rest ← (List.range nfp).mapM fun (i : ℕ) => do
    let o := turn (i * (2 * Real.pi / nfp)) c.o
    let a := turn (i * (2 * Real.pi / nfp)) c.a
    let u ← if 0 < i then (Circ.make o a c.ir c.thick c.l0 c.l1).map fun p => [Port.circ p] else pure []
    let v ← if stellsym then (Circ.make (o.1, -o.2.1, -o.2.2) (-a.1, a.2.1, a.2.2) c.ir c.thick (-c.l1) (-c.l0)).map fun p => [Port.circ p] else pure []
    return u ++ v
  return first ++ rest.flatten

/-- `RectangularPort.repeat_via_symmetries` (L857-913). -/
noncomputable def Rect.copies (c : Rect) (nfp : ℕ) (stellsym includeSelf : Bool) : Except Err (List Port) := do
  let first : List Port := if includeSelf then [.rect c] else []
  let rest ← (List.range nfp).mapM fun (i : ℕ) => do
    let o := turn (i * (2 * Real.pi / nfp)) c.o
    let a := turn (i * (2 * Real.pi / nfp)) c.a
    let w := turn (i * (2 * Real.pi / nfp)) c.w
    let u ← if 0 < i then (Rect.make o a w c.iw c.ih c.thick c.l0 c.l1).map fun p => [Port.rect p] else pure []
    let v ← if stellsym then (Rect.make (o.1, -o.2.1, -o.2.2) (-a.1, a.2.1, a.2.2) (-w.1, w.2.1, w.2.2) c.iw c.ih c.thick (-c.l1) (-c.l0)).map fun p => [Port.rect p] else pure []
    return u ++ v
  return first ++ rest.flatten

noncomputable def Port.copies (p : Port) (nfp : ℕ) (stellsym includeSelf : Bool) : Except Err (List Port) :=
  match p with
  | .circ c => c.copies nfp stellsym includeSelf
  | .rect r => r.copies nfp stellsym includeSelf

/-- `PortSet.repeat_via_symmetries` (L273-299): `ports_out += port.repeat_via_symmetries(nfp, stell_sym)`. -/
noncomputable def setCopies (ports : List Port) (nfp : ℕ) (stellsym : Bool) : Except Err (List Port) :=
  ports.foldlM (fun acc p => do
    let q ← p.copies nfp stellsym true
    return acc ++ q) []

/-- The argument `gap` of `PortSet.collides`. -/
inductive Gap where
  | scalar (g : ℝ)
  | array (l : List ℝ)

/-- `gaparr` (L256-264): an array of one element is squeezed to dimension zero and then indexed, which raises. -/
def gapArr (n : ℕ) : Gap → Except Err (List ℝ)
  | .scalar g => .ok (List.replicate n g)
  | .array [_] => .error .indexError
  | .array l => if l.length ≠ n then .error .valueError else .ok l

/-- `PortSet.collides` (L234-271): `np.logical_or` over the ports. -/
def setCollides (ports : List Port) (p : V3) (gap : Gap) : Except Err Prop := do
  let g ← gapArr ports.length gap
  return (ports.zip g).foldl (fun acc q => acc ∨ q.1.collides p q.2) False

end Simsopt.Ports
