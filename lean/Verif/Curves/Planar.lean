import Verif.Curves.Geometry
/-!
# C54: CurvePlanarFourier

Model of src/simsoptpp/curveplanarfourier.{h,cpp}.  One quadrature point `t` (`phi = 2 π t`).  Simplification: real numbers instead
of doubles; the distribution of the products in `gamma_impl` (L31-32) is that of the other functions.  The persistent storage of the
Jacobians (curveplanarfourier.h L96-107) is not part of this module: see C39 (`C39_planar_jacobian_violated`); this module is about
the arrays that the `_impl` functions compute.
-/
namespace Simsopt.Planar
open Simsopt Simsopt.Coils

/-- The position of the dofs (`set_dofs_impl`, curveplanarfourier.h L71-81): `rc[i]`, `rs[i]`, `q[i]`, `center[i]`. -/
def rc (_order : Nat) (d : List ℝ) (i : Nat) : ℝ := d[i]?.getD 0
def rs (order : Nat) (d : List ℝ) (i : Nat) : ℝ := d[order + 1 + i]?.getD 0
def quat (order : Nat) (d : List ℝ) (i : Nat) : ℝ := d[order + 1 + order + i]?.getD 0
def center (order : Nat) (d : List ℝ) (i : Nat) : ℝ := d[order + 1 + order + 4 + i]?.getD 0

/-- `get_dofs` (curveplanarfourier.h L83-94). -/
def getDofs (order : Nat) (rc rs q center : Nat → ℝ) : List ℝ :=
  (List.range (order + 1)).map rc ++ (List.range order).map rs ++ (List.range 4).map q ++ (List.range 3).map center

/-- `inv_magnitude` (curveplanarfourier.cpp L4-12). -/
noncomputable def invMagnitude (q0 q1 q2 q3 : ℝ) : ℝ :=
  let s := q0 * q0 + q1 * q1 + q2 * q2 + q3 * q3
  if s ≠ 0 then 1 / Real.sqrt s else 1

/-- The quaternion rotation (L42-44, L79-81, L115-117, L162-164, L194-196, ...), `u` is `q_norm`. -/
def rot (u0 u1 u2 u3 i j k : ℝ) : V3 :=
  (i - 2 * (u2 * u2 + u3 * u3) * i + 2 * (u1 * u2 - u3 * u0) * j + 2 * (u1 * u3 + u2 * u0) * k,
   2 * (u1 * u2 + u3 * u0) * i + j - 2 * (u1 * u1 + u3 * u3) * j + 2 * (u2 * u3 - u1 * u0) * k,
   2 * (u1 * u3 - u2 * u0) * i + 2 * (u2 * u3 + u1 * u0) * j + k - 2 * (u1 * u1 + u2 * u2) * k)

/-- The factor of `rc[0]` in the first and second coordinate of the curve and of its derivatives (`n` = 0, 1, 2, 3; L26-27, L60-61,
L97-98, L134-135). -/
noncomputable def c0i (n : Fin 4) (phi : ℝ) : ℝ := match n with
  | 0 => Real.cos phi | 1 => -Real.sin phi | 2 => -Real.cos phi | 3 => Real.sin phi
noncomputable def c0j (n : Fin 4) (phi : ℝ) : ℝ := match n with
  | 0 => Real.sin phi | 1 => Real.cos phi | 2 => -Real.sin phi | 3 => -Real.cos phi

/-- The factor of `rc[m]` in the first coordinate (L31, L65, L102, L140-141; L188, L532, L885, L1239-1240). -/
noncomputable def ci (n : Fin 4) (m phi : ℝ) : ℝ := match n with
  | 0 => Real.cos (m * phi) * Real.cos phi
  | 1 => -m * Real.sin (m * phi) * Real.cos phi - Real.cos (m * phi) * Real.sin phi
  | 2 => 2 * m * Real.sin (m * phi) * Real.sin phi - (m * m + 1) * Real.cos (m * phi) * Real.cos phi
  | 3 => (3 * m * m + 1) * Real.cos (m * phi) * Real.sin phi + (m * m + 3) * m * Real.sin (m * phi) * Real.cos phi

/-- The factor of `rc[m]` in the second coordinate (L32, L67, L104, L147-148; L189, L533, L886, L1243-1244). -/
noncomputable def cj (n : Fin 4) (m phi : ℝ) : ℝ := match n with
  | 0 => Real.cos (m * phi) * Real.sin phi
  | 1 => -m * Real.sin (m * phi) * Real.sin phi + Real.cos (m * phi) * Real.cos phi
  | 2 => -2 * m * Real.sin (m * phi) * Real.cos phi - (m * m + 1) * Real.cos (m * phi) * Real.sin phi
  | 3 => (m * m + 3) * m * Real.sin (m * phi) * Real.sin phi - (3 * m * m + 1) * Real.cos (m * phi) * Real.cos phi

/-- The factor of `rs[m-1]` in the first coordinate (L31, L66, L103, L143-144; L203, L548, L902, L1261-1262). -/
noncomputable def si (n : Fin 4) (m phi : ℝ) : ℝ := match n with
  | 0 => Real.sin (m * phi) * Real.cos phi
  | 1 => m * Real.cos (m * phi) * Real.cos phi - Real.sin (m * phi) * Real.sin phi
  | 2 => -(m * m + 1) * Real.sin (m * phi) * Real.cos phi - 2 * m * Real.cos (m * phi) * Real.sin phi
  | 3 => -(m * m + 3) * m * Real.cos (m * phi) * Real.cos phi + (3 * m * m + 1) * Real.sin (m * phi) * Real.sin phi

/-- The factor of `rs[m-1]` in the second coordinate (L32, L68, L105, L150-151; L204, L549, L903, L1265-1266). -/
noncomputable def sj (n : Fin 4) (m phi : ℝ) : ℝ := match n with
  | 0 => Real.sin (m * phi) * Real.sin phi
  | 1 => m * Real.cos (m * phi) * Real.sin phi + Real.sin (m * phi) * Real.cos phi
  | 2 => -(m * m + 1) * Real.sin (m * phi) * Real.sin phi + 2 * m * Real.cos (m * phi) * Real.cos phi
  | 3 => -(m * m + 3) * m * Real.cos (m * phi) * Real.sin phi - (3 * m * m + 1) * Real.sin (m * phi) * Real.cos phi

/-- `data *= ...` (none, L72, L108, L155). -/
noncomputable def scale (n : Fin 4) : ℝ := match n with
  | 0 => 1 | 1 => 2 * Real.pi | 2 => 2 * Real.pi * 2 * Real.pi | 3 => 2 * Real.pi * 2 * Real.pi * 2 * Real.pi

/-- The in-plane coordinates `i`, `j` before the rotation (L22-34, L56-72, L93-108, L130-155). -/
noncomputable def inPlane (n : Fin 4) (order : Nat) (d : List ℝ) (c0 : Fin 4 → ℝ → ℝ) (c s : Fin 4 → ℝ → ℝ → ℝ) (phi : ℝ) : ℝ :=
  (List.range order).foldl (fun acc m => acc + (rc order d (m + 1) * c n ((m + 1 : Nat) : ℝ) phi + rs order d m * s n ((m + 1 : Nat) : ℝ) phi))
    (rc order d 0 * c0 n phi) * scale n

/-- The rotation by the normalised quaternion of the dofs. -/
noncomputable def rotDofs (order : Nat) (d : List ℝ) (i j : ℝ) : V3 :=
  let w := invMagnitude (quat order d 0) (quat order d 1) (quat order d 2) (quat order d 3)
  rot (quat order d 0 * w) (quat order d 1 * w) (quat order d 2 * w) (quat order d 3 * w) i j 0

/-- `+ center` in `gamma_impl` (L42-44) and not in the derivatives. -/
noncomputable def shift (n : Fin 4) (order : Nat) (d : List ℝ) : V3 := match n with
  | 0 => (center order d 0, center order d 1, center order d 2)
  | _ => 0

/-- `gamma_impl`, `gammadash_impl`, `gammadashdash_impl`, `gammadashdashdash_impl` (`n` = 0, 1, 2, 3) at the quadrature point `t`. -/
noncomputable def curve (n : Fin 4) (order : Nat) (d : List ℝ) (t : ℝ) : V3 :=
  let phi := 2 * Real.pi * t
  rotDofs order d (inPlane n order d c0i ci si phi) (inPlane n order d c0j cj sj phi) + shift n order d

/-- The four blocks of the quaternion dofs in `dgamma_by_dcoeff_impl` (L225-499); the text is the same in the other three functions
(L578-852, L932-1206, L1307-1581).  `u` is `q_norm`, `w` is `inv_sqrt_s`. -/
def quatBlock (q0 q1 q2 q3 w i j : ℝ) (p : Fin 4) : V3 :=
  let u0 := q0 * w
  let u1 := q1 * w
  let u2 := q2 * w
  let u3 := q3 * w
  match p with
  | 0 =>
    ((4 * i * (u2 * u2 + u3 * u3) * u0 - 4 * j * (u1 * u2 - u0 * u3) * u0 - 2 * j * u3) * (w - q0 * q0 * w * w * w)
        + (4 * i * (u2 * u2 + u3 * u3) * u1 - 4 * j * (u1 * u2 - u0 * u3) * u1 + 2 * j * u2) * (-q1 * q0 * w * w * w)
        + (-4 * i * (u0 * u0 + u1 * u1) * u2 - 4 * j * (u1 * u2 - u0 * u3) * u2 + 2 * j * u1) * (-q2 * q0 * w * w * w)
        + (-4 * i * (u1 * u1 + u0 * u0) * u3 - 4 * j * (u1 * u2 - u0 * u3) * u3 - 2 * j * u0) * (-q3 * q0 * w * w * w),
     (-4 * i * (u1 * u2 + u3 * u0) * u0 + 2 * i * u3 + 4 * j * (u1 * u1 + u3 * u3) * u0) * (w - q0 * q0 * w * w * w)
        + (-4 * i * (u1 * u2 + u3 * u0) * u1 + 2 * i * u2 + 4 * j * (u1 * u1 + u3 * u3) * u1 - 4 * j * u1) * (-q1 * q0 * w * w * w)
        + (-4 * i * (u1 * u2 + u3 * u0) * u2 + 2 * i * u1 + 4 * j * (u1 * u1 + u3 * u3) * u2) * (-q2 * q0 * w * w * w)
        + (-4 * i * (u1 * u2 + u3 * u0) * u3 + 2 * i * u0 + 4 * j * (u1 * u1 + u3 * u3) * u3 - 4 * j * u3) * (-q3 * q0 * w * w * w),
     (-4 * i * (u1 * u3 - u2 * u0) * u0 - 2 * i * u2 - 4 * j * (u1 * u0 + u2 * u3) * u0 + 2 * j * u1) * (w - q0 * q0 * w * w * w)
        + (-4 * i * (u1 * u3 - u2 * u0) * u1 + 2 * i * u3 - 4 * j * (u1 * u0 + u2 * u3) * u1 + 2 * j * u0) * (-q1 * q0 * w * w * w)
        + (-2 * i * u0 - 4 * i * (u1 * u3 - u0 * u2) * u2 - 4 * j * (u1 * u0 + u2 * u3) * u2 + 2 * j * u3) * (-q2 * q0 * w * w * w)
        + (2 * i * u1 + 4 * i * (u2 * u0 - u1 * u3) * u3 - 4 * j * (u1 * u0 + u2 * u3) * u3 + 2 * j * u2) * (-q3 * q0 * w * w * w))
  | 1 =>
    ((4 * i * (u2 * u2 + u3 * u3) * u0 - 4 * j * (u1 * u2 - u0 * u3) * u0 - 2 * j * u3) * (-q0 * q1 * w * w * w)
        + (4 * i * (u2 * u2 + u3 * u3) * u1 - 4 * j * (u1 * u2 - u0 * u3) * u1 + 2 * j * u2) * (w - q1 * q1 * w * w * w)
        + (-4 * i * (u0 * u0 + u1 * u1) * u2 - 4 * j * (u1 * u2 - u0 * u3) * u2 + 2 * j * u1) * (-q2 * q1 * w * w * w)
        + (-4 * i * (u1 * u1 + u0 * u0) * u3 - 4 * j * (u1 * u2 - u0 * u3) * u3 - 2 * j * u0) * (-q3 * q1 * w * w * w),
     (-4 * i * (u1 * u2 + u3 * u0) * u0 + 2 * i * u3 + 4 * j * (u1 * u1 + u3 * u3) * u0) * (-q0 * q1 * w * w * w)
        + (-4 * i * (u1 * u2 + u3 * u0) * u1 + 2 * i * u2 + 4 * j * (u1 * u1 + u3 * u3) * u1 - 4 * j * u1) * (w - q1 * q1 * w * w * w)
        + (-4 * i * (u1 * u2 + u3 * u0) * u2 + 2 * i * u1 + 4 * j * (u1 * u1 + u3 * u3) * u2) * (-q2 * q1 * w * w * w)
        + (-4 * i * (u1 * u2 + u3 * u0) * u3 + 2 * i * u0 + 4 * j * (u1 * u1 + u3 * u3) * u3 - 4 * j * u3) * (-q3 * q1 * w * w * w),
     (-4 * i * (u1 * u3 - u2 * u0) * u0 - 2 * i * u2 - 4 * j * (u1 * u0 + u2 * u3) * u0 + 2 * j * u1) * (-q0 * q1 * w * w * w)
        + (-4 * i * (u1 * u3 - u2 * u0) * u1 + 2 * i * u3 - 4 * j * (u1 * u0 + u2 * u3) * u1 + 2 * j * u0) * (w - q1 * q1 * w * w * w)
        + (-2 * i * u0 - 4 * i * (u1 * u3 - u0 * u2) * u2 - 4 * j * (u1 * u0 + u2 * u3) * u2 + 2 * j * u3) * (-q2 * q1 * w * w * w)
        + (2 * i * u1 + 4 * i * (u2 * u0 - u1 * u3) * u3 - 4 * j * (u1 * u0 + u2 * u3) * u3 + 2 * j * u2) * (-q3 * q1 * w * w * w))
  | 2 =>
    ((4 * i * (u2 * u2 + u3 * u3) * u0 - 4 * j * (u1 * u2 - u0 * u3) * u0 - 2 * j * u3) * (-q0 * q2 * w * w * w)
        + (4 * i * (u2 * u2 + u3 * u3) * u1 - 4 * j * (u1 * u2 - u0 * u3) * u1 + 2 * j * u2) * (-q1 * q2 * w * w * w)
        + (-4 * i * (u0 * u0 + u1 * u1) * u2 - 4 * j * (u1 * u2 - u0 * u3) * u2 + 2 * j * u1) * (w - q2 * q2 * w * w * w)
        + (-4 * i * (u1 * u1 + u0 * u0) * u3 - 4 * j * (u1 * u2 - u0 * u3) * u3 - 2 * j * u0) * (-q3 * q2 * w * w * w),
     (-4 * i * (u1 * u2 + u3 * u0) * u0 + 2 * i * u3 + 4 * j * (u1 * u1 + u3 * u3) * u0) * (-q0 * q2 * w * w * w)
        + (-4 * i * (u1 * u2 + u3 * u0) * u1 + 2 * i * u2 + 4 * j * (u1 * u1 + u3 * u3) * u1 - 4 * j * u1) * (-q1 * q2 * w * w * w)
        + (-4 * i * (u1 * u2 + u3 * u0) * u2 + 2 * i * u1 + 4 * j * (u1 * u1 + u3 * u3) * u2) * (w - q2 * q2 * w * w * w)
        + (-4 * i * (u1 * u2 + u3 * u0) * u3 + 2 * i * u0 + 4 * j * (u1 * u1 + u3 * u3) * u3 - 4 * j * u3) * (-q3 * q2 * w * w * w),
     (-4 * i * (u1 * u3 - u2 * u0) * u0 - 2 * i * u2 - 4 * j * (u1 * u0 + u2 * u3) * u0 + 2 * j * u1) * (-q0 * q2 * w * w * w)
        + (-4 * i * (u1 * u3 - u2 * u0) * u1 + 2 * i * u3 - 4 * j * (u1 * u0 + u2 * u3) * u1 + 2 * j * u0) * (-q1 * q2 * w * w * w)
        + (-2 * i * u0 - 4 * i * (u1 * u3 - u0 * u2) * u2 - 4 * j * (u1 * u0 + u2 * u3) * u2 + 2 * j * u3) * (w - q2 * q2 * w * w * w)
        + (2 * i * u1 + 4 * i * (u2 * u0 - u1 * u3) * u3 - 4 * j * (u1 * u0 + u2 * u3) * u3 + 2 * j * u2) * (-q3 * q2 * w * w * w))
  | 3 =>
    ((4 * i * (u2 * u2 + u3 * u3) * u0 - 4 * j * (u1 * u2 - u0 * u3) * u0 - 2 * j * u3) * (-q0 * q3 * w * w * w)
        + (4 * i * (u2 * u2 + u3 * u3) * u1 - 4 * j * (u1 * u2 - u0 * u3) * u1 + 2 * j * u2) * (-q1 * q3 * w * w * w)
        + (-4 * i * (u0 * u0 + u1 * u1) * u2 - 4 * j * (u1 * u2 - u0 * u3) * u2 + 2 * j * u1) * (-q2 * q3 * w * w * w)
        + (-4 * i * (u1 * u1 + u0 * u0) * u3 - 4 * j * (u1 * u2 - u0 * u3) * u3 - 2 * j * u0) * (w - q3 * q3 * w * w * w),
     (-4 * i * (u1 * u2 + u3 * u0) * u0 + 2 * i * u3 + 4 * j * (u1 * u1 + u3 * u3) * u0) * (-q0 * q3 * w * w * w)
        + (-4 * i * (u1 * u2 + u3 * u0) * u1 + 2 * i * u2 + 4 * j * (u1 * u1 + u3 * u3) * u1 - 4 * j * u1) * (-q1 * q3 * w * w * w)
        + (-4 * i * (u1 * u2 + u3 * u0) * u2 + 2 * i * u1 + 4 * j * (u1 * u1 + u3 * u3) * u2) * (-q2 * q3 * w * w * w)
        + (-4 * i * (u1 * u2 + u3 * u0) * u3 + 2 * i * u0 + 4 * j * (u1 * u1 + u3 * u3) * u3 - 4 * j * u3) * (w - q3 * q3 * w * w * w),
     (-4 * i * (u1 * u3 - u2 * u0) * u0 - 2 * i * u2 - 4 * j * (u1 * u0 + u2 * u3) * u0 + 2 * j * u1) * (-q0 * q3 * w * w * w)
        + (-4 * i * (u1 * u3 - u2 * u0) * u1 + 2 * i * u3 - 4 * j * (u1 * u0 + u2 * u3) * u1 + 2 * j * u0) * (-q1 * q3 * w * w * w)
        + (-2 * i * u0 - 4 * i * (u1 * u3 - u0 * u2) * u2 - 4 * j * (u1 * u0 + u2 * u3) * u2 + 2 * j * u3) * (-q2 * q3 * w * w * w)
        + (2 * i * u1 + 4 * i * (u2 * u0 - u1 * u3) * u3 - 4 * j * (u1 * u0 + u2 * u3) * u3 + 2 * j * u2) * (w - q3 * q3 * w * w * w))

/-- The last loop: the centre (L503-509, L855-861, L1209-1215, L1584-1590). -/
noncomputable def centerBlock (n : Fin 4) (p : Fin 3) : V3 := match n with
  | 0 => unit p
  | _ => 0

/-- The blocks of `dgamma_by_dcoeff_impl`, ... (L170-511, L514-864, L867-1217, L1220-1593), in the order of `counter++`. -/
noncomputable def dcurve (n : Fin 4) (order : Nat) (d : List ℝ) (t : ℝ) : List V3 :=
  let phi := 2 * Real.pi * t
  let i := inPlane n order d c0i ci si phi
  let j := inPlane n order d c0j cj sj phi
  let q := quat order d
  (List.range (order + 1)).map (fun m : Nat => rotDofs order d (ci n (m : ℝ) phi * scale n) (cj n (m : ℝ) phi * scale n)) ++
    ((List.range order).map (fun m => rotDofs order d (si n ((m + 1 : Nat) : ℝ) phi * scale n) (sj n ((m + 1 : Nat) : ℝ) phi * scale n)) ++
      ([quatBlock (q 0) (q 1) (q 2) (q 3) (invMagnitude (q 0) (q 1) (q 2) (q 3)) i j 0,
        quatBlock (q 0) (q 1) (q 2) (q 3) (invMagnitude (q 0) (q 1) (q 2) (q 3)) i j 1,
        quatBlock (q 0) (q 1) (q 2) (q 3) (invMagnitude (q 0) (q 1) (q 2) (q 3)) i j 2,
        quatBlock (q 0) (q 1) (q 2) (q 3) (invMagnitude (q 0) (q 1) (q 2) (q 3)) i j 3] ++
       [centerBlock n 0, centerBlock n 1, centerBlock n 2]))

/-! ### Round trip of the dofs -/

/-- **C54.** Setting the dofs of a planar curve and reading them back is the identity. -/
theorem C54_set_get (order : Nat) (d : List ℝ) (hd : d.length = 2 * order + 8) :
    getDofs order (rc order d) (rs order d) (quat order d) (center order d) = d := by
  apply List.ext_getElem?
  intro p
  have hsome : ∀ q, q < d.length → some (d[q]?.getD 0) = d[q]? := by
    intro q hq; rw [List.getElem?_eq_getElem hq]; rfl
  unfold getDofs
  by_cases h1 : p < order + 1
  · rw [List.getElem?_append_left (by simp; omega), List.getElem?_append_left (by simp; omega), List.getElem?_append_left (by simp; omega),
      List.getElem?_map, List.getElem?_range h1]
    exact hsome p (by omega)
  by_cases h2 : p < order + 1 + order
  · rw [List.getElem?_append_left (by simp; omega), List.getElem?_append_left (by simp; omega), List.getElem?_append_right (by simp; omega),
      List.getElem?_map, List.length_map, List.length_range, List.getElem?_range (by omega)]
    simp only [Option.map_some, rs]
    rw [show order + 1 + (p - (order + 1)) = p by omega]
    exact hsome p (by omega)
  by_cases h3 : p < order + 1 + order + 4
  · rw [List.getElem?_append_left (by simp; omega), List.getElem?_append_right (by simp; omega), List.length_append,
      List.getElem?_map, List.length_map, List.length_range, List.length_map, List.length_range, List.getElem?_range (by omega)]
    simp only [Option.map_some, quat]
    rw [show order + 1 + order + (p - (order + 1 + order)) = p by omega]
    exact hsome p (by omega)
  by_cases h4 : p < d.length
  · rw [List.getElem?_append_right (by simp; omega)]
    simp only [List.length_append, List.length_map, List.length_range, List.getElem?_map]
    rw [List.getElem?_range (by omega)]
    simp only [Option.map_some, center]
    rw [show order + 1 + order + 4 + (p - (order + 1 + order + 4)) = p by omega]
    exact hsome p (by omega)
  · rw [List.getElem?_eq_none (by simp; omega), List.getElem?_eq_none (by omega)]

/-! ### Derivatives along the curve -/

theorem trig (m t : ℝ) : HasDerivAt (fun t => Real.cos (m * (2 * Real.pi * t))) (-(2 * Real.pi * m) * Real.sin (m * (2 * Real.pi * t))) t ∧
    HasDerivAt (fun t => Real.sin (m * (2 * Real.pi * t))) ((2 * Real.pi * m) * Real.cos (m * (2 * Real.pi * t))) t := by
  have h : HasDerivAt (fun t : ℝ => m * (2 * Real.pi * t)) (m * (2 * Real.pi * 1)) t := ((hasDerivAt_id t).const_mul _).const_mul _
  exact ⟨h.cos.congr_deriv (by ring), h.sin.congr_deriv (by ring)⟩

theorem trig1 (t : ℝ) : HasDerivAt (fun t => Real.cos (2 * Real.pi * t)) (-(2 * Real.pi) * Real.sin (2 * Real.pi * t)) t ∧
    HasDerivAt (fun t => Real.sin (2 * Real.pi * t)) ((2 * Real.pi) * Real.cos (2 * Real.pi * t)) t := by
  have h : HasDerivAt (fun t : ℝ => 2 * Real.pi * t) (2 * Real.pi * 1) t := (hasDerivAt_id t).const_mul _
  exact ⟨h.cos.congr_deriv (by ring), h.sin.congr_deriv (by ring)⟩

/-- The functions of the form `A cos mφ cos φ + B cos mφ sin φ + C sin mφ cos φ + D sin mφ sin φ`. -/
theorem d_basis (A B C D m t : ℝ) :
    HasDerivAt (fun t => A * (Real.cos (m * (2 * Real.pi * t)) * Real.cos (2 * Real.pi * t)) + B * (Real.cos (m * (2 * Real.pi * t)) * Real.sin (2 * Real.pi * t))
        + C * (Real.sin (m * (2 * Real.pi * t)) * Real.cos (2 * Real.pi * t)) + D * (Real.sin (m * (2 * Real.pi * t)) * Real.sin (2 * Real.pi * t)))
      (2 * Real.pi * ((B + m * C) * (Real.cos (m * (2 * Real.pi * t)) * Real.cos (2 * Real.pi * t)) + (m * D - A) * (Real.cos (m * (2 * Real.pi * t)) * Real.sin (2 * Real.pi * t))
        + (D - m * A) * (Real.sin (m * (2 * Real.pi * t)) * Real.cos (2 * Real.pi * t)) + (-m * B - C) * (Real.sin (m * (2 * Real.pi * t)) * Real.sin (2 * Real.pi * t)))) t := by
  have h := ((((trig m t).1.mul (trig1 t).1).const_mul A).add (((trig m t).1.mul (trig1 t).2).const_mul B)).add
    (((trig m t).2.mul (trig1 t).1).const_mul C) |>.add (((trig m t).2.mul (trig1 t).2).const_mul D)
  refine h.congr_deriv ?_
  ring

theorem d_ci (n : Fin 3) (m t : ℝ) : HasDerivAt (fun t => ci n.castSucc m (2 * Real.pi * t) * scale n.castSucc) (ci n.succ m (2 * Real.pi * t) * scale n.succ) t := by
  match n with
  | 0 =>
    refine ((d_basis 1 0 0 0 m t).congr_deriv ?_).congr_of_eventuallyEq (Filter.Eventually.of_forall fun t => ?_) <;> simp [ci, scale] <;> ring
  | 1 =>
    refine ((d_basis 0 (-2 * Real.pi) (-m * (2 * Real.pi)) 0 m t).congr_deriv ?_).congr_of_eventuallyEq (Filter.Eventually.of_forall fun t => ?_) <;>
      simp [ci, scale] <;> ring
  | 2 =>
    refine ((d_basis (-(m * m + 1) * (2 * Real.pi * 2 * Real.pi)) 0 0 (2 * m * (2 * Real.pi * 2 * Real.pi)) m t).congr_deriv ?_).congr_of_eventuallyEq
      (Filter.Eventually.of_forall fun t => ?_) <;> simp [ci, scale] <;> ring

theorem d_cj (n : Fin 3) (m t : ℝ) : HasDerivAt (fun t => cj n.castSucc m (2 * Real.pi * t) * scale n.castSucc) (cj n.succ m (2 * Real.pi * t) * scale n.succ) t := by
  match n with
  | 0 =>
    refine ((d_basis 0 1 0 0 m t).congr_deriv ?_).congr_of_eventuallyEq (Filter.Eventually.of_forall fun t => ?_) <;> simp [cj, scale] <;> ring
  | 1 =>
    refine ((d_basis (2 * Real.pi) 0 0 (-m * (2 * Real.pi)) m t).congr_deriv ?_).congr_of_eventuallyEq (Filter.Eventually.of_forall fun t => ?_) <;>
      simp [cj, scale] <;> ring
  | 2 =>
    refine ((d_basis 0 (-(m * m + 1) * (2 * Real.pi * 2 * Real.pi)) (-2 * m * (2 * Real.pi * 2 * Real.pi)) 0 m t).congr_deriv ?_).congr_of_eventuallyEq
      (Filter.Eventually.of_forall fun t => ?_) <;> simp [cj, scale] <;> ring

theorem d_si (n : Fin 3) (m t : ℝ) : HasDerivAt (fun t => si n.castSucc m (2 * Real.pi * t) * scale n.castSucc) (si n.succ m (2 * Real.pi * t) * scale n.succ) t := by
  match n with
  | 0 =>
    refine ((d_basis 0 0 1 0 m t).congr_deriv ?_).congr_of_eventuallyEq (Filter.Eventually.of_forall fun t => ?_) <;> simp [si, scale] <;> ring
  | 1 =>
    refine ((d_basis (m * (2 * Real.pi)) 0 0 (-(2 * Real.pi)) m t).congr_deriv ?_).congr_of_eventuallyEq (Filter.Eventually.of_forall fun t => ?_) <;>
      simp [si, scale] <;> ring
  | 2 =>
    refine ((d_basis 0 (-2 * m * (2 * Real.pi * 2 * Real.pi)) (-(m * m + 1) * (2 * Real.pi * 2 * Real.pi)) 0 m t).congr_deriv ?_).congr_of_eventuallyEq
      (Filter.Eventually.of_forall fun t => ?_) <;> simp [si, scale] <;> ring

theorem d_sj (n : Fin 3) (m t : ℝ) : HasDerivAt (fun t => sj n.castSucc m (2 * Real.pi * t) * scale n.castSucc) (sj n.succ m (2 * Real.pi * t) * scale n.succ) t := by
  match n with
  | 0 =>
    refine ((d_basis 0 0 0 1 m t).congr_deriv ?_).congr_of_eventuallyEq (Filter.Eventually.of_forall fun t => ?_) <;> simp [sj, scale] <;> ring
  | 1 =>
    refine ((d_basis 0 (m * (2 * Real.pi)) (2 * Real.pi) 0 m t).congr_deriv ?_).congr_of_eventuallyEq (Filter.Eventually.of_forall fun t => ?_) <;>
      simp [sj, scale] <;> ring
  | 2 =>
    refine ((d_basis (2 * m * (2 * Real.pi * 2 * Real.pi)) 0 0 (-(m * m + 1) * (2 * Real.pi * 2 * Real.pi)) m t).congr_deriv ?_).congr_of_eventuallyEq
      (Filter.Eventually.of_forall fun t => ?_) <;> simp [sj, scale] <;> ring

/-- The factors of `rc[0]` are those of mode 0. -/
theorem c0_eq (n : Fin 4) (phi : ℝ) : c0i n phi = ci n 0 phi ∧ c0j n phi = cj n 0 phi := by
  match n with
  | 0 | 1 | 2 | 3 => constructor <;> simp [c0i, c0j, ci, cj]

theorem inPlane_sum (n : Fin 4) (order : Nat) (d : List ℝ) (c0 : Fin 4 → ℝ → ℝ) (c s : Fin 4 → ℝ → ℝ → ℝ) (phi : ℝ) :
    inPlane n order d c0 c s phi = rc order d 0 * (c0 n phi * scale n) +
      (∑ m ∈ Finset.range order, rc order d (m + 1) * (c n ((m + 1 : Nat) : ℝ) phi * scale n) +
        ∑ m ∈ Finset.range order, rs order d m * (s n ((m + 1 : Nat) : ℝ) phi * scale n)) := by
  rw [inPlane, ← Finset.sum_add_distrib]
  have h : ∀ k, (List.range k).foldl (fun acc m => acc + (rc order d (m + 1) * c n ((m + 1 : Nat) : ℝ) phi + rs order d m * s n ((m + 1 : Nat) : ℝ) phi))
      (rc order d 0 * c0 n phi) = rc order d 0 * c0 n phi + ∑ m ∈ Finset.range k, (rc order d (m + 1) * c n ((m + 1 : Nat) : ℝ) phi + rs order d m * s n ((m + 1 : Nat) : ℝ) phi) := by
    intro k
    induction k with
    | zero => simp
    | succ k ih => rw [List.range_succ, List.foldl_append, ih, Finset.sum_range_succ]; simp; ring
  rw [h, add_mul, Finset.sum_mul]
  congr 1
  · ring
  · apply Finset.sum_congr rfl; intro m _; ring

theorem d_inPlane (n : Fin 3) (order : Nat) (d : List ℝ) (c0 : Fin 4 → ℝ → ℝ) (c s : Fin 4 → ℝ → ℝ → ℝ) (t : ℝ)
    (h0 : ∀ n phi, c0 n phi = c n 0 phi)
    (hc : ∀ m, HasDerivAt (fun t => c n.castSucc m (2 * Real.pi * t) * scale n.castSucc) (c n.succ m (2 * Real.pi * t) * scale n.succ) t)
    (hs : ∀ m, HasDerivAt (fun t => s n.castSucc m (2 * Real.pi * t) * scale n.castSucc) (s n.succ m (2 * Real.pi * t) * scale n.succ) t) :
    HasDerivAt (fun t => inPlane n.castSucc order d c0 c s (2 * Real.pi * t)) (inPlane n.succ order d c0 c s (2 * Real.pi * t)) t := by
  simp only [inPlane_sum, h0]
  refine ((hc 0).const_mul _).add (HasDerivAt.add ?_ ?_)
  · exact HasDerivAt.fun_sum fun m _ => (hc _).const_mul _
  · exact HasDerivAt.fun_sum fun m _ => (hs _).const_mul _

theorem d_rot (u0 u1 u2 u3 : ℝ) {i j : ℝ → ℝ} {i' j' t : ℝ} (hi : HasDerivAt i i' t) (hj : HasDerivAt j j' t) :
    HasDerivAt (fun t => rot u0 u1 u2 u3 (i t) (j t) 0) (rot u0 u1 u2 u3 i' j' 0) t := by
  have e : ∀ a b : ℝ, rot u0 u1 u2 u3 a b 0 = a • rot u0 u1 u2 u3 1 0 0 + b • rot u0 u1 u2 u3 0 1 0 := by
    intro a b; ext <;> simp [rot] <;> ring
  rw [e i' j']
  refine ((hi.smul_const _).add (hj.smul_const _)).congr_of_eventuallyEq (Filter.Eventually.of_forall fun t => e _ _)

/-- **C54.** `gammadash`, `gammadashdash`, `gammadashdashdash` are the successive derivatives of `gamma` in the curve parameter. -/
theorem C54_dash (n : Fin 3) (order : Nat) (d : List ℝ) (t : ℝ) :
    HasDerivAt (fun t => curve n.castSucc order d t) (curve n.succ order d t) t := by
  have hi := d_inPlane n order d c0i ci si t (fun n phi => (c0_eq n phi).1) (fun m => d_ci n m t) (fun m => d_si n m t)
  have hj := d_inPlane n order d c0j cj sj t (fun n phi => (c0_eq n phi).2) (fun m => d_cj n m t) (fun m => d_sj n m t)
  have h := (d_rot (quat order d 0 * invMagnitude (quat order d 0) (quat order d 1) (quat order d 2) (quat order d 3))
    (quat order d 1 * invMagnitude (quat order d 0) (quat order d 1) (quat order d 2) (quat order d 3))
    (quat order d 2 * invMagnitude (quat order d 0) (quat order d 1) (quat order d 2) (quat order d 3))
    (quat order d 3 * invMagnitude (quat order d 0) (quat order d 1) (quat order d 2) (quat order d 3)) hi hj).add_const (shift n.castSucc order d)
  refine h.congr_deriv ?_
  have : shift n.succ order d = 0 := by match n with | 0 | 1 | 2 => rfl
  simp only [curve, rotDofs, this, add_zero]

/-! ### Derivatives in the dofs -/

theorem get_set (d : List ℝ) (p : Nat) (hp : p < d.length) (x : ℝ) (q : Nat) :
    (d.set p x)[q]?.getD 0 = d[q]?.getD 0 + if q = p then x - d[p] else 0 := by
  rw [List.getElem?_set]
  by_cases h : p = q
  · subst h; rw [if_pos rfl, if_pos hp, if_pos rfl, List.getElem?_eq_getElem hp]; simp
  · rw [if_neg h, if_neg (fun e => h e.symm), add_zero]

theorem sum_set (d : List ℝ) (p : Nat) (hp : p < d.length) (x : ℝ) (k off : Nat) (a : Nat → ℝ) :
    ∑ m ∈ Finset.range k, (d.set p x)[off + m]?.getD 0 * a m =
      ∑ m ∈ Finset.range k, d[off + m]?.getD 0 * a m + (if off ≤ p ∧ p < off + k then (x - d[p]) * a (p - off) else 0) := by
  simp only [get_set d p hp x, add_mul, Finset.sum_add_distrib]
  congr 1
  by_cases h : off ≤ p ∧ p < off + k
  · rw [if_pos h, Finset.sum_eq_single (p - off)]
    · rw [if_pos (by omega)]
    · intro m _ hm; rw [if_neg (by omega), zero_mul]
    · intro hm; exact absurd (Finset.mem_range.mpr (by omega)) hm
  · rw [if_neg h]
    apply Finset.sum_eq_zero
    intro m hm
    have := Finset.mem_range.mp hm
    rw [if_neg (by omega), zero_mul]

/-- Changing one dof: the in-plane coordinates. -/
theorem inPlane_set (n : Fin 4) (order : Nat) (d : List ℝ) (c0 : Fin 4 → ℝ → ℝ) (c s : Fin 4 → ℝ → ℝ → ℝ) (phi : ℝ)
    (h0 : ∀ n phi, c0 n phi = c n 0 phi) (p : Nat) (hp : p < d.length) (x : ℝ) :
    inPlane n order (d.set p x) c0 c s phi = inPlane n order d c0 c s phi + (x - d[p]) *
      (if p < order + 1 then c n (p : ℝ) phi * scale n else if p < order + 1 + order then s n ((p - (order + 1) + 1 : Nat) : ℝ) phi * scale n else 0) := by
  have e : ∀ d : List ℝ, inPlane n order d c0 c s phi = ∑ m ∈ Finset.range (order + 1), d[0 + m]?.getD 0 * (c n (m : ℝ) phi * scale n) +
      ∑ m ∈ Finset.range order, d[order + 1 + m]?.getD 0 * (s n ((m + 1 : Nat) : ℝ) phi * scale n) := by
    intro d
    rw [inPlane_sum, Finset.sum_range_succ', h0]
    simp only [rc, rs, Nat.zero_add, Nat.cast_zero]
    ring
  rw [e, e, sum_set d p hp x (order + 1) 0, sum_set d p hp x order (order + 1)]
  by_cases h1 : p < order + 1
  · rw [if_pos (by omega), if_neg (by omega), if_pos h1]; simp; ring
  · rw [if_neg (by omega)]
    by_cases h2 : p < order + 1 + order
    · rw [if_pos (by omega), if_neg h1, if_pos h2]; ring
    · rw [if_neg (by omega), if_neg h1, if_neg h2]; ring

theorem quat_set (order : Nat) (d : List ℝ) (p : Nat) (hp : p < d.length) (x : ℝ) (i : Nat) :
    quat order (d.set p x) i = quat order d i + if order + 1 + order + i = p then x - d[p] else 0 := get_set d p hp x _

theorem center_set (order : Nat) (d : List ℝ) (p : Nat) (hp : p < d.length) (x : ℝ) (i : Nat) :
    center order (d.set p x) i = center order d i + if order + 1 + order + 4 + i = p then x - d[p] else 0 := get_set d p hp x _

theorem d_invMagnitude {q0 q1 q2 q3 : ℝ → ℝ} {a0 a1 a2 a3 t : ℝ} (h0 : HasDerivAt q0 a0 t) (h1 : HasDerivAt q1 a1 t)
    (h2 : HasDerivAt q2 a2 t) (h3 : HasDerivAt q3 a3 t)
    (hne : q0 t * q0 t + q1 t * q1 t + q2 t * q2 t + q3 t * q3 t ≠ 0) :
    HasDerivAt (fun s => invMagnitude (q0 s) (q1 s) (q2 s) (q3 s))
      (-(q0 t * a0 + q1 t * a1 + q2 t * a2 + q3 t * a3) * invMagnitude (q0 t) (q1 t) (q2 t) (q3 t) ^ 3) t := by
  have hs := (((h0.mul h0).add (h1.mul h1)).add (h2.mul h2)).add (h3.mul h3)
  have hpos : 0 < q0 t * q0 t + q1 t * q1 t + q2 t * q2 t + q3 t * q3 t := lt_of_le_of_ne (by
    nlinarith [mul_self_nonneg (q0 t), mul_self_nonneg (q1 t), mul_self_nonneg (q2 t), mul_self_nonneg (q3 t)]) (Ne.symm hne)
  have hsq := Real.sqrt_pos.mpr hpos
  have hr := (hasDerivAt_const t (1 : ℝ)).div (hs.sqrt hne) hsq.ne'
  have hev : ∀ᶠ s in nhds t, q0 s * q0 s + q1 s * q1 s + q2 s * q2 s + q3 s * q3 s ≠ 0 := hs.continuousAt.eventually_ne hne
  refine (hr.congr_deriv ?_).congr_of_eventuallyEq ?_
  · simp only [invMagnitude, if_pos hne, Pi.add_apply, Pi.mul_apply]
    have hm := Real.mul_self_sqrt hpos.le
    generalize Real.sqrt (q0 t * q0 t + q1 t * q1 t + q2 t * q2 t + q3 t * q3 t) = r at *
    field_simp
    ring
  · filter_upwards [hev] with s hs
    simp [invMagnitude, if_pos hs]

theorem invMagnitude_sq (q0 q1 q2 q3 : ℝ) (hne : q0 * q0 + q1 * q1 + q2 * q2 + q3 * q3 ≠ 0) :
    (q0 * q0 + q1 * q1 + q2 * q2 + q3 * q3) * (invMagnitude q0 q1 q2 q3 * invMagnitude q0 q1 q2 q3) = 1 := by
  have hpos : 0 < q0 * q0 + q1 * q1 + q2 * q2 + q3 * q3 := lt_of_le_of_ne (by
    nlinarith [mul_self_nonneg q0, mul_self_nonneg q1, mul_self_nonneg q2, mul_self_nonneg q3]) (Ne.symm hne)
  simp only [invMagnitude, if_pos hne]
  have := rsqrt_sq _ hpos
  exact this

/-- The rotation as a function of the normalised quaternion. -/
theorem d_rot_u {u0 u1 u2 u3 : ℝ → ℝ} {a0 a1 a2 a3 t : ℝ} (h0 : HasDerivAt u0 a0 t) (h1 : HasDerivAt u1 a1 t)
    (h2 : HasDerivAt u2 a2 t) (h3 : HasDerivAt u3 a3 t) (i j : ℝ) :
    HasDerivAt (fun s => rot (u0 s) (u1 s) (u2 s) (u3 s) i j 0)
      (-4 * i * (u2 t * a2 + u3 t * a3) + 2 * j * (a1 * u2 t + u1 t * a2 - a3 * u0 t - u3 t * a0),
       2 * i * (a1 * u2 t + u1 t * a2 + a3 * u0 t + u3 t * a0) - 4 * j * (u1 t * a1 + u3 t * a3),
       2 * i * (a1 * u3 t + u1 t * a3 - a2 * u0 t - u2 t * a0) + 2 * j * (a2 * u3 t + u2 t * a3 + a1 * u0 t + u1 t * a0)) t := by
  have x0 := (((h2.mul h2).add (h3.mul h3)).const_mul (-2 * i)).add ((((h1.mul h2).sub (h3.mul h0)).const_mul (2 * j)))
  have x1 := ((((h1.mul h2).add (h3.mul h0)).const_mul (2 * i))).add (((h1.mul h1).add (h3.mul h3)).const_mul (-2 * j))
  have x2 := ((((h1.mul h3).sub (h2.mul h0)).const_mul (2 * i))).add ((((h2.mul h3).add (h1.mul h0)).const_mul (2 * j)))
  have h := ((x0.const_add i).prodMk ((x1.const_add j).prodMk x2))
  refine (h.congr_deriv ?_).congr_of_eventuallyEq (Filter.Eventually.of_forall fun s => ?_)
  · ext <;> dsimp only <;> ring
  · ext <;> simp [rot] <;> ring

theorem quatBlock_deriv (q : Fin 4 → ℝ) (hne : q 0 * q 0 + q 1 * q 1 + q 2 * q 2 + q 3 * q 3 ≠ 0) (i j : ℝ) (p : Fin 4) :
    HasDerivAt (fun x => rot ((q 0 + if p = 0 then x - q p else 0) * invMagnitude (q 0 + if p = 0 then x - q p else 0) (q 1 + if p = 1 then x - q p else 0) (q 2 + if p = 2 then x - q p else 0) (q 3 + if p = 3 then x - q p else 0))
      ((q 1 + if p = 1 then x - q p else 0) * invMagnitude (q 0 + if p = 0 then x - q p else 0) (q 1 + if p = 1 then x - q p else 0) (q 2 + if p = 2 then x - q p else 0) (q 3 + if p = 3 then x - q p else 0))
      ((q 2 + if p = 2 then x - q p else 0) * invMagnitude (q 0 + if p = 0 then x - q p else 0) (q 1 + if p = 1 then x - q p else 0) (q 2 + if p = 2 then x - q p else 0) (q 3 + if p = 3 then x - q p else 0))
      ((q 3 + if p = 3 then x - q p else 0) * invMagnitude (q 0 + if p = 0 then x - q p else 0) (q 1 + if p = 1 then x - q p else 0) (q 2 + if p = 2 then x - q p else 0) (q 3 + if p = 3 then x - q p else 0)) i j 0)
      (quatBlock (q 0) (q 1) (q 2) (q 3) (invMagnitude (q 0) (q 1) (q 2) (q 3)) i j p) (q p) := by
  have hd : ∀ r : Fin 4, HasDerivAt (fun x => q r + if p = r then x - q p else 0) (if p = r then 1 else 0) (q p) := by
    intro r
    by_cases h : p = r
    · simp only [if_pos h]; exact ((hasDerivAt_id (q p)).sub_const _).const_add _
    · simp only [if_neg h]; exact hasDerivAt_const _ _
  have hv : ∀ r : Fin 4, (q r + if p = r then q p - q p else 0) = q r := by intro r; simp
  have hw := d_invMagnitude (hd 0) (hd 1) (hd 2) (hd 3) (by simp only [hv]; exact hne)
  have hS := invMagnitude_sq _ _ _ _ hne
  simp only [hv] at hw
  have h := d_rot_u ((hd 0).mul hw) ((hd 1).mul hw) ((hd 2).mul hw) ((hd 3).mul hw) i j
  refine h.congr_deriv ?_
  simp only [Pi.mul_apply, hv]
  generalize invMagnitude (q 0) (q 1) (q 2) (q 3) = w at *
  generalize q 0 = q0 at *
  generalize q 1 = q1 at *
  generalize q 2 = q2 at *
  generalize q 3 = q3 at *
  clear h hw hd hv hne
  match p with
  | 0 =>
    simp only [quatBlock, Fin.reduceEq, if_true, if_false]
    ext <;> dsimp only
    · linear_combination (w * (0 - 4 * j * ((q1 * w) * (q2 * w) - (q0 * w) * (q3 * w)) * (q0 * w))) * hS
    · linear_combination (w * ((-4 * i * ((q1 * w) * (q2 * w) + (q3 * w) * (q0 * w)) + 4 * j * ((q1 * w) * (q1 * w) + (q3 * w) * (q3 * w))) * (q0 * w))) * hS
    · linear_combination (w * ((-4 * i * ((q1 * w) * (q3 * w) - (q2 * w) * (q0 * w)) - 4 * j * ((q1 * w) * (q0 * w) + (q2 * w) * (q3 * w))) * (q0 * w))) * hS
  | 1 =>
    simp only [quatBlock, Fin.reduceEq, if_true, if_false]
    ext <;> dsimp only
    · linear_combination (w * (0 - 4 * j * ((q1 * w) * (q2 * w) - (q0 * w) * (q3 * w)) * (q1 * w))) * hS
    · linear_combination (w * ((-4 * i * ((q1 * w) * (q2 * w) + (q3 * w) * (q0 * w)) + 4 * j * ((q1 * w) * (q1 * w) + (q3 * w) * (q3 * w))) * (q1 * w))) * hS
    · linear_combination (w * ((-4 * i * ((q1 * w) * (q3 * w) - (q2 * w) * (q0 * w)) - 4 * j * ((q1 * w) * (q0 * w) + (q2 * w) * (q3 * w))) * (q1 * w))) * hS
  | 2 =>
    simp only [quatBlock, Fin.reduceEq, if_true, if_false]
    ext <;> dsimp only
    · linear_combination (w * (4 * i * (q2 * w) - 4 * j * ((q1 * w) * (q2 * w) - (q0 * w) * (q3 * w)) * (q2 * w))) * hS
    · linear_combination (w * ((-4 * i * ((q1 * w) * (q2 * w) + (q3 * w) * (q0 * w)) + 4 * j * ((q1 * w) * (q1 * w) + (q3 * w) * (q3 * w))) * (q2 * w))) * hS
    · linear_combination (w * ((-4 * i * ((q1 * w) * (q3 * w) - (q2 * w) * (q0 * w)) - 4 * j * ((q1 * w) * (q0 * w) + (q2 * w) * (q3 * w))) * (q2 * w))) * hS
  | 3 =>
    simp only [quatBlock, Fin.reduceEq, if_true, if_false]
    ext <;> dsimp only
    · linear_combination (w * (4 * i * (q3 * w) - 4 * j * ((q1 * w) * (q2 * w) - (q0 * w) * (q3 * w)) * (q3 * w))) * hS
    · linear_combination (w * ((-4 * i * ((q1 * w) * (q2 * w) + (q3 * w) * (q0 * w)) + 4 * j * ((q1 * w) * (q1 * w) + (q3 * w) * (q3 * w))) * (q3 * w))) * hS
    · linear_combination (w * ((-4 * i * ((q1 * w) * (q3 * w) - (q2 * w) * (q0 * w)) - 4 * j * ((q1 * w) * (q0 * w) + (q2 * w) * (q3 * w))) * (q3 * w))) * hS

theorem dcurve_get (n : Fin 4) (order : Nat) (d : List ℝ) (t : ℝ) :
    (∀ m < order + 1, (dcurve n order d t)[m]? = some (rotDofs order d (ci n (m : ℝ) (2 * Real.pi * t) * scale n) (cj n (m : ℝ) (2 * Real.pi * t) * scale n))) ∧
    (∀ m < order, (dcurve n order d t)[order + 1 + m]? =
      some (rotDofs order d (si n ((m + 1 : Nat) : ℝ) (2 * Real.pi * t) * scale n) (sj n ((m + 1 : Nat) : ℝ) (2 * Real.pi * t) * scale n))) ∧
    (∀ p : Fin 4, (dcurve n order d t)[order + 1 + order + p.val]? = some (quatBlock (quat order d 0) (quat order d 1) (quat order d 2) (quat order d 3)
      (invMagnitude (quat order d 0) (quat order d 1) (quat order d 2) (quat order d 3))
      (inPlane n order d c0i ci si (2 * Real.pi * t)) (inPlane n order d c0j cj sj (2 * Real.pi * t)) p)) ∧
    (∀ p : Fin 3, (dcurve n order d t)[order + 1 + order + 4 + p.val]? = some (centerBlock n p)) := by
  refine ⟨?_, ?_, ?_, ?_⟩
  · intro m hm
    rw [dcurve, List.getElem?_append_left (by simp; omega), List.getElem?_map, List.getElem?_range hm]; rfl
  · intro m hm
    rw [dcurve, List.getElem?_append_right (by simp), List.getElem?_append_left (by simp; omega), List.length_map, List.length_range,
      Nat.add_sub_cancel_left, List.getElem?_map, List.getElem?_range hm]; rfl
  · intro p
    rw [dcurve, List.getElem?_append_right (by simp; omega), List.getElem?_append_right (by simp; omega), List.length_map, List.length_range,
      List.length_map, List.length_range, show order + 1 + order + p.val - (order + 1) - order = p.val by omega]
    match p with
    | 0 | 1 | 2 | 3 => rfl
  · intro p
    rw [dcurve, List.getElem?_append_right (by simp; omega), List.getElem?_append_right (by simp; omega), List.length_map, List.length_range,
      List.length_map, List.length_range, show order + 1 + order + 4 + p.val - (order + 1) - order = 4 + p.val by omega]
    match p with
    | 0 | 1 | 2 => rfl

theorem shift_set (n : Fin 4) (order : Nat) (d : List ℝ) (p : Nat) (hp : p < d.length) (x : ℝ) (h : p < order + 1 + order + 4) :
    shift n order (d.set p x) = shift n order d := by
  match n with
  | 0 =>
    simp only [shift, center_set order d p hp x]
    rw [if_neg (by omega), if_neg (by omega), if_neg (by omega)]; simp
  | 1 | 2 | 3 => rfl

/-- **C54.** For every order, every dof vector whose quaternion is not zero and every dof: the array computed by `dgamma_by_dcoeff`
(and `dgammadash_by_dcoeff`, ...) is the derivative of `gamma` (`gammadash`, ...) with respect to that dof. -/
theorem C54_dcoeff (n : Fin 4) (order : Nat) (d : List ℝ) (hd : d.length = 2 * order + 8) (t : ℝ)
    (hq : ∃ k < 4, d[2 * order + 1 + k]?.getD 0 ≠ 0) (p : Nat) (hp : p < d.length) :
    ∃ row, (dcurve n order d t)[p]? = some row ∧ HasDerivAt (fun x => curve n order (d.set p x) t) row d[p] := by
  have hne : quat order d 0 * quat order d 0 + quat order d 1 * quat order d 1 + quat order d 2 * quat order d 2 + quat order d 3 * quat order d 3 ≠ 0 := by
    obtain ⟨k, hk, hz⟩ := hq
    rw [show 2 * order + 1 + k = order + 1 + order + k by omega] at hz
    have hz : quat order d k ≠ 0 := hz
    have := mul_self_pos.mpr hz
    have a0 := mul_self_nonneg (quat order d 0)
    have a1 := mul_self_nonneg (quat order d 1)
    have a2 := mul_self_nonneg (quat order d 2)
    have a3 := mul_self_nonneg (quat order d 3)
    match k, hk with
    | 0, _ | 1, _ | 2, _ | 3, _ => intro h; nlinarith
  obtain ⟨g1, g2, g3, g4⟩ := dcurve_get n order d t
  have hI := fun x => inPlane_set n order d c0i ci si (2 * Real.pi * t) (fun n phi => (c0_eq n phi).1) p hp x
  have hJ := fun x => inPlane_set n order d c0j cj sj (2 * Real.pi * t) (fun n phi => (c0_eq n phi).2) p hp x
  have hlin : ∀ a b : ℝ, HasDerivAt (fun x => a + (x - d[p]) * b) b d[p] := by
    intro a b
    exact ((((hasDerivAt_id d[p]).sub_const d[p]).mul_const b).const_add a).congr_deriv (one_mul b)
  by_cases h1 : p < order + 1 + order
  · -- the Fourier coefficients
    have hrot : ∀ x i j, rotDofs order (d.set p x) i j = rotDofs order d i j := by
      intro x i j
      have : ∀ k, quat order (d.set p x) k = quat order d k := by
        intro k; rw [quat_set order d p hp x, if_neg (by omega), add_zero]
      simp only [rotDofs, this]
    have key : ∀ a b : ℝ, (∀ x, inPlane n order (d.set p x) c0i ci si (2 * Real.pi * t) = inPlane n order d c0i ci si (2 * Real.pi * t) + (x - d[p]) * a) →
        (∀ x, inPlane n order (d.set p x) c0j cj sj (2 * Real.pi * t) = inPlane n order d c0j cj sj (2 * Real.pi * t) + (x - d[p]) * b) →
        HasDerivAt (fun x => curve n order (d.set p x) t) (rotDofs order d a b) d[p] := by
      intro a b ha hb
      simp only [curve, hrot, ha, hb, shift_set n order d p hp _ (by omega)]
      exact (d_rot _ _ _ _ (hlin _ a) (hlin _ b)).add_const _
    by_cases h2 : p < order + 1
    · exact ⟨_, g1 p h2, key _ _ (fun x => by rw [hI x, if_pos h2]) (fun x => by rw [hJ x, if_pos h2])⟩
    · have hg := g2 (p - (order + 1)) (by omega)
      rw [show order + 1 + (p - (order + 1)) = p by omega] at hg
      exact ⟨_, hg, key _ _ (fun x => by rw [hI x, if_neg h2, if_pos h1]) (fun x => by rw [hJ x, if_neg h2, if_pos h1])⟩
  have hI' : ∀ x, inPlane n order (d.set p x) c0i ci si (2 * Real.pi * t) = inPlane n order d c0i ci si (2 * Real.pi * t) := by
    intro x; rw [hI x, if_neg (by omega), if_neg h1, mul_zero, add_zero]
  have hJ' : ∀ x, inPlane n order (d.set p x) c0j cj sj (2 * Real.pi * t) = inPlane n order d c0j cj sj (2 * Real.pi * t) := by
    intro x; rw [hJ x, if_neg (by omega), if_neg h1, mul_zero, add_zero]
  by_cases h3 : p < order + 1 + order + 4
  · -- the quaternion
    obtain ⟨k, rfl⟩ : ∃ k : Fin 4, p = order + 1 + order + k.val := ⟨⟨p - (order + 1 + order), by omega⟩, by simp; omega⟩
    refine ⟨_, g3 k, ?_⟩
    have hdp : d[order + 1 + order + k.val] = quat order d k.val := by rw [quat, List.getElem?_eq_getElem hp]; rfl
    have h := (quatBlock_deriv (fun r => quat order d r.val) hne (inPlane n order d c0i ci si (2 * Real.pi * t)) (inPlane n order d c0j cj sj (2 * Real.pi * t)) k).add_const (shift n order d)
    have hqs : ∀ x (r : Fin 4), quat order (d.set (order + 1 + order + k.val) x) r.val = quat order d r.val + if k = r then x - quat order d k.val else 0 := by
      intro x r
      rw [quat_set order d _ hp x, hdp]
      congr 1
      by_cases hkr : k = r
      · subst hkr; rw [if_pos rfl, if_pos rfl]
      · rw [if_neg hkr, if_neg]
        intro h; apply hkr; ext; omega
    rw [← hdp] at h
    refine h.congr_of_eventuallyEq (Filter.Eventually.of_forall fun x => ?_)
    have q0 := hqs x 0
    have q1 := hqs x 1
    have q2 := hqs x 2
    have q3 := hqs x 3
    simp only [Fin.val_zero, Fin.val_one, Fin.val_two, show (3 : Fin 4).val = 3 from rfl] at q0 q1 q2 q3
    simp only [curve, hI', hJ', shift_set n order d _ hp _ h3, rotDofs, q0, q1, q2, q3, hdp]
    rfl
  · -- the centre
    obtain ⟨k, rfl⟩ : ∃ k : Fin 3, p = order + 1 + order + 4 + k.val := ⟨⟨p - (order + 1 + order + 4), by omega⟩, by simp; omega⟩
    refine ⟨_, g4 k, ?_⟩
    have hrot : ∀ x i j, rotDofs order (d.set (order + 1 + order + 4 + k.val) x) i j = rotDofs order d i j := by
      intro x i j
      have : quat order (d.set (order + 1 + order + 4 + k.val) x) 0 = quat order d 0 ∧ quat order (d.set (order + 1 + order + 4 + k.val) x) 1 = quat order d 1 ∧
          quat order (d.set (order + 1 + order + 4 + k.val) x) 2 = quat order d 2 ∧ quat order (d.set (order + 1 + order + 4 + k.val) x) 3 = quat order d 3 := by
        refine ⟨?_, ?_, ?_, ?_⟩ <;> rw [quat_set order d _ hp x, if_neg (by omega), add_zero]
      simp only [rotDofs, this]
    simp only [curve, hrot, hI', hJ']
    apply HasDerivAt.const_add
    match n with
    | 0 =>
      have e : (fun x => shift 0 order (d.set (order + 1 + order + 4 + k.val) x)) =
          fun x => shift 0 order d + (x - d[order + 1 + order + 4 + k.val]) • unit k := by
        funext x
        simp only [shift, center_set order d _ hp x]
        generalize x - d[order + 1 + order + 4 + k.val] = y
        match k with
        | 0 | 1 | 2 => ext <;> simp [unit]
      rw [e]
      have h := HasDerivAt.const_add (shift 0 order d) (((hasDerivAt_id d[order + 1 + order + 4 + k.val]).sub_const d[order + 1 + order + 4 + k.val]).smul_const (unit k))
      rw [one_smul] at h
      exact h
    | 1 | 2 | 3 => exact hasDerivAt_const _ _

/-! ### The rotation is rigid -/

/-- **C54.** The rotation by the normalised quaternion is rigid: the distance between two points of the curve is the distance of the
points in the plane, whatever the (nonzero) quaternion and the centre are. -/
theorem C54_rigid (order : Nat) (d : List ℝ) (hq : ∃ k < 4, d[2 * order + 1 + k]?.getD 0 ≠ 0) (s t : ℝ) :
    normsq (curve 0 order d s - curve 0 order d t) =
      (inPlane 0 order d c0i ci si (2 * Real.pi * s) - inPlane 0 order d c0i ci si (2 * Real.pi * t)) ^ 2 +
      (inPlane 0 order d c0j cj sj (2 * Real.pi * s) - inPlane 0 order d c0j cj sj (2 * Real.pi * t)) ^ 2 := by
  have hne : quat order d 0 * quat order d 0 + quat order d 1 * quat order d 1 + quat order d 2 * quat order d 2 + quat order d 3 * quat order d 3 ≠ 0 := by
    obtain ⟨k, hk, hz⟩ := hq
    rw [show 2 * order + 1 + k = order + 1 + order + k by omega] at hz
    have hz : quat order d k ≠ 0 := hz
    have := mul_self_pos.mpr hz
    have a0 := mul_self_nonneg (quat order d 0)
    have a1 := mul_self_nonneg (quat order d 1)
    have a2 := mul_self_nonneg (quat order d 2)
    have a3 := mul_self_nonneg (quat order d 3)
    match k, hk with
    | 0, _ | 1, _ | 2, _ | 3, _ => intro h; nlinarith
  have hS := invMagnitude_sq _ _ _ _ hne
  simp only [curve, rotDofs, add_sub_add_right_eq_sub]
  generalize invMagnitude (quat order d 0) (quat order d 1) (quat order d 2) (quat order d 3) = w at *
  have hu : (quat order d 0 * w) * (quat order d 0 * w) + (quat order d 1 * w) * (quat order d 1 * w) + (quat order d 2 * w) * (quat order d 2 * w)
      + (quat order d 3 * w) * (quat order d 3 * w) = 1 := by rw [← hS]; ring
  generalize quat order d 0 * w = u0 at *
  generalize quat order d 1 * w = u1 at *
  generalize quat order d 2 * w = u2 at *
  generalize quat order d 3 * w = u3 at *
  generalize inPlane 0 order d c0i ci si (2 * Real.pi * s) = i1
  generalize inPlane 0 order d c0i ci si (2 * Real.pi * t) = i2
  generalize inPlane 0 order d c0j cj sj (2 * Real.pi * s) = j1
  generalize inPlane 0 order d c0j cj sj (2 * Real.pi * t) = j2
  have e0 : u0 * u0 = 1 - u1 * u1 - u2 * u2 - u3 * u3 := by linarith
  simp only [normsq, rot, Prod.fst_sub, Prod.snd_sub]
  ring_nf
  have e0' : u0 ^ 2 = 1 - u1 ^ 2 - u2 ^ 2 - u3 ^ 2 := by nlinarith
  simp only [e0']
  ring

/-- **C54.** The documented meaning of the quaternion: with `q = (cos θ/2, n sin θ/2)` and `n` a unit vector the curve is rotated by the
angle `θ` counterclockwise about `n` (Rodrigues' formula). -/
theorem C54_rodrigues (theta : ℝ) (n : V3) (hn : normsq n = 1) (v : V3) :
    rot (Real.cos (theta / 2)) (n.1 * Real.sin (theta / 2)) (n.2.1 * Real.sin (theta / 2)) (n.2.2 * Real.sin (theta / 2)) v.1 v.2.1 v.2.2 =
      Real.cos theta • v + Real.sin theta • cross n v + ((1 - Real.cos theta) * Geometry.inner n v) • n := by
  have h2 : theta = 2 * (theta / 2) := by ring
  have hc : Real.cos theta = 1 - 2 * Real.sin (theta / 2) ^ 2 := by
    conv_lhs => rw [h2]
    rw [Real.cos_two_mul, ← Real.sin_sq_add_cos_sq (theta / 2)]; ring
  have hs : Real.sin theta = 2 * Real.sin (theta / 2) * Real.cos (theta / 2) := by
    conv_lhs => rw [h2]
    rw [Real.sin_two_mul]
  rw [hc, hs]
  simp only [normsq] at hn
  generalize Real.cos (theta / 2) = c
  generalize Real.sin (theta / 2) = s
  obtain ⟨x, y, z⟩ := n
  obtain ⟨a, b, e⟩ := v
  dsimp only at hn
  ext <;> simp only [rot, cross, Geometry.inner, Prod.fst_add, Prod.snd_add, Prod.smul_fst, Prod.smul_snd, smul_eq_mul]
  · linear_combination (-2 * a * s ^ 2) * hn
  · linear_combination (-2 * b * s ^ 2) * hn
  · linear_combination (-2 * e * s ^ 2) * hn

/-- **C54.** Only the direction of the quaternion matters. -/
theorem C54_quaternion_scale (c q0 q1 q2 q3 i j : ℝ) (hc : c ≠ 0) :
    rot (c * q0 * invMagnitude (c * q0) (c * q1) (c * q2) (c * q3)) (c * q1 * invMagnitude (c * q0) (c * q1) (c * q2) (c * q3))
        (c * q2 * invMagnitude (c * q0) (c * q1) (c * q2) (c * q3)) (c * q3 * invMagnitude (c * q0) (c * q1) (c * q2) (c * q3)) i j 0 =
      rot (q0 * invMagnitude q0 q1 q2 q3) (q1 * invMagnitude q0 q1 q2 q3) (q2 * invMagnitude q0 q1 q2 q3) (q3 * invMagnitude q0 q1 q2 q3) i j 0 := by
  by_cases hz : q0 * q0 + q1 * q1 + q2 * q2 + q3 * q3 = 0
  · have e0 : q0 = 0 := by nlinarith [mul_self_nonneg q0, mul_self_nonneg q1, mul_self_nonneg q2, mul_self_nonneg q3]
    have e1 : q1 = 0 := by nlinarith [mul_self_nonneg q0, mul_self_nonneg q1, mul_self_nonneg q2, mul_self_nonneg q3]
    have e2 : q2 = 0 := by nlinarith [mul_self_nonneg q0, mul_self_nonneg q1, mul_self_nonneg q2, mul_self_nonneg q3]
    have e3 : q3 = 0 := by nlinarith [mul_self_nonneg q0, mul_self_nonneg q1, mul_self_nonneg q2, mul_self_nonneg q3]
    simp [e0, e1, e2, e3]
  have hz' : c * q0 * (c * q0) + c * q1 * (c * q1) + c * q2 * (c * q2) + c * q3 * (c * q3) ≠ 0 := by
    have : c * q0 * (c * q0) + c * q1 * (c * q1) + c * q2 * (c * q2) + c * q3 * (c * q3) = c * c * (q0 * q0 + q1 * q1 + q2 * q2 + q3 * q3) := by ring
    rw [this]; exact mul_ne_zero (mul_ne_zero hc hc) hz
  have hS := invMagnitude_sq _ _ _ _ hz
  have hS' := invMagnitude_sq _ _ _ _ hz'
  generalize invMagnitude (c * q0) (c * q1) (c * q2) (c * q3) = w' at *
  generalize invMagnitude q0 q1 q2 q3 = w at *
  have hw : c * c * (w' * w') = w * w := by
    have h1 : (q0 * q0 + q1 * q1 + q2 * q2 + q3 * q3) * (c * c * (w' * w')) = 1 := by rw [← hS']; ring
    exact mul_left_cancel₀ hz (h1.trans hS.symm)
  ext <;> simp only [rot]
  · linear_combination (-2 * (q2 * q2 + q3 * q3) * i + 2 * (q1 * q2 - q3 * q0) * j) * hw
  · linear_combination (2 * (q1 * q2 + q3 * q0) * i - 2 * (q1 * q1 + q3 * q3) * j) * hw
  · linear_combination (2 * (q1 * q3 - q2 * q0) * i + 2 * (q2 * q3 + q1 * q0) * j) * hw

/-- The radius in the plane of the curve: dofs 0..order are the cosine and the next `order` dofs the sine coefficients. -/
noncomputable def radius (order : Nat) (d : List ℝ) (phi : ℝ) : ℝ :=
  ∑ m ∈ Finset.range (order + 1), d[m]?.getD 0 * Real.cos (m * phi) + ∑ m ∈ Finset.range order, d[order + 1 + m]?.getD 0 * Real.sin ((m + 1) * phi)

/-- Rodrigues' formula: the rotation about the unit vector `n` by `theta`. -/
noncomputable def rodrigues (theta : ℝ) (n v : V3) : V3 :=
  Real.cos theta • v + Real.sin theta • cross n v + ((1 - Real.cos theta) * Geometry.inner n v) • n

/-- **C54.** What `gamma` is: when the four quaternion dofs are a non-zero multiple of `(cos θ/2, n sin θ/2)`, the point is the polar
point `r(φ) (cos φ, sin φ, 0)` rotated about `n` by `θ` and shifted to the centre. -/
theorem C54_series (order : Nat) (d : List ℝ) (t c theta : ℝ) (n : V3) (hc : c ≠ 0) (hn : normsq n = 1)
    (h0 : d[2 * order + 1]?.getD 0 = c * Real.cos (theta / 2)) (h1 : d[2 * order + 2]?.getD 0 = c * (n.1 * Real.sin (theta / 2)))
    (h2 : d[2 * order + 3]?.getD 0 = c * (n.2.1 * Real.sin (theta / 2))) (h3 : d[2 * order + 4]?.getD 0 = c * (n.2.2 * Real.sin (theta / 2))) :
    curve 0 order d t =
      rodrigues theta n (radius order d (2 * Real.pi * t) * Real.cos (2 * Real.pi * t), radius order d (2 * Real.pi * t) * Real.sin (2 * Real.pi * t), 0) +
        (d[2 * order + 5]?.getD 0, d[2 * order + 6]?.getD 0, d[2 * order + 7]?.getD 0) := by
  have q0 : quat order d 0 = d[2 * order + 1]?.getD 0 := by rw [quat, show order + 1 + order + 0 = 2 * order + 1 by omega]
  have q1 : quat order d 1 = d[2 * order + 2]?.getD 0 := by rw [quat, show order + 1 + order + 1 = 2 * order + 2 by omega]
  have q2 : quat order d 2 = d[2 * order + 3]?.getD 0 := by rw [quat, show order + 1 + order + 2 = 2 * order + 3 by omega]
  have q3 : quat order d 3 = d[2 * order + 4]?.getD 0 := by rw [quat, show order + 1 + order + 3 = 2 * order + 4 by omega]
  have x0 : center order d 0 = d[2 * order + 5]?.getD 0 := by rw [center, show order + 1 + order + 4 + 0 = 2 * order + 5 by omega]
  have x1 : center order d 1 = d[2 * order + 6]?.getD 0 := by rw [center, show order + 1 + order + 4 + 1 = 2 * order + 6 by omega]
  have x2 : center order d 2 = d[2 * order + 7]?.getD 0 := by rw [center, show order + 1 + order + 4 + 2 = 2 * order + 7 by omega]
  have hu : invMagnitude (Real.cos (theta / 2)) (n.1 * Real.sin (theta / 2)) (n.2.1 * Real.sin (theta / 2)) (n.2.2 * Real.sin (theta / 2)) = 1 := by
    have : Real.cos (theta / 2) * Real.cos (theta / 2) + n.1 * Real.sin (theta / 2) * (n.1 * Real.sin (theta / 2)) +
        n.2.1 * Real.sin (theta / 2) * (n.2.1 * Real.sin (theta / 2)) + n.2.2 * Real.sin (theta / 2) * (n.2.2 * Real.sin (theta / 2)) = 1 := by
      have hs := Real.sin_sq_add_cos_sq (theta / 2)
      simp only [normsq] at hn
      linear_combination hs + Real.sin (theta / 2) ^ 2 * hn
    simp [invMagnitude, this]
  have hi : inPlane 0 order d c0i ci si (2 * Real.pi * t) = radius order d (2 * Real.pi * t) * Real.cos (2 * Real.pi * t) := by
    rw [inPlane_sum, radius, Finset.sum_range_succ', add_mul, add_mul, Finset.sum_mul, Finset.sum_mul]
    simp [c0i, ci, si, scale, rc, rs, mul_assoc]; ring
  have hj : inPlane 0 order d c0j cj sj (2 * Real.pi * t) = radius order d (2 * Real.pi * t) * Real.sin (2 * Real.pi * t) := by
    rw [inPlane_sum, radius, Finset.sum_range_succ', add_mul, add_mul, Finset.sum_mul, Finset.sum_mul]
    simp [c0j, cj, sj, scale, rc, rs, mul_assoc]; ring
  have hr := C54_rodrigues theta n hn (radius order d (2 * Real.pi * t) * Real.cos (2 * Real.pi * t), radius order d (2 * Real.pi * t) * Real.sin (2 * Real.pi * t), 0)
  simp only [curve, rotDofs, shift, q0, q1, q2, q3, x0, x1, x2, hi, hj]
  rw [h0, h1, h2, h3, C54_quaternion_scale _ _ _ _ _ _ _ hc, hu]
  simp only [mul_one]
  rw [hr, rodrigues]

/-- Non-vacuity: a curve of order 1 with a quaternion that is not normalised; the hypotheses of `C54_dcoeff` and `C54_rigid` hold. -/
example : ([1, 0.2, 0.1, 1, 2, 0, 0, 5, 0, 0] : List ℝ).length = 2 * 1 + 8 ∧
    ∃ k < 4, ([1, 0.2, 0.1, 1, 2, 0, 0, 5, 0, 0] : List ℝ)[2 * 1 + 1 + k]?.getD 0 ≠ 0 :=
  ⟨rfl, 1, by omega, by norm_num⟩

/-- The geometric quantities of C53 apply to this class of curves as well. -/
theorem planar_successive (order : Nat) (d : List ℝ) (t : ℝ) : Geometry.Successive (curve 1 order d) (curve 2 order d) (curve 3 order d) t :=
  ⟨C54_dash 1 order d t, C54_dash 2 order d t⟩

end Simsopt.Planar
