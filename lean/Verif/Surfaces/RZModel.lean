import Verif.Curves.Geometry
/-!
# SurfaceRZFourier: model

Model of src/simsoptpp/surfacerzfourier.{h,cpp} and of the accessors of src/simsopt/geo/surfacerzfourier.py.

Simplifications: real numbers instead of doubles; one quadrature point `(p, q)` at a time (`phi = 2 π p`, `theta = 2 π q`), since the loops over
the quadrature points are independent; a dof name such as `"rc(1,-2)"` is the triple `(Kind.rc, 1, -2)`.
The variants with and without `USE_XSIMD` do the same arithmetic in every lane, so one model stands for both; where their control flow
differs (the missing braces of the scalar `_vjp` functions) the model has a flag.
-/
namespace Simsopt.RZSurf
open Simsopt Simsopt.Coils

/-- The attributes of a `SurfaceRZFourier` (surfacerzfourier.h L32-39).  The four coefficient arrays of shape `(mpol+1, 2*ntor+1)` are given by
their row-major buffers (`rc.data()[i]`). -/
structure Surf where
  mpol : Nat
  ntor : Nat
  nfp : Nat
  stellsym : Bool
  rc : Nat → ℝ
  rs : Nat → ℝ
  zc : Nat → ℝ
  zs : Nat → ℝ

/-- The four coefficient arrays. -/
inductive Kind | rc | rs | zc | zs
  deriving DecidableEq, Repr

/-- The buffer of an array. -/
def Surf.buf (s : Surf) : Kind → Nat → ℝ
  | .rc => s.rc | .rs => s.rs | .zc => s.zc | .zs => s.zs

/-- Number of columns `2*ntor+1` (L47-50). -/
def Surf.width (s : Surf) : Nat := 2 * s.ntor + 1

/-- `shift = (mpol+1)*(2*ntor+1)` (L61, L84): number of entries of each array. -/
def Surf.size (s : Surf) : Nat := (s.mpol + 1) * s.width

/-- Element access `rc(m, i)` on a row-major array. -/
def Surf.at (s : Surf) (k : Kind) (m i : Nat) : ℝ := s.buf k (m * s.width + i)

/-- `num_dofs` (L53-58), in the integers as in the code. -/
def Surf.numDofs (s : Surf) : Int :=
  if s.stellsym then 2 * (s.mpol + 1) * (2 * s.ntor + 1) - s.ntor - (s.ntor + 1)
  else 4 * (s.mpol + 1) * (2 * s.ntor + 1) - 2 * s.ntor - 2 * (s.ntor + 1)

/-- A loop `for (i = lo; i < hi; ++i) arr.data()[i] = dofs[counter++];` (L64-67, L70-77). -/
def fill (lo hi : Nat) (dofs : List ℝ) (st : (Nat → ℝ) × Nat) : (Nat → ℝ) × Nat :=
  (List.range' lo (hi - lo)).foldl (fun st i => (Function.update st.1 i (dofs[st.2]?.getD 0), st.2 + 1)) st

/-- `set_dofs_impl` (L60-79). -/
def setDofs (s : Surf) (dofs : List ℝ) : Surf :=
  if s.stellsym then
    let a := fill s.ntor s.size dofs (s.rc, 0)
    let b := fill (s.ntor + 1) s.size dofs (s.zs, a.2)
    { s with rc := a.1, zs := b.1 }
  else
    let a := fill s.ntor s.size dofs (s.rc, 0)
    let b := fill (s.ntor + 1) s.size dofs (s.rs, a.2)
    let c := fill s.ntor s.size dofs (s.zc, b.2)
    let d := fill (s.ntor + 1) s.size dofs (s.zs, c.2)
    { s with rc := a.1, rs := b.1, zc := c.1, zs := d.1 }

/-- A loop `for (i = lo; i < hi; ++i) res[counter++] = arr.data()[i];` (L87-90, L92-99): the entries it appends. -/
def dump (lo hi : Nat) (arr : Nat → ℝ) : List ℝ := (List.range' lo (hi - lo)).map arr

/-- `get_dofs` (L81-102). -/
def getDofs (s : Surf) : List ℝ :=
  if s.stellsym then dump s.ntor s.size s.rc ++ dump (s.ntor + 1) s.size s.zs
  else dump s.ntor s.size s.rc ++ (dump (s.ntor + 1) s.size s.rs ++ (dump s.ntor s.size s.zc ++ dump (s.ntor + 1) s.size s.zs))

/-- A dof name: `prefix + '(' + str(m) + ',' + str(n) + ')'`. -/
abbrev Name := Kind × Nat × Int

/-- `range(lo, hi)` on integers. -/
def intRange (lo hi : Int) : List Int := (List.range (hi - lo).toNat).map fun (j : Nat) => lo + (j : Int)

/-- `_make_names_helper` (surfacerzfourier.py L112-121). -/
def namesHelper (s : Surf) (k : Kind) (include0 : Bool) : List Name :=
  (if include0 then [(k, 0, 0)] else []) ++ ((intRange 1 (s.ntor + 1)).map fun n => (k, 0, n)) ++
    (List.range' 1 s.mpol).flatMap fun m => (intRange (-s.ntor) (s.ntor + 1)).map fun n => (k, m, n)

/-- `_make_names` (L96-110). -/
def makeNames (s : Surf) : List Name :=
  if s.stellsym then namesHelper s .rc true ++ namesHelper s .zs false
  else namesHelper s .rc true ++ (namesHelper s .rs false ++ (namesHelper s .zc true ++ namesHelper s .zs false))

/-- `_make_mn` (L123-140): the flattened meshgrid without its first `ntor` entries, as pairs `(m, n)`. -/
def m0n0 (s : Surf) : List (Nat × Int) :=
  ((List.range (s.mpol + 1)).flatMap fun m => (intRange (-s.ntor) (s.ntor + 1)).map fun n => (m, n)).drop s.ntor

/-- `_make_mn` (L123-140): the attributes `m` and `n`, zipped. -/
def makeMn (s : Surf) : List (Nat × Int) :=
  let mn := m0n0 s ++ (m0n0 s).drop 1
  if s.stellsym then mn else mn ++ mn

/-- Writing the entry `rc[m, n + ntor]`. -/
def poke (s : Surf) (k : Kind) (m : Nat) (n : Int) (v : ℝ) : Surf :=
  let ix := m * s.width + (n + s.ntor).toNat
  match k with
  | .rc => { s with rc := Function.update s.rc ix v }
  | .rs => { s with rs := Function.update s.rs ix v }
  | .zc => { s with zc := Function.update s.zc ix v }
  | .zs => { s with zs := Function.update s.zs ix v }

/-- `_validate_mn` (L627-638). -/
def validMn (s : Surf) (m n : Int) : Bool := !decide (m < 0) && !decide (m > s.mpol) && !decide (n > s.ntor) && !decide (n < -s.ntor)

/-- Does the array exist for this surface?  (`if self.stellsym: return ValueError(...)` in L651, L661, L686, L697: the exception object is
returned, not raised.) -/
def available (s : Surf) : Kind → Bool
  | .rc => true | .zs => true | .rs => !s.stellsym | .zc => !s.stellsym

/-- `get_rc`, `get_rs`, `get_zc`, `get_zs` (L640-672).  `none`: an exception is raised or returned. -/
def getCoef (s : Surf) (k : Kind) (m n : Int) : Option ℝ :=
  if available s k && validMn s m n then some (s.at k m.toNat (n + s.ntor).toNat) else none

/-- `set_rc`, `set_rs`, `set_zc`, `set_zs` (L674-710): the array entry is written, then `self.local_full_x = self.get_dofs()` calls
`set_dofs_impl` with the current dofs. -/
def setCoef (s : Surf) (k : Kind) (m n : Int) (v : ℝ) : Option Surf :=
  if available s k && validMn s m n then
    let s1 := poke s k m.toNat n v
    some (setDofs s1 (getDofs s1))
  else none

/-- The constructor (surfacerzfourier.h L41-51, surfacerzfourier.py L64-85): zeros, then `rc[0,ntor] = 1`, `rc[1,ntor] = 0.1`, `zs[1,ntor] = 0.1`.
Needs `mpol >= 1`. -/
noncomputable def create (mpol ntor nfp : Nat) (stellsym : Bool) : Surf :=
  let z : Surf := ⟨mpol, ntor, nfp, stellsym, fun _ => 0, fun _ => 0, fun _ => 0, fun _ => 0⟩
  poke (poke (poke z .rc 0 0 1) .rc 1 0 0.1) .zs 1 0 0.1

/-! ### The shape -/

/-- The angle `m*theta - n*nfp*phi` with `n = i - ntor`. -/
noncomputable def angle (s : Surf) (phi theta : ℝ) (m i : Nat) : ℝ := m * theta - ((i : ℝ) - s.ntor) * s.nfp * phi

/-- `n*nfp` with `n = i - ntor`. -/
noncomputable def nn (s : Surf) (i : Nat) : ℝ := ((i : ℝ) - s.ntor) * s.nfp

/-- One iteration of the inner loop of the functions that advance `sinterm` and `costerm` by a rotation: recompute them if
`i % ANGLE_RECOMPUTE == 0` (without braces, `costerm` is recomputed always: L581-583, L794-796, L1118-1120), run the body, then advance them
unless `i % ANGLE_RECOMPUTE == ANGLE_RECOMPUTE - 1`.  The state is `(sinterm, costerm, σ)`. -/
noncomputable def modeStep {σ : Type} (brace : Bool) (s : Surf) (phi theta : ℝ) (m : Nat) (body : Nat → Nat → ℝ → ℝ → σ → σ)
    (st : ℝ × ℝ × σ) (i : Nat) : ℝ × ℝ × σ :=
  let sinNfp := Real.sin (-(s.nfp : ℝ) * phi)
  let cosNfp := Real.cos (-(s.nfp : ℝ) * phi)
  let sn := if i % 5 = 0 then Real.sin (angle s phi theta m i) else st.1
  let cs := if i % 5 = 0 ∨ brace = false then Real.cos (angle s phi theta m i) else st.2.1
  let acc := body m i sn cs st.2.2
  if i % 5 ≠ 4 then (cosNfp * sn + cs * sinNfp, cs * cosNfp - sn * sinNfp, acc) else (sn, cs, acc)

/-- The loop over `m` and `i` (e.g. L92-116).  `junk m` are the uninitialised values of `sinterm`, `costerm` when the loop over `i` starts. -/
noncomputable def modeLoop {σ : Type} (brace : Bool) (s : Surf) (junk : Nat → ℝ × ℝ) (phi theta : ℝ) (body : Nat → Nat → ℝ → ℝ → σ → σ) (st : σ) : σ :=
  (List.range (s.mpol + 1)).foldl (fun st m =>
    ((List.range s.width).foldl (modeStep brace s phi theta m body) ((junk m).1, (junk m).2, st)).2.2) st

/-- The loop `for (i ...) for (m ...)` of the second derivatives (e.g. L276-290). -/
noncomputable def plainLoop {σ : Type} (s : Surf) (phi theta : ℝ) (body : Nat → Nat → ℝ → ℝ → σ → σ) (st : σ) : σ :=
  (List.range s.width).foldl (fun st i => (List.range (s.mpol + 1)).foldl (fun st m =>
    body m i (Real.sin (angle s phi theta m i)) (Real.cos (angle s phi theta m i)) st) st) st

/-- The loop `for (m ...) for (i ...)` of `gamma_lin` (L138-148). -/
noncomputable def linLoop {σ : Type} (s : Surf) (phi theta : ℝ) (body : Nat → Nat → ℝ → ℝ → σ → σ) (st : σ) : σ :=
  (List.range (s.mpol + 1)).foldl (fun st m => (List.range s.width).foldl (fun st i =>
    body m i (Real.sin (angle s phi theta m i)) (Real.cos (angle s phi theta m i)) st) st) st

/-- The body of `gamma_impl` (L50-55, L103-108) and of `gamma_lin` (L141-146); state `(r, z)`. -/
def gammaBody (s : Surf) (m i : Nat) (sn cs : ℝ) (st : ℝ × ℝ) : ℝ × ℝ :=
  let r := st.1 + s.at .rc m i * cs
  let st := if s.stellsym then (r, st.2) else (r + s.at .rs m i * sn, st.2 + s.at .zc m i * cs)
  (st.1, st.2 + s.at .zs m i * sn)

/-- `gamma_impl` (L79-125). -/
noncomputable def gamma (s : Surf) (junk : Nat → ℝ × ℝ) (p q : ℝ) : V3 :=
  let phi := 2 * Real.pi * p
  let rz := modeLoop true s junk phi (2 * Real.pi * q) (gammaBody s) (0, 0)
  (rz.1 * Real.cos phi, rz.1 * Real.sin phi, rz.2)

/-- `gamma_lin` (L128-153). -/
noncomputable def gammaLin (s : Surf) (p q : ℝ) : V3 :=
  let phi := 2 * Real.pi * p
  let rz := linLoop s phi (2 * Real.pi * q) (gammaBody s) (0, 0)
  (rz.1 * Real.cos phi, rz.1 * Real.sin phi, rz.2)

/-- The body of `gammadash1_impl` (L183-190, L238-245); state `(r, rd, zd)`. -/
noncomputable def dash1Body (s : Surf) (m i : Nat) (sn cs : ℝ) (st : ℝ × ℝ × ℝ) : ℝ × ℝ × ℝ :=
  let r := st.1 + s.at .rc m i * cs
  let rd := st.2.1 + s.at .rc m i * nn s i * sn
  let st := if s.stellsym then (r, rd, st.2.2)
    else (r + s.at .rs m i * sn, rd + s.at .rs m i * (-(nn s i)) * cs, st.2.2 + s.at .zc m i * nn s i * sn)
  (st.1, st.2.1, st.2.2 + s.at .zs m i * (-(nn s i)) * cs)

/-- `gammadash1_impl` (L215-263). -/
noncomputable def gammadash1 (s : Surf) (junk : Nat → ℝ × ℝ) (p q : ℝ) : V3 :=
  let phi := 2 * Real.pi * p
  let a := modeLoop true s junk phi (2 * Real.pi * q) (dash1Body s) (0, 0, 0)
  (2 * Real.pi * (a.2.1 * Real.cos phi - a.1 * Real.sin phi), 2 * Real.pi * (a.2.1 * Real.sin phi + a.1 * Real.cos phi), a.2.2 * (2 * Real.pi))

/-- The body of `gammadash2_impl` (L386-391, L438-443); state `(rd, zd)`. -/
def dash2Body (s : Surf) (m i : Nat) (sn cs : ℝ) (st : ℝ × ℝ) : ℝ × ℝ :=
  let rd := st.1 + s.at .rc m i * (-(m : ℝ)) * sn
  let st := if s.stellsym then (rd, st.2) else (rd + s.at .rs m i * m * cs, st.2 + s.at .zc m i * (-(m : ℝ)) * sn)
  (st.1, st.2 + s.at .zs m i * m * cs)

/-- `gammadash2_impl` (L416-460). -/
noncomputable def gammadash2 (s : Surf) (junk : Nat → ℝ × ℝ) (p q : ℝ) : V3 :=
  let phi := 2 * Real.pi * p
  let a := modeLoop true s junk phi (2 * Real.pi * q) (dash2Body s) (0, 0)
  (2 * Real.pi * a.1 * Real.cos phi, 2 * Real.pi * a.1 * Real.sin phi, a.2 * (2 * Real.pi))

/-- The body of `gammadash1dash1_impl` (L279-288); state `(r, rd, rdd, zdd)`. -/
noncomputable def dash11Body (s : Surf) (m i : Nat) (sn cs : ℝ) (st : ℝ × ℝ × ℝ × ℝ) : ℝ × ℝ × ℝ × ℝ :=
  let r := st.1 + s.at .rc m i * cs
  let rd := st.2.1 + -(s.at .rc m i) * (-(nn s i)) * sn
  let rdd := st.2.2.1 + -(s.at .rc m i) * (-(nn s i)) * (-(nn s i)) * cs
  let st := if s.stellsym then (r, rd, rdd, st.2.2.2)
    else (r + s.at .rs m i * sn, rd + s.at .rs m i * (-(nn s i)) * cs, rdd + -(s.at .rs m i) * (-(nn s i)) * (-(nn s i)) * sn,
      st.2.2.2 + -(s.at .zc m i) * (-(nn s i)) * (-(nn s i)) * cs)
  (st.1, st.2.1, st.2.2.1, st.2.2.2 + -(s.at .zs m i) * (-(nn s i)) * (-(nn s i)) * sn)

/-- `gammadash1dash1_impl` (L266-296). -/
noncomputable def gammadash11 (s : Surf) (p q : ℝ) : V3 :=
  let phi := 2 * Real.pi * p
  let a := plainLoop s phi (2 * Real.pi * q) (dash11Body s) (0, 0, 0, 0)
  (4 * Real.pi * Real.pi * (a.2.2.1 * Real.cos phi - 2 * a.2.1 * Real.sin phi - a.1 * Real.cos phi),
   4 * Real.pi * Real.pi * (a.2.2.1 * Real.sin phi + 2 * a.2.1 * Real.cos phi - a.1 * Real.sin phi),
   4 * Real.pi * Real.pi * a.2.2.2)

/-- The body of `gammadash1dash2_impl` (L310-317); state `(rd2, rd1d2, zd1d2)`. -/
noncomputable def dash12Body (s : Surf) (m i : Nat) (sn cs : ℝ) (st : ℝ × ℝ × ℝ) : ℝ × ℝ × ℝ :=
  let rd2 := st.1 + -(s.at .rc m i) * m * sn
  let rd1d2 := st.2.1 + -(s.at .rc m i) * (-(nn s i)) * m * cs
  let st := if s.stellsym then (rd2, rd1d2, st.2.2)
    else (rd2 + s.at .rs m i * m * cs, rd1d2 + -(s.at .rs m i) * (-(nn s i)) * m * sn, st.2.2 + -(s.at .zc m i) * (-(nn s i)) * m * cs)
  (st.1, st.2.1, st.2.2 + -(s.at .zs m i) * (-(nn s i)) * m * sn)

/-- `gammadash1dash2_impl` (L298-325). -/
noncomputable def gammadash12 (s : Surf) (p q : ℝ) : V3 :=
  let phi := 2 * Real.pi * p
  let a := plainLoop s phi (2 * Real.pi * q) (dash12Body s) (0, 0, 0)
  (4 * Real.pi * Real.pi * (a.2.1 * Real.cos phi - a.1 * Real.sin phi), 4 * Real.pi * Real.pi * (a.2.1 * Real.sin phi + a.1 * Real.cos phi),
   4 * Real.pi * Real.pi * a.2.2)

/-- The body of `gammadash2dash2_impl` (L340-349) without the unused `rd`, `zd`; state `(rdd, zdd)`. -/
def dash22Body (s : Surf) (m i : Nat) (sn cs : ℝ) (st : ℝ × ℝ) : ℝ × ℝ :=
  let rdd := st.1 + -(s.at .rc m i) * m * m * cs
  let st := if s.stellsym then (rdd, st.2) else (rdd + -(s.at .rs m i) * m * m * sn, st.2 + -(s.at .zc m i) * m * m * cs)
  (st.1, st.2 + -(s.at .zs m i) * m * m * sn)

/-- `gammadash2dash2_impl` (L327-357). -/
noncomputable def gammadash22 (s : Surf) (p q : ℝ) : V3 :=
  let phi := 2 * Real.pi * p
  let a := plainLoop s phi (2 * Real.pi * q) (dash22Body s) (0, 0)
  (4 * Real.pi * Real.pi * a.1 * Real.cos phi, 4 * Real.pi * Real.pi * a.1 * Real.sin phi, 4 * Real.pi * Real.pi * a.2)

/-! ### Jacobians in the dofs -/

/-- The six arrays: position, first and second derivatives. -/
inductive Fam | g | g1 | g2 | g11 | g12 | g22
  deriving DecidableEq

/-- `if(m==0 && n<0) continue;` (cos blocks) and `if(m==0 && n<=0) continue;` (sin blocks), with `n = i - ntor`. -/
def skip (s : Surf) (cosBlock : Bool) (m i : Nat) : Bool :=
  let n : Int := (i : Int) - s.ntor
  decide (m = 0) && (if cosBlock then decide (n < 0) else decide (n ≤ 0))

/-- The loops `for (m) for (n) { if (...) continue; ...; counter++; }`: the pairs `(m, n + ntor)` that are not skipped. -/
def modes (s : Surf) (cosBlock : Bool) : List (Nat × Nat) :=
  (List.range (s.mpol + 1)).flatMap fun m => (List.range s.width).filterMap fun i => if skip s cosBlock m i then none else some (m, i)

/-- The three entries `data(k1, k2, 0..2, counter)` written in the blocks of `dgamma_by_dcoeff_impl` (L621-669), `dgammadash1_by_dcoeff_impl` (L835-883),
`dgammadash2_by_dcoeff_impl` (L1159-1207), `dgammadash1dash1_by_dcoeff_impl` (L938-993), `dgammadash1dash2_by_dcoeff_impl` (L885-936) and
`dgammadash2dash2_by_dcoeff_impl` (L1209-1257). -/
noncomputable def dRow (s : Surf) (f : Fam) (k : Kind) (phi theta : ℝ) (mi : Nat × Nat) : V3 :=
  let m : ℝ := mi.1
  let w := nn s mi.2
  let sa := Real.sin (angle s phi theta mi.1 mi.2)
  let ca := Real.cos (angle s phi theta mi.1 mi.2)
  let sp := Real.sin phi
  let cp := Real.cos phi
  let P := 2 * Real.pi
  let Q := 4 * Real.pi * Real.pi
  match f, k with
  | .g, .rc => (ca * cp, ca * sp, 0)
  | .g, .rs => (sa * cp, sa * sp, 0)
  | .g, .zc => (0, 0, ca)
  | .g, .zs => (0, 0, sa)
  | .g1, .rc => (P * (w * sa * cp - ca * sp), P * (w * sa * sp + ca * cp), 0)
  | .g1, .rs => (P * (-w * ca * cp - sa * sp), P * (-w * ca * sp + sa * cp), 0)
  | .g1, .zc => (0, 0, P * w * sa)
  | .g1, .zs => (0, 0, P * (-w) * ca)
  | .g2, .rc => (P * (-m) * sa * cp, P * (-m) * sa * sp, 0)
  | .g2, .rs => (P * m * ca * cp, P * m * ca * sp, 0)
  | .g2, .zc => (0, 0, P * (-m) * sa)
  | .g2, .zs => (0, 0, P * m * ca)
  | .g11, .rc => (Q * (-(-w) * (-w) * ca * cp + 2 * (-w) * sa * sp - ca * cp), Q * (-(-w) * (-w) * ca * sp - 2 * (-w) * sa * cp - ca * sp), 0)
  | .g11, .rs => (Q * (-(-w) * (-w) * sa * cp - 2 * (-w) * ca * sp - sa * cp), Q * (-(-w) * (-w) * sa * sp + 2 * (-w) * ca * cp - sa * sp), 0)
  | .g11, .zc => (0, 0, -Q * (-w) * (-w) * ca)
  | .g11, .zs => (0, 0, -Q * (-w) * (-w) * sa)
  | .g12, .rc => (Q * (m * w * ca * cp + m * sa * sp), Q * (m * w * ca * sp - m * sa * cp), 0)
  | .g12, .rs => (Q * (-(-w) * m * sa * cp - m * ca * sp), Q * (-(-w) * m * sa * sp + m * ca * cp), 0)
  | .g12, .zc => (0, 0, Q * w * m * ca)
  | .g12, .zs => (0, 0, -Q * (-w) * m * sa)
  | .g22, .rc => (-Q * m * m * ca * cp, -Q * m * m * ca * sp, 0)
  | .g22, .rs => (-Q * m * m * sa * cp, -Q * m * m * sa * sp, 0)
  | .g22, .zc => (0, 0, -Q * m * m * ca)
  | .g22, .zs => (0, 0, -Q * m * m * sa)

/-- The rows of the Jacobian arrays at one quadrature point, in the order of `counter++`. -/
noncomputable def jacobian (s : Surf) (f : Fam) (p q : ℝ) : List V3 :=
  let phi := 2 * Real.pi * p
  let theta := 2 * Real.pi * q
  if s.stellsym then (modes s true).map (dRow s f .rc phi theta) ++ (modes s false).map (dRow s f .zs phi theta)
  else (modes s true).map (dRow s f .rc phi theta) ++ ((modes s false).map (dRow s f .rs phi theta) ++
    ((modes s true).map (dRow s f .zc phi theta) ++ (modes s false).map (dRow s f .zs phi theta)))

/-! ### Vector-Jacobian products -/

/-- `resptr_private[ix] += x`. -/
def bump (res : Int → ℝ) (ix : Int) (x : ℝ) : Int → ℝ := Function.update res ix (res ix + x)

def shift0 (s : Surf) : Int := -s.ntor
def shift1 (s : Surf) : Int := if s.stellsym then shift0 s else shift0 s + (s.mpol + 1) * (2 * s.ntor + 1) - s.ntor - 1
def shift2 (s : Surf) : Int := if s.stellsym then shift1 s else shift1 s + (s.mpol + 1) * (2 * s.ntor + 1) - s.ntor
/-- The four offsets (L569-572, L781-784, L1105-1108). -/
def shift3 (s : Surf) : Int := shift2 s + (s.mpol + 1) * (2 * s.ntor + 1) - s.ntor - 1

/-- What is added for one mode to the entries of the four blocks, before the final `res *= 2*M_PI`:
`dgamma_by_dcoeff_vjp` (L584-597), `dgammadash1_by_dcoeff_vjp` (L797-810), `dgammadash2_by_dcoeff_vjp` (L1121-1134). -/
noncomputable def vjpTerms (s : Surf) (f : Fam) (phi : ℝ) (v : V3) (m i : Nat) (sn cs : ℝ) : Kind → List ℝ :=
  let cp := Real.cos phi
  let sp := Real.sin phi
  let w := nn s i
  match f with
  | .g1 => fun
    | .rc => [(sn * (w * cp) - cs * sp) * v.1, (sn * (w * sp) + cs * cp) * v.2.1]
    | .rs => [(cs * ((-w) * cp) - sn * sp) * v.1, (cs * ((-w) * sp) + sn * cp) * v.2.1]
    | .zc => [w * sn * v.2.2]
    | .zs => [(-w) * cs * v.2.2]
  | .g2 => fun
    | .rc => [-((cp * m) * (sn * v.1)), -((sp * m) * (sn * v.2.1))]
    | .rs => [(cp * m) * (cs * v.1), (sp * m) * (cs * v.2.1)]
    | .zc => [-(m * (sn * v.2.2))]
    | .zs => [m * (cs * v.2.2)]
  | _ => fun
    | .rc => [cp * cs * v.1, sp * cs * v.2.1]
    | .rs => [cp * sn * v.1, sp * sn * v.2.1]
    | .zc => [cs * v.2.2]
    | .zs => [sn * v.2.2]

/-- The body of the loop over modes of the `_vjp` functions; state `(counter, resptr_private)`. -/
noncomputable def vjpBody (s : Surf) (f : Fam) (phi : ℝ) (v : V3) (m i : Nat) (sn cs : ℝ) (st : Int × (Int → ℝ)) : Int × (Int → ℝ) :=
  let n : Int := (i : Int) - s.ntor
  let t := vjpTerms s f phi v m i sn cs
  let res := if ¬ (m = 0 ∧ n < 0) then (t .rc).foldl (fun r x => bump r (st.1 + shift0 s) x) st.2 else st.2
  let res := if s.stellsym = false ∧ ¬ (m = 0 ∧ n ≤ 0) then (t .rs).foldl (fun r x => bump r (st.1 + shift1 s) x) res else res
  let res := if s.stellsym = false ∧ ¬ (m = 0 ∧ n < 0) then (t .zc).foldl (fun r x => bump r (st.1 + shift2 s) x) res else res
  let res := if ¬ (m = 0 ∧ n ≤ 0) then (t .zs).foldl (fun r x => bump r (st.1 + shift3 s) x) res else res
  (st.1 + 1, res)

/-- The work of one thread: the quadrature points it was given, in its order, starting from an array of zeros (L552-608). -/
noncomputable def vjpThread (brace : Bool) (s : Surf) (f : Fam) (junk : Nat → ℝ × ℝ) (v : ℝ × ℝ → V3) (pts : List (ℝ × ℝ)) : Int → ℝ :=
  pts.foldl (fun res pq =>
    (modeLoop brace s junk (2 * Real.pi * pq.1) (2 * Real.pi * pq.2) (vjpBody s f (2 * Real.pi * pq.1) (v pq)) (0, res)).2) (fun _ => 0)

/-- The whole function: the threads add their arrays to the result in some order (`omp critical`, L609-615); for the derivatives `res *= 2*M_PI`. -/
noncomputable def vjp (brace : Bool) (s : Surf) (f : Fam) (junk : Nat → ℝ × ℝ) (v : ℝ × ℝ → V3) (threads : List (List (ℝ × ℝ))) (k : Int) : ℝ :=
  let sum := threads.foldl (fun res pts => fun j => res j + vjpThread brace s f junk v pts j) (fun _ => (0 : ℝ))
  if f = .g then sum k else sum k * (2 * Real.pi)

end Simsopt.RZSurf
