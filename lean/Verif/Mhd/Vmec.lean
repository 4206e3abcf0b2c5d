import Verif.PyList
/-!
# Running VMEC

Model of the class `Vmec` (src/simsopt/mhd/vmec.py L264-767): the data that simsopt keeps itself (boundary, profiles, three DOFs), the Fortran module variables `vmec_input` that all objects share, and the flag `need_to_run_code`.

Parameters of the model: the VMEC solver as a function of the module variables (`solve`; no result when it does not converge), the fit of a profile (`fit`, the part of `set_profile` that calls numpy; no result for a profile type that is not
supported), the net current of a profile (`total`, L573-578).  Not modelled: MPI, the files, and direct assignments to `vmec.indata`.
-/
namespace Simsopt.Vmec

/-- The boundary after `to_RZFourier()`: the mode numbers and the coefficients `rc`, `zs`, `rs`, `zc`. -/
structure Bdry (V : Type) where
  mpol : Nat
  ntor : Nat
  rc : Nat → Int → V
  zs : Nat → Int → V
  rs : Nat → Int → V
  zc : Nat → Int → V

/-- The module variables `vmec_input`: boundary coefficients, the three scalars that are DOFs, the coefficients of the mass, current and iota profiles, and everything that simsopt leaves alone. -/
structure Indata (V Arr Rest : Type) where
  rbc : Nat → Int → V
  zbs : Nat → Int → V
  rbs : Nat → Int → V
  zbc : Nat → Int → V
  phiedge : V
  curtor : V
  presScale : V
  am : Arr
  ac : Arr
  ai : Arr
  rest : Rest

/-- The three profiles. -/
inductive Slot where
  | pressure
  | current
  | iota
deriving DecidableEq

/-- The numerical parts that are not modelled. -/
structure Env (V Arr Rest Out : Type) where
  solve : Indata V Arr Rest → Option Out
  fit : Slot → Rest → (V → V) → Nat → Option Arr
  total : Rest → (V → V) → V
  mpol : Rest → Nat
  ntor : Rest → Nat
  lasym : Rest → Bool

/-- An object that a `Vmec` object may depend on. -/
inductive Obj where
  | surf (k : Nat)
  | prof (k : Nat)
deriving DecidableEq

/-- A `Vmec` object; `file` is what the input file says, for an object made from an input file. -/
structure Vm (V Arr Rest Out : Type) where
  file : Option (Indata V Arr Rest)
  boundary : Nat
  profile : Slot → Option Nat
  parents : List Obj
  x : V × V × V
  n : Slot → Nat
  need : Bool
  wout : Option Out

def Vm.runnable {V Arr Rest Out : Type} (v : Vm V Arr Rest Out) : Bool := v.file.isSome

structure World (V Arr Rest Out : Type) where
  glob : Indata V Arr Rest
  surfs : List (Bdry V)
  profs : List (V → V)
  vs : List (Vm V Arr Rest Out)

/-- The end of a statement: normal, with a result, or with an exception. -/
inductive Res (Out : Type) where
  | done
  | value (o : Out)
  | raised

variable {V Arr Rest Out : Type} [Zero V] [One V]

def Vm.setNeed (v : Vm V Arr Rest Out) (b : Bool) : Vm V Arr Rest Out := { v with need := b }
def Vm.setParents (v : Vm V Arr Rest Out) (ps : List Obj) : Vm V Arr Rest Out := { v with parents := ps }
def Vm.setX (v : Vm V Arr Rest Out) (x : V × V × V) : Vm V Arr Rest Out := { v with x := x }
def Vm.setBoundary (v : Vm V Arr Rest Out) (k : Nat) : Vm V Arr Rest Out := { v with boundary := k }
def Vm.setProfile (v : Vm V Arr Rest Out) (s : Slot) (k : Option Nat) : Vm V Arr Rest Out := { v with profile := fun t => if t = s then k else v.profile t }
def Vm.setN (v : Vm V Arr Rest Out) (s : Slot) (n : Nat) : Vm V Arr Rest Out := { v with n := fun t => if t = s then n else v.n t }
def Vm.setWout (v : Vm V Arr Rest Out) (o : Out) : Vm V Arr Rest Out := { v with wout := some o }
def World.setGlob (w : World V Arr Rest Out) (g : Indata V Arr Rest) : World V Arr Rest Out := { w with glob := g }
def World.setVs (w : World V Arr Rest Out) (vs : List (Vm V Arr Rest Out)) : World V Arr Rest Out := { w with vs := vs }
def World.setSurfs (w : World V Arr Rest Out) (l : List (Bdry V)) : World V Arr Rest Out := { w with surfs := l }
def World.setProfs (w : World V Arr Rest Out) (l : List (V → V)) : World V Arr Rest Out := { w with profs := l }
def World.put (w : World V Arr Rest Out) (i : Nat) (v : Vm V Arr Rest Out) : World V Arr Rest Out := w.setVs (w.vs.set i v)

/-- The boundary coefficients in VMEC's arrays: `vi.rbc[:, :] = 0`, then the modes up to 101 (L544-553). -/
def modes (b : Bdry V) (c : Nat → Int → V) : Nat → Int → V := fun m n =>
  if m ≤ min b.mpol 101 ∧ -((min b.ntor 101 : Nat) : Int) ≤ n ∧ n ≤ ((min b.ntor 101 : Nat) : Int) then c m n else 0

/-- `set_profile` for one profile (L463-501): nothing without a profile object; otherwise the coefficients, or an exception. -/
def fitSlot (E : Env V Arr Rest Out) (w : World V Arr Rest Out) (v : Vm V Arr Rest Out) (s : Slot) (old : Arr) : Option Arr :=
  match v.profile s with
  | none => some old
  | some k => E.fit s w.glob.rest (w.profs.getD k fun _ => 0) (v.n s)

/-- The profile function in a slot. -/
def World.fn (w : World V Arr Rest Out) (v : Vm V Arr Rest Out) (s : Slot) : Option (V → V) := (v.profile s).map fun k => w.profs.getD k fun _ => 0

def Indata.setBoundary (g : Indata V Arr Rest) (rbc zbs : Nat → Int → V) : Indata V Arr Rest := { g with rbc := rbc, zbs := zbs }
def Indata.setAm (g : Indata V Arr Rest) (a : Arr) : Indata V Arr Rest := { g with am := a }
def Indata.setAc (g : Indata V Arr Rest) (a : Arr) : Indata V Arr Rest := { g with ac := a }
def Indata.setAi (g : Indata V Arr Rest) (a : Arr) : Indata V Arr Rest := { g with ai := a }
def Indata.setScalars (g : Indata V Arr Rest) (x : V × V × V) : Indata V Arr Rest := { g with phiedge := x.1, curtor := x.2.1, presScale := x.2.2 }

/-- The end of `set_indata` (L571-578): `pres_scale = 1` with a pressure profile, `curtor` from a current profile. -/
def Indata.fixScalars (g : Indata V Arr Rest) (E : Env V Arr Rest Out) (w : World V Arr Rest Out) (v : Vm V Arr Rest Out) : Indata V Arr Rest :=
  { g with presScale := if (v.profile .pressure).isSome then 1 else g.presScale,
           curtor := match w.fn v .current with | none => g.curtor | some f => E.total g.rest f }

/-- `set_indata` (L503-582): the module variables afterwards, and whether it returned.  The boundary arrays are written before the profiles, so they stay when a profile raises. -/
def setIndata (E : Env V Arr Rest Out) (w : World V Arr Rest Out) (v : Vm V Arr Rest Out) : Indata V Arr Rest × Bool :=
  if !v.runnable then (w.glob, false) else
  if 101 < E.mpol w.glob.rest ∨ 101 < E.ntor w.glob.rest then (w.glob, false) else
  match w.surfs[v.boundary]? with
  | none => (w.glob, false)
  | some b =>
    let g := w.glob.setBoundary (modes b b.rc) (modes b b.zs)
    match fitSlot E w v .pressure g.am with
    | none => (g, false)
    | some am =>
      let g := g.setAm am
      match fitSlot E w v .current g.ac with
      | none => (g, false)
      | some ac =>
        let g := g.setAc ac
        match fitSlot E w v .iota g.ai with
        | none => (g, false)
        | some ai => ((g.setAi ai).fixScalars E w v, true)

/-- `run()` (L680-767) followed by reading the output: nothing to do when the flag is down; the flag goes down only after the output has been loaded. -/
def query (E : Env V Arr Rest Out) (w : World V Arr Rest Out) (i : Nat) (v : Vm V Arr Rest Out) : World V Arr Rest Out × Res Out :=
  if !v.need then (w, match v.wout with | none => .raised | some o => .value o)
  else if !v.runnable then (w, .raised)
  else
    let r := setIndata E w v
    if !r.2 then (w.setGlob r.1, .raised)
    else match E.solve r.1 with
      | none => (w.setGlob r.1, .raised)
      | some o => ((w.setGlob r.1).put i ((v.setWout o).setNeed false), .value o)

/-- The statements of a program. -/
inductive Op (V Arr Rest Out : Type) where
  /-- `Vmec('input.xxx')` -/
  | newInput (file : Indata V Arr Rest)
  /-- `Vmec('wout_xxx.nc')` -/
  | newWout (b : Bdry V) (o : Out)
  | newSurf (b : Bdry V)
  | newProf (f : V → V)
  /-- any change of the DOFs of a surface or of its coefficients through the setters -/
  | setSurf (k : Nat) (b : Bdry V)
  | setProf (k : Nat) (f : V → V)
  /-- `vmec.local_full_x = x` or any assignment that reaches the DOFs of the object -/
  | setX (i : Nat) (x : V × V × V)
  | setBoundary (i : Nat) (k : Nat)
  | setProfile (i : Nat) (s : Slot) (k : Option Nat)
  | setN (i : Nat) (s : Slot) (n : Nat)
  /-- `vmec.get_input()` or `vmec.write_input(...)` -/
  | getInput (i : Nat)
  | query (i : Nat)

/-- A change of an object raises the flag of the `Vmec` objects that depend on it (`recompute_bell`, L459-460). -/
def World.notify (w : World V Arr Rest Out) (o : Obj) : World V Arr Rest Out := w.setVs (w.vs.map fun v => if o ∈ v.parents then v.setNeed true else v)

/-- The setters of the profiles (L404-450).  `remove_parent` raises when the old object is not a parent, `append_parent` does nothing when the new one already is; both ring the bell. -/
def replaceProfile (v : Vm V Arr Rest Out) (s : Slot) (new : Option Nat) : Option (Vm V Arr Rest Out) :=
  if new = v.profile s then some v else
  let removed : Option (Vm V Arr Rest Out) := match v.profile s with
    | none => some v
    | some k => if Obj.prof k ∈ v.parents then some ((v.setParents (v.parents.erase (.prof k))).setNeed true) else none
  removed.map fun v => match new with
    | none => v.setProfile s none
    | some k => ((v.setProfile s (some k)).setParents (if Obj.prof k ∈ v.parents then v.parents else v.parents ++ [.prof k])).setNeed true

/-- A new object (L264-384): no profiles, `n_pressure = n_current = n_iota = 10`, the DOFs from the module variables; `Optimizable.__init__` rings the bell, and an object made from an output file silences it again. -/
def fresh (file : Option (Indata V Arr Rest)) (b : Nat) (x : V × V × V) (o : Option Out) : Vm V Arr Rest Out :=
  { file := file, boundary := b, profile := fun _ => none, parents := [.surf b], x := x, n := fun _ => 10, need := file.isSome, wout := o }

/-- The boundary that a new object reads from the module variables (L344-360): `rs` and `zc` only without stellarator symmetry. -/
def fileBdry (E : Env V Arr Rest Out) (file : Indata V Arr Rest) : Bdry V :=
  { mpol := E.mpol file.rest, ntor := E.ntor file.rest, rc := file.rbc, zs := file.zbs,
    rs := if E.lasym file.rest then file.rbs else fun _ _ => 0, zc := if E.lasym file.rest then file.zbc else fun _ _ => 0 }

/-- One statement.  Statements about objects that do not exist do not occur. -/
def exec (E : Env V Arr Rest Out) (w : World V Arr Rest Out) : Op V Arr Rest Out → World V Arr Rest Out × Res Out
  | .newInput file =>
    (((w.setGlob file).setSurfs (w.surfs ++ [fileBdry E file])).setVs (w.vs ++ [fresh (some file) w.surfs.length (file.phiedge, file.curtor, file.presScale) none]), .done)
  | .newWout b o => ((w.setSurfs (w.surfs ++ [b])).setVs (w.vs ++ [fresh none w.surfs.length (1, 0, 1) (some o)]), .done)
  | .newSurf b => (w.setSurfs (w.surfs ++ [b]), .done)
  | .newProf f => (w.setProfs (w.profs ++ [f]), .done)
  | .setSurf k b => ((w.setSurfs (w.surfs.set k b)).notify (.surf k), .done)
  | .setProf k f => ((w.setProfs (w.profs.set k f)).notify (.prof k), .done)
  | .setX i x => match w.vs[i]? with
    | none => (w, .raised)
    | some v => ((if v.runnable then w.setGlob (w.glob.setScalars x) else w).put i ((v.setX x).setNeed true), .done)
  | .setBoundary i k => match w.vs[i]? with
    | none => (w, .raised)
    | some v => if k = v.boundary then (w, .done)
      else (w.put i (((v.setBoundary k).setParents ((v.parents.erase (.surf v.boundary)) ++ [.surf k])).setNeed true), .done)
  | .setProfile i s k => match w.vs[i]? with
    | none => (w, .raised)
    | some v => match replaceProfile v s k with
      | none => (w, .raised)
      | some v => (w.put i v, .done)
  | .setN i s n => match w.vs[i]? with
    | none => (w, .raised)
    | some v => (w.put i (v.setN s n), .done)
  | .getInput i => match w.vs[i]? with
    | none => (w, .raised)
    | some v => let r := setIndata E w v
      (w.setGlob r.1, if r.2 then .done else .raised)
  | .query i => match w.vs[i]? with
    | none => (w, .raised)
    | some v => query E w i v

/-! ## Specification -/

/-- A Fourier coefficient of a surface: 0 beyond its mode numbers. -/
def coef (b : Bdry V) (c : Nat → Int → V) : Nat → Int → V := fun m n => if m ≤ b.mpol ∧ -(b.ntor : Int) ≤ n ∧ n ≤ (b.ntor : Int) then c m n else 0

/-- The module variables that belong to an object: the input file, with the *present* boundary, profiles and DOFs in their places.  There are none if the object comes from an output file or if a profile cannot be
fitted. -/
def Expected (E : Env V Arr Rest Out) (w : World V Arr Rest Out) (v : Vm V Arr Rest Out) (g : Indata V Arr Rest) : Prop :=
  ∃ file b, v.file = some file ∧ w.surfs[v.boundary]? = some b ∧
    g.rest = file.rest ∧
    g.rbc = coef b b.rc ∧ g.zbs = coef b b.zs ∧ g.rbs = coef b b.rs ∧ g.zbc = coef b b.zc ∧
    g.phiedge = v.x.1 ∧
    (match w.fn v .current with | none => g.curtor = v.x.2.1 | some f => g.curtor = E.total file.rest f) ∧
    (match w.fn v .pressure with | none => g.presScale = v.x.2.2 | some _ => g.presScale = 1) ∧
    (match w.fn v .pressure with | none => g.am = file.am | some f => E.fit .pressure file.rest f (v.n .pressure) = some g.am) ∧
    (match w.fn v .current with | none => g.ac = file.ac | some f => E.fit .current file.rest f (v.n .current) = some g.ac) ∧
    (match w.fn v .iota with | none => g.ai = file.ai | some f => E.fit .iota file.rest f (v.n .iota) = some g.ai)

/-- A stellarator-symmetric boundary with mode numbers that VMEC can take. -/
def Bdry.Plain (b : Bdry V) : Prop := b.mpol ≤ 101 ∧ b.ntor ≤ 101 ∧ (∀ m n, b.rs m n = 0) ∧ ∀ m n, b.zc m n = 0

/-- A history without the statements that go wrong: only one object made from an input file, no profile taken away again, no profile object in two places, no change of the number of fit points of a profile in use, stellarator-symmetric
boundaries, and references to objects that exist. -/
def Careful (E : Env V Arr Rest Out) (w : World V Arr Rest Out) : Op V Arr Rest Out → Prop
  | .newInput file => (∀ v ∈ w.vs, v.runnable = false) ∧ (fileBdry E file).Plain ∧ (∀ m n, file.rbs m n = 0) ∧ (∀ m n, file.zbc m n = 0)
  | .newWout b _ => b.Plain
  | .newSurf b => b.Plain
  | .setSurf _ b => b.Plain
  | .setBoundary _ k => k < w.surfs.length
  | .setProfile i s (some k) => k < w.profs.length ∧ ∀ v, w.vs[i]? = some v → ∀ t, t ≠ s → v.profile t ≠ some k
  | .setProfile i s none => ∀ v, w.vs[i]? = some v → v.profile s = none
  | .setN i s _ => ∀ v, w.vs[i]? = some v → v.profile s = none
  | _ => True

/-- The states that histories lead to. -/
inductive Hist (E : Env V Arr Rest Out) (ok : World V Arr Rest Out → Op V Arr Rest Out → Prop) : World V Arr Rest Out → Prop
  | start (g) : Hist E ok { glob := g, surfs := [], profs := [], vs := [] }
  | step {w} (op) : Hist E ok w → ok w op → Hist E ok (exec E w op).1

end Simsopt.Vmec
