import Verif.Wireframe.ConsOps
import Mathlib.Order.WithBot
/-!
# Greedy stellarator coil optimization

Model of `GSCO` and `check_eligibility` (src/simsoptpp/wireframe_optimization.cpp), `gsco_wireframe` and `get_gsco_iteration` (src/simsopt/solve/wireframe_optimization.py L545-706).

Numbers are reals; `std::numeric_limits<double>::max()`, which stands for "not eligible", is `⊤`.  Printing is left out.  The OpenMP loops write to different entries and read nothing that the loop writes, so their order is of no importance.
-/
namespace Simsopt.Wireframe

/-- The arguments of `GSCO` (L72-77).  `maxCurr = none` stands for infinity, `maxCount` is an absolute value (L618-619 of the Python file). -/
structure Gsco where
  noCrossing : Bool
  noNewCoils : Bool
  matchCurrent : Bool
  nSeg : Nat
  nGrid : Nat
  nLoop : Nat
  A : Nat → Int → ℝ
  b : Nat → ℝ
  dflt : ℝ
  maxCurr : Option ℝ
  maxCount : Nat
  loops : Nat → Cell
  free : Nat → Bool
  segs : Int → Nat × Nat
  conns : Nat → List Int
  lam : ℝ
  nIter : Nat
  x0 : Int → ℝ
  count0 : Nat → Int

/-- An entry of the history arrays. -/
structure Rec where
  curr : ℝ
  loop : Nat
  fB : ℝ
  fS : ℝ
  f : ℝ

/-- The variables of `GSCO`. -/
structure GState where
  x : Int → ℝ
  count : Nat → Int
  res : Nat → ℝ
  fB2 : ℝ
  fS2 : ℝ
  f2 : ℝ
  prev : Nat
  hist : List Rec

/-- The segments of a loop with their signs (L440-441). -/
def Cell.segs (k : Cell) : List (Int × ℝ) := [(k.tor1, 1), (k.pol2, 1), (k.tor3, -1), (k.pol4, -1)]

/-- `std::min_element` over the first `m` entries: the first of the smallest. -/
def argmin {α : Type} [LinearOrder α] (f : Nat → α) : Nat → Nat
  | 0 => 0
  | m + 1 => if f m < f (argmin f m) then m else argmin f m

variable (p : Gsco)

/-- `tol` (L155). -/
noncomputable def Gsco.tol : ℝ := 0.001 * p.dflt

open Classical in
/-- `abs(v) > tol`. -/
noncomputable def Gsco.active (v : ℝ) : Bool := decide (p.tol < |v|)

open Classical in
/-- The loop over the segments that looks for a common magnitude (L462-472): `none` for a mismatch. -/
noncomputable def common : List ℝ → ℝ → Option ℝ
  | [], a => some a
  | v :: l, a => if 0 < |v| then (if a ≠ 0 ∧ a ≠ |v| then none else common l |v|) else common l a

/-- `sign` (L429, L279). -/
def Gsco.sign (i : Nat) : ℝ := if i < p.nLoop then 1 else -1

/-- `(int) sign`. -/
def Gsco.isign (i : Nat) : Int := if i < p.nLoop then 1 else -1

open Classical in
/-- `loop_curr` (L458-490): `none` for a mismatch. -/
noncomputable def Gsco.loopCurr (x : Int → ℝ) (i : Nat) : Option ℝ :=
  if p.matchCurrent then
    match common ((p.loops (i % p.nLoop)).segs.map fun s => x s.1) 0 with
    | none => none
    | some a => some (if a ≠ 0 then p.sign i * a else p.sign i * p.dflt)
  else some (p.sign i * p.dflt)

/-- `curr_to_add` (L521-527). -/
def toAdd (k : Cell) (c : ℝ) (s : Int) : ℝ := match k.segs.find? fun t => decide (s = t.1) with
  | some t => t.2 * c
  | none => 0

/-- The check for crossings (L505-544). -/
noncomputable def Gsco.crossing (x : Int → ℝ) (k : Cell) (c : ℝ) : Bool :=
  [(p.segs k.tor1).1, (p.segs k.tor1).2, (p.segs k.tor3).1, (p.segs k.tor3).2].any fun v => decide (2 < (p.conns v).countP fun s => p.active (x s + toAdd k c s))

open Classical in
/-- Would the current limit be exceeded (L492-503)? -/
noncomputable def Gsco.tooLarge (x : Int → ℝ) (k : Cell) (c : ℝ) : Bool := match p.maxCurr with
  | none => false
  | some m => k.segs.any fun s => decide (m < |x s.1 + s.2 * c|)

open Classical in
/-- `check_eligibility` (L412-549): `current[i]`. -/
noncomputable def Gsco.elig (x : Int → ℝ) (count : Nat → Int) (i : Nat) : ℝ :=
  let k := p.loops (i % p.nLoop)
  if !p.free (i % p.nLoop) then 0
  else if 0 < p.maxCount ∧ (p.maxCount : Int) < |count (i % p.nLoop) + p.isign i| then 0
  else if p.noNewCoils && k.segs.all (fun s => !p.active (x s.1)) then 0
  else match p.loopCurr x i with
    | none => 0
    | some c =>
      if p.tooLarge x k c then 0
      else if p.noCrossing && p.crossing x k c then 0
      else c

/-- `A_ptr[...ind_tor1] * c + ...` (L224-228). -/
def Gsco.bnorm (m : Nat) (k : Cell) (c : ℝ) : ℝ := 0 + p.A m k.tor1 * c + p.A m k.pol2 * c - p.A m k.tor3 * c - p.A m k.pol4 * c

/-- `two_f_Bs`, `two_f_Ss`, `two_fs` for loop `j` with current `c` (L206-258). -/
noncomputable def Gsco.cand (s : GState) (j : Nat) (c : ℝ) : ℝ × ℝ × ℝ :=
  let k := p.loops (j % p.nLoop)
  let fB := ∑ m ∈ Finset.range p.nGrid, (s.res m + p.bnorm m k c) * (s.res m + p.bnorm m k c)
  let orig : Nat := k.segs.countP fun t => p.active (s.x t.1)
  let new : Nat := k.segs.countP fun t => p.active (s.x t.1 + t.2 * c)
  let fS := s.fS2 + new - orig
  (fB, fS, fB + p.lam * fS)

/-- Which loops are eligible (L187-199). -/
noncomputable def Gsco.vals (s : GState) (j : Nat) : WithTop ℝ :=
  open Classical in if p.elig s.x s.count j = 0 then ⊤ else ((p.cand s j (p.elig s.x s.count j)).2.2 : ℝ)

/-- The update of the solution and the history (L288-318). -/
noncomputable def Gsco.place (s : GState) (j : Nat) : GState :=
  let c := p.elig s.x s.count j
  let l := if j < p.nLoop then j else j - p.nLoop
  let v := p.cand s j c
  { x := addLoop c (p.loops (j % p.nLoop)) s.x,
    count := fun i => if i = l then s.count i + p.isign j else s.count i,
    res := fun m => s.res m + p.A m (p.loops (j % p.nLoop)).tor1 * c + p.A m (p.loops (j % p.nLoop)).pol2 * c - p.A m (p.loops (j % p.nLoop)).tor3 * c - p.A m (p.loops (j % p.nLoop)).pol4 * c,
    fB2 := v.1, fS2 := v.2.1, f2 := v.2.2, prev := s.prev, hist := s.hist ++ [⟨c, l, 0.5 * v.1, 0.5 * v.2.1, 0.5 * v.2.2⟩] }

/-- `opt_ind_prev = opt_ind` (L273). -/
def GState.setPrev (s : GState) (j : Nat) : GState := { s with prev := j }

open Classical in
/-- One iteration (L178-343) and whether it is the last. -/
noncomputable def Gsco.iter (i : Nat) (s : GState) : GState × Bool :=
  let j := argmin (p.vals s) (2 * p.nLoop)
  if ¬ ∃ a < 2 * p.nLoop, p.elig s.x s.count a ≠ 0 then (s, true)
  else if 0 < i ∧ j + p.nLoop % (2 * p.nLoop) = s.prev then
    (if s.f2 < (p.cand s j (p.elig s.x s.count j)).2.2 then s else p.place s j, true)
  else (p.place (s.setPrev j) j, decide (i + 1 = p.nIter))

/-- `for (int i = 0; i < nIter; ++i)` with `break`. -/
noncomputable def Gsco.loop : Nat → Nat → GState → GState
  | 0, _, s => s
  | fuel + 1, i, s => if (p.iter i s).2 then (p.iter i s).1 else Gsco.loop fuel (i + 1) (p.iter i s).1

/-- The initial values (L83-167). -/
noncomputable def Gsco.start : GState :=
  let res := fun m => ∑ s ∈ Finset.range p.nSeg, p.A m s * p.x0 s - p.b m
  let fB := ∑ m ∈ Finset.range p.nGrid, res m * res m
  let fS := 2 * ∑ s ∈ Finset.range p.nSeg, if p.active (p.x0 s) then (0.5 : ℝ) else 0
  { x := p.x0, count := p.count0, res := res, fB2 := fB, fS2 := fS, f2 := fB + p.lam * fS, prev := 0,
    hist := [⟨0, 0, 0.5 * fB, 0.5 * fS, 0.5 * fB + 0.5 * p.lam * fS⟩] }

/-- `GSCO`. -/
noncomputable def Gsco.run : GState := p.loop p.nIter 0 p.start

/-- `get_gsco_iteration` (L667-706 of the Python file), with numpy's indexed assignment: an index that occurs twice is changed once. -/
def getIteration (cells : Nat → Cell) (x0 : Int → ℝ) (hist : List Rec) (k : Nat) : Int → ℝ :=
  (hist.take (k + 1)).foldl (fun x r =>
    let y := fun s => if s = (cells r.loop).tor1 ∨ s = (cells r.loop).pol2 then x s + r.curr else x s
    fun s => if s = (cells r.loop).tor3 ∨ s = (cells r.loop).pol4 then y s - r.curr else y s) x0

/-! ### Specification -/

/-- `f_B = 0.5 * |A x - b|^2`. -/
noncomputable def Gsco.fB (x : Int → ℝ) : ℝ := 1 / 2 * ∑ m ∈ Finset.range p.nGrid, (∑ s ∈ Finset.range p.nSeg, p.A m s * x s - p.b m) ^ 2

open Classical in
/-- `f_S = 0.5 * (number of non-zero elements of x)`, where the elements up to a thousandth of the default current count as zero. -/
noncomputable def Gsco.fS (x : Int → ℝ) : ℝ := 1 / 2 * ((Finset.range p.nSeg).filter fun s : Nat => 0.001 * p.dflt < |x s|).card

/-- `f = f_B + lambda_S f_S`. -/
noncomputable def Gsco.f (x : Int → ℝ) : ℝ := p.fB x + p.lam * p.fS x

/-- The arguments fit together: the segments of every loop exist and are different, there is a loop. -/
structure Gsco.Valid : Prop where
  pos : 0 < p.nLoop
  lt : ∀ k < p.nLoop, ∀ s ∈ (p.loops k).segs, 0 ≤ s.1 ∧ s.1 < p.nSeg
  nodup : ∀ k < p.nLoop, ((p.loops k).segs.map (·.1)).Nodup
  dflt : 0 ≤ p.dflt

/-- The sign of a current. -/
noncomputable def sgn (c : ℝ) : Int := open Classical in if 0 < c then 1 else if c < 0 then -1 else 0

/-- Is it allowed to add the current `c` around loop `k` if the segments carry the currents `x` and `count` loops were added so far? -/
structure Gsco.Allowed (x : Int → ℝ) (count : Nat → Int) (k : Nat) (c : ℝ) : Prop where
  loop : k < p.nLoop
  ne : c ≠ 0
  free : p.free k = true
  count : p.maxCount ≠ 0 → |count k + sgn c| ≤ p.maxCount
  old : p.noNewCoils = true → ∃ s ∈ (p.loops k).segs, 0.001 * p.dflt < |x s.1|
  size : p.matchCurrent = false → |c| = p.dflt
  matching : p.matchCurrent = true → (∀ s ∈ (p.loops k).segs, x s.1 = 0 ∨ |x s.1| = |c|) ∧ ((∀ s ∈ (p.loops k).segs, x s.1 = 0) → |c| = p.dflt)
  limit : ∀ m, p.maxCurr = some m → ∀ s ∈ (p.loops k).segs, |addLoop c (p.loops k) x s.1| ≤ m
  crossing : p.noCrossing = true → ∀ t, t = (p.loops k).tor1 ∨ t = (p.loops k).tor3 → ∀ v, v = (p.segs t).1 ∨ v = (p.segs t).2 →
    (open Classical in (p.conns v).countP fun s => decide (0.001 * p.dflt < |addLoop c (p.loops k) x s|)) ≤ 2

/-- The currents after `k` recorded iterations. -/
def Gsco.xAt (hist : List Rec) (k : Nat) : Int → ℝ := (hist.take (k + 1)).foldl (fun x r => addLoop r.curr (p.loops r.loop) x) p.x0

/-- How many loops of current were added around each cell after `k` recorded iterations: those with negative current count `-1`. -/
noncomputable def Gsco.countAt (hist : List Rec) (k : Nat) (l : Nat) : Int := p.count0 l + (((hist.take (k + 1)).filter fun r => decide (r.loop = l)).map fun r => sgn r.curr).sum

end Simsopt.Wireframe
