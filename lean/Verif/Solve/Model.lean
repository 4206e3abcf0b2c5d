import Verif.LeastSquares.Eval
/-!
# Model of `least_squares_serial_solve` (simsopt/solve/serial.py L31-170)

SciPy is an arbitrary strategy: after every answer it decides what to ask next.  The files are modelled by the rows written to them (number of the
evaluation, `x`, `objective_val`, `residuals`); the elapsed time, the header and the formatting of numbers are not modelled.  A jacobian
(`fd.jac`, L155-159) is modelled by what `prob` notices of it: any sequence of calls `prob.residuals(y)`; the matrix it returns is arbitrary here (it
is the subject of C22-C24).
-/
namespace Simsopt.Solve
open Simsopt Simsopt.LSq
open Simsopt.Graph (State Cfg)
variable {V R : Type}

/-- What SciPy does next. -/
inductive Ask (V : Type) where
  | fn (x : List V)
  | jac (x : List V)
  | done (x : List V)

/-- What SciPy has been told. -/
inductive Told (V R : Type) where
  | value (x : List V) (r : List R)
  | jac (x : List V) (j : List (List R))

/-- SciPy, started at `x0`: a function of everything it has been told. -/
abbrev Optimizer (V R : Type) := List V → List (Told V R) → Ask V

/-- One line of the log files (L120-139). -/
structure Row (V R : Type) where
  idx : Nat
  x : List V
  obj : R
  res : List R

/-- The variables of the driver: the problem, `nevals`, and what has been written. -/
structure St (V R : Type) where
  w : World V R
  nevals : Nat := 0
  rows : List (Row V R) := []

variable [Field R]

/-- L84, L120-142 of the inner function `objective(x)`: `objective_val = prob.objective()` is outside the `try`; then the line is written and
    `nevals` is incremented. -/
def record (cfg : Cfg V) (x : List V) (st : St V R) (r : List R) (w : World V R) : EStateM.Result Err (St V R) (List R) :=
  match LSq.objective cfg none w with
  | .error e w' => .error e { st with w := w' }
  | .ok v w' => .ok r { w := w', nevals := st.nevals + 1, rows := st.rows ++ [⟨st.nevals, x, v, r⟩] }

/-- The inner function `objective(x)` (L73-142); `nfns` is `prob.parent_return_fns_no`, `big` is 1e12. -/
def evalObj (sqrt : R → R) (cfg : Cfg V) (nfns : Nat) (big : R) (x : List V) (st : St V R) : EStateM.Result Err (St V R) (List R) :=
  match LSq.residuals sqrt cfg (some x) st.w with
  | .ok r w => record cfg x st r w
  | .error _ w => record cfg x st (List.replicate nfns big) w

/-- What a jacobian does to the problem: some calls of `prob.residuals`, all of which return. -/
inductive Probes (sqrt : R → R) (cfg : Cfg V) : World V R → World V R → Prop
  | nil {w : World V R} : Probes sqrt cfg w w
  | cons {w w1 w2 : World V R} {y : List V} {r : List R} : LSq.residuals sqrt cfg (some y) w = .ok r w1 → Probes sqrt cfg w1 w2 → Probes sqrt cfg w w2

/-- The solve up to some point: what SciPy has been told, and the state.  Excluded: exhausting the recursion limit inside an evaluation. -/
inductive Run (sqrt : R → R) (cfg : Cfg V) (nfns : Nat) (big : R) (opt : Optimizer V R) (w : World V R) : List (Told V R) → St V R → Prop
  | start : Run sqrt cfg nfns big opt w [] { w := w }
  | fn {tr : List (Told V R)} {st st' : St V R} {x : List V} {r : List R} : Run sqrt cfg nfns big opt w tr st →
      opt (Graph.getX w.g w.p.self) tr = .fn x → (∀ e w', LSq.residuals sqrt cfg (some x) st.w = .error e w' → e ≠ .recursionError) →
      evalObj sqrt cfg nfns big x st = .ok r st' → Run sqrt cfg nfns big opt w (tr ++ [.value x r]) st'
  | jac {tr : List (Told V R)} {st : St V R} {w' : World V R} {x : List V} {j : List (List R)} : Run sqrt cfg nfns big opt w tr st →
      opt (Graph.getX w.g w.p.self) tr = .jac x → Probes sqrt cfg st.w w' → Run sqrt cfg nfns big opt w (tr ++ [.jac x j]) { st with w := w' }

/-- `least_squares_serial_solve(prob)` returns, leaving the problem in state `w'` and the log `rows` (L144-170): when SciPy is done with `x`,
    `prob.x = x`. -/
def Returns (sqrt : R → R) (cfg : Cfg V) (nfns : Nat) (big : R) (opt : Optimizer V R) (w : World V R) (w' : World V R) (rows : List (Row V R)) : Prop :=
  ∃ tr st x g', Run sqrt cfg nfns big opt w tr st ∧ opt (Graph.getX w.g w.p.self) tr = .done x ∧
    Graph.setX cfg st.w.p.self x st.w.g = .ok () g' ∧ w' = { st.w with g := g' } ∧ rows = st.rows

/-- `least_squares_serial_solve(prob)` raises `e` in an evaluation that SciPy asked for. -/
def Raises (sqrt : R → R) (cfg : Cfg V) (nfns : Nat) (big : R) (opt : Optimizer V R) (w : World V R) (e : Err) : Prop :=
  ∃ tr st x st', Run sqrt cfg nfns big opt w tr st ∧ opt (Graph.getX w.g w.p.self) tr = .fn x ∧ evalObj sqrt cfg nfns big x st = .error e st'

end Simsopt.Solve
