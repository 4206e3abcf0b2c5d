import Mathlib.Data.Real.Basic
import Mathlib.Tactic.Linarith
import Mathlib.Tactic.NormNum

/-!
# The solvers of a Boozer surface and what they record (C117, C118)

Model of the methods of `BoozerSurface` that solve (src/simsopt/geo/boozersurface.py L104-169, L433-823), and of the objective `Iotas` (src/simsopt/geo/surfaceobjectives.py L848-905), as a state machine.  The numerical content of one step (the evaluation of the equations and
`np.linalg.solve`) is a parameter; the loops, the flags, and what is stored and when, are modelled.  Floating-point numbers are real numbers (no NaN).
-/
namespace Simsopt.BSurf.Solve

/-- What can be raised. -/
inductive Err where
  | assertion
  | linalg
  | runtime
  | attribute
  | key
deriving DecidableEq, Repr

/-- The unknowns of a solve: the dofs of the surface, `iota`, and `G` (`none` if `G` is not an unknown). -/
structure Unk (S : Type) where
  s : S
  iota : ℝ
  G : Option ℝ

/-- The coils (their dofs) and the target label. -/
structure Env (P : Type) where
  coils : P
  target : ℝ

/-- A `BoozerSurface`: what does not change.  `normLS` is the norm of the gradient of the penalised objective (L492, L502), `normEx` that of the equations of the exact solver (L763-767) and `normKKT` that of the optimality conditions (L658, L674); the `step` functions give `x - dx`, or
`none` if `np.linalg.solve` raises; `bfgs` and `lsq` are `scipy.optimize.minimize` and `least_squares`, with the flag `success`; `manual` is the damped Gauss-Newton loop of L553-571. -/
structure Cfg (P S : Type) where
  exact : Bool
  tensor : Bool
  tol : ℝ
  maxiter : ℕ
  G0 : P → ℝ
  currentsFixed : P → Bool
  normLS : Env P → Unk S → ℝ
  stepLS : Env P → Unk S → Option (Unk S)
  normEx : Env P → Unk S → ℝ
  stepEx : Env P → Unk S → Option (Unk S)
  normKKT : Env P → Unk S × ℝ × ℝ → ℝ
  stepKKT : Env P → Unk S × ℝ × ℝ → Option (Unk S × ℝ × ℝ)
  bfgs : Env P → Unk S → Unk S × Bool
  lsq : Env P → Unk S → Unk S × Bool
  manual : Env P → Unk S → Unk S × Bool

/-- The dictionary `self.res`: the keys used elsewhere.  `plu` says whether it has the keys `PLU` and `vjp`. -/
structure Res where
  iota : ℝ
  G : Option ℝ
  success : Bool
  iter : ℕ
  plu : Bool

/-- The state: the coils and the target, the dofs of the surface, the flag `need_to_run_code`, `self.res` (`none`: no such attribute), and the cache `_J` of an `Iotas` objective that depends on the surface. -/
structure State (P S : Type) where
  env : Env P
  s : S
  need : Bool
  res : Option Res
  cacheJ : Option ℝ

variable {P S X : Type}

/-- The loop of a Newton method that tests the norm of the current iterate (L491-503, L657-675): at most `k` steps.  The result is the last iterate and the number of steps, and `none` with the iterate where a step raised. -/
noncomputable def loop (norm : X → ℝ) (step : X → Option X) (tol : ℝ) : ℕ → X → X × Option ℕ
  | 0, x => (x, some 0)
  | k + 1, x =>
    if norm x > tol then
      match step x with
      | none => (x, none)
      | some y =>
        let r := loop norm step tol k y
        (r.1, r.2.map (· + 1))
    else (x, some 0)

/-- The loop of the exact solver (L761-796): the norm is tested at the beginning of each pass, and after the last pass it is that of the iterate before; the third component is the variable `norm`, which starts at 1e6. -/
noncomputable def loopEx (norm : X → ℝ) (step : X → Option X) (tol : ℝ) : ℕ → X → ℝ → X × Option ℕ × ℝ
  | 0, x, last => (x, some 0, last)
  | k + 1, x, _ =>
    if norm x ≤ tol then (x, some 0, norm x)
    else
      match step x with
      | none => (x, none, norm x)
      | some y =>
        let r := loopEx norm step tol k y (norm x)
        (r.1, r.2.1.map (· + 1), r.2.2)

namespace Cfg
variable (c : Cfg P S)

/-- `np.concatenate((s.get_dofs(), [iota]))` or with `G`. -/
def start (st : State P S) (iota : ℝ) (G : Option ℝ) : Unk S := ⟨st.s, iota, G⟩

/-- `minimize_boozer_penalty_constraints_newton`, L477-531. -/
noncomputable def newtonLS (st : State P S) (iota : ℝ) (G : Option ℝ) : Except Err (Option Res) × State P S :=
  if st.need = false then (.ok st.res, st)
  else
    let r := loop (c.normLS st.env) (c.stepLS st.env) c.tol c.maxiter (start st iota G)
    match r.2 with
    | none => (.error .linalg, { st with s := r.1.s })
    | some i =>
      let res : Res := ⟨r.1.iota, r.1.G, decide (c.normLS st.env r.1 ≤ c.tol), i, true⟩
      (.ok (some res), { st with s := r.1.s, res := some res, need := false })

/-- `minimize_boozer_penalty_constraints_LBFGS`, L419-475. -/
def lbfgs (st : State P S) (iota : ℝ) (G : Option ℝ) : Except Err (Option Res) × State P S :=
  if st.need = false then (.ok st.res, st)
  else
    let r := c.bfgs st.env (start st iota G)
    let res : Res := ⟨r.1.iota, r.1.G, r.2, 0, false⟩
    (.ok (some res), { st with s := r.1.s, res := some res, need := false })

/-- `minimize_boozer_penalty_constraints_ls`, L533-606: with `method='manual'` the result is returned, but not stored. -/
def ls (man : Bool) (st : State P S) (iota : ℝ) (G : Option ℝ) : Except Err (Option Res) × State P S :=
  if st.need = false then (.ok st.res, st)
  else if man then
    let r := c.manual st.env (start st iota G)
    (.ok (some ⟨r.1.iota, r.1.G, r.2, 0, false⟩), { st with s := r.1.s })
  else
    let r := c.lsq st.env (start st iota G)
    let res : Res := ⟨r.1.iota, r.1.G, r.2, 0, false⟩
    (.ok (some res), { st with s := r.1.s, res := some res, need := false })

/-- `minimize_boozer_exact_constraints_newton`, L608-677. -/
noncomputable def newtonKKT (st : State P S) (iota : ℝ) (G : Option ℝ) : Except Err (Option Res) × State P S :=
  if st.need = false then (.ok st.res, st)
  else
    let r := loop (c.normKKT st.env) (c.stepKKT st.env) c.tol c.maxiter (start st iota G, 0, 0)
    match r.2 with
    | none => (.error .linalg, { st with s := r.1.1.s })
    | some i =>
      let res : Res := ⟨r.1.1.iota, r.1.1.G, decide (c.normKKT st.env r.1 ≤ c.tol), i, false⟩
      (.ok (some res), { st with s := r.1.1.s, res := some res, need := false })

/-- `solve_residual_equation_exactly_newton`, L679-823. -/
noncomputable def newtonEx (st : State P S) (iota : ℝ) (G : Option ℝ) : Except Err (Option Res) × State P S :=
  if st.need = false then (.ok st.res, st)
  else if c.tensor = false then (.error .runtime, st)
  else
    let r := loopEx (c.normEx st.env) (c.stepEx st.env) c.tol c.maxiter (start st iota (some (G.getD (c.G0 st.env.coils)))) 1000000
    match r.2.1 with
    | none => (.error .linalg, { st with s := r.1.s })
    | some i =>
      let res : Res := ⟨r.1.iota, r.1.G, decide (r.2.2 ≤ c.tol), i, true⟩
      (.ok (some res), { st with s := r.1.s, res := some res, need := false })

/-- `run_code`, L107-169: `none` is Python's `None`. -/
noncomputable def runCode (st : State P S) (iota : ℝ) (G : Option ℝ) : Except Err (Option Res) × State P S :=
  if st.need = false then (.ok none, st)
  else if G.isNone ∧ c.currentsFixed st.env.coils = false then (.error .assertion, st)
  else if c.exact then c.newtonEx st iota G
  else
    match c.lbfgs st iota G with
    | (.ok (some res), st') => c.newtonLS { st' with need := true } res.iota res.G
    | r => r

/-- `Iotas.compute` and `Iotas.J`, surfaceobjectives.py L860-892: with the cached value if there is one; `self.boozer_surface.res` raises if no solve has been recorded; the keys `PLU` and `vjp` are read, by `compute`, before `J` returns. -/
noncomputable def iotaJ (st : State P S) : Except Err ℝ × State P S :=
  match st.cacheJ with
  | some j => (.ok j, st)
  | none =>
    let r : Except Err Unit × State P S :=
      if st.need then
        match st.res with
        | none => (.error .attribute, st)
        | some res =>
          match c.runCode st res.iota res.G with
          | (.ok _, st') => (.ok (), st')
          | (.error e, st') => (.error e, st')
      else (.ok (), st)
    match r with
    | (.error e, st') => (.error e, st')
    | (.ok _, st') =>
      match st'.res with
      | none => (.error .attribute, st')
      | some res =>
        let st'' := { st' with cacheJ := some res.iota }
        if res.plu then (.ok res.iota, st'') else (.error .key, st'')

end Cfg

/-- The ways to call. -/
inductive Op (P S : Type) where
  | setCoils (p : P)
  | setSurface (s : S)
  | setTarget (l : ℝ)
  | newtonLS (iota : ℝ) (G : Option ℝ)
  | lbfgs (iota : ℝ) (G : Option ℝ)
  | ls (man : Bool) (iota : ℝ) (G : Option ℝ)
  | newtonKKT (iota : ℝ) (G : Option ℝ)
  | newtonEx (iota : ℝ) (G : Option ℝ)
  | runCode (iota : ℝ) (G : Option ℝ)
  | iotaJ

/-- The state after a call.  Changing the dofs of the coils calls `recompute_bell` of the field, of the Boozer surface (L104-105) and of the objective (surfaceobjectives.py L875-879); the surface and the target are no parents of the Boozer surface (L67, `depends_on=[biotsavart]`), and changing
them calls nothing. -/
noncomputable def Cfg.exec (c : Cfg P S) (st : State P S) : Op P S → State P S
  | .setCoils p => { st with env := { st.env with coils := p }, need := true, cacheJ := none }
  | .setSurface s => { st with s := s }
  | .setTarget l => { st with env := { st.env with target := l } }
  | .newtonLS iota G => (c.newtonLS st iota G).2
  | .lbfgs iota G => (c.lbfgs st iota G).2
  | .ls man iota G => (c.ls man st iota G).2
  | .newtonKKT iota G => (c.newtonKKT st iota G).2
  | .newtonEx iota G => (c.newtonEx st iota G).2
  | .runCode iota G => (c.runCode st iota G).2
  | .iotaJ => (c.iotaJ st).2

/-- A new `BoozerSurface` (L66-102) and a new objective. -/
def init (env : Env P) (s : S) : State P S := ⟨env, s, true, none, none⟩

/-- The state after a history. -/
noncomputable def Cfg.run (c : Cfg P S) (st : State P S) : List (Op P S) → State P S
  | [] => st
  | op :: ops => c.run (c.exec st op) ops

/-! ## Proofs -/

theorem loop_norm {norm : X → ℝ} {step : X → Option X} {tol : ℝ} (k : ℕ) (x : X) (i : ℕ) (h : (loop norm step tol k x).2 = some i) : i ≤ k ∧ (i < k → norm (loop norm step tol k x).1 ≤ tol) := by
  induction k generalizing x i with
  | zero =>
    simp only [loop, Option.some.injEq] at h
    omega
  | succ k ih =>
    unfold loop at h ⊢
    by_cases hn : norm x > tol
    · rw [if_pos hn] at h ⊢
      cases hs : step x with
      | none => rw [hs] at h; simp at h
      | some y =>
        rw [hs] at h
        simp only [Option.map_eq_some_iff] at h
        obtain ⟨j, hj, rfl⟩ := h
        have := ih y j hj
        exact ⟨by omega, fun hlt => this.2 (by omega)⟩
    · rw [if_neg hn] at h ⊢
      simp only [Option.some.injEq] at h
      exact ⟨by omega, fun _ => not_lt.mp hn⟩

theorem loopEx_norm {norm : X → ℝ} {step : X → Option X} {tol : ℝ} (k : ℕ) (x : X) (last : ℝ) (i : ℕ) (hl : tol < last) (h : (loopEx norm step tol k x last).2.1 = some i) :
    i ≤ k ∧ ((loopEx norm step tol k x last).2.2 ≤ tol → norm (loopEx norm step tol k x last).1 ≤ tol) := by
  induction k generalizing x i last with
  | zero =>
    simp only [loopEx, Option.some.injEq] at h
    exact ⟨by omega, fun hle => absurd hl (not_lt.mpr hle)⟩
  | succ k ih =>
    unfold loopEx at h ⊢
    by_cases hn : norm x ≤ tol
    · rw [if_pos hn] at h ⊢
      simp only [Option.some.injEq] at h
      exact ⟨by omega, fun _ => hn⟩
    · rw [if_neg hn] at h ⊢
      cases hs : step x with
      | none => rw [hs] at h; simp at h
      | some y =>
        rw [hs] at h
        simp only [Option.map_eq_some_iff] at h
        obtain ⟨j, hj, rfl⟩ := h
        have := ih y (norm x) j (not_le.mp hn) hj
        exact ⟨by omega, this.2⟩

/-- **C117.** Penalty Newton, called when a solve is needed: if it returns, the result is stored, it did at most `maxiter` steps, and `success` is true exactly if the gradient at the surface that is held now, with the returned `iota` and `G`, is within the tolerance. -/
theorem C117_penalty_newton (c : Cfg P S) (st : State P S) (iota : ℝ) (G : Option ℝ) (hn : st.need = true) (r : Option Res) (h : (c.newtonLS st iota G).1 = .ok r) :
    let st' := (c.newtonLS st iota G).2
    ∃ res, r = some res ∧ st'.res = some res ∧ st'.need = false ∧ st'.env = st.env ∧ res.iter ≤ c.maxiter ∧ (res.success = true ↔ c.normLS st.env ⟨st'.s, res.iota, res.G⟩ ≤ c.tol) := by
  intro st'
  have hn' : ¬ st.need = false := by rw [hn]; simp
  simp only [st']
  unfold Cfg.newtonLS at h ⊢
  rw [if_neg hn'] at h ⊢
  cases hr : (loop (c.normLS st.env) (c.stepLS st.env) c.tol c.maxiter (Cfg.start st iota G)).2 with
  | none => simp only [hr] at h; exact absurd h (by simp)
  | some i =>
    simp only [hr] at h ⊢
    refine ⟨_, (Except.ok.inj h).symm, rfl, trivial, trivial, (loop_norm _ _ _ hr).1, ?_⟩
    simp only [decide_eq_true_eq]

/-- **C117.** Newton on the optimality conditions: the same, with the multipliers that the solver found. -/
theorem C117_constrained_newton (c : Cfg P S) (st : State P S) (iota : ℝ) (G : Option ℝ) (hn : st.need = true) (r : Option Res) (h : (c.newtonKKT st iota G).1 = .ok r) :
    let st' := (c.newtonKKT st iota G).2
    ∃ res, r = some res ∧ st'.res = some res ∧ st'.need = false ∧ st'.env = st.env ∧ res.iter ≤ c.maxiter ∧ (res.success = true → ∃ lm, c.normKKT st.env (⟨st'.s, res.iota, res.G⟩, lm) ≤ c.tol) := by
  intro st'
  have hn' : ¬ st.need = false := by rw [hn]; simp
  simp only [st']
  unfold Cfg.newtonKKT at h ⊢
  rw [if_neg hn'] at h ⊢
  cases hr : (loop (c.normKKT st.env) (c.stepKKT st.env) c.tol c.maxiter (Cfg.start st iota G, 0, 0)).2 with
  | none => simp only [hr] at h; exact absurd h (by simp)
  | some i =>
    simp only [hr] at h ⊢
    refine ⟨_, (Except.ok.inj h).symm, rfl, trivial, trivial, (loop_norm _ _ _ hr).1, ?_⟩
    simp only [decide_eq_true_eq]
    exact fun hle => ⟨_, hle⟩

/-- **C117.** The exact solver: if `success` is true, the equations hold to the tolerance at the surface that is held now with the returned `iota` and `G` (for a tolerance below the initial value 1e6 of the variable `norm`). -/
theorem C117_exact_newton (c : Cfg P S) (st : State P S) (iota : ℝ) (G : Option ℝ) (hn : st.need = true) (ht : c.tol < 1000000) (r : Option Res) (h : (c.newtonEx st iota G).1 = .ok r) :
    let st' := (c.newtonEx st iota G).2
    ∃ res, r = some res ∧ st'.res = some res ∧ st'.need = false ∧ st'.env = st.env ∧ res.iter ≤ c.maxiter ∧ (res.success = true → c.normEx st.env ⟨st'.s, res.iota, res.G⟩ ≤ c.tol) := by
  intro st'
  have hn' : ¬ st.need = false := by rw [hn]; simp
  simp only [st']
  unfold Cfg.newtonEx at h ⊢
  rw [if_neg hn'] at h ⊢
  by_cases htn : c.tensor = false
  · rw [if_pos htn] at h; exact absurd h (by simp)
  rw [if_neg htn] at h ⊢
  cases hr : (loopEx (c.normEx st.env) (c.stepEx st.env) c.tol c.maxiter (Cfg.start st iota (some (G.getD (c.G0 st.env.coils)))) 1000000).2.1 with
  | none => simp only [hr] at h; exact absurd h (by simp)
  | some i =>
    simp only [hr] at h ⊢
    refine ⟨_, (Except.ok.inj h).symm, rfl, trivial, trivial, (loopEx_norm _ _ _ _ ht hr).1, ?_⟩
    simp only [decide_eq_true_eq]
    exact (loopEx_norm _ _ _ _ ht hr).2

/-- **C117.** A solver that raises leaves the flag up: the next call solves. -/
theorem C117_failed_solve_needs_to_run (c : Cfg P S) (st : State P S) (iota : ℝ) (G : Option ℝ) (e : Err) (h : (c.runCode st iota G).1 = .error e) : ((c.runCode st iota G).2).need = true := by
  unfold Cfg.runCode at h ⊢
  by_cases hn : st.need = false
  · rw [if_pos hn] at h; exact absurd h (by simp)
  have hnt : st.need = true := by cases hh : st.need <;> simp_all
  rw [if_neg hn] at h ⊢
  by_cases ha : G.isNone ∧ c.currentsFixed st.env.coils = false
  · rw [if_pos ha] at h ⊢; exact hnt
  rw [if_neg ha] at h ⊢
  by_cases he : c.exact
  · rw [if_pos he] at h ⊢
    unfold Cfg.newtonEx at h ⊢
    rw [if_neg hn] at h ⊢
    by_cases htn : c.tensor = false
    · rw [if_pos htn] at h ⊢; exact hnt
    rw [if_neg htn] at h ⊢
    cases hr : (loopEx (c.normEx st.env) (c.stepEx st.env) c.tol c.maxiter (Cfg.start st iota (some (G.getD (c.G0 st.env.coils)))) 1000000).2.1 with
    | none => simp only [hr] at h ⊢; exact hnt
    | some i => simp only [hr] at h; exact absurd h (by simp)
  · rw [if_neg he] at h ⊢
    have hl : c.lbfgs st iota G = (.ok (some ⟨(c.bfgs st.env (Cfg.start st iota G)).1.iota, (c.bfgs st.env (Cfg.start st iota G)).1.G, (c.bfgs st.env (Cfg.start st iota G)).2, 0, false⟩), { st with s := (c.bfgs st.env (Cfg.start st iota G)).1.s, res := some ⟨(c.bfgs st.env (Cfg.start st iota G)).1.iota, (c.bfgs st.env (Cfg.start st iota G)).1.G, (c.bfgs st.env (Cfg.start st iota G)).2, 0, false⟩, need := false }) := by
      unfold Cfg.lbfgs
      rw [if_neg hn]
    simp only [hl] at h ⊢
    unfold Cfg.newtonLS at h ⊢
    simp only [Bool.true_eq_false, if_false] at h ⊢
    generalize hq : loop _ _ _ _ _ = q at h ⊢
    cases hr : q.2 with
    | none => rfl
    | some i => simp only [hr] at h; exact absurd h (by simp)


/-! ### Histories -/

/-- What `success` claims, for a result and the surface and the coils of now: one of the solvers ended on this surface, with this `iota` and this `G`, for these coils and this target. -/
def Solves (c : Cfg P S) (env : Env P) (s : S) (res : Res) : Prop :=
  res.success = true →
    c.normLS env ⟨s, res.iota, res.G⟩ ≤ c.tol ∨ c.normEx env ⟨s, res.iota, res.G⟩ ≤ c.tol ∨ (∃ lm, c.normKKT env (⟨s, res.iota, res.G⟩, lm) ≤ c.tol) ∨
      (∃ x, c.bfgs env x = (⟨s, res.iota, res.G⟩, true)) ∨ ∃ x, c.lsq env x = (⟨s, res.iota, res.G⟩, true)

/-- The same for histories with the default solvers only: the equations of the type of the surface hold to the tolerance. -/
def SolvesDefault (c : Cfg P S) (env : Env P) (s : S) (res : Res) : Prop :=
  res.plu = true ∧ (res.success = true → if c.exact then c.normEx env ⟨s, res.iota, res.G⟩ ≤ c.tol else c.normLS env ⟨s, res.iota, res.G⟩ ≤ c.tol)

/-- What a solver may do to the state. -/
def Step (Q : Env P → S → Res → Prop) (st st' : State P S) : Prop :=
  st' = st ∨ (st.need = true ∧ st'.cacheJ = st.cacheJ ∧ st'.env = st.env ∧ (st'.need = true ∨ (st'.need = false ∧ ∃ res, st'.res = some res ∧ Q st'.env st'.s res)))

/-- The flag is down only if the result is one for the coils of now, and a cached value is the one of the result. -/
def Inv (Q : Env P → S → Res → Prop) (st : State P S) : Prop :=
  (st.need = false → ∃ res, st.res = some res ∧ Q st.env st.s res) ∧ ∀ j, st.cacheJ = some j → st.need = false ∧ ∃ res, st.res = some res ∧ res.iota = j

theorem Step.inv {Q : Env P → S → Res → Prop} {st st' : State P S} (h : Step Q st st') (hi : Inv Q st) : Inv Q st' := by
  rcases h with rfl | ⟨hn, hc, _, h⟩
  · exact hi
  · have hnone : ∀ j, st'.cacheJ = some j → False := by
      intro j hj
      rw [hc] at hj
      have := (hi.2 j hj).1
      rw [hn] at this; exact absurd this (by simp)
    rcases h with h | ⟨_, h⟩
    · exact ⟨fun h0 => by rw [h] at h0; exact absurd h0 (by simp), fun j hj => (hnone j hj).elim⟩
    · exact ⟨fun _ => h, fun j hj => (hnone j hj).elim⟩

theorem Step.mono {Q Q' : Env P → S → Res → Prop} (hQ : ∀ e s r, Q e s r → Q' e s r) {st st' : State P S} (h : Step Q st st') : Step Q' st st' := by
  rcases h with rfl | ⟨hn, hc, he, h⟩
  · exact .inl rfl
  · refine .inr ⟨hn, hc, he, h.imp_right fun ⟨h1, res, h2, h3⟩ => ⟨h1, res, h2, hQ _ _ _ h3⟩⟩

theorem need_true {st : State P S} (h : ¬ st.need = false) : st.need = true := by cases hh : st.need <;> simp_all

theorem step_newtonLS (c : Cfg P S) (st : State P S) (iota : ℝ) (G : Option ℝ) :
    Step (fun e s r => r.plu = true ∧ (r.success = true → c.normLS e ⟨s, r.iota, r.G⟩ ≤ c.tol)) st (c.newtonLS st iota G).2 := by
  unfold Cfg.newtonLS
  by_cases hn : st.need = false
  · rw [if_pos hn]; exact .inl rfl
  rw [if_neg hn]
  cases hr : (loop (c.normLS st.env) (c.stepLS st.env) c.tol c.maxiter (Cfg.start st iota G)).2 with
  | none => simp only [hr]; exact .inr ⟨need_true hn, rfl, rfl, .inl (need_true hn)⟩
  | some i =>
    simp only [hr]
    refine .inr ⟨need_true hn, rfl, rfl, .inr ⟨rfl, _, rfl, rfl, ?_⟩⟩
    simp only [decide_eq_true_eq]
    exact id

theorem step_newtonEx (c : Cfg P S) (ht : c.tol < 1000000) (st : State P S) (iota : ℝ) (G : Option ℝ) :
    Step (fun e s r => r.plu = true ∧ (r.success = true → c.normEx e ⟨s, r.iota, r.G⟩ ≤ c.tol)) st (c.newtonEx st iota G).2 := by
  unfold Cfg.newtonEx
  by_cases hn : st.need = false
  · rw [if_pos hn]; exact .inl rfl
  rw [if_neg hn]
  by_cases htn : c.tensor = false
  · rw [if_pos htn]; exact .inl rfl
  rw [if_neg htn]
  cases hr : (loopEx (c.normEx st.env) (c.stepEx st.env) c.tol c.maxiter (Cfg.start st iota (some (G.getD (c.G0 st.env.coils)))) 1000000).2.1 with
  | none => simp only [hr]; exact .inr ⟨need_true hn, rfl, rfl, .inl (need_true hn)⟩
  | some i =>
    simp only [hr]
    refine .inr ⟨need_true hn, rfl, rfl, .inr ⟨rfl, _, rfl, rfl, ?_⟩⟩
    simp only [decide_eq_true_eq]
    exact (loopEx_norm _ _ _ _ ht hr).2

theorem step_newtonKKT (c : Cfg P S) (st : State P S) (iota : ℝ) (G : Option ℝ) :
    Step (fun e s r => r.success = true → ∃ lm, c.normKKT e (⟨s, r.iota, r.G⟩, lm) ≤ c.tol) st (c.newtonKKT st iota G).2 := by
  unfold Cfg.newtonKKT
  by_cases hn : st.need = false
  · rw [if_pos hn]; exact .inl rfl
  rw [if_neg hn]
  cases hr : (loop (c.normKKT st.env) (c.stepKKT st.env) c.tol c.maxiter (Cfg.start st iota G, 0, 0)).2 with
  | none => simp only [hr]; exact .inr ⟨need_true hn, rfl, rfl, .inl (need_true hn)⟩
  | some i =>
    simp only [hr]
    refine .inr ⟨need_true hn, rfl, rfl, .inr ⟨rfl, _, rfl, ?_⟩⟩
    simp only [decide_eq_true_eq]
    exact fun h => ⟨_, h⟩

theorem step_lbfgs (c : Cfg P S) (st : State P S) (iota : ℝ) (G : Option ℝ) :
    Step (fun e s r => r.success = true → ∃ x, c.bfgs e x = (⟨s, r.iota, r.G⟩, true)) st (c.lbfgs st iota G).2 := by
  unfold Cfg.lbfgs
  by_cases hn : st.need = false
  · rw [if_pos hn]; exact .inl rfl
  rw [if_neg hn]
  exact .inr ⟨need_true hn, rfl, rfl, .inr ⟨rfl, _, rfl, fun h => ⟨_, Prod.ext rfl h⟩⟩⟩

theorem step_ls (c : Cfg P S) (man : Bool) (st : State P S) (iota : ℝ) (G : Option ℝ) :
    Step (fun e s r => r.success = true → ∃ x, c.lsq e x = (⟨s, r.iota, r.G⟩, true)) st (c.ls man st iota G).2 := by
  unfold Cfg.ls
  by_cases hn : st.need = false
  · rw [if_pos hn]; exact .inl rfl
  rw [if_neg hn]
  cases man
  · exact .inr ⟨need_true hn, rfl, rfl, .inr ⟨rfl, _, rfl, fun h => ⟨_, Prod.ext rfl h⟩⟩⟩
  · exact .inr ⟨need_true hn, rfl, rfl, .inl (need_true hn)⟩

theorem step_runCode (c : Cfg P S) (ht : c.tol < 1000000) (st : State P S) (iota : ℝ) (G : Option ℝ) : Step (SolvesDefault c) st (c.runCode st iota G).2 := by
  unfold Cfg.runCode
  by_cases hn : st.need = false
  · rw [if_pos hn]; exact .inl rfl
  rw [if_neg hn]
  by_cases ha : G.isNone ∧ c.currentsFixed st.env.coils = false
  · rw [if_pos ha]; exact .inl rfl
  rw [if_neg ha]
  by_cases he : c.exact
  · rw [if_pos he]
    refine (step_newtonEx c ht st iota G).mono fun e s r h => ⟨h.1, ?_⟩
    rw [if_pos he]; exact h.2
  · rw [if_neg he]
    have hl : c.lbfgs st iota G = (.ok (some ⟨(c.bfgs st.env (Cfg.start st iota G)).1.iota, (c.bfgs st.env (Cfg.start st iota G)).1.G, (c.bfgs st.env (Cfg.start st iota G)).2, 0, false⟩), { st with s := (c.bfgs st.env (Cfg.start st iota G)).1.s, res := some ⟨(c.bfgs st.env (Cfg.start st iota G)).1.iota, (c.bfgs st.env (Cfg.start st iota G)).1.G, (c.bfgs st.env (Cfg.start st iota G)).2, 0, false⟩, need := false }) := by
      unfold Cfg.lbfgs
      rw [if_neg hn]
    simp only [hl]
    have h := step_newtonLS c { st with s := (c.bfgs st.env (Cfg.start st iota G)).1.s, res := some ⟨(c.bfgs st.env (Cfg.start st iota G)).1.iota, (c.bfgs st.env (Cfg.start st iota G)).1.G, (c.bfgs st.env (Cfg.start st iota G)).2, 0, false⟩, need := true } (c.bfgs st.env (Cfg.start st iota G)).1.iota (c.bfgs st.env (Cfg.start st iota G)).1.G
    rcases h with h | ⟨_, hc, he', h⟩
    · rw [h]
      exact .inr ⟨need_true hn, rfl, rfl, .inl rfl⟩
    · refine .inr ⟨need_true hn, hc, he', h.imp_right fun ⟨h1, res, h2, h3⟩ => ⟨h1, res, h2, h3.1, ?_⟩⟩
      rw [if_neg he]; exact h3.2

theorem default_solves (c : Cfg P S) (e : Env P) (s : S) (r : Res) (h : SolvesDefault c e s r) : Solves c e s r := by
  intro hs
  have := h.2 hs
  by_cases he : c.exact
  · rw [if_pos he] at this; exact .inr (.inl this)
  · rw [if_neg he] at this; exact .inl this

/-- What `Iotas.J` may do: it solves if needed, with the default solver; if it returns, the flag is down and the value is the `iota` of the result. -/
theorem inv_iotaJ (c : Cfg P S) (ht : c.tol < 1000000) {Q : Env P → S → Res → Prop} (hQ : ∀ e s r, SolvesDefault c e s r → Q e s r) (st : State P S) (hi : Inv Q st) :
    Inv Q (c.iotaJ st).2 ∧ (c.iotaJ st).2.env = st.env ∧ ∀ j, (c.iotaJ st).1 = .ok j → (c.iotaJ st).2.need = false ∧ ∃ res, (c.iotaJ st).2.res = some res ∧ res.iota = j := by
  unfold Cfg.iotaJ
  cases hc : st.cacheJ with
  | some j =>
    simp only [hc]
    exact ⟨hi, trivial, fun j' hj => by rw [← Except.ok.inj hj]; exact hi.2 j hc⟩
  | none =>
    simp only [hc]
    have fin : ∀ st' : State P S, Inv Q st' → st'.need = false → st'.env = st.env →
        let out : Except Err ℝ × State P S := match st'.res with
          | none => (.error .attribute, st')
          | some res => if res.plu = true then (.ok res.iota, { st' with cacheJ := some res.iota }) else (.error .key, { st' with cacheJ := some res.iota })
        Inv Q out.2 ∧ out.2.env = st.env ∧ ∀ j, out.1 = .ok j → out.2.need = false ∧ ∃ res, out.2.res = some res ∧ res.iota = j := by
      intro st' hi' hn' he'
      dsimp only
      cases hr : st'.res with
      | none => exact ⟨hi', he', fun j hj => absurd hj (by simp)⟩
      | some res =>
        have hI : Inv Q { st' with cacheJ := some res.iota } := by
          refine ⟨hi'.1, fun j hj => ⟨hn', res, hr, ?_⟩⟩
          exact Option.some.inj hj
        rw [hr] at hI
        by_cases hp : res.plu = true
        · simp only [if_pos hp]
          exact ⟨hI, he', fun j hj => ⟨hn', res, rfl, Except.ok.inj hj⟩⟩
        · simp only [if_neg hp]
          exact ⟨hI, he', fun j hj => absurd hj (by simp)⟩
    by_cases hn : st.need = true
    · simp only [if_pos hn]
      cases hr : st.res with
      | none => simp only [hr]; exact ⟨hi, trivial, fun j hj => absurd hj (by simp)⟩
      | some res =>
        simp only [hr]
        have hs := step_runCode c ht st res.iota res.G
        have hI := (hs.mono hQ).inv hi
        have hE : (c.runCode st res.iota res.G).2.env = st.env := by
          rcases hs with h | ⟨_, _, h, _⟩
          · rw [h]
          · exact h
        cases hv : c.runCode st res.iota res.G with
        | mk o st' =>
          rw [hv] at hI hE hs
          cases o with
          | error e => exact ⟨hI, hE, fun j hj => absurd hj (by simp)⟩
          | ok v =>
            have hnf : st'.need = false := by
              -- a solve that returns lowers the flag
              by_contra hne
              have hv1 : (c.runCode st res.iota res.G).1 = .ok v := by rw [hv]
              have hv2 : (c.runCode st res.iota res.G).2 = st' := by rw [hv]
              clear fin hI hE hs
              have hnn : ¬ st.need = false := by rw [hn]; simp
              unfold Cfg.runCode at hv1 hv2
              rw [if_neg hnn] at hv1 hv2
              by_cases ha : res.G.isNone ∧ c.currentsFixed st.env.coils = false
              · rw [if_pos ha] at hv1; exact absurd hv1 (by simp)
              rw [if_neg ha] at hv1 hv2
              by_cases he : c.exact
              · rw [if_pos he] at hv1 hv2
                obtain ⟨_, _, _, h3, _⟩ := C117_exact_newton c st res.iota res.G hn ht v hv1
                exact hne (by rw [← hv2]; exact h3)
              · rw [if_neg he] at hv1 hv2
                have hl : c.lbfgs st res.iota res.G = (.ok (some ⟨(c.bfgs st.env (Cfg.start st res.iota res.G)).1.iota, (c.bfgs st.env (Cfg.start st res.iota res.G)).1.G, (c.bfgs st.env (Cfg.start st res.iota res.G)).2, 0, false⟩), { st with s := (c.bfgs st.env (Cfg.start st res.iota res.G)).1.s, res := some ⟨(c.bfgs st.env (Cfg.start st res.iota res.G)).1.iota, (c.bfgs st.env (Cfg.start st res.iota res.G)).1.G, (c.bfgs st.env (Cfg.start st res.iota res.G)).2, 0, false⟩, need := false }) := by
                  unfold Cfg.lbfgs
                  rw [if_neg hnn]
                simp only [hl] at hv1 hv2
                obtain ⟨_, _, _, h3, _⟩ := C117_penalty_newton c _ _ _ rfl v hv1
                exact hne (by rw [← hv2]; exact h3)
            exact fin st' hI hnf hE
    · simp only [if_neg hn]
      exact fin st hi (by cases hh : st.need <;> simp_all) rfl

/-- The operations that do not change the surface or the target behind the back of the Boozer surface. -/
def Op.Fair : Op P S → Prop
  | .setSurface _ => False
  | .setTarget _ => False
  | _ => True

/-- The operations of a user of the default solvers. -/
def Op.Default : Op P S → Prop
  | .setCoils _ => True
  | .runCode _ _ => True
  | .iotaJ => True
  | _ => False

theorem inv_exec (c : Cfg P S) (ht : c.tol < 1000000) (st : State P S) (op : Op P S) (hf : op.Fair) (hi : Inv (Solves c) st) : Inv (Solves c) (c.exec st op) := by
  cases op with
  | setCoils p => exact ⟨fun h => absurd h (by simp [Cfg.exec]), fun j h => absurd h (by simp [Cfg.exec])⟩
  | setSurface s => exact hf.elim
  | setTarget l => exact hf.elim
  | newtonLS iota G => exact ((step_newtonLS c st iota G).mono fun _ _ _ h hs => .inl (h.2 hs)).inv hi
  | lbfgs iota G => exact ((step_lbfgs c st iota G).mono fun _ _ _ h hs => .inr (.inr (.inr (.inl (h hs))))).inv hi
  | ls man iota G => exact ((step_ls c man st iota G).mono fun _ _ _ h hs => .inr (.inr (.inr (.inr (h hs))))).inv hi
  | newtonKKT iota G => exact ((step_newtonKKT c st iota G).mono fun _ _ _ h hs => .inr (.inr (.inl (h hs)))).inv hi
  | newtonEx iota G => exact ((step_newtonEx c ht st iota G).mono fun _ _ _ h hs => .inr (.inl (h.2 hs))).inv hi
  | runCode iota G => exact ((step_runCode c ht st iota G).mono (default_solves c)).inv hi
  | iotaJ => exact (inv_iotaJ c ht (default_solves c) st hi).1

theorem inv_exec_default (c : Cfg P S) (ht : c.tol < 1000000) (st : State P S) (op : Op P S) (hf : op.Default) (hi : Inv (SolvesDefault c) st) : Inv (SolvesDefault c) (c.exec st op) := by
  cases op with
  | setCoils p => exact ⟨fun h => absurd h (by simp [Cfg.exec]), fun j h => absurd h (by simp [Cfg.exec])⟩
  | runCode iota G => exact (step_runCode c ht st iota G).inv hi
  | iotaJ => exact (inv_iotaJ c ht (fun _ _ _ h => h) st hi).1
  | _ => exact hf.elim

theorem inv_init (Q : Env P → S → Res → Prop) (env : Env P) (s : S) : Inv Q (init env s) :=
  ⟨fun h => absurd h (by simp [init]), fun j h => absurd h (by simp [init])⟩

/-- **C117.** After every history of changes of the coils and calls of any of the solvers and of `Iotas.J`, in any order and whether they returned or raised: if the Boozer surface says that it need not be solved, the stored result is there, and if its `success` is true the surface held now, with the
stored `iota` and `G`, solves the equations for the coils of now. -/
theorem C117_history (c : Cfg P S) (ht : c.tol < 1000000) (env : Env P) (s : S) (ops : List (Op P S)) (hf : ∀ op ∈ ops, op.Fair) (hn : (c.run (init env s) ops).need = false) :
    ∃ res, (c.run (init env s) ops).res = some res ∧ Solves c (c.run (init env s) ops).env (c.run (init env s) ops).s res := by
  have key : ∀ (ops : List (Op P S)) (st : State P S), (∀ op ∈ ops, op.Fair) → Inv (Solves c) st → Inv (Solves c) (c.run st ops) := by
    intro ops
    induction ops with
    | nil => intro st _ hi; exact hi
    | cons op ops ih =>
      intro st hf hi
      exact ih _ (fun o ho => hf o (List.mem_cons_of_mem _ ho)) (inv_exec c ht st op (hf op List.mem_cons_self) hi)
  exact (key ops (init env s) hf (inv_init _ env s)).1 hn

/-- **C118.** For a user of the default solvers: after every history of changes of the coils, of `run_code` and of `Iotas.J()`, a call of `Iotas.J()` that returns gives the `iota` of a result that is the one of the coils of now: the flag is down, and if `success` is true the equations of the type
of the surface (least-squares or exact) hold to the tolerance at the surface held now, with that `iota`. -/
theorem C118_iotas (c : Cfg P S) (ht : c.tol < 1000000) (env : Env P) (s : S) (ops : List (Op P S)) (hf : ∀ op ∈ ops, op.Default) (j : ℝ) (hj : (c.iotaJ (c.run (init env s) ops)).1 = .ok j) :
    let st' := (c.iotaJ (c.run (init env s) ops)).2
    st'.env = (c.run (init env s) ops).env ∧ st'.need = false ∧ ∃ res, st'.res = some res ∧ res.iota = j ∧
      (res.success = true → if c.exact then c.normEx st'.env ⟨st'.s, j, res.G⟩ ≤ c.tol else c.normLS st'.env ⟨st'.s, j, res.G⟩ ≤ c.tol) := by
  have key : ∀ (ops : List (Op P S)) (st : State P S), (∀ op ∈ ops, op.Default) → Inv (SolvesDefault c) st → Inv (SolvesDefault c) (c.run st ops) := by
    intro ops
    induction ops with
    | nil => intro st _ hi; exact hi
    | cons op ops ih =>
      intro st hf hi
      exact ih _ (fun o ho => hf o (List.mem_cons_of_mem _ ho)) (inv_exec_default c ht st op (hf op List.mem_cons_self) hi)
  intro st'
  obtain ⟨hi, he, h⟩ := inv_iotaJ c ht (fun _ _ _ h => h) _ (key ops (init env s) hf (inv_init _ env s))
  obtain ⟨hn, res, hr, hj'⟩ := h j hj
  obtain ⟨res', hr', hq⟩ := hi.1 hn
  rw [hr] at hr'
  obtain rfl := Option.some.inj hr'
  refine ⟨he, hn, res, hr, hj', ?_⟩
  rw [← hj']
  exact hq.2

end Simsopt.BSurf.Solve
