import Verif.Boozer.Solve

/-!
# What the solvers of a Boozer surface do not do (C117, C118), and examples
-/
namespace Simsopt.BSurf.Solve
variable {P S : Type}

/-- A toy problem: the surface has one dof, and the solution is the dof of the coils plus the target. -/
noncomputable def toy (exact : Bool) (maxiter : ℕ) : Cfg ℝ ℝ where
  exact := exact
  tensor := true
  tol := 0
  maxiter := maxiter
  G0 := fun _ => 1
  currentsFixed := fun _ => true
  normLS := fun e x => |x.s - (e.coils + e.target)|
  stepLS := fun e x => some ⟨e.coils + e.target, 2 * (e.coils + e.target), x.G⟩
  normEx := fun e x => |x.s - (e.coils + e.target)|
  stepEx := fun e x => some ⟨e.coils + e.target, 2 * (e.coils + e.target), x.G⟩
  normKKT := fun e x => |x.1.s - (e.coils + e.target)|
  stepKKT := fun e x => some (⟨e.coils + e.target, 2 * (e.coils + e.target), x.1.G⟩, x.2)
  bfgs := fun _ x => (x, true)
  lsq := fun _ x => (x, true)
  manual := fun _ x => (x, true)

/-- The toy problem with a starting surface that is not the solution. -/
def toy0 : State ℝ ℝ := init ⟨1, 0⟩ 0

theorem toy_ls : (toy false 5).runCode toy0 0 none = (.ok (some ⟨2, none, true, 1, true⟩), ⟨⟨1, 0⟩, 1, false, some ⟨2, none, true, 1, true⟩, none⟩) := by
  simp [Cfg.runCode, Cfg.lbfgs, Cfg.newtonLS, toy, toy0, init, Cfg.start, loop]

theorem toy_exact : (toy true 5).runCode toy0 0 none = (.ok (some ⟨2, some 1, true, 1, true⟩), ⟨⟨1, 0⟩, 1, false, some ⟨2, some 1, true, 1, true⟩, none⟩) := by
  simp [Cfg.runCode, Cfg.newtonEx, toy, toy0, init, Cfg.start, loopEx, show ¬ ((1:ℝ) ≤ 0) by norm_num]

/-- The hypotheses of `C117_history` are met with the flag down and `success`. -/
example : (∀ op ∈ [Op.runCode 0 none, Op.iotaJ], (op : Op ℝ ℝ).Default ∧ op.Fair) ∧ ((toy true 5).run toy0 [.runCode 0 none]).need = false ∧ (toy true 5).tol < 1000000 := by
  refine ⟨?_, ?_, ?_⟩
  · intro op h
    simp only [List.mem_cons, List.not_mem_nil, or_false] at h
    rcases h with rfl | rfl <;> exact ⟨trivial, trivial⟩
  · simp [Cfg.run, Cfg.exec, toy_exact]
  · simp [toy]

/-- After a change of the coils, `Iotas.J()` solves again and returns the new value. -/
theorem toy_recompute : ((toy true 5).iotaJ ((toy true 5).run toy0 [.runCode 0 none, .iotaJ, .setCoils 3])).1 = .ok 6 := by
  have h1 : (toy true 5).run toy0 [.runCode 0 none, .iotaJ, .setCoils 3] = ⟨⟨3, 0⟩, 1, true, some ⟨2, some 1, true, 1, true⟩, none⟩ := by
    simp [Cfg.run, Cfg.exec, toy_exact, Cfg.iotaJ]
  rw [h1]
  simp [Cfg.iotaJ, Cfg.runCode, Cfg.newtonEx, toy, Cfg.start, loopEx]
  norm_num

/-- **C117.** A second call of `run_code` returns `None`, and not the stored result, which the solvers themselves return. -/
theorem C117_second_run_code (c : Cfg P S) (st : State P S) (iota : ℝ) (G : Option ℝ) (h : st.need = false) :
    c.runCode st iota G = (.ok none, st) ∧ c.newtonLS st iota G = (.ok st.res, st) ∧ c.lbfgs st iota G = (.ok st.res, st) ∧ c.newtonEx st iota G = (.ok st.res, st) ∧ c.newtonKKT st iota G = (.ok st.res, st) ∧ ∀ man, c.ls man st iota G = (.ok st.res, st) := by
  simp [Cfg.runCode, Cfg.newtonLS, Cfg.lbfgs, Cfg.newtonEx, Cfg.newtonKKT, Cfg.ls, h]

/-- **C117, violated.** The same claim as `C117_history` is false when the target label is changed, or the surface: the flag stays down, the stored result still says `success`, and no solver runs. -/
theorem C117_target_unnoticed_violated :
    ¬ ∀ (c : Cfg ℝ ℝ) (env : Env ℝ) (s : ℝ) (ops : List (Op ℝ ℝ)), c.tol < 1000000 → (∀ op ∈ ops, op.Default ∨ ∃ l, op = .setTarget l) → (c.run (init env s) ops).need = false →
      ∃ res, (c.run (init env s) ops).res = some res ∧ SolvesDefault c (c.run (init env s) ops).env (c.run (init env s) ops).s res := by
  intro h
  have h1 : (toy true 5).run toy0 [.runCode 0 none, .setTarget 7] = ⟨⟨1, 7⟩, 1, false, some ⟨2, some 1, true, 1, true⟩, none⟩ := by
    simp [Cfg.run, Cfg.exec, toy_exact]
  obtain ⟨res, hr, _, hq⟩ := h (toy true 5) ⟨1, 0⟩ 0 [.runCode 0 none, .setTarget 7] (by simp [toy]) (by
    intro op ho
    simp only [List.mem_cons, List.not_mem_nil, or_false] at ho
    rcases ho with rfl | rfl
    · exact .inl trivial
    · exact .inr ⟨7, rfl⟩) (by show ((toy true 5).run toy0 _).need = false; rw [h1])
  change ((toy true 5).run toy0 _).res = _ at hr
  rw [h1] at hr
  obtain rfl := Option.some.inj hr
  have := hq rfl
  change if (toy true 5).exact = true then (toy true 5).normEx ((toy true 5).run toy0 _).env ⟨((toy true 5).run toy0 _).s, _, _⟩ ≤ _ else _ at this
  rw [h1] at this
  simp only [toy, if_true] at this
  norm_num at this

theorem C117_surface_unnoticed_violated :
    ¬ ∀ (c : Cfg ℝ ℝ) (env : Env ℝ) (s : ℝ) (ops : List (Op ℝ ℝ)), c.tol < 1000000 → (∀ op ∈ ops, op.Default ∨ ∃ l, op = .setSurface l) → (c.run (init env s) ops).need = false →
      ∃ res, (c.run (init env s) ops).res = some res ∧ SolvesDefault c (c.run (init env s) ops).env (c.run (init env s) ops).s res := by
  intro h
  have h1 : (toy true 5).run toy0 [.runCode 0 none, .setSurface 7] = ⟨⟨1, 0⟩, 7, false, some ⟨2, some 1, true, 1, true⟩, none⟩ := by
    simp [Cfg.run, Cfg.exec, toy_exact]
  obtain ⟨res, hr, _, hq⟩ := h (toy true 5) ⟨1, 0⟩ 0 [.runCode 0 none, .setSurface 7] (by simp [toy]) (by
    intro op ho
    simp only [List.mem_cons, List.not_mem_nil, or_false] at ho
    rcases ho with rfl | rfl
    · exact .inl trivial
    · exact .inr ⟨7, rfl⟩) (by show ((toy true 5).run toy0 _).need = false; rw [h1])
  change ((toy true 5).run toy0 _).res = _ at hr
  rw [h1] at hr
  obtain rfl := Option.some.inj hr
  have := hq rfl
  change if (toy true 5).exact = true then (toy true 5).normEx ((toy true 5).run toy0 _).env ⟨((toy true 5).run toy0 _).s, _, _⟩ ≤ _ else _ at this
  rw [h1] at this
  simp only [toy, if_true] at this
  norm_num at this

/-- **C117, violated.** For the exact solver `success` is not equivalent to the equations holding at the surface that is left: after the last permitted step the norm is not computed again, so that a solve that converges in exactly `maxiter` steps says that it failed. -/
theorem C117_exact_success_violated :
    ¬ ∀ (c : Cfg ℝ ℝ) (st : State ℝ ℝ) (iota : ℝ) (G : Option ℝ) (res : Res), st.need = true → (c.newtonEx st iota G).1 = .ok (some res) →
      (res.success = true ↔ c.normEx st.env ⟨(c.newtonEx st iota G).2.s, res.iota, res.G⟩ ≤ c.tol) := by
  intro h
  have h1 : (toy true 1).newtonEx toy0 0 none = (.ok (some ⟨2, some 1, false, 1, true⟩), ⟨⟨1, 0⟩, 1, false, some ⟨2, some 1, false, 1, true⟩, none⟩) := by
    simp [Cfg.newtonEx, toy, toy0, init, Cfg.start, loopEx, show ¬ ((1:ℝ) ≤ 0) by norm_num]
  have := h (toy true 1) toy0 0 none ⟨2, some 1, false, 1, true⟩ rfl (by rw [h1])
  rw [h1] at this
  simp [toy, toy0, init] at this

/-- **C118, violated.** After a solve with `minimize_boozer_penalty_constraints_LBFGS` (or `_ls`, or `minimize_boozer_exact_constraints_newton`), whose results have no `PLU`, `Iotas.J()` raises a `KeyError`, although the value is known; and it has stored the value, which the next call returns. -/
theorem C118_key_error_violated (c : Cfg P S) (env : Env P) (s : S) (iota : ℝ) (G : Option ℝ) :
    let st := c.run (init env s) [.lbfgs iota G]
    st.need = false ∧ (c.iotaJ st).1 = .error .key ∧ (c.iotaJ (c.iotaJ st).2).1 = .ok (c.bfgs env ⟨s, iota, G⟩).1.iota := by
  simp [Cfg.run, Cfg.exec, Cfg.lbfgs, init, Cfg.iotaJ, Cfg.start]

/-- **C118, violated.** Before any solve, `Iotas.J()` raises an `AttributeError` instead of solving. -/
theorem C118_not_solved_violated (c : Cfg P S) (env : Env P) (s : S) : (c.iotaJ (init env s)).1 = .error .attribute := by
  simp [Cfg.iotaJ, init]

end Simsopt.BSurf.Solve
