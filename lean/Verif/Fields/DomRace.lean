import Verif.Fields.DomProps
/-!
# C105: the threads of the Dommaschk kernels

Model of the parallel loop over the evaluation points in `DommaschkB` and `DommaschkdB` (src/simsoptpp/dommaschk.cpp L482-494, L510-530), for one row of coefficients.  The variables `x, y, z, R, phi, cosphi, sinphi` are declared before the loop (L475, L503),
so that they are shared by the threads of `#pragma omp parallel for`.  Each iteration assigns them one after the other and then writes its entries of the output.  The iterations are distributed over threads, each of which executes its own in increasing
order; the threads are interleaved statement by statement (sequential consistency, the strongest memory model; the C++ standard calls the race undefined behaviour).
-/
namespace Simsopt.Fields.Dom.Race

/-- The shared variables (L475, L503). -/
structure Loc where
  x : ℝ
  y : ℝ
  z : ℝ
  R : ℝ
  phi : ℝ
  cosphi : ℝ
  sinphi : ℝ

/-- The statement number `k` of the first seven of the body (L484-490, L512-518). -/
noncomputable def assign (p : P3) (k : ℕ) (v : Loc) : Loc :=
  match k with
  | 0 => { v with x := p 0 }
  | 1 => { v with y := p 1 }
  | 2 => { v with z := p 2 }
  | 3 => { v with R := √(v.x * v.x + v.y * v.y) }
  | 4 => { v with phi := arctan2 v.y v.x }
  | 5 => { v with cosphi := v.x / v.R }
  | _ => { v with sinphi := v.y / v.R }

/-- The values which the three last statements of the body of `DommaschkB` write (L491-493). -/
noncomputable def emitB (w : Mode) : List (Loc → ℝ) :=
  [fun v => w.BR v.R v.z v.phi * v.cosphi - w.Bphi v.R v.z v.phi * v.sinphi,
   fun v => w.BR v.R v.z v.phi * v.sinphi + w.Bphi v.R v.z v.phi * v.cosphi,
   fun v => w.BZ v.R v.z v.phi]

/-- The values which the nine last statements of the body of `DommaschkdB` write (L519-527). -/
noncomputable def emitdB (w : Mode) : List (Loc → ℝ) :=
  [fun v => w.dRBR v.R v.z v.phi * v.cosphi * v.cosphi - (w.dphiBR v.R v.z v.phi - w.Bphi v.R v.z v.phi + w.dRBphi v.R v.z v.phi * v.R) * v.cosphi * v.sinphi / v.R + v.sinphi * v.sinphi * (w.dphiBphi v.R v.z v.phi + w.BR v.R v.z v.phi) / v.R,
   fun v => v.sinphi * v.cosphi * (w.dRBR v.R v.z v.phi * v.R - w.dphiBphi v.R v.z v.phi - w.BR v.R v.z v.phi) / v.R + v.sinphi * v.sinphi * (w.Bphi v.R v.z v.phi - w.dphiBR v.R v.z v.phi) / v.R + v.cosphi * v.cosphi * w.dRBphi v.R v.z v.phi,
   fun v => w.dRBZ v.R v.z v.phi * v.cosphi - w.dphiBZ v.R v.z v.phi * v.sinphi / v.R,
   fun v => v.sinphi * v.cosphi * (w.dRBR v.R v.z v.phi * v.R - w.dphiBphi v.R v.z v.phi - w.BR v.R v.z v.phi) / v.R + v.cosphi * v.cosphi * (w.dphiBR v.R v.z v.phi - w.Bphi v.R v.z v.phi) / v.R - v.sinphi * v.sinphi * w.dRBphi v.R v.z v.phi,
   fun v => w.dRBR v.R v.z v.phi * v.sinphi * v.sinphi + (w.dphiBR v.R v.z v.phi - w.Bphi v.R v.z v.phi + w.dRBphi v.R v.z v.phi * v.R) * v.cosphi * v.sinphi / v.R + v.cosphi * v.cosphi * (w.dphiBphi v.R v.z v.phi + w.BR v.R v.z v.phi) / v.R,
   fun v => w.dRBZ v.R v.z v.phi * v.sinphi + w.dphiBZ v.R v.z v.phi * v.cosphi / v.R,
   fun v => w.dZBR v.R v.z v.phi * v.cosphi - w.dZBphi v.R v.z v.phi * v.sinphi,
   fun v => w.dZBR v.R v.z v.phi * v.sinphi + w.dZBphi v.R v.z v.phi * v.cosphi,
   fun v => w.dZBZ v.R v.z v.phi]

/-- The memory and the number of statements each iteration has executed. -/
structure St where
  loc : Loc
  out : ℕ → ℕ → ℝ
  pc : ℕ → ℕ

/-- The next statement of the iteration `i`. -/
noncomputable def step (emit : List (Loc → ℝ)) (pts : ℕ → P3) (i : ℕ) (s : St) : St :=
  if s.pc i < 7 then ⟨assign (pts i) (s.pc i) s.loc, s.out, Function.update s.pc i (s.pc i + 1)⟩
  else ⟨s.loc, Function.update s.out i (Function.update (s.out i) (s.pc i - 7) ((emit.getD (s.pc i - 7) fun _ => 0) s.loc)), Function.update s.pc i (s.pc i + 1)⟩

/-- The reachable states of the parallel loop over `n` points, with the iteration `i` executed by the thread `thr i`. -/
inductive Run (emit : List (Loc → ℝ)) (n : ℕ) (thr : ℕ → ℕ) (pts : ℕ → P3) : St → Prop
  | start (loc : Loc) (out : ℕ → ℕ → ℝ) : Run emit n thr pts ⟨loc, out, fun _ => 0⟩
  | next {s : St} (i : ℕ) (hi : i < n) (hpc : s.pc i < 7 + emit.length) (hord : ∀ j < i, thr j = thr i → s.pc j = 7 + emit.length) : Run emit n thr pts s → Run emit n thr pts (step emit pts i s)

/-- The loop is finished. -/
def Finished (emit : List (Loc → ℝ)) (n : ℕ) (s : St) : Prop := ∀ i < n, s.pc i = 7 + emit.length

/-- Specification: the output has the field of every point. -/
def RightB (w : Mode) (n : ℕ) (pts : ℕ → P3) (s : St) : Prop := ∀ i < n, ∀ l : Fin 3, s.out i l = w.B (pts i) l
def RightdB (w : Mode) (n : ℕ) (pts : ℕ → P3) (s : St) : Prop := ∀ i < n, ∀ j l : Fin 3, s.out i (3 * j + l) = w.dB (pts i) j l

/-! ## One thread -/

/-- The first `k` variables have the values of the point. -/
def Agree (p : P3) (k : ℕ) (v : Loc) : Prop :=
  (0 < k → v.x = p 0) ∧ (1 < k → v.y = p 1) ∧ (2 < k → v.z = p 2) ∧ (3 < k → v.R = √(p 0 * p 0 + p 1 * p 1)) ∧ (4 < k → v.phi = arctan2 (p 1) (p 0)) ∧ (5 < k → v.cosphi = p 0 / √(p 0 * p 0 + p 1 * p 1)) ∧
  (6 < k → v.sinphi = p 1 / √(p 0 * p 0 + p 1 * p 1))

/-- The values for a point. -/
noncomputable def locOf (p : P3) : Loc := ⟨p 0, p 1, p 2, √(p 0 * p 0 + p 1 * p 1), arctan2 (p 1) (p 0), p 0 / √(p 0 * p 0 + p 1 * p 1), p 1 / √(p 0 * p 0 + p 1 * p 1)⟩

theorem agree_assign {p : P3} {k : ℕ} {v : Loc} (hk : k < 7) (h : Agree p k v) : Agree p (k + 1) (assign p k v) := by
  obtain ⟨h0, h1, h2, h3, h4, h5, h6⟩ := h
  interval_cases k <;> simp only [Agree, assign] <;> simp_all

theorem agree_all {p : P3} {k : ℕ} {v : Loc} (hk : 7 ≤ k) (h : Agree p k v) : v = locOf p := by
  obtain ⟨h0, h1, h2, h3, h4, h5, h6⟩ := h
  cases v
  simp only [locOf, Loc.mk.injEq]
  exact ⟨h0 (by omega), h1 (by omega), h2 (by omega), h3 (by omega), h4 (by omega), h5 (by omega), h6 (by omega)⟩

theorem one_thread_inv {emit : List (Loc → ℝ)} {n : ℕ} {thr : ℕ → ℕ} (hthr : ∀ i < n, ∀ j < n, thr i = thr j) {pts : ℕ → P3} {s : St} (h : Run emit n thr pts s) :
    (∀ i, s.pc i ≤ 7 + emit.length) ∧ (∀ i, n ≤ i → s.pc i = 0) ∧ (∀ i, 0 < s.pc i → ∀ j < i, s.pc j = 7 + emit.length) ∧ (∀ i, s.pc i < 7 + emit.length → Agree (pts i) (s.pc i) s.loc) ∧ (∀ i c, c < s.pc i - 7 → s.out i c = (emit.getD c fun _ => 0) (locOf (pts i))) := by
  induction h with
  | start loc out => exact ⟨by simp, by simp, by simp, fun i _ => by simp [Agree], by simp⟩
  | @next s i hi hpc hord _ ih =>
    obtain ⟨h1, h2, h3, h4, h5⟩ := ih
    have hdone : ∀ j < i, s.pc j = 7 + emit.length := fun j hj => hord j hj (hthr j (by omega) i hi)
    have hlate : ∀ j, i < j → s.pc j = 0 := by
      intro j hj
      by_contra h0
      have := h3 j (by omega) i hj
      omega
    have hpc' : ∀ j, (step emit pts i s).pc j = if j = i then s.pc i + 1 else s.pc j := by
      intro j
      unfold step
      split <;> simp [Function.update_apply]
    refine ⟨?_, ?_, ?_, ?_, ?_⟩
    · intro j
      rw [hpc']
      split
      · omega
      · exact h1 j
    · intro j hj
      rw [hpc', if_neg (by omega)]
      exact h2 j hj
    · intro j hj k hk
      rw [hpc'] at hj
      rw [hpc']
      by_cases hji : j = i
      · subst hji
        rw [if_neg (by omega)]
        exact hdone k hk
      · rw [if_neg hji] at hj
        have hlt : j < i := by
          by_contra hge
          have := hlate j (by omega)
          omega
        rw [if_neg (by omega)]
        exact h3 j hj k hk
    · intro j hj
      rw [hpc'] at hj ⊢
      by_cases hji : j = i
      · subst hji
        rw [if_pos rfl] at hj ⊢
        by_cases h7 : s.pc j < 7
        · simp only [step, if_pos h7]
          exact agree_assign h7 (h4 j hpc)
        · simp only [step, if_neg h7]
          have := h4 j hpc
          simp only [Agree] at this ⊢
          exact ⟨fun _ => this.1 (by omega), fun _ => this.2.1 (by omega), fun _ => this.2.2.1 (by omega), fun _ => this.2.2.2.1 (by omega), fun _ => this.2.2.2.2.1 (by omega), fun _ => this.2.2.2.2.2.1 (by omega), fun _ => this.2.2.2.2.2.2 (by omega)⟩
      · rw [if_neg hji] at hj ⊢
        have h0 : s.pc j = 0 := by
          by_contra h0
          rcases lt_trichotomy j i with hl | hl | hl
          · have := hdone j hl; omega
          · exact hji hl
          · exact h0 (hlate j hl)
        rw [h0]
        simp [Agree]
    · intro j c hc
      rw [hpc'] at hc
      by_cases hji : j = i
      · subst hji
        rw [if_pos rfl] at hc
        by_cases h7 : s.pc j < 7
        · omega
        · simp only [step, if_neg h7, Function.update_self]
          by_cases hcl : c = s.pc j - 7
          · subst hcl
            rw [Function.update_self, agree_all (by omega) (h4 j hpc)]
          · rw [Function.update_of_ne hcl]
            exact h5 j c (by omega)
      · rw [if_neg hji] at hc
        have : (step emit pts i s).out j = s.out j := by
          unfold step
          split
          · rfl
          · exact Function.update_of_ne hji _ _
        rw [this]
        exact h5 j c hc

/-- **C105 (part).** With one thread, every finished execution has the field of every point in its output, whatever the number of points and the initial contents of the shared variables and of the output. -/
theorem C105_one_thread_B_partial (w : Mode) (n : ℕ) (thr : ℕ → ℕ) (hthr : ∀ i < n, ∀ j < n, thr i = thr j) (pts : ℕ → P3) (s : St) (h : Run (emitB w) n thr pts s) (hf : Finished (emitB w) n s) : RightB w n pts s := by
  obtain ⟨_, _, _, _, h5⟩ := one_thread_inv hthr h
  intro i hi l
  rw [h5 i l (by rw [hf i hi]; simp [emitB])]
  fin_cases l <;> rfl

theorem C105_one_thread_dB_partial (w : Mode) (n : ℕ) (thr : ℕ → ℕ) (hthr : ∀ i < n, ∀ j < n, thr i = thr j) (pts : ℕ → P3) (s : St) (h : Run (emitdB w) n thr pts s) (hf : Finished (emitdB w) n s) : RightdB w n pts s := by
  obtain ⟨_, _, _, _, h5⟩ := one_thread_inv hthr h
  intro i hi j l
  rw [h5 i (3 * j + l) (by rw [hf i hi]; simp [emitdB]; omega)]
  fin_cases j <;> fin_cases l <;> rfl

/-! ## Two threads -/

/-- Execute the statements of the iterations of a list. -/
noncomputable def exec (emit : List (Loc → ℝ)) (pts : ℕ → P3) (l : List ℕ) (s : St) : St := l.foldl (fun s i => step emit pts i s) s

/-- **C105 (violation).** With two threads, for any two points there is a finished execution of `DommaschkB` that returns the field of the second point for the first one too. -/
theorem C105_race_violated (w : Mode) (pts : ℕ → P3) : ∃ s, Run (emitB w) 2 id pts s ∧ Finished (emitB w) 2 s ∧ ∀ l : Fin 3, s.out 0 l = w.B (pts 1) l := by
  have hpc : ∀ (i : ℕ) (s : St), (step (emitB w) pts i s).pc = Function.update s.pc i (s.pc i + 1) := by
    intro i s; unfold step; split <;> rfl
  have hlen : (emitB w).length = 3 := rfl
  have hnext : ∀ {s : St} (i : ℕ), i < 2 → s.pc i < 10 → Run (emitB w) 2 id pts s → Run (emitB w) 2 id pts (step (emitB w) pts i s) := by
    intro s i hi hp h
    exact Run.next i hi (by rw [hlen]; omega) (fun j hj he => absurd he (by simp only [id]; omega)) h
  have hrep : ∀ (k i : ℕ) (s : St), i < 2 → s.pc i + k ≤ 10 → Run (emitB w) 2 id pts s → Run (emitB w) 2 id pts (exec (emitB w) pts (List.replicate k i) s) ∧ (exec (emitB w) pts (List.replicate k i) s).pc = Function.update s.pc i (s.pc i + k) := by
    intro k
    induction k with
    | zero => intro i s hi hp h; exact ⟨h, by simp [exec]⟩
    | succ k ih =>
      intro i s hi hp h
      have := ih i (step (emitB w) pts i s) hi (by rw [hpc, Function.update_self]; omega) (hnext i hi (by omega) h)
      rw [hpc] at this
      refine ⟨this.1, ?_⟩
      simp only [exec, List.replicate_succ, List.foldl_cons] at this ⊢
      rw [this.2]
      simp only [Function.update_self, Function.update_idem]
      congr 1
      omega
  -- the values of the shared variables after the seven assignments of an iteration
  have hseven : ∀ (i : ℕ) (s : St), s.pc i = 0 → (exec (emitB w) pts (List.replicate 7 i) s).loc = locOf (pts i) := by
    intro i s h0
    simp only [exec, List.replicate, List.foldl_cons, List.foldl_nil, step, h0, Function.update_self, Function.update_idem]
    simp [assign, locOf]
  set s0 : St := ⟨⟨0, 0, 0, 0, 0, 0, 0⟩, fun _ _ => 0, fun _ => 0⟩ with hs0
  obtain ⟨r1, p1⟩ := hrep 7 0 s0 (by omega) (by simp [hs0]) (Run.start _ _)
  set s1 := exec (emitB w) pts (List.replicate 7 0) s0 with hs1
  obtain ⟨r2, p2⟩ := hrep 7 1 s1 (by omega) (by rw [p1]; simp [hs0]) r1
  have l2 := hseven 1 s1 (by rw [p1]; simp [hs0])
  set s2 := exec (emitB w) pts (List.replicate 7 1) s1 with hs2
  obtain ⟨r3, p3⟩ := hrep 3 1 s2 (by omega) (by rw [p2, p1]; simp [hs0]) r2
  have hemit : ∀ (i : ℕ) (s : St), s.pc i = 7 → (exec (emitB w) pts (List.replicate 3 i) s).loc = s.loc ∧ ∀ l : Fin 3, (exec (emitB w) pts (List.replicate 3 i) s).out i l = ((emitB w).getD l fun _ => 0) s.loc := by
    intro i s h7
    simp only [exec, List.replicate, List.foldl_cons, List.foldl_nil, step, h7, Function.update_self, Function.update_idem]
    norm_num
    intro l
    fin_cases l <;> simp
  obtain ⟨l3, _⟩ := hemit 1 s2 (by rw [p2, p1]; simp [hs0])
  set s3 := exec (emitB w) pts (List.replicate 3 1) s2 with hs3
  have q3 : s3.pc 0 = 7 := by rw [p3, p2, p1]; simp [hs0]
  obtain ⟨r4, p4⟩ := hrep 3 0 s3 (by omega) (by omega) r3
  obtain ⟨_, o4⟩ := hemit 0 s3 q3
  refine ⟨_, r4, ?_, ?_⟩
  · intro i hi
    rw [p4, p3, p2, p1, hlen]
    interval_cases i <;> simp [hs0]
  · intro l
    rw [o4 l, l3, l2]
    fin_cases l <;> rfl

/-- The simplest harmonic, `m = 2`, `n = 1`: `Phi = cos(2 φ) Z (R² + 1/R²)/2`. -/
theorem simple_BZ (x : ℝ) (hx : 0 < x) : (Mode.mk 2 1 1 0).B ![x, 0, 0] 2 = (x ^ 2 + x⁻¹ ^ 2) / 2 := by
  have hs : √(x * x) = x := Real.sqrt_mul_self hx.le
  have ha : arctan2 0 x = 0 := by
    unfold arctan2
    have : (⟨x, 0⟩ : ℂ) = ((x : ℝ) : ℂ) := by apply Complex.ext <;> simp
    rw [this, Complex.arg_ofReal_of_nonneg hx.le]
  have g3 : Real.Gamma 3 = 2 := by
    have := Real.Gamma_nat_eq_factorial 2
    norm_num at this
    simpa using this
  have hc : cnt 1 = 1 := rfl
  have hA : alpha 2 0 = 1 / 8 := by
    unfold alpha
    norm_num [g3]
  have hB : beta 2 0 = 2 := by
    unfold beta
    norm_num
  have hneg : alpha 2 (-2) = 0 := by unfold alpha; norm_num
  have hg : gamma1 2 (-2) = 0 := by unfold gamma1; norm_num
  have hg0 : gamma1 2 0 = 0 := by unfold gamma1; norm_num
  simp only [Mode.B, Matrix.cons_val, mul_zero, add_zero, hs, ha, Mode.BZ, Mode.a, Mode.b, Mode.c, Mode.d]
  norm_num [dZDmn, hc, alphas, betas, gammas, hA, hB, hneg, hg, hg0]
  norm_cast
  ring

/-- **C105 (violation).** So the array that `Dommaschk.B` returns depends on the schedule of the threads: at the points (1, 0, 0) and (2, 0, 0) with the harmonic (2, 1), a finished execution with two threads has a wrong value. -/
theorem C105_wrong_field_violated : ∃ (w : Mode) (pts : ℕ → P3) (s : St), (∀ i, w.Fits (pts i)) ∧ (∀ i, pts i 0 ^ 2 + pts i 1 ^ 2 ≠ 0) ∧ Run (emitB w) 2 id pts s ∧ Finished (emitB w) 2 s ∧ ¬RightB w 2 pts s := by
  obtain ⟨s, h1, h2, h3⟩ := C105_race_violated ⟨2, 1, 1, 0⟩ (fun i => if i = 0 then ![1, 0, 0] else ![2, 0, 0])
  refine ⟨⟨2, 1, 1, 0⟩, _, s, ?_, ?_, h1, h2, ?_⟩
  · intro i; simp [Mode.Fits]
  · intro i; by_cases hi : i = 0 <;> simp [hi]
  · intro hr
    have a := hr 0 (by omega) 2
    rw [h3 2] at a
    simp only [if_true, one_ne_zero, if_false] at a
    rw [simple_BZ 2 (by norm_num), simple_BZ 1 (by norm_num)] at a
    norm_num at a

end Simsopt.Fields.Dom.Race
