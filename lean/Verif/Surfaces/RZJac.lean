import Verif.Surfaces.RZShape
/-!
# C67: derivatives of SurfaceRZFourier in the dofs, vector-Jacobian products
-/
namespace Simsopt.RZSurf
open Simsopt Simsopt.Coils Simsopt.Geometry

theorem jacobian_layout (s : Surf) (f : Fam) (p q : ℝ) :
    jacobian s f p q = (layout s).map fun kj => dRow s f kj.1 (2 * Real.pi * p) (2 * Real.pi * q) (s.pos kj.2) := by
  cases h : s.stellsym <;> simp [jacobian, layout, h, modes_eq, Function.comp_def]

theorem dRow_congr (s t : Surf) (h2 : s.ntor = t.ntor) (h3 : s.nfp = t.nfp) : dRow s = dRow t := by
  have hn : nn s = nn t := by funext i; simp [nn, h2, h3]
  have ha : angle s = angle t := by funext a b c d; simp [angle, h2, h3]
  funext f k phi theta mi
  simp only [dRow, hn, ha]

theorem jacobian_setDofs (s : Surf) (f : Fam) (p q : ℝ) (d : List ℝ) : jacobian (setDofs s d) f p q = jacobian s f p q := by
  obtain ⟨h1, h2, h3, h4⟩ := setDofs_params s d
  rw [jacobian_layout, jacobian_layout, setDofs_layout, dRow_congr _ _ h2 h3]
  apply List.map_congr_left
  intro kj _
  simp [Surf.pos, Surf.width, h2]

/-- Changing one available entry of the arrays. -/
theorem lin_entry (s t : Surf) (h1 : t.mpol = s.mpol) (h2 : t.ntor = s.ntor) (h4 : t.stellsym = s.stellsym) (k0 : Kind) (m0 i0 : Nat) (e : ℝ)
    (ha : available s k0 = true) (hm : m0 < s.mpol + 1) (hi : i0 < s.width)
    (h : ∀ k m i, i < s.width → t.at k m i = s.at k m i + if k = k0 ∧ m = m0 ∧ i = i0 then e else 0) (B : Kind → Nat × Nat → V3) :
    lin t B = lin s B + e • B k0 (m0, i0) := by
  have hw : t.width = s.width := by simp [Surf.width, h2]
  have hterm : ∀ m i, i < s.width → modeTerm t B m i = modeTerm s B m i + (if m = m0 then (if i = i0 then e • B k0 (m0, i0) else 0) else 0) := by
    intro m i hi
    simp only [modeTerm, h _ _ _ hi, h4]
    by_cases hmm : m = m0
    · by_cases hii : i = i0
      · subst hmm hii
        simp only [and_self, and_true, if_true]
        cases hs : s.stellsym <;> cases k0 <;> simp [available, hs] at ha ⊢ <;> module
      · simp [hii]
    · simp [hmm]
  simp only [lin, h1, hw]
  rw [Finset.sum_congr rfl (fun m _ => Finset.sum_congr rfl (fun i hi => hterm m i (Finset.mem_range.mp hi)))]
  simp only [Finset.sum_add_distrib]
  congr 1
  rw [Finset.sum_eq_single m0 (fun m _ hne => by simp [hne]) (fun hn => absurd (Finset.mem_range.mpr hm) hn)]
  simp only [if_true]
  rw [Finset.sum_eq_single i0 (fun i _ hne => by simp [hne]) (fun hn => absurd (Finset.mem_range.mpr hi) hn)]
  simp

theorem at_of_pos (s : Surf) (m i j : Nat) (hi : i < s.width) : m * s.width + i = j ↔ m = (s.pos j).1 ∧ i = (s.pos j).2 := by
  simp only [Surf.pos]
  constructor
  · rintro rfl
    rw [Nat.mul_comm, Nat.mul_add_div s.width_pos, Nat.mul_add_mod, Nat.div_eq_of_lt hi, Nat.mod_eq_of_lt hi]; simp
  · rintro ⟨rfl, rfl⟩
    rw [Nat.mul_comm, Nat.div_add_mod]

theorem setDofs_set_at (s : Surf) (d : List ℝ) (p : Nat) (hp : p < d.length) (x : ℝ) (k0 : Kind) (j0 : Nat) (hl : (layout s)[p]? = some (k0, j0))
    (k : Kind) (m i : Nat) (hi : i < s.width) :
    (setDofs s (d.set p x)).at k m i = (setDofs s d).at k m i + if k = k0 ∧ m = (s.pos j0).1 ∧ i = (s.pos j0).2 then x - d[p] else 0 := by
  have hw : ∀ e, (setDofs s e).width = s.width := fun e => by simp [Surf.width, (setDofs_params s e).2.1]
  simp only [Surf.at, hw]
  generalize hj : m * s.width + i = j
  have hiff := at_of_pos s m i j0 hi
  rw [hj] at hiff
  by_cases hmem : (k, j) ∈ layout s
  · obtain ⟨p', hp', he⟩ := List.getElem_of_mem hmem
    have hl' : (layout s)[p']? = some (k, j) := by rw [List.getElem?_eq_getElem hp', he]
    rw [setDofs_entry s _ p' k j hl', setDofs_entry s _ p' k j hl']
    by_cases hpp : p' = p
    · subst hpp
      rw [hl] at hl'
      simp only [Option.some.injEq, Prod.mk.injEq] at hl'
      obtain ⟨rfl, rfl⟩ := hl'
      rw [if_pos ⟨rfl, hiff.mp rfl⟩, List.getElem?_set_self hp, List.getElem?_eq_getElem hp]
      simp
    · rw [List.getElem?_set_ne (Ne.symm hpp), if_neg, add_zero]
      rintro ⟨rfl, hh⟩
      have hjj := hiff.mpr hh
      subst hjj
      exact hpp ((List.getElem?_inj hp' (layout_nodup s)).mp (hl'.trans hl.symm))
  · rw [setDofs_other s _ k j hmem, setDofs_other s _ k j hmem, if_neg, add_zero]
    rintro ⟨rfl, hh⟩
    have hjj := hiff.mpr hh
    subst hjj
    exact hmem (List.mem_of_getElem? hl)

/-- **C67.** `dgamma_by_dcoeff`, `dgammadash1_by_dcoeff`, ..., `dgammadash2dash2_by_dcoeff` have one column per dof, and the column of the `k`-th dof is the derivative
of the array in that dof, at every dof vector. -/
theorem C67_jacobian (s : Surf) (junk : Nat → ℝ × ℝ) (f : Fam) (d : List ℝ) (hd : (d.length : Int) = s.numDofs) (p q : ℝ) (k : Nat) (hk : k < d.length) :
    ∃ row, (jacobian s f p q)[k]? = some row ∧ HasDerivAt (fun x => value (setDofs s (d.set k x)) junk f p q) row d[k] := by
  have hlen : (layout s).length = d.length := by have := layout_length s; omega
  obtain ⟨⟨k0, j0⟩, hl⟩ : ∃ kj, (layout s)[k]? = some kj := ⟨_, List.getElem?_eq_getElem (hlen ▸ hk)⟩
  obtain ⟨ha, hlo, hj⟩ := (mem_layout s k0 j0).mp (List.mem_of_getElem? hl)
  refine ⟨dRow s f k0 (2 * Real.pi * p) (2 * Real.pi * q) (s.pos j0), by rw [jacobian_layout, List.getElem?_map, hl]; rfl, ?_⟩
  have hm : (s.pos j0).1 < s.mpol + 1 := Nat.div_lt_of_lt_mul (by rw [Nat.mul_comm]; exact hj)
  have hi : (s.pos j0).2 < s.width := Nat.mod_lt _ s.width_pos
  obtain ⟨g1, g2, g3, g4⟩ := setDofs_params s d
  have hw : (setDofs s d).width = s.width := by simp [Surf.width, g2]
  have e : (fun x => value (setDofs s (d.set k x)) junk f p q) = fun x =>
      value (setDofs s d) junk f p q + (x - d[k]) • dRow s f k0 (2 * Real.pi * p) (2 * Real.pi * q) (s.pos j0) := by
    funext x
    obtain ⟨e1, e2, e3, e4⟩ := setDofs_params s (d.set k x)
    rw [value_lin, value_lin, dRow_congr _ s e2 e3, dRow_congr _ s g2 g3]
    apply lin_entry (setDofs s d) (setDofs s (d.set k x)) (e1.trans g1.symm) (e2.trans g2.symm) (e4.trans g4.symm) k0 _ _ (x - d[k])
    · cases k0 <;> simp [available, g4] at ha ⊢ <;> exact ha
    · rw [g1]; exact hm
    · rw [hw]; exact hi
    · intro k' m i hi'
      rw [hw] at hi'
      exact setDofs_set_at s d k hk x k0 j0 hl k' m i hi'
  rw [e]
  have h := HasDerivAt.const_add (value (setDofs s d) junk f p q) (((hasDerivAt_id d[k]).sub_const d[k]).smul_const (dRow s f k0 (2 * Real.pi * p) (2 * Real.pi * q) (s.pos j0)))
  rw [one_smul] at h
  exact h

/-- **C67.** The number of columns is the number of dofs, and the Jacobians do not depend on the dofs (so they may be cached across `set_dofs`). -/
theorem C67_jacobian_constant (s : Surf) (f : Fam) (p q : ℝ) (d : List ℝ) :
    ((jacobian s f p q).length : Int) = s.numDofs ∧ jacobian (setDofs s d) f p q = jacobian s f p q := by
  refine ⟨?_, jacobian_setDofs s f p q d⟩
  rw [jacobian_layout, List.length_map, layout_length]

/-! ### Vector-Jacobian products -/

theorem bump_fold (l : List ℝ) (res : Int → ℝ) (ix : Int) : l.foldl (fun r x => bump r ix x) res = fun P => res P + if P = ix then l.sum else 0 := by
  induction l generalizing res with
  | nil => funext P; simp
  | cons a l ih =>
    rw [List.foldl_cons, ih]
    funext P
    by_cases h : P = ix
    · subst h; simp [bump]; ring
    · simp [bump, h]

/-- The converse of `layout_get`. -/
theorem get_layout (s : Surf) (k : Kind) (j : Nat) (h : (k, j) ∈ layout s) : (layout s)[s.start k + (j - s.lo (decide (k = .rc ∨ k = .zc)))]? = some (k, j) := by
  obtain ⟨p, hp, he⟩ := List.getElem_of_mem h
  have hl : (layout s)[p]? = some (k, j) := by rw [List.getElem?_eq_getElem hp, he]
  rw [← layout_get s p k j hl]; exact hl

/-- Offset used by the code for an array. -/
def shiftOf (s : Surf) : Kind → Int | .rc => shift0 s | .rs => shift1 s | .zc => shift2 s | .zs => shift3 s

theorem shift_index (s : Surf) (k : Kind) (j : Nat) (h : (k, j) ∈ layout s) :
    (j : Int) + shiftOf s k = ((s.start k + (j - s.lo (decide (k = .rc ∨ k = .zc))) : Nat) : Int) := by
  obtain ⟨ha, hlo, hj⟩ := (mem_layout s k j).mp h
  have hsz := size_ge s
  have e : ((s.mpol : Int) + 1) * (2 * s.ntor + 1) = s.size := by simp [Surf.size, Surf.width]
  cases hs : s.stellsym <;> cases k <;> simp [available, hs, Surf.lo] at ha hlo <;>
    simp [shiftOf, shift0, shift1, shift2, shift3, Surf.start, Surf.lo, hs, e] <;> omega

/-- The contribution of the mode at flat position `j` to the entry `P` of the result. -/
noncomputable def contrib (s : Surf) (t : Kind → List ℝ) (j : Nat) (P : Int) : ℝ :=
  match (if 0 ≤ P then (layout s)[P.toNat]? else none) with
  | some (k, j') => if j' = j then (t k).sum else 0
  | none => 0

/-- The contribution of the array `k` alone. -/
noncomputable def contribK (s : Surf) (t : Kind → List ℝ) (k : Kind) (j : Nat) (P : Int) : ℝ :=
  if (k, j) ∈ layout s ∧ P = (j : Int) + shiftOf s k then (t k).sum else 0

theorem contrib_eq (s : Surf) (t : Kind → List ℝ) (j : Nat) (P : Int) :
    contrib s t j P = contribK s t .rc j P + contribK s t .rs j P + contribK s t .zc j P + contribK s t .zs j P := by
  have hk : ∀ k, ((k, j) ∈ layout s ∧ P = (j : Int) + shiftOf s k) ↔ (0 ≤ P ∧ (layout s)[P.toNat]? = some (k, j)) := by
    intro k
    constructor
    · rintro ⟨hm, rfl⟩
      rw [shift_index s k j hm]
      exact ⟨by omega, by rw [Int.toNat_natCast]; exact get_layout s k j hm⟩
    · rintro ⟨hP, hl⟩
      have hm := List.mem_of_getElem? hl
      refine ⟨hm, ?_⟩
      rw [shift_index s k j hm, ← layout_get s P.toNat k j hl]; omega
  simp only [contribK, hk, contrib]
  by_cases hP : 0 ≤ P
  · simp only [hP, if_true, true_and]
    cases hl : (layout s)[P.toNat]? with
    | none => simp
    | some kj =>
      obtain ⟨k, j'⟩ := kj
      by_cases hj : j' = j
      · subst hj; cases k <;> simp
      · simp [hj]
  · simp [hP]

theorem mem_layout_skip (s : Surf) (k : Kind) (m i : Nat) (hm : m < s.mpol + 1) (hi : i < s.width) :
    (k, m * s.width + i) ∈ layout s ↔ available s k = true ∧ skip s (decide (k = .rc ∨ k = .zc)) m i = false := by
  rw [mem_layout, ← skip_pos]
  obtain ⟨e1, e2⟩ := (at_of_pos s m i _ hi).mp rfl
  rw [← e1, ← e2]
  have : m * s.width + i < s.size := by
    have : m * s.width + s.width ≤ s.size := by simp only [Surf.size]; rw [← Nat.succ_mul]; exact Nat.mul_le_mul_right _ (by omega)
    omega
  simp [this]

theorem vjpBody_eq (s : Surf) (f : Fam) (phi : ℝ) (v : V3) (m i : Nat) (hm : m < s.mpol + 1) (hi : i < s.width) (sn cs : ℝ) (res : Int → ℝ) :
    vjpBody s f phi v m i sn cs (((m * s.width + i : Nat) : Int), res) =
      (((m * s.width + i : Nat) : Int) + 1, fun P => res P + contrib s (vjpTerms s f phi v m i sn cs) (m * s.width + i) P) := by
  simp only [vjpBody, Prod.mk.injEq, true_and]
  funext P
  rw [contrib_eq]
  simp only [contribK, mem_layout_skip s _ m i hm hi, bump_fold]
  cases hs : s.stellsym <;> simp [available, hs, skip, shiftOf] <;> split_ifs <;> simp_all <;> (try ring)

theorem vjpLoop_inner (s : Surf) (f : Fam) (phi theta : ℝ) (v : V3) (m : Nat) (hm : m < s.mpol + 1) (n : Nat) (hn : n ≤ s.width) (res : Int → ℝ) :
    (List.range n).foldl (fun st i => vjpBody s f phi v m i (Real.sin (angle s phi theta m i)) (Real.cos (angle s phi theta m i)) st) (((m * s.width : Nat) : Int), res) =
      (((m * s.width + n : Nat) : Int), fun P => res P + ∑ i ∈ Finset.range n,
        contrib s (vjpTerms s f phi v m i (Real.sin (angle s phi theta m i)) (Real.cos (angle s phi theta m i))) (m * s.width + i) P) := by
  induction n with
  | zero => simp
  | succ n ih =>
    rw [List.range_succ, List.foldl_append, ih (by omega), List.foldl_cons, List.foldl_nil, vjpBody_eq s f phi v m n hm (by omega)]
    refine Prod.ext ?_ ?_
    · simp only; push_cast; ring
    · funext P; simp only [Finset.sum_range_succ]; ring

theorem vjpLoop (s : Surf) (f : Fam) (phi theta : ℝ) (v : V3) (M : Nat) (hM : M ≤ s.mpol + 1) (res : Int → ℝ) :
    (List.range M).foldl (fun st m => (List.range s.width).foldl (fun st i =>
        vjpBody s f phi v m i (Real.sin (angle s phi theta m i)) (Real.cos (angle s phi theta m i)) st) st) ((0 : Int), res) =
      (((M * s.width : Nat) : Int), fun P => res P + ∑ m ∈ Finset.range M, ∑ i ∈ Finset.range s.width,
        contrib s (vjpTerms s f phi v m i (Real.sin (angle s phi theta m i)) (Real.cos (angle s phi theta m i))) (m * s.width + i) P) := by
  induction M with
  | zero => simp
  | succ M ih =>
    rw [List.range_succ, List.foldl_append, ih (by omega), List.foldl_cons, List.foldl_nil, vjpLoop_inner s f phi theta v M (by omega) s.width (le_refl _)]
    refine Prod.ext ?_ ?_
    · simp only; push_cast; ring
    · funext P; simp only [Finset.sum_range_succ]; ring

/-- The factor by which the function multiplies the sum at the end. -/
noncomputable def scaleOf (f : Fam) : ℝ := if f = .g then 1 else 2 * Real.pi

theorem terms_sum (s : Surf) (f : Fam) (hf : f = .g ∨ f = .g1 ∨ f = .g2) (phi theta : ℝ) (v : V3) (k : Kind) (m i : Nat) :
    (vjpTerms s f phi v m i (Real.sin (angle s phi theta m i)) (Real.cos (angle s phi theta m i)) k).sum * scaleOf f = inner (dRow s f k phi theta (m, i)) v := by
  rcases hf with rfl | rfl | rfl <;> cases k <;> simp [vjpTerms, scaleOf, dRow, inner] <;> ring

/-- What one quadrature point adds to the entry `P`. -/
theorem point_sum (s : Surf) (f : Fam) (hf : f = .g ∨ f = .g1 ∨ f = .g2) (p q : ℝ) (v : V3) (P : Int) :
    (∑ m ∈ Finset.range (s.mpol + 1), ∑ i ∈ Finset.range s.width,
      contrib s (vjpTerms s f (2 * Real.pi * p) v m i (Real.sin (angle s (2 * Real.pi * p) (2 * Real.pi * q) m i)) (Real.cos (angle s (2 * Real.pi * p) (2 * Real.pi * q) m i)))
        (m * s.width + i) P) * scaleOf f =
    match (if 0 ≤ P then (jacobian s f p q)[P.toNat]? else none) with
    | some row => inner row v
    | none => 0 := by
  by_cases hP : 0 ≤ P
  · simp only [hP, if_true, contrib, jacobian_layout, List.getElem?_map]
    cases hl : (layout s)[P.toNat]? with
    | none => simp
    | some kj =>
      obtain ⟨k, j⟩ := kj
      obtain ⟨_, _, hj⟩ := (mem_layout s k j).mp (List.mem_of_getElem? hl)
      have hm : (s.pos j).1 < s.mpol + 1 := Nat.div_lt_of_lt_mul (by rw [Nat.mul_comm]; exact hj)
      have hi : (s.pos j).2 < s.width := Nat.mod_lt _ s.width_pos
      simp only [Option.map_some]
      rw [Finset.sum_eq_single (s.pos j).1, Finset.sum_eq_single (s.pos j).2]
      · rw [if_pos ((at_of_pos s _ _ j hi).mpr ⟨rfl, rfl⟩).symm]
        exact terms_sum s f hf _ _ v k _ _
      · intro i hi' hne
        rw [if_neg]
        intro he
        exact hne ((at_of_pos s _ _ j (Finset.mem_range.mp hi')).mp he.symm).2
      · intro hn; exact absurd (Finset.mem_range.mpr hi) hn
      · intro m _ hne
        apply Finset.sum_eq_zero
        intro i hi'
        rw [if_neg]
        intro he
        exact hne ((at_of_pos s _ _ j (Finset.mem_range.mp hi')).mp he.symm).1
      · intro hn; exact absurd (Finset.mem_range.mpr hm) hn
  · simp [hP, contrib]

theorem thread_sum (brace : Bool) (s : Surf) (f : Fam) (hf : f = .g ∨ f = .g1 ∨ f = .g2) (junk : Nat → ℝ × ℝ) (v : ℝ × ℝ → V3) (pts : List (ℝ × ℝ)) (P : Int) :
    vjpThread brace s f junk v pts P * scaleOf f =
      (pts.map fun pq => match (if 0 ≤ P then (jacobian s f pq.1 pq.2)[P.toNat]? else none) with | some row => inner row (v pq) | none => 0).sum := by
  have key : ∀ (res : Int → ℝ), (pts.foldl (fun res pq =>
      (modeLoop brace s junk (2 * Real.pi * pq.1) (2 * Real.pi * pq.2) (vjpBody s f (2 * Real.pi * pq.1) (v pq)) (0, res)).2) res) P * scaleOf f =
      res P * scaleOf f + (pts.map fun pq => match (if 0 ≤ P then (jacobian s f pq.1 pq.2)[P.toNat]? else none) with | some row => inner row (v pq) | none => 0).sum := by
    induction pts with
    | nil => simp
    | cons pq pts ih =>
      intro res
      rw [List.foldl_cons, ih, List.map_cons, List.sum_cons, ← add_assoc]
      congr 1
      rw [modeLoop_eq]
      have := vjpLoop s f (2 * Real.pi * pq.1) (2 * Real.pi * pq.2) (v pq) (s.mpol + 1) (le_refl _) res
      rw [linLoop, this]
      simp only [add_mul]
      rw [point_sum s f hf pq.1 pq.2 (v pq) P]
  have := key (fun _ => 0)
  rw [zero_mul, zero_add] at this
  exact this

theorem vjp_sum (brace : Bool) (s : Surf) (f : Fam) (hf : f = .g ∨ f = .g1 ∨ f = .g2) (junk : Nat → ℝ × ℝ) (v : ℝ × ℝ → V3) (threads : List (List (ℝ × ℝ))) (P : Int) :
    vjp brace s f junk v threads P =
      (threads.flatten.map fun pq => match (if 0 ≤ P then (jacobian s f pq.1 pq.2)[P.toNat]? else none) with | some row => inner row (v pq) | none => 0).sum := by
  have key : ∀ (res : Int → ℝ), (threads.foldl (fun res pts => fun j => res j + vjpThread brace s f junk v pts j) res) P * scaleOf f =
      res P * scaleOf f + (threads.flatten.map fun pq => match (if 0 ≤ P then (jacobian s f pq.1 pq.2)[P.toNat]? else none) with | some row => inner row (v pq) | none => 0).sum := by
    induction threads with
    | nil => simp
    | cons pts threads ih =>
      intro res
      rw [List.foldl_cons, ih, add_mul, thread_sum brace s f hf junk v pts P, List.flatten_cons, List.map_append, List.sum_append, add_assoc]
  have h := key (fun _ => 0)
  rw [zero_mul, zero_add] at h
  rw [← h]
  rcases hf with rfl | rfl | rfl <;> simp [vjp, scaleOf]

/-- **C67.** `dgamma_by_dcoeff_vjp(v)`, `dgammadash1_by_dcoeff_vjp(v)` and `dgammadash2_by_dcoeff_vjp(v)` are, dof by dof, the sum over all the quadrature points of the
scalar product of `v` with the Jacobian column of that dof, however the points are distributed over threads and in whatever order the threads finish;
and they write to no entry outside of the result array (its entry there would stay 0). -/
theorem C67_vjp (brace : Bool) (s : Surf) (f : Fam) (hf : f = .g ∨ f = .g1 ∨ f = .g2) (junk : Nat → ℝ × ℝ) (v : ℝ × ℝ → V3) (pts : List (ℝ × ℝ))
    (threads : List (List (ℝ × ℝ))) (hp : threads.flatten.Perm pts) :
    (∀ k : Nat, (k : Int) < s.numDofs → vjp brace s f junk v threads k = (pts.map fun pq => inner ((jacobian s f pq.1 pq.2)[k]?.getD 0) (v pq)).sum) ∧
    (∀ P : Int, P < 0 ∨ s.numDofs ≤ P → vjp brace s f junk v threads P = 0) := by
  have hlen : ∀ pq : ℝ × ℝ, ((jacobian s f pq.1 pq.2).length : Int) = s.numDofs := fun pq => (C67_jacobian_constant s f pq.1 pq.2 []).1
  constructor
  · intro k hk
    rw [vjp_sum brace s f hf, (hp.map _).sum_eq]
    congr 1
    apply List.map_congr_left
    intro pq _
    have : k < (jacobian s f pq.1 pq.2).length := by have := hlen pq; omega
    simp [List.getElem?_eq_getElem this]
  · intro P hP
    rw [vjp_sum brace s f hf, (hp.map _).sum_eq]
    apply List.sum_eq_zero
    intro x hx
    obtain ⟨pq, _, rfl⟩ := List.mem_map.mp hx
    rcases hP with hP | hP
    · simp [not_le.mpr hP]
    · have : (jacobian s f pq.1 pq.2)[P.toNat]? = none := List.getElem?_eq_none (by have := hlen pq; omega)
      simp [this]

/-- A surface with 2 field periods, no stellarator symmetry, `mpol = 1`, `ntor = 1`: it has 18 dofs and a nonzero Jacobian column. -/
example : (create 1 1 2 false).numDofs = 18 ∧ (jacobian (create 1 1 2 false) .g 0 0)[0]? = some ((1, 0, 0) : V3) := by
  refine ⟨by decide, ?_⟩
  rw [jacobian_layout, List.getElem?_map]
  have : (layout (create 1 1 2 false))[0]? = some (Kind.rc, 1) := by decide
  rw [this]
  simp [dRow, angle, Surf.pos, Surf.width, create, poke]

end Simsopt.RZSurf
