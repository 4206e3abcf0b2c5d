import Verif.Curves.RZ
import Mathlib.Data.List.Nodup
import Mathlib.Data.Int.GCD
/-!
# C56, C57: CurveXYZFourierSymmetries and CurveHelical

Model of src/simsopt/geo/curvexyzfouriersymmetries.py and src/simsopt/geo/curvehelical.py: the pure functions at one quadrature
point, the names of the dofs and the check of the constructor.  Real numbers instead of doubles; the derivatives, which JAX
computes from the pure function, are not modelled.
-/
namespace Simsopt.Symm
open Simsopt Simsopt.Coils

/-- The Python slice `l[a:b]`. -/
def slice (l : List ℝ) (a b : Nat) : List ℝ := (l.drop a).take (b - a)

/-- `np.sum(c[None, :] * h, axis=1)` at one quadrature point for rows of the same length; `h` is the function on `a, a+1, ...`
(`m` or `m[:, 1:]`). -/
noncomputable def dot (c : List ℝ) (a : Nat) (h : Nat → ℝ) : ℝ := (c.zipIdx a).foldl (fun acc p => acc + p.1 * h p.2) 0

/-- `jaxXYZFourierSymmetriescurve_pure` (curvexyzfouriersymmetries.py L9-45), for `len(dofs) == num_dofs()`. -/
noncomputable def pure (dofs : List ℝ) (theta : ℝ) (order nfp : Nat) (stellsym : Bool) (ntor : Int) : V3 :=
  let cosm := fun m : Nat => Real.cos (2 * Real.pi * (nfp : ℝ) * (m : ℝ) * theta)
  let sinm := fun m : Nat => Real.sin (2 * Real.pi * (nfp : ℝ) * (m : ℝ) * theta)
  let hats : V3 :=
    if stellsym then
      let xc := slice dofs 0 (order + 1)
      let ys := slice dofs (order + 1) (2 * order + 1)
      let zs := slice dofs (2 * order + 1) dofs.length
      (dot xc 0 cosm, dot ys 1 sinm, dot zs 1 sinm)
    else
      let xc := slice dofs 0 (order + 1)
      let xs := slice dofs (order + 1) (2 * order + 1)
      let yc := slice dofs (2 * order + 1) (3 * order + 2)
      let ys := slice dofs (3 * order + 2) (4 * order + 2)
      let zc := slice dofs (4 * order + 2) (5 * order + 3)
      let zs := slice dofs (5 * order + 3) dofs.length
      (dot xc 0 cosm + dot xs 1 sinm, dot yc 0 cosm + dot ys 1 sinm, dot zc 0 cosm + dot zs 1 sinm)
  let angle := 2 * Real.pi * theta * (ntor : ℝ)
  (Real.cos angle * hats.1 - Real.sin angle * hats.2.1, Real.sin angle * hats.1 + Real.cos angle * hats.2.1, hats.2.2)

/-- The formatted name `f'{v}({i})'`. -/
def nm (v : String) (i : Nat) : String := v ++ "(" ++ toString i ++ ")"

/-- `_make_names` (L110-132). -/
def makeNames (order : Nat) (stellsym : Bool) : List String :=
  if stellsym then
    (List.range (order + 1)).map (nm "xc") ++ (List.range' 1 order).map (nm "ys") ++ (List.range' 1 order).map (nm "zs")
  else
    ([nm "xc" 0] ++ ((List.range' 1 order).map (nm "xc") ++ (List.range' 1 order).map (nm "xs"))) ++
    ([nm "yc" 0] ++ ((List.range' 1 order).map (nm "yc") ++ (List.range' 1 order).map (nm "ys"))) ++
    ([nm "zc" 0] ++ ((List.range' 1 order).map (nm "zc") ++ (List.range' 1 order).map (nm "zs")))

/-- `num_dofs` (L134-135). -/
def numDofs (order : Nat) (stellsym : Bool) : Nat := if stellsym then (order + 1) + order + order else 3 * (2 * order + 1)

/-- The check of `__init__` (L94-95): `some` when the constructor goes on, `none` when it raises. -/
def checkInit (nfp : Nat) (ntor : Int) : Option Unit := if Int.gcd ntor nfp ≠ 1 then none else some ()

/-! ### Sums -/

theorem dot_sum (c : List ℝ) (a : Nat) (h : Nat → ℝ) : dot c a h = ∑ i ∈ Finset.range c.length, c[i]?.getD 0 * h (a + i) := by
  have gen : ∀ (c : List ℝ) (a : Nat) (acc : ℝ), (c.zipIdx a).foldl (fun acc p => acc + p.1 * h p.2) acc =
      acc + ∑ i ∈ Finset.range c.length, c[i]?.getD 0 * h (a + i) := by
    intro c
    induction c with
    | nil => intro a acc; simp
    | cons x c ih =>
      intro a acc
      rw [List.zipIdx_cons, List.foldl_cons, ih, List.length_cons, Finset.sum_range_succ']
      simp only [List.getElem?_cons_succ, List.getElem?_cons_zero, Option.getD_some, Nat.add_zero]
      have : ∀ i, a + 1 + i = a + (i + 1) := by intro i; omega
      simp only [this]; ring
  rw [dot, gen]; ring

theorem dot_slice (d : List ℝ) (a b s : Nat) (h : Nat → ℝ) (hb : b ≤ d.length) :
    dot (slice d a b) s h = ∑ i ∈ Finset.range (b - a), d[a + i]?.getD 0 * h (s + i) := by
  rw [dot_sum]
  have hl : (slice d a b).length = b - a := by simp [slice]; omega
  rw [hl]
  apply Finset.sum_congr rfl
  intro i hi
  rw [slice, List.getElem?_take, if_pos (Finset.mem_range.mp hi), List.getElem?_drop]

/-! ### Names -/

theorem nm_inj (v : String) (i j : Nat) (h : nm v i = nm v j) : i = j := by
  have h2 : (toString i).toList = (toString j).toList := by
    have := congrArg String.toList h
    simpa [nm] using this
  rw [Nat.toString_eq_repr, Nat.repr_eq_ofList_toDigits, Nat.toString_eq_repr, Nat.repr_eq_ofList_toDigits,
    String.toList_ofList, String.toList_ofList] at h2
  have := congrArg (fun l => Nat.ofDigitChars 10 l 0) h2
  simpa [Nat.ofDigitChars_toDigits] using this

theorem nm_ne (v w : String) (hv : v.toList.length = 2) (hw : w.toList.length = 2) (hne : v ≠ w) (i j : Nat) : nm v i ≠ nm w j := by
  intro h
  apply hne
  have := congrArg (fun s => s.toList.take 2) h
  simp only [nm, String.toList_append, List.append_assoc] at this
  rw [List.take_append_of_le_length (by omega), List.take_append_of_le_length (by omega), List.take_of_length_le (by omega),
    List.take_of_length_le (by omega)] at this
  exact String.toList_inj.mp this

theorem names_length (order : Nat) (stellsym : Bool) : (makeNames order stellsym).length = numDofs order stellsym := by
  cases stellsym <;> simp [makeNames, numDofs] <;> omega

theorem block_nodup (v : String) (l : List Nat) (h : l.Nodup) : (l.map (nm v)).Nodup := h.map_on fun a _ b _ hab => nm_inj v a b hab

theorem range_cons (order : Nat) : List.range (order + 1) = 0 :: List.range' 1 order := by
  rw [List.range_eq_range', List.range'_succ]

/-- **C56.** There is one name per dof and the names are pairwise distinct (otherwise the object could not be constructed). -/
theorem C56_names_nodup (order : Nat) (stellsym : Bool) :
    (makeNames order stellsym).length = numDofs order stellsym ∧ (makeNames order stellsym).Nodup := by
  refine ⟨names_length _ _, ?_⟩
  have ne : ∀ (v w : String) (hv : v.toList.length = 2) (hw : w.toList.length = 2) (hne : v ≠ w) (k l : List Nat),
      ∀ a ∈ k.map (nm v), ∀ b ∈ l.map (nm w), a ≠ b := by
    intro v w hv hw hne k l a ha b hb
    obtain ⟨i, _, rfl⟩ := List.mem_map.mp ha
    obtain ⟨j, _, rfl⟩ := List.mem_map.mp hb
    exact nm_ne v w hv hw hne i j
  have hr : (List.range' 1 order).Nodup := List.nodup_range'
  have hr1 : (List.range (order + 1)).Nodup := List.nodup_range
  cases stellsym with
  | true =>
    simp only [makeNames, if_true, List.append_assoc]
    rw [List.nodup_append, List.nodup_append]
    refine ⟨block_nodup _ _ hr1, ⟨block_nodup _ _ hr, block_nodup _ _ hr, ?_⟩, ?_⟩
    · exact ne _ _ (by decide) (by decide) (by decide) _ _
    · intro a ha b hb
      rcases List.mem_append.mp hb with hb | hb
      · exact ne _ _ (by decide) (by decide) (by decide) _ _ a ha b hb
      · exact ne _ _ (by decide) (by decide) (by decide) _ _ a ha b hb
  | false =>
    have e : makeNames order false = (List.range (order + 1)).map (nm "xc") ++ ((List.range' 1 order).map (nm "xs") ++
        ((List.range (order + 1)).map (nm "yc") ++ ((List.range' 1 order).map (nm "ys") ++
        ((List.range (order + 1)).map (nm "zc") ++ (List.range' 1 order).map (nm "zs"))))) := by
      simp [makeNames, range_cons]
    rw [e]
    simp only [List.nodup_append, List.mem_append]
    refine ⟨block_nodup _ _ hr1, ⟨block_nodup _ _ hr, ⟨block_nodup _ _ hr1, ⟨block_nodup _ _ hr, ⟨block_nodup _ _ hr1, block_nodup _ _ hr, ?_⟩, ?_⟩, ?_⟩, ?_⟩, ?_⟩
    all_goals intro a ha b hb
    all_goals repeat' (rcases hb with hb | hb)
    all_goals exact ne _ _ (by decide) (by decide) (by decide) _ _ a ha b hb

/-! ### The series by name -/

/-- The documented series of one coordinate, by name of the coefficients: `present v` says whether the class has coefficients `v`. -/
noncomputable def hat (order nfp : Nat) (val : String → ℝ) (c s : Option String) (theta : ℝ) : ℝ :=
  (match c with | some c => ∑ m ∈ Finset.range (order + 1), val (nm c m) * Real.cos (2 * Real.pi * nfp * m * theta) | none => 0) +
  (match s with | some s => ∑ m ∈ Finset.range order, val (nm s (m + 1)) * Real.sin (2 * Real.pi * nfp * (m + 1) * theta) | none => 0)

/-- The documented coordinates (class docstring, L49-77). -/
noncomputable def documented (ntor : Int) (xhat yhat z theta : ℝ) : V3 :=
  (xhat * Real.cos (2 * Real.pi * theta * ntor) - yhat * Real.sin (2 * Real.pi * theta * ntor),
   xhat * Real.sin (2 * Real.pi * theta * ntor) + yhat * Real.cos (2 * Real.pi * theta * ntor), z)

theorem get_block (l1 l2 : List ℝ) (val : String → ℝ) (f : Nat → String) (s k i : Nat) (hi : i < k) (off : Nat) (ho : off = l1.length) :
    (l1 ++ ((List.range' s k).map fun m => val (f m)) ++ l2)[off + i]?.getD 0 = val (f (s + i)) := by
  subst ho
  rw [List.append_assoc, List.getElem?_append_right (by omega), Nat.add_sub_cancel_left, List.getElem?_append_left (by simp; omega),
    List.getElem?_map, List.getElem?_range' (by omega)]
  simp

/-- **C56.** When the dofs are given by name, `gamma` is the documented series: the dof `xc(m)` is the coefficient of
`cos(2 π nfp m θ)` in `x̂`, and so on for `xs`, `yc`, `ys`, `zc`, `zs`. -/
theorem C56_series (order nfp : Nat) (stellsym : Bool) (ntor : Int) (val : String → ℝ) (theta : ℝ) :
    pure ((makeNames order stellsym).map val) theta order nfp stellsym ntor =
      if stellsym then
        documented ntor (hat order nfp val (some "xc") none theta) (hat order nfp val none (some "ys") theta)
          (hat order nfp val none (some "zs") theta) theta
      else
        documented ntor (hat order nfp val (some "xc") (some "xs") theta) (hat order nfp val (some "yc") (some "ys") theta)
          (hat order nfp val (some "zc") (some "zs") theta) theta := by
  have hlen : ((makeNames order stellsym).map val).length = numDofs order stellsym := by rw [List.length_map, names_length]
  cases stellsym with
  | true =>
    have e : (makeNames order true).map val = ((List.range' 0 (order + 1)).map fun m => val (nm "xc" m)) ++
        ((List.range' 1 order).map fun m => val (nm "ys" m)) ++ ((List.range' 1 order).map fun m => val (nm "zs" m)) := by
      simp [makeNames, List.range_eq_range']; rfl
    simp only [numDofs, if_true] at hlen
    simp only [pure, if_true, documented]
    rw [dot_slice _ _ _ _ _ (by omega), dot_slice _ _ _ _ _ (by omega), dot_slice _ _ _ _ _ (by omega), hlen]
    rw [show order + 1 - 0 = order + 1 by omega, show 2 * order + 1 - (order + 1) = order by omega,
      show order + 1 + order + order - (2 * order + 1) = order by omega]
    have h1 : ∀ i ∈ Finset.range (order + 1), ((makeNames order true).map val)[0 + i]?.getD 0 = val (nm "xc" i) := by
      intro i hi
      have := get_block [] (((List.range' 1 order).map fun m => val (nm "ys" m)) ++ ((List.range' 1 order).map fun m => val (nm "zs" m))) val (nm "xc") 0 (order + 1) i (Finset.mem_range.mp hi) 0 rfl
      rw [e, List.append_assoc]; simpa using this
    have h2 : ∀ i ∈ Finset.range order, ((makeNames order true).map val)[order + 1 + i]?.getD 0 = val (nm "ys" (1 + i)) := by
      intro i hi
      rw [e]
      exact get_block _ _ val (nm "ys") 1 order i (Finset.mem_range.mp hi) (order + 1) (by simp)
    have h3 : ∀ i ∈ Finset.range order, ((makeNames order true).map val)[2 * order + 1 + i]?.getD 0 = val (nm "zs" (1 + i)) := by
      intro i hi
      rw [e]
      have := get_block (((List.range' 0 (order + 1)).map fun m => val (nm "xc" m)) ++ ((List.range' 1 order).map fun m => val (nm "ys" m))) [] val (nm "zs") 1 order i (Finset.mem_range.mp hi) (2 * order + 1) (by simp; omega)
      simpa using this
    have s1 : ∑ i ∈ Finset.range (order + 1), ((makeNames order true).map val)[0 + i]?.getD 0 * Real.cos (2 * Real.pi * nfp * ((0 + i : Nat) : ℝ) * theta) = hat order nfp val (some "xc") none theta := by
      simp only [hat, add_zero]
      apply Finset.sum_congr rfl; intro i hi; rw [h1 i hi, Nat.zero_add]
    have s2 : ∑ i ∈ Finset.range order, ((makeNames order true).map val)[order + 1 + i]?.getD 0 * Real.sin (2 * Real.pi * nfp * ((1 + i : Nat) : ℝ) * theta) = hat order nfp val none (some "ys") theta := by
      simp only [hat, zero_add]
      apply Finset.sum_congr rfl; intro i hi; rw [h2 i hi, Nat.add_comm 1]; push_cast; rfl
    have s3 : ∑ i ∈ Finset.range order, ((makeNames order true).map val)[2 * order + 1 + i]?.getD 0 * Real.sin (2 * Real.pi * nfp * ((1 + i : Nat) : ℝ) * theta) = hat order nfp val none (some "zs") theta := by
      simp only [hat, zero_add]
      apply Finset.sum_congr rfl; intro i hi; rw [h3 i hi, Nat.add_comm 1]; push_cast; rfl
    rw [s1, s2, s3]
    refine Prod.ext ?_ (Prod.ext ?_ ?_) <;> dsimp only <;> ring
  | false =>
    let blk := fun (v : String) (s k : Nat) => (List.range' s k).map fun m => val (nm v m)
    have e : (makeNames order false).map val = blk "xc" 0 (order + 1) ++ (blk "xs" 1 order ++ (blk "yc" 0 (order + 1) ++ (blk "ys" 1 order ++ (blk "zc" 0 (order + 1) ++ blk "zs" 1 order)))) := by
      simp [makeNames, blk, List.range'_succ]; rfl
    have gb : ∀ (l1 l2 : List ℝ) (v : String) (s k i off : Nat), i < k → off = l1.length → (makeNames order false).map val = l1 ++ blk v s k ++ l2 →
        ((makeNames order false).map val)[off + i]?.getD 0 = val (nm v (s + i)) := by
      intro l1 l2 v s k i off hi ho h
      rw [h]; exact get_block l1 l2 val (nm v) s k i hi off ho
    simp only [numDofs, Bool.false_eq_true, if_false] at hlen
    simp only [pure, Bool.false_eq_true, if_false, documented]
    rw [dot_slice _ _ _ _ _ (by omega), dot_slice _ _ _ _ _ (by omega), dot_slice _ _ _ _ _ (by omega), dot_slice _ _ _ _ _ (by omega),
      dot_slice _ _ _ _ _ (by omega), dot_slice _ _ _ _ _ (by omega), hlen]
    rw [show order + 1 - 0 = order + 1 by omega, show 2 * order + 1 - (order + 1) = order by omega,
      show 3 * order + 2 - (2 * order + 1) = order + 1 by omega, show 4 * order + 2 - (3 * order + 2) = order by omega,
      show 5 * order + 3 - (4 * order + 2) = order + 1 by omega, show 3 * (2 * order + 1) - (5 * order + 3) = order by omega]
    have bl : ∀ v s k, (blk v s k).length = k := by intro v s k; simp [blk]
    have sc : ∀ (l1 l2 : List ℝ) (v : String) (off : Nat), off = l1.length → (makeNames order false).map val = l1 ++ blk v 0 (order + 1) ++ l2 →
        ∑ i ∈ Finset.range (order + 1), ((makeNames order false).map val)[off + i]?.getD 0 * Real.cos (2 * Real.pi * nfp * ((0 + i : Nat) : ℝ) * theta) =
          ∑ m ∈ Finset.range (order + 1), val (nm v m) * Real.cos (2 * Real.pi * nfp * m * theta) := by
      intro l1 l2 v off ho h
      apply Finset.sum_congr rfl; intro i hi; rw [gb l1 l2 v 0 (order + 1) i off (Finset.mem_range.mp hi) ho h, Nat.zero_add]
    have ss : ∀ (l1 l2 : List ℝ) (v : String) (off : Nat), off = l1.length → (makeNames order false).map val = l1 ++ blk v 1 order ++ l2 →
        ∑ i ∈ Finset.range order, ((makeNames order false).map val)[off + i]?.getD 0 * Real.sin (2 * Real.pi * nfp * ((1 + i : Nat) : ℝ) * theta) =
          ∑ m ∈ Finset.range order, val (nm v (m + 1)) * Real.sin (2 * Real.pi * nfp * (m + 1) * theta) := by
      intro l1 l2 v off ho h
      apply Finset.sum_congr rfl; intro i hi; rw [gb l1 l2 v 1 order i off (Finset.mem_range.mp hi) ho h, Nat.add_comm 1]; push_cast; rfl
    rw [sc [] (blk "xs" 1 order ++ (blk "yc" 0 (order + 1) ++ (blk "ys" 1 order ++ (blk "zc" 0 (order + 1) ++ (blk "zs" 1 order))))) "xc" 0 rfl (by rw [e]; simp only [List.nil_append]),
      ss (blk "xc" 0 (order + 1)) (blk "yc" 0 (order + 1) ++ (blk "ys" 1 order ++ (blk "zc" 0 (order + 1) ++ (blk "zs" 1 order)))) "xs" (order + 1) (by simp [bl]) (by rw [e]; simp only [List.append_assoc]),
      sc (blk "xc" 0 (order + 1) ++ blk "xs" 1 order) (blk "ys" 1 order ++ (blk "zc" 0 (order + 1) ++ (blk "zs" 1 order))) "yc" (2 * order + 1) (by simp [bl]; omega) (by rw [e]; simp only [List.append_assoc]),
      ss (blk "xc" 0 (order + 1) ++ blk "xs" 1 order ++ blk "yc" 0 (order + 1)) (blk "zc" 0 (order + 1) ++ (blk "zs" 1 order)) "ys" (3 * order + 2) (by simp [bl]; omega) (by rw [e]; simp only [List.append_assoc]),
      sc (blk "xc" 0 (order + 1) ++ blk "xs" 1 order ++ blk "yc" 0 (order + 1) ++ blk "ys" 1 order) (blk "zs" 1 order) "zc" (4 * order + 2) (by simp [bl]; omega) (by rw [e]; simp only [List.append_assoc]),
      ss (blk "xc" 0 (order + 1) ++ blk "xs" 1 order ++ blk "yc" 0 (order + 1) ++ blk "ys" 1 order ++ blk "zc" 0 (order + 1)) [] "zs" (5 * order + 3) (by simp [bl]; omega) (by rw [e]; simp only [List.append_assoc, List.append_nil])]
    simp only [hat]
    refine Prod.ext ?_ (Prod.ext ?_ ?_) <;> dsimp only <;> ring

/-! ### Symmetries -/

/-- Rotation about the z axis. -/
noncomputable def rotz (a : ℝ) (v : V3) : V3 := (Real.cos a * v.1 - Real.sin a * v.2.1, Real.sin a * v.1 + Real.cos a * v.2.1, v.2.2)

theorem dot_congr (c : List ℝ) (a : Nat) (f g : Nat → ℝ) (h : ∀ m, f m = g m) : dot c a f = dot c a g := by rw [funext h]

/-- **C56.** Advancing the parameter by `1/nfp` rotates the curve about the z axis by `2 π ntor / nfp`. -/
theorem C56_rotation (d : List ℝ) (order nfp : Nat) (hn : 0 < nfp) (stellsym : Bool) (ntor : Int) (theta : ℝ) :
    pure d (theta + 1 / nfp) order nfp stellsym ntor = rotz (2 * Real.pi * ntor / nfp) (pure d theta order nfp stellsym ntor) := by
  have hnf : (nfp : ℝ) ≠ 0 := by exact_mod_cast hn.ne'
  have ha : ∀ m : Nat, 2 * Real.pi * nfp * m * (theta + 1 / nfp) = 2 * Real.pi * nfp * m * theta + m * (2 * Real.pi) := by intro m; field_simp
  have hang : 2 * Real.pi * (theta + 1 / nfp) * ntor = 2 * Real.pi * theta * ntor + 2 * Real.pi * ntor / nfp := by field_simp
  simp only [pure, rotz, ha, hang, Real.cos_add_nat_mul_two_pi, Real.sin_add_nat_mul_two_pi]
  generalize (if stellsym = true then _ else _ : V3) = h
  rw [Real.cos_add, Real.sin_add]
  refine Prod.ext ?_ (Prod.ext ?_ ?_) <;> dsimp only <;> ring

/-- **C56.** The curve is closed. -/
theorem C56_closed (d : List ℝ) (order nfp : Nat) (stellsym : Bool) (ntor : Int) (theta : ℝ) :
    pure d (theta + 1) order nfp stellsym ntor = pure d theta order nfp stellsym ntor := by
  have ha : ∀ m : Nat, 2 * Real.pi * nfp * m * (theta + 1) = 2 * Real.pi * nfp * m * theta + ((nfp * m : Nat) : ℝ) * (2 * Real.pi) := by intro m; push_cast; ring
  have hang : 2 * Real.pi * (theta + 1) * ntor = 2 * Real.pi * theta * ntor + ntor * (2 * Real.pi) := by ring
  simp only [pure, ha, hang, Real.cos_add_nat_mul_two_pi, Real.sin_add_nat_mul_two_pi, Real.cos_add_int_mul_two_pi, Real.sin_add_int_mul_two_pi]

theorem rotz_add (a b : ℝ) (v : V3) : rotz a (rotz b v) = rotz (a + b) v := by
  simp only [rotz, Real.cos_add, Real.sin_add]
  refine Prod.ext ?_ (Prod.ext ?_ ?_) <;> dsimp only <;> ring

theorem pure_nat_periods (d : List ℝ) (order nfp : Nat) (hn : 0 < nfp) (stellsym : Bool) (ntor : Int) (k : Nat) (theta : ℝ) :
    pure d (theta + k / nfp) order nfp stellsym ntor = rotz (k * (2 * Real.pi * ntor / nfp)) (pure d theta order nfp stellsym ntor) := by
  induction k with
  | zero => simp [rotz]
  | succ k ih =>
    rw [show theta + ((k + 1 : Nat) : ℝ) / nfp = theta + k / nfp + 1 / nfp by push_cast; ring, C56_rotation d order nfp hn, ih, rotz_add]
    congr 1; push_cast; ring

/-- **C56.** Why `nfp` and `ntor` have to be coprime: a curve that the constructor accepts is mapped to itself by the rotation by
`2 π / nfp` – there is a shift `k / nfp` of the parameter, the same for all points, that realises it. -/
theorem C56_nfp_symmetric (nfp : Nat) (hn : 0 < nfp) (ntor : Int) (hok : checkInit nfp ntor = some ()) :
    ∃ k : Nat, ∀ (d : List ℝ) (order : Nat) (stellsym : Bool) (theta : ℝ),
      pure d (theta + k / nfp) order nfp stellsym ntor = rotz (2 * Real.pi / nfp) (pure d theta order nfp stellsym ntor) := by
  have hg : Int.gcd ntor nfp = 1 := by
    unfold checkInit at hok
    by_contra h
    rw [if_pos h] at hok; cases hok
  have hnf : (nfp : ℝ) ≠ 0 := by exact_mod_cast hn.ne'
  have hnz : (nfp : Int) ≠ 0 := by exact_mod_cast hn.ne'
  have hb := Int.gcd_eq_gcd_ab ntor nfp
  rw [hg] at hb
  refine ⟨(Int.gcdA ntor nfp % nfp).toNat, ?_⟩
  intro d order stellsym theta
  rw [pure_nat_periods d order nfp hn]
  have hk : (((Int.gcdA ntor nfp % nfp).toNat : Nat) : Int) = Int.gcdA ntor nfp % nfp := Int.toNat_of_nonneg (Int.emod_nonneg _ hnz)
  obtain ⟨q, hq⟩ : ∃ q : Int, Int.gcdA ntor nfp % nfp * ntor = 1 + q * nfp := by
    have h1 := Int.emod_add_mul_ediv (Int.gcdA ntor nfp) nfp
    refine ⟨-(Int.gcdB ntor nfp) - Int.gcdA ntor nfp / nfp * ntor, ?_⟩
    push_cast at hb
    linear_combination ntor * h1 - hb
  have hk' : ((Int.gcdA ntor nfp % nfp).toNat : ℝ) = ((Int.gcdA ntor nfp % nfp : Int) : ℝ) := by rw [← hk]; push_cast; rfl
  have hq' : ((Int.gcdA ntor nfp % nfp : Int) : ℝ) * ntor = 1 + q * nfp := by exact_mod_cast hq
  rw [hk', show ((Int.gcdA ntor nfp % nfp : Int) : ℝ) * (2 * Real.pi * ntor / nfp) = 2 * Real.pi / nfp + q * (2 * Real.pi) by
    rw [show ((Int.gcdA ntor nfp % nfp : Int) : ℝ) * (2 * Real.pi * ntor / nfp) = (((Int.gcdA ntor nfp % nfp : Int) : ℝ) * ntor) * (2 * Real.pi) / nfp by ring, hq']
    field_simp]
  simp only [rotz, Real.cos_add_int_mul_two_pi, Real.sin_add_int_mul_two_pi]

/-- The constructor accepts exactly the coprime pairs; `nfp = 3, ntor = 2` is one and `nfp = 4, ntor = 2` is not. -/
theorem C56_check (nfp : Nat) (ntor : Int) : checkInit nfp ntor = some () ↔ IsCoprime ntor (nfp : Int) := by
  rw [Int.isCoprime_iff_gcd_eq_one]
  unfold checkInit
  split <;> simp_all

example : checkInit 3 2 = some () ∧ checkInit 4 2 = none ∧ checkInit 3 (-2) = some () := by decide

theorem dot_neg (c : List ℝ) (a : Nat) (f : Nat → ℝ) : dot c a (fun m => -f m) = -dot c a f := by
  simp only [dot_sum, mul_neg, Finset.sum_neg_distrib]

/-- **C56.** Stellarator symmetry: with `stellsym = True` the point at `-θ` is the image of the point at `θ` under
`(x, y, z) ↦ (x, -y, -z)`. -/
theorem C56_stellsym (d : List ℝ) (order nfp : Nat) (ntor : Int) (theta : ℝ) :
    pure d (-theta) order nfp true ntor =
      ((pure d theta order nfp true ntor).1, -(pure d theta order nfp true ntor).2.1, -(pure d theta order nfp true ntor).2.2) := by
  simp only [pure, if_true, mul_neg, neg_mul, Real.cos_neg, Real.sin_neg, dot_neg]
  refine Prod.ext ?_ (Prod.ext ?_ ?_) <;> dsimp only <;> ring

/-- Non-vacuity of C56_series: two distinct names with distinct effect. -/
example : pure ((makeNames 1 true).map fun s => if s = "xc(1)" then 1 else 0) 0 1 2 true 1 = (1, 0, 0) := by
  have h0 : nm "xc" 0 ≠ "xc(1)" := by decide
  have h1 : nm "xc" 1 = "xc(1)" := by decide
  have h2 : nm "ys" 1 ≠ "xc(1)" := by decide
  have h3 : nm "zs" 1 ≠ "xc(1)" := by decide
  rw [C56_series, if_pos rfl]
  simp only [documented, hat, Finset.sum_range_succ, Finset.sum_range_zero, if_neg h0, if_pos h1, if_neg h2, if_neg h3, Nat.zero_add]
  simp

/-! ### CurveHelical -/

/-- `jaxHelicalfouriercurve_pure` (curvehelical.py L9-21) at one quadrature point, `len(dofs) == 2*order`. -/
noncomputable def helical (dofs : List ℝ) (t : ℝ) (order : Nat) (n0 l0 : Int) (R0 r0 : ℝ) : V3 :=
  let A := slice dofs 0 order
  let B := slice dofs order dofs.length
  let phi := t * 2 * Real.pi * (l0 : ℝ)
  let AcosArray := dot A 0 (fun m : Nat => Real.cos ((m : ℝ) * phi * (n0 : ℝ) / (l0 : ℝ)))
  let BsinArray := dot B 0 (fun m : Nat => Real.sin ((m : ℝ) * phi * (n0 : ℝ) / (l0 : ℝ)))
  let eta := (n0 : ℝ) * phi / (l0 : ℝ) + AcosArray + BsinArray
  ((R0 + r0 * Real.cos eta) * Real.cos phi, (R0 + r0 * Real.cos eta) * Real.sin phi, -r0 * Real.sin eta)

/-- `set_dofs_impl` (L64-67) then `get_dofs` (L61-62). -/
def helicalSetGet (dofs : List ℝ) : List ℝ :=
  let order := dofs.length / 2
  slice dofs 0 order ++ slice dofs order (2 * order)

/-- **C57.** `get_dofs()` returns the vector that was set, when it has the even length `2*order`. -/
theorem C57_set_get (dofs : List ℝ) (order : Nat) (h : dofs.length = 2 * order) : helicalSetGet dofs = dofs := by
  simp only [helicalSetGet, slice, h]
  rw [Nat.mul_div_cancel_left _ (by omega), Nat.sub_zero, List.drop_zero, show 2 * order - order = order by omega,
    List.take_of_length_le (l := dofs.drop order) (by simp; omega), List.take_append_drop]

/-- The documented series (with `n_0` where the docstring writes `m_0`) on the torus of radii `R0`, `r0`. -/
noncomputable def helicalDocumented (A B : Nat → ℝ) (order : Nat) (n0 l0 : Int) (R0 r0 phi : ℝ) : V3 :=
  let eta := n0 * phi / l0 + ∑ k ∈ Finset.range order, (A k * Real.cos (n0 * phi * k / l0) + B k * Real.sin (n0 * phi * k / l0))
  ((R0 + r0 * Real.cos eta) * Real.cos phi, (R0 + r0 * Real.cos eta) * Real.sin phi, -r0 * Real.sin eta)

/-- **C57.** `gamma` is the documented series: `A_k` is dof `k`, `B_k` is dof `order + k`, the toroidal angle is `2 π l0 t`. -/
theorem C57_series (dofs : List ℝ) (t : ℝ) (order : Nat) (n0 l0 : Int) (R0 r0 : ℝ) (h : dofs.length = 2 * order) :
    helical dofs t order n0 l0 R0 r0 =
      helicalDocumented (fun k => dofs[k]?.getD 0) (fun k => dofs[order + k]?.getD 0) order n0 l0 R0 r0 (2 * Real.pi * l0 * t) := by
  simp only [helical, helicalDocumented]
  rw [dot_slice _ _ _ _ _ (by omega), dot_slice _ _ _ _ _ (by omega), h, show 2 * order - order = order by omega, Nat.sub_zero,
    show t * 2 * Real.pi * (l0 : ℝ) = 2 * Real.pi * l0 * t by ring, Finset.sum_add_distrib]
  simp only [Nat.zero_add]
  have e : ∀ k : ℝ, k * (2 * Real.pi * l0 * t) * n0 / l0 = n0 * (2 * Real.pi * l0 * t) * k / l0 := by intro k; ring
  simp only [e, add_assoc]

/-- **C57.** The curve lies on the torus of radii `R0 ≥ r0 ≥ 0`. -/
theorem C57_on_torus (dofs : List ℝ) (t : ℝ) (order : Nat) (n0 l0 : Int) (R0 r0 : ℝ) (h0 : 0 ≤ r0) (hR : r0 ≤ R0) :
    let g := helical dofs t order n0 l0 R0 r0
    (Real.sqrt (g.1 ^ 2 + g.2.1 ^ 2) - R0) ^ 2 + g.2.2 ^ 2 = r0 ^ 2 := by
  simp only [helical]
  generalize (n0 : ℝ) * _ / (l0 : ℝ) + _ + _ = eta
  generalize t * 2 * Real.pi * (l0 : ℝ) = phi
  have hpos : 0 ≤ R0 + r0 * Real.cos eta := by nlinarith [Real.neg_one_le_cos eta, mul_le_mul_of_nonneg_left (Real.neg_one_le_cos eta) h0]
  have e : ((R0 + r0 * Real.cos eta) * Real.cos phi) ^ 2 + ((R0 + r0 * Real.cos eta) * Real.sin phi) ^ 2 = (R0 + r0 * Real.cos eta) ^ 2 := by
    have := Real.sin_sq_add_cos_sq phi
    linear_combination (R0 + r0 * Real.cos eta) ^ 2 * this
  rw [e, Real.sqrt_sq hpos]
  have := Real.sin_sq_add_cos_sq eta
  linear_combination r0 ^ 2 * this

/-- **C57.** Advancing the parameter by `1/n0` rotates the curve by `2 π l0 / n0`. -/
theorem C57_rotation (dofs : List ℝ) (t : ℝ) (order : Nat) (n0 l0 : Int) (hn : n0 ≠ 0) (hl : l0 ≠ 0) (R0 r0 : ℝ) :
    helical dofs (t + 1 / n0) order n0 l0 R0 r0 = rotz (2 * Real.pi * l0 / n0) (helical dofs t order n0 l0 R0 r0) := by
  have hn' : (n0 : ℝ) ≠ 0 := by exact_mod_cast hn
  have hl' : (l0 : ℝ) ≠ 0 := by exact_mod_cast hl
  have hphi : (t + 1 / n0) * 2 * Real.pi * (l0 : ℝ) = t * 2 * Real.pi * l0 + 2 * Real.pi * l0 / n0 := by field_simp
  have hm : ∀ m : Nat, (m : ℝ) * (t * 2 * Real.pi * l0 + 2 * Real.pi * l0 / n0) * n0 / l0 = (m : ℝ) * (t * 2 * Real.pi * l0) * n0 / l0 + m * (2 * Real.pi) := by
    intro m; field_simp
  have h1 : (n0 : ℝ) * (t * 2 * Real.pi * l0 + 2 * Real.pi * l0 / n0) / l0 = n0 * (t * 2 * Real.pi * l0) / l0 + 2 * Real.pi := by field_simp
  simp only [helical, hphi, hm, h1, Real.cos_add_nat_mul_two_pi, Real.sin_add_nat_mul_two_pi]
  generalize dot _ _ _ = a
  generalize dot _ _ _ = b
  rw [show (n0 : ℝ) * (t * 2 * Real.pi * l0) / l0 + 2 * Real.pi + a + b = (n0 * (t * 2 * Real.pi * l0) / l0 + a + b) + 2 * Real.pi by ring,
    Real.cos_add_two_pi, Real.sin_add_two_pi]
  generalize (n0 : ℝ) * _ / (l0 : ℝ) + a + b = eta
  rw [Real.cos_add, Real.sin_add]
  simp only [rotz]
  refine Prod.ext ?_ (Prod.ext ?_ ?_) <;> dsimp only <;> ring

/-- **C57.** The curve is closed. -/
theorem C57_closed (dofs : List ℝ) (t : ℝ) (order : Nat) (n0 l0 : Int) (hl : l0 ≠ 0) (R0 r0 : ℝ) :
    helical dofs (t + 1) order n0 l0 R0 r0 = helical dofs t order n0 l0 R0 r0 := by
  have hl' : (l0 : ℝ) ≠ 0 := by exact_mod_cast hl
  have hphi : (t + 1) * 2 * Real.pi * (l0 : ℝ) = t * 2 * Real.pi * l0 + l0 * (2 * Real.pi) := by ring
  have hm : ∀ m : Nat, (m : ℝ) * (t * 2 * Real.pi * l0 + l0 * (2 * Real.pi)) * n0 / l0 = (m : ℝ) * (t * 2 * Real.pi * l0) * n0 / l0 + ((m * n0 : Int) : ℝ) * (2 * Real.pi) := by
    intro m; push_cast; field_simp
  have h1 : (n0 : ℝ) * (t * 2 * Real.pi * l0 + l0 * (2 * Real.pi)) / l0 = n0 * (t * 2 * Real.pi * l0) / l0 + n0 * (2 * Real.pi) := by field_simp
  simp only [helical, hphi, hm, h1, Real.cos_add_int_mul_two_pi, Real.sin_add_int_mul_two_pi]
  generalize dot _ _ _ = a
  generalize dot _ _ _ = b
  rw [show (n0 : ℝ) * (t * 2 * Real.pi * l0) / l0 + n0 * (2 * Real.pi) + a + b = (n0 * (t * 2 * Real.pi * l0) / l0 + a + b) + n0 * (2 * Real.pi) by ring,
    Real.cos_add_int_mul_two_pi, Real.sin_add_int_mul_two_pi]

/-- **C57.** Dof `order` (the coefficient `B_0` of `sin 0`) never has an effect: any optimisation over the curve has a null direction
unless that dof is fixed. -/
theorem C57_null_dof (dofs : List ℝ) (t : ℝ) (order : Nat) (n0 l0 : Int) (R0 r0 x : ℝ) (h : dofs.length = 2 * order) :
    helical (dofs.set order x) t order n0 l0 R0 r0 = helical dofs t order n0 l0 R0 r0 := by
  rw [C57_series _ _ _ _ _ _ _ (by simpa using h), C57_series _ _ _ _ _ _ _ h]
  simp only [helicalDocumented]
  have : ∀ k ∈ Finset.range order,
      (dofs.set order x)[k]?.getD 0 * Real.cos (n0 * (2 * Real.pi * l0 * t) * k / l0) + (dofs.set order x)[order + k]?.getD 0 * Real.sin (n0 * (2 * Real.pi * l0 * t) * k / l0) =
      dofs[k]?.getD 0 * Real.cos (n0 * (2 * Real.pi * l0 * t) * k / l0) + dofs[order + k]?.getD 0 * Real.sin (n0 * (2 * Real.pi * l0 * t) * k / l0) := by
    intro k hk
    have hk := Finset.mem_range.mp hk
    rw [List.getElem?_set_ne (by omega)]
    by_cases h0 : k = 0
    · subst h0; simp
    · rw [List.getElem?_set_ne (by omega)]
  rw [Finset.sum_congr rfl this]

end Simsopt.Symm
