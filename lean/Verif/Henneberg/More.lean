import Verif.Henneberg.Shape
import Verif.Util.Trig
/-! # C142: SurfaceHenneberg, symmetries, dofs, from_RZFourier, disagreements -/
namespace Simsopt.Henne
open Simsopt Simsopt.Coils Simsopt.RZSurf

/-! ### Symmetries -/

theorem gamma_Z0 (h : Hen) (x : ℝ) (p q : ℝ) : gamma { h with Z0 := fun n => if n = 0 then x else h.Z0 n } p q = gamma h p q := by
  have e : ∀ phi, Z0H { h with Z0 := fun n => if n = 0 then x else h.Z0 n } phi = Z0H h phi := by
    intro phi
    rw [Z0H, Z0H, loop_sum, loop_sum]
    congr 1
    apply List.map_congr_left
    intro n hn
    have : n ≠ 0 := by have := List.mem_range'_1.mp hn; omega
    simp only [this, if_false]
  simp only [gamma, Zcyl, e]
  rfl

/-- **C142.** The surface has `nfp` field periods, is periodic in the poloidal coordinate, and is stellarator symmetric, for every value of the dofs. -/
theorem C142_symmetry (h : Hen) (hk : Ok h) (p q : ℝ) (a b : Int) :
    gamma h (p + a / h.nfp) (q + b) = rotZ (2 * Real.pi * a / h.nfp) (gamma h p q) ∧ gamma h (-p) (-q) = mirror (gamma h p q) := by
  obtain ⟨r, _, hs, hn, hg⟩ := C142_to_RZFourier { h with Z0 := fun n => if n = 0 then 0 else h.Z0 n } hk (by simp)
  have hg' : ∀ p q, RZSurf.gamma r (fun _ => 0) p q = gamma h p q := fun p q => by rw [hg, gamma_Z0]
  have hn0 : r.nfp = h.nfp := hn
  have e : ∀ p q, value r (fun _ => 0) .g p q = RZSurf.gamma r (fun _ => 0) p q := fun p q => rfl
  have h1 := C68_field_period r (by have := hk.1; rw [hn0]; omega) (fun _ => 0) (fun _ => 0) .g p q a b
  have h2 := C68_stellsym r hs (fun _ => 0) (fun _ => 0) .g p q
  rw [e, e, hg', hg', hn0] at h1
  rw [e, e, hg', hg'] at h2
  exact ⟨h1, by simpa [Fam.order] using h2⟩

/-! ### Dofs -/

/-- The coefficient a dof name stands for. -/
noncomputable def nameVal (h : Hen) : Name → ℝ
  | .R0 n => h.R0 n.toNat
  | .Z0 n => h.Z0 n.toNat
  | .b n => h.b n.toNat
  | .rho m n => coefRho h m n

theorem coefRho_eq (h : Hen) (m n : Int) (hv : validMn h m n = true) : coefRho h m n = h.rho m.toNat (n + h.nmax).toNat := by simp [coefRho, getRho, hv]

theorem rho_block (h : Hen) : ((List.range' 1 h.mmax).flatMap fun (m : Nat) => (intRange (-h.nmax) (h.nmax + 1)).map fun n => (Name.rho m n)) =
    (List.range (h.mmax * (2 * h.nmax + 1))).map fun j => Name.rho ((j / (2 * h.nmax + 1) + 1 : Nat) : Int) ((j % (2 * h.nmax + 1) : Nat) - (h.nmax : Int)) := by
  have hg := congrArg (List.map fun mi : Nat × Nat => Name.rho ((mi.1 + 1 : Nat) : Int) ((mi.2 : Int) - h.nmax)) (grid_eq (2 * h.nmax + 1) (by omega) h.mmax)
  rw [List.map_map, List.map_flatMap] at hg
  simp only [List.map_map] at hg
  have e : List.range' 1 h.mmax = (List.range h.mmax).map (· + 1) := by
    rw [List.range'_eq_map_range]; apply List.map_congr_left; intro a _; omega
  have e2 : intRange (-h.nmax) (h.nmax + 1) = (List.range (2 * h.nmax + 1)).map fun (i : Nat) => (i : Int) - h.nmax := by
    have : ((h.nmax : Int) + 1 - (-h.nmax)).toNat = 2 * h.nmax + 1 := by omega
    rw [intRange, this]; apply List.map_congr_left; intro j _; ring
  rw [e, List.flatMap_map]
  simp only [e2, List.map_map]
  exact hg

theorem names_map (h : Hen) : getDofs h = (makeNames h).map (nameVal h) := by
  have e1 : (intRange 1 (h.nmax + 1)).map (fun n => nameVal h (.rho 0 n)) = (List.range' (h.nmax + 1) h.nmax).map (h.rho 0) := by
    have : ((h.nmax : Int) + 1 - 1).toNat = h.nmax := by omega
    rw [intRange, this, List.map_map, List.range'_eq_map_range, List.map_map]
    apply List.map_congr_left
    intro j hj
    have hj := List.mem_range.mp hj
    simp only [Function.comp, nameVal]
    rw [coefRho_eq _ _ _ (by simp [validMn]; omega)]
    congr 1; omega
  have e2 : (List.range (h.mmax * (2 * h.nmax + 1))).map (fun j => nameVal h (Name.rho ((j / (2 * h.nmax + 1) + 1 : Nat) : Int) ((j % (2 * h.nmax + 1) : Nat) - (h.nmax : Int)))) =
      (List.range (h.mmax * (2 * h.nmax + 1))).map fun j => h.rho (j / (2 * h.nmax + 1) + 1) (j % (2 * h.nmax + 1)) := by
    apply List.map_congr_left
    intro j hj
    have hj := List.mem_range.mp hj
    have a1 : j / (2 * h.nmax + 1) < h.mmax := Nat.div_lt_of_lt_mul (by rw [Nat.mul_comm]; exact hj)
    have a2 : j % (2 * h.nmax + 1) < 2 * h.nmax + 1 := Nat.mod_lt _ (by omega)
    generalize j / (2 * h.nmax + 1) = A at *
    generalize j % (2 * h.nmax + 1) = B at *
    simp only [nameVal]
    rw [coefRho_eq _ _ _ (by simp [validMn]; omega)]
    congr 1; omega
  rw [makeNames, rho_block, getDofs]
  simp only [List.map_append, List.map_map]
  rw [show (nameVal h ∘ fun n => Name.rho 0 n) = fun n => nameVal h (.rho 0 n) from rfl, e1]
  refine congrArg₂ _ rfl (congrArg₂ _ rfl (congrArg₂ _ rfl (congrArg₂ _ rfl ?_)))
  exact e2.symm

theorem names_length (h : Hen) : (makeNames h).length = numDofs h := by
  have : ((h.nmax : Int) + 1 - 1).toNat = h.nmax := by omega
  rw [makeNames, rho_block]
  simp [intRange, numDofs]; omega

theorem chunk (v : List ℝ) (i a : Nat) (h : i + a ≤ v.length) : (List.range a).map (fun j => v[i + j]?.getD 0) ++ v.drop (i + a) = v.drop i := by
  have e : (List.range a).map (fun j => v[i + j]?.getD 0) = (v.drop i).take a := by
    apply List.ext_getElem
    · simp; omega
    · intro k h1 h2
      have hk : k < a := by simpa using h1
      simp [List.getElem?_eq_getElem (show i + k < v.length by omega)]
  rw [e, ← List.drop_drop, List.take_append_drop]

/-- **C142.** The dof vector: `get_dofs()` lists the coefficients in the order of the (distinct) dof names, `num_dofs()` is its length; setting the dofs succeeds exactly for
vectors of that length, reading them back gives the vector, and the parameters are unchanged. -/
theorem C142_dofs (h : Hen) :
    getDofs h = (makeNames h).map (nameVal h) ∧ (getDofs h).length = numDofs h ∧ (makeNames h).Nodup ∧
    ∀ v : List ℝ, (v.length ≠ numDofs h → setDofs h v = none) ∧
      (v.length = numDofs h → ∃ h', setDofs h v = some h' ∧ getDofs h' = v ∧ (h'.nfp, h'.alphaFac, h'.mmax, h'.nmax) = (h.nfp, h.alphaFac, h.mmax, h.nmax)) := by
  refine ⟨names_map h, by rw [names_map, List.length_map, names_length], ?_, fun v => ⟨fun hv => by simp [setDofs, hv], fun hv => ?_⟩⟩
  · rw [makeNames, rho_block]
    have n0 : ∀ {α : Type} (l : List α) (f : α → Name), l.Nodup → Function.Injective f → (l.map f).Nodup := fun l f hl hf => hl.map hf
    have nI : (intRange 1 (h.nmax + 1)).Nodup := by
      unfold intRange
      apply List.Nodup.map _ List.nodup_range
      intro x y h; simpa using h
    refine List.nodup_append'.mpr ⟨n0 _ _ List.nodup_range (fun a b h => by simpa using h), List.nodup_append'.mpr ⟨n0 _ _ List.nodup_range' (fun a b h => by simpa using h),
      List.nodup_append'.mpr ⟨n0 _ _ List.nodup_range (fun a b h => by simpa using h), List.nodup_append'.mpr ⟨n0 _ _ nI (fun a b h => by simpa using h), n0 _ _ List.nodup_range ?_, ?_⟩, ?_⟩, ?_⟩, ?_⟩
    · intro a b hab
      simp only [Name.rho.injEq, Nat.cast_inj, sub_left_inj, Nat.add_right_cancel_iff] at hab
      rw [← Nat.div_add_mod a (2 * h.nmax + 1), ← Nat.div_add_mod b (2 * h.nmax + 1), hab.1, hab.2]
    · intro x hx hy
      obtain ⟨n, _, rfl⟩ := List.mem_map.mp hx
      obtain ⟨j, _, hj⟩ := List.mem_map.mp hy
      simp only [Name.rho.injEq] at hj
      exact absurd (Int.ofNat.inj hj.1) (Nat.succ_ne_zero (j / (2 * h.nmax + 1)))
    all_goals
      intro x hx hy
      obtain ⟨n, _, rfl⟩ := List.mem_map.mp hx
      simp at hy
  · refine ⟨_, if_neg (not_not.mpr hv), ?_, rfl⟩
    have hv' := hv
    simp only [numDofs] at hv'
    have c1 := chunk v 0 (h.nmax + 1) (by omega)
    have c2 := chunk v (h.nmax + 1) h.nmax (by omega)
    have c3 := chunk v (h.nmax + 1 + h.nmax) (h.nmax + 1) (by omega)
    have c4 := chunk v (h.nmax + 1 + h.nmax + (h.nmax + 1)) h.nmax (by omega)
    have c5 := chunk v (h.nmax + 1 + h.nmax + (h.nmax + 1) + h.nmax) (h.mmax * (2 * h.nmax + 1)) (by omega)
    have c6 : v.drop (h.nmax + 1 + h.nmax + (h.nmax + 1) + h.nmax + h.mmax * (2 * h.nmax + 1)) = [] := List.drop_eq_nil_of_le (by omega)
    rw [c6, List.append_nil] at c5
    rw [← c5] at c4
    rw [← c4] at c3
    rw [← c3] at c2
    rw [zero_add, ← c2] at c1
    rw [List.drop_zero] at c1
    refine Eq.trans ?_ c1
    simp only [getDofs]
    refine congrArg₂ _ ?_ (congrArg₂ _ ?_ (congrArg₂ _ ?_ (congrArg₂ _ ?_ ?_)))
    · apply List.map_congr_left; intro n _; simp
    · rw [List.range'_eq_map_range, List.map_map]
      apply List.map_congr_left; intro n _
      simp [Function.comp]
    · rfl
    · rw [List.range'_eq_map_range, List.map_map]
      apply List.map_congr_left; intro n _
      simp [Function.comp]
    · apply List.map_congr_left; intro j _
      simp only [Nat.add_eq_zero_iff, one_ne_zero, and_false, if_false, Nat.add_sub_cancel]
      rw [Nat.mul_comm, Nat.div_add_mod]

example : ∃ h, construct 3 1 2 4 = some h ∧ Ok h ∧ numDofs h = 36 := by
  refine ⟨_, by simp [construct, setRho, validMn]; rfl, ⟨by norm_num, by simp, by norm_num⟩, by norm_num [numDofs]⟩

/-- A change made with `set_rhomn` does not reach the dof vector: setting any dof afterwards gives the object that would have resulted without it. -/
theorem C142_set_rhomn (h : Hen) (m n : Int) (v : ℝ) (i : Nat) (w : ℝ) (o1 o2 o3 : Obj) (h1 : (newObj h).setRho m n v = some o1) (h2 : o1.setOne i w = some o2)
    (h3 : (newObj h).setOne i w = some o3) : (∀ nm ∈ makeNames h, nameVal o2.h nm = nameVal o3.h nm) ∧ o2.x = o3.x := by
  simp only [Obj.setRho, newObj, setRho] at h1
  by_cases hvalid : validMn h m n = true
  · simp only [hvalid, if_true] at h1
    simp only [Option.map_some, Option.some.injEq] at h1
    subst h1
    have hi : i < (getDofs h).length := by
      by_contra hi
      simp [Obj.setOne, hi] at h2
    have hl : ((getDofs h).set i w).length = (getDofs h).length := List.length_set
    have hlen : ((getDofs h).set i w).length = numDofs h := by rw [hl]; exact (C142_dofs h).2.1
    obtain ⟨a, ea, ga, pa⟩ := ((C142_dofs { h with rho := fun a j => if a = m.toNat ∧ j = (n + h.nmax).toNat then v else h.rho a j }).2.2.2 ((getDofs h).set i w)).2 hlen
    obtain ⟨c, ec, gc, pc⟩ := ((C142_dofs h).2.2.2 ((getDofs h).set i w)).2 hlen
    simp only [Obj.setOne, hi, if_true, Obj.setX, hl] at h2
    erw [ea] at h2
    rw [Option.map_some, Option.some.injEq] at h2
    have h3' : (newObj h).setOne i w = some ⟨c, (getDofs h).set i w⟩ := by simp only [newObj, Obj.setOne, hi, if_true, Obj.setX, hl, ec, Option.map_some]
    rw [h3', Option.some.injEq] at h3
    subst h2; subst h3
    refine ⟨?_, rfl⟩
    simp only [Prod.mk.injEq] at pa pc
    have na : makeNames a = makeNames h := by simp only [makeNames, pa.2.2.1, pa.2.2.2]
    have nc : makeNames c = makeNames h := by simp only [makeNames, pc.2.2.1, pc.2.2.2]
    have := ga.trans gc.symm
    rw [names_map, names_map, na, nc] at this
    exact List.map_inj_left.mp this
  · exact absurd h1 (by simp [hvalid])

/-- **C142, violated.** `set_rhomn(1, 0, 5)` followed by setting the dof `R0nH(0)`: the coefficient is 0.1 again. -/
theorem C142_set_rhomn_violated : ∃ h o1 o2, construct 3 1 2 4 = some h ∧ (newObj h).setRho 1 0 5 = some o1 ∧ getRho o1.h 1 0 = some 5 ∧ (makeNames h)[0]? = some (.R0 0) ∧
    o1.setOne 0 2 = some o2 ∧ o2.h.R0 0 = 2 ∧ getRho o2.h 1 0 = some 0.1 := by
  obtain ⟨h, hh, hv, hr⟩ : ∃ h, construct 3 1 2 4 = some h ∧ (h.mmax = 2 ∧ h.nmax = 4) ∧ getRho h 1 0 = some 0.1 :=
    ⟨_, by simp [construct, setRho, validMn]; rfl, ⟨rfl, rfl⟩, by simp [getRho, validMn]⟩
  have hval : validMn h 1 0 = true := by simp [validMn, hv.1, hv.2]
  have hlen : numDofs h = 36 := by simp [numDofs, hv.1, hv.2]
  have hx : (getDofs h).length = 36 := by rw [(C142_dofs h).2.1, hlen]
  have n0 : (makeNames h)[0]? = some (.R0 0) := by simp [makeNames, List.range_succ_eq_map]
  let h1 : Hen := { h with rho := fun a i => if a = (1 : Int).toNat ∧ i = ((0 : Int) + h.nmax).toNat then 5 else h.rho a i }
  have e1 : (newObj h).setRho 1 0 5 = some ⟨h1, getDofs h⟩ := by simp [Obj.setRho, newObj, setRho, hval, h1]
  have hl : ((getDofs h).set 0 2).length = numDofs h1 := by rw [List.length_set, hx]; exact hlen.symm
  obtain ⟨h2, e2, g2, p2⟩ := ((C142_dofs h1).2.2.2 ((getDofs h).set 0 2)).2 hl
  have e3 : Obj.setOne ⟨h1, getDofs h⟩ 0 2 = some ⟨h2, (getDofs h).set 0 2⟩ := by
    simp [Obj.setOne, Obj.setX, hx, e2]
  have hlc : ((getDofs h).set 0 2).length = numDofs h := by rw [List.length_set, hx, hlen]
  obtain ⟨h3, ec, gc, pc⟩ := ((C142_dofs h).2.2.2 ((getDofs h).set 0 2)).2 hlc
  have e4 : (newObj h).setOne 0 2 = some ⟨h3, (getDofs h).set 0 2⟩ := by simp [newObj, Obj.setOne, Obj.setX, hx, ec]
  simp only [Prod.mk.injEq] at p2
  refine ⟨h, _, _, hh, e1, ?_, n0, e3, ?_, ?_⟩
  · have : validMn h1 1 0 = true := hval
    rw [getRho, if_pos this]; simp [h1]
  · simp only [setDofs, hl, ne_eq, not_true_eq_false, if_false, Option.some.injEq] at e2
    rw [← e2]
    simp [show 0 < (getDofs h).length by omega]
  · have hv2 : validMn h2 1 0 = true := by
      have : h2.mmax = 2 ∧ h2.nmax = 4 := ⟨p2.2.2.1.trans hv.1, p2.2.2.2.trans hv.2⟩
      simp [validMn, this.1, this.2]
    have key : h2.rho 1 4 = h.rho 1 4 := by
      simp only [setDofs, hl, ne_eq, not_true_eq_false, if_false, Option.some.injEq] at e2
      rw [← e2]
      have hn1 : h1.nmax = 4 := hv.2
      simp only [one_ne_zero, if_false, hn1]
      norm_num
      rw [(C142_dofs h).1]
      simp [makeNames, hv.1, hv.2, intRange, List.range_succ_eq_map, List.range'_succ, nameVal, coefRho_eq, validMn]
    have hn2 : h2.nmax = 4 := p2.2.2.2.trans hv.2
    have := hr
    simp only [getRho, hval, if_true, Option.some.injEq, hv.2] at this
    simp only [getRho, hv2, if_true, Option.some.injEq, hn2]
    norm_num at this ⊢
    rw [show Int.toNat 4 = 4 from rfl] at *
    rw [key, this]
end Simsopt.Henne
