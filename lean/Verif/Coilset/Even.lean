import Verif.Coilset.Ring
import Mathlib.Data.Set.Function
/-!
# C161: the full set of coils
-/
namespace Simsopt.Coilset
open Simsopt Coils Geometry

theorem mapM_ok {α β : Type} (f : α → β) (l : List α) : (l.mapM fun i => (Except.ok (f i) : Except Err β)) = .ok (l.map f) := by
  induction l with
  | nil => rfl
  | cons a l ih => rw [List.mapM_cons, ih]; rfl

theorem equallySpaced_ok (n nfp : ℕ) (stellsym : Bool) (R0 R1 : ℝ) (o : ℕ) : ∃ ds, equallySpaced n nfp stellsym R0 R1 (o + 1) = .ok ds ∧ ds.length = n ∧
    ∀ i < n, ∀ t, xyz 0 (o + 1) (ds[i]?.getD []) t = ring R0 R1 (angle n nfp stellsym i) t ∧ xyz 1 (o + 1) (ds[i]?.getD []) t = ringDash R1 (angle n nfp stellsym i) t := by
  choose f hf hx using fun i => C161_base n nfp stellsym R0 R1 o i
  refine ⟨(List.range n).map f, ?_, by simp, fun i hi t => ?_⟩
  · unfold equallySpaced
    rw [show (fun i => equalDofs n nfp stellsym R0 R1 (o + 1) i) = fun i => Except.ok (f i) from funext hf]
    exact mapM_ok f _
  · rw [List.getElem?_map, List.getElem?_range hi]
    exact hx i t

theorem rotZ_ring (R0 R1 a t phi : ℝ) : rotZ phi (ring R0 R1 a t) = ring R0 R1 (a + phi) t := by
  unfold rotZ ring
  rw [Real.cos_add, Real.sin_add]
  refine Prod.ext ?_ (Prod.ext ?_ rfl) <;> simp only <;> ring

theorem rotZ_ringDash (R1 a t phi : ℝ) : rotZ phi (ringDash R1 a t) = ringDash R1 (a + phi) t := by
  unfold rotZ ringDash
  rw [Real.cos_add, Real.sin_add]
  refine Prod.ext ?_ (Prod.ext ?_ rfl) <;> simp only <;> ring

theorem mirror_ring (R0 R1 a t : ℝ) : mirror (ring R0 R1 a t) = ring R0 R1 (-a) (-t) := by
  unfold mirror ring
  rw [Real.cos_neg, Real.sin_neg, mul_neg, Real.cos_neg, Real.sin_neg]
  refine Prod.ext ?_ (Prod.ext ?_ ?_) <;> simp only <;> ring

theorem mirror_ringDash (R1 a t : ℝ) : mirror (ringDash R1 a t) = -ringDash R1 (-a) (-t) := by
  unfold mirror ringDash
  rw [Real.cos_neg, Real.sin_neg, mul_neg, Real.cos_neg, Real.sin_neg]
  refine Prod.ext ?_ (Prod.ext ?_ ?_) <;> simp only [Prod.fst_neg, Prod.snd_neg] <;> ring

theorem ring_turn (R0 R1 a t : ℝ) : ring R0 R1 (a + 2 * Real.pi) t = ring R0 R1 a t := by
  unfold ring
  rw [Real.cos_add_two_pi, Real.sin_add_two_pi]

theorem ringDash_turn (R1 a t : ℝ) : ringDash R1 (a + 2 * Real.pi) t = ringDash R1 a t := by
  unfold ringDash
  rw [Real.cos_add_two_pi, Real.sin_add_two_pi]

/-- Where coil `j` stands. -/
def position (n T : ℕ) (stellsym : Bool) (j : ℕ) : ℕ := if stellsym = true ∧ j / n % 2 = 1 then T + n - 1 - j else j

theorem position_lt {n nfp : ℕ} {stellsym : Bool} (hn : 0 < n) {j : ℕ} (hj : j < n * nfp * (1 + stellsym.toNat)) :
    position n (n * nfp * (1 + stellsym.toNat)) stellsym j < n * nfp * (1 + stellsym.toNat) := by
  unfold position
  by_cases h : stellsym = true ∧ j / n % 2 = 1
  · rw [if_pos h]
    have : n ≤ j := by
      by_contra hc
      have : j / n = 0 := Nat.div_eq_of_lt (by omega)
      rw [this] at h
      omega
    omega
  · rw [if_neg h]; exact hj

theorem position_block {n nfp j : ℕ} (hn : 0 < n) (hj : j < n * nfp * 2) (h : j / n % 2 = 1) : (n * nfp * 2 + n - 1 - j) / n % 2 = 1 := by
  have e := Nat.div_add_mod j n
  have hm := Nat.mod_lt j hn
  generalize hq : j / n = q at *
  generalize hi : j % n = i at *
  have hq2 : q < 2 * nfp := by
    by_contra hc
    have : n * (2 * nfp) ≤ n * q := Nat.mul_le_mul_left n (by omega)
    have h3 : n * nfp * 2 = n * (2 * nfp) := by ring
    omega
  obtain ⟨r, hr⟩ : ∃ r, 2 * nfp = q + r := ⟨2 * nfp - q, by omega⟩
  have h3 : n * nfp * 2 = n * q + n * r := by rw [mul_assoc, mul_comm nfp 2, hr]; ring
  have h4 : n * nfp * 2 + n - 1 - j = n * r + (n - 1 - i) := by rw [h3]; omega
  rw [h4, Nat.mul_add_div hn, Nat.div_eq_of_lt (by omega)]
  omega

theorem position_bij (n nfp : ℕ) (stellsym : Bool) : Set.BijOn (position n (n * nfp * (1 + stellsym.toNat)) stellsym) (Set.Iio (n * nfp * (1 + stellsym.toNat))) (Set.Iio (n * nfp * (1 + stellsym.toNat))) := by
  rcases Nat.eq_zero_or_pos n with h0 | hn
  · subst h0; simp
  have maps : Set.MapsTo (position n (n * nfp * (1 + stellsym.toNat)) stellsym) (Set.Iio (n * nfp * (1 + stellsym.toNat))) (Set.Iio (n * nfp * (1 + stellsym.toNat))) := fun j hj => position_lt hn hj
  have inv : ∀ j ∈ Set.Iio (n * nfp * (1 + stellsym.toNat)), position n (n * nfp * (1 + stellsym.toNat)) stellsym (position n (n * nfp * (1 + stellsym.toNat)) stellsym j) = j := by
    intro j hj
    cases stellsym with
    | false => simp [position]
    | true =>
      have hj' : j < n * nfp * 2 := hj
      show position n (n * nfp * 2) true (position n (n * nfp * 2) true j) = j
      by_cases h : j / n % 2 = 1
      · have e1 : position n (n * nfp * 2) true j = n * nfp * 2 + n - 1 - j := if_pos ⟨rfl, h⟩
        have e2 : position n (n * nfp * 2) true (n * nfp * 2 + n - 1 - j) = n * nfp * 2 + n - 1 - (n * nfp * 2 + n - 1 - j) := if_pos ⟨rfl, position_block hn hj' h⟩
        rw [e1, e2]; omega
      · have e1 : position n (n * nfp * 2) true j = j := if_neg (by simp [h])
        rw [e1, e1]
  exact Set.InvOn.bijOn ⟨inv, inv⟩ maps maps

theorem place_angle (n nfp : ℕ) (stellsym : Bool) (i : ℕ) : angle n nfp stellsym i = place (n * nfp * (1 + stellsym.toNat)) i := by
  unfold angle place
  push_cast
  rw [show ((1 : ℝ) + stellsym.toNat) * nfp * n = n * nfp * (1 + stellsym.toNat) by ring]
  ring

theorem place_shift {n nfp : ℕ} {stellsym : Bool} (hn : 0 < n) (hf : 0 < nfp) (i k : ℕ) :
    place (n * nfp * (1 + stellsym.toNat)) i + 2 * Real.pi * k / nfp = place (n * nfp * (1 + stellsym.toNat)) (k * (1 + stellsym.toNat) * n + i) := by
  unfold place
  have h1 : (n : ℝ) ≠ 0 := by exact_mod_cast hn.ne'
  have h2 : (nfp : ℝ) ≠ 0 := by exact_mod_cast hf.ne'
  have h3 : (1 : ℝ) + (stellsym.toNat : ℝ) ≠ 0 := by positivity
  push_cast
  field_simp
  ring

theorem place_neg {T p : ℕ} (hp : p < T) : -place T p + 2 * Real.pi = place T (T - 1 - p) := by
  unfold place
  have h1 : (T : ℝ) ≠ 0 := by exact_mod_cast (by omega : T ≠ 0)
  obtain ⟨r, rfl⟩ : ∃ r, T = p + r + 1 := ⟨T - 1 - p, by omega⟩
  rw [show p + r + 1 - 1 - p = r by omega]
  push_cast at h1 ⊢
  field_simp
  ring

section
variable {K : Type}

/-- **C161**: `create_equally_spaced_curves(n, nfp, stellsym)` followed by `coils_via_symmetries(curves, currents, nfp, stellsym)` gives `n * nfp * (1 + stellsym)` circles, exactly one at each of as many
equally spaced toroidal angles.  A mirrored coil is traversed backwards (`sgn = -1`) and carries the negative current, so that the current flows around all of them in the same direction. -/
theorem C161_evenly (n nfp : ℕ) (stellsym : Bool) (R0 R1 : ℝ) (o : ℕ) (ts : List ℝ) (currents : List (Cur K ℝ)) (val : K → ℝ) (hc : currents.length = n) :
    ∃ ds cs, equallySpaced n nfp stellsym R0 R1 (o + 1) = .ok ds ∧ coilsViaSymmetries ((List.range n).map .base) currents nfp stellsym = .ok cs ∧
      cs.length = n * nfp * (1 + stellsym.toNat) ∧
      ∃ pos : ℕ → ℕ, Set.BijOn pos (Set.Iio (n * nfp * (1 + stellsym.toNat))) (Set.Iio (n * nfp * (1 + stellsym.toNat))) ∧
        ∀ j < n * nfp * (1 + stellsym.toNat), ∃ cu c cb, ∃ sgn : ℝ, (sgn = 1 ∨ sgn = -1) ∧ cs[j]? = some (cu, c) ∧ currents[j % n]? = some cb ∧ c.value val = sgn * cb.value val ∧
          cu.points (rows (o + 1) ts ds 0) = ts.map (fun t => ring R0 R1 (place (n * nfp * (1 + stellsym.toNat)) (pos j)) (sgn * t)) ∧
          cu.points (rows (o + 1) ts ds 1) = ts.map (fun t => sgn • ringDash R1 (place (n * nfp * (1 + stellsym.toNat)) (pos j)) (sgn * t)) := by
  obtain ⟨ds, hds, hlen, hx⟩ := equallySpaced_ok n nfp stellsym R0 R1 o
  have hl : ((List.range n).map Curve.base).length = currents.length := by simp [hc]
  obtain ⟨cs, hcs, hcl⟩ := (C36_count (curves := (List.range n).map Curve.base) (currents := currents) (nfp := nfp) (stellsym := stellsym)).2 hl
  refine ⟨ds, cs, hds, hcs, by simpa using hcl, _, position_bij n nfp stellsym, fun j hj => ?_⟩
  generalize hT : n * nfp * (1 + stellsym.toNat) = T at *
  have hn : 0 < n := by
    rcases Nat.eq_zero_or_pos n with h | h
    · subst h; simp at hT; omega
    · exact h
  have hf : 0 < nfp := by
    rcases Nat.eq_zero_or_pos nfp with h | h
    · subst h; simp at hT; omega
    · exact h
  have hs1 : 0 < 1 + stellsym.toNat := by omega
  -- the block and the copy
  have e := Nat.div_add_mod j n
  have hi := Nat.mod_lt j hn
  have e2 := Nat.div_add_mod (j / n) (1 + stellsym.toNat)
  have hflt := Nat.mod_lt (j / n) hs1
  generalize hq : j / n = q at *
  generalize hii : j % n = i at *
  generalize hk : q / (1 + stellsym.toNat) = k at *
  generalize hff : q % (1 + stellsym.toNat) = f at *
  have hq2 : q < nfp * (1 + stellsym.toNat) := by
    by_contra hcon
    have h1 : n * (nfp * (1 + stellsym.toNat)) ≤ n * q := Nat.mul_le_mul_left n (by omega)
    have h3 : n * nfp * (1 + stellsym.toNat) = n * (nfp * (1 + stellsym.toNat)) := by ring
    omega
  have hk2 : k < nfp := by
    rw [← hk]
    exact Nat.div_lt_of_lt_mul (by rw [mul_comm]; exact hq2)
  obtain ⟨cb, hcb⟩ : ∃ cb, currents[i]? = some cb := ⟨currents[i]'(by omega), List.getElem?_eq_getElem _⟩
  have hcu : ((List.range n).map Curve.base)[i]? = some (Curve.base i) := by rw [List.getElem?_map, List.getElem?_range hi]; rfl
  have hjval : j = (k * (1 + stellsym.toNat) + f) * n + i := by rw [← e, ← e2]; ring
  have hx0 : ∀ t, xyz 0 (o + 1) (ds[i]?.getD []) t = ring R0 R1 (place T i) t := fun t => by rw [(hx i hi t).1, place_angle, hT]
  have hx1 : ∀ t, xyz 1 (o + 1) (ds[i]?.getD []) t = ringDash R1 (place T i) t := fun t => by rw [(hx i hi t).2, place_angle, hT]
  have hsh : place T i + 2 * Real.pi * k / nfp = place T (k * (1 + stellsym.toNat) * n + i) := by rw [← hT]; exact place_shift hn hf i k
  by_cases hf1 : f = 1
  · have hst : stellsym = true := by cases stellsym with | true => rfl | false => simp at hflt; omega
    subst hst
    obtain ⟨cu', c', h1, h2, h3⟩ := C36_copies hcs true hk2 (fun _ => rfl) hcu hcb val
    have hpos : position n T true j = T - 1 - (k * (1 + (true).toNat) * n + i) := by
      have : q % 2 = 1 := by rw [show 2 = 1 + (true).toNat from rfl, hff, hf1]
      have e3 : position n T true j = T + n - 1 - j := if_pos ⟨rfl, by rw [hq]; exact this⟩
      rw [e3, hjval, hf1]
      rw [show (k * (1 + (true).toNat) + 1) * n + i = k * (1 + (true).toNat) * n + n + i by ring]
      omega
    have hlt : k * (1 + (true).toNat) * n + i < T := by
      have : (k * (1 + (true).toNat) + f) * n + i = k * (1 + (true).toNat) * n + f * n + i := by ring
      have h4 : f * n = n := by rw [hf1, one_mul]
      omega
    have hang : ∀ t, ring R0 R1 (-(place T i + 2 * Real.pi * k / nfp)) t = ring R0 R1 (place T (position n T true j)) t := fun t => by
      rw [hpos, ← place_neg hlt, ring_turn, hsh]
    have hang' : ∀ t, ringDash R1 (-(place T i + 2 * Real.pi * k / nfp)) t = ringDash R1 (place T (position n T true j)) t := fun t => by
      rw [hpos, ← place_neg hlt, ringDash_turn, hsh]
    refine ⟨cu', c', cb, -1, Or.inr rfl, ?_, hcb, ?_, ?_, ?_⟩
    · rw [hjval, hf1]; simpa using h1
    · rw [h3]; simp
    · rw [h2]
      simp only [Curve.points, rows, List.map_map]
      refine List.map_congr_left fun t _ => ?_
      simp only [Function.comp, if_true]
      rw [hx0, rotZ_ring, mirror_ring, hang, neg_one_mul]
    · rw [h2]
      simp only [Curve.points, rows, List.map_map]
      refine List.map_congr_left fun t _ => ?_
      simp only [Function.comp, if_true]
      rw [hx1, rotZ_ringDash, mirror_ringDash, hang', neg_one_mul, neg_one_smul]
  · have hf0 : f = 0 := by cases stellsym <;> simp at hflt <;> omega
    obtain ⟨cu', c', h1, h2, h3⟩ := C36_copies hcs false hk2 (by simp) hcu hcb val
    have hpos : position n T stellsym j = k * (1 + stellsym.toNat) * n + i := by
      have hnot : ¬ (stellsym = true ∧ j / n % 2 = 1) := by
        rintro ⟨ha, hb⟩
        subst ha
        rw [hq, show 2 = 1 + (true).toNat from rfl, hff, hf0] at hb
        omega
      have e3 : position n T stellsym j = j := if_neg hnot
      rw [e3, hjval, hf0]; ring
    refine ⟨cu', c', cb, 1, Or.inl rfl, ?_, hcb, ?_, ?_, ?_⟩
    · rw [hjval, hf0]; simpa using h1
    · rw [h3]; simp
    · rw [h2]
      simp only [Curve.points, rows, List.map_map]
      refine List.map_congr_left fun t _ => ?_
      simp only [Function.comp]
      rw [hx0]
      simp only [Bool.false_eq_true, if_false]
      rw [rotZ_ring, hsh, hpos, one_mul]
    · rw [h2]
      simp only [Curve.points, rows, List.map_map]
      refine List.map_congr_left fun t _ => ?_
      simp only [Function.comp]
      rw [hx1]
      simp only [Bool.false_eq_true, if_false]
      rw [rotZ_ringDash, hsh, hpos, one_mul, one_smul]

/-- `CoilSet.for_surface` (coilset.py L97-113): the base curves are made for the symmetry of the surface (or `use_stellsym`) and for `surf.nfp`, but the coils always with `stellsym=True` and with the
argument `nfp` if it is given. -/
noncomputable def forSurface (n surfNfp : ℕ) (surfStellsym : Bool) (useStellsym : Option Bool) (nfp : Option ℕ) (R0 R1 : ℝ) (order : ℕ) (currents : List (Cur K ℝ)) :
    Except Err (List (List ℝ) × List (Curve × Cur K ℝ)) := do
  let nf := nfp.getD surfNfp
  let ds ← equallySpaced n surfNfp (useStellsym.getD surfStellsym) R0 R1 order
  let cs ← coilsViaSymmetries ((List.range n).map .base) currents nf true
  return (ds, cs)

/-- **C161** (violated): `CoilSet.for_surface` for a surface without stellarator symmetry makes `2 * n * nfp` coils, but only `n * nfp` different circles: the mirrored copy `(k, i)` lies on the circle of
the rotated copy `(nfp - 1 - k, n - 1 - i)`, traversed backwards with the negative current. -/
theorem C161_for_surface_violated (n nfp : ℕ) (R0 R1 : ℝ) (o : ℕ) (ts : List ℝ) (currents : List (Cur K ℝ)) (val : K → ℝ) (hc : currents.length = n) :
    ∃ ds cs, forSurface n nfp false none none R0 R1 (o + 1) currents = .ok (ds, cs) ∧ cs.length = 2 * (n * nfp) ∧
      ∀ k < nfp, ∀ i < n, ∃ cu c cu' c' cb cb', cs[(k * 2 + 1) * n + i]? = some (cu, c) ∧ cs[((nfp - 1 - k) * 2) * n + (n - 1 - i)]? = some (cu', c') ∧
        currents[i]? = some cb ∧ currents[n - 1 - i]? = some cb' ∧ c.value val = -cb.value val ∧ c'.value val = cb'.value val ∧
        ∃ a, cu'.points (rows (o + 1) ts ds 0) = ts.map (fun t => ring R0 R1 a t) ∧ cu.points (rows (o + 1) ts ds 0) = ts.map (fun t => ring R0 R1 a (-t)) ∧
          cu'.points (rows (o + 1) ts ds 1) = ts.map (fun t => ringDash R1 a t) ∧ cu.points (rows (o + 1) ts ds 1) = ts.map (fun t => -ringDash R1 a (-t)) := by
  obtain ⟨ds, hds, hlen, hx⟩ := equallySpaced_ok n nfp false R0 R1 o
  have hl : ((List.range n).map Curve.base).length = currents.length := by simp [hc]
  obtain ⟨cs, hcs, hcl⟩ := (C36_count (curves := (List.range n).map Curve.base) (currents := currents) (nfp := nfp) (stellsym := true)).2 hl
  refine ⟨ds, cs, ?_, ?_, fun k hk i hi => ?_⟩
  · unfold forSurface
    simp only [Option.getD_none, hds, hcs, bind, Except.bind, pure, Except.pure]
  · rw [hcl]; simp; ring
  have hn : 0 < n := by omega
  have hf : 0 < nfp := by omega
  have hi' : n - 1 - i < n := by omega
  have hk' : nfp - 1 - k < nfp := by omega
  obtain ⟨cb, hcb⟩ : ∃ cb, currents[i]? = some cb := ⟨currents[i]'(by omega), List.getElem?_eq_getElem _⟩
  obtain ⟨cb', hcb'⟩ : ∃ cb, currents[n - 1 - i]? = some cb := ⟨currents[n - 1 - i]'(by omega), List.getElem?_eq_getElem _⟩
  have hcu : ∀ i < n, ((List.range n).map Curve.base)[i]? = some (Curve.base i) := fun i hi => by rw [List.getElem?_map, List.getElem?_range hi]; rfl
  obtain ⟨cu, c, h1, h2, h3⟩ := C36_copies hcs true hk (fun _ => rfl) (hcu i hi) hcb val
  obtain ⟨cu', c', h1', h2', h3'⟩ := C36_copies hcs false hk' (by simp) (hcu _ hi') hcb' val
  -- angles
  have hn0 : (n : ℝ) ≠ 0 := by exact_mod_cast hn.ne'
  have hf0 : (nfp : ℝ) ≠ 0 := by exact_mod_cast hf.ne'
  have hang : -(angle n nfp false i + 2 * Real.pi * k / nfp) + 2 * Real.pi = angle n nfp false (n - 1 - i) + 2 * Real.pi * ((nfp - 1 - k : ℕ) : ℝ) / nfp := by
    unfold angle
    rw [Nat.cast_sub (by omega), Nat.cast_sub (by omega), Nat.cast_sub (by omega), Nat.cast_sub (by omega)]
    simp only [Bool.toNat_false, Nat.cast_zero, Nat.cast_one, add_zero, one_mul]
    field_simp
    ring
  refine ⟨cu, c, cu', c', cb, cb', by simpa using h1, by simpa using h1', hcb, hcb', by simpa using h3, by simpa using h3', angle n nfp false (n - 1 - i) + 2 * Real.pi * ((nfp - 1 - k : ℕ) : ℝ) / nfp, ?_, ?_, ?_, ?_⟩
  · rw [h2']
    simp only [Curve.points, rows, List.map_map]
    refine List.map_congr_left fun t _ => ?_
    simp only [Function.comp, Bool.false_eq_true, if_false]
    rw [(hx _ hi' t).1, rotZ_ring]
  · rw [h2]
    simp only [Curve.points, rows, List.map_map]
    refine List.map_congr_left fun t _ => ?_
    simp only [Function.comp, if_true]
    rw [(hx _ hi t).1, rotZ_ring, mirror_ring, ← hang, ring_turn]
  · rw [h2']
    simp only [Curve.points, rows, List.map_map]
    refine List.map_congr_left fun t _ => ?_
    simp only [Function.comp, Bool.false_eq_true, if_false]
    rw [(hx _ hi' t).2, rotZ_ringDash]
  · rw [h2]
    simp only [Curve.points, rows, List.map_map]
    refine List.map_congr_left fun t _ => ?_
    simp only [Function.comp, if_true]
    rw [(hx _ hi t).2, rotZ_ringDash, mirror_ringDash, ← hang, ringDash_turn]

end

end Simsopt.Coilset
