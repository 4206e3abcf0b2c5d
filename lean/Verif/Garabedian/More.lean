import Verif.Garabedian.Props
import Verif.Surfaces.RZDofs
/-! # C141: SurfaceGarabedian, round trips, dof names, area and volume -/
namespace Simsopt.Garab
open Simsopt Simsopt.RZSurf

/-- **C141.** `SurfaceGarabedian → SurfaceRZFourier → SurfaceGarabedian`: every coefficient is recovered; the modes added by the conversion have amplitude zero. -/
theorem C141_round_trip (s : Gar) (hs : Valid s) : ∃ r t, toRZ s = some r ∧ fromRZ r = some t ∧ t.nfp = s.nfp ∧
    (∀ m n, Mode s m n → Mode t m n ∧ getDelta t m n = getDelta s m n) ∧ (∀ m n, Mode t m n → ¬ Mode s m n → getDelta t m n = some 0) := by
  obtain ⟨r, er, em, en, ef, es, hc⟩ := toRZ_coef s hs
  have h1 : 1 ≤ r.mpol := by rw [em]; simp only [rzMpol]; omega
  obtain ⟨t, et, hv, p1, p2, p3, p4, p5, ht⟩ := fromRZ_coef r es h1
  obtain ⟨v1, v2, v3, v4, hx⟩ := hs
  have sub : ∀ m n, Mode s m n → Mode t m n := by
    intro m n h
    simp only [Mode] at h ⊢
    rw [p2, p3, p4, p5, em, en]
    simp only [rzMpol, rzNtor]
    omega
  have key : ∀ m n, Mode t m n → coefD t m n = ext s m n := by
    intro m n h
    rw [ht m n h, fromVal]
    have h' := h
    simp only [Mode, p2, p3, p4, p5, em, en] at h'
    rcases lt_trichotomy m 1 with hm | hm | hm
    · rw [if_neg (by omega), if_pos (by omega), (hc (1 - m).toNat (-n) (by omega) (by omega) (by omega)).1, (hc (1 - m).toNat (-n) (by omega) (by omega) (by omega)).2,
        if_neg (by omega), if_neg (by omega), if_neg (by omega)]
      have e : (((1 - m).toNat : Nat) : Int) = 1 - m := by omega
      rw [e, sub_sub_cancel, neg_neg]; ring
    · subst hm
      rw [if_pos (by omega), if_pos (by omega)]
      simp only [sub_self, Int.toNat_zero]
      rw [(hc 0 n (by omega) (by omega) (by omega)).1, (hc 0 n (by omega) (by omega) (by omega)).2, (hc 0 (-n) (by omega) (by omega) (by omega)).1,
        (hc 0 (-n) (by omega) (by omega) (by omega)).2]
      rcases lt_trichotomy n 0 with hn | hn | hn
      · rw [if_pos (by omega), if_pos (by omega), if_neg (by omega), if_neg (by omega), if_neg (by omega)]
        simp
      · subst hn; simp
      · rw [if_neg (by omega), if_neg (by omega), if_neg (by omega), if_pos (by omega), if_pos (by omega)]
        simp
    · rw [if_pos (by omega), if_neg (by omega), (hc (m - 1).toNat n (by omega) (by omega) (by omega)).1, (hc (m - 1).toNat n (by omega) (by omega) (by omega)).2,
        if_neg (by omega), if_neg (by omega), if_neg (by omega)]
      have e : (((m - 1).toNat : Nat) : Int) = m - 1 := by omega
      rw [e, add_sub_cancel]; ring
  refine ⟨r, t, er, et, by rw [p1, ef], fun m n h => ⟨sub m n h, ?_⟩, fun m n h hn => ?_⟩
  · rw [getDelta_some t hv.2.2.2.2 m n (sub m n h), getDelta_some s hx m n h, key m n (sub m n h), ext_in s m n h]
  · rw [getDelta_some t hv.2.2.2.2 m n h, key m n h, ext_out s m n hn]

/-- The entry `zs(0,0)`, which is not a dof, stays zero. -/
theorem reach_zs00 {s : Surf} (h : Reach s) : s.zs s.ntor = 0 := by
  have hz : ∀ s : Surf, s.zs s.ntor = s.buf .zs s.ntor := fun s => rfl
  induction h with
  | construct hc =>
    simp only [RZSurf.construct] at hc
    split at hc
    · simp only [Option.some.injEq] at hc; subst hc
      simp [create, poke, Surf.width]
    · exact absurd hc (by simp)
  | @setDofs s d _ ih =>
    rw [hz, (setDofs_params s d).2.1, setDofs_other s d .zs s.ntor]
    · exact ih
    · rw [mem_layout]; rintro ⟨_, hlo, _⟩; simp [Surf.lo] at hlo
  | @setCoef s t k m n v _ hm hs ih =>
    rw [setCoef_eq] at hs
    split at hs
    · simp only [Option.some.injEq] at hs; subst hs
      have hh := (C65_which_modes s k m n).mp hm
      rw [hz, (poke_params s k _ n v).2.1, poke_buf, if_neg]
      · exact ih
      · rintro ⟨rfl, e⟩
        rcases Nat.eq_zero_or_pos m with rfl | hm0
        · apply hh.2.2.2.2.2
          refine ⟨Or.inr rfl, rfl, ?_⟩
          simp at e; omega
        · have : s.width ≤ m * s.width := Nat.le_mul_of_pos_left _ hm0
          simp only [Int.toNat_natCast] at e
          simp only [Surf.width] at this e; omega
    · exact absurd hs (by simp)
  | @changeRes s mpol ntor _ ih =>
    have e : (changeRes s mpol ntor).zs (changeRes s mpol ntor).ntor = (changeRes s mpol ntor).at .zs 0 ntor := by
      simp [Surf.at, Surf.buf, (changeRes_params s mpol ntor).2.1]
    rw [e, changeRes_at s mpol ntor .zs 0 ntor (by omega)]
    split
    · simpa [Surf.at, Surf.buf] using ih
    · rfl

/-- **C141.** `SurfaceRZFourier → SurfaceGarabedian → SurfaceRZFourier`: the resolution and every coefficient are recovered, for every surface reached through the API. -/
theorem C141_round_trip_RZ (r : Surf) (hr : r.stellsym = true) (hm : 1 ≤ r.mpol) (hreach : Reach r) :
    ∃ s r', fromRZ r = some s ∧ toRZ s = some r' ∧ r'.mpol = r.mpol ∧ r'.ntor = r.ntor ∧ r'.nfp = r.nfp ∧ r'.stellsym = true ∧
      ∀ (k : Kind) (m : Nat) (n : Int), coef r' k m n = coef r k m n := by
  have hc : Clean r := reach_clean hreach
  have h00 : coef r .zs 0 0 = 0 := by
    have := coef_at r .zs 0 r.ntor (by omega) (by simp only [Surf.width]; omega)
    rw [sub_self] at this
    rw [this]; simpa [available, Surf.at, Surf.buf] using reach_zs00 hreach
  obtain ⟨s, es, hv, p1, p2, p3, p4, p5, hs⟩ := fromRZ_coef r hr hm
  obtain ⟨r', er, em, en, ef, est, ht⟩ := toRZ_coef s hv
  have em' : rzMpol s = r.mpol := by simp only [rzMpol, p2, p3]; omega
  have en' : rzNtor s = r.ntor := by simp only [rzNtor, p4, p5]; omega
  rw [em'] at em; rw [en'] at en
  refine ⟨s, r', es, er, em, en, by rw [ef, p1], est, ?_⟩
  have zneg : ∀ k (n : Int), n < 0 → coef r k 0 n = 0 := by
    intro k n hn
    by_cases hb : -(r.ntor : Int) ≤ n
    · obtain ⟨i, hi⟩ : ∃ i : Nat, n = (i : Int) - r.ntor := ⟨(n + r.ntor).toNat, by omega⟩
      rw [hi, coef_at r k 0 i (by omega) (by simp only [Surf.width]; omega)]
      split
      · simpa [Surf.at] using hc k i (by omega)
      · rfl
    · exact coef_out r k 0 n (by omega)
  intro k m n
  by_cases hin : m ≤ r.mpol ∧ -(r.ntor : Int) ≤ n ∧ n ≤ r.ntor
  · obtain ⟨i1, i2, i3⟩ := hin
    have a1 : ext s (1 - m) (-n) = fromVal r (1 - m) (-n) := by
      have hM : Mode s (1 - m) (-n) := by simp only [Mode, p2, p3, p4, p5]; omega
      rw [ext_in s _ _ hM, hs _ _ hM]
    have a2 : ext s (1 + m) n = fromVal r (1 + m) n := by
      have hM : Mode s (1 + m) n := by simp only [Mode, p2, p3, p4, p5]; omega
      rw [ext_in s _ _ hM, hs _ _ hM]
    have hh := ht m n (by omega) (by omega) (by omega)
    rw [a1, a2] at hh
    have goal : coef r' .rc m n = coef r .rc m n ∧ coef r' .zs m n = coef r .zs m n := by
      rw [hh.1, hh.2]
      by_cases h0 : m = 0
      · subst h0
        have e10 : ext s 1 0 = fromVal r 1 0 := by
          have hM : Mode s 1 0 := by simp only [Mode, p2, p3, p4, p5]; omega
          rw [ext_in s _ _ hM, hs _ _ hM]
        rw [e10]
        rcases lt_trichotomy n 0 with hn | hn | hn
        · rw [if_pos (by omega), if_pos (by omega), zneg .rc n hn, zneg .zs n hn]; simp
        · subst hn; simp [fromVal, h00]
        · rw [if_neg (by omega), if_neg (by omega), if_neg (by omega)]
          have z1 := zneg .rc (-n) (by omega)
          have z2 := zneg .zs (-n) (by omega)
          simp only [fromVal, Nat.cast_zero, sub_zero, add_zero, le_refl, if_true, sub_self, Int.toNat_zero, neg_neg, z1, z2]
          constructor <;> ring
      · rw [if_neg (by omega), if_neg (by omega), if_neg (by omega)]
        have e1 : fromVal r (1 - m) (-n) = (coef r .rc m n + coef r .zs m n) / 2 := by
          rw [fromVal, if_neg (by omega), if_pos (by omega), sub_sub_cancel, neg_neg, Int.toNat_natCast, zero_add]
        have e2 : fromVal r (1 + m) n = (coef r .rc m n - coef r .zs m n) / 2 := by
          rw [fromVal, if_pos (by omega), if_neg (by omega), add_sub_cancel_left, Int.toNat_natCast, add_zero]
        rw [e1, e2]; constructor <;> ring
    cases k with
    | rc => exact goal.1
    | zs => exact goal.2
    | rs => rw [coef_not_available r' .rs m n (by simp [available, est]), coef_not_available r .rs m n (by simp [available, hr])]
    | zc => rw [coef_not_available r' .zc m n (by simp [available, est]), coef_not_available r .zc m n (by simp [available, hr])]
  · rw [coef_out r' k m n (by rw [em, en]; exact hin), coef_out r k m n hin]

/-! ### Names and access -/

/-- **C141.** There is one dof for each mode, named `Delta(m,n)`: the name at position `i` is that of the mode whose coefficient `get_Delta` reads from position `i`, all modes have
a name, and no name occurs twice. -/
theorem C141_names (s : Gar) (i : Nat) (m n : Int) :
    ((dofNames s)[i]? = some (m, n) ↔ Mode s m n ∧ i = flat s m n) ∧ (Mode s m n → getDelta s m n = s.x[flat s m n]?) ∧
    (dofNames s).length = s.mdim * s.ndim := by
  have e : dofNames s = (List.range (s.mdim * s.ndim)).map fun j => (((j / s.ndim : Nat) : Int) + s.mmin, ((j % s.ndim : Nat) : Int) + s.nmin) := by
    by_cases hw : 0 < s.ndim
    · have hg := grid_eq s.ndim hw s.mdim
      have h2 := congrArg (List.map fun (p : Nat × Nat) => ((p.1 : Int) + s.mmin, (p.2 : Int) + s.nmin)) hg
      simp only [List.map_flatMap, List.map_map] at h2
      have e1 : s.mmax + 1 - s.mmin = s.mmax - s.mmin + 1 := by ring
      have e2 : s.nmax + 1 - s.nmin = s.nmax - s.nmin + 1 := by ring
      simp only [dofNames, intRange, List.flatMap_map, List.map_map, e1, e2]
      rw [show (s.mmax - s.mmin + 1).toNat = s.mdim from rfl, show (s.nmax - s.nmin + 1).toNat = s.ndim from rfl]
      refine Eq.trans ?_ (h2.trans ?_)
      · congr 1; funext a
        congr 1; funext b
        simp [add_comm]
      · rfl
    · have h0 : s.ndim = 0 := by omega
      have : (s.nmax + 1 - s.nmin).toNat = 0 := by simp only [Gar.ndim] at h0; omega
      simp [dofNames, intRange, this, h0]
  refine ⟨?_, getDelta_flat s m n, by rw [e]; simp⟩
  rw [e]
  simp only [List.getElem?_map, Option.map_eq_some_iff, List.getElem?_eq_some_iff, List.length_range, List.getElem_range, Prod.mk.injEq]
  constructor
  · rintro ⟨j, ⟨hj, rfl⟩, h1, h2⟩
    have hw : 0 < s.ndim := by
      rcases Nat.eq_zero_or_pos s.ndim with h | h
      · rw [h] at hj; simp at hj
      · exact h
    have d1 : i / s.ndim < s.mdim := Nat.div_lt_of_lt_mul (by rw [Nat.mul_comm]; exact hj)
    have d2 : i % s.ndim < s.ndim := Nat.mod_lt _ hw
    have hM : Mode s m n := by
      have em : s.mdim = (s.mmax - s.mmin + 1).toNat := rfl
      have en : s.ndim = (s.nmax - s.nmin + 1).toNat := rfl
      generalize i / s.ndim = a at *
      generalize i % s.ndim = b at *
      refine ⟨?_, ?_, ?_, ?_⟩ <;> omega
    refine ⟨hM, ?_⟩
    have k1 : (m - s.mmin).toNat = i / s.ndim := by
      generalize i / s.ndim = a at *
      omega
    have k2 : (n - s.nmin).toNat = i % s.ndim := by
      generalize i % s.ndim = b at *
      omega
    rw [flat, k1, k2, Nat.mul_comm]; exact (Nat.div_add_mod i s.ndim).symm
  · rintro ⟨hM, rfl⟩
    have hl := flat_lt s m n hM
    obtain ⟨h1, h2, h3, h4⟩ := hM
    have hj : (n - s.nmin).toNat < s.ndim := by simp only [Gar.ndim]; omega
    refine ⟨flat s m n, ⟨hl, rfl⟩, ?_, ?_⟩
    · rw [flat, Nat.mul_comm, Nat.mul_add_div (by omega), Nat.div_eq_of_lt hj]; omega
    · rw [flat, Nat.mul_comm, Nat.mul_add_mod, Nat.mod_eq_of_lt hj]; omega

/-- **C141.** `set_Delta(m, n, v)` for a mode of the surface: `get_Delta(m, n)` then returns `v`, every other coefficient and the ranges of modes are unchanged. -/
theorem C141_set_get (s : Gar) (hx : s.x.length = s.mdim * s.ndim) (m n : Int) (v : ℝ) (h : Mode s m n) :
    ∃ t, setDelta s m n v = some t ∧ t = { s with x := t.x } ∧ t.x.length = s.x.length ∧ getDelta t m n = some v ∧
      ∀ m' n', Mode s m' n' → (m', n') ≠ (m, n) → getDelta t m' n' = getDelta s m' n' := by
  refine ⟨_, setDelta_flat s m n v hx h, rfl, by simp, ?_, ?_⟩
  · rw [getDelta_some { s with x := s.x.set (flat s m n) v } (by rw [List.length_set]; exact hx) m n h, setDelta_get s m n v hx h m n h]; simp
  · intro m' n' h' hne
    rw [getDelta_some { s with x := s.x.set (flat s m n) v } (by rw [List.length_set]; exact hx) m' n' h', setDelta_get s m n v hx h m' n' h', getDelta_some s hx m' n' h', if_neg]
    rintro ⟨rfl, rfl⟩; exact hne rfl

/-- **C141.** A new surface is the torus `Δ(1,0) = 1`, `Δ(0,0) = 0.1`; `nmin=None` means `-nmax`. -/
theorem C141_new (nfp : Nat) (mmax mmin nmax : Int) (h1 : mmin ≤ 0) (h2 : 1 ≤ mmax) (h4 : 0 ≤ nmax) :
    ∃ s, construct nfp mmax mmin nmax none none = some s ∧ Valid s ∧ s.mmin = mmin ∧ s.mmax = mmax ∧ s.nmin = -nmax ∧ s.nmax = nmax ∧
      ∀ u v, shape s (coefD s) u v = 1 + 0.1 * Complex.exp (Complex.I * u) := by
  obtain ⟨s, es, hv, p1, p2, p3, p4, p5, hc⟩ := construct_valid nfp mmax mmin nmax (-nmax) h1 h2 (by omega) h4
  refine ⟨s, es, hv, p2, p3, p4, p5, ?_⟩
  intro u v
  have e : ∀ m ∈ Finset.Icc s.mmin s.mmax, ∀ n ∈ Finset.Icc s.nmin s.nmax, (coefD s m n : ℂ) * Complex.exp (-Complex.I * m * u + Complex.I * n * v) =
      (if n = 0 then (if m = 1 then Complex.exp (-Complex.I * u) else 0) else 0) + (if n = 0 then (if m = 0 then (0.1 : ℂ) else 0) else 0) := by
    intro m hm n hn
    simp only [Finset.mem_Icc] at hm hn
    rw [hc m n ⟨hm.1, hm.2, hn.1, hn.2⟩]
    by_cases h0 : n = 0
    · subst h0
      by_cases ha : m = 1
      · subst ha; simp
      · by_cases hb : m = 0
        · subst hb; simp
        · simp [ha, hb]
    · simp [h0]
  rw [shape, Finset.sum_congr rfl fun m hm => Finset.sum_congr rfl (e m hm)]
  simp only [Finset.sum_add_distrib, Finset.sum_ite_eq', Finset.mem_Icc]
  simp only [if_pos (show s.nmin ≤ 0 ∧ 0 ≤ s.nmax from ⟨hv.2.2.1, hv.2.2.2.1⟩), Finset.sum_ite_eq', Finset.mem_Icc]
  rw [if_pos ⟨by have := hv.1; omega, hv.2.1⟩, if_pos ⟨hv.1, by have := hv.2.1; omega⟩, mul_add, ← Complex.exp_add]
  have : Complex.I * (u : ℂ) + -Complex.I * u = 0 := by ring
  rw [this, Complex.exp_zero]; ring

/-! ### Area and volume -/

/-- A call that goes through the dofs interface. -/
def Op.proper : Op → Prop | .write _ _ => False | _ => True

/-- What is kept is current unless `new_x` is set. -/
def Inv (A V : Surf → ℝ) (o : Obj) : Prop := Valid o.s ∧ (o.newX = false → ∃ r, toRZ o.s = some r ∧ o.kept = some (A r, V r))

theorem inv_step (A V : Surf → ℝ) (o : Obj) (op : Op) (hop : op.proper) (h : Inv A V o) : Inv A V (step A V o op) := by
  obtain ⟨hv, hk⟩ := h
  have hav : Inv A V (areaVolume A V o) := by
    unfold areaVolume
    split
    · obtain ⟨r, er, _⟩ := toRZ_coef o.s hv
      rw [er]; exact ⟨hv, fun _ => ⟨r, er, rfl⟩⟩
    · exact ⟨hv, hk⟩
  cases op with
  | setDelta m n v =>
    simp only [step]
    cases e : setDelta o.s m n v with
    | none => exact ⟨hv, hk⟩
    | some s =>
      refine ⟨?_, fun hh => absurd hh (by simp)⟩
      simp only [setDelta, bind, Option.bind] at e
      split at e
      · exact absurd e (by simp)
      · simp only [pure, Option.some.injEq] at e
        subst e
        exact ⟨hv.1, hv.2.1, hv.2.2.1, hv.2.2.2.1, by rw [List.length_set]; exact hv.2.2.2.2⟩
  | setX x =>
    simp only [step]
    split
    · rename_i hl
      exact ⟨⟨hv.1, hv.2.1, hv.2.2.1, hv.2.2.2.1, by rw [hl]; exact hv.2.2.2.2⟩, fun hh => absurd hh (by simp)⟩
    · exact ⟨hv, hk⟩
  | area => exact hav
  | volume => exact hav
  | write i v => exact absurd hop (by simp [Op.proper])

/-- **C141.** After every history of `set_Delta`, assignments of dofs, `area()` and `volume()`, the next `area()` and `volume()` are those of the `SurfaceRZFourier` with the
current shape. -/
theorem C141_area_current (A V : Surf → ℝ) (s : Gar) (hs : Valid s) (l : List Op) (hl : ∀ op ∈ l, op.proper) :
    let o := l.foldl (step A V) (fresh s)
    ∃ r, toRZ o.s = some r ∧ area A V o = some (A r) ∧ volume A V o = some (V r) := by
  have inv : ∀ (l : List Op) (o : Obj), (∀ op ∈ l, op.proper) → Inv A V o → Inv A V (l.foldl (step A V) o) := by
    intro l
    induction l with
    | nil => intro o _ h; exact h
    | cons a l ih => intro o hl h; exact ih _ (fun op ho => hl op (List.mem_cons_of_mem _ ho)) (inv_step A V o a (hl a (List.mem_cons_self ..)) h)
  intro o
  obtain ⟨hv, hk⟩ := inv l (fresh s) hl ⟨hs, fun hh => absurd hh (by simp [fresh])⟩
  have hav : ∃ r, toRZ o.s = some r ∧ (areaVolume A V o).kept = some (A r, V r) := by
    unfold areaVolume
    split
    · obtain ⟨r, er, _⟩ := toRZ_coef o.s hv
      exact ⟨r, er, by rw [er]⟩
    · rename_i h; exact hk (by simpa using h)
  obtain ⟨r, er, h⟩ := hav
  exact ⟨r, er, by simp [area, h], by simp [volume, h]⟩

/-! ### Where the code departs from the documentation -/

/-- **C141.** `set_dofs` always raises: `get_dofs` returns `None`. -/
theorem C141_set_dofs_violated (s : Gar) (x : List ℝ) : setDofs s x = none := rfl

/-- **C141.** Construction with `dofs=` (used when a saved surface is loaded, and to share dofs) resets `Δ(1,0)` to `1` and `Δ(0,0)` to `0.1` whatever the dofs hold. -/
theorem C141_shared_dofs_violated (nfp : Nat) (mmax mmin nmax nmin : Int) (h1 : mmin ≤ 0) (h2 : 1 ≤ mmax) (h3 : nmin ≤ 0) (h4 : 0 ≤ nmax) (d : List ℝ)
    (hd : d.length = (mmax - mmin + 1).toNat * (nmax - nmin + 1).toNat) :
    ∃ s, construct nfp mmax mmin nmax (some nmin) (some d) = some s ∧ getDelta s 1 0 = some 1 ∧ getDelta s 0 0 = some 0.1 := by
  let s0 : Gar := ⟨nfp, mmin, mmax, nmin, nmax, d⟩
  have hx0 : s0.x.length = s0.mdim * s0.ndim := hd
  have m1 : Mode s0 1 0 := ⟨by show mmin ≤ 1; omega, h2, h3, h4⟩
  have m0 : Mode s0 0 0 := ⟨h1, by show (0 : Int) ≤ mmax; omega, h3, h4⟩
  have e1 := setDelta_flat s0 1 0 1.0 hx0 m1
  let s1 : Gar := { s0 with x := s0.x.set (flat s0 1 0) 1.0 }
  have hx1 : s1.x.length = s1.mdim * s1.ndim := by rw [List.length_set]; exact hx0
  have e2 := setDelta_flat s1 0 0 0.1 hx1 m0
  have hx2 : ({ s1 with x := s1.x.set (flat s1 0 0) 0.1 } : Gar).x.length = s1.mdim * s1.ndim := by rw [List.length_set]; exact hx1
  refine ⟨{ s1 with x := s1.x.set (flat s1 0 0) 0.1 }, ?_, ?_, ?_⟩
  · rw [construct]
    simp only [Option.getD_some]
    rw [if_neg (by omega)]
    show (setDelta s0 1 0 1.0).bind (fun s => setDelta s 0 0 0.1) = _
    rw [e1]; exact e2
  · rw [getDelta_some _ hx2 1 0 m1, setDelta_get s1 0 0 0.1 hx1 m0 1 0 m1, if_neg (by omega), setDelta_get s0 1 0 1.0 hx0 m1 1 0 m1]; norm_num
  · rw [getDelta_some _ hx2 0 0 m0, setDelta_get s1 0 0 0.1 hx1 m0 0 0 m0]; norm_num

/-- **C141.** If the mode `n = 0` is excluded (`nmin = 1`), the constructor writes its `Δ(1,0)` and `Δ(0,0)` into the entries of other modes. -/
theorem C141_excluded_modes_violated : ∃ s, construct 1 1 0 2 (some 1) none = some s ∧ getDelta s 0 2 = some 1 ∧ getDelta s 1 2 = some 0.1 := by
  have e2 : Int.toNat 2 = 2 := rfl
  have e3 : Int.toNat 3 = 3 := rfl
  refine ⟨⟨1, 0, 1, 1, 2, [0, 1.0, 0, 0.1]⟩, ?_, ?_, ?_⟩ <;>
    norm_num [construct, setDelta, getDelta, npIx, pyIndex, Gar.mdim, Gar.ndim, Except.toOption, List.replicate, List.set, e2, e3]

/-- **C141.** Assigning to an element of the array returned by `Delta` changes the surface but leaves `area()` at its old value. -/
theorem C141_view_violated : ∃ (A V : Surf → ℝ) (s : Gar), Valid s ∧
    let o := step A V (step A V (fresh s) .area) (.write 1 7)
    getDelta o.s 1 0 = some 7 ∧ ∃ r, toRZ o.s = some r ∧ area A V o ≠ some (A r) := by
  let s : Gar := ⟨1, 0, 1, 0, 0, [0.1, 1]⟩
  have hs : Valid s := by norm_num [Valid, s, Gar.mdim, Gar.ndim]; rfl
  let s' : Gar := ⟨1, 0, 1, 0, 0, [0.1, 7]⟩
  have hs' : Valid s' := by norm_num [Valid, s', Gar.mdim, Gar.ndim]; rfl
  obtain ⟨r, er, _, _, _, _, hr⟩ := toRZ_coef s hs
  obtain ⟨r', er', _, _, _, _, hr'⟩ := toRZ_coef s' hs'
  have c1 : coef r .rc 0 0 = 1 := by
    rw [(hr 0 0 (by omega) (by omega) (by omega)).1]
    rw [if_neg (by omega), if_pos (by omega), ext_in s 1 0 (by norm_num [Mode, s])]
    norm_num [coefD, getDelta, s, npIx, pyIndex, Gar.mdim, Gar.ndim, Except.toOption]
  have c2 : coef r' .rc 0 0 = 7 := by
    rw [(hr' 0 0 (by omega) (by omega) (by omega)).1]
    rw [if_neg (by omega), if_pos (by omega), ext_in s' 1 0 (by norm_num [Mode, s'])]
    norm_num [coefD, getDelta, s', npIx, pyIndex, Gar.mdim, Gar.ndim, Except.toOption]
  refine ⟨fun r => coef r .rc 0 0, fun _ => 0, s, hs, ?_⟩
  have ea : step (fun r => coef r .rc 0 0) (fun _ => 0) (fresh s) .area = ⟨s, false, some (1, 0)⟩ := by
    simp only [step, areaVolume, fresh, if_true, er, c1]
  have eo : step (fun r => coef r .rc 0 0) (fun _ => 0) (step (fun r => coef r .rc 0 0) (fun _ => 0) (fresh s) .area) (.write 1 7) = ⟨s', false, some (1, 0)⟩ := by
    rw [ea]; rfl
  rw [eo]
  refine ⟨?_, r', er', ?_⟩
  · norm_num [getDelta, s', npIx, pyIndex, Gar.mdim, Gar.ndim, Except.toOption]
  · simp [area, areaVolume, c2]

/-! ### Examples -/

/-- A surface with `mmin = -1`, `mmax = 2`, `nmin = -1`, `nmax = 2` and arbitrary coefficients meets the hypotheses. -/
example (x : List ℝ) (hx : x.length = 16) : Valid ⟨3, -1, 2, -1, 2, x⟩ := by
  refine ⟨by norm_num, by norm_num, by norm_num, by norm_num, ?_⟩
  show x.length = _
  rw [hx]; rfl

/-- So does what the constructor of `SurfaceRZFourier` and assignments of dofs return. -/
example (d : List ℝ) : Reach (RZSurf.setDofs (create 2 1 3 true) d) ∧ (RZSurf.setDofs (create 2 1 3 true) d).stellsym = true ∧ 1 ≤ (RZSurf.setDofs (create 2 1 3 true) d).mpol := by
  refine ⟨.setDofs d (.construct (mpol := 2) (ntor := 1) (nfp := 3) (stellsym := true) rfl), ?_, ?_⟩
  · rw [(setDofs_params _ d).2.2.2]; rfl
  · rw [(setDofs_params _ d).1]; decide

end Simsopt.Garab
