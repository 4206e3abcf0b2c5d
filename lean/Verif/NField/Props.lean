import Verif.NField.Index
import Verif.Garabedian.Props
/-! # C147: NormalField - getters, setters, names, change_resolution -/
namespace Simsopt.NField
open Simsopt Simsopt.RZSurf

theorem pyIdx_nat (len k : Nat) (h : k < len) : pyIdx len k = some k := by
  unfold pyIdx; rw [if_pos (by omega)]; simp

theorem pyIdx_eq (len : Nat) (i : Int) (h0 : 0 ≤ i) (h : i < len) : pyIdx len i = some i.toNat := by
  unfold pyIdx; rw [if_pos ⟨h0, h⟩]

theorem Mat.get_eq (A : Mat) (i j : Int) (h0 : 0 ≤ i) (h1 : i < A.rows) (h2 : 0 ≤ j) (h3 : j < A.cols) :
    A.get i j = some (A.a i.toNat j.toNat) := by
  simp [Mat.get, pyIdx_eq _ _ h0 h1, pyIdx_eq _ _ h2 h3]

theorem writes_rel (P : Nat → ℝ → Prop) (hP : ∀ k v v', P k v → P k v' → v = v') (l : List (Option Int × Option ℝ)) :
    ∀ d : List ℝ, (∀ p ∈ l, ∃ k v, k < d.length ∧ p = (some (k : Int), some v) ∧ P k v) →
    ∃ d', writes d l = some d' ∧ d'.length = d.length ∧
      (∀ k v, P k v → (∃ p ∈ l, p.1 = some (k : Int)) → d'[k]? = some v) ∧
      (∀ k : Nat, (∀ p ∈ l, p.1 ≠ some (k : Int)) → d'[k]? = d[k]?) := by
  induction l with
  | nil => intro d _; exact ⟨d, rfl, rfl, by simp, by simp⟩
  | cons p l ih =>
    intro d h
    obtain ⟨k0, v0, hk0, rfl, hp0⟩ := h p (by simp)
    obtain ⟨d', h1, h2, h3, h4⟩ := ih (d.set k0 v0) (fun q hq => by
      obtain ⟨k, v, a, b, c⟩ := h q (by simp [hq]); exact ⟨k, v, by simpa using a, b, c⟩)
    refine ⟨d', ?_, by simpa using h2, ?_, ?_⟩
    · simp only [writes, List.foldlM_cons] at h1 ⊢
      rw [show (do
        let i ← some (k0 : Int)
        let v ← some v0
        let k ← pyIdx d.length i
        return d.set k v : Option (List ℝ)) = some (d.set k0 v0) from by simp [pyIdx_nat _ _ hk0]]
      exact h1
    · intro k v hkv hex
      by_cases hin : ∃ p ∈ l, p.1 = some (k : Int)
      · exact h3 k v hkv hin
      · have hk : k = k0 := by
          obtain ⟨q, hq, hqk⟩ := hex
          rcases List.mem_cons.mp hq with rfl | hq
          · simpa using hqk.symm
          · exact absurd ⟨q, hq, hqk⟩ hin
        rw [h4 k (fun p hp hpk => hin ⟨p, hp, hpk⟩), hk]
        have : k < d.length := hk ▸ hk0
        simp only [List.getElem?_set, hk0, if_true]
        rw [hP k0 v0 v hp0 (hk ▸ hkv)]
    · intro k hk
      rw [h4 k (fun p hp => hk p (by simp [hp]))]
      have : k0 ≠ k := fun hc => hk (some (k0 : Int), some v0) (by simp) (by simp [hc])
      simp [this]

theorem index_inj (mpol ntor : Nat) (e e' : Bool) (m n m' n' i : Int)
    (h : indexDofs mpol ntor m n e = some i) (h' : indexDofs mpol ntor m' n' e' = some i) : e = e' ∧ m = m' ∧ n = n' := by
  have hb := ((C147_index mpol ntor false).2.1 e m n i (by simp) h)
  obtain ⟨k, rfl⟩ := Int.eq_ofNat_of_zero_le hb.1
  obtain ⟨t, _, ht⟩ := (C147_index mpol ntor false).2.2 k (by omega)
  have a := ht (e, m, n) ⟨by simp, h⟩
  have b := ht (e', m', n') ⟨by simp, h'⟩
  rw [← b] at a
  simpa using a

/-- The arrays have `2 N + 1` columns (documented: `N = ntor`); `_vns` has `R` rows (documented: `mpol + 1`) and `_vnc` (unless stellarator symmetric) enough rows. -/
def Shape (s : NF) (R N : Nat) : Prop :=
  s.vns.rows = R ∧ s.vns.cols = 2 * N + 1 ∧ s.ntor ≤ 3 * N + 1 ∧
  (s.stellsym = false → ∃ C, s.vnc = some C ∧ C.cols = 2 * N + 1 ∧ min (s.mpol + 1) R ≤ C.rows)

/-- The column that `get_dofs` reads for the toroidal mode `n`: `n + N`, wrapped around if it is negative. -/
def col (N : Nat) (n : Int) : Nat := if 0 ≤ n + N then (n + N).toNat else (n + N + (2 * N + 1)).toNat

/-- The entry of the array `_vns` (or `_vnc`) that `get_dofs` takes for the mode `(m, n)`; zero beyond the arrays. -/
noncomputable def entry (s : NF) (N : Nat) (e : Bool) (m n : Int) : ℝ :=
  if m < s.vns.rows ∧ n ≤ N then (if e then (s.vnc.getD s.vns).a m.toNat (col N n) else s.vns.a m.toNat (col N n)) else 0

theorem pyIdx_col (N : Nat) (n : Int) (h1 : n ≤ N) (h2 : -(3 * N + 1 : Int) ≤ n) : pyIdx (2 * N + 1) (N + n) = some (col N n) := by
  unfold pyIdx col
  by_cases h : 0 ≤ n + N
  · rw [if_pos (by omega), if_pos h, add_comm]
  · rw [if_neg (by omega), if_pos (by push_cast; omega), if_neg h]; congr 2; push_cast; ring

theorem valid_weaken {M N : Nat} {m n : Int} {e : Bool} (h : Valid M N e m n) : Valid M N true m n :=
  ⟨h.1, h.2.1, h.2.2.1, h.2.2.2.1, h.2.2.2.2.1, by simp⟩

theorem getDofs_spec (s : NF) (R N : Nat) (hs : Shape s R N) : ∃ d, getDofs s = some d ∧ d.length = ndof s.stellsym s.mpol s.ntor ∧
    ∀ e m n (k : Nat), (e = true → s.stellsym = false) → indexDofs s.mpol s.ntor m n e = some (k : Int) → d[k]? = some (entry s N e m n) := by
  obtain ⟨hR, hC, hN, hv⟩ := hs
  have hnt : (((s.vns.cols - 1) / 2 : Nat) : Int) = N := by rw [hC]; omega
  let P : Nat → ℝ → Prop := fun k v => ∃ e m n, (e = true → s.stellsym = false) ∧ indexDofs s.mpol s.ntor m n e = some (k : Int) ∧ v = entry s N e m n
  have hPf : ∀ k v v', P k v → P k v' → v = v' := by
    rintro k v v' ⟨e, m, n, _, h, rfl⟩ ⟨e', m', n', _, h', rfl⟩
    obtain ⟨rfl, rfl, rfl⟩ := index_inj _ _ _ _ _ _ _ _ _ h h'
    rfl
  unfold getDofs
  simp only [hnt]
  set l : List (Option Int × Option ℝ) := (List.range (s.mpol + 1)).flatMap fun (mm : Nat) => (intRange (-s.ntor) (s.ntor + 1)).flatMap fun (nn : Int) =>
      if mm = 0 ∧ nn < 0 then [] else if (mm : Int) > (s.vns.rows : Int) - 1 then [] else if nn > (N : Int) then []
      else
        (if !(decide (mm = 0 ∧ nn = 0)) then [(indexDofs s.mpol s.ntor mm nn false, s.vns.get mm (N + nn))] else []) ++
        (if !s.stellsym then [(indexDofs s.mpol s.ntor mm nn true, do (← s.vnc).get mm (N + nn))] else []) with hl
  have hmem : ∀ p, p ∈ l ↔ ∃ e m n, (e = true → s.stellsym = false) ∧ Valid s.mpol s.ntor e m n ∧ (m < s.vns.rows ∧ n ≤ N) ∧
      p = (indexDofs s.mpol s.ntor m n e, if e then (do (← s.vnc).get m (N + n)) else s.vns.get m (N + n)) := by
    intro p
    rw [hl]
    simp only [List.mem_flatMap, List.mem_range, Garab.mem_intRange]
    constructor
    · rintro ⟨mm, hmm, nn, ⟨hn1, hn2⟩, hp⟩
      by_cases c1 : mm = 0 ∧ nn < 0
      · rw [if_pos c1] at hp; simp at hp
      rw [if_neg c1] at hp
      by_cases c2 : (mm : Int) > (s.vns.rows : Int) - 1
      · rw [if_pos c2] at hp; simp at hp
      rw [if_neg c2] at hp
      by_cases c3 : nn > (N : Int)
      · rw [if_pos c3] at hp; simp at hp
      rw [if_neg c3, List.mem_append] at hp
      rcases hp with hp | hp
      · by_cases c4 : mm = 0 ∧ nn = 0
        · simp [c4] at hp
        · rw [if_pos (by simp only [Bool.not_eq_true', decide_eq_false_iff_not]; exact c4)] at hp
          refine ⟨false, mm, nn, by simp, ⟨by omega, by omega, by omega, by omega, by omega, by omega⟩, ⟨by omega, by omega⟩, ?_⟩
          simpa using hp
      · by_cases c4 : s.stellsym = true
        · simp [c4] at hp
        · rw [if_pos (by simpa using c4)] at hp
          refine ⟨true, mm, nn, by simpa using c4, ⟨by omega, by omega, by omega, by omega, by omega, by simp⟩, ⟨by omega, by omega⟩, ?_⟩
          simpa using hp
    · rintro ⟨e, m, n, he, ⟨h1, h2, h3, h4, h5, h6⟩, hr, rfl⟩
      obtain ⟨mm, rfl⟩ := Int.eq_ofNat_of_zero_le h1
      refine ⟨mm, by omega, n, ⟨by omega, by omega⟩, ?_⟩
      rw [if_neg (by omega), if_neg (by omega), if_neg (by omega), List.mem_append]
      cases e with
      | false => left; rw [if_pos (by have := h6 rfl; simp; omega)]; simp
      | true => right; rw [if_pos (by simp [he rfl])]; simp
  have hval : ∀ e m n, (e = true → s.stellsym = false) → Valid s.mpol s.ntor e m n → m < s.vns.rows ∧ n ≤ N →
      (if e then (do (← s.vnc).get m (N + n)) else s.vns.get m (N + n)) = some (entry s N e m n) := by
    intro e m n he ⟨h1, h2, h3, h4, h5, h6⟩ hr
    cases e with
    | false =>
      simp only [Bool.false_eq_true, if_false, entry, if_pos hr]
      simp [Mat.get, pyIdx_eq _ _ h1 hr.1, hC, pyIdx_col N n hr.2 (by omega)]
    | true =>
      obtain ⟨C, hc, hcc, hcr⟩ := hv (he rfl)
      simp only [if_true, entry, if_pos hr, hc]
      simp only [Option.bind_eq_bind, Option.bind_some, Option.getD_some]
      simp [Mat.get, pyIdx_eq C.rows m h1 (by omega), hcc, pyIdx_col N n hr.2 (by omega)]
  obtain ⟨d, e1, e2, e3, e4⟩ := writes_rel P hPf l (List.replicate (ndof s.stellsym s.mpol s.ntor) 0) (by
    intro p hp
    obtain ⟨e, m, n, he, hva, hr, rfl⟩ := (hmem p).mp hp
    obtain ⟨i, hi⟩ := ((C147_index s.mpol s.ntor s.stellsym).1 e m n).mpr hva
    have hb := (C147_index s.mpol s.ntor s.stellsym).2.1 e m n i he hi
    obtain ⟨k, rfl⟩ := Int.eq_ofNat_of_zero_le hb.1
    exact ⟨k, entry s N e m n, by simp; omega, by rw [hi, hval e m n he hva hr], e, m, n, he, hi, rfl⟩)
  refine ⟨d, e1, by simpa using e2, ?_⟩
  intro e m n k he hk
  have hva := ((C147_index s.mpol s.ntor s.stellsym).1 e m n).mp ⟨_, hk⟩
  by_cases hr : m < s.vns.rows ∧ n ≤ N
  · exact e3 k _ ⟨e, m, n, he, hk, rfl⟩ ⟨_, (hmem _).mpr ⟨e, m, n, he, hva, hr, rfl⟩, hk⟩
  · rw [e4 k (fun p hp hpk => by
      obtain ⟨e', m', n', _, _, hr', rfl⟩ := (hmem p).mp hp
      obtain ⟨rfl, rfl, rfl⟩ := index_inj _ _ _ _ _ _ _ _ _ hk hpk
      exact hr hr')]
    have hb := (C147_index s.mpol s.ntor s.stellsym).2.1 e m n k he hk
    rw [List.getElem?_replicate, if_pos (by omega)]
    simp [entry, hr]

/-- `x[index]` of a valid mode. -/
theorem getVns_of (s : NF) (m n : Int) (k : Nat) (v : ℝ) (hk : indexDofs s.mpol s.ntor m n false = some (k : Int)) (hv : s.x[k]? = some v) :
    getVns s m n = some v := by
  have hva := ((C147_index s.mpol s.ntor true).1 false m n).mp ⟨_, hk⟩
  have hc : checkMn s.mpol s.ntor m n = true := by
    obtain ⟨h1, h2, h3, h4, h5, h6⟩ := hva
    simp [checkMn]; omega
  have hlen : k < s.x.length := by
    by_contra hc
    rw [List.getElem?_eq_none (by omega)] at hv
    simp at hv
  simp [getVns, hc, hk, pyIdx_nat _ _ hlen, hv]

theorem getVnc_of (s : NF) (m n : Int) (k : Nat) (v : ℝ) (hst : s.stellsym = false) (hk : indexDofs s.mpol s.ntor m n true = some (k : Int))
    (hv : s.x[k]? = some v) : getVnc s m n = some v := by
  have hva := ((C147_index s.mpol s.ntor true).1 true m n).mp ⟨_, hk⟩
  have hc : checkMn s.mpol s.ntor m n = true := by
    obtain ⟨h1, h2, h3, h4, h5, h6⟩ := hva
    simp [checkMn]; omega
  have hlen : k < s.x.length := by
    by_contra hc
    rw [List.getElem?_eq_none (by omega)] at hv
    simp at hv
  simp [getVnc, hc, hk, hst, pyIdx_nat _ _ hlen, hv]

theorem getVnc_stellsym (s : NF) (m n : Int) (hst : s.stellsym = true) (hva : Valid s.mpol s.ntor true m n) : getVnc s m n = some 0 := by
  obtain ⟨i, hi⟩ := ((C147_index s.mpol s.ntor true).1 true m n).mpr hva
  have hc : checkMn s.mpol s.ntor m n = true := by
    obtain ⟨h1, h2, h3, h4, h5, h6⟩ := hva
    simp [checkMn]; omega
  simp [getVnc, hc, hi, hst]

/-- The dof vector agrees with the arrays. -/
def Synced (s : NF) (R N : Nat) : Prop := Shape s R N ∧ getDofs s = some s.x

theorem synced_vns {s : NF} {R N : Nat} (h : Synced s R N) (m n : Int) (hva : Valid s.mpol s.ntor false m n) : getVns s m n = some (entry s N false m n) := by
  obtain ⟨d, h1, h2, h3⟩ := getDofs_spec s R N h.1
  obtain ⟨i, hi⟩ := ((C147_index s.mpol s.ntor s.stellsym).1 false m n).mpr hva
  have hb := (C147_index s.mpol s.ntor s.stellsym).2.1 false m n i (by simp) hi
  obtain ⟨k, rfl⟩ := Int.eq_ofNat_of_zero_le hb.1
  refine getVns_of s m n k _ hi ?_
  have hd : d = s.x := by rw [h.2] at h1; simpa using h1.symm
  rw [← hd]
  exact h3 false m n k (by simp) hi

theorem synced_vnc {s : NF} {R N : Nat} (h : Synced s R N) (m n : Int) (hva : Valid s.mpol s.ntor true m n) :
    getVnc s m n = some (if s.stellsym then 0 else entry s N true m n) := by
  cases hst : s.stellsym with
  | true => simpa using getVnc_stellsym s m n hst hva
  | false =>
    obtain ⟨d, h1, h2, h3⟩ := getDofs_spec s R N h.1
    obtain ⟨i, hi⟩ := ((C147_index s.mpol s.ntor s.stellsym).1 true m n).mpr hva
    have hb := (C147_index s.mpol s.ntor s.stellsym).2.1 true m n i (by simp [hst]) hi
    obtain ⟨k, rfl⟩ := Int.eq_ofNat_of_zero_le hb.1
    have hd : d = s.x := by rw [h.2] at h1; simpa using h1.symm
    simp only [Bool.false_eq_true, if_false]
    refine getVnc_of s m n k _ hst hi ?_
    rw [← hd]
    exact h3 true m n k (by simp [hst]) hi

end Simsopt.NField
