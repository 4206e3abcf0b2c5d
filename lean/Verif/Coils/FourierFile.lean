import Verif.Curves.XYZ
/-!
# Curves from files of Fourier coefficients (C194)

Model of `CurveXYZFourier.load_curves_from_file` (src/simsopt/geo/curvexyzfourier.py L76-107) and of `read_focus_coils`
(src/simsopt/util/permanent_magnet_helper_functions.py L20-81).  Simplified: numbers are reals and are parsed without rounding; the text of a table has been split into lines and columns.
-/
namespace Simsopt.CoilFile
open Simsopt Simsopt.Curves

/-- `coil_data[i, j]`. -/
def entry (M : List (List ℝ)) (i j : ℕ) : ℝ := (M[i]?.getD [])[j]?.getD 0

/-- One row of `dofs_matrix` of a new curve (zeros) after the loop (curvexyzfourier.py L96-105, permanent_magnet_helper_functions.py L70-79); `c` is the column of the sine coefficients. -/
def dofsRow (order : ℕ) (M : List (List ℝ)) (c : ℕ) : List ℝ :=
  entry M 0 (c + 1) :: (List.range order).flatMap fun io =>
    [if io < min order (M.length - 1) then entry M (io + 1) c else 0, if io < min order (M.length - 1) then entry M (io + 1) (c + 1) else 0]

/-- `local_x` of curve `ic` (L106). -/
def dofs (order : ℕ) (M : List (List ℝ)) (ic : ℕ) : List ℝ := dofsRow order M (6 * ic) ++ dofsRow order M (6 * ic + 2) ++ dofsRow order M (6 * ic + 4)

/-- `load_curves_from_file` (L76-107): the dofs of the curves.  `np.loadtxt` refuses ragged tables and returns a one-dimensional array for a single row or column. -/
def loadFile (order : Option ℕ) (M : List (List ℝ)) : Except Err (List (List ℝ)) :=
  match M with
  | [] => .error .indexError
  | r :: rest =>
    if rest.any fun q => q.length != r.length then .error .valueError
    else if rest = [] ∨ r.length ≤ 1 then .error .indexError
    else if r.length % 6 ≠ 0 then .error .assertionError
    else match order with
      | none => .error .typeError
      | some o => if M.length - 1 < o then .error .assertionError else .ok ((List.range (r.length / 6)).map (dofs o M))

/-- A token of a FOCUS file. -/
inductive Tok where
  | nat (n : ℕ)
  | num (x : ℝ)
  | word

/-- A line of a FOCUS file. -/
inductive Line where
  | comment
  | row (l : List Tok)

def Tok.toReal : Tok → Except Err ℝ
  | .nat n => .ok n
  | .num x => .ok x
  | .word => .error .valueError

/-- The row `np.loadtxt(filename, skiprows=k, max_rows=1)` looks at: the first that is not a comment. -/
def pick (f : List Line) (k : ℕ) : Except Err (List Tok) :=
  match (f.drop k).filterMap fun l => match l with | .comment => none | .row l => some l with
  | [] => .error .valueError
  | l :: _ => .ok l

/-- `np.loadtxt(filename, skiprows=k, max_rows=1, dtype=int)` used as a number (L37-38). -/
def loadInt (f : List Line) (k : ℕ) : Except Err ℕ := do
  match ← pick f k with
  | [.nat n] => .ok n
  | _ => .error .valueError

/-- `usecols=j` (L48). -/
def loadCol (f : List Line) (k j : ℕ) : Except Err ℝ := do
  match (← pick f k)[j]? with
  | some t => t.toReal
  | none => .error .valueError

/-- `usecols=range(w)` (L49-54). -/
def loadCols (f : List Line) (k w : ℕ) : Except Err (List ℝ) := do
  let l ← pick f k
  if l.length < w then .error .valueError else (l.take w).mapM Tok.toReal

/-- What is read for one coil (L47-54): current, xc, xs, yc, ys, zc, zs. -/
structure Raw where
  current : ℝ
  xc : List ℝ
  xs : List ℝ
  yc : List ℝ
  ys : List ℝ
  zc : List ℝ
  zs : List ℝ

def readCoil (f : List Line) (order i : ℕ) : Except Err Raw := do
  let c ← loadCol f (6 + 14 * i) 1
  let xc ← loadCols f (10 + 14 * i) (order + 1)
  let xs ← loadCols f (11 + 14 * i) (order + 1)
  let yc ← loadCols f (12 + 14 * i) (order + 1)
  let ys ← loadCols f (13 + 14 * i) (order + 1)
  let zc ← loadCols f (14 + 14 * i) (order + 1)
  let zs ← loadCols f (15 + 14 * i) (order + 1)
  .ok ⟨c, xc, xs, yc, ys, zc, zs⟩

/-- The six columns of a coil in `coil_data` (L59-64). -/
def Raw.columns (r : Raw) : List (List ℝ) := [r.xs, r.xc, r.ys, r.yc, r.zs, r.zc]

/-- `coil_data` (L57-64): `order + 1` rows, `6 * ncoils` columns. -/
def coilData (order : ℕ) (rs : List Raw) : List (List ℝ) :=
  (List.range (order + 1)).map fun m => rs.flatMap fun r => r.columns.map fun col => col[m]?.getD 0

/-- `read_focus_coils` (L20-81): the dofs of the curves and the currents. -/
def readFocus (f : List Line) : Except Err (List (List ℝ) × List ℝ) := do
  let n ← loadInt f 1
  let order ← loadInt f 8
  let rs ← (List.range n).mapM (readCoil f order)
  .ok ((List.range n).map (dofs order (coilData order rs)), rs.map Raw.current)

/-! ### Specification -/

/-- The Fourier series with cosine coefficients `c` and sine coefficients `s`, up to mode `o`. -/
noncomputable def series (o : ℕ) (c s : ℕ → ℝ) (t : ℝ) : ℝ := ∑ m ∈ Finset.range (o + 1), (c m * Real.cos (2 * Real.pi * m * t) + s m * Real.sin (2 * Real.pi * m * t))

/-- A coil of a FOCUS file: its type and name, number of segments and what follows the current are arbitrary. -/
structure FCoil where
  kind : List Tok
  nseg : Tok
  current : ℝ
  more : List Tok
  order : ℕ
  c : Fin 3 → List ℝ
  s : Fin 3 → List ℝ

/-- The coefficient lines have `order + 1` numbers. -/
def FCoil.WF (k : FCoil) : Prop := ∀ i, (k.c i).length = k.order + 1 ∧ (k.s i).length = k.order + 1

def numbers (l : List ℝ) : Line := .row (l.map .num)

/-- The 14 lines of a coil. -/
def FCoil.lines (k : FCoil) : List Line :=
  [.comment, .comment, .row k.kind, .comment, .row (k.nseg :: .num k.current :: k.more), .comment, .row [.nat k.order], .comment,
    numbers (k.c 0), numbers (k.s 0), numbers (k.c 1), numbers (k.s 1), numbers (k.c 2), numbers (k.s 2)]

/-- A FOCUS file. -/
def focusFile (ks : List FCoil) : List Line := [.comment, .row [.nat ks.length]] ++ ks.flatMap FCoil.lines

/-! ### Tables -/

theorem dofsRow_length (o : ℕ) (M : List (List ℝ)) (c : ℕ) : (dofsRow o M c).length = 2 * o + 1 := by
  rw [dofsRow, List.length_cons, pairs_length]

theorem dofs_get (o : ℕ) (M : List (List ℝ)) (ic i : ℕ) (hi : i < 3) (q : ℕ) (hq : q < 2 * o + 1) : (dofs o M ic)[i * (2 * o + 1) + q]?.getD 0 = (dofsRow o M (6 * ic + 2 * i))[q]?.getD 0 := by
  have hl := dofsRow_length o M
  unfold dofs
  obtain rfl | rfl | rfl : i = 0 ∨ i = 1 ∨ i = 2 := by omega
  · rw [List.append_assoc, List.getElem?_append_left (by rw [hl]; omega)]
    simp
  · rw [List.append_assoc, List.getElem?_append_right (by rw [hl]; omega), List.getElem?_append_left (by rw [hl, hl]; omega), hl]
    congr 2; omega
  · rw [List.getElem?_append_right (by rw [List.length_append, hl, hl]; omega), List.length_append, hl, hl]
    congr 2; omega

theorem dofsRow_get (o : ℕ) (M : List (List ℝ)) (c : ℕ) (ho : o ≤ M.length - 1) :
    (dofsRow o M c)[0]?.getD 0 = entry M 0 (c + 1) ∧ ∀ j, j < o → (dofsRow o M c)[2 * (j + 1) - 1]?.getD 0 = entry M (j + 1) c ∧ (dofsRow o M c)[2 * (j + 1)]?.getD 0 = entry M (j + 1) (c + 1) := by
  refine ⟨rfl, fun j hj => ?_⟩
  have hm : j < min o (M.length - 1) := by omega
  have hp := pairs_get o (fun io => if io < min o (M.length - 1) then entry M (io + 1) c else 0) (fun io => if io < min o (M.length - 1) then entry M (io + 1) (c + 1) else 0) j hj
  rw [dofsRow, show 2 * (j + 1) - 1 = 2 * j + 1 by omega, show 2 * (j + 1) = (2 * j + 1) + 1 by ring, List.getElem?_cons_succ, List.getElem?_cons_succ, hp.1, hp.2]
  simp [hm]

/-- The curve with the loaded dofs is the series whose coefficients are the columns of the table. -/
theorem curve_dofs (o : ℕ) (M : List (List ℝ)) (ho : o ≤ M.length - 1) (ic i : ℕ) (hi : i < 3) (t : ℝ) :
    curve 0 o (dofs o M ic) i t = series o (fun m => entry M m (6 * ic + 2 * i + 1)) (fun m => entry M m (6 * ic + 2 * i)) t := by
  obtain ⟨h0, h1⟩ := dofsRow_get o M (6 * ic + 2 * i) ho
  rw [curve_sum _ _ _ _ hi, series, Finset.sum_range_succ']
  rw [show i * (2 * o + 1) = i * (2 * o + 1) + 0 by rfl, dofs_get o M ic i hi 0 (by omega), h0]
  have : ∀ j ∈ Finset.range o, (dofs o M ic)[i * (2 * o + 1) + 0 + (2 * (j + 1) - 1)]?.getD 0 * sfac 0 t (j + 1) + (dofs o M ic)[i * (2 * o + 1) + 0 + 2 * (j + 1)]?.getD 0 * cfac 0 t (j + 1) =
      entry M (j + 1) (6 * ic + 2 * i + 1) * Real.cos (2 * Real.pi * ((j + 1 : ℕ) : ℝ) * t) + entry M (j + 1) (6 * ic + 2 * i) * Real.sin (2 * Real.pi * ((j + 1 : ℕ) : ℝ) * t) := by
    intro j hj
    have hj := Finset.mem_range.mp hj
    rw [Nat.add_zero, dofs_get o M ic i hi _ (by omega), dofs_get o M ic i hi _ (by omega), (h1 j hj).1, (h1 j hj).2]
    simp only [sfac, cfac]
    ring
  rw [Finset.sum_congr rfl this]
  simp only [c0, Nat.cast_zero, mul_zero, zero_mul, Real.cos_zero, Real.sin_zero]
  ring

theorem dofs_length (o : ℕ) (M : List (List ℝ)) (ic : ℕ) : (dofs o M ic).length = 3 * (2 * o + 1) := by
  simp only [dofs, List.length_append, dofsRow_length]; ring

/-- A table of numbers with `n` columns and at least two rows. -/
def Rect (n : ℕ) (M : List (List ℝ)) : Prop := 2 ≤ M.length ∧ ∀ r ∈ M, r.length = n

/-- **C194**: every six columns of a table are one curve, which is the Fourier series with the coefficients of the columns (sine before cosine, for x, y and z), up to the requested order. -/
theorem C194_load (n o : ℕ) (hn : 0 < n) (M : List (List ℝ)) (hM : Rect (6 * n) M) (ho : o < M.length) :
    ∃ ds, loadFile (some o) M = .ok ds ∧ ds.length = n ∧ ∀ ic < n, ∃ d, ds[ic]? = some d ∧ d.length = 3 * (2 * o + 1) ∧
      ∀ i < 3, ∀ t, curve 0 o d i t = series o (fun m => entry M m (6 * ic + 2 * i + 1)) (fun m => entry M m (6 * ic + 2 * i)) t := by
  obtain ⟨h2, hr⟩ := hM
  obtain ⟨r, rest, rfl⟩ : ∃ r rest, M = r :: rest := by
    cases M with
    | nil => simp at h2
    | cons r rest => exact ⟨r, rest, rfl⟩
  have hrl := hr r (by simp)
  simp only [List.length_cons] at h2 ho
  refine ⟨(List.range n).map (dofs o (r :: rest)), ?_, ?_, fun ic hic => ⟨dofs o (r :: rest) ic, ?_, dofs_length o (r :: rest) ic, fun i hi t => curve_dofs o (r :: rest) (by simp only [List.length_cons]; omega) ic i hi t⟩⟩
  · unfold loadFile
    simp only
    rw [if_neg, if_neg, if_neg, if_neg, hrl, Nat.mul_div_cancel_left _ (by omega)]
    · simp only [List.length_cons]; omega
    · rw [hrl]; omega
    · rw [hrl]
      rintro (h | h)
      · subst h; simp at h2
      · omega
    · simp only [List.any_eq_true, bne_iff_ne, not_exists, not_and, not_not]
      intro q hq
      rw [hrl, hr q (by simp [hq])]
  · simp
  · simp [List.getElem?_range hic]

/-- **C194**: what is refused: a table that is not rectangular, has only one row, has a number of columns that is not a multiple of six, or fewer rows than the order needs; and, although `order=None` is the default of the function, a call without an
order. -/
theorem C194_refused (o : Option ℕ) (M : List (List ℝ)) (h : (∃ q ∈ M, ∃ r ∈ M, q.length ≠ r.length) ∨ M.length < 2 ∨ (∃ r ∈ M, ¬ 6 ∣ r.length) ∨ o = none ∨ ∃ k, o = some k ∧ M.length ≤ k) : ∃ e, loadFile o M = .error e := by
  cases hc : loadFile o M with
  | error e => exact ⟨e, rfl⟩
  | ok ds =>
    exfalso
    unfold loadFile at hc
    cases M with
    | nil => simp at hc
    | cons r rest =>
      simp only at hc
      split at hc
      · simp at hc
      rename_i h1
      split at hc
      · simp at hc
      rename_i h2
      split at hc
      · simp at hc
      rename_i h3
      cases o with
      | none => simp at hc
      | some o =>
        simp only at hc
        split at hc
        · simp at hc
        rename_i h4
        have hl : ∀ q ∈ r :: rest, q.length = r.length := by
          intro q hq
          rcases List.mem_cons.mp hq with rfl | hq
          · rfl
          · simp only [List.any_eq_true, bne_iff_ne, not_exists, not_and, not_not] at h1
            exact h1 q hq
        rcases h with ⟨q, hq, r', hr', hne⟩ | h | ⟨q, hq, hne⟩ | h | ⟨k, h, hk⟩
        · exact hne ((hl q hq).trans (hl r' hr').symm)
        · simp only [List.length_cons] at h
          exact h2 (Or.inl (List.length_eq_zero_iff.mp (by omega)))
        · rw [hl q hq] at hne; omega
        · simp at h
        · obtain rfl := Option.some.inj h
          simp only [List.length_cons] at hk h4
          have : rest ≠ [] := fun h => h2 (Or.inl h)
          omega

/-! ### FOCUS files -/

theorem lines_length (k : FCoil) : k.lines.length = 14 := rfl

theorem flatMap_get (ks : List FCoil) (i j : ℕ) (hj : j < 14) (k : FCoil) (hk : ks[i]? = some k) : (ks.flatMap FCoil.lines)[14 * i + j]? = k.lines[j]? := by
  induction ks generalizing i with
  | nil => simp at hk
  | cons a ks ih =>
    rw [List.flatMap_cons]
    cases i with
    | zero =>
      simp only [List.getElem?_cons_zero, Option.some.injEq] at hk
      subst hk
      rw [List.getElem?_append_left (by rw [lines_length]; omega)]
      simp
    | succ i =>
      rw [List.getElem?_append_right (by rw [lines_length]; omega), lines_length, show 14 * (i + 1) + j - 14 = 14 * i + j by omega]
      exact ih i (by simpa using hk)

theorem file_get (ks : List FCoil) (i j : ℕ) (hj : j < 14) (k : FCoil) (hk : ks[i]? = some k) : (focusFile ks)[2 + j + 14 * i]? = k.lines[j]? := by
  rw [focusFile, List.getElem?_append_right (by simp; omega), ← flatMap_get ks i j hj k hk]
  congr 1
  simp
  omega

theorem pick_row (f : List Line) (n : ℕ) (l : List Tok) (h : f[n]? = some (.row l)) : pick f n = .ok l := by
  obtain ⟨hn, h⟩ := List.getElem?_eq_some_iff.mp h
  rw [pick, List.drop_eq_getElem_cons hn, h]
  rfl

theorem mapM_num (l : List ℝ) : (l.map Tok.num).mapM Tok.toReal = .ok l := by
  induction l with
  | nil => rfl
  | cons a l ih => rw [List.map_cons, List.mapM_cons, ih]; rfl

theorem loadCols_num (f : List Line) (n w : ℕ) (l : List ℝ) (h : f[n]? = some (numbers l)) (hw : w ≤ l.length) : loadCols f n w = .ok (l.take w) := by
  rw [loadCols, pick_row f n _ h]
  show (if (l.map Tok.num).length < w then _ else _) = _
  rw [if_neg (by rw [List.length_map]; omega), ← List.map_take, mapM_num]

theorem mapM_ok {α β : Type} (f : α → Except Err β) (g : α → β) (l : List α) (h : ∀ a ∈ l, f a = .ok (g a)) : l.mapM f = .ok (l.map g) := by
  induction l with
  | nil => rfl
  | cons a l ih => rw [List.mapM_cons, h a (by simp), ih fun b hb => h b (by simp [hb])]; rfl

/-- What is read of a coil. -/
def FCoil.raw (k : FCoil) (o : ℕ) : Raw := ⟨k.current, (k.c 0).take (o + 1), (k.s 0).take (o + 1), (k.c 1).take (o + 1), (k.s 1).take (o + 1), (k.c 2).take (o + 1), (k.s 2).take (o + 1)⟩

theorem readCoil_ok (ks : List FCoil) (i o : ℕ) (k : FCoil) (hk : ks[i]? = some k) (hw : k.WF) (ho : o ≤ k.order) : readCoil (focusFile ks) o i = .ok (k.raw o) := by
  have g : ∀ j, j < 14 → (focusFile ks)[2 + j + 14 * i]? = k.lines[j]? := fun j hj => file_get ks i j hj k hk
  have hc : ∀ i, o + 1 ≤ (k.c i).length := fun i => by rw [(hw i).1]; omega
  have hs : ∀ i, o + 1 ≤ (k.s i).length := fun i => by rw [(hw i).2]; omega
  have h6 : loadCol (focusFile ks) (6 + 14 * i) 1 = .ok k.current := by
    rw [loadCol, pick_row _ _ _ (g 4 (by omega))]; rfl
  rw [readCoil, h6, loadCols_num _ _ _ _ (g 8 (by omega)) (hc 0), loadCols_num _ _ _ _ (g 9 (by omega)) (hs 0), loadCols_num _ _ _ _ (g 10 (by omega)) (hc 1), loadCols_num _ _ _ _ (g 11 (by omega)) (hs 1),
    loadCols_num _ _ _ _ (g 12 (by omega)) (hc 2), loadCols_num _ _ _ _ (g 13 (by omega)) (hs 2)]
  rfl

theorem columns_get (rs : List Raw) (m ic j : ℕ) (hj : j < 6) (r : Raw) (hr : rs[ic]? = some r) :
    (rs.flatMap fun r => r.columns.map fun col => col[m]?.getD 0)[6 * ic + j]? = some ((r.columns[j]?.getD [])[m]?.getD 0) := by
  induction rs generalizing ic with
  | nil => simp at hr
  | cons a rs ih =>
    have hl : ∀ r : Raw, (r.columns.map fun col => col[m]?.getD 0).length = 6 := fun _ => rfl
    rw [List.flatMap_cons]
    cases ic with
    | zero =>
      simp only [List.getElem?_cons_zero, Option.some.injEq] at hr
      subst hr
      rw [List.getElem?_append_left (by rw [hl]; omega), List.getElem?_map]
      have : 6 * 0 + j < a.columns.length := by show _ < 6; omega
      rw [List.getElem?_eq_getElem this, List.getElem?_eq_getElem (by omega : j < a.columns.length)]
      simp
    | succ ic =>
      rw [List.getElem?_append_right (by rw [hl]; omega), hl, show 6 * (ic + 1) + j - 6 = 6 * ic + j by omega]
      exact ih ic (by simpa using hr)

theorem entry_coilData (o : ℕ) (rs : List Raw) (m ic j : ℕ) (hm : m ≤ o) (hj : j < 6) (r : Raw) (hr : rs[ic]? = some r) : entry (coilData o rs) m (6 * ic + j) = (r.columns[j]?.getD [])[m]?.getD 0 := by
  rw [entry, coilData, List.getElem?_map, List.getElem?_range (by omega)]
  show ((rs.flatMap fun r => r.columns.map fun col => col[m]?.getD 0)[6 * ic + j]?).getD 0 = _
  rw [columns_get rs m ic j hj r hr]
  rfl

/-- **C194**: the curves read from a FOCUS file are the Fourier series of its coils, and the currents are those of the coils; more harmonics than the first coil has are cut off, so the curves are exact when all coils have the same number. -/
theorem C194_focus (ks : List FCoil) (hw : ∀ k ∈ ks, k.WF) (k0 : FCoil) (h0 : ks[0]? = some k0) (ho : ∀ k ∈ ks, k0.order ≤ k.order) :
    ∃ ds, readFocus (focusFile ks) = .ok (ds, ks.map FCoil.current) ∧ ds.length = ks.length ∧ ∀ (ic : ℕ) (k : FCoil), ks[ic]? = some k → ∃ d, ds[ic]? = some d ∧
      ∀ (i : Fin 3) (t : ℝ), curve 0 k0.order d i t = series k0.order (fun m => (k.c i)[m]?.getD 0) (fun m => (k.s i)[m]?.getD 0) t := by
  have hn : loadInt (focusFile ks) 1 = .ok ks.length := rfl
  have hord : loadInt (focusFile ks) 8 = .ok k0.order := by
    rw [loadInt, pick_row _ _ [.nat k0.order] (file_get ks 0 6 (by omega) k0 h0)]; rfl
  have hrs : (List.range ks.length).mapM (readCoil (focusFile ks) k0.order) = .ok (ks.map fun k => k.raw k0.order) := by
    rw [mapM_ok _ (fun i => ((ks[i]?).getD k0).raw k0.order)]
    · congr 1
      apply List.ext_getElem?
      intro i
      by_cases hi : i < ks.length
      · simp [hi]
      · simp [hi]
    · intro i hi
      have hi := List.mem_range.mp hi
      have hk : ks[i]? = some ks[i] := List.getElem?_eq_getElem hi
      rw [hk]
      exact readCoil_ok ks i _ _ hk (hw _ (List.getElem_mem hi)) (ho _ (List.getElem_mem hi))
  refine ⟨(List.range ks.length).map (dofs k0.order (coilData k0.order (ks.map fun k => k.raw k0.order))), ?_, by simp, fun ic k hk => ⟨dofs k0.order (coilData k0.order (ks.map fun k => k.raw k0.order)) ic, ?_, fun i t => ?_⟩⟩
  · rw [readFocus, hn, hord]
    show ((List.range ks.length).mapM (readCoil (focusFile ks) k0.order) >>= _) = _
    rw [hrs]
    show Except.ok _ = _
    simp [FCoil.raw, Function.comp_def]
  · have hic : ic < ks.length := (List.getElem?_eq_some_iff.mp hk).1
    rw [List.getElem?_map, List.getElem?_range hic]
    rfl
  · have hr : (ks.map fun k => k.raw k0.order)[ic]? = some (k.raw k0.order) := by simp [hk]
    rw [curve_dofs _ _ (by simp [coilData]) ic i i.isLt t, series, series]
    refine Finset.sum_congr rfl fun m hm => ?_
    have hm : m ≤ k0.order := by have := Finset.mem_range.mp hm; omega
    have hi := i.isLt
    rw [show 6 * ic + 2 * (i : ℕ) + 1 = 6 * ic + (2 * i + 1) by ring, entry_coilData _ _ m ic _ hm (by omega) _ hr, entry_coilData _ _ m ic _ hm (by omega) _ hr]
    congr 2
    · fin_cases i <;> simp [Raw.columns, FCoil.raw, List.getElem?_take, Nat.lt_succ_of_le hm]
    · fin_cases i <;> simp [Raw.columns, FCoil.raw, List.getElem?_take, Nat.lt_succ_of_le hm]

/-- **C194**: a file in which a coil has fewer harmonics than the first is refused. -/
theorem C194_focus_refused (ks : List FCoil) (hw : ∀ k ∈ ks, k.WF) (k0 : FCoil) (h0 : ks[0]? = some k0) (h : ∃ k ∈ ks, k.order < k0.order) : ∃ e, readFocus (focusFile ks) = .error e := by
  have hn : loadInt (focusFile ks) 1 = .ok ks.length := rfl
  have hord : loadInt (focusFile ks) 8 = .ok k0.order := by
    rw [loadInt, pick_row _ _ [.nat k0.order] (file_get ks 0 6 (by omega) k0 h0)]; rfl
  obtain ⟨k, hk, hlt⟩ := h
  obtain ⟨i, hi, rfl⟩ := List.getElem_of_mem hk
  have hki : ks[i]? = some ks[i] := List.getElem?_eq_getElem hi
  have hbad : ∃ e, readCoil (focusFile ks) k0.order i = .error e := by
    have g : (focusFile ks)[2 + 8 + 14 * i]? = _ := file_get ks i 8 (by omega) _ hki
    have h10 : loadCols (focusFile ks) (10 + 14 * i) (k0.order + 1) = .error .valueError := by
      rw [loadCols, pick_row _ _ ((ks[i].c 0).map Tok.num) g]
      show (if ((ks[i].c 0).map Tok.num).length < k0.order + 1 then _ else _) = _
      rw [if_pos (by rw [List.length_map, ((hw _ hk) 0).1]; omega)]
    rw [readCoil, h10]
    cases loadCol (focusFile ks) (6 + 14 * i) 1 with
    | error e => exact ⟨e, rfl⟩
    | ok c => exact ⟨_, rfl⟩
  have hmap : ∀ l : List ℕ, i ∈ l → ∃ e, l.mapM (readCoil (focusFile ks) k0.order) = .error e := by
    intro l
    induction l with
    | nil => simp
    | cons a l ih =>
      intro hl
      rw [List.mapM_cons]
      cases ha : readCoil (focusFile ks) k0.order a with
      | error e => exact ⟨e, rfl⟩
      | ok r =>
        rcases List.mem_cons.mp hl with rfl | hl
        · obtain ⟨e, he⟩ := hbad; rw [he] at ha; cases ha
        · obtain ⟨e, he⟩ := ih hl
          rw [he]; exact ⟨e, rfl⟩
  obtain ⟨e, he⟩ := hmap _ (List.mem_range.mpr hi)
  rw [readFocus, hn, hord]
  show ∃ e', ((List.range ks.length).mapM (readCoil (focusFile ks) k0.order) >>= _) = .error e'
  rw [he]
  exact ⟨e, rfl⟩

/-- Two coils, the second of which has one more harmonic. -/
noncomputable def demoA : FCoil := ⟨[.nat 1, .nat 0, .word], .nat 64, 5, [.nat 0], 0, fun _ => [1], fun _ => [0]⟩
noncomputable def demoB : FCoil := ⟨[.nat 1, .nat 0, .word], .nat 64, 7, [.nat 0], 1, fun _ => [1, 2], fun _ => [0, 3]⟩

/-- **C194 (exception)**: harmonics beyond the number of the first coil are dropped without a word: the second curve is a point, not the ellipse of the file. -/
theorem C194_truncated_violated : ∃ ds d, readFocus (focusFile [demoA, demoB]) = .ok (ds, [5, 7]) ∧ ds[1]? = some d ∧ curve 0 0 d 0 0 = 1 ∧ series demoB.order (fun m => (demoB.c 0)[m]?.getD 0) (fun m => (demoB.s 0)[m]?.getD 0) 0 = 3 := by
  have hw : ∀ k ∈ [demoA, demoB], k.WF := by
    intro k hk i
    simp only [List.mem_cons, List.not_mem_nil, or_false] at hk
    rcases hk with rfl | rfl <;> exact ⟨rfl, rfl⟩
  obtain ⟨ds, h1, -, h3⟩ := C194_focus [demoA, demoB] hw demoA rfl (fun k _ => Nat.zero_le _)
  obtain ⟨d, hd, hc⟩ := h3 1 demoB rfl
  refine ⟨ds, d, h1, hd, ?_, ?_⟩
  · have := hc 0 0
    rw [show demoA.order = 0 from rfl] at this
    show curve 0 0 d ((0 : Fin 3) : ℕ) 0 = 1
    rw [this]
    simp [series, demoB]
  · simp [series, demoB, Finset.sum_range_succ]
    norm_num

/-- A table that meets the hypotheses of `C194_load`: two rows, one coil. -/
theorem demo_table : Rect (6 * 1) [[0, 1, 0, 2, 0, 3], [4, 5, 6, 7, 8, 9]] ∧ (1 : ℕ) < [[0, 1, 0, 2, 0, 3], [4, 5, 6, 7, 8, (9 : ℝ)]].length := by
  refine ⟨⟨by simp, ?_⟩, by simp⟩
  intro r hr
  simp only [List.mem_cons, List.not_mem_nil, or_false] at hr
  rcases hr with rfl | rfl <;> rfl

end Simsopt.CoilFile
