import Verif.Ports.Sym
/-!
# C166: saving and loading sets of ports (src/simsopt/geo/ports.py)
-/
namespace Simsopt.Ports
open Simsopt Coils

/-- One line of a CSV file: its numbers (the format `%.16e` reproduces every double; the model has real numbers). -/
abbrev Row := List ℝ

/-- The two files of a name (L196-232): `fname_circ.csv` and `fname_rect.csv`, absent or a list of lines after the header. -/
structure Disk where
  circ : Option (List Row)
  rect : Option (List Row)

/-- A line of `save_ports_to_file` for a circular port (L215-216). -/
def Circ.row (c : Circ) : Row := [c.o.1, c.o.2.1, c.o.2.2, c.a.1, c.a.2.1, c.a.2.2, c.ir, c.thick, c.l0, c.l1]

/-- A line for a rectangular port (L225-227). -/
def Rect.row (c : Rect) : Row :=
  [c.o.1, c.o.2.1, c.o.2.2, c.a.1, c.a.2.1, c.a.2.2, c.w.1, c.w.2.1, c.w.2.2, c.iw, c.ih, c.thick, c.l0, c.l1]

/-- `[p for p in self.ports if isinstance(p, CircularPort)]` (L210). -/
def circs (ports : List Port) : List Circ := ports.filterMap fun p => match p with | .circ c => some c | .rect _ => none

/-- `[p for p in self.ports if isinstance(p, RectangularPort)]` (L211). -/
def rects (ports : List Port) : List Rect := ports.filterMap fun p => match p with | .circ _ => none | .rect c => some c

/-- `save_ports_to_file` (L196-232): a file is written only if there are ports of its type. -/
def save (ports : List Port) (d : Disk) : Disk :=
  { circ := if 0 < (circs ports).length then some ((circs ports).map Circ.row) else d.circ
    rect := if 0 < (rects ports).length then some ((rects ports).map Rect.row) else d.rect }

/-- `np.loadtxt(file, delimiter=',', skiprows=1)` followed by `portdata.shape[1]` (L142-144, L176-178): numpy drops dimensions of length one, so a file with one line (or none) gives a one-dimensional array, whose `shape[1]`
raises IndexError; lines of different lengths raise ValueError. An absent file raises an OSError (here runtimeError). -/
def loadtxt : Option (List Row) → Except Err (ℕ × List Row)
  | none => .error .runtimeError
  | some [] => .error .indexError
  | some [_] => .error .indexError
  | some (r :: l) => if l.all (fun x => x.length = r.length) then .ok (r.length, r :: l) else .error .valueError

/-- One port of `load_circular_ports_from_file` (L151-157). -/
noncomputable def circOfRow : Row → Except Err Port
  | [ox, oy, oz, ax, ay, az, ir, thick, l0, l1] => (Circ.make (ox, oy, oz) (ax, ay, az) ir thick l0 l1).map .circ
  | _ => .error .indexError

/-- One port of `load_rectangular_ports_from_file` (L185-194). -/
noncomputable def rectOfRow : Row → Except Err Port
  | [ox, oy, oz, ax, ay, az, wx, wy, wz, iw, ih, thick, l0, l1] => (Rect.make (ox, oy, oz) (ax, ay, az) (wx, wy, wz) iw ih thick l0 l1).map .rect
  | _ => .error .indexError

/-- `load_circular_ports_from_file` (L125-157): the ports are appended to the set. -/
noncomputable def loadCirc (d : Disk) (ports : List Port) : Except Err (List Port) := do
  let (n, rows) ← loadtxt d.circ
  if n ≠ 10 then throw .valueError
  let new ← rows.mapM circOfRow
  return ports ++ new

/-- `load_rectangular_ports_from_file` (L159-194). -/
noncomputable def loadRect (d : Disk) (ports : List Port) : Except Err (List Port) := do
  let (n, rows) ← loadtxt d.rect
  if n ≠ 14 then throw .valueError
  let new ← rows.mapM rectOfRow
  return ports ++ new

/-- The types `port_type` names (L66-73). -/
inductive Kind where
  | circular | rectangular | other

/-- `PortSet(file=[...], port_type=[...])` (L42-73) for files with the given names of one save; `file` lists which file is read, `types` the types (L61: the numbers are compared if there are several files). -/
noncomputable def loadSet (d : Disk) (n : ℕ) (types : List Kind) : Except Err (List Port) := do
  if 1 < n ∧ types.length ≠ n then throw .valueError
  (types.take n).foldlM (fun acc k => match k with
    | .circular => loadCirc d acc
    | .rectangular => loadRect d acc
    | .other => .error .valueError) []

theorem circOfRow_row (c : Circ) (h : c.Unit) : circOfRow c.row = .ok (.circ c) := by
  show (Circ.make c.o c.a c.ir c.thick c.l0 c.l1).map Port.circ = _
  rw [circ_make_unit _ _ _ _ _ _ h]; rfl

theorem rectOfRow_row (c : Rect) (h : c.Frame) : rectOfRow c.row = .ok (.rect c) := by
  show (Rect.make c.o c.a c.w c.iw c.ih c.thick c.l0 c.l1).map Port.rect = _
  rw [rect_make_unit _ _ _ _ _ _ _ _ h.a h.w h.aw, ← h.h]; rfl

theorem mapM_rows {α : Type} (l : List α) (row : α → Row) (g : Row → Except Err Port) (f : α → Port) (h : ∀ a ∈ l, g (row a) = .ok (f a)) : (l.map row).mapM g = .ok (l.map f) := by
  induction l with
  | nil => rfl
  | cons a l ih =>
    rw [List.map_cons, List.mapM_cons, h a (by simp), ih fun b hb => h b (by simp [hb])]
    rfl

theorem loadtxt_rows {α : Type} (l : List α) (row : α → Row) (n : ℕ) (h2 : 2 ≤ l.length) (h : ∀ a, (row a).length = n) : loadtxt (some (l.map row)) = .ok (n, l.map row) := by
  match l, h2 with
  | a :: b :: l, _ =>
    show (if ((b :: l).map row).all (fun x => x.length = (row a).length) then _ else _) = _
    rw [if_pos]
    · rw [h a]; rfl
    · rw [List.all_eq_true]
      intro x hx
      obtain ⟨c, -, rfl⟩ := List.mem_map.1 hx
      simp [h]

theorem circs_good (ports : List Port) (h : ∀ q ∈ ports, q.Good) : ∀ c ∈ circs ports, c.Unit := by
  intro c hc
  obtain ⟨q, hq, h1⟩ := List.mem_filterMap.1 hc
  cases q with
  | circ d => simp only [Option.some.injEq] at h1; subst h1; exact h _ hq
  | rect d => simp at h1

theorem rects_good (ports : List Port) (h : ∀ q ∈ ports, q.Good) : ∀ c ∈ rects ports, c.Frame := by
  intro c hc
  obtain ⟨q, hq, h1⟩ := List.mem_filterMap.1 hc
  cases q with
  | circ d => simp at h1
  | rect d => simp only [Option.some.injEq] at h1; subst h1; exact h _ hq

theorem loadCirc_save (ports : List Port) (h : ∀ q ∈ ports, q.Good) (d : Disk) (h2 : 2 ≤ (circs ports).length) (acc : List Port) : loadCirc (save ports d) acc = .ok (acc ++ (circs ports).map .circ) := by
  unfold loadCirc save
  simp only
  rw [if_pos (by omega), loadtxt_rows _ _ 10 h2 fun _ => rfl]
  simp only [bind, Except.bind, pure, Except.pure, ne_eq, not_true, if_false]
  rw [mapM_rows _ _ _ .circ fun c hc => circOfRow_row c (circs_good ports h c hc)]

theorem loadRect_save (ports : List Port) (h : ∀ q ∈ ports, q.Good) (d : Disk) (h2 : 2 ≤ (rects ports).length) (acc : List Port) : loadRect (save ports d) acc = .ok (acc ++ (rects ports).map .rect) := by
  unfold loadRect save
  simp only
  rw [if_pos (by omega), loadtxt_rows _ _ 14 h2 fun _ => rfl]
  simp only [bind, Except.bind, pure, Except.pure, ne_eq, not_true, if_false]
  rw [mapM_rows _ _ _ .rect fun c hc => rectOfRow_row c (rects_good ports h c hc)]

/-- **C166**: a set with at least two circular and at least two rectangular ports is loaded as it was saved, the circular ports first, whatever was in the directory; a set with one type only (at least two ports of it) too. -/
theorem C166_round_trip (ports : List Port) (h : ∀ q ∈ ports, q.Good) (d : Disk) :
    (2 ≤ (circs ports).length → 2 ≤ (rects ports).length → ∃ l, loadSet (save ports d) 2 [.circular, .rectangular] = .ok l ∧ l = (circs ports).map .circ ++ (rects ports).map .rect ∧ l.Perm ports ∧
      loadSet (save ports d) 2 [.rectangular, .circular] = .ok ((rects ports).map .rect ++ (circs ports).map .circ)) ∧
    (2 ≤ ports.length → (∀ q ∈ ports, ∃ c, q = .circ c) → loadSet (save ports d) 1 [.circular] = .ok ports) ∧
    (2 ≤ ports.length → (∀ q ∈ ports, ∃ c, q = .rect c) → loadSet (save ports d) 1 [.rectangular] = .ok ports) := by
  have hc : ∀ l : List Port, (∀ q ∈ l, ∃ c, q = .circ c) → (circs l).map .circ = l ∧ (circs l).length = l.length := by
    intro l
    induction l with
    | nil => intro _; exact ⟨rfl, rfl⟩
    | cons q l ih =>
      intro hq
      obtain ⟨c, rfl⟩ := hq q (by simp)
      obtain ⟨i1, i2⟩ := ih fun r hr => hq r (by simp [hr])
      have e : circs (.circ c :: l) = c :: circs l := rfl
      rw [e, List.map_cons, i1, List.length_cons, i2]
      exact ⟨rfl, rfl⟩
  have hr : ∀ l : List Port, (∀ q ∈ l, ∃ c, q = .rect c) → (rects l).map .rect = l ∧ (rects l).length = l.length := by
    intro l
    induction l with
    | nil => intro _; exact ⟨rfl, rfl⟩
    | cons q l ih =>
      intro hq
      obtain ⟨c, rfl⟩ := hq q (by simp)
      obtain ⟨i1, i2⟩ := ih fun r hr => hq r (by simp [hr])
      have e : rects (.rect c :: l) = c :: rects l := rfl
      rw [e, List.map_cons, i1, List.length_cons, i2]
      exact ⟨rfl, rfl⟩
  refine ⟨fun h1 h2 => ?_, fun h2 hq => ?_, fun h2 hq => ?_⟩
  · refine ⟨_, ?_, rfl, ?_, ?_⟩
    · unfold loadSet
      rw [if_neg (by simp)]
      show (loadCirc (save ports d) [] >>= fun s => loadRect (save ports d) s >>= fun s => pure s) = _
      rw [loadCirc_save ports h d h1]
      show ((loadRect (save ports d) ([] ++ (circs ports).map .circ)) >>= fun s => pure s) = _
      rw [loadRect_save ports h d h2]
      rfl
    · clear h h1 h2
      induction ports with
      | nil => exact List.Perm.refl _
      | cons q l ih =>
        cases q with
        | circ c => exact List.Perm.cons _ ih
        | rect c =>
          have e : circs (.rect c :: l) = circs l := rfl
          have e' : rects (.rect c :: l) = c :: rects l := rfl
          rw [e, e', List.map_cons]
          exact List.perm_middle.trans (List.Perm.cons _ ih)
    · unfold loadSet
      rw [if_neg (by simp)]
      show (loadRect (save ports d) [] >>= fun s => loadCirc (save ports d) s >>= fun s => pure s) = _
      rw [loadRect_save ports h d h2]
      show ((loadCirc (save ports d) ([] ++ (rects ports).map .rect)) >>= fun s => pure s) = _
      rw [loadCirc_save ports h d h1]
      rfl
  · obtain ⟨i1, i2⟩ := hc ports hq
    unfold loadSet
    rw [if_neg (by simp)]
    show (loadCirc (save ports d) [] >>= fun s => pure s) = _
    rw [loadCirc_save ports h d (by omega), i1]; rfl
  · obtain ⟨i1, i2⟩ := hr ports hq
    unfold loadSet
    rw [if_neg (by simp)]
    show (loadRect (save ports d) [] >>= fun s => pure s) = _
    rw [loadRect_save ports h d (by omega), i1]; rfl

/-- **C166**: files with the wrong number of columns are refused. -/
theorem C166_columns (rows : List Row) (n : ℕ) (h2 : 2 ≤ rows.length) (h : ∀ r ∈ rows, r.length = n) (d : Disk) (acc : List Port) :
    (n ≠ 10 → loadCirc { d with circ := some rows } acc = .error .valueError) ∧ (n ≠ 14 → loadRect { d with rect := some rows } acc = .error .valueError) := by
  have e : loadtxt (some rows) = .ok (n, rows) := by
    match rows, h2, h with
    | a :: b :: l, _, h =>
      show (if (b :: l).all (fun x => x.length = a.length) then _ else _) = _
      rw [if_pos]
      · rw [h a (by simp)]
      · rw [List.all_eq_true]
        intro x hx
        rw [h a (by simp), h x (by simp [List.mem_cons.1 hx])]
        simp
  constructor <;> intro hn
  · unfold loadCirc
    simp only
    rw [e]
    simp only [bind, Except.bind, ne_eq, hn, not_false_eq_true, if_true]
    rfl
  · unfold loadRect
    simp only
    rw [e]
    simp only [bind, Except.bind, ne_eq, hn, not_false_eq_true, if_true]
    rfl

/-- **C166** (violated): a file with a single port cannot be loaded. -/
theorem C166_single_violated (c : Circ) (r : Rect) (d : Disk) : loadSet (save [.circ c] d) 1 [.circular] = .error .indexError ∧ loadSet (save [.rect r] d) 1 [.rectangular] = .error .indexError := ⟨rfl, rfl⟩

/-- **C166** (violated): saving a set without ports of a type leaves the file of an earlier save: loading both files gives ports that are not in the set. -/
theorem C166_stale_violated (old new : List Port) (ho : ∀ q ∈ old, q.Good) (hn : ∀ q ∈ new, q.Good) (d : Disk) :
    (2 ≤ (circs old).length → circs new = [] → 2 ≤ (rects new).length → loadSet (save new (save old d)) 2 [.circular, .rectangular] = .ok ((circs old).map .circ ++ (rects new).map .rect)) ∧
    (2 ≤ (rects old).length → rects new = [] → 2 ≤ (circs new).length → loadSet (save new (save old d)) 2 [.circular, .rectangular] = .ok ((circs new).map .circ ++ (rects old).map .rect)) := by
  constructor
  · intro h1 h2 h3
    unfold loadSet
    rw [if_neg (by simp)]
    show (loadCirc (save new (save old d)) [] >>= fun s => loadRect (save new (save old d)) s >>= fun s => pure s) = _
    have e : (save new (save old d)).circ = (save old d).circ := by
      show (if 0 < (circs new).length then _ else _) = _
      rw [h2]; rfl
    have e2 : loadCirc (save new (save old d)) [] = loadCirc (save old d) [] := by unfold loadCirc; rw [e]
    rw [e2, loadCirc_save old ho d h1]
    show ((loadRect (save new (save old d)) ([] ++ (circs old).map .circ)) >>= fun s => pure s) = _
    rw [loadRect_save new hn _ h3]
    rfl
  · intro h1 h2 h3
    unfold loadSet
    rw [if_neg (by simp)]
    show (loadCirc (save new (save old d)) [] >>= fun s => loadRect (save new (save old d)) s >>= fun s => pure s) = _
    have e : (save new (save old d)).rect = (save old d).rect := by
      show (if 0 < (rects new).length then _ else _) = _
      rw [h2]; rfl
    have e2 : ∀ l, loadRect (save new (save old d)) l = loadRect (save old d) l := fun l => by unfold loadRect; rw [e]
    rw [loadCirc_save new hn _ h3]
    show ((loadRect (save new (save old d)) ([] ++ (circs new).map .circ)) >>= fun s => pure s) = _
    rw [e2, loadRect_save old ho d h1]
    rfl

/-- A concrete case: two default ports of each type are saved and loaded. -/
example : ∃ (c : Circ) (r : Rect), (Port.circ c).Good ∧ (Port.rect r).Good ∧
    loadSet (save [.circ c, .rect r, .circ c, .rect r] ⟨none, none⟩) 2 [.circular, .rectangular] = .ok [.circ c, .circ c, .rect r, .rect r] := by
  have ha : dot ((1, 0, 0) : V3) (1, 0, 0) = 1 := by simp [dot, Geometry.inner]
  have hw : dot ((0, 1, 0) : V3) (0, 1, 0) = 1 := by simp [dot, Geometry.inner]
  have haw : dot ((1, 0, 0) : V3) (0, 1, 0) = 0 := by simp [dot, Geometry.inner]
  let c : Circ := { o := (1, 0, 0), a := (1, 0, 0), ir := 0.5, thick := 0.01, l0 := 0, l1 := 0.5 }
  let r : Rect := { o := (1, 0, 0), a := (1, 0, 0), w := (0, 1, 0), h := height (1, 0, 0) (0, 1, 0), iw := 0.5, ih := 0.5, thick := 0.01, l0 := 0, l1 := 0.5 }
  have hc : (Port.circ c).Good := ha
  have hr : (Port.rect r).Good := ⟨ha, hw, haw, rfl⟩
  refine ⟨c, r, hc, hr, ?_⟩
  obtain ⟨l, h1, rfl, -, -⟩ := (C166_round_trip [.circ c, .rect r, .circ c, .rect r] (by
    intro q hq
    simp only [List.mem_cons, List.not_mem_nil, or_false] at hq
    rcases hq with rfl | rfl | rfl | rfl
    · exact hc
    · exact hr
    · exact hc
    · exact hr) ⟨none, none⟩).1 (by simp [circs]) (by simp [rects])
  exact h1

end Simsopt.Ports
