import Verif.Makegrid.Model
/-!
# C38: reading back what `coils_to_makegrid` wrote
-/
namespace Simsopt.Makegrid
open Simsopt Simsopt.Coils

variable {R : Type}

/-- Printed and read back. -/
def rnd3 (rnd : R → R) (p : R × R × R) : R × R × R := (rnd p.1, rnd p.2.1, rnd p.2.2)

/-- The coils selected by `group_names`: those whose sixth token, the curve name, is listed. -/
def Selected (gs : Option (List String)) (c : Filament R) : Bool :=
  match gs with
  | none => true
  | some l => l.any fun g => decide (c.name = [g])

theorem write_ok [Zero R] (fmt : R → String) (nfp : Nat) (cs : List (Filament R)) (hp : ∀ c ∈ cs, c.pts ≠ []) :
    ∃ body, filamentsLines fmt cs = .ok body ∧
      write fmt nfp cs = .ok ([["periods", toString nfp], ["begin", "filament"], ["mirror", "NIL"]] ++ body ++ [["end"]]) := by
  have : ∃ body, filamentsLines fmt cs = .ok body := by
    induction cs with
    | nil => exact ⟨[], rfl⟩
    | cons c cs ih =>
      obtain ⟨b, hb⟩ := ih fun c hc => hp c (List.mem_cons_of_mem _ hc)
      have hc := hp c List.mem_cons_self
      cases h : c.pts with
      | nil => exact absurd h hc
      | cons p ps => exact ⟨_, by simp [filamentsLines, filamentLines, h, hb]; rfl⟩
  obtain ⟨b, hb⟩ := this
  exact ⟨b, hb, by simp [write, hb]; rfl⟩

theorem keep_last (gs : Option (List String)) (a b c d : String) (f : Filament R) (hg : f.group.length = 1) (hn : f.name.length = 1) :
    keep gs ([a, b, c, d] ++ f.group ++ f.name) = .ok (Selected gs f) := by
  obtain ⟨g, hg⟩ := List.length_eq_one_iff.mp hg
  obtain ⟨n, hn⟩ := List.length_eq_one_iff.mp hn
  cases gs with
  | none => rfl
  | some l =>
    simp only [keep, Selected, hg, hn]
    simp only [List.cons_append, List.nil_append, List.getElem?_cons_succ, List.getElem?_cons_zero]
    congr 1
    induction l with
    | nil => rfl
    | cons x xs ih =>
      simp only [List.contains_cons, List.any_cons, ← ih]
      congr 1
      by_cases h : n = x <;> simp [h]

/-- Lines in the middle of a filament do not change the current. -/
theorem readCurrents_points (fmt : R → String) (parse : String → Except Err R) (gs : Option (List String)) (cur : R)
    (ps : List (R × R × R)) (rest : List Line) (c0 : R) (acc : List R) :
    readCurrents parse gs (ps.map (pointLine fmt cur) ++ rest) false c0 acc = readCurrents parse gs rest false c0 acc := by
  induction ps with
  | nil => rfl
  | cons p ps ih => simp [readCurrents, pointLine]; simpa [pointLine] using ih

theorem readCurrents_filament [Zero R] (fmt : R → String) (parse : String → Except Err R) (rnd : R → R)
    (hr : ∀ v, parse (fmt v) = .ok (rnd v)) (gs : Option (List String)) (c : Filament R) (hg : c.group.length = 1)
    (hn : c.name.length = 1) (ls : List Line) (h : filamentLines fmt c = .ok ls) (rest : List Line) (c0 : R) (acc : List R) :
    readCurrents parse gs (ls ++ rest) true c0 acc =
      readCurrents parse gs rest true (rnd c.cur) (if Selected gs c then acc ++ [rnd c.cur] else acc) := by
  cases hp : c.pts with
  | nil => simp [filamentLines, hp] at h
  | cons p ps =>
    simp only [filamentLines, hp, Except.ok.injEq] at h
    subst h
    simp only [List.map_cons, List.cons_append, List.append_assoc]
    rw [readCurrents]
    simp only [pointLine, List.getElem?_cons_succ, List.getElem?_cons_zero, hr, if_true, List.length_cons, List.length_nil]
    simp only [show ¬ (0 + 1 + 1 + 1 + 1 > 4) by omega, if_false]
    show readCurrents parse gs _ false (rnd c.cur) acc = _
    rw [readCurrents_points]
    rw [List.nil_append, readCurrents]
    have hlen : ([fmt p.1, fmt p.2.1, fmt p.2.2, fmt 0] ++ (c.group ++ c.name)).length > 4 := by simp [hg, hn]
    simp only [List.cons_append, List.nil_append] at hlen
    simp only [hlen, if_true, Bool.false_eq_true, if_false]
    have hk := keep_last gs (fmt p.1) (fmt p.2.1) (fmt p.2.2) (fmt 0) c hg hn
    simp only [List.append_assoc, List.cons_append, List.nil_append] at hk
    simp [hk]
    rfl

theorem readPoints_points (fmt : R → String) (parse : String → Except Err R) (rnd : R → R) (hr : ∀ v, parse (fmt v) = .ok (rnd v))
    (gs : Option (List String)) (cur : R) (ps : List (R × R × R)) (rest : List Line) (single : List (R × R × R))
    (acc : List (List (R × R × R))) :
    readPoints parse gs (ps.map (pointLine fmt cur) ++ rest) single acc =
      readPoints parse gs rest (single ++ ps.map (rnd3 rnd)) acc := by
  induction ps generalizing single with
  | nil => simp
  | cons p ps ih =>
    simp only [List.map_cons, List.cons_append, readPoints, pointLine, List.length_cons, List.length_nil, if_true, parsePoint, hr]
    show readPoints parse gs (ps.map (pointLine fmt cur) ++ rest) (single ++ [rnd3 rnd p]) acc = _
    rw [ih]; simp

theorem readPoints_filament [Zero R] (fmt : R → String) (parse : String → Except Err R) (rnd : R → R)
    (hr : ∀ v, parse (fmt v) = .ok (rnd v)) (gs : Option (List String)) (c : Filament R) (hg : c.group.length = 1)
    (hn : c.name.length = 1) (ls : List Line) (h : filamentLines fmt c = .ok ls) (rest : List Line)
    (acc : List (List (R × R × R))) :
    readPoints parse gs (ls ++ rest) [] acc =
      readPoints parse gs rest [] (if Selected gs c then acc ++ [c.pts.map (rnd3 rnd)] else acc) := by
  cases hp : c.pts with
  | nil => simp [filamentLines, hp] at h
  | cons p ps =>
    simp only [filamentLines, hp, Except.ok.injEq] at h
    subst h
    rw [List.append_assoc, readPoints_points fmt parse rnd hr]
    have hlen : ([fmt p.1, fmt p.2.1, fmt p.2.2, fmt 0] ++ c.group ++ c.name).length = 6 := by simp [hg, hn]
    have hk := keep_last gs (fmt p.1) (fmt p.2.1) (fmt p.2.2) (fmt 0) c hg hn
    rw [List.cons_append, readPoints, if_neg (by omega), if_pos hlen, hk]
    rfl

theorem read_body [Zero R] (fmt : R → String) (parse : String → Except Err R) (rnd : R → R)
    (hr : ∀ v, parse (fmt v) = .ok (rnd v)) (gs : Option (List String)) (cs : List (Filament R))
    (htok : ∀ c ∈ cs, c.group.length = 1 ∧ c.name.length = 1) (body : List Line) (h : filamentsLines fmt cs = .ok body) :
    (∀ c0 acc, readCurrents parse gs body true c0 acc = .ok (acc ++ (cs.filter (Selected gs)).map fun c => rnd c.cur)) ∧
    (∀ acc, readPoints parse gs (body ++ [["end"]]) [] acc =
      .ok (acc ++ (cs.filter (Selected gs)).map fun c => c.pts.map (rnd3 rnd))) := by
  induction cs generalizing body with
  | nil =>
    simp only [filamentsLines, Except.ok.injEq] at h; subst h
    exact ⟨fun c0 acc => by simp [readCurrents], fun acc => by simp [readPoints]⟩
  | cons c cs ih =>
    simp only [filamentsLines] at h
    cases ha : filamentLines fmt c with
    | error e => rw [ha] at h; cases h
    | ok a =>
      cases hb : filamentsLines fmt cs with
      | error e => rw [ha, hb] at h; cases h
      | ok b =>
        rw [ha, hb] at h
        cases h
        obtain ⟨hg, hn⟩ := htok c List.mem_cons_self
        obtain ⟨h1, h2⟩ := ih (fun c hc => htok c (List.mem_cons_of_mem _ hc)) b hb
        constructor
        · intro c0 acc
          rw [readCurrents_filament fmt parse rnd hr gs c hg hn a ha, h1]
          by_cases hs : Selected gs c <;> simp [hs]
        · intro acc
          rw [List.append_assoc, readPoints_filament fmt parse rnd hr gs c hg hn a ha, h2]
          by_cases hs : Selected gs c <;> simp [hs]

/-- C38: for every list of filaments with at least one point each and blank-free group and curve names, the file can be written, and the two
    line-oriented readers find in it exactly the selected filaments, in order: the current of each, as printed, and all its points, as
    printed, without the repeated closing point. `rnd` is what printing with 16 digits and reading back does to a number. -/
theorem C38_round_trip [Zero R] (fmt : R → String) (parse : String → Except Err R) (rnd : R → R)
    (hr : ∀ v, parse (fmt v) = .ok (rnd v)) (gs : Option (List String)) (nfp : Nat) (cs : List (Filament R))
    (hp : ∀ c ∈ cs, c.pts ≠ []) (htok : ∀ c ∈ cs, c.group.length = 1 ∧ c.name.length = 1) :
    ∃ file, write fmt nfp cs = .ok file ∧
      loadCurrents parse gs file = .ok ((cs.filter (Selected gs)).map fun c => rnd c.cur) ∧
      loadPoints parse gs file = .ok ((cs.filter (Selected gs)).map fun c => c.pts.map (rnd3 rnd)) := by
  obtain ⟨body, hb, hw⟩ := write_ok fmt nfp cs hp
  obtain ⟨h1, h2⟩ := read_body fmt parse rnd hr gs cs htok body hb
  refine ⟨_, hw, ?_, ?_⟩
  · have := h1 0 []
    simpa [loadCurrents, List.dropLast_concat] using this
  · have := h2 []
    simpa [loadPoints] using this

/-- Two coils of different lengths, the second selected by name. -/
def demo : List (Filament Int) :=
  [⟨[(1, 2, 3), (4, 5, 6)], 10, ["1"], ["CurveXYZFourier1"]⟩, ⟨[(7, 8, 9)], -20, ["2"], ["CurveXYZFourier2"]⟩]

/-- Number formats for the examples. -/
def demoFmt (v : Int) : String := if v = 10 then "ten" else if v = -20 then "-twenty" else "x"
def demoParse (s : String) : Except Err Int := if s = "ten" then .ok 10 else if s = "-twenty" then .ok (-20) else .ok 0

example : (write demoFmt 1 demo >>= loadCurrents demoParse none) = .ok [10, -20] := by decide +kernel

example : (write demoFmt 1 demo >>= loadCurrents demoParse (some ["CurveXYZFourier2"])) = .ok [-20] := by decide +kernel

/-- The hypotheses of `C38_round_trip` hold of `demo`. -/
example : (∀ c ∈ demo, c.pts ≠ []) ∧ ∀ c ∈ demo, c.group.length = 1 ∧ c.name.length = 1 := by decide

/-- A group name with a blank in it makes the file unreadable: the curve loader raises. -/
theorem C38_blank_in_group_violated :
    (write demoFmt 1 [⟨[(1, 2, 3)], 10, ["outer", "coils"], ["CurveXYZFourier1"]⟩] >>= loadPoints demoParse none)
      = .error .runtimeError := by decide +kernel

end Simsopt.Makegrid
