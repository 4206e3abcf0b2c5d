import Verif.MGrid.Model
import Mathlib.Algebra.Module.Rat
/-!
# C157: mgrid files
-/
namespace Simsopt.MGrid

variable {Arr : Type}

/-- One call of `add_field_cylindrical`, with all components of the potential or with none. -/
structure Call (Arr : Type) where
  br : Arr
  bp : Arr
  bz : Arr
  pot : Option (Arr × Arr × Arr)
  name : Option Name

/-- The call. -/
def Call.run (c : Call Arr) (m : Grid Arr) : Option (Grid Arr) := addField m c.br c.bp c.bz (c.pot.map (·.1)) (c.pot.map (·.2.1)) (c.pot.map (·.2.2)) c.name

/-- A sequence of calls. -/
def runAll : List (Call Arr) → Grid Arr → Option (Grid Arr)
  | [], m => some m
  | c :: cs, m => (c.run m).bind (runAll cs)

/-- The label of the call number `j`. -/
def label (c : Call Arr) (j : Nat) : Name := match c.name with | none => padString (defaultName j) | some s => padString s

/-- The labels of calls numbered from `j`. -/
def labels : List (Call Arr) → Nat → List Name
  | [], _ => []
  | c :: cs, j => label c j :: labels cs (j + 1)

theorem labels_length (cs : List (Call Arr)) (j : Nat) : (labels cs j).length = cs.length := by
  induction cs generalizing j with
  | nil => rfl
  | cons c cs ih => simp [labels, ih]

theorem padString_length (s : Name) : (padString s).length = max 30 s.length := by simp only [padString, List.length_map, List.length_append, List.length_replicate]; omega

theorem padString_no_blank (s : Name) : ∀ c ∈ padString s, c ≠ ' ' := by
  intro c hc
  simp only [padString, List.mem_map] at hc
  obtain ⟨d, _, hd⟩ := hc
  by_cases h : d = ' '
  · simp [h] at hd; rw [← hd]; decide
  · simp [h] at hd; rw [← hd]; exact h

/-- **C157.** Padding is centring in 30 characters, blanks become underscores, and doing it again changes nothing. -/
theorem C157_pad (s : Name) : padString (padString s) = padString s ∧ (s.length ≤ 30 → (padString s).length = 30) ∧
    padString s = List.replicate ((30 - s.length) / 2) '_' ++ (s.map fun c => if c = ' ' then '_' else c) ++ List.replicate ((30 - s.length) - (30 - s.length) / 2) '_' := by
  refine ⟨?_, fun h => by rw [padString_length]; omega, ?_⟩
  · have hl := padString_length s
    have hz : 30 - (padString s).length = 0 := by omega
    have hb := padString_no_blank s
    rw [padString, hz]
    simp only [Nat.zero_div, List.replicate_zero, List.nil_append, List.append_nil, Nat.sub_zero]
    conv => rhs; rw [← List.map_id (padString s)]
    apply List.map_congr_left
    intro c hc
    simp [hb c hc]
  · simp [padString, List.map_append, List.map_replicate]

theorem strip_id (s : Name) (h : ∀ c ∈ s, c.isWhitespace = false) : strip s = s := by
  have hd : ∀ l : Name, (∀ c ∈ l, c.isWhitespace = false) → l.dropWhile Char.isWhitespace = l := by
    intro l hl
    cases l with
    | nil => rfl
    | cons a l => rw [List.dropWhile_cons, hl a List.mem_cons_self]; rfl
  rw [strip, hd s h, hd s.reverse (fun c hc => h c (List.mem_reverse.mp hc)), List.reverse_reverse]

/-- Characters of a name: no white space but blanks. -/
def Plain (s : Name) : Prop := s.length ≤ 30 ∧ ∀ c ∈ s, c = ' ' ∨ c.isWhitespace = false

theorem pad_plain (s : Name) (h : Plain s) : ∀ c ∈ padString s, c.isWhitespace = false := by
  intro c hc
  rw [(C157_pad s).2.2] at hc
  rcases List.mem_append.mp hc with hc | hc
  · rcases List.mem_append.mp hc with hc | hc
    · rw [List.eq_of_mem_replicate hc]; decide
    · obtain ⟨d, hd, e⟩ := List.mem_map.mp hc
      by_cases hb : d = ' '
      · simp [hb] at e; rw [← e]; decide
      · simp [hb] at e; rw [← e]; exact (h.2 d hd).resolve_left hb
  · rw [List.eq_of_mem_replicate hc]; decide

/-- The components of the potential of a list of calls. -/
def pots (sel : Arr × Arr × Arr → Arr) (cs : List (Call Arr)) : List (Option Arr) := (cs.filterMap fun c => c.pot.map sel).map some

theorem runAll_spec (cs : List (Call Arr)) (m : Grid Arr) (hm : m.lists = true) : ∃ m', runAll cs m = some m' ∧
    m'.nr = m.nr ∧ m'.nz = m.nz ∧ m'.nphi = m.nphi ∧ m'.nfp = m.nfp ∧ m'.rmin = m.rmin ∧ m'.rmax = m.rmax ∧ m'.zmin = m.zmin ∧ m'.zmax = m.zmax ∧ m'.lists = true ∧
    m'.n = m.n + cs.length ∧ m'.names = m.names ++ labels cs m.n ∧ m'.br = m.br ++ cs.map (·.br) ∧ m'.bp = m.bp ++ cs.map (·.bp) ∧ m'.bz = m.bz ++ cs.map (·.bz) ∧
    m'.ar = m.ar ++ pots (·.1) cs ∧ m'.ap = m.ap ++ pots (·.2.1) cs ∧ m'.az = m.az ++ pots (·.2.2) cs := by
  induction cs generalizing m with
  | nil => exact ⟨m, rfl, rfl, rfl, rfl, rfl, rfl, rfl, rfl, rfl, hm, by simp, by simp [labels], by simp, by simp, by simp, by simp [pots], by simp [pots], by simp [pots]⟩
  | cons c cs ih =>
    obtain ⟨cbr, cbp, cbz, cpot, cname⟩ := c
    cases cpot with
    | none =>
      obtain ⟨m', h, r⟩ := ih { m with br := m.br ++ [cbr], bz := m.bz ++ [cbz], bp := m.bp ++ [cbp], names := m.names ++ [label ⟨cbr, cbp, cbz, none, cname⟩ m.n], n := m.n + 1 } hm
      refine ⟨m', ?_, ?_⟩
      · rw [← h]
        simp [runAll, Call.run, addField, hm]
        cases cname <;> rfl
      · simp only [] at r
        refine ⟨r.1, r.2.1, r.2.2.1, r.2.2.2.1, r.2.2.2.2.1, r.2.2.2.2.2.1, r.2.2.2.2.2.2.1, r.2.2.2.2.2.2.2.1, r.2.2.2.2.2.2.2.2.1, ?_⟩
        obtain ⟨h1, h2, h3, h4, h5, h6, h7, h8⟩ := r.2.2.2.2.2.2.2.2.2
        refine ⟨by rw [h1]; simp; omega, by rw [h2]; simp [labels], by rw [h3]; simp, by rw [h4]; simp, by rw [h5]; simp, by rw [h6]; simp [pots], by rw [h7]; simp [pots], by rw [h8]; simp [pots]⟩
    | some q =>
      obtain ⟨m', h, r⟩ := ih { m with br := m.br ++ [cbr], bz := m.bz ++ [cbz], bp := m.bp ++ [cbp], ar := m.ar ++ [some q.1], az := m.az ++ [some q.2.2], ap := m.ap ++ [some q.2.1], names := m.names ++ [label ⟨cbr, cbp, cbz, some q, cname⟩ m.n], n := m.n + 1 } hm
      refine ⟨m', ?_, ?_⟩
      · rw [← h]
        simp [runAll, Call.run, addField, hm]
        cases cname <;> rfl
      · simp only [] at r
        refine ⟨r.1, r.2.1, r.2.2.1, r.2.2.2.1, r.2.2.2.2.1, r.2.2.2.2.2.1, r.2.2.2.2.2.2.1, r.2.2.2.2.2.2.2.1, r.2.2.2.2.2.2.2.2.1, ?_⟩
        obtain ⟨h1, h2, h3, h4, h5, h6, h7, h8⟩ := r.2.2.2.2.2.2.2.2.2
        refine ⟨by rw [h1]; simp; omega, by rw [h2]; simp [labels], by rw [h3]; simp, by rw [h4]; simp, by rw [h5]; simp, by rw [h6]; simp [pots], by rw [h7]; simp [pots], by rw [h8]; simp [pots]⟩

theorem mapM_get {α : Type} (l : List α) (n : Nat) (h : l.length = n) : ((List.range n).mapM fun j => l[j]?) = some l := by
  subst h
  induction l using List.reverseRecOn with
  | nil => rfl
  | append_singleton l a ih =>
    simp only [List.length_append, List.length_singleton, List.range_succ, List.mapM_append]
    have e : ((List.range l.length).mapM fun j => (l ++ [a])[j]?) = (List.range l.length).mapM fun j => l[j]? := by
      have : ∀ r : List Nat, (∀ j ∈ r, j < l.length) → (r.mapM fun j => (l ++ [a])[j]?) = r.mapM fun j => l[j]? := by
        intro r
        induction r with
        | nil => intro _; rfl
        | cons j r ihr =>
          intro hr
          simp only [List.mapM_cons]
          rw [ihr fun k hk => hr k (List.mem_cons_of_mem _ hk), List.getElem?_append_left (hr j List.mem_cons_self)]
      exact this _ fun j hj => List.mem_range.mp hj
    rw [e, ih]
    simp

theorem writePot_empty (n : Nat) : writePot (Arr := Arr) n [] = some (List.replicate n none) := by
  have h : ∀ r : List Nat, (r.mapM fun _ => (some none : Option (Option (Option Arr)))) = some (List.replicate r.length none) := by
    intro r
    induction r with
    | nil => rfl
    | cons j r ih => simp [List.mapM_cons, ih, List.replicate_succ]
  simp only [writePot, List.length_nil, gt_iff_lt, lt_self_iff_false, if_false]
  rw [h, List.length_range]

theorem writePot_full (l : List (Option Arr)) (n : Nat) (h : l.length = n) : writePot n l = some (l.map some) := by
  by_cases hl : l.length > 0
  · simp only [writePot, hl, if_true]
    have : (fun j : Nat => (l[j]?).map (some : Option Arr → Option (Option Arr))) = fun j : Nat => (l.map some)[j]? := by funext j; simp
    rw [this, mapM_get _ _ (by simpa using h)]
  · have : l = [] := List.length_eq_zero_iff.mp (by omega)
    subst this
    simp at h
    subst h
    rfl

theorem labels_mem (cs : List (Call Arr)) (j : Nat) (s : Name) (h : s ∈ labels cs j) : ∃ c ∈ cs, ∃ i, s = label c i := by
  induction cs generalizing j with
  | nil => simp [labels] at h
  | cons c cs ih =>
    rcases List.mem_cons.mp h with h | h
    · exact ⟨c, List.mem_cons_self, j, h⟩
    · obtain ⟨d, hd, i, e⟩ := ih _ h; exact ⟨d, List.mem_cons_of_mem _ hd, i, e⟩

/-- Labels fit in the file. -/
def NamesFit (cs : List (Call Arr)) : Prop := ∀ s ∈ labels cs 0, s.length = 30 ∧ ∀ c ∈ s, c.isWhitespace = false

theorem label_fit (c : Call Arr) (s : Name) (h : c.name = some s) (hs : Plain s) (j : Nat) : (label c j).length = 30 ∧ ∀ d ∈ label c j, d.isWhitespace = false := by
  simp only [label, h]
  exact ⟨(C157_pad s).2.1 hs.1, pad_plain s hs⟩

/-- Calls with plain names of at most 30 characters fit. -/
theorem namesFit_of (cs : List (Call Arr)) (h : ∀ c ∈ cs, ∃ s, c.name = some s ∧ Plain s) : NamesFit cs := by
  intro s hs
  obtain ⟨c, hc, i, e⟩ := labels_mem cs 0 s hs
  obtain ⟨t, ht, hp⟩ := h c hc
  rw [e]; exact label_fit c t ht hp i

variable [AddCommMonoid Arr] [Module ℝ Arr]

theorem reduceOption_map_some {α : Type} (l : List α) : (l.map some).reduceOption = l := by
  induction l with
  | nil => rfl
  | cons a l ih => simpa [List.reduceOption] using ih

theorem reduceOption_replicate_none {α : Type} (n : Nat) : (List.replicate n (none : Option α)).reduceOption = [] := by
  induction n with
  | zero => rfl
  | succ n ih => simpa [List.replicate_succ, List.reduceOption] using ih

theorem nanSum_some (l : List Arr) : nanSum (l.map some) = some l.sum := by
  induction l with
  | nil => rfl
  | cons a l ih =>
    have : nanSum ((a :: l).map some) = match (some a : Option Arr), nanSum (l.map some) with | some x, some y => some (x + y) | _, _ => none := rfl
    rw [this, ih]; simp

theorem pots_uniform (sel : Arr × Arr × Arr → Arr) (cs : List (Call Arr)) :
    ((∀ c ∈ cs, c.pot = none) → pots sel cs = []) ∧ ((∀ c ∈ cs, c.pot.isSome) → (pots sel cs).length = cs.length) := by
  constructor
  · intro h
    simp only [pots]
    rw [List.filterMap_eq_nil_iff.mpr (fun c hc => by rw [h c hc]; rfl)]; rfl
  · intro h
    simp only [pots, List.length_map]
    induction cs with
    | nil => rfl
    | cons c cs ih =>
      obtain ⟨q, hq⟩ := Option.isSome_iff_exists.mp (h c List.mem_cons_self)
      rw [List.filterMap_cons_some (by rw [hq]; rfl), List.length_cons, List.length_cons, ih fun d hd => h d (List.mem_cons_of_mem _ hd)]

/-- **C157, round trip.** An `MGrid` to which at least one group was added, all with potential or all without, with labels that fit, is written without an exception, and reading the file gives the grid, the labels, the fields of
every group in order, the potentials, and the sums over the groups.  (`nfp` is the exception, see `C157_nfp_violated`.) -/
theorem C157_roundtrip (m0 : Grid Arr) (cs : List (Call Arr)) (h0 : m0.lists = true ∧ m0.n = 0 ∧ m0.names = [] ∧ m0.br = [] ∧ m0.bp = [] ∧ m0.bz = [] ∧ m0.ar = [] ∧ m0.ap = [] ∧ m0.az = [])
    (hne : cs ≠ []) (hfit : NamesFit cs) (hpot : (∀ c ∈ cs, c.pot = none) ∨ (∀ c ∈ cs, c.pot.isSome)) :
    ∃ m f r, runAll cs m0 = some m ∧ write m = some f ∧ fromFile f = some r ∧ f.nfp = m0.nfp ∧
      r.grid.nr = m0.nr ∧ r.grid.nz = m0.nz ∧ r.grid.nphi = m0.nphi ∧ r.grid.rmin = m0.rmin ∧ r.grid.rmax = m0.rmax ∧ r.grid.zmin = m0.zmin ∧ r.grid.zmax = m0.zmax ∧
      r.grid.n = cs.length ∧ r.grid.names = labels cs 0 ∧ r.grid.br = cs.map (·.br) ∧ r.grid.bp = cs.map (·.bp) ∧ r.grid.bz = cs.map (·.bz) ∧
      r.grid.ar = pots (·.1) cs ∧ r.grid.ap = pots (·.2.1) cs ∧ r.grid.az = pots (·.2.2) cs ∧
      r.br = (cs.map (·.br)).sum ∧ r.bp = (cs.map (·.bp)).sum ∧ r.bz = (cs.map (·.bz)).sum ∧
      ((∀ c ∈ cs, c.pot.isSome) → r.ar = some (some (cs.filterMap fun c => c.pot.map (·.1)).sum) ∧ r.ap = some (some (cs.filterMap fun c => c.pot.map (·.2.1)).sum) ∧
        r.az = some (some (cs.filterMap fun c => c.pot.map (·.2.2)).sum)) := by
  obtain ⟨hl, hn, hnm, hbr, hbp, hbz, har, hap, haz⟩ := h0
  obtain ⟨m, hm, e1, e2, e3, e4, e5, e6, e7, e8, _, en, enm, ebr, ebp, ebz, ear, eap, eaz⟩ := runAll_spec cs m0 hl
  rw [hn, Nat.zero_add] at en
  rw [hn, hnm, List.nil_append] at enm
  rw [hbr, List.nil_append] at ebr; rw [hbp, List.nil_append] at ebp; rw [hbz, List.nil_append] at ebz
  rw [har, List.nil_append] at ear; rw [hap, List.nil_append] at eap; rw [haz, List.nil_append] at eaz
  have hw : ∀ sel : Arr × Arr × Arr → Arr, ∃ w, writePot cs.length (pots sel cs) = some w ∧ w.reduceOption = pots sel cs := by
    intro sel
    rcases hpot with hp | hp
    · rw [(pots_uniform sel cs).1 hp, writePot_empty]
      exact ⟨_, rfl, reduceOption_replicate_none _⟩
    · exact ⟨_, writePot_full _ _ ((pots_uniform sel cs).2 hp), reduceOption_map_some _⟩
  obtain ⟨wr, hwr, hwr'⟩ := hw (·.1)
  obtain ⟨wp, hwp, hwp'⟩ := hw (·.2.1)
  obtain ⟨wz, hwz, hwz'⟩ := hw (·.2.2)
  let f : File Arr := { nr := m.nr, nz := m.nz, nphi := m.nphi, nfp := m.nfp, nextcur := m.n, rmin := m.rmin, rmax := m.rmax, zmin := m.zmin, zmax := m.zmax, names := m.names, mode := 'N', raw := List.replicate m.n 1, br := m.br, bp := m.bp, bz := m.bz, ar := wr, ap := wp, az := wz }
  have hwf : write m = some f := by
    have g1 : (∀ s ∈ m.names, s.length = 30) := by rw [enm]; exact fun s hs => (hfit s hs).1
    have g2 : m.names.length = m.n := by rw [enm, labels_length, en]
    have b1 := mapM_get m.br m.n (by rw [ebr, en]; simp)
    have b2 := mapM_get m.bz m.n (by rw [ebz, en]; simp)
    have b3 := mapM_get m.bp m.n (by rw [ebp, en]; simp)
    rw [← en, ← ear] at hwr
    rw [← en, ← eap] at hwp
    rw [← en, ← eaz] at hwz
    have hg : (guard (∀ s ∈ m.names, List.length s = 30) : Option Unit) = some () := if_pos g1
    have hg2 : (guard (m.names.length = m.n) : Option Unit) = some () := if_pos g2
    simp only [write, hg, hg2, b1, b2, b3, hwr, hwp, hwz, f, Option.bind_eq_bind, Option.bind_some]
  have hcs : 0 < cs.length := List.length_pos_iff.mpr hne
  have hstrip : m.names.map strip = labels cs 0 := by
    rw [enm]
    conv => rhs; rw [← List.map_id (labels cs 0)]
    apply List.map_congr_left
    intro s hs
    exact strip_id s (hfit s hs).2
  have hs : ∀ l : List Arr, scaled f l = l := by intro l; simp [scaled, f]
  have hsp : ∀ l, scaledPot f l = l.reduceOption := by intro l; simp [scaledPot, f]
  have htot : ∀ sel : Arr × Arr × Arr → Arr, (∀ c ∈ cs, c.pot.isSome) → totalPot cs.length (pots sel cs) = some (some (cs.filterMap fun c => c.pot.map sel).sum) := by
    intro sel hp
    have hlen := (pots_uniform sel cs).2 hp
    by_cases h1 : cs.length > 1
    · rw [totalPot, if_pos h1, if_pos (by omega), pots, nanSum_some]
    · rw [totalPot, if_neg h1]
      have hl1 : (cs.filterMap fun c => c.pot.map sel).length = 1 := by
        have := hlen; simp only [pots, List.length_map] at this; omega
      obtain ⟨a, ha⟩ := List.length_eq_one_iff.mp hl1
      simp [pots, ha]
  let g : Grid Arr := { nr := m.nr, nz := m.nz, nphi := m.nphi, nfp := 2, rmin := m.rmin, rmax := m.rmax, zmin := m.zmin, zmax := m.zmax, n := m.n, names := m.names.map strip, br := m.br, bz := m.bz, bp := m.bp, ar := wr.reduceOption, az := wz.reduceOption, ap := wp.reduceOption, lists := false }
  by_cases h1 : cs.length > 1
  · refine ⟨m, f, ⟨g, m.br.sum, m.bp.sum, m.bz.sum, totalPot m.n wr.reduceOption, totalPot m.n wp.reduceOption, totalPot m.n wz.reduceOption⟩, hm, hwf, ?_, e4, ?_⟩
    · have : m.n > 1 := by omega
      simp only [fromFile, hs, hsp]
      rw [if_pos (show f.nextcur > 1 from this)]
    · refine ⟨e1, e2, e3, e5, e6, e7, e8, en, hstrip, ebr, ebp, ebz, hwr', hwp', hwz', by rw [ebr], by rw [ebp], by rw [ebz], fun hp => ?_⟩
      simp only [hwr', hwp', hwz', en]
      exact ⟨htot _ hp, htot _ hp, htot _ hp⟩
  · obtain ⟨c, hc⟩ := List.length_eq_one_iff.mp (show cs.length = 1 by omega)
    have b1 : m.br.head? = some c.br := by rw [ebr, hc]; rfl
    have b2 : m.bp.head? = some c.bp := by rw [ebp, hc]; rfl
    have b3 : m.bz.head? = some c.bz := by rw [ebz, hc]; rfl
    refine ⟨m, f, ⟨g, c.br, c.bp, c.bz, totalPot m.n wr.reduceOption, totalPot m.n wp.reduceOption, totalPot m.n wz.reduceOption⟩, hm, hwf, ?_, e4, ?_⟩
    · have : ¬ m.n > 1 := by omega
      simp only [fromFile, hs, hsp]
      rw [if_neg (show ¬ f.nextcur > 1 from this)]
      simp only [f, b1, b2, b3, Option.bind_eq_bind, Option.bind_some]; rfl
    · refine ⟨e1, e2, e3, e5, e6, e7, e8, en, hstrip, ebr, ebp, ebz, hwr', hwp', hwz', by simp [hc], by simp [hc], by simp [hc], fun hp => ?_⟩
      simp only [hwr', hwp', hwz', en]
      exact ⟨htot _ hp, htot _ hp, htot _ hp⟩

/-- **C157, violated.** The number of field periods is not read: every file comes back with 2 field periods, so writing it again changes the file. -/
theorem C157_nfp_violated (f : File Arr) (r : Read Arr) (h : fromFile f = some r) : r.grid.nfp = 2 ∧ ∀ f', write r.grid = some f' → f'.nfp = 2 := by
  have h2 : r.grid.nfp = 2 := by
    simp only [fromFile] at h
    by_cases hn : f.nextcur > 1
    · rw [if_pos hn] at h
      simp only [Option.some.injEq] at h
      rw [← h]
    · rw [if_neg hn] at h
      cases h1 : (scaled f f.br).head? with
      | none => simp [h1] at h
      | some a =>
        cases h2 : (scaled f f.bp).head? with
        | none => simp [h1, h2] at h
        | some b =>
          cases h3 : (scaled f f.bz).head? with
          | none => simp [h1, h2, h3] at h
          | some c => simp [h1, h2, h3] at h; rw [← h]
  refine ⟨h2, fun f' hf => ?_⟩
  simp only [write, Option.bind_eq_bind, Option.bind_eq_some_iff] at hf
  obtain ⟨_, _, _, _, _, _, _, _, _, _, _, _, _, _, _, _, hf⟩ := hf
  simp only [Option.some.injEq] at hf
  rw [← hf]; exact h2

omit [AddCommMonoid Arr] [Module ℝ Arr] in
/-- **C157, violated.** The guards of `ap` and `az` are interchanged: a call with `ap` and without `az` stores an array of NaN for `az` and drops `ap`. -/
theorem C157_guard_violated (m : Grid Arr) (hm : m.lists = true) (br bp bz p : Arr) (name : Option Name) :
    ∃ m', addField m br bp bz none (some p) none name = some m' ∧ m'.ap = m.ap ∧ m'.az = m.az ++ [none] := by
  simp [addField, hm]

omit [AddCommMonoid Arr] [Module ℝ Arr] in
/-- **C157, violated.** Groups with and without potential cannot be mixed: whatever the fields, `write` raises when the first group has the potential and the second not, or the other way round. -/
theorem C157_mixed_violated (m0 : Grid Arr) (h0 : m0.lists = true ∧ m0.n = 0 ∧ m0.ar = []) (c d : Call Arr) (hcd : c.pot.isSome ≠ d.pot.isSome) :
    ∃ m, runAll [c, d] m0 = some m ∧ write m = none := by
  obtain ⟨m, hm, _, _, _, _, _, _, _, _, _, en, _, _, _, _, ear, _, _⟩ := runAll_spec [c, d] m0 h0.1
  refine ⟨m, hm, ?_⟩
  rw [h0.2.1] at en
  rw [h0.2.2, List.nil_append] at ear
  have hlen : m.ar.length = 1 := by
    rw [ear]
    cases hc : c.pot <;> cases hd : d.pot <;> simp [hc, hd] at hcd <;> simp [pots, hc, hd]
  have hnone : writePot m.n m.ar = none := by
    have hn : m.n = 2 := by simpa using en
    obtain ⟨a, ha⟩ := List.length_eq_one_iff.mp hlen
    simp [writePot, hn, ha, List.range_succ]
  simp only [write, hnone]
  simp only [Option.bind_eq_bind, Option.bind_none, Option.bind_fun_none]

/-- **C157, violated.** No group can be added to an `MGrid` that was read from a file. -/
theorem C157_append_violated (f : File Arr) (r : Read Arr) (h : fromFile f = some r) (br bp bz : Arr) (ar ap az : Option Arr) (name : Option Name) :
    addField r.grid br bp bz ar ap az name = none := by
  have h2 : r.grid.lists = false := by
    simp only [fromFile] at h
    by_cases hn : f.nextcur > 1
    · rw [if_pos hn] at h
      simp only [Option.some.injEq] at h
      rw [← h]
    · rw [if_neg hn] at h
      cases h1 : (scaled f f.br).head? with
      | none => simp [h1] at h
      | some a =>
        cases h2 : (scaled f f.bp).head? with
        | none => simp [h1, h2] at h
        | some b =>
          cases h3 : (scaled f f.bz).head? with
          | none => simp [h1, h2, h3] at h
          | some c => simp [h1, h2, h3] at h; rw [← h]
  simp [addField, h2]

/-! ### to_mgrid -/

theorem flatMap_get {α : Type} (w n : Nat) (f : Nat → List α) (hw : ∀ k, (f k).length = w) (k i : Nat) (hk : k < n) (hi : i < w) :
    ((List.range n).flatMap f)[k * w + i]? = (f k)[i]? := by
  induction n generalizing k with
  | zero => omega
  | succ n ih =>
    have hlen : ((List.range n).flatMap f).length = n * w := by
      simp [List.length_flatMap, hw]
    rw [List.range_succ, List.flatMap_append]
    by_cases h : k < n
    · rw [List.getElem?_append_left (by rw [hlen]; calc k * w + i < k * w + w := by omega
          _ = (k + 1) * w := by ring
          _ ≤ n * w := Nat.mul_le_mul_right _ h), ih k h]
    · have : k = n := by omega
      subst this
      rw [List.getElem?_append_right (by rw [hlen]; omega), hlen, Nat.add_sub_cancel_left]
      simp

/-- **C157, to_mgrid.** Entry `[k, j, i]` of a component written to the file is that component of the field at radius `i`, angle `k`, height `j` of the documented grid (end points included in `r` and `z`, not in the angle),
for every function of the point that is evaluated at the points given to the field. -/
theorem C157_to_mgrid (nr nphi nz nfp : Nat) (rmin rmax zmin zmax : ℝ) (comp : ℝ × ℝ × ℝ → ℝ) (k j i : Nat) (hk : k < nphi) (hj : j < nz) (hi : i < nr) :
    reshape ((rphiz nr nphi nz nfp rmin rmax zmin zmax).map comp) nz nr k j i =
      some (comp (rmin + i * ((rmax - rmin) / ((nr - 1 : Nat) : ℝ)), k * (2 * Real.pi / nfp / nphi), zmin + j * ((zmax - zmin) / ((nz - 1 : Nat) : ℝ)))) ∧
    linspace rmin rmax nr 0 = rmin ∧ (2 ≤ nr → linspace rmin rmax nr (nr - 1) = rmax) ∧ (0 < nfp → phis nfp nphi k < 2 * Real.pi / nfp) := by
  refine ⟨?_, by simp [linspace], ?_, ?_⟩
  · have hin : ∀ k', ((List.range nz).flatMap fun j => (List.range nr).map fun i => (linspace rmin rmax nr i, phis nfp nphi k', linspace zmin zmax nz j)).length = nz * nr := by
      intro k'; simp [List.length_flatMap]
    have e : (k * nz + j) * nr + i = k * (nz * nr) + (j * nr + i) := by ring
    have hlt : j * nr + i < nz * nr := by
      calc j * nr + i < j * nr + nr := by omega
        _ = (j + 1) * nr := by ring
        _ ≤ nz * nr := Nat.mul_le_mul_right _ hj
    rw [reshape, List.getElem?_map, rphiz, e, flatMap_get _ nphi _ hin k _ hk hlt, flatMap_get nr nz _ (by intro k; simp) j i hj hi]
    simp [hi, linspace, phis]
  · intro h
    have : ((nr - 1 : Nat) : ℝ) ≠ 0 := by
      have : 0 < nr - 1 := by omega
      positivity
    simp only [linspace]; field_simp; ring
  · intro h
    have hp : (0 : ℝ) < 2 * Real.pi / nfp := by have := Real.pi_pos; positivity
    have hn : (0 : ℝ) < nphi := by have : 0 < nphi := by omega
                                   positivity
    have hkn : (k : ℝ) < nphi := by exact_mod_cast hk
    rw [phis, ← mul_div_assoc, div_lt_iff₀ hn]
    nlinarith

/-- Two groups with potentials, one of them without a name: the hypotheses of `C157_roundtrip`. -/
example : ∃ cs : List (Call ℝ), cs.length = 2 ∧ NamesFit cs ∧ ∀ c ∈ cs, c.pot.isSome := by
  refine ⟨[⟨1, 2, 3, some (4, 5, 6), some "coil group 1".toList⟩, ⟨7, 8, 9, some (1, 1, 1), none⟩], rfl, ?_, by simp⟩
  intro s hs
  simp only [labels, label, List.mem_cons, List.not_mem_nil, or_false] at hs
  rcases hs with hs | hs <;> subst hs <;> decide

/-- **C157.** The totals of a file that has one array per group are the sums of the groups, each multiplied by its current in mode `S`. -/
theorem C157_total (f : File Arr) (r : Read Arr) (h : fromFile f = some r) (w : List ℝ) (hw : w = if f.mode = 'S' then f.raw else List.replicate f.nextcur 1) (hraw : f.raw.length = f.nextcur) (hb : f.br.length = f.nextcur)
    (hp : f.bp.length = f.nextcur) (hz : f.bz.length = f.nextcur) :
    r.br = (List.zipWith (fun c a => c • a) w f.br).sum ∧ r.bp = (List.zipWith (fun c a => c • a) w f.bp).sum ∧ r.bz = (List.zipWith (fun c a => c • a) w f.bz).sum := by
  have hone : ∀ l : List Arr, List.zipWith (fun (c : ℝ) a => c • a) (List.replicate l.length 1) l = l := by
    intro l
    induction l with
    | nil => rfl
    | cons a l ih => simp [List.replicate_succ, ih]
  have hs : ∀ l : List Arr, l.length = f.nextcur → scaled f l = List.zipWith (fun c a => c • a) w l := by
    intro l hl
    rw [scaled, hw]
    by_cases hm : f.mode = 'S'
    · simp [hm]
    · rw [if_neg hm, if_neg hm, ← hl, hone]
  have hlen : w.length = f.nextcur := by rw [hw]; by_cases hm : f.mode = 'S' <;> simp [hm, hraw]
  simp only [fromFile, hs _ hb, hs _ hp, hs _ hz] at h
  by_cases hn : f.nextcur > 1
  · rw [if_pos hn] at h
    simp only [Option.some.injEq] at h
    rw [← h]; exact ⟨rfl, rfl, rfl⟩
  · rw [if_neg hn] at h
    have hh : ∀ l : List Arr, l.length = f.nextcur → ∀ b, (List.zipWith (fun (c : ℝ) a => c • a) w l).head? = some b → (List.zipWith (fun (c : ℝ) a => c • a) w l).sum = b := by
      intro l hl b hb
      have h1 : (List.zipWith (fun (c : ℝ) a => c • a) w l).length ≤ 1 := by rw [List.length_zipWith, hlen, hl]; omega
      generalize List.zipWith (fun (c : ℝ) a => c • a) w l = L at *
      match L, h1, hb with
      | [x], _, hb => simpa using hb
    cases h1 : (List.zipWith (fun (c : ℝ) a => c • a) w f.br).head? with
    | none => simp [h1] at h
    | some b =>
      cases h2 : (List.zipWith (fun (c : ℝ) a => c • a) w f.bp).head? with
      | none => simp [h1, h2] at h
      | some p =>
        cases h3 : (List.zipWith (fun (c : ℝ) a => c • a) w f.bz).head? with
        | none => simp [h1, h2, h3] at h
        | some z =>
          simp only [h1, h2, h3, Option.bind_eq_bind, Option.bind_some, Option.some.injEq] at h
          rw [← h, hh _ hb b h1, hh _ hp p h2, hh _ hz z h3]
          exact ⟨rfl, rfl, rfl⟩

/-- **C157.** The same for a vector potential that is in the file for every group. -/
theorem C157_total_potential (f : File Arr) (r : Read Arr) (h : fromFile f = some r) (w : List ℝ) (hw : w = if f.mode = 'S' then f.raw else List.replicate f.nextcur 1) (hraw : f.raw.length = f.nextcur) (hn : 0 < f.nextcur)
    (A P Z : List Arr) (ha : A.length = f.nextcur) (hp : P.length = f.nextcur) (hz : Z.length = f.nextcur) (har : f.ar = A.map fun a => some (some a)) (hap : f.ap = P.map fun a => some (some a))
    (haz : f.az = Z.map fun a => some (some a)) :
    r.ar = some (some (List.zipWith (fun c a => c • a) w A).sum) ∧ r.ap = some (some (List.zipWith (fun c a => c • a) w P).sum) ∧ r.az = some (some (List.zipWith (fun c a => c • a) w Z).sum) := by
  have hone : ∀ l : List Arr, List.zipWith (fun (c : ℝ) a => c • a) (List.replicate l.length 1) l = l := by
    intro l
    induction l with
    | nil => rfl
    | cons a l ih => simp [List.replicate_succ, ih]
  have hred : ∀ l : List Arr, (l.map fun a => some (some a)).reduceOption = l.map some := by
    intro l
    induction l with
    | nil => rfl
    | cons a l ih => simp only [List.reduceOption] at ih ⊢; simp [ih]
  have hzip : ∀ (c : List ℝ) (l : List Arr), (List.zipWith (fun (c : ℝ) (a : Option (Option Arr)) => a.map fun x => x.map fun y => c • y) c (l.map fun a => some (some a))) = (List.zipWith (fun c a => c • a) c l).map fun a => some (some a) := by
    intro c l
    induction c generalizing l with
    | nil => rfl
    | cons x c ih =>
      cases l with
      | nil => rfl
      | cons a l => simp only [List.map_cons, List.zipWith_cons_cons, ih, Option.map_some]
  have hsp : ∀ l : List Arr, l.length = f.nextcur → scaledPot f (l.map fun a => some (some a)) = (List.zipWith (fun c a => c • a) w l).map some := by
    intro l hl
    rw [scaledPot, hw]
    by_cases hm : f.mode = 'S'
    · rw [if_pos hm, if_pos hm, hzip, hred]
    · rw [if_neg hm, if_neg hm, hred, ← hl, hone]
  have hlen : w.length = f.nextcur := by rw [hw]; by_cases hm : f.mode = 'S' <;> simp [hm, hraw]
  have htot : ∀ l : List Arr, l.length = f.nextcur → totalPot f.nextcur (scaledPot f (l.map fun a => some (some a))) = some (some (List.zipWith (fun c a => c • a) w l).sum) := by
    intro l hl
    have h1 : (List.zipWith (fun (c : ℝ) a => c • a) w l).length = f.nextcur := by rw [List.length_zipWith, hlen, hl]; omega
    rw [hsp l hl]
    generalize List.zipWith (fun (c : ℝ) a => c • a) w l = L at *
    by_cases hc : f.nextcur > 1
    · rw [totalPot, if_pos hc, if_pos (by rw [List.length_map]; omega), nanSum_some]
    · rw [totalPot, if_neg hc]
      obtain ⟨x, rfl⟩ := List.length_eq_one_iff.mp (show L.length = 1 by omega)
      simp
  have key : r.ar = totalPot f.nextcur (scaledPot f f.ar) ∧ r.ap = totalPot f.nextcur (scaledPot f f.ap) ∧ r.az = totalPot f.nextcur (scaledPot f f.az) := by
    simp only [fromFile] at h
    by_cases hc : f.nextcur > 1
    · rw [if_pos hc] at h
      simp only [Option.some.injEq] at h
      rw [← h]; exact ⟨rfl, rfl, rfl⟩
    · rw [if_neg hc] at h
      cases h1 : (scaled f f.br).head? with
      | none => simp [h1] at h
      | some b =>
        cases h2 : (scaled f f.bp).head? with
        | none => simp [h1, h2] at h
        | some p =>
          cases h3 : (scaled f f.bz).head? with
          | none => simp [h1, h2, h3] at h
          | some z =>
            simp only [h1, h2, h3, Option.bind_eq_bind, Option.bind_some, Option.some.injEq] at h
            rw [← h]; exact ⟨rfl, rfl, rfl⟩
  rw [key.1, key.2.1, key.2.2, har, hap, haz]
  exact ⟨htot A ha, htot P hp, htot Z hz⟩

end Simsopt.MGrid
