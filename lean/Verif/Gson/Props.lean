import Verif.Gson.Dec
import Mathlib.Data.List.Nodup
/-!
# C33, C34, C35: saving and loading object graphs
-/
namespace Simsopt.Gson
open Simsopt

variable {A : Type}

theorem getElem?_idxOf' {M : List Nat} {o : Nat} (h : o ∈ M) : M[M.idxOf o]? = some o := by
  rw [List.getElem?_eq_getElem (List.idxOf_lt_length_iff.2 h), List.getElem_idxOf]

theorem Reach.step {H : Heap A} {root : Val A} {o : Nat} (h : Reach H root o) : ∀ o' ∈ refsD (H o).args, Reach H root o' := by
  intro o' ho'
  obtain ⟨o0, h1, h2⟩ := h
  exact ⟨o0, h1, h2.trans (.step ho' (.refl _))⟩

theorem Graph.dom {H : Heap A} {known : String → String → Bool} {root : Val A} (hg : Graph H known root) :
    ∃ rank, Dom H (Reach H root) rank := by
  obtain ⟨rank, hr⟩ := hg.acyclic
  exact ⟨rank, fun o ho => ho.step, hg.plainArgs, hg.names, hr⟩

theorem reach_good {H : Heap A} {root : Val A} {L : List Nat} (hL : Good H (Reach H root) L) (hr : ∀ o ∈ root.refs, o ∈ L) (o : Nat) :
    Reach H root o ↔ o ∈ L := by
  constructor
  · rintro ⟨o0, h1, h2⟩
    have := hr o0 h1
    clear h1
    induction h2 with
    | refl => exact this
    | step hm _ ih => exact ih (hL.closed _ this _ hm)
  · exact hL.dom o

/-- The table of redirections does not mention the classes of the graph. -/
def Unredirected (T : Redirect) (H : Heap A) (root : Val A) : Prop :=
  ∀ o, Reach H root o → ∀ t, get? (H o).mod T = some t → get? (H o).cls t = none

theorem Unredirected.no {T : Redirect} {H : Heap A} {root : Val A} (h : Unredirected T H root) : NoRedirect T H (Reach H root) := by
  intro o ho
  cases hm : get? (H o).mod T with
  | none => simp [hasKey, get?]
  | some t => simp [hasKey, h o ho t hm]

/-- **C33.** Saving any acyclic graph of uniquely named objects succeeds (given enough stack), and loading the document gives an isomorphic
    graph: the same classes and arguments, with the same sharing. -/
theorem C33_save_load (H : Heap A) (known : String → String → Bool) (T : Redirect) (root : Val A) (hg : Graph H known root)
    (hT : Unredirected T H root) :
    ∃ N, ∀ depth, N ≤ depth → ∃ doc, save H depth root = .ok doc ∧
      ∃ N', ∀ depth', N' ≤ depth' → ∃ v heap f, load T known depth' doc = .ok (v, heap) ∧ Iso H root v heap f := by
  obtain ⟨rank, hd⟩ := hg.dom
  have hroot : ∀ o ∈ root.refs, Reach H root o := fun o ho => ⟨o, ho, .refl o⟩
  obtain ⟨N, hN⟩ := save_ok hd root hg.plainRoot hroot
  refine ⟨N, fun n hn => ?_⟩
  obtain ⟨L, h1, h2, h3, h4⟩ := hN n hn
  refine ⟨_, h1, ?_⟩
  obtain ⟨N', hN'⟩ := load_ok (T := T) hd hg.known hT.no (reach_good h2 h3) root hg.plainRoot hroot
  refine ⟨N', fun n' hn' => ?_⟩
  obtain ⟨M, g1, g2, g3, g4⟩ := hN' n' hn'
  refine ⟨_, _, _, g1, rfl, ?_, ?_, ?_⟩
  · intro o ho
    have hm := (reach_good g2 g3 o).1 ho
    simp [List.getElem?_map, getElem?_idxOf' hm, newO]
  · intro o o' ho ho'
    have hm := (reach_good g2 g3 o).1 ho
    constructor
    · intro h
      have hm' := (reach_good g2 g3 o').1 ho'
      have e1 := getElem?_idxOf' hm
      have e2 := getElem?_idxOf' hm'
      rw [h, e2] at e1
      exact (Option.some.inj e1).symm
    · rintro rfl; rfl
  · intro i hi
    simp only [List.length_map] at hi
    refine ⟨M[i], (reach_good g2 g3 _).2 (List.getElem_mem hi), ?_⟩
    exact g2.nodup.idxOf_getElem i hi

/-- **C34.** The document has exactly one entry for each reachable object, under its name, and loading constructs as many objects as there are
    entries: each constructor is called once. -/
theorem C34_once (H : Heap A) (known : String → String → Bool) (T : Redirect) (root : Val A) (hg : Graph H known root)
    (hT : Unredirected T H root) :
    ∃ N, ∀ depth, N ≤ depth → ∃ doc objs, save H depth root = .ok (doc, objs) ∧
      (∃ L : List Nat, L.Nodup ∧ (∀ o, o ∈ L ↔ Reach H root o) ∧ objs.map Prod.fst = L.map fun o => (H o).name) ∧
      (objs.map Prod.fst).Nodup ∧
      (∀ o, Reach H root o → ∃ entry, get? (H o).name objs = some entry ∧ ∃ args, entry = objDoc (H o) args) ∧
      ∃ N', ∀ depth', N' ≤ depth' → ∃ v heap, load T known depth' (doc, objs) = .ok (v, heap) ∧ heap.length = objs.length := by
  obtain ⟨rank, hd⟩ := hg.dom
  have hroot : ∀ o ∈ root.refs, Reach H root o := fun o ho => ⟨o, ho, .refl o⟩
  obtain ⟨N, hN⟩ := save_ok hd root hg.plainRoot hroot
  refine ⟨N, fun n hn => ?_⟩
  obtain ⟨L, h1, h2, h3, h4⟩ := hN n hn
  refine ⟨_, _, h1, ⟨L, h2.nodup, fun o => (reach_good h2 h3 o).symm, by simp [docs]⟩, ?_, ?_, ?_⟩
  · have : (docs H L).map Prod.fst = L.map fun o => (H o).name := by simp [docs]
    rw [this]
    refine List.Nodup.map_on ?_ h2.nodup
    intro a ha b hb hab
    exact hg.names a b (h2.dom a ha) (h2.dom b hb) hab
  · intro o ho
    refine ⟨docO H o, ?_, _, rfl⟩
    rw [docs, get?_map_name H (docO H) hd _ h2.dom o ho, if_pos ((reach_good h2 h3 o).1 ho)]
  · obtain ⟨N', hN'⟩ := load_ok (T := T) hd hg.known hT.no (reach_good h2 h3) root hg.plainRoot hroot
    refine ⟨N', fun n' hn' => ?_⟩
    obtain ⟨M, g1, g2, g3, g4⟩ := hN' n' hn'
    refine ⟨_, _, g1, ?_⟩
    simp only [docs, List.length_map]
    refine List.Perm.length_eq ?_
    rw [List.perm_ext_iff_of_nodup g2.nodup h2.nodup]
    intro o
    rw [← reach_good g2 g3 o, ← reach_good h2 h3 o]

/-! ### Examples -/

section Ex

/-- A diamond: 0 has attributes 1 and 2, both of which refer to 3. -/
def diamond : Heap Nat := fun o => match o with
  | 0 => ⟨"m", "Sum", "Sum1", .atom 0, [("opts", .list [.ref 1, .tuple [.ref 2, .atom 7]])]⟩
  | 1 => ⟨"m", "Leaf", "Leaf1", .atom 0, [("x", .ref 3)]⟩
  | 2 => ⟨"m", "Leaf", "Leaf2", .atom 0, [("x", .ref 3), ("y", .dict [("k", .ref 1)])]⟩
  | _ => ⟨"m", "Base", "Base1", .atom 0, [("v", .atom 5)]⟩

def all (_ _ : String) : Bool := true

theorem diamond_small {a b : Nat} (h : ReachO diamond a b) : a ≤ 3 → b ≤ 3 := by
  induction h with
  | refl => exact id
  | @step o o1 o2 hm _ ih =>
    intro ho
    apply ih
    have : o = 0 ∨ o = 1 ∨ o = 2 ∨ o = 3 := by omega
    rcases this with rfl | rfl | rfl | rfl <;> simp [diamond, refsD, Val.refs, refsL] at hm <;> omega

/-- The hypotheses hold for a graph with sharing. -/
theorem diamond_graph : Graph diamond all (.ref 0) := by
  have key : ∀ o, Reach diamond (.ref 0) o → o = 0 ∨ o = 1 ∨ o = 2 ∨ o = 3 := by
    rintro o ⟨o0, h0, h⟩
    simp only [Val.refs, List.mem_singleton] at h0
    have := diamond_small h (by omega)
    omega
  refine ⟨rfl, ?_, ?_, ⟨fun o => if o = 0 then 3 else if o = 2 then 2 else if o = 1 then 1 else 0, ?_⟩, fun _ _ => rfl⟩
  · intro o ho
    rcases key o ho with rfl | rfl | rfl | rfl <;> decide +kernel
  · intro o o' ho ho'
    rcases key o ho with rfl | rfl | rfl | rfl <;> rcases key o' ho' with rfl | rfl | rfl | rfl <;> simp [diamond]
  · intro o ho o' ho'
    rcases key o ho with rfl | rfl | rfl | rfl <;> simp [diamond, refsD, Val.refs, refsL] at ho' <;> first | (rcases ho' with rfl | rfl <;> decide) | (subst ho'; decide)

example : ∃ N, ∀ depth, N ≤ depth → ∃ doc, save diamond depth (.ref 0) = .ok doc ∧
    ∃ N', ∀ depth', N' ≤ depth' → ∃ v heap f, load [] all depth' doc = .ok (v, heap) ∧ Iso diamond (.ref 0) v heap f :=
  C33_save_load diamond all [] (.ref 0) diamond_graph (by intro o _ t h; cases h)

/-- **C33, the uncovered case.** A bound method saves its object inside itself, so a graph that refers to an object both directly and through a
    bound method loads as two objects: no one-to-one correspondence exists. -/
theorem C33_bound_method_violated : ∃ (H : Heap Nat) (root : Val Nat), (∀ o, Reach H root o ↔ o = 3) ∧
    ∃ doc, save H 10 root = .ok doc ∧ ∃ v heap, load [] all 10 doc = .ok (v, heap) ∧ heap.length = 2 ∧ ∀ f, ¬ Iso H root v heap f := by
  refine ⟨diamond, .list [.ref 3, .meth 3 "m" "Base.J"], ?_, ?_⟩
  · intro o
    constructor
    · rintro ⟨o0, h0, h⟩
      simp [Val.refs, refsL] at h0
      subst h0
      cases h with
      | refl => rfl
      | step hm _ => simp [diamond, refsD, Val.refs] at hm
    · rintro rfl; exact ⟨3, by simp [Val.refs, refsL], .refl 3⟩
  · refine ⟨_, rfl, _, _, rfl, rfl, ?_⟩
    intro f hi
    have := hi.value
    simp only [Val.image, imageL, Val.list.injEq, List.cons.injEq, Val.ref.injEq, Val.meth.injEq] at this
    have h1 := this.1
    have h2 := this.2.1.1
    rw [← h1] at h2
    exact absurd h2 (by decide)

/-- **C33, the uncovered case.** Two objects with the same name are merged into one. -/
theorem C33_duplicate_names_violated : ∃ (H : Heap Nat), H 0 ≠ H 1 ∧ ∃ doc, save H 10 (.list [.ref 0, .ref 1]) = .ok doc ∧
    ∃ heap, load [] all 10 doc = .ok (.list [.ref 0, .ref 0], heap) ∧ heap.length = 1 := by
  refine ⟨fun o => ⟨"m", "Leaf", "Leaf1", .atom 0, [("v", .atom o)]⟩, by simp, _, rfl, _, rfl, rfl⟩

/-- **C34, the uncovered case.** A graph with a cycle cannot be saved: the encoder recurses until the interpreter's limit. -/
theorem C34_cycle_violated (H : Heap A) (o : Nat) (h : (H o).args = [("self", .ref o)]) (depth : Nat) :
    save H depth (.ref o) = .error .recursionError := by
  suffices ∀ n, enc H n (.ref o) [] = .error .recursionError from this depth
  intro n
  induction n with
  | zero => rfl
  | succ n ih => simp [enc, hasKey, get?, h, mapD, mapS, ih]

end Ex

/-! ### Redirection -/

/-- **C35, the part that holds.** A class redirected within its module is loaded under the new name; a class the table does not mention is
    loaded from where it was saved. -/
theorem C35_same_module_partial (T : Redirect) (m c : String) (t : List (String × (String × String))) (hm : get? m T = some t) :
    (∀ c', get? c t = some (m, c') → redirect T m c = .ok (m, c')) ∧ (get? c t = none → redirect T m c = .ok (m, c)) := by
  constructor
  · intro c' h
    simp [redirect, hm, hasKey, h]
  · intro h
    simp [redirect, hm, hasKey, h]

/-- **C35 is false in general.** If the new module is not itself a key of the table, a redirected class cannot be loaded: KeyError. -/
theorem C35_other_module_violated (T : Redirect) (m c m' c' : String) (t : List (String × (String × String))) (hm : get? m T = some t)
    (hc : get? c t = some (m', c')) (hm' : get? m' T = none) : redirect T m c = .error .keyError := by
  simp [redirect, hm, hasKey, hc, hm']

/-- If the new module redirects the same class name further, the module of the first entry is combined with the class of the second. -/
theorem C35_mixed_violated : ∃ (T : Redirect) (m c : String), get? c ((get? m T).getD []) = some ("new", "New") ∧
    redirect T m c = .ok ("new", "Other") :=
  ⟨[("old", [("C", ("new", "New"))]), ("new", [("C", ("newer", "Other"))])], "old", "C", rfl, rfl⟩

/-- A whole document with such a class is rejected. -/
theorem C35_load_violated : ∃ doc, save diamond 10 (.ref 3) = .ok doc ∧
    load [("m", [("Base", ("new", "Base"))])] all 10 doc = .error .keyError := ⟨_, rfl, rfl⟩

end Simsopt.Gson
