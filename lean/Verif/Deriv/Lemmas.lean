import Verif.Deriv.Spec
import Mathlib.Data.List.Nodup
/-! Helper lemmas about the Derivative model. -/
set_option linter.unusedSimpArgs false
set_option linter.unusedSectionVars false
namespace Simsopt.Deriv
open Simsopt
variable {K V : Type} [DecidableEq K]

theorem run_bind {α β : Type} (m : M K V α) (f : α → M K V β) (h : Heap K V) :
    (m >>= f) h = match m h with | .ok a h' => f a h' | .error e h' => .error e h' := by
  show EStateM.bind m f h = _
  unfold EStateM.bind; cases m h <;> rfl
theorem run_pure {α : Type} (a : α) (h : Heap K V) : (pure a : M K V α) h = .ok a h := rfl
theorem run_throw {α : Type} (e : Err) (h : Heap K V) : (throw e : M K V α) h = .error e h := rfl
theorem run_discard {α : Type} (m : M K V α) (h : Heap K V) : (discard m : M K V Unit) h =
    match m h with | .ok _ h' => .ok () h' | .error e h' => .error e h' := by
  show EStateM.map (fun _ => ()) m h = _
  unfold EStateM.map; cases m h <;> rfl

theorem upd_same {α : Type} (f : Nat → α) (i : Nat) (v : α) : upd f i v i = v := by simp [upd]
theorem upd_ne {α : Type} (f : Nat → α) (i j : Nat) (v : α) (h : j ≠ i) : upd f i v j = f j := by simp [upd, h]

/-- stored array for `k` in dict `d` -/
def val (h : Heap K V) (d : List (K × Nat)) (k : K) : Option (List V) := (find d k).map h.arr

theorem find_nil (k : K) : find ([] : List (K × Nat)) k = none := rfl
theorem find_cons (e : K × Nat) (d : List (K × Nat)) (k : K) : find (e :: d) k = if e.1 = k then some e.2 else find d k := by
  unfold find
  by_cases h : e.1 = k <;> simp [List.find?_cons, h]
theorem find_append (d d' : List (K × Nat)) (k : K) : find (d ++ d') k = (find d k).or (find d' k) := by
  induction d with
  | nil => simp [find_nil]
  | cons e d ih => rw [List.cons_append, find_cons, find_cons, ih]; split <;> simp
theorem find_mem {d : List (K × Nat)} {k : K} {a : Nat} (h : find d k = some a) : (k, a) ∈ d := by
  induction d with
  | nil => rw [find_nil] at h; cases h
  | cons e d ih =>
    rw [find_cons] at h
    split at h
    · rename_i he; cases h; subst he; exact List.mem_cons_self
    · exact List.mem_cons_of_mem _ (ih h)
theorem find_none {d : List (K × Nat)} {k : K} : find d k = none ↔ k ∉ d.map (·.1) := by
  induction d with
  | nil => simp [find_nil]
  | cons e d ih =>
    rw [find_cons]
    by_cases h : e.1 = k
    · simp [h]
    · simp only [h, if_false, ih, List.map_cons, List.mem_cons, not_or]
      exact ⟨fun hh => ⟨fun he => h he.symm, hh⟩, fun hh => hh.2⟩
theorem find_of_mem {d : List (K × Nat)} (hnd : (d.map (·.1)).Nodup) {k : K} {a : Nat} (h : (k, a) ∈ d) : find d k = some a := by
  induction d with
  | nil => cases h
  | cons e d ih =>
    rw [find_cons]
    simp only [List.map_cons, List.nodup_cons] at hnd
    rcases List.mem_cons.mp h with rfl | h
    · simp
    · rw [if_neg, ih hnd.2 h]
      intro he
      exact hnd.1 (List.mem_map.mpr ⟨(k, a), h, he.symm⟩)

/-- A dict whose arrays exist, have the size of their key, and are pairwise distinct. -/
structure DictOK (size : K → Nat) (h : Heap K V) (d : List (K × Nat)) : Prop where
  keys : (d.map (·.1)).Nodup
  addrs : (d.map (·.2)).Nodup
  ok : ∀ e ∈ d, e.2 < h.next ∧ (h.arr e.2).length = size e.1

theorem DictOK.addr_inj {size : K → Nat} {h : Heap K V} {d : List (K × Nat)} (hd : DictOK size h d) {e f : K × Nat}
    (he : e ∈ d) (hf : f ∈ d) (ha : e.2 = f.2) : e = f :=
  List.inj_on_of_nodup_map hd.addrs he hf ha

theorem DictOK.tail {size : K → Nat} {h : Heap K V} {e : K × Nat} {d : List (K × Nat)} (hd : DictOK size h (e :: d)) :
    DictOK size h d := by
  have h1 := hd.keys; have h2 := hd.addrs
  simp only [List.map_cons, List.nodup_cons] at h1 h2
  exact ⟨h1.2, h2.2, fun f hf => hd.ok f (List.mem_cons_of_mem _ hf)⟩

theorem DictOK.nil {size : K → Nat} {h : Heap K V} : DictOK size h ([] : List (K × Nat)) :=
  ⟨by simp, by simp, by simp⟩

/-- moving to a heap in which the arrays of `d` kept their length -/
theorem DictOK.mono {size : K → Nat} {h h' : Heap K V} {d : List (K × Nat)} (hd : DictOK size h d) (hn : h.next ≤ h'.next)
    (hl : ∀ e ∈ d, (h'.arr e.2).length = (h.arr e.2).length) : DictOK size h' d :=
  ⟨hd.keys, hd.addrs, fun e he => ⟨Nat.lt_of_lt_of_le (hd.ok e he).1 hn, (hl e he).trans (hd.ok e he).2⟩⟩

theorem val_congr {h h' : Heap K V} {d : List (K × Nat)} (hv : ∀ e ∈ d, h'.arr e.2 = h.arr e.2) (k : K) :
    val h' d k = val h d k := by
  unfold val
  cases hf : find d k with
  | none => rfl
  | some a => simp only [Option.map_some, Option.some.injEq]; exact hv _ (find_mem hf)

theorem merge_spec (op : V → V → V) (new : V → V) (size : K → Nat) : ∀ (y z : List (K × Nat)) (h : Heap K V),
    DictOK size h z → DictOK size h y → (∀ e ∈ y, ∀ f ∈ z, f.2 = e.2 → f.1 = e.1) →
    ∃ z' h', mergeInto op new z y h = .ok z' h' ∧ h'.der = h.der ∧ h'.nder = h.nder ∧ h.next ≤ h'.next ∧ DictOK size h' z' ∧
      (∀ a, a < h.next → (∀ f ∈ z, f.2 ≠ a) → h'.arr a = h.arr a) ∧
      (∀ a, a < h.next → (h'.arr a).length = (h.arr a).length) ∧
      (∀ f ∈ z', f ∈ z ∨ h.next ≤ f.2) ∧
      (∀ k, val h' z' k = combine op new (val h z k) (val h y k)) := by
  intro y
  induction y with
  | nil =>
    intro z h hz _ _
    refine ⟨z, h, rfl, rfl, rfl, Nat.le_refl _, hz, fun _ _ _ => rfl, fun _ _ => rfl, fun f hf => Or.inl hf, fun k => ?_⟩
    have : val h ([] : List (K × Nat)) k = none := rfl
    rw [this]
    cases val h z k <;> rfl
  | cons e y ih =>
    intro z h hz hy hsep
    have hek : e.1 ∉ y.map (·.1) := by
      have := hy.keys; simp only [List.map_cons, List.nodup_cons] at this; exact this.1
    have hea : ∀ f ∈ y, f.2 ≠ e.2 := by
      intro f hf he
      have := hy.addrs
      simp only [List.map_cons, List.nodup_cons] at this
      exact this.1 (List.mem_map.mpr ⟨f, hf, he⟩)
    have hy' := hy.tail
    have he := hy.ok e List.mem_cons_self
    have hyv : ∀ k, val h (e :: y) k = if e.1 = k then some (h.arr e.2) else val h y k := by
      intro k; unfold val; rw [find_cons]; split <;> rfl
    have hye : val h y e.1 = none := by unfold val; rw [find_none.mpr hek]; rfl
    unfold mergeInto
    rw [run_bind]
    simp only [read]
    cases hf : find z e.1 with
    | some a =>
      simp only [run_bind, read, lift]
      have ham := find_mem hf
      have ha := hz.ok _ ham
      have hlen : (h.arr a).length = (h.arr e.2).length := ha.2.trans he.2.symm
      have hin : inplace op (h.arr a) (h.arr e.2) = .ok (List.zipWith op (h.arr a) (h.arr e.2)) := by
        unfold inplace; rw [if_pos hlen]
      rw [hin]
      simp only [write]
      generalize hh1 : ({ h with arr := upd h.arr a (List.zipWith op (h.arr a) (h.arr e.2)) } : Heap K V) = h1
      have n1 : h1.next = h.next := by rw [← hh1]
      have d1 : h1.der = h.der := by rw [← hh1]
      have m1 : h1.nder = h.nder := by rw [← hh1]
      have a1 : h1.arr a = List.zipWith op (h.arr a) (h.arr e.2) := by rw [← hh1]; exact upd_same _ _ _
      have o1 : ∀ b, b ≠ a → h1.arr b = h.arr b := by intro b hb; rw [← hh1]; exact upd_ne _ _ _ _ hb
      have l1 : ∀ b, (h1.arr b).length = (h.arr b).length := by
        intro b
        by_cases hb : b = a
        · subst hb; rw [a1]; simp [hlen]
        · rw [o1 b hb]
      have hya : ∀ f ∈ y, f.2 ≠ a := by
        intro f hfm hfa
        have h1 := hsep f (List.mem_cons_of_mem _ hfm) (e.1, a) ham hfa.symm
        exact hek (List.mem_map.mpr ⟨f, hfm, h1.symm⟩)
      obtain ⟨z', h', r, rd, rm, rn, rok, rfr, rl, rin, rv⟩ := ih z h1 (hz.mono (Nat.le_of_eq n1.symm) (fun f _ => l1 _))
        (hy'.mono (Nat.le_of_eq n1.symm) (fun f _ => l1 _)) (fun f hf g hg => hsep f (List.mem_cons_of_mem _ hf) g hg)
      refine ⟨z', h', r, rd.trans d1, rm.trans m1, by rw [← n1]; exact rn, rok, ?_, ?_, ?_, ?_⟩
      · intro b hb hbz
        rw [rfr b (by rw [n1]; exact hb) hbz]
        exact o1 b (fun he => hbz _ ham he.symm)
      · intro b hb; rw [rl b (by rw [n1]; exact hb), l1]
      · intro f hf; rw [← n1]; exact rin f hf
      · intro k
        rw [rv k, hyv k, val_congr (h := h) (h' := h1) (fun f hf => o1 _ (hya f hf)) k]
        by_cases hk : e.1 = k
        · subst hk
          rw [hye]
          simp only [if_true]
          unfold val
          rw [hf]
          simp [combine, a1]
        · rw [if_neg hk]
          congr 1
          unfold val
          cases hfz : find z k with
          | none => rfl
          | some b =>
            simp only [Option.map_some, Option.some.injEq]
            apply o1
            intro hb
            subst hb
            have := hz.addr_inj ham (find_mem hfz) rfl
            exact hk (congrArg Prod.fst this)
    | none =>
      simp only [run_bind, alloc]
      generalize hh1 : ({ h with next := h.next + 1, arr := upd h.arr h.next ((h.arr e.2).map new) } : Heap K V) = h1
      have n1 : h1.next = h.next + 1 := by rw [← hh1]
      have d1 : h1.der = h.der := by rw [← hh1]
      have m1 : h1.nder = h.nder := by rw [← hh1]
      have a1 : h1.arr h.next = (h.arr e.2).map new := by rw [← hh1]; exact upd_same _ _ _
      have o1 : ∀ b, b < h.next → h1.arr b = h.arr b := by
        intro b hb; rw [← hh1]; exact upd_ne _ _ _ _ (Nat.ne_of_lt hb)
      have hz1 : DictOK size h1 (z ++ [(e.1, h.next)]) := by
        refine ⟨?_, ?_, ?_⟩
        · rw [List.map_append, List.nodup_append]
          refine ⟨hz.keys, by simp, ?_⟩
          intro x hx y hy
          simp at hy; subst hy
          intro hxe; subst hxe
          exact find_none.mp hf hx
        · rw [List.map_append, List.nodup_append]
          refine ⟨hz.addrs, by simp, ?_⟩
          intro x hx y hy
          simp at hy; subst hy
          obtain ⟨f, hfm, hfx⟩ := List.mem_map.mp hx
          have := (hz.ok f hfm).1
          omega
        · intro f hfm
          rcases List.mem_append.mp hfm with hfm | hfm
          · have := hz.ok f hfm
            exact ⟨by omega, by rw [o1 _ this.1]; exact this.2⟩
          · simp at hfm; subst hfm
            exact ⟨by simp only; omega, by simp only; rw [a1, List.length_map]; exact he.2⟩
      have hy1 : DictOK size h1 y := hy'.mono (by omega) (fun f hfm => by rw [o1 _ (hy'.ok f hfm).1])
      obtain ⟨z', h', r, rd, rm, rn, rok, rfr, rl, rin, rv⟩ := ih (z ++ [(e.1, h.next)]) h1 hz1 hy1 (by
        intro f hfm g hg hgf
        rcases List.mem_append.mp hg with hg | hg
        · exact hsep f (List.mem_cons_of_mem _ hfm) g hg hgf
        · simp at hg; subst hg
          have := (hy'.ok f hfm).1
          simp only at hgf; omega)
      refine ⟨z', h', r, rd.trans d1, rm.trans m1, by omega, rok, ?_, ?_, ?_, ?_⟩
      · intro b hb hbz
        rw [rfr b (by omega) ?_, o1 b hb]
        intro f hfm
        rcases List.mem_append.mp hfm with hfm | hfm
        · exact hbz f hfm
        · simp at hfm; subst hfm; simp only; omega
      · intro b hb; rw [rl b (by omega), o1 b hb]
      · intro f hfm
        rcases rin f hfm with h2 | h2
        · rcases List.mem_append.mp h2 with h2 | h2
          · exact Or.inl h2
          · simp at h2; subst h2; right; simp
        · right; omega
      · intro k
        rw [rv k, hyv k, val_congr (h := h) (h' := h1) (fun f hf => o1 _ (hy'.ok f hf).1) k]
        have hzk : val h1 (z ++ [(e.1, h.next)]) k = if e.1 = k then some ((h.arr e.2).map new) else val h z k := by
          unfold val
          rw [find_append]
          by_cases hk : e.1 = k
          · subst hk
            rw [hf]; simp [find_cons, a1]
          · rw [if_neg hk, find_cons, if_neg hk, find_nil, Option.or_none]
            exact val_congr (fun f hf => o1 _ (hz.ok f hf).1) k
        rw [hzk]
        by_cases hk : e.1 = k
        · subst hk
          simp only [if_true, hye]
          have : val h z e.1 = none := by unfold val; rw [hf]; rfl
          rw [this]; rfl
        · simp only [if_neg hk]

theorem copy_spec (size : K → Nat) : ∀ (x : List (K × Nat)) (h : Heap K V), DictOK size h x →
    ∃ z h', copyDict x h = .ok z h' ∧ h'.der = h.der ∧ h'.nder = h.nder ∧ h.next ≤ h'.next ∧ DictOK size h' z ∧
      (∀ a, a < h.next → h'.arr a = h.arr a) ∧ (∀ f ∈ z, h.next ≤ f.2) ∧ z.map (·.1) = x.map (·.1) ∧
      (∀ k, val h' z k = val h x k) := by
  intro x
  induction x with
  | nil =>
    intro h _
    exact ⟨[], h, rfl, rfl, rfl, Nat.le_refl _, DictOK.nil, fun _ _ => rfl, by simp, rfl, fun _ => rfl⟩
  | cons e x ih =>
    intro h hx
    have hx' := hx.tail
    have he := hx.ok e List.mem_cons_self
    unfold copyDict
    simp only [run_bind, read, alloc]
    generalize hh1 : ({ h with next := h.next + 1, arr := upd h.arr h.next (h.arr e.2) } : Heap K V) = h1
    have n1 : h1.next = h.next + 1 := by rw [← hh1]
    have d1 : h1.der = h.der := by rw [← hh1]
    have m1 : h1.nder = h.nder := by rw [← hh1]
    have a1 : h1.arr h.next = h.arr e.2 := by rw [← hh1]; exact upd_same _ _ _
    have o1 : ∀ b, b < h.next → h1.arr b = h.arr b := by
      intro b hb; rw [← hh1]; exact upd_ne _ _ _ _ (Nat.ne_of_lt hb)
    obtain ⟨z, h', r, rd, rm, rn, rok, rfr, rin, rk, rv⟩ := ih h1 (hx'.mono (by omega) (fun f hf => by rw [o1 _ (hx'.ok f hf).1]))
    rw [r]
    simp only [run_pure]
    refine ⟨(e.1, h.next) :: z, h', rfl, rd.trans d1, rm.trans m1, by omega, ?_, ?_, ?_, ?_, ?_⟩
    · refine ⟨?_, ?_, ?_⟩
      · rw [List.map_cons, rk]; have := hx.keys; simpa using this
      · rw [List.map_cons, List.nodup_cons]
        refine ⟨?_, rok.addrs⟩
        intro hc
        obtain ⟨f, hf, hfe⟩ := List.mem_map.mp hc
        have := rin f hf
        simp only at hfe; omega
      · intro f hf
        rcases List.mem_cons.mp hf with rfl | hf
        · exact ⟨by simp only; omega, by simp only; rw [rfr _ (by omega), a1]; exact he.2⟩
        · exact rok.ok f hf
    · intro a ha; rw [rfr a (by omega), o1 a ha]
    · intro f hf
      rcases List.mem_cons.mp hf with rfl | hf
      · simp
      · have := rin f hf; omega
    · rw [List.map_cons, rk]; rfl
    · intro k
      have hzk : val h' ((e.1, h.next) :: z) k = if e.1 = k then some (h.arr e.2) else val h' z k := by
        unfold val; rw [find_cons]; split
        · simp [rfr h.next (by omega), a1]
        · rfl
      have hxk : val h (e :: x) k = if e.1 = k then some (h.arr e.2) else val h x k := by
        unfold val; rw [find_cons]; split <;> rfl
      rw [hzk, hxk, rv k, val_congr (h := h) (h' := h1) (fun f hf => o1 _ (hx'.ok f hf).1) k]

section
variable [Mul V]
theorem scale_spec (c : V) (size : K → Nat) : ∀ (z : List (K × Nat)) (h : Heap K V), DictOK size h z →
    ∃ h', scaleAll c z h = .ok () h' ∧ h'.der = h.der ∧ h'.nder = h.nder ∧ h'.next = h.next ∧ DictOK size h' z ∧
      (∀ a, (∀ f ∈ z, f.2 ≠ a) → h'.arr a = h.arr a) ∧
      (∀ k, val h' z k = (val h z k).map (fun l => l.map (fun x => x * c))) := by
  intro z
  induction z with
  | nil => intro h _; exact ⟨h, rfl, rfl, rfl, rfl, DictOK.nil, fun _ _ => rfl, fun _ => rfl⟩
  | cons e z ih =>
    intro h hz
    have hz' := hz.tail
    have hea : ∀ f ∈ z, f.2 ≠ e.2 := by
      intro f hf he
      have := hz.addrs
      simp only [List.map_cons, List.nodup_cons] at this
      exact this.1 (List.mem_map.mpr ⟨f, hf, he⟩)
    unfold scaleAll
    simp only [run_bind, read, write]
    generalize hh1 : ({ h with arr := upd h.arr e.2 ((h.arr e.2).map (fun x => x * c)) } : Heap K V) = h1
    have n1 : h1.next = h.next := by rw [← hh1]
    have d1 : h1.der = h.der := by rw [← hh1]
    have m1 : h1.nder = h.nder := by rw [← hh1]
    have a1 : h1.arr e.2 = (h.arr e.2).map (fun x => x * c) := by rw [← hh1]; exact upd_same _ _ _
    have o1 : ∀ b, b ≠ e.2 → h1.arr b = h.arr b := by intro b hb; rw [← hh1]; exact upd_ne _ _ _ _ hb
    obtain ⟨h', r, rd, rm, rn, rok, rfr, rv⟩ := ih h1 (hz'.mono (Nat.le_of_eq n1.symm) (fun f hf => by rw [o1 _ (hea f hf)]))
    have hhe : h'.arr e.2 = (h.arr e.2).map (fun x => x * c) := by rw [rfr e.2 hea, a1]
    refine ⟨h', r, rd.trans d1, rm.trans m1, rn.trans n1, ?_, ?_, ?_⟩
    · refine ⟨hz.keys, hz.addrs, ?_⟩
      intro f hf
      rcases List.mem_cons.mp hf with rfl | hf
      · have := hz.ok f List.mem_cons_self
        exact ⟨by rw [rn, n1]; exact this.1, by rw [hhe, List.length_map]; exact this.2⟩
      · exact rok.ok f hf
    · intro a ha
      rw [rfr a (fun f hf => ha f (List.mem_cons_of_mem _ hf)), o1 a (fun he => ha e List.mem_cons_self he.symm)]
    · intro k
      have e1 : val h' (e :: z) k = if e.1 = k then some (h'.arr e.2) else val h' z k := by
        unfold val; rw [find_cons]; split <;> rfl
      have e2 : val h (e :: z) k = if e.1 = k then some (h.arr e.2) else val h z k := by
        unfold val; rw [find_cons]; split <;> rfl
      rw [e1, e2, rv k, val_congr (h := h) (h' := h1) (fun f hf => o1 _ (hea f hf)) k, hhe]
      split <;> rfl
end

/-- The heap invariant: every Derivative is well formed and no two of them share an array. -/
structure HeapOK (size : K → Nat) (h : Heap K V) : Prop where
  ok : ∀ i, i < h.nder → DictOK size h (h.der i)
  sep : ∀ i j, i < h.nder → j < h.nder → i ≠ j → ∀ e ∈ h.der i, ∀ f ∈ h.der j, e.2 ≠ f.2

/-- Adding a Derivative whose arrays are new. -/
theorem HeapOK.fresh {size : K → Nat} {h h1 : Heap K V} (hk : HeapOK size h) {z : List (K × Nat)} (hd : h1.der = h.der)
    (hm : h1.nder = h.nder) (hn : h.next ≤ h1.next) (ha : ∀ a, a < h.next → h1.arr a = h.arr a) (hz : DictOK size h1 z)
    (hf : ∀ f ∈ z, h.next ≤ f.2) :
    ∃ h', allocDer z h1 = .ok h.nder h' ∧ HeapOK size h' ∧ h'.nder = h.nder + 1 ∧ (∀ i, i < h.nder → h'.der i = h.der i) ∧
      h'.der h.nder = z ∧ h'.arr = h1.arr ∧ h'.next = h1.next := by
  refine ⟨{ h1 with nder := h1.nder + 1, der := upd h1.der h1.nder z }, by rw [← hm]; rfl, ?_, by simp [hm], ?_, ?_, rfl, rfl⟩
  · constructor
    · intro i hi
      by_cases hin : i = h.nder
      · subst hin
        simp only [hm, upd_same]
        exact hz.mono (Nat.le_refl _) (fun _ _ => rfl)
      · simp only [hm] at hi
        have hi' : i < h.nder := by omega
        simp only [hm, upd_ne _ _ _ _ hin, hd]
        exact (hk.ok i hi').mono hn (fun f hf => by show (h1.arr _).length = _; rw [ha _ ((hk.ok i hi').ok f hf).1])
    · intro i j hi hj hij e he f hfm
      simp only [hm] at hi hj he hfm
      have old : ∀ q, q < h.nder → ∀ g ∈ h.der q, g.2 < h.next := fun q hq g hg => ((hk.ok q hq).ok g hg).1
      by_cases hin : i = h.nder
      · subst hin
        have hj' : j < h.nder := by omega
        rw [upd_same] at he
        rw [upd_ne _ _ _ _ (Ne.symm hij), hd] at hfm
        have := hf e he; have := old j hj' f hfm; omega
      · have hi' : i < h.nder := by omega
        rw [upd_ne _ _ _ _ hin, hd] at he
        by_cases hjn : j = h.nder
        · subst hjn
          rw [upd_same] at hfm
          have := hf f hfm; have := old i hi' e he; omega
        · rw [upd_ne _ _ _ _ hjn, hd] at hfm
          exact hk.sep i j hi' (by omega) hij e he f hfm
  · intro i hi
    simp only [hm, upd_ne _ _ _ _ (Nat.ne_of_lt hi), hd]
  · simp only [hm, upd_same]

/-- What a call that creates a new Derivative guarantees about everything that existed before. -/
structure Grown (size : K → Nat) (h h' : Heap K V) : Prop where
  ok : HeapOK size h'
  nder : h'.nder = h.nder + 1
  der : ∀ i, i < h.nder → h'.der i = h.der i
  arr : ∀ a, a < h.next → h'.arr a = h.arr a
  next : h.next ≤ h'.next
  new : ∀ f ∈ h'.der h.nder, h.next ≤ f.2

theorem Grown.value {size : K → Nat} {h h' : Heap K V} (hk : HeapOK size h) (g : Grown size h h') (i : Nat) (hi : i < h.nder) (k : K) :
    value h' i k = value h i k := by
  unfold Deriv.value
  rw [g.der i hi]
  exact val_congr (fun f hf => g.arr _ ((hk.ok i hi).ok f hf).1) k

theorem newMerge_spec (op : V → V → V) (new : V → V) {size : K → Nat} {h : Heap K V} (hk : HeapOK size h) {i j : Nat} (hi : i < h.nder)
    (hj : j < h.nder) :
    ∃ h', (do
      let x ← dict i
      let y ← dict j
      let z ← copyDict x
      let z ← mergeInto op new z y
      allocDer z : M K V Nat) h = .ok h.nder h' ∧ Grown size h h' ∧
      ∀ k, Deriv.value h' h.nder k = combine op new (Deriv.value h i k) (Deriv.value h j k) := by
  simp only [run_bind, dict]
  obtain ⟨z, h1, r1, d1, m1, n1, ok1, fr1, in1, _, v1⟩ := copy_spec size (h.der i) h (hk.ok i hi)
  rw [r1]
  simp only
  have hy1 : DictOK size h1 (h.der j) := (hk.ok j hj).mono n1 (fun f hf => by rw [fr1 _ ((hk.ok j hj).ok f hf).1])
  obtain ⟨z2, h2, r2, d2, m2, n2, ok2, fr2, l2, in2, v2⟩ := merge_spec op new size (h.der j) z h1 ok1 hy1 (by
    intro e he f hf hfe
    have := in1 f hf; have := ((hk.ok j hj).ok e he).1; omega)
  rw [r2]
  simp only
  have fr : ∀ a, a < h.next → h2.arr a = h.arr a := by
    intro a ha
    rw [fr2 a (by omega) (fun f hf => by have := in1 f hf; omega), fr1 a ha]
  have inn : ∀ f ∈ z2, h.next ≤ f.2 := by
    intro f hf
    rcases in2 f hf with h3 | h3
    · exact in1 f h3
    · omega
  obtain ⟨h', r3, hok, nd, dr, dn, ar, nx⟩ := hk.fresh (d2.trans d1) (m2.trans m1) (by omega) fr ok2 inn
  refine ⟨h', r3, ⟨hok, nd, dr, fun a ha => by rw [ar, fr a ha], by rw [nx]; omega, by rw [dn]; exact inn⟩, ?_⟩
  intro k
  have : Deriv.value h' h.nder k = val h2 z2 k := by unfold Deriv.value val; rw [dn, ar]
  rw [this, v2 k, v1 k, val_congr (h := h) (h' := h1) (fun f hf => fr1 _ ((hk.ok j hj).ok f hf).1) k]
  rfl

/-- In-place merge: only Derivative `i` changes. -/
structure Updated (size : K → Nat) (h h' : Heap K V) (i : Nat) : Prop where
  ok : HeapOK size h'
  nder : h'.nder = h.nder
  der : ∀ j, j ≠ i → h'.der j = h.der j
  arr : ∀ a, a < h.next → (∀ f ∈ h.der i, f.2 ≠ a) → h'.arr a = h.arr a
  next : h.next ≤ h'.next

theorem Updated.value {size : K → Nat} {h h' : Heap K V} {i : Nat} (hi : i < h.nder) (hk : HeapOK size h) (u : Updated size h h' i) (j : Nat) (hj : j < h.nder)
    (hij : j ≠ i) (k : K) : value h' j k = value h j k := by
  unfold Deriv.value
  rw [u.der j hij]
  refine val_congr (fun f hf => u.arr _ ((hk.ok j hj).ok f hf).1 ?_) k
  intro g hg hgf
  exact hk.sep j i hj hi hij f hf g hg hgf.symm

theorem inplaceMerge_spec (op : V → V → V) (new : V → V) {size : K → Nat} {h : Heap K V} (hk : HeapOK size h) {i j : Nat} (hi : i < h.nder)
    (hj : j < h.nder) :
    ∃ h', (do
      let x ← dict i
      let y ← dict j
      let z ← mergeInto op new x y
      setDict i z
      pure i : M K V Nat) h = .ok i h' ∧ Updated size h h' i ∧
      ∀ k, Deriv.value h' i k = combine op new (Deriv.value h i k) (Deriv.value h j k) := by
  simp only [run_bind, dict]
  obtain ⟨z, h1, r1, d1, m1, n1, ok1, fr1, l1, in1, v1⟩ := merge_spec op new size (h.der j) (h.der i) h (hk.ok i hi) (hk.ok j hj) (by
    intro e he f hf hfe
    by_cases hij : i = j
    · subst hij
      have := (hk.ok i hi).addr_inj hf he hfe
      rw [this]
    · exact absurd hfe (hk.sep i j hi hj hij f hf e he))
  rw [r1]
  simp only [setDict, run_pure]
  refine ⟨_, rfl, ⟨⟨?_, ?_⟩, m1, ?_, fr1, n1⟩, ?_⟩
  · intro q hq
    simp only [m1] at hq
    by_cases hqi : q = i
    · subst hqi; simp only [upd_same]; exact ok1.mono (Nat.le_refl _) (fun _ _ => rfl)
    · simp only [upd_ne _ _ _ _ hqi, d1]
      exact (hk.ok q hq).mono n1 (fun f hf => l1 _ ((hk.ok q hq).ok f hf).1)
  · intro p q hp hq hpq e he f hf
    simp only [m1] at hp hq he hf
    have old : ∀ q, q < h.nder → ∀ g ∈ h.der q, g.2 < h.next := fun q hq g hg => ((hk.ok q hq).ok g hg).1
    by_cases hpi : p = i
    · subst hpi
      rw [upd_same] at he
      rw [upd_ne _ _ _ _ (Ne.symm hpq), d1] at hf
      rcases in1 e he with h3 | h3
      · exact hk.sep p q hp hq hpq e h3 f hf
      · have := old q hq f hf; omega
    · rw [upd_ne _ _ _ _ hpi, d1] at he
      by_cases hqi : q = i
      · subst hqi
        rw [upd_same] at hf
        rcases in1 f hf with h3 | h3
        · exact hk.sep p q hp hq hpq e he f h3
        · have := old p hp e he; omega
      · rw [upd_ne _ _ _ _ hqi, d1] at hf
        exact hk.sep p q hp hq hpq e he f hf
  · intro q hq; simp only [upd_ne _ _ _ _ hq, d1]
  · intro k
    have : Deriv.value ({ h1 with der := upd h1.der i z } : Heap K V) i k = val h1 z k := by
      unfold Deriv.value val; simp only [upd_same]
    rw [this, v1 k]; rfl

section
variable [Mul V]
theorem mul_spec (c : V) {size : K → Nat} {h : Heap K V} (hk : HeapOK size h) {i : Nat} (hi : i < h.nder) :
    ∃ h', mul i c h = .ok h.nder h' ∧ Grown size h h' ∧
      ∀ k, Deriv.value h' h.nder k = (Deriv.value h i k).map (fun l => l.map (fun x => x * c)) := by
  unfold mul
  simp only [run_bind, dict]
  obtain ⟨z, h1, r1, d1, m1, n1, ok1, fr1, in1, _, v1⟩ := copy_spec size (h.der i) h (hk.ok i hi)
  rw [r1]
  simp only
  obtain ⟨h2, r2, d2, m2, n2, ok2, fr2, v2⟩ := scale_spec c size z h1 ok1
  rw [r2]
  simp only
  have fr : ∀ a, a < h.next → h2.arr a = h.arr a := by
    intro a ha
    rw [fr2 a (fun f hf => by have := in1 f hf; omega), fr1 a ha]
  obtain ⟨h', r3, hok, nd, dr, dn, ar, nx⟩ := hk.fresh (d2.trans d1) (m2.trans m1) (by omega) fr ok2 in1
  refine ⟨h', r3, ⟨hok, nd, dr, fun a ha => by rw [ar, fr a ha], by rw [nx]; omega, by rw [dn]; exact in1⟩, ?_⟩
  intro k
  have : Deriv.value h' h.nder k = val h2 z k := by unfold Deriv.value val; rw [dn, ar]
  rw [this, v2 k, v1 k]; rfl
end

theorem mkGo_spec (size : K → Nat) : ∀ (l : List (K × List V)) (h : Heap K V), (l.map (·.1)).Nodup → (∀ e ∈ l, e.2.length = size e.1) →
    ∃ z h', mk.go l h = .ok z h' ∧ h'.der = h.der ∧ h'.nder = h.nder ∧ h.next ≤ h'.next ∧ DictOK size h' z ∧
      (∀ a, a < h.next → h'.arr a = h.arr a) ∧ (∀ f ∈ z, h.next ≤ f.2) ∧ z.map (·.1) = l.map (·.1) ∧
      (∀ k, val h' z k = (l.find? (fun e => e.1 = k)).map (·.2)) := by
  intro l
  induction l with
  | nil =>
    intro h _ _
    exact ⟨[], h, rfl, rfl, rfl, Nat.le_refl _, DictOK.nil, fun _ _ => rfl, by simp, rfl, fun _ => rfl⟩
  | cons e l ih =>
    intro h hnd hsz
    simp only [List.map_cons, List.nodup_cons] at hnd
    unfold mk.go
    simp only [run_bind, alloc]
    generalize hh1 : ({ h with next := h.next + 1, arr := upd h.arr h.next e.2 } : Heap K V) = h1
    have n1 : h1.next = h.next + 1 := by rw [← hh1]
    have d1 : h1.der = h.der := by rw [← hh1]
    have m1 : h1.nder = h.nder := by rw [← hh1]
    have a1 : h1.arr h.next = e.2 := by rw [← hh1]; exact upd_same _ _ _
    have o1 : ∀ b, b < h.next → h1.arr b = h.arr b := by
      intro b hb; rw [← hh1]; exact upd_ne _ _ _ _ (Nat.ne_of_lt hb)
    obtain ⟨z, h', r, rd, rm, rn, rok, rfr, rin, rk, rv⟩ := ih h1 hnd.2 (fun f hf => hsz f (List.mem_cons_of_mem _ hf))
    rw [r]
    simp only [run_pure]
    refine ⟨(e.1, h.next) :: z, h', rfl, rd.trans d1, rm.trans m1, by omega, ?_, ?_, ?_, ?_, ?_⟩
    · refine ⟨?_, ?_, ?_⟩
      · rw [List.map_cons, rk, List.nodup_cons]; exact hnd
      · rw [List.map_cons, List.nodup_cons]
        refine ⟨?_, rok.addrs⟩
        intro hc
        obtain ⟨f, hf, hfe⟩ := List.mem_map.mp hc
        have := rin f hf
        simp only at hfe; omega
      · intro f hf
        rcases List.mem_cons.mp hf with rfl | hf
        · exact ⟨by simp only; omega, by simp only; rw [rfr _ (by omega), a1]; exact hsz e List.mem_cons_self⟩
        · exact rok.ok f hf
    · intro a ha; rw [rfr a (by omega), o1 a ha]
    · intro f hf
      rcases List.mem_cons.mp hf with rfl | hf
      · simp
      · have := rin f hf; omega
    · rw [List.map_cons, rk]; rfl
    · intro k
      have hzk : val h' ((e.1, h.next) :: z) k = if e.1 = k then some e.2 else val h' z k := by
        unfold val; rw [find_cons]; split
        · simp [rfr h.next (by omega), a1]
        · rfl
      rw [hzk, rv k]
      by_cases hk : e.1 = k <;> simp [List.find?_cons, hk]

theorem mk_spec {size : K → Nat} {h : Heap K V} (hk : HeapOK size h) (l : List (K × List V)) (hnd : (l.map (·.1)).Nodup)
    (hsz : ∀ e ∈ l, e.2.length = size e.1) :
    ∃ h', mk l h = .ok h.nder h' ∧ Grown size h h' ∧
      ∀ k, Deriv.value h' h.nder k = (l.find? (fun e => e.1 = k)).map (·.2) := by
  unfold mk
  simp only [run_bind]
  obtain ⟨z, h1, r1, d1, m1, n1, ok1, fr1, in1, _, v1⟩ := mkGo_spec size l h hnd hsz
  rw [r1]
  simp only
  obtain ⟨h', r3, hok, nd, dr, dn, ar, nx⟩ := hk.fresh d1 m1 n1 fr1 ok1 in1
  refine ⟨h', r3, ⟨hok, nd, dr, fun a ha => by rw [ar, fr1 a ha], by rw [nx]; omega, by rw [dn]; exact in1⟩, ?_⟩
  intro k
  have : Deriv.value h' h.nder k = val h1 z k := by unfold Deriv.value val; rw [dn, ar]
  rw [this, v1 k]

end Simsopt.Deriv
