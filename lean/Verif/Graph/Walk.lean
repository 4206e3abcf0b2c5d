import Verif.Graph.Spec
import Verif.Dofs.Lemmas
/-! Helper lemmas: the recursions over children. -/
namespace Simsopt.Graph
variable {V : Type}

theorem upd_same {α : Type} (f : Nat → α) (i : Nat) (v : α) : upd f i v i = v := by simp [upd]
theorem upd_ne {α : Type} (f : Nat → α) (i j : Nat) (v : α) (h : j ≠ i) : upd f i v j = f j := by simp [upd, h]

/-- The part of an object that the recursions never write. -/
structure Core where
  cls : Nat
  num : Nat
  name : String
  dofs : Nat
  setter : Bool
  parents : List Nat
  children : List Nat

def Obj.core (o : Obj V) : Core :=
  ⟨o.cls, o.num, o.name, o.dofs, o.setter, o.parents, o.children⟩

/-- `s'` differs from `s` only in fields that the recursions write (lineage caches and flags). -/
structure Static (s s' : State V) : Prop where
  nobj : s'.nobj = s.nobj
  alive : s'.alive = s.alive
  ndof : s'.ndof = s.ndof
  dof : s'.dof = s.dof
  deps : s'.deps = s.deps
  ids : s'.ids = s.ids
  core : ∀ j, (s'.obj j).core = (s.obj j).core

namespace Static
variable {s s' s'' : State V}
theorem refl (s : State V) : Static s s := ⟨rfl, rfl, rfl, rfl, rfl, rfl, fun _ => rfl⟩
theorem trans (h : Static s s') (h' : Static s' s'') : Static s s'' :=
  ⟨h'.nobj.trans h.nobj, h'.alive.trans h.alive, h'.ndof.trans h.ndof, h'.dof.trans h.dof,
    h'.deps.trans h.deps, h'.ids.trans h.ids, fun j => (h'.core j).trans (h.core j)⟩
theorem symm (h : Static s s') : Static s' s :=
  ⟨h.nobj.symm, h.alive.symm, h.ndof.symm, h.dof.symm, h.deps.symm, h.ids.symm, fun j => (h.core j).symm⟩
theorem cls (h : Static s s') (j : Nat) : (s'.obj j).cls = (s.obj j).cls := congrArg Core.cls (h.core j)
theorem num (h : Static s s') (j : Nat) : (s'.obj j).num = (s.obj j).num := congrArg Core.num (h.core j)
theorem name (h : Static s s') (j : Nat) : (s'.obj j).name = (s.obj j).name := congrArg Core.name (h.core j)
theorem dofs (h : Static s s') (j : Nat) : (s'.obj j).dofs = (s.obj j).dofs := congrArg Core.dofs (h.core j)
theorem setter (h : Static s s') (j : Nat) : (s'.obj j).setter = (s.obj j).setter := congrArg Core.setter (h.core j)
theorem parents (h : Static s s') (j : Nat) : (s'.obj j).parents = (s.obj j).parents := congrArg Core.parents (h.core j)
theorem children (h : Static s s') (j : Nat) : (s'.obj j).children = (s.obj j).children :=
  congrArg Core.children (h.core j)
theorem kids (h : Static s s') (j : Nat) : Graph.kids s' j = Graph.kids s j := by
  unfold Graph.kids; rw [h.children, h.alive]
theorem parent (h : Static s s') : Parent s' = Parent s := by
  funext p c; unfold Parent; rw [h.alive, h.parents]
theorem localSize (h : Static s s') : Graph.localSize s' = Graph.localSize s := by
  funext o; unfold Graph.localSize; rw [h.dofs, h.dof]
theorem localFullSize (h : Static s s') : Graph.localFullSize s' = Graph.localFullSize s := by
  funext o; unfold Graph.localFullSize; rw [h.dofs, h.dof]
end Static

theorem setObj_static (s : State V) (i : Nat) (o : Obj V) (h : o.core = (s.obj i).core) :
    Static s (s.setObj i o) := by
  refine ⟨rfl, rfl, rfl, rfl, rfl, rfl, fun j => ?_⟩
  by_cases hj : j = i
  · subst hj; simp [State.setObj, upd, h]
  · simp [State.setObj, upd, hj]

/-- An admissible visit action: writes only the visited object, and only its non-core fields. -/
structure LocalAct (act : State V → Nat → State V) : Prop where
  static : ∀ s i, Static s (act s i)
  other : ∀ s i j, j ≠ i → (act s i).obj j = s.obj j

theorem localAct_full : LocalAct (V := V) actFull :=
  ⟨fun _ _ => setObj_static _ _ _ rfl, fun _ _ _ h => by simp [actFull, State.setObj, upd, h]⟩
theorem localAct_free : LocalAct (V := V) actFree :=
  ⟨fun _ _ => setObj_static _ _ _ rfl, fun _ _ _ h => by simp [actFree, State.setObj, upd, h]⟩
theorem localAct_flag : LocalAct (V := V) actFlag :=
  ⟨fun _ _ => setObj_static _ _ _ rfl, fun _ _ _ h => by simp [actFlag, State.setObj, upd, h]⟩

/-- `c` is a live registered child of `p`. -/
def Child (s : State V) (p c : Nat) : Prop := c ∈ kids s p

/-- Reachable by following registered live children zero or more times. -/
def Desc (s : State V) : Nat → Nat → Prop := Relation.ReflTransGen (Child s)

theorem Static.child {s s' : State V} (h : Static s s') : Child s' = Child s := by
  funext p c; unfold Child; rw [h.kids]
theorem Static.desc {s s' : State V} (h : Static s s') : Desc s' = Desc s := by
  unfold Desc; rw [h.child]

theorem foldlM_some_inv {σ α : Type} {f : σ → α → Option σ} (P : σ → Prop) (l : List α)
    (hf : ∀ s a s', a ∈ l → P s → f s a = some s' → P s') :
    ∀ s s', l.foldlM f s = some s' → P s → P s' := by
  induction l with
  | nil => intro s s' h hp; simp at h; exact h ▸ hp
  | cons a l ih =>
    intro s s' h hp
    simp only [List.foldlM_cons] at h
    cases h1 : f s a with
    | none => simp [h1] at h
    | some s1 =>
      simp [h1] at h
      exact ih (fun s a s' ha => hf s a s' (List.mem_cons_of_mem _ ha)) s1 s' h
        (hf s a s1 (List.mem_cons_self) hp h1)

/-- A state property preserved by every visit is preserved by the whole recursion. -/
theorem walk_inv {act : State V → Nat → State V} (P : State V → Prop)
    (h : ∀ s j, P s → P (act s j)) :
    ∀ n i s s', walk act n i s = some s' → P s → P s' := by
  intro n
  induction n with
  | zero => intro i s s' hw; simp [walk] at hw
  | succ n ih =>
    intro i s s' hw hp
    simp only [walk] at hw
    exact foldlM_some_inv P _ (fun s a s' _ hp hf => ih a s s' hf hp) _ _ hw (h _ _ hp)

theorem walk_static {act : State V → Nat → State V} (ha : LocalAct act) {n i : Nat} {s s' : State V}
    (h : walk act n i s = some s') : Static s s' :=
  walk_inv (fun t => Static s t) (fun t j ht => ht.trans (ha.static t j)) n i s s' h (Static.refl s)

/-- Objects that are not descendants of the start are untouched. -/
theorem walk_other {act : State V → Nat → State V} (ha : LocalAct act) :
    ∀ n i (s s' : State V), walk act n i s = some s' → ∀ j, ¬ Desc s i j → s'.obj j = s.obj j := by
  intro n
  induction n with
  | zero => intro i s s' hw; simp [walk] at hw
  | succ n ih =>
    intro i s s' hw j hj
    simp only [walk] at hw
    have hst := ha.static s i
    have hji : j ≠ i := fun h => hj (h ▸ Relation.ReflTransGen.refl)
    have key := foldlM_some_inv (fun t => Static s t ∧ t.obj j = s.obj j) _
      (fun t c t' hc ⟨hs, ht⟩ hf => by
        have hs' := walk_static ha hf
        refine ⟨hs.trans hs', ?_⟩
        rw [ih c t t' hf j ?_, ht]
        rw [hs.desc]
        intro hd
        rw [hst.kids] at hc
        exact hj (Relation.ReflTransGen.head hc hd)) _ _ hw ⟨hst, ha.other s i j hji⟩
    exact key.2

/-- Coverage: if a visit establishes `Q j` at the visited `j` and no visit destroys it, then after the
    recursion from `i` it holds at every descendant of `i`. -/
theorem walk_cover {act : State V → Nat → State V} (ha : LocalAct act) (Q : State V → Nat → Prop)
    (hest : ∀ s j, Q (act s j) j) (hpres : ∀ s k j, Q s j → Q (act s k) j) :
    ∀ n i (s s' : State V), walk act n i s = some s' → ∀ j, Desc s i j → Q s' j := by
  intro n
  induction n with
  | zero => intro i s s' hw; simp [walk] at hw
  | succ n ih =>
    intro i s s' hw j hj
    simp only [walk] at hw
    have hst := ha.static s i
    rcases Relation.ReflTransGen.cases_head hj with h | ⟨c, hc, hcj⟩
    · subst h
      exact foldlM_some_inv (fun t => Q t i) _
        (fun t c t' _ hq hf => walk_inv (fun t => Q t i) (fun t k => hpres t k i) n c t t' hf hq) _ _ hw (hest s i)
    · have hc' : c ∈ kids (act s i) i := by rw [hst.kids]; exact hc
      -- split the fold at c
      generalize hl : kids (act s i) i = l at hw hc'
      have hgen : ∀ (l : List Nat) (t t' : State V), Static s t → c ∈ l →
          l.foldlM (fun s c => walk act n c s) t = some t' → Q t' j := by
        intro l
        induction l with
        | nil => intro t t' _ hc; simp at hc
        | cons a l ihl =>
          intro t t' hs hc hf
          simp only [List.foldlM_cons] at hf
          cases h1 : walk act n a t with
          | none => simp [h1] at hf
          | some t1 =>
            simp [h1] at hf
            have hs1 : Static s t1 := hs.trans (walk_static ha h1)
            rcases List.mem_cons.mp hc with h | h
            · subst h
              have hq : Q t1 j := ih c t t1 h1 j (by rw [hs.desc]; exact hcj)
              exact foldlM_some_inv (fun t => Q t j) _
                (fun t c t' _ hq hf => walk_inv (fun t => Q t j) (fun t k => hpres t k j) n c t t' hf hq) _ _ hf hq
            · exact ihl t1 t' hs1 h hf
      exact hgen l _ _ hst hc' hw

/-- `Term s n i`: every chain of live children starting at `i` has fewer than `n` links. -/
def Term (s : State V) : Nat → Nat → Prop
  | 0, _ => False
  | n + 1, i => ∀ c, Child s i c → Term s n c

theorem Term.congr {s s' : State V} (h : Static s s') : ∀ n i, Term s' n i → Term s n i := by
  intro n
  induction n with
  | zero => intro i h; exact h
  | succ n ih => intro i ht c hc; exact ih c (ht c (by rw [h.child]; exact hc))

theorem walk_term {act : State V → Nat → State V} (ha : LocalAct act) :
    ∀ n i (s s' : State V), walk act n i s = some s' → Term s n i := by
  intro n
  induction n with
  | zero => intro i s s' hw; simp [walk] at hw
  | succ n ih =>
    intro i s s' hw c hc
    simp only [walk] at hw
    have hst := ha.static s i
    have hc' : c ∈ kids (act s i) i := by rw [hst.kids]; exact hc
    have hgen : ∀ (l : List Nat) (t t' : State V), Static s t → c ∈ l →
        l.foldlM (fun s c => walk act n c s) t = some t' → Term s n c := by
      intro l
      induction l with
      | nil => intro t t' _ hc; simp at hc
      | cons a l ihl =>
        intro t t' hs hc hf
        simp only [List.foldlM_cons] at hf
        cases h1 : walk act n a t with
        | none => simp [h1] at hf
        | some t1 =>
          simp [h1] at hf
          rcases List.mem_cons.mp hc with h | h
          · subst h
            exact (ih c t t1 h1).congr hs
          · exact ihl t1 t' (hs.trans (walk_static ha h1)) h hf
    exact hgen _ _ _ hst hc' hw

theorem Term.acc {s : State V} : ∀ n i, Term s n i → Acc (fun c p => Child s p c) i := by
  intro n
  induction n with
  | zero => intro i h; exact h.elim
  | succ n ih => intro i h; exact Acc.intro _ (fun c hc => ih c (h c hc))

theorem acc_irrefl {α : Type} {r : α → α → Prop} {i : α} (h : Acc r i) : ¬ r i i := by
  induction h with
  | intro x _ ih => intro hr; exact ih x hr hr

/-- No cycle passes through a node from which the recursion terminated. -/
theorem Term.no_cycle {s : State V} {n i : Nat} (h : Term s n i) : ¬ Relation.TransGen (Child s) i i := by
  have hacc : Acc (Relation.TransGen (fun c p => Child s p c)) i := (h.acc).transGen
  intro hc
  exact acc_irrefl hacc (Relation.transGen_swap.mpr hc)

/-- Conversely, if all chains of children are shorter than the recursion limit, the recursion succeeds. -/
theorem walk_total {act : State V → Nat → State V} (ha : LocalAct act) :
    ∀ n i (s : State V), Term s n i → ∃ s', walk act n i s = some s' := by
  intro n
  induction n with
  | zero => intro i s h; exact h.elim
  | succ n ih =>
    intro i s ht
    simp only [walk]
    have hst := ha.static s i
    have hgen : ∀ (l : List Nat) (t : State V), Static s t → (∀ c ∈ l, Term s n c) →
        ∃ t', l.foldlM (fun s c => walk act n c s) t = some t' := by
      intro l
      induction l with
      | nil => intro t _ _; exact ⟨t, rfl⟩
      | cons a l ihl =>
        intro t hs hl
        obtain ⟨t1, h1⟩ := ih a t ((hl a List.mem_cons_self).congr hs.symm)
        obtain ⟨t', h2⟩ := ihl t1 (hs.trans (walk_static ha h1)) (fun c hc => hl c (List.mem_cons_of_mem _ hc))
        exact ⟨t', by simp [List.foldlM_cons, h1, h2]⟩
    exact hgen _ _ hst (fun c hc => ht c (by rw [hst.kids] at hc; exact hc))

end Simsopt.Graph
