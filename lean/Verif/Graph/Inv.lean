import Verif.Graph.Full
import Mathlib.Data.List.Perm.Basic
import Mathlib.Order.Basic
import Mathlib.Order.Nat
/-! Helper lemmas: the invariant of reachable stores (definitions and infrastructure). -/
namespace Simsopt.Graph
variable {V : Type}

/-! ### running actions -/
section run
variable {α β : Type}
theorem run_bind (m : M V α) (f : α → M V β) (s : State V) :
    (m >>= f) s = (match m s with | .ok a s' => f a s' | .error e s' => .error e s') := by
  show EStateM.bind m f s = _
  unfold EStateM.bind; cases m s <;> rfl
theorem run_pure (a : α) (s : State V) : (pure a : M V α) s = .ok a s := rfl
theorem run_get (s : State V) : (get : M V (State V)) s = .ok s s := rfl
theorem run_set (t s : State V) : (set t : M V PUnit) s = .ok ⟨⟩ t := rfl
theorem run_modify (f : State V → State V) (s : State V) : (modify f : M V PUnit) s = .ok ⟨⟩ (f s) := rfl
theorem run_throw (e : Err) (s : State V) : (throw e : M V α) s = .error e s := rfl
end run

/-- Graph part of the invariant (everything that does not involve DOFs objects or caches). -/
structure GraphOK (cfg : Cfg V) (s : State V) : Prop where
  lt : ∀ j, s.alive j = true → j < s.nobj
  blank : ∀ p, s.nobj ≤ p → (s.obj p).children = []
  childLt : ∀ p c, c ∈ (s.obj p).children → c < s.nobj
  childNodup : ∀ p, (s.obj p).children.Nodup
  names : ∀ j, j < s.nobj → (s.obj j).name = cfg.cname (s.obj j).cls ++ toString (s.obj j).num ∧
    (s.obj j).num ≤ s.ids (s.obj j).cls
  numInj : ∀ i j, i < s.nobj → j < s.nobj → (s.obj i).cls = (s.obj j).cls → (s.obj i).num = (s.obj j).num → i = j
  parAlive : ∀ c p, s.alive c = true → p ∈ (s.obj c).parents → s.alive p = true
  link : ∀ c p, s.alive c = true → (p ∈ (s.obj c).parents ↔ c ∈ (s.obj p).children)

/-- DOFs part of the invariant. -/
structure DofOK (s : State V) : Prop where
  wf : ∀ d, (s.dof d).WF
  lt : ∀ j, s.alive j = true → (s.obj j).dofs < s.ndof
  depLt : ∀ d o, o ∈ s.deps d → o < s.nobj
  depNew : ∀ d, s.ndof ≤ d → s.deps d = []
  depIn : ∀ o, s.alive o = true → o ∈ s.deps (s.obj o).dofs
  depOf : ∀ o d, s.alive o = true → o ∈ s.deps d → (s.obj o).dofs = d
  depNodup : ∀ d, (s.deps d).Nodup

/-- The invariant of reachable stores. -/
structure Inv (cfg : Cfg V) (s : State V) : Prop where
  graph : GraphOK cfg s
  dofs : DofOK s
  acyclic : WellFounded (Parent s)
  full : ∀ j, s.alive j = true → FullOK s j
  free : ∀ j, s.alive j = true → FreeOK s j

theorem GraphOK.linkOK {cfg : Cfg V} {s : State V} (h : GraphOK cfg s) : LinkOK s :=
  fun p c hc hp => (h.link c p hc).mp hp

theorem GraphOK.static {cfg : Cfg V} {s s' : State V} (h : GraphOK cfg s) (hs : Static s s') : GraphOK cfg s' := by
  constructor
  · intro j hj; rw [hs.alive] at hj; rw [hs.nobj]; exact h.lt j hj
  · intro p hp; rw [hs.nobj] at hp; rw [hs.children]; exact h.blank p hp
  · intro p c hc; rw [hs.children] at hc; rw [hs.nobj]; exact h.childLt p c hc
  · intro p; rw [hs.children]; exact h.childNodup p
  · intro j hj; rw [hs.nobj] at hj; rw [hs.name, hs.cls, hs.num, hs.ids]; exact h.names j hj
  · intro i j hi hj; rw [hs.nobj] at hi hj; rw [hs.cls, hs.cls, hs.num, hs.num]; exact h.numInj i j hi hj
  · intro c p hc hp; rw [hs.alive] at hc ⊢; rw [hs.parents] at hp; exact h.parAlive c p hc hp
  · intro c p hc; rw [hs.alive] at hc; rw [hs.parents, hs.children]; exact h.link c p hc

theorem DofOK.static {s s' : State V} (h : DofOK s) (hs : Static s s') : DofOK s' := by
  constructor
  · intro d; rw [hs.dof]; exact h.wf d
  · intro j hj; rw [hs.alive] at hj; rw [hs.dofs, hs.ndof]; exact h.lt j hj
  · intro d o ho; rw [hs.deps] at ho; rw [hs.nobj]; exact h.depLt d o ho
  · intro d hd; rw [hs.ndof] at hd; rw [hs.deps]; exact h.depNew d hd
  · intro o ho; rw [hs.alive] at ho; rw [hs.deps, hs.dofs]; exact h.depIn o ho
  · intro o d ho; rw [hs.alive] at ho; rw [hs.deps, hs.dofs]; exact h.depOf o d ho
  · intro d; rw [hs.deps]; exact h.depNodup d

theorem GraphOK.name_inj {cfg : Cfg V} (hn : NameInj cfg) {s : State V} (h : GraphOK cfg s) {i j : Nat}
    (hi : i < s.nobj) (hj : j < s.nobj) (he : (s.obj i).name = (s.obj j).name) : i = j := by
  have h1 := (h.names i hi).1
  have h2 := (h.names j hj).1
  rw [h1, h2] at he
  obtain ⟨hc, hk⟩ := hn _ _ _ _ he
  exact h.numInj i j hi hj hc hk

theorem GraphOK.eqv_iff {cfg : Cfg V} (hn : NameInj cfg) {s : State V} (h : GraphOK cfg s) {i j : Nat}
    (hi : i < s.nobj) (hj : j < s.nobj) : s.eqv i j = true ↔ i = j := by
  unfold State.eqv
  rw [beq_iff_eq]
  exact ⟨h.name_inj hn hi hj, fun e => by rw [e]⟩

/-- In the invariant, registered live children are exactly those that list the parent. -/
theorem GraphOK.child_iff {cfg : Cfg V} {s : State V} (h : GraphOK cfg s) (p c : Nat) :
    Child s p c ↔ Parent s p c := by
  unfold Child kids Parent
  rw [List.mem_filter]
  constructor
  · rintro ⟨h1, h2⟩; exact ⟨h2, (h.link c p h2).mpr h1⟩
  · rintro ⟨h1, h2⟩; exact ⟨(h.link c p h1).mp h2, h1⟩

theorem GraphOK.desc_iff {cfg : Cfg V} {s : State V} (h : GraphOK cfg s) (o j : Nat) :
    Desc s o j ↔ DependsOn s j o := by
  have : Child s = Parent s := by funext p c; exact propext (h.child_iff p c)
  unfold Desc DependsOn Ancestor
  rw [this, Relation.reflTransGen_iff_eq_or_transGen]

/-! ### the recursions as actions -/

theorem walkM_cases (cfg : Cfg V) {act : State V → Nat → State V} (ha : LocalAct act) (i : Nat) (s : State V) :
    (∃ s', walkM cfg act i s = .ok () s' ∧ walk act cfg.limit i s = some s') ∨
    (walkM cfg act i s = .error .recursionError s ∧ ¬ Term s cfg.limit i) := by
  unfold walkM
  cases h : walk act cfg.limit i s with
  | none =>
    right
    refine ⟨rfl, fun ht => ?_⟩
    obtain ⟨s', h'⟩ := walk_total ha _ _ _ ht
    rw [h] at h'; cases h'
  | some s' => left; exact ⟨s', rfl, rfl⟩

/-- No chain of live children reaches the recursion limit. -/
def Shallow (cfg : Cfg V) (s : State V) : Prop := ∀ j, s.alive j = true → Term s cfg.limit j

theorem Shallow.static {cfg : Cfg V} {s s' : State V} (h : Shallow cfg s) (hs : Static s s') : Shallow cfg s' := by
  intro j hj
  rw [hs.alive] at hj
  exact (h j hj).congr hs.symm

/-- Result of a free-index recursion. -/
theorem walk_free_spec {n i : Nat} {s s' : State V} (hw : walk actFree n i s = some s') :
    Static s s' ∧ (∀ j, (FreeOK s j ∨ Desc s i j) → FreeOK s' j) ∧
    (∀ j, (s'.obj j).anc = (s.obj j).anc ∧ (s'.obj j).uniq = (s.obj j).uniq ∧
      (s'.obj j).fullSize = (s.obj j).fullSize ∧ (s'.obj j).fullIdx = (s.obj j).fullIdx ∧
      (s'.obj j).ext = (s.obj j).ext ∧ (s'.obj j).newX = (s.obj j).newX ∧ (s'.obj j).bells = (s.obj j).bells) := by
  refine ⟨walk_static localAct_free hw, ?_, ?_⟩
  · intro j hj
    rcases hj with h | h
    · exact walk_inv (fun t => FreeOK t j) (fun t k => actFree_pres t k j) n i s s' hw h
    · exact walk_cover localAct_free FreeOK actFree_self actFree_pres n i s s' hw j h
  · intro j
    refine walk_inv (fun t => (t.obj j).anc = (s.obj j).anc ∧ (t.obj j).uniq = (s.obj j).uniq ∧
      (t.obj j).fullSize = (s.obj j).fullSize ∧ (t.obj j).fullIdx = (s.obj j).fullIdx ∧
      (t.obj j).ext = (s.obj j).ext ∧ (t.obj j).newX = (s.obj j).newX ∧ (t.obj j).bells = (s.obj j).bells)
      ?_ n i s s' hw ⟨rfl, rfl, rfl, rfl, rfl, rfl, rfl⟩
    intro t k ⟨h1, h2, h3, h4, h5, h6, h7⟩
    obtain ⟨g1, g2, g3, g4, g5, g6, g7⟩ := actFree_fields t k j
    exact ⟨g1.trans h1, g2.trans h2, g3.trans h3, g4.trans h4, g5.trans h5, g6.trans h6, g7.trans h7⟩

/-- Result of a recompute-flag recursion. -/
theorem walk_flag_spec {n i : Nat} {s s' : State V} (hw : walk actFlag n i s = some s') :
    Static s s' ∧ (∀ j, Desc s i j → (s'.obj j).newX = true ∧ (s.obj j).bells < (s'.obj j).bells) ∧
    (∀ j, (s.obj j).newX = true → (s'.obj j).newX = true) ∧
    (∀ j, (s.obj j).bells ≤ (s'.obj j).bells) ∧
    (∀ j, (s'.obj j).anc = (s.obj j).anc ∧ (s'.obj j).uniq = (s.obj j).uniq ∧
      (s'.obj j).fullSize = (s.obj j).fullSize ∧ (s'.obj j).fullIdx = (s.obj j).fullIdx ∧
      (s'.obj j).freeSize = (s.obj j).freeSize ∧ (s'.obj j).freeIdx = (s.obj j).freeIdx ∧
      (s'.obj j).ext = (s.obj j).ext) := by
  have hself : ∀ (t : State V) k, ((actFlag t k).obj k).newX = true ∧ ((actFlag t k).obj k).bells = (t.obj k).bells + 1 := by
    intro t k; simp [actFlag, State.setObj, upd]
  have hmono : ∀ (t : State V) k j, (t.obj j).bells ≤ ((actFlag t k).obj j).bells := by
    intro t k j
    by_cases hjk : j = k
    · subst hjk; rw [(hself t j).2]; omega
    · rw [localAct_flag.other t k j hjk]
  have hnew : ∀ (t : State V) k j, (t.obj j).newX = true → ((actFlag t k).obj j).newX = true := by
    intro t k j h
    by_cases hjk : j = k
    · subst hjk; exact (hself t j).1
    · rw [localAct_flag.other t k j hjk]; exact h
  refine ⟨walk_static localAct_flag hw, ?_, ?_, ?_, ?_⟩
  · intro j hj
    have hb : ∀ j, (s.obj j).bells ≤ (s.obj j).bells := fun _ => le_refl _
    -- carry the comparison with the initial store along
    have key : ∀ n i (t t' : State V), walk actFlag n i t = some t' → (∀ j, (s.obj j).bells ≤ (t.obj j).bells) →
        ∀ j, Desc t i j → (t'.obj j).newX = true ∧ (s.obj j).bells < (t'.obj j).bells := by
      intro n
      induction n with
      | zero => intro i t t' hw; simp [walk] at hw
      | succ n ih =>
        intro i t t' hw hb j hj
        simp only [walk] at hw
        have hst := localAct_flag.static t i
        have hb1 : ∀ j, (s.obj j).bells ≤ ((actFlag t i).obj j).bells := fun j => (hb j).trans (hmono t i j)
        have hgen : ∀ (l : List Nat) (u u' : State V), Static t u → (∀ j, (s.obj j).bells ≤ (u.obj j).bells) →
            (((u.obj j).newX = true ∧ (s.obj j).bells < (u.obj j).bells) ∨ ∃ c ∈ l, Desc t c j) →
            l.foldlM (fun s c => walk actFlag n c s) u = some u' →
            (u'.obj j).newX = true ∧ (s.obj j).bells < (u'.obj j).bells := by
          intro l
          induction l with
          | nil =>
            intro u u' _ _ hc hf
            simp at hf
            rcases hc with hc | ⟨c, hc, _⟩
            · exact hf ▸ hc
            · simp at hc
          | cons a l ihl =>
            intro u u' hs hbu hc hf
            simp only [List.foldlM_cons] at hf
            cases h1 : walk actFlag n a u with
            | none => simp [h1] at hf
            | some u1 =>
              simp [h1] at hf
              have hs1 := hs.trans (walk_static localAct_flag h1)
              have hbu1 : ∀ j, (s.obj j).bells ≤ (u1.obj j).bells :=
                walk_inv (fun t => ∀ j, (s.obj j).bells ≤ (t.obj j).bells)
                  (fun t k h j => (h j).trans (hmono t k j)) n a u u1 h1 hbu
              refine ihl u1 u' hs1 hbu1 ?_ hf
              rcases hc with hc | ⟨c, hc, hcj⟩
              · left
                exact walk_inv (fun t => (t.obj j).newX = true ∧ (s.obj j).bells < (t.obj j).bells)
                  (fun t k h => ⟨hnew t k j h.1, lt_of_lt_of_le h.2 (hmono t k j)⟩) n a u u1 h1 hc
              · rcases List.mem_cons.mp hc with h | h
                · subst h; left
                  exact ih c u u1 h1 hbu j (by rw [hs.desc]; exact hcj)
                · right; exact ⟨c, h, hcj⟩
        refine hgen _ _ _ hst hb1 ?_ hw
        rcases Relation.ReflTransGen.cases_head hj with h | ⟨c, hc, hcj⟩
        · subst h; left
          exact ⟨(hself t i).1, by rw [(hself t i).2]; exact Nat.lt_succ_of_le (hb i)⟩
        · right; exact ⟨c, by rw [hst.kids]; exact hc, hcj⟩
    exact key n i s s' hw hb j hj
  · intro j h
    exact walk_inv (fun t => (t.obj j).newX = true) (fun t k => hnew t k j) n i s s' hw h
  · intro j
    exact walk_inv (fun t => (s.obj j).bells ≤ (t.obj j).bells) (fun t k h => h.trans (hmono t k j)) n i s s' hw (le_refl _)
  · intro j
    refine walk_inv (fun t => (t.obj j).anc = (s.obj j).anc ∧ (t.obj j).uniq = (s.obj j).uniq ∧
      (t.obj j).fullSize = (s.obj j).fullSize ∧ (t.obj j).fullIdx = (s.obj j).fullIdx ∧
      (t.obj j).freeSize = (s.obj j).freeSize ∧ (t.obj j).freeIdx = (s.obj j).freeIdx ∧
      (t.obj j).ext = (s.obj j).ext) ?_ n i s s' hw ⟨rfl, rfl, rfl, rfl, rfl, rfl, rfl⟩
    intro t k ⟨h1, h2, h3, h4, h5, h6, h7⟩
    obtain ⟨g1, g2, g3, g4, g5, g6, g7⟩ := actFlag_fields t k j
    exact ⟨g1.trans h1, g2.trans h2, g3.trans h3, g4.trans h4, g5.trans h5, g6.trans h6, g7.trans h7⟩

theorem FullOK.of_fields {s s' : State V} (h : Static s s')
    (hf : ∀ j, (s'.obj j).anc = (s.obj j).anc ∧ (s'.obj j).uniq = (s.obj j).uniq ∧
      (s'.obj j).fullSize = (s.obj j).fullSize ∧ (s'.obj j).fullIdx = (s.obj j).fullIdx) {j : Nat}
    (hj : FullOK s j) : FullOK s' j :=
  hj.congr h (fun p _ => (hf p).1) (hf j).1 (hf j).2.1 (hf j).2.2.1 (hf j).2.2.2

/-- `refresh`: either it exhausts the recursion limit, or all lineages and index tables are consistent,
    every descendant of `i` is flagged, and nothing else is affected. -/
theorem refresh_spec (cfg : Cfg V) (i : Nat) (s : State V) (hl : LinkOK s)
    (hfull : ∀ j, s.alive j = true → FullOK s j ∨ Desc s i j)
    (hfree : ∀ j, s.alive j = true → FreeOK s j ∨ Desc s i j) :
    (∃ s', refresh cfg i s = .error .recursionError s' ∧ ¬ Term s cfg.limit i) ∨
    (∃ s', refresh cfg i s = .ok () s' ∧ Static s s' ∧ Term s cfg.limit i ∧
      (∀ j, s.alive j = true → FullOK s' j) ∧ (∀ j, s.alive j = true → FreeOK s' j) ∧
      (∀ j, Desc s i j → (s'.obj j).newX = true ∧ (s.obj j).bells < (s'.obj j).bells) ∧
      (∀ j, (s.obj j).newX = true → (s'.obj j).newX = true) ∧ (∀ j, (s.obj j).bells ≤ (s'.obj j).bells) ∧
      (∀ j, (s'.obj j).ext = (s.obj j).ext)) := by
  unfold refresh
  simp only [run_bind]
  rcases walkM_cases cfg localAct_full i s with ⟨s1, h1, w1⟩ | ⟨h1, n1⟩
  · simp only [h1]
    have st1 := walk_static localAct_full w1
    rcases walkM_cases cfg localAct_free i s1 with ⟨s2, h2, w2⟩ | ⟨h2, n2⟩
    · simp only [h2]
      obtain ⟨st2, free2, fld2⟩ := walk_free_spec w2
      rcases walkM_cases cfg localAct_flag i s2 with ⟨s3, h3, w3⟩ | ⟨h3, n3⟩
      · right
        obtain ⟨st3, fl3, nx3, mono3, fld3⟩ := walk_flag_spec w3
        refine ⟨s3, h3, st1.trans (st2.trans st3), walk_term localAct_full _ _ _ _ w1, ?_, ?_, ?_, ?_, ?_, ?_⟩
        · intro j hj
          have f1 : FullOK s1 j := walk_full_ok _ _ _ _ w1 hl j hj (hfull j hj)
          have f2 : FullOK s2 j := f1.of_fields st2 (fun j => ⟨(fld2 j).1, (fld2 j).2.1, (fld2 j).2.2.1, (fld2 j).2.2.2.1⟩)
          exact f2.of_fields st3 (fun j => ⟨(fld3 j).1, (fld3 j).2.1, (fld3 j).2.2.1, (fld3 j).2.2.2.1⟩)
        · intro j hj
          have f2 : FreeOK s2 j := by
            by_cases hd : Desc s i j
            · exact free2 j (Or.inr (by rw [st1.desc]; exact hd))
            · apply free2 j; left
              have ho := walk_other localAct_full _ _ _ _ w1 j hd
              have := (hfree j hj).resolve_right hd
              exact this.congr st1 (by rw [ho]) (by rw [ho]) (by rw [ho])
          exact f2.congr st3 (fld3 j).2.1 (fld3 j).2.2.2.2.1 (fld3 j).2.2.2.2.2.1
        · intro j hj
          have fb : ∀ j, (s1.obj j).bells = (s.obj j).bells ∧ (s1.obj j).newX = (s.obj j).newX := by
            intro j
            refine walk_inv (fun t => (t.obj j).bells = (s.obj j).bells ∧ (t.obj j).newX = (s.obj j).newX)
              (fun t k h => ?_) _ _ _ _ w1 ⟨rfl, rfl⟩
            obtain ⟨_, _, _, g4, g5⟩ := actFull_fields t k j
            exact ⟨g5.trans h.1, g4.trans h.2⟩
          have hd3 : Desc s2 i j := by rw [st2.desc, st1.desc]; exact hj
          have := fl3 j hd3
          rw [(fld2 j).2.2.2.2.2.2, (fb j).1] at this
          exact this
        · intro j h
          have fb : (s1.obj j).newX = (s.obj j).newX :=
            walk_inv (fun t => (t.obj j).newX = (s.obj j).newX)
              (fun t k h => (actFull_fields t k j).2.2.2.1.trans h) _ _ _ _ w1 rfl
          exact nx3 j (by rw [(fld2 j).2.2.2.2.2.1, fb]; exact h)
        · intro j
          have fb : (s1.obj j).bells = (s.obj j).bells :=
            walk_inv (fun t => (t.obj j).bells = (s.obj j).bells)
              (fun t k h => (actFull_fields t k j).2.2.2.2.trans h) _ _ _ _ w1 rfl
          have := mono3 j
          rw [(fld2 j).2.2.2.2.2.2, fb] at this
          exact this
        · intro j
          have fb : (s1.obj j).ext = (s.obj j).ext :=
            walk_inv (fun t => (t.obj j).ext = (s.obj j).ext)
              (fun t k h => (actFull_fields t k j).2.2.1.trans h) _ _ _ _ w1 rfl
          rw [(fld3 j).2.2.2.2.2.2, (fld2 j).2.2.2.2.1, fb]
      · left; exact ⟨s2, by simp [h3], fun ht => n3 (ht.congr (st1.trans st2).symm)⟩
    · left; exact ⟨s1, by simp [h2], fun ht => n2 (ht.congr st1.symm)⟩
  · left; exact ⟨s, by simp [h1], n1⟩

end Simsopt.Graph
