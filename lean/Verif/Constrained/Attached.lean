import Verif.LeastSquares.Inv
/-! Helper lemmas: an Optimizable together with bound methods of its parents. -/
namespace Simsopt.Constrained
open Simsopt Simsopt.LSq
open Simsopt.Graph (State Cfg Op Reachable SameInputs Step Inv NameInj ShuffleOK DependsOn Notified)
variable {V R : Type} {cfg : Cfg V}

/-- `me` is alive and a child of the owners of the functions, which read only their owners' inputs. -/
structure Attached (cfg : Cfg V) (g : State V) (me : Nat) (funcs : List (Bound V R)) : Prop where
  reach : Reachable cfg g
  alive : g.alive me = true
  att : ∀ f ∈ funcs, f.owner ∈ (g.obj me).parents
  loc : ∀ f ∈ funcs, ReadsInputs cfg f

theorem Attached.calls_same (hn : NameInj cfg) (hsh : ShuffleOK cfg) {g : State V} {me : Nat} {funcs : List (Bound V R)} (h : Attached cfg g me funcs)
    {g' : State V} (hr' : Reachable cfg g') (ha' : g'.alive me = true) (hs : SameInputs g g' me) : ∀ f ∈ funcs, f.call g' = f.call g := by
  intro f hf
  have hi := h.reach.inv hn hsh
  have hi' := hr'.inv hn hsh
  have hp := h.att f hf
  have hd : DependsOn g me f.owner := Or.inr (Relation.TransGen.single ⟨h.alive, hp⟩)
  have hp' : f.owner ∈ (g'.obj me).parents := by rw [(hs _ (Or.inl rfl)).2.1]; exact hp
  exact h.loc f hf g g' h.reach hr' (hi.graph.parAlive _ _ h.alive hp) (hi'.graph.parAlive _ _ ha' hp') (hs.of_dep hd)

/-- One API call on any object: either the flag of `me` is up afterwards, or nothing that the functions read has changed. -/
theorem Attached.graph (hn : NameInj cfg) (hsh : ShuffleOK cfg) {g : State V} {me : Nat} {funcs : List (Bound V R)} (h : Attached cfg g me funcs)
    {op : Op V} (hsafe : op.Safe g) (hne : op ≠ .clearNewX me) {g' : State V} (hst : Step cfg g op g') (ha' : g'.alive me = true)
    (hatt : ∀ f ∈ funcs, f.owner ∈ (g'.obj me).parents) :
    Attached cfg g' me funcs ∧ ((g'.obj me).newX = false → (g.obj me).newX = false ∧ ∀ f ∈ funcs, f.call g' = f.call g) := by
  have hr' : Reachable cfg g' := .step h.reach hsafe hst
  refine ⟨⟨hr', ha', hatt, h.loc⟩, fun hx => ?_⟩
  obtain ⟨h1, h2⟩ := Graph.step_inputs hn hsh (h.reach.inv hn hsh) hsafe hst h.alive
  refine ⟨?_, ?_⟩
  · by_contra hc
    have := h2 hne (by simpa using hc)
    rw [hx] at this; cases this
  · rcases h1 with hN | hs
    · have := hN.1; rw [hx] at this; cases this
    · exact h.calls_same hn hsh hr' ha' hs

/-- `me.x = v` -/
theorem Attached.setX (hn : NameInj cfg) (hsh : ShuffleOK cfg) {g : State V} {me : Nat} {funcs : List (Bound V R)} (h : Attached cfg g me funcs)
    (v : List V) :
    match Graph.setX cfg me v g with
    | .ok _ g' => Attached cfg g' me funcs ∧ Graph.getX g' me = v ∧
        ((g'.obj me).newX = false → (g.obj me).newX = false ∧ ∀ f ∈ funcs, f.call g' = f.call g)
    | .error e g' => e = .recursionError ∨ (e = .valueError ∧ g' = g) := by
  have hex : Graph.exec cfg (.setX me v) g = Graph.setX cfg me v g := rfl
  rcases Graph.setX_outcome hn hsh h.reach me h.alive v with ⟨_, e⟩ | ⟨_, ⟨s1, e, _⟩ | ⟨s1, e, hi1, vr, hv, _⟩⟩
  · rw [hex] at e; rw [e]; exact Or.inr ⟨rfl, rfl⟩
  · rw [hex] at e; rw [e]; exact Or.inl rfl
  · have e' := e
    rw [hex] at e; rw [e]
    have st := vr.flag.static
    obtain ⟨h1, h2⟩ := h.graph hn hsh (op := .setX me v) h.alive (by intro hc; cases hc) (Or.inl e') (by rw [vr.alive]; exact h.alive)
      (by intro f hf; rw [st.parents]; exact h.att f hf)
    refine ⟨h1, ?_, h2⟩
    unfold Graph.getX
    rw [(vr.flag.fields _).2.1]
    simp only [st.dofs]
    exact hv

/-- the store after `me.new_x = False` -/
def lower (g : State V) (me : Nat) : State V := g.setObj me { g.obj me with newX := false }

theorem Attached.lower (hn : NameInj cfg) (hsh : ShuffleOK cfg) {g : State V} {me : Nat} {funcs : List (Bound V R)} (h : Attached cfg g me funcs) :
    Attached cfg (lower g me) me funcs ∧ ((Constrained.lower g me).obj me).newX = false ∧
    (∀ f ∈ funcs, f.call (Constrained.lower g me) = f.call g) ∧ (Constrained.lower g me).dof = g.dof ∧
    Graph.getX (Constrained.lower g me) me = Graph.getX g me := by
  have hr : Reachable cfg (Constrained.lower g me) := .step (op := .clearNewX me) h.reach trivial (Or.inl rfl)
  have hc : Graph.Cleared g (Constrained.lower g me) := ⟨_, rfl⟩
  have sm := hc.static
  have ha : (Constrained.lower g me).alive me = true := by rw [sm.alive]; exact h.alive
  refine ⟨⟨hr, ha, ?_, h.loc⟩, ?_, ?_, sm.dof, ?_⟩
  · intro f hf; rw [sm.parents]; exact h.att f hf
  · show (Graph.upd g.obj me _ me).newX = false
    rw [Graph.upd_same]
  · exact h.calls_same hn hsh hr ha (fun a _ => ⟨sm.name a, sm.parents a, sm.dofs a, by rw [sm.dof], by rw [sm.dof]⟩)
  · unfold Graph.getX
    rw [hc.field Graph.Obj.uniq (fun _ _ => rfl) me, sm.dof]
    simp only [sm.dofs]

end Simsopt.Constrained
