import Verif.LeastSquares.Props
/-!
# Properties C30 (sum of two problems) and C47 (which functions `depends_on`/`opt_return_fns` select)
-/
namespace Simsopt.LSq
open Simsopt
open Simsopt.Graph (State Cfg Op Reachable SameInputs Step Inv NameInj ShuffleOK DependsOn Notified)
variable {V R : Type} {cfg : Cfg V}

/-- The functions `m` of `a`, for all blocks `(a, [m, ...])`, block by block. -/
def flat (blocks : List (Nat × List (Method V R))) : List (Bound V R) :=
  blocks.flatMap fun b => b.2.map fun m => ⟨b.1, .fn m⟩

/-- A problem that evaluates the blocks in order, with one parent per block, and whose parents remember the methods of their block for it:
    what its construction leaves behind, see `C30_funcs_in_blocks` and `C30_sum_blocks`. -/
def Blocks (reg : Registry V R) (g : State V) (p : Prob V R) (blocks : List (Nat × List (Method V R))) : Prop :=
  p.funcs = flat blocks ∧ (g.obj p.self).parents = blocks.map (·.1) ∧ ∀ b ∈ blocks, reg b.1 p.self = b.2 ∧ b.2 ≠ []

/-- What the methods of `a` in the blocks are. -/
def methodsOf (a : Nat) (blocks : List (Nat × List (Method V R))) : List (Method V R) :=
  blocks.flatMap fun b => if b.1 = a then b.2 else []

/-- `reg'` extends `reg` by the methods of the blocks, under child `c`. -/
def Registers (reg : Registry V R) (c : Nat) (blocks : List (Nat × List (Method V R))) (reg' : Registry V R) : Prop :=
  ∀ a b, reg' a b = reg a b ++ if b = c then methodsOf a blocks else []

theorem Registers.refl (reg : Registry V R) (c : Nat) : Registers reg c [] reg := by
  intro a b; simp [methodsOf]

theorem Registers.trans {reg reg1 reg2 : Registry V R} {c : Nat} {b1 b2 : List (Nat × List (Method V R))} (h1 : Registers reg c b1 reg1)
    (h2 : Registers reg1 c b2 reg2) : Registers reg c (b1 ++ b2) reg2 := by
  intro a b
  rw [h2, h1]
  by_cases hb : b = c
  · simp [hb, methodsOf, List.append_assoc]
  · simp [hb]

theorem Registers.push (reg : Registry V R) (a c : Nat) (m : Method V R) : Registers reg c [(a, [m])] (reg.push a c m) := by
  intro a' b
  unfold Registry.push methodsOf
  by_cases h1 : a' = a <;> by_cases h2 : b = c
  · simp [h1, h2]
  · simp [h1, h2]
  · simp [h1, h2, Ne.symm h1]
  · simp [h1, h2]

theorem Registers.merge {reg reg' : Registry V R} {a c : Nat} {ms : List (Method V R)}
    (h : Registers reg c (ms.map fun m => (a, [m])) reg') : Registers reg c [(a, ms)] reg' := by
  intro a' b
  rw [h]
  congr 1
  split
  · unfold methodsOf
    by_cases ha : a = a'
    · simp only [List.flatMap_map, ha, if_true, List.flatMap_singleton']
      simp
    · simp [ha]
  · rfl

theorem linkFns_given (fm : FnMap V R) (c a : Nat) : ∀ (ms : List (Method V R)) (reg : Registry V R),
    ∃ reg', linkFns fm c a (ms.map RetFn.fn) reg = .ok (reg', ms.map fun m => ⟨a, .fn m⟩) ∧ Registers reg c [(a, ms)] reg' := by
  intro ms
  suffices h : ∀ (ms : List (Method V R)) (reg : Registry V R), ∃ reg', linkFns fm c a (ms.map RetFn.fn) reg = .ok (reg', ms.map fun m => ⟨a, .fn m⟩) ∧
      Registers reg c (ms.map fun m => (a, [m])) reg' by
    intro reg; obtain ⟨reg', h1, h2⟩ := h ms reg; exact ⟨reg', h1, h2.merge⟩
  clear ms
  intro ms
  induction ms with
  | nil => intro reg; exact ⟨reg, rfl, Registers.refl _ _⟩
  | cons m ms ih =>
    intro reg
    obtain ⟨reg', h1, h2⟩ := ih (reg.push a c m)
    refine ⟨reg', ?_, (Registers.push reg a c m).trans h2⟩
    unfold linkFns
    simp only [List.map_cons, bind, Except.bind]
    unfold addReturnFn
    simp only [h1]

/-- With a non-empty list of methods for every parent the constructor evaluates exactly these. -/
theorem linkDepends_given (fm : FnMap V R) (c : Nat) (opt : List (List (RetFn V R))) : ∀ (blocks : List (Nat × List (Method V R))) (i : Nat) (reg : Registry V R),
    opt.drop i = blocks.map (fun b => b.2.map RetFn.fn) → (∀ b ∈ blocks, b.2 ≠ []) →
    ∃ reg', linkDepends fm c opt i (blocks.map (·.1)) reg = .ok (reg', flat blocks) ∧ Registers reg c blocks reg' := by
  intro blocks
  induction blocks with
  | nil => intro i reg _ _; exact ⟨reg, rfl, Registers.refl _ _⟩
  | cons b blocks ih =>
    intro i reg ho hne
    have hi : i < opt.length := by
      by_contra hc
      rw [List.drop_eq_nil_of_le (by omega)] at ho; cases ho
    rw [List.drop_eq_getElem_cons hi] at ho
    simp only [List.map_cons, List.cons.injEq] at ho
    obtain ⟨ho1, ho2⟩ := ho
    have hb := hne b List.mem_cons_self
    have hf : fnsAt fm opt i b.1 = .ok (b.2.map RetFn.fn) := by
      unfold fnsAt
      rw [if_neg (by cases opt with
        | nil => cases hi
        | cons _ _ => simp), List.getElem?_eq_getElem hi]
      simp only [ho1]
      rw [if_neg (by simpa using hb)]
    obtain ⟨reg1, h1, h2⟩ := linkFns_given fm c b.1 b.2 reg
    obtain ⟨reg2, h3, h4⟩ := ih (i + 1) reg1 ho2 (fun b hb => hne b (List.mem_cons_of_mem _ hb))
    refine ⟨reg2, ?_, h2.trans h4⟩
    simp only [List.map_cons]
    unfold linkDepends
    simp only [bind, Except.bind, hf, h1, h3]
    rfl

theorem linkFuncs_given (c : Nat) : ∀ (blocks : List (Nat × List (Method V R))) (reg : Registry V R),
    Registers reg c blocks (linkFuncs c (flat blocks) reg) := by
  have inner : ∀ (a : Nat) (ms : List (Method V R)) (rest : List (Bound V R)) (reg : Registry V R),
      ∃ reg1, linkFuncs c (ms.map (fun m => ⟨a, .fn m⟩) ++ rest) reg = linkFuncs c rest reg1 ∧ Registers reg c (ms.map fun m => (a, [m])) reg1 := by
    intro a ms rest
    induction ms with
    | nil => intro reg; exact ⟨reg, rfl, Registers.refl _ _⟩
    | cons m ms ih =>
      intro reg
      obtain ⟨reg1, h1, h2⟩ := ih (reg.push a c m)
      exact ⟨reg1, h1, (Registers.push reg a c m).trans h2⟩
  intro blocks
  induction blocks with
  | nil => intro reg; exact Registers.refl _ _
  | cons b blocks ih =>
    intro reg
    obtain ⟨reg1, h1, h2⟩ := inner b.1 b.2 (flat blocks) reg
    have e : flat (b :: blocks) = b.2.map (fun m => ⟨b.1, .fn m⟩) ++ flat blocks := by simp [flat]
    rw [e, h1]
    exact h2.merge.trans (ih reg1)

theorem methodsOf_nodup : ∀ {blocks : List (Nat × List (Method V R))}, (blocks.map (·.1)).Nodup → ∀ b ∈ blocks, methodsOf b.1 blocks = b.2
  | [], _, b, hb => by cases hb
  | b0 :: blocks, hnd, b, hb => by
    simp only [List.map_cons, List.nodup_cons] at hnd
    have e : methodsOf b.1 (b0 :: blocks) = (if b0.1 = b.1 then b0.2 else []) ++ methodsOf b.1 blocks := by simp [methodsOf]
    have none : ∀ {a : Nat} {l : List (Nat × List (Method V R))}, a ∉ l.map (·.1) → methodsOf a l = [] := by
      intro a l ha
      unfold methodsOf
      rw [List.flatMap_eq_nil_iff]
      intro c hc
      rw [if_neg]
      rintro rfl
      exact ha (List.mem_map_of_mem hc)
    rw [e]
    rcases List.mem_cons.mp hb with rfl | hb
    · rw [if_pos rfl, none hnd.1, List.append_nil]
    · rw [if_neg, List.nil_append, methodsOf_nodup hnd.2 b hb]
      intro he
      exact hnd.1 (by rw [he]; exact List.mem_map_of_mem hb)

theorem dedup_blocks (key : Nat → String) : ∀ (blocks : List (Nat × List (Method V R))) (acc : List Nat), (∀ b ∈ blocks, b.2 ≠ []) →
    ((acc ++ blocks.map (·.1)).map key).Nodup →
    ((flat blocks).map (·.owner)).foldl (fun acc a => if acc.any (fun b => key b = key a) then acc else acc ++ [a]) acc = acc ++ blocks.map (·.1)
  | [], acc, _, _ => by simp [flat]
  | b :: blocks, acc, hne, hnd => by
    have e : (flat (b :: blocks)).map (·.owner) = List.replicate b.2.length b.1 ++ (flat blocks).map (·.owner) := by
      simp [flat, Function.comp_def, List.map_const']
    have same : ∀ (n : Nat) (acc : List Nat), b.1 ∈ acc →
        (List.replicate n b.1).foldl (fun acc a => if acc.any (fun b => key b = key a) then acc else acc ++ [a]) acc = acc := by
      intro n
      induction n with
      | zero => intro acc _; rfl
      | succ n ih =>
        intro acc hm
        rw [List.replicate_succ, List.foldl_cons, if_pos (List.any_eq_true.mpr ⟨b.1, hm, by simp⟩)]
        exact ih acc hm
    have hb := hne b List.mem_cons_self
    obtain ⟨n, hn⟩ : ∃ n, b.2.length = n + 1 := by
      cases h : b.2 with
      | nil => exact absurd h hb
      | cons _ t => exact ⟨t.length, rfl⟩
    rw [e, List.foldl_append, hn, List.replicate_succ, List.foldl_cons, if_neg, same n _ (by simp)]
    · rw [dedup_blocks key blocks (acc ++ [b.1]) (fun c hc => hne c (List.mem_cons_of_mem _ hc)) (by simpa using hnd)]
      simp
    · intro hc
      obtain ⟨c, hc, he⟩ := List.any_eq_true.mp hc
      have he : key c = key b.1 := by simpa using he
      rw [List.map_append, List.map_cons, List.map_cons] at hnd
      have := (List.nodup_append.mp hnd).2.2 (key c) (List.mem_map_of_mem hc) (key b.1) List.mem_cons_self
      exact this he

section
variable [Field R] [LinearOrder R]

/-- A problem constructed from functions listed one (non-empty) block per owner satisfies `Blocks`. -/
theorem C30_funcs_in_blocks (hn : NameInj cfg) (hsh : ShuffleOK cfg) {g : State V} (hr : Reachable cfg g) {cls : Nat} {fm : FnMap V R}
    {reg reg' : Registry V R} (hreg : ∀ a, reg a g.nobj = []) {goals weights : NumArg R} {blocks : List (Nat × List (Method V R))} {fail : Option R}
    (hs : ∀ b ∈ blocks, g.alive b.1 = true) (hne : ∀ b ∈ blocks, b.2 ≠ []) (hnd : (blocks.map (·.1)).Nodup)
    {w0 : World V R} (he : create cfg cls fm reg g goals weights (.funcs (flat blocks)) fail = .ok (w0, reg')) :
    Blocks reg' w0.g w0.p blocks := by
  have hs' : ∀ f ∈ flat blocks, g.alive f.owner = true := by
    intro f hf
    simp only [flat, List.mem_flatMap, List.mem_map] at hf
    obtain ⟨b, hb, m, _, rfl⟩ := hf
    exact hs b hb
  obtain ⟨_, _, _, _, _, _, _, _, _, _, _, _, h1, _, _, _, h2, h3, h4⟩ := create_ok hn hsh hr (src := .funcs (flat blocks)) hs' he
  have hi := hr.inv hn hsh
  refine ⟨h2, ?_, fun b hb => ⟨?_, hne b hb⟩⟩
  · rw [h4]
    have hk : ((blocks.map (·.1)).map (fun a => (g.obj a).name)).Nodup := by
      refine List.Nodup.map_on ?_ hnd
      intro a ha b hb hab
      obtain ⟨x, hx, rfl⟩ := List.mem_map.mp ha
      obtain ⟨y, hy, rfl⟩ := List.mem_map.mp hb
      exact hi.graph.name_inj hn (hi.graph.lt _ (hs x hx)) (hi.graph.lt _ (hs y hy)) hab
    have := dedup_blocks (fun a => (g.obj a).name) blocks [] hne (by simpa using hk)
    simpa [Graph.dedupOn] using this
  · rw [h3, h1, (linkFuncs_given g.nobj blocks reg) b.1 g.nobj, hreg, if_pos rfl, List.nil_append, methodsOf_nodup hnd b hb]

/-- The sum of two such problems evaluates the functions of the first, then those of the second, with the goals and weights of both; it is
    again such a problem if no object is a parent of both. -/
theorem C30_sum_blocks (hn : NameInj cfg) (hsh : ShuffleOK cfg) {g : State V} (hr : Reachable cfg g) {cls : Nat} {fm : FnMap V R}
    {reg reg' : Registry V R} {p q : Prob V R} {bp bq : List (Nat × List (Method V R))} (hp : Blocks reg g p bp) (hq : Blocks reg g q bq)
    (hpa : g.alive p.self = true) (hqa : g.alive q.self = true)
    {w0 : World V R} (he : add cfg cls fm reg g p q = .ok (w0, reg')) :
    w0.p.funcs = p.funcs ++ q.funcs ∧ w0.p.goals = p.goals ++ q.goals ∧ w0.p.inpWeights = p.inpWeights ++ q.inpWeights ∧
    (∃ a b, p.fail = some a ∧ q.fail = some b ∧ w0.p.fail = some (max a b)) ∧
    ((∀ a, reg a g.nobj = []) → (bp.map (·.1) ++ bq.map (·.1)).Nodup → Blocks reg' w0.g w0.p (bp ++ bq)) := by
  have hi := hr.inv hn hsh
  unfold add at he
  cases hpf : p.fail with
  | none => rw [hpf] at he; cases he
  | some a =>
    cases hqf : q.fail with
    | none => rw [hpf, hqf] at he; cases he
    | some b =>
      rw [hpf, hqf] at he
      simp only at he
      have hal : ∀ x ∈ (g.obj p.self).parents ++ (g.obj q.self).parents, g.alive x = true := by
        intro x hx
        rcases List.mem_append.mp hx with hx | hx
        · exact hi.graph.parAlive _ _ hpa hx
        · exact hi.graph.parAlive _ _ hqa hx
      obtain ⟨_, _, _, _, h5, h6, h7, _, _, _, _, _, h8, _, _, _, h9, h10⟩ := create_ok hn hsh hr (src := .depends _ _) hal he
      have hopt : ∀ {p : Prob V R} {bp}, Blocks reg g p bp → parentFns reg g p.self = bp.map (fun b => b.2.map RetFn.fn) := by
        intro p bp hp
        unfold parentFns
        rw [hp.2.1, List.map_map]
        apply List.map_congr_left
        intro b hb
        simp only [Function.comp, (hp.2.2 b hb).1]
      have hps : (g.obj p.self).parents ++ (g.obj q.self).parents = (bp ++ bq).map (·.1) := by rw [hp.2.1, hq.2.1, List.map_append]
      rw [hps] at h9 h10
      obtain ⟨reg2, e1, e2⟩ := linkDepends_given fm g.nobj (parentFns reg g p.self ++ parentFns reg g q.self) (bp ++ bq) 0 reg
        (by rw [List.drop_zero, hopt hp, hopt hq, List.map_append])
        (by intro x hx; rcases List.mem_append.mp hx with hx | hx
            · exact (hp.2.2 x hx).2
            · exact (hq.2.2 x hx).2)
      rw [e1] at h9
      injection h9 with h9; injection h9 with h9 h9'
      subst h9
      refine ⟨by rw [← h9', hp.1, hq.1]; simp [flat], h5, h6, ⟨a, b, rfl, rfl, h7⟩, fun hreg hnd => ⟨h9'.symm, h10, fun x hx => ⟨?_, ?_⟩⟩⟩
      · rw [h8, e2 x.1 g.nobj, hreg, if_pos rfl, List.nil_append, methodsOf_nodup (by rw [List.map_append]; exact hnd) x hx]
      · rcases List.mem_append.mp hx with hx | hx
        · exact (hp.2.2 x hx).2
        · exact (hq.2.2 x hx).2

theorem weightedSquares_append (g1 g2 w1 w2 : List R) (o1 o2 : List (List R)) (h1 : o1.length = g1.length) (h2 : o1.length = w1.length) :
    weightedSquares (g1 ++ g2) (w1 ++ w2) (o1 ++ o2) = weightedSquares g1 w1 o1 + weightedSquares g2 w2 o2 := by
  unfold weightedSquares
  rw [List.zip_append (h1.symm.trans h2), List.zip_append (by rw [List.length_zip, ← h1, ← h2]; simp), List.map_append, List.sum_append]

/-- C30 for problems satisfying `Blocks` with one goal and one weight per function: after any histories of the three problems that meet in the
    same store, the objective of the sum is the sum of the objectives.  The full statement has no condition on how the functions are listed; it is false,
    see `C30_interleaved_violated` and `C30_repeated_parent_violated`. -/
theorem C30_sum_objective (hn : NameInj cfg) (hsh : ShuffleOK cfg) {cls : Nat} {fm : FnMap V R} {reg reg' : Registry V R}
    {g0 : State V} {p q : Prob V R} {bp bq : List (Nat × List (Method V R))} {s0 : World V R}
    (hp : Blocks reg g0 p bp) (hq : Blocks reg g0 q bq) (hpl : p.funcs.length = p.goals.length ∧ p.funcs.length = p.inpWeights.length)
    (hpa : g0.alive p.self = true) (hqa : g0.alive q.self = true) (hr0 : Reachable cfg g0)
    (hadd : add cfg cls fm reg g0 p q = .ok (s0, reg'))
    {sqrt : R → R} {p0 q0 : World V R} {g : State V} {p' q' s : Prob V R} {b1 b2 b3 : Bool}
    (hp0 : Created cfg p0) (hq0 : Created cfg q0)
    (hpp : p0.p.funcs = p.funcs ∧ p0.p.goals = p.goals ∧ p0.p.inpWeights = p.inpWeights)
    (hqq : q0.p.funcs = q.funcs ∧ q0.p.goals = q.goals ∧ q0.p.inpWeights = q.inpWeights)
    (hhp : Hist cfg sqrt True p0 ⟨g, p'⟩ b1) (hhq : Hist cfg sqrt True q0 ⟨g, q'⟩ b2) (hhs : Hist cfg sqrt True s0 ⟨g, s⟩ b3)
    {vp vq vs : R} {w1 w2 w3 : World V R} (hep : objective cfg none ⟨g, p'⟩ = .ok vp w1) (heq : objective cfg none ⟨g, q'⟩ = .ok vq w2)
    (hes : objective cfg none ⟨g, s⟩ = .ok vs w3) {o1 o2 : List (List R)} (hr1 : Returns p.funcs g o1) (hr2 : Returns q.funcs g o2) :
    vs = vp + vq := by
  obtain ⟨f1, f2, f3, _, _⟩ := C30_sum_blocks hn hsh hr0 hp hq hpa hqa hadd
  have after : ∀ {w0 : World V R} {pr : Prob V R} {b : Bool} {v : R} {w' : World V R} {outs : List (List R)}, Created cfg w0 →
      Hist cfg sqrt True w0 ⟨g, pr⟩ b → objective cfg none ⟨g, pr⟩ = .ok v w' → Returns w0.p.funcs g outs →
      v = weightedSquares w0.p.goals w0.p.inpWeights outs := by
    intro w0 pr b v w' outs hc hh he hret
    have hi := hh.inv hn hsh hc
    have hs3 : pr.funcs = w0.p.funcs := hi.same.2.2.1
    have ho := unweighted_out hn hsh hi.inv none
    have hw : ∀ f ∈ pr.funcs, f.call w'.g = f.call g := by
      rw [objective_eq] at he
      cases hu : unweighted cfg none (⟨g, pr⟩ : World V R) with
      | error e w1 => rw [hu] at he; cases he
      | ok r w1 =>
        rw [hu] at he ho
        have hcong := (ho.2.2.2.2.2.2 rfl).1
        simp only at he
        have : w1 = w' := by
          split at he
          · split at he <;> cases he; rfl
          · split at he <;> cases he; rfl
        subst this
        exact hcong
    refine C26_objective_is_weighted_squares hn hsh hc hh he (hret.congr ?_)
    rw [← hs3]; exact hw
  have hsc : Created cfg s0 := by
    unfold add at hadd
    split at hadd
    · rename_i a b ha hb
      refine ⟨g0, cls, fm, reg, _, _, _, _, reg', hr0, ?_, hadd, ?_⟩
      · intro x hx
        have hi := hr0.inv hn hsh
        rcases List.mem_append.mp hx with hx | hx
        · exact hi.graph.parAlive _ _ hpa hx
        · exact hi.graph.parAlive _ _ hqa hx
      · rw [f1, ← hpp.1, ← hqq.1]
        intro f hf
        rcases List.mem_append.mp hf with hf | hf
        · exact (hp0.inv hn hsh).1.loc f hf
        · exact (hq0.inv hn hsh).1.loc f hf
    · cases hadd
  rw [after hsc hhs hes (by rw [f1]; exact hr1.append hr2), after hp0 hhp hep (by rw [hpp.1]; exact hr1),
    after hq0 hhq heq (by rw [hqq.1]; exact hr2), f2, f3, hpp.2.1, hpp.2.2, hqq.2.1, hqq.2.2]
  exact weightedSquares_append _ _ _ _ _ _ (by rw [hr1.length]; exact hpl.1) (by rw [hr1.length]; exact hpl.2)

/-! ### C47 -/

/-- C47: with callables in `opt_return_fns`, one non-empty list per parent, the problem evaluates exactly these, parent by parent. -/
theorem C47_callables_selected (hn : NameInj cfg) (hsh : ShuffleOK cfg) {g : State V} (hr : Reachable cfg g) {cls : Nat} {fm : FnMap V R}
    {reg reg' : Registry V R} {goals weights : NumArg R} {blocks : List (Nat × List (Method V R))} {fail : Option R}
    (hs : ∀ b ∈ blocks, g.alive b.1 = true) (hne : ∀ b ∈ blocks, b.2 ≠ []) {w0 : World V R}
    (he : create cfg cls fm reg g goals weights (.depends (blocks.map (·.1)) (blocks.map fun b => b.2.map RetFn.fn)) fail = .ok (w0, reg')) :
    w0.p.funcs = flat blocks := by
  have hs' : ∀ a ∈ blocks.map (·.1), g.alive a = true := by
    intro a ha; obtain ⟨b, hb, rfl⟩ := List.mem_map.mp ha; exact hs b hb
  obtain ⟨_, _, _, _, _, _, _, _, _, _, _, _, _, _, _, _, h9, _⟩ := create_ok hn hsh hr (src := .depends _ _) hs' he
  obtain ⟨reg2, e1, _⟩ := linkDepends_given fm g.nobj (blocks.map fun b => b.2.map RetFn.fn) blocks 0 reg (List.drop_zero) hne
  rw [e1] at h9
  injection h9 with h9; injection h9 with _ h9
  exact h9.symm

/-- C47: without `opt_return_fns` it evaluates all functions that the classes of the parents offer. -/
theorem C47_default_is_all (hn : NameInj cfg) (hsh : ShuffleOK cfg) {g : State V} (hr : Reachable cfg g) {cls : Nat} {fm : FnMap V R}
    {reg reg' : Registry V R} {goals weights : NumArg R} {ps : List Nat} {fail : Option R}
    (hs : ∀ a ∈ ps, g.alive a = true) {w0 : World V R}
    (he : create cfg cls fm reg g goals weights (.depends ps []) fail = .ok (w0, reg')) :
    w0.p.funcs = flat (ps.map fun a => (a, (fm a).map (·.2))) := by
  obtain ⟨_, _, _, _, _, _, _, _, _, _, _, _, _, _, _, _, h9, _⟩ := create_ok hn hsh hr (src := .depends _ _) hs he
  have key : ∀ (ps : List Nat) (i : Nat) (reg : Registry V R), ∃ reg', linkDepends fm g.nobj [] i ps reg =
      .ok (reg', flat (ps.map fun a => (a, (fm a).map (·.2)))) := by
    intro ps
    induction ps with
    | nil => intro i reg; exact ⟨reg, rfl⟩
    | cons a ps ih =>
      intro i reg
      have hf : fnsAt fm ([] : List (List (RetFn V R))) i a = .ok (((fm a).map (·.2)).map RetFn.fn) := by
        unfold fnsAt; simp [Function.comp_def]
      obtain ⟨reg1, h1, _⟩ := linkFns_given fm g.nobj a ((fm a).map (·.2)) reg
      obtain ⟨reg2, h2⟩ := ih (i + 1) reg1
      refine ⟨reg2, ?_⟩
      unfold linkDepends
      simp only [bind, Except.bind, hf, h1, h2]
      rfl
  obtain ⟨reg2, e1⟩ := key ps 0 reg
  rw [e1] at h9
  injection h9 with h9; injection h9 with _ h9
  exact h9.symm

end
end Simsopt.LSq
