import Verif.Caches.ClassesVal
/-!
# C39, C40: cached quantities of curves and fields are those of the current dofs and points
-/
namespace Simsopt.Caches
open Simsopt
open Simsopt.Graph (State Cfg Op DependsOn SameInputs MirrorInSync NameInj ShuffleOK)
variable {V P X : Type} {M : Math V P X} {kind : Nat → Kind V}

/-- Histories of curves, currents, coils and fields. -/
abbrev FHist (cfg : Cfg V) (M : Math V P X) (kind : Nat → Kind V) (p0 : P) : World V P Qty X → Prop :=
  Hist cfg (sys M kind) (fun o => (kind o).isField = true) (Linked kind) p0

theorem linked_empty : Linked kind (State.empty : State V) := by
  intro o ho; cases ho

theorem FHist.val {cfg : Cfg V} (hn : NameInj cfg) (hsh : ShuffleOK cfg) (hwk : WellKinded kind) (hpl : PersistLinear M) {p0 : P}
    {w : World V P Qty X} (h : FHist cfg M kind p0 w) {o : Nat} {q : Qty} {x : X} (ho : w.g.alive o = true)
    (hf : Fresh (sys M kind) w.g (w.pts o) o q x) : Val M kind w.g (w.pts o) o q x := by
  have hi := h.inv (sys_sound M kind hwk hpl) hn hsh linked_empty
  exact fresh_val hwk hi.link (Graph.C42_mirror_in_sync hn hsh hi.reach) ho hf

/-- C39: after any history, an evaluation of a curve, rotated or not, that returns gives the value of the current dofs. -/
theorem C39_curve_values {cfg : Cfg V} (hn : NameInj cfg) (hsh : ShuffleOK cfg) (hwk : WellKinded kind) (hpl : PersistLinear M) {p0 : P}
    {w : World V P Qty X} (h : FHist cfg M kind p0 w) {o : Nat} (ho : w.g.alive o = true) (hc : (kind o).isField = false) {n : Nat} {q : Qty}
    {x : X} {w' : World V P Qty X} (he : eval (sys M kind) n o q w = (some x, w')) : Val M kind w.g (w.pts o) o q x := by
  refine h.val hn hsh hwk hpl ho (h.eval_fresh (sys_sound M kind hwk hpl) hn hsh linked_empty ho ?_ he)
  intro c hcw
  cases hcw with
  | refl => rfl
  | step hm _ =>
    have := (sys_sound M kind hwk hpl).comps o (by rw [hc]; simp)
    rw [this] at hm; cases hm

/-- C39: `gamma()`, `gammadash()`, … of a curve with dofs of its own return, and give the value for the dofs reported by the Python side. -/
theorem C39_gamma {cfg : Cfg V} (hn : NameInj cfg) (hsh : ShuffleOK cfg) (hwk : WellKinded kind) (hpl : PersistLinear M) {p0 : P}
    {w : World V P Qty X} (h : FHist cfg M kind p0 w) {o fam : Nat} (ho : w.g.alive o = true) (hk : kind o = .curve fam) (n d : Nat) :
    (∃ w', eval (sys M kind) (n + 1) o (.gamma d) w = (some (M.gamma fam d (dofsOf w.g o)), w')) ∧
    (∃ w', eval (sys M kind) (n + 1) o (.dgamma d) w = (some (M.dgamma fam d (dofsOf w.g o)), w')) := by
  have key : ∀ q x0, (∀ x, Val M kind w.g (w.pts o) o q x → x = x0) → (∃ y, impl M kind w.g (w.pts o) o q = .done [(q, y)]) →
      ∃ w', eval (sys M kind) (n + 1) o q w = (some x0, w') := by
    intro q x0 hu ⟨y, hy⟩
    rcases he : eval (sys M kind) (n + 1) o q w with ⟨r, w'⟩
    cases r with
    | some x =>
      have := C39_curve_values hn hsh hwk hpl h ho (by rw [hk]; rfl) he
      rw [hu x this]
      exact ⟨w', rfl⟩
    | none =>
      exfalso
      simp only [eval] at he
      split at he
      · cases he
      · have h1 : runProg (eval (sys M kind) n) o ((sys M kind).impl w.g (w.pts o) o q) (w.write o ((sys M kind).early o q)) =
            (true, (w.write o ((sys M kind).early o q)).write o [(q, y)]) := by
          show runProg _ o (impl M kind w.g (w.pts o) o q) _ = _
          rw [hy]; rfl
        simp only [force, h1] at he
        cases he
  refine ⟨key _ _ (fun x hx => hx.unique (.curve d hk)) ⟨M.gamma fam d (exts w.g o), ?_⟩,
    key _ _ (fun x hx => hx.unique (.dcurve d hk)) ⟨M.dgamma fam d (exts w.g o), ?_⟩⟩
  · simp only [impl, hk]
  · simp only [impl, hk]

/-- C39: a rotated curve follows the dofs of its base curve. -/
theorem C39_rotated {cfg : Cfg V} (hn : NameInj cfg) (hsh : ShuffleOK cfg) (hwk : WellKinded kind) (hpl : PersistLinear M) {p0 : P}
    {w : World V P Qty X} (h : FHist cfg M kind p0 w) {o b r fam : Nat} (ho : w.g.alive o = true) (hk : kind o = .rotated b r)
    (hb : kind b = .curve fam) {n d : Nat} {x : X} {w' : World V P Qty X} (he : eval (sys M kind) n o (.gamma d) w = (some x, w')) :
    x = M.rot r (M.gamma fam d (dofsOf w.g b)) :=
  (C39_curve_values hn hsh hwk hpl h ho (by rw [hk]; rfl) he).unique (.rotated hk (.curve d hb))

/-- C40: after any history, an evaluation of a field whose component fields have its points that returns gives the value at its points for
    the current dofs of the coils. -/
theorem C40_field_values {cfg : Cfg V} (hn : NameInj cfg) (hsh : ShuffleOK cfg) (hwk : WellKinded kind) (hpl : PersistLinear M) {p0 : P}
    {w : World V P Qty X} (h : FHist cfg M kind p0 w) {o : Nat} (ho : w.g.alive o = true) (hal : Aligned (sys M kind) w o) {n : Nat} {q : Qty}
    {x : X} {w' : World V P Qty X} (he : eval (sys M kind) n o q w = (some x, w')) : Val M kind w.g (w.pts o) o q x :=
  h.val hn hsh hwk hpl ho (h.eval_fresh (sys_sound M kind hwk hpl) hn hsh linked_empty ho hal he)

section
variable {Q : Type} [DecidableEq Q]

/-- `set_points` gives its points to the field and all its component fields, and changes no others. -/
theorem setPoints_pts (S : Sys V P Q X) : ∀ (n : Nat) (p : P) (o : Nat) (w w' : World V P Q X), setPoints S n p o w = some w' →
    (∀ c, Within S o c → w'.pts c = p) ∧ (∀ c, ¬ Within S o c → w'.pts c = w.pts c) := by
  intro n
  induction n with
  | zero => intro p o w w' h; simp [setPoints] at h
  | succ n ih =>
    intro p o w w' h
    simp only [setPoints] at h
    have hfold : ∀ (l : List Nat) (u u' : World V P Q X), l.foldlM (fun w c => setPoints S n p c w) u = some u' →
        (∀ c, u.pts c = p → u'.pts c = p) ∧ (∀ b ∈ l, ∀ c, Within S b c → u'.pts c = p) ∧
        (∀ c, (∀ b ∈ l, ¬ Within S b c) → u'.pts c = u.pts c) := by
      intro l
      induction l with
      | nil =>
        intro u u' h
        simp only [List.foldlM_nil] at h
        cases h
        exact ⟨fun _ h => h, (fun b hb => by cases hb), fun _ _ => rfl⟩
      | cons b l ihl =>
        intro u u' h
        simp only [List.foldlM_cons] at h
        cases hc : setPoints S n p b u with
        | none => rw [hc] at h; cases h
        | some u1 =>
          rw [hc] at h
          obtain ⟨a1, a2⟩ := ih p b u u1 hc
          obtain ⟨b1, b2, b3⟩ := ihl u1 u' h
          have keep : ∀ c, u.pts c = p → u1.pts c = p := by
            intro c hp
            by_cases hw : Within S b c
            · exact a1 c hw
            · rw [a2 c hw]; exact hp
          refine ⟨fun c hp => b1 c (keep c hp), ?_, ?_⟩
          · intro b' hb' c hw
            rcases List.mem_cons.1 hb' with rfl | hb'
            · exact b1 c (a1 c hw)
            · exact b2 b' hb' c hw
          · intro c hno
            rw [b3 c (fun b' hb' => hno b' (List.mem_cons_of_mem _ hb')), a2 c (hno b List.mem_cons_self)]
    obtain ⟨f1, f2, f3⟩ := hfold _ _ _ h
    constructor
    · intro c hw
      cases hw with
      | refl => exact f1 o (by simp)
      | step hm hw' => exact f2 _ hm c hw'
    · intro c hno
      rw [f3 c (fun b hb hw => hno (.step hb hw))]
      have : c ≠ o := fun e => hno (e ▸ .refl _)
      simp [this, World.invalidate]

end

/-- C40: after `set_points(p)` on a field, whatever the history before, an evaluation gives the value at `p`. -/
theorem C40_after_set_points {cfg : Cfg V} (hn : NameInj cfg) (hsh : ShuffleOK cfg) (hwk : WellKinded kind) (hpl : PersistLinear M) {p0 : P}
    {w w1 : World V P Qty X} (h : FHist cfg M kind p0 w) {o : Nat} (ho : w.g.alive o = true) {m : Nat} {p : P}
    (hsp : setPoints (sys M kind) m p o w = some w1) {n : Nat} {q : Qty}
    {x : X} {w' : World V P Qty X} (he : eval (sys M kind) n o q w1 = (some x, w')) : Val M kind w.g p o q x := by
  have h1 : FHist cfg M kind p0 w1 := .setPoints h hsp
  have hg : w1.g = w.g := (setPoints_ok (sys_sound M kind hwk hpl) _ _ _ _ _ (h.inv (sys_sound M kind hwk hpl) hn hsh linked_empty) hsp).2
  obtain ⟨hp, _⟩ := setPoints_pts _ _ _ _ _ _ hsp
  have := C40_field_values hn hsh hwk hpl h1 (by rw [hg]; exact ho) (fun c hc => by rw [hp c hc, hp o (.refl _)]) he
  rw [hg, hp o (.refl _)] at this
  exact this

/-! ### arrays of single coils -/

/-- All lists of entries a program may end with satisfy `K`. -/
def Prog.Ends {Q X : Type} (K : List (Q × X) → Prop) : Prog Q X → Prop
  | .done l => K l
  | .call _ _ k => ∀ x, (k x).Ends K
  | .raise => True

theorem runProg_ends {Q : Type} [DecidableEq Q] {ev : Nat → Q → World V P Q X → Option X × World V P Q X} {o : Nat} {K : List (Q × X) → Prop} :
    ∀ (pr : Prog Q X) (w w' : World V P Q X), pr.Ends K → runProg ev o pr w = (true, w') → ∃ (l : List (Q × X)) (w1 : World V P Q X), K l ∧ w' = w1.write o l := by
  intro pr
  induction pr with
  | done l => intro w w' hk h; simp only [runProg, Prod.mk.injEq, true_and] at h; exact ⟨l, w, hk, h.symm⟩
  | raise => intro w w' _ h; simp [runProg] at h
  | call o' q' k ih =>
    intro w w' hk h
    simp only [runProg] at h
    rcases he : ev o' q' w with ⟨r, w1⟩
    rw [he] at h
    cases r with
    | none => simp at h
    | some x => exact ih x w1 w' (hk x) h

theorem askAll_ends {K : List (Qty × X) → Prop} : ∀ (l : List (Nat × Qty)) (k : List X → Prog Qty X), (∀ xs, (k xs).Ends K) →
    (askAll l k).Ends K := by
  intro l
  induction l with
  | nil => intro k hk; exact hk []
  | cons a l ih => obtain ⟨o, q⟩ := a; intro k hk x; exact ih _ (fun xs => hk _)

theorem mark_same {Q : Type} [DecidableEq Q] {w : World V P Q X} {o : Nat} {q : Q} (h : (w.cache o q).status = true) : w.mark o q = w := by
  unfold World.mark
  have : (fun o' q' => if o' = o ∧ q' = q then (⟨true, (w.cache o' q').data⟩ : Entry X) else w.cache o' q') = w.cache := by
    funext o' q'
    split
    · rename_i h'
      obtain ⟨rfl, rfl⟩ := h'
      rw [← h]
    · rfl
  rw [this]

/-- C40: `dB_by_dcoilcurrents()` and its derivatives give, for every coil, the field of that coil with unit current, and leave the caches in a
    state covered by the theorems above. -/
theorem C40_dB_by_dcoilcurrents {cfg : Cfg V} (hn : NameInj cfg) (hsh : ShuffleOK cfg) (hwk : WellKinded kind) (hpl : PersistLinear M) {p0 : P}
    {w : World V P Qty X} (h : FHist cfg M kind p0 w) {o : Nat} {cs : List (Nat × CurExpr V)} (ho : w.g.alive o = true)
    (hk : kind o = .biotSavart cs) {n d : Nat} {xs : List X} {w' : World V P Qty X}
    (he : byCurrents M kind n .B cs.length o d w = (some xs, w')) :
    xs.length = cs.length ∧ (∀ i (hi : i < xs.length), Val M kind w.g (w.pts o) o (.coil .B i d) xs[i]) ∧ FHist cfg M kind p0 w' := by
  have hal : Aligned (sys M kind) w o := by
    intro c hc
    cases hc with
    | refl => rfl
    | step hm _ =>
      replace hm : _ ∈ compsOf kind o := hm
      simp only [compsOf, hk] at hm
      cases hm
  -- reading the arrays when all of them are valid
  have read : ∀ w1 : World V P Qty X, FHist cfg M kind p0 w1 → w1.g = w.g → w1.pts = w.pts →
      (∀ i < cs.length, (w1.cache o (.coil .B i d)).status = true) →
      (some ((List.range cs.length).map (fun i => (w1.cache o (.coil .B i d)).data)),
        (List.range cs.length).foldl (fun w i => w.mark o (.coil .B i d)) w1) = (some xs, w') →
      xs.length = cs.length ∧ (∀ i (hi : i < xs.length), Val M kind w.g (w.pts o) o (.coil .B i d) xs[i]) ∧ FHist cfg M kind p0 w' := by
    intro w1 h1 hg hp hst he
    simp only [Prod.mk.injEq, Option.some.injEq] at he
    obtain ⟨rfl, rfl⟩ := he
    have hfold : ∀ l : List Nat, (∀ i ∈ l, i < cs.length) → l.foldl (fun w i => w.mark o (.coil .B i d)) w1 = w1 := by
      intro l
      induction l with
      | nil => intro _; rfl
      | cons i l ih =>
        intro hl
        simp only [List.foldl_cons]
        rw [mark_same (hst i (hl i List.mem_cons_self))]
        exact ih (fun j hj => hl j (List.mem_cons_of_mem _ hj))
    rw [hfold _ (fun i hi => List.mem_range.1 hi)]
    refine ⟨by simp, ?_, h1⟩
    intro i hi
    simp only [List.length_map, List.length_range] at hi
    simp only [List.getElem_map, List.getElem_range]
    have hi1 := h1.inv (sys_sound M kind hwk hpl) hn hsh linked_empty
    have ho1 : w1.g.alive o = true := by rw [hg]; exact ho
    have := h1.val hn hsh hwk hpl ho1 (hi1.good o (.coil .B i d) id ho1 (hst i hi))
    rw [hg, hp] at this
    exact this
  simp only [byCurrents] at he
  split at he
  · rcases hfo : force (eval (sys M kind) n) (sys M kind) o (.pot .B d) w with ⟨r, w1⟩
    rw [hfo] at he
    cases r with
    | none => simp at he
    | some y =>
      have hS := sys_sound M kind hwk hpl
      have h1 : FHist cfg M kind p0 w1 := .force h ho hal hfo (fun h => by cases h)
      have hinv := h.inv hS hn hsh linked_empty
      obtain ⟨_, hg, hp, _⟩ := force_ok hS hn hsh (eval (sys M kind) n) (eval_ok hS hn hsh n) o (.pot .B d) _ w hinv
        (fun _ _ h => h.elim) (Or.inr (fun _ _ h => h)) ho hal _ _ hfo
      refine read w1 h1 hg hp ?_ he
      -- the arrays were written
      simp only [force] at hfo
      rcases hrp : runProg (eval (sys M kind) n) o ((sys M kind).impl w.g (w.pts o) o (.pot .B d)) (w.write o ((sys M kind).early o (.pot .B d)))
        with ⟨b, w2⟩
      rw [hrp] at hfo
      cases b with
      | false => simp at hfo
      | true =>
        simp only [Prod.mk.injEq] at hfo
        obtain ⟨_, rfl⟩ := hfo
        have hends : ((sys M kind).impl w.g (w.pts o) o (.pot .B d)).Ends (fun l => l.map Prod.fst = computeKeys .B cs.length d) := by
          show (impl M kind w.g (w.pts o) o (.pot .B d)).Ends _
          simp only [impl, hk]
          split
          · apply askAll_ends
            intro xs
            show ((computeKeys .B cs.length d).map _).map Prod.fst = _
            rw [List.map_map]
            exact List.map_id _
          · trivial
        obtain ⟨l, w3, hl, rfl⟩ := runProg_ends _ _ _ hends hrp
        obtain ⟨_, _, c3, _⟩ := write_cache o l w3 (by rw [hl]; exact nodup_computeKeys _ _ _)
        intro i hi
        have hmem : Qty.coil .B i d ∈ l.map Prod.fst := by
          rw [hl]; exact mem_computeKeys.2 (Or.inr ⟨i, d, Nat.le_refl _, hi, rfl⟩)
        obtain ⟨⟨q', x'⟩, hm, e⟩ := List.mem_map.1 hmem
        simp only at e
        subst e
        simp only [World.mark]
        split
        · rfl
        · rw [c3 _ _ hm]
  · rename_i hall
    refine read w h rfl rfl ?_ he
    intro i hi
    simp only [List.any_eq_true, List.mem_range, Bool.not_eq_true', not_exists, not_and, Bool.not_eq_false] at hall
    exact hall i hi

end Simsopt.Caches
