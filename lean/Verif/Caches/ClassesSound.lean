import Verif.Caches.ClassesSpec
/-!
# The cached classes satisfy the requirements of the cache theory
-/
namespace Simsopt.Caches
open Simsopt
open Simsopt.Graph (State Cfg Op DependsOn SameInputs MirrorInSync)
set_option linter.unusedSectionVars false

section Generic
variable {V P Q X : Type} [DecidableEq Q]

/-- A run in which every value asked for satisfies `T`. -/
inductive RunW (T : Nat → Q → X → Prop) : Prog Q X → List (Q × X) → Prop where
  | done (l : List (Q × X)) : RunW T (.done l) l
  | call {o : Nat} {q : Q} {k : X → Prog Q X} {l : List (Q × X)} {x : X} : T o q x → RunW T (k x) l → RunW T (.call o q k) l

theorem run_iff (S : Sys V P Q X) (g : State V) (p : P) {pr : Prog Q X} {l : List (Q × X)} :
    Run S g p pr l ↔ RunW (Fresh S g p) pr l := by
  constructor
  · intro h
    induction h with
    | done l => exact .done l
    | call h1 hm _ _ ih2 => exact .call ⟨_, h1, hm⟩ ih2
  · intro h
    induction h with
    | done l => exact .done l
    | call h1 _ ih =>
      obtain ⟨l', h1, hm⟩ := h1
      exact .call h1 hm ih

/-- If every implementation turns values satisfying `T` into values satisfying `T`, all values computed afresh satisfy `T`. -/
theorem Run.sat {S : Sys V P Q X} {g : State V} {p : P} {A : Nat → Prop} {T : Nat → Q → X → Prop}
    (hc : ∀ o q, A o → (S.impl g p o q).Calls A)
    (hT : ∀ o q l x, A o → RunW T (S.impl g p o q) l → (q, x) ∈ l → T o q x) {pr : Prog Q X} {l : List (Q × X)}
    (h : Run S g p pr l) : pr.Calls A → RunW T pr l := by
  induction h with
  | done l => intro _; exact .done l
  | @call o q k l l' x h1 hm h2 ih1 ih2 =>
    intro hcs
    exact .call (hT o q l' x hcs.1 (ih1 (hc o q hcs.1)) hm) (ih2 (hcs.2 x))

end Generic

variable {V P X : Type}

theorem askAll_run {T : Nat → Qty → X → Prop} : ∀ (l : List (Nat × Qty)) (k : List X → Prog Qty X) (w : List (Qty × X)),
    RunW T (askAll l k) w ↔ ∃ xs : List X, xs.length = l.length ∧
      (∀ i (h : i < l.length) (h' : i < xs.length), T l[i].1 l[i].2 xs[i]) ∧ RunW T (k xs) w := by
  intro l
  induction l with
  | nil =>
    intro k w
    constructor
    · intro h; exact ⟨[], rfl, (fun i h => absurd h (Nat.not_lt_zero _)), h⟩
    · rintro ⟨xs, hl, _, h⟩
      obtain rfl := List.length_eq_zero_iff.1 hl
      exact h
  | cons a l ih =>
    obtain ⟨o, q⟩ := a
    intro k w
    constructor
    · intro h
      cases h with
      | @call _ _ _ _ x hx h =>
        obtain ⟨xs, h1, h2, h3⟩ := (ih _ w).1 h
        refine ⟨x :: xs, by simp [h1], ?_, h3⟩
        intro i hi hi'
        cases i with
        | zero => exact hx
        | succ i => exact h2 i (by simpa using hi) (by simpa using hi')
    · rintro ⟨xs, h1, h2, h3⟩
      cases xs with
      | nil => simp at h1
      | cons x xs =>
        refine .call (h2 0 (by simp) (by simp)) ((ih _ w).2 ⟨xs, by simpa using h1, ?_, h3⟩)
        intro i hi hi'
        have := h2 (i + 1) (by simpa using hi) (by simpa using hi')
        simpa using this

theorem askAll_calls {A : Nat → Prop} : ∀ (l : List (Nat × Qty)) (k : List X → Prog Qty X), (∀ a ∈ l, A a.1) → (∀ xs, (k xs).Calls A) →
    (askAll l k).Calls A := by
  intro l
  induction l with
  | nil => intro k _ hk; exact hk []
  | cons a l ih =>
    obtain ⟨o, q⟩ := a
    intro k hl hk
    exact ⟨hl (o, q) List.mem_cons_self, fun x => ih _ (fun a ha => hl a (List.mem_cons_of_mem _ ha)) (fun xs => hk _)⟩

/-- The four forms of implementations. -/
inductive Shape (M : Math V P X) (kind : Nat → Kind V) (g : State V) (p : P) (o : Nat) (q : Qty) : Prop where
  | leaf (x : X) : impl M kind g p o q = .done [(q, x)] → (kind o).isField = false → Shape M kind g p o q
  | ask (l : List (Nat × Qty)) (f : List X → X) : impl M kind g p o q = askAll l (fun xs => .done [(q, f xs)]) →
      (∀ a ∈ l, a.1 = o ∨ a.1 ∈ (kind o).uses) → (∀ a ∈ l, (kind o).isField = true → a.1 = o ∨ a.1 ∈ compsOf kind o) →
      (∀ a ∈ l, (kind o).isField = false → a.1 = o ∨ ∃ r, kind o = .rotated a.1 r) → earlyOf M kind o q = [] → Shape M kind g p o q
  | comp (cs : List (Nat × CurExpr V)) (a : Pot) (d : Nat) : kind o = .biotSavart cs → impl M kind g p o q = compute M (exts g) p cs a d →
      q ∈ computeKeys a cs.length d → d ≤ 2 → earlyOf M kind o q = (computeKeys a cs.length d).map (fun q => (q, M.zero)) → Shape M kind g p o q
  | raise : impl M kind g p o q = .raise → earlyOf M kind o q = [] → Shape M kind g p o q

theorem mem_computeKeys {a : Pot} {n d : Nat} {q : Qty} :
    q ∈ computeKeys a n d ↔ (∃ e, e ≤ d ∧ q = .pot a e) ∨ ∃ i e, e ≤ d ∧ i < n ∧ q = .coil a i e := by
  simp only [computeKeys, List.mem_append, List.mem_map, List.mem_range, List.mem_flatMap]
  constructor
  · rintro (⟨e, h, rfl⟩ | ⟨e, h, i, hi, rfl⟩)
    · exact Or.inl ⟨e, Nat.lt_succ_iff.1 h, rfl⟩
    · exact Or.inr ⟨i, e, Nat.lt_succ_iff.1 h, hi, rfl⟩
  · rintro (⟨e, h, rfl⟩ | ⟨i, e, h, hi, rfl⟩)
    · exact Or.inl ⟨e, Nat.lt_succ_iff.2 h, rfl⟩
    · exact Or.inr ⟨e, Nat.lt_succ_iff.2 h, i, hi, rfl⟩

theorem nodup_computeKeys (a : Pot) (n d : Nat) : (computeKeys a n d).Nodup := by
  unfold computeKeys
  rw [List.nodup_append]
  refine ⟨?_, ?_, ?_⟩
  · rw [List.nodup_map_iff (fun x y h => by cases h; rfl)]
    exact List.nodup_range
  · rw [List.nodup_flatMap]
    refine ⟨?_, ?_⟩
    · intro e _
      rw [List.nodup_map_iff (fun x y h => by cases h; rfl)]
      exact List.nodup_range
    · have := List.nodup_range (n := d + 1)
      refine List.Pairwise.imp ?_ this
      intro e e' hne q h1 h2
      simp only [List.mem_map] at h1 h2
      obtain ⟨i, _, rfl⟩ := h1
      obtain ⟨j, _, h⟩ := h2
      cases h
      exact hne rfl
  · intro q h1 q' h2
    simp only [List.mem_map, List.mem_flatMap] at h1 h2
    obtain ⟨e, _, rfl⟩ := h1
    obtain ⟨e', _, i, _, rfl⟩ := h2
    intro h; cases h

theorem shape (M : Math V P X) (kind : Nat → Kind V) (g : State V) (p : P) (o : Nat) (q : Qty) : Shape M kind g p o q := by
  have self : ∀ (qs : List Qty) (a : Nat × Qty), a ∈ qs.map (fun q => (o, q)) → a.1 = o := by
    intro qs a ha
    obtain ⟨q, _, rfl⟩ := List.mem_map.1 ha
    rfl
  cases hk : kind o with
  | other => exact .raise (by simp [impl, hk]) (by simp [earlyOf, hk])
  | current => exact .raise (by simp [impl, hk]) (by simp [earlyOf, hk])
  | curve fam =>
    cases q with
    | gamma d => exact .leaf _ (by simp only [impl, hk]; rfl) (by rw [hk]; rfl)
    | dgamma d => exact .leaf _ (by simp only [impl, hk]; rfl) (by rw [hk]; rfl)
    | geo k =>
      exact .ask (k.inputs.map (fun q => (o, q))) (fun xs => M.geo k xs) (by simp only [impl, hk]) (fun a ha => Or.inl (self _ a ha))
        (fun a ha _ => Or.inl (self _ a ha)) (fun a ha _ => Or.inl (self _ a ha)) (by simp [earlyOf, hk])
    | pot => exact .raise (by simp [impl, hk]) (by simp [earlyOf, hk])
    | coil => exact .raise (by simp [impl, hk]) (by simp [earlyOf, hk])
    | fld => exact .raise (by simp [impl, hk]) (by simp [earlyOf, hk])
  | rotated b r =>
    cases q with
    | gamma d =>
      exact .ask [(b, .gamma d)] (fun xs => M.rot r (xs.headD M.zero)) (by simp only [impl, hk])
        (fun a ha => Or.inr (by rw [hk]; simp only [List.mem_singleton] at ha; subst ha; simp [Kind.uses]))
        (fun a ha h => by rw [hk] at h; cases h)
        (fun a ha _ => Or.inr ⟨r, by simp only [List.mem_singleton] at ha; subst ha; exact hk⟩) (by simp [earlyOf, hk])
    | dgamma d =>
      exact .ask [(b, .dgamma d)] (fun xs => M.rotT r (xs.headD M.zero)) (by simp only [impl, hk])
        (fun a ha => Or.inr (by rw [hk]; simp only [List.mem_singleton] at ha; subst ha; simp [Kind.uses]))
        (fun a ha h => by rw [hk] at h; cases h)
        (fun a ha _ => Or.inr ⟨r, by simp only [List.mem_singleton] at ha; subst ha; exact hk⟩) (by simp [earlyOf, hk])
    | geo k =>
      exact .ask (k.inputs.map (fun q => (o, q))) (fun xs => M.geo k xs) (by simp only [impl, hk]) (fun a ha => Or.inl (self _ a ha))
        (fun a ha _ => Or.inl (self _ a ha)) (fun a ha _ => Or.inl (self _ a ha)) (by simp [earlyOf, hk])
    | pot => exact .raise (by simp [impl, hk]) (by simp [earlyOf, hk])
    | coil => exact .raise (by simp [impl, hk]) (by simp [earlyOf, hk])
    | fld => exact .raise (by simp [impl, hk]) (by simp [earlyOf, hk])
  | biotSavart cs =>
    cases q with
    | gamma d => exact .raise (by simp [impl, hk]) (by simp [earlyOf, hk])
    | dgamma d => exact .raise (by simp [impl, hk]) (by simp [earlyOf, hk])
    | geo k => exact .raise (by simp [impl, hk]) (by simp [earlyOf, hk])
    | pot a d =>
      by_cases h : d ≤ 2
      · exact .comp cs a d hk (by simp only [impl, hk, h, if_true]) (mem_computeKeys.2 (Or.inl ⟨d, Nat.le_refl _, rfl⟩)) h
          (by simp only [earlyOf, hk, h, if_true])
      · exact .raise (by simp only [impl, hk, h, if_false]) (by simp only [earlyOf, hk, h, if_false])
    | coil a i d =>
      by_cases h : d ≤ 2 ∧ i < cs.length
      · exact .comp cs a d hk (by simp only [impl, hk, h, and_self, if_true])
          (mem_computeKeys.2 (Or.inr ⟨i, d, Nat.le_refl _, h.2, rfl⟩)) h.1 (by simp only [earlyOf, hk, h, and_self, if_true])
      · exact .raise (by simp only [impl, hk, h, if_false]) (by simp only [earlyOf, hk, h, if_false])
    | fld k =>
      exact .ask (k.inputs.map (fun q => (o, q))) (fun xs => M.fld k p xs) (by simp only [impl, hk]) (fun a ha => Or.inl (self _ a ha))
        (fun a ha _ => Or.inl (self _ a ha)) (fun a ha _ => Or.inl (self _ a ha)) (by simp [earlyOf, hk])
  | multiply c f =>
    cases q with
    | gamma d => exact .raise (by simp [impl, hk]) (by simp [earlyOf, hk])
    | dgamma d => exact .raise (by simp [impl, hk]) (by simp [earlyOf, hk])
    | geo k => exact .raise (by simp [impl, hk]) (by simp [earlyOf, hk])
    | coil => exact .raise (by simp [impl, hk]) (by simp [earlyOf, hk])
    | pot a d =>
      exact .ask [(f, .pot a d)] (fun xs => M.times c (xs.headD M.zero)) (by simp only [impl, hk])
        (fun a ha => Or.inr (by rw [hk]; simp only [List.mem_singleton] at ha; subst ha; simp [Kind.uses]))
        (fun a ha _ => Or.inr (by simp only [List.mem_singleton] at ha; subst ha; simp [compsOf, hk]))
        (fun a ha h => by rw [hk] at h; cases h) (by simp [earlyOf, hk])
    | fld k =>
      exact .ask (k.inputs.map (fun q => (o, q))) (fun xs => M.fld k p xs) (by simp only [impl, hk]) (fun a ha => Or.inl (self _ a ha))
        (fun a ha _ => Or.inl (self _ a ha)) (fun a ha _ => Or.inl (self _ a ha)) (by simp [earlyOf, hk])
  | sum fs =>
    cases q with
    | gamma d => exact .raise (by simp [impl, hk]) (by simp [earlyOf, hk])
    | dgamma d => exact .raise (by simp [impl, hk]) (by simp [earlyOf, hk])
    | geo k => exact .raise (by simp [impl, hk]) (by simp [earlyOf, hk])
    | coil => exact .raise (by simp [impl, hk]) (by simp [earlyOf, hk])
    | pot a d =>
      have hm : ∀ b ∈ fs.map (fun f => (f, Qty.pot a d)), b.1 ∈ fs := by
        intro b hb
        obtain ⟨f, hf, rfl⟩ := List.mem_map.1 hb
        exact hf
      exact .ask (fs.map (fun f => (f, .pot a d))) (fun xs => M.add xs) (by simp only [impl, hk])
        (fun b hb => Or.inr (by rw [hk]; exact hm b hb))
        (fun b hb _ => Or.inr (by simp only [compsOf, hk]; exact hm b hb))
        (fun a ha h => by rw [hk] at h; cases h) (by simp [earlyOf, hk])
    | fld k =>
      exact .ask (k.inputs.map (fun q => (o, q))) (fun xs => M.fld k p xs) (by simp only [impl, hk]) (fun a ha => Or.inl (self _ a ha))
        (fun a ha _ => Or.inl (self _ a ha)) (fun a ha _ => Or.inl (self _ a ha)) (by simp [earlyOf, hk])

theorem compute_calls {A : Nat → Prop} (M : Math V P X) (vals : Nat → List V) (p : P) (cs : List (Nat × CurExpr V)) (a : Pot) (d : Nat)
    (h : ∀ c ∈ cs, A c.1) : (compute M vals p cs a d).Calls A := by
  refine askAll_calls _ _ ?_ (fun xs => trivial)
  intro b hb
  obtain ⟨c, hc, hb⟩ := List.mem_flatMap.1 hb
  simp only [List.mem_cons, List.not_mem_nil, or_false] at hb
  rcases hb with rfl | rfl <;> exact h c hc

theorem curValue_congr (M : Math V P X) {vals vals' : Nat → List V} : ∀ (e : CurExpr V), (∀ u ∈ e.bases, vals u = vals' u) →
    e.value M vals = e.value M vals'
  | .base o, h => by simp only [CurExpr.value]; rw [h o (by simp [CurExpr.bases])]
  | .scaled c e, h => by simp only [CurExpr.value]; rw [curValue_congr M e h]
  | .sum a b, h => by
    simp only [CurExpr.value]
    rw [curValue_congr M a (fun u hu => h u (List.mem_append_left _ hu)), curValue_congr M b (fun u hu => h u (List.mem_append_right _ hu))]

theorem compute_congr (M : Math V P X) {vals vals' : Nat → List V} (p : P) (cs : List (Nat × CurExpr V)) (a : Pot) (d : Nat)
    (h : ∀ c ∈ cs, ∀ u ∈ c.2.bases, vals u = vals' u) : compute M vals p cs a d = compute M vals' p cs a d := by
  have : computeVal M vals p cs = computeVal M vals' p cs := by
    funext xs q
    cases q with
    | pot a e =>
      simp only [computeVal]
      congr 1
      apply List.map_congr_left
      intro ci hci
      rw [curValue_congr M ci.1.2 (h _ (List.fst_mem_of_mem_zipIdx hci))]
    | _ => rfl
  simp only [compute, this]

theorem exts_eq {kind : Nat → Kind V} {g : State V} (hl : Linked kind g) (hm : MirrorInSync g) {o : Nat} (ho : g.alive o = true)
    (hk : (∃ fam, kind o = .curve fam) ∨ kind o = .current) : exts g o = dofsOf g o :=
  hm o ho ((hl o ho).2 hk)

theorem dofs_same {g g' : State V} {o a : Nat} (hs : SameInputs g g' o) (ha : DependsOn g o a) : dofsOf g' a = dofsOf g a := by
  obtain ⟨_, _, h1, h2, _⟩ := hs a ha
  unfold dofsOf
  rw [h1, h2]

theorem sys_sound (M : Math V P X) (kind : Nat → Kind V) (hwk : WellKinded kind) (hpl : PersistLinear M) :
    Sound (sys M kind) (fun o => (kind o).isField = true) (Linked kind) where
  reads := by
    intro g g' p o q hl hl' hm hm' ho ho' hs
    have hx : ((∃ fam, kind o = .curve fam) ∨ kind o = .current) → exts g' o = exts g o := by
      intro hk
      rw [exts_eq hl hm ho hk, exts_eq hl' hm' ho' hk, dofs_same hs (Or.inl rfl)]
    have hcomp : ∀ cs, kind o = .biotSavart cs → ∀ a d, compute M (exts g') p cs a d = compute M (exts g) p cs a d := by
      intro cs hk a d
      apply compute_congr
      intro c hc u hu
      have hku := (hwk.coil o cs hk c hc).2 u hu
      have hmem : u ∈ (kind o).uses := by
        rw [hk]
        exact List.mem_flatMap.2 ⟨c, hc, List.mem_cons_of_mem _ hu⟩
      obtain ⟨hau, hdu⟩ := (hl o ho).1 u hmem
      obtain ⟨hau', hdu'⟩ := (hl' o ho').1 u hmem
      rw [exts_eq hl hm hau (Or.inr hku), exts_eq hl' hm' hau' (Or.inr hku), dofs_same hs hdu]
    show impl M kind g' p o q = impl M kind g p o q
    cases hk : kind o with
    | curve fam => cases q <;> simp only [impl, hk, hx (Or.inl ⟨fam, hk⟩)]
    | biotSavart cs => cases q <;> simp only [impl, hk, hcomp cs hk]
    | _ => cases q <;> simp only [impl, hk]
  calls := by
    intro g p o q hl ho
    show (impl M kind g p o q).Calls _
    rcases shape M kind g p o q with ⟨x, h, _⟩ | ⟨l, f, h, h1, _, _, _⟩ | ⟨cs, a, d, hk, h, _, _, _⟩ | ⟨h, _⟩
    · rw [h]; trivial
    · rw [h]
      refine askAll_calls _ _ ?_ (fun xs => trivial)
      intro a ha
      rcases h1 a ha with e | hu
      · rw [e]; exact Or.inl rfl
      · exact ((hl o ho).1 _ hu).2
    · rw [h]
      apply compute_calls
      intro c hc
      exact ((hl o ho).1 c.1 (by rw [hk]; exact List.mem_flatMap.2 ⟨c, hc, List.mem_cons_self⟩)).2
    · rw [h]; trivial
  fields := by
    intro g p o q
    show (impl M kind g p o q).Calls _
    rcases shape M kind g p o q with ⟨x, h, _⟩ | ⟨l, f, h, _, h2, h3, _⟩ | ⟨cs, a, d, hk, h, _, _, _⟩ | ⟨h, _⟩
    · rw [h]; trivial
    · rw [h]
      refine askAll_calls _ _ ?_ (fun xs => trivial)
      intro a ha
      by_cases hf : (kind o).isField = true
      · exact Or.inr ⟨hf, h2 a ha hf⟩
      · left
        rcases h3 a ha (by simpa using hf) with e | ⟨r, hr⟩
        · rw [e]; exact hf
        · rw [hwk.rotated o _ r hr]; simp
    · rw [h]
      apply compute_calls
      intro c hc
      left
      rw [(hwk.coil o cs hk c hc).1]; simp
    · rw [h]; trivial
  points := by
    intro g p p' o q hf
    show impl M kind g p o q = impl M kind g p' o q
    cases hk : kind o with
    | biotSavart cs => rw [hk] at hf; exact absurd rfl hf
    | multiply c f => rw [hk] at hf; exact absurd rfl hf
    | sum fs => rw [hk] at hf; exact absurd rfl hf
    | _ => cases q <;> simp only [impl, hk]
  comps := by
    intro o hf
    show compsOf kind o = []
    cases hk : kind o with
    | multiply c f => rw [hk] at hf; exact absurd rfl hf
    | sum fs => rw [hk] at hf; exact absurd rfl hf
    | _ => simp only [compsOf, hk]
  nodup := by
    intro g p o q l hr
    rw [run_iff] at hr
    replace hr : RunW _ (impl M kind g p o q) l := hr
    rcases shape M kind g p o q with ⟨x, h, _⟩ | ⟨l', f, h, _⟩ | ⟨cs, a, d, hk, h, _⟩ | ⟨h, _⟩
    · rw [h] at hr; cases hr; simp
    · rw [h, askAll_run] at hr
      obtain ⟨xs, _, _, hr⟩ := hr
      cases hr; simp
    · rw [h] at hr
      simp only [compute] at hr
      rw [askAll_run] at hr
      obtain ⟨xs, _, _, hr⟩ := hr
      cases hr
      rw [List.map_map]
      have : (Prod.fst ∘ fun q => (q, computeVal M (exts g) p cs xs q)) = id := rfl
      rw [this, List.map_id]
      exact nodup_computeKeys a cs.length d
    · rw [h] at hr; cases hr
  has := by
    intro g p o q l hr
    rw [run_iff] at hr
    replace hr : RunW _ (impl M kind g p o q) l := hr
    rcases shape M kind g p o q with ⟨x, h, _⟩ | ⟨l', f, h, _⟩ | ⟨cs, a, d, hk, h, hmem, _⟩ | ⟨h, _⟩
    · rw [h] at hr; cases hr; exact ⟨x, by simp⟩
    · rw [h, askAll_run] at hr
      obtain ⟨xs, _, _, hr⟩ := hr
      cases hr; exact ⟨_, List.mem_singleton.2 rfl⟩
    · rw [h] at hr
      simp only [compute] at hr
      rw [askAll_run] at hr
      obtain ⟨xs, _, _, hr⟩ := hr
      cases hr
      exact ⟨_, List.mem_map.2 ⟨q, hmem, rfl⟩⟩
    · rw [h] at hr; cases hr
  agree := by
    intro g p o q l q' x' hr hm
    have hr0 := hr
    rw [run_iff] at hr
    replace hr : RunW _ (impl M kind g p o q) l := hr
    rcases shape M kind g p o q with ⟨x, h, _⟩ | ⟨l', f, h, _⟩ | ⟨cs, a, d, hk, h, hmem, hd, _⟩ | ⟨h, _⟩
    · rw [h] at hr; cases hr
      simp only [List.mem_singleton, Prod.mk.injEq] at hm
      obtain ⟨rfl, rfl⟩ := hm
      exact ⟨_, hr0, by simp⟩
    · rw [h, askAll_run] at hr
      obtain ⟨xs, _, _, hr⟩ := hr
      cases hr
      simp only [List.mem_singleton, Prod.mk.injEq] at hm
      obtain ⟨rfl, rfl⟩ := hm
      exact ⟨_, hr0, by simp⟩
    · rw [h] at hr
      simp only [compute] at hr
      rw [askAll_run] at hr
      obtain ⟨xs, hx1, hx2, hr⟩ := hr
      cases hr
      obtain ⟨q1, hq1, e⟩ := List.mem_map.1 hm
      cases e
      have : ∃ e, e ≤ 2 ∧ impl M kind g p o q' = compute M (exts g) p cs a e ∧ q' ∈ computeKeys a cs.length e := by
        rcases mem_computeKeys.1 hq1 with ⟨e, he, rfl⟩ | ⟨i, e, he, hi, rfl⟩
        · have he2 : e ≤ 2 := Nat.le_trans he hd
          exact ⟨e, he2, by simp only [impl, hk, he2, if_true], mem_computeKeys.2 (Or.inl ⟨e, Nat.le_refl _, rfl⟩)⟩
        · have he2 : e ≤ 2 := Nat.le_trans he hd
          exact ⟨e, he2, by simp only [impl, hk, he2, hi, and_self, if_true], mem_computeKeys.2 (Or.inr ⟨i, e, Nat.le_refl _, hi, rfl⟩)⟩
      obtain ⟨e, he2, hie, hqe⟩ := this
      refine ⟨(computeKeys a cs.length e).map (fun q => (q, computeVal M (exts g) p cs xs q)), ?_, List.mem_map.2 ⟨q', hqe, rfl⟩⟩
      rw [run_iff]
      show RunW _ (impl M kind g p o q') _
      rw [hie]
      simp only [compute]
      rw [askAll_run]
      exact ⟨xs, hx1, hx2, .done _⟩
    · rw [h] at hr; cases hr
  early := by
    intro o q he
    replace he : earlyOf M kind o q ≠ [] := he
    cases hk : kind o with
    | biotSavart cs => rfl
    | _ => exfalso; apply he; cases q <;> simp only [earlyOf, hk]
  earlyCalls := by
    intro g p o q he
    replace he : earlyOf M kind o q ≠ [] := he
    show (impl M kind g p o q).Calls _
    rcases shape M kind g p o q with ⟨x, h, _⟩ | ⟨l, f, h, _, _, _, h4⟩ | ⟨cs, a, d, hk, h, _, _, _⟩ | ⟨h, h4⟩
    · rw [h]; trivial
    · exact absurd h4 he
    · rw [h]
      apply compute_calls
      intro c hc
      rw [(hwk.coil o cs hk c hc).1]; simp
    · exact absurd h4 he
  earlyKeys := by
    intro o q
    show ((earlyOf M kind o q).map Prod.fst).Nodup
    have key : ∀ a n d, (((computeKeys a n d).map (fun q => (q, M.zero))).map Prod.fst).Nodup := by
      intro a n d
      rw [List.map_map]
      have : (Prod.fst ∘ fun q : Qty => (q, M.zero)) = id := rfl
      rw [this, List.map_id]
      exact nodup_computeKeys a n d
    unfold earlyOf
    split
    · split
      · exact key _ _ _
      · exact List.nodup_nil
    · split
      · exact key _ _ _
      · exact List.nodup_nil
    · exact List.nodup_nil
  earlyIn := by
    intro g p o q l q' x' hr hm
    replace hm : (q', x') ∈ earlyOf M kind o q := hm
    rw [run_iff] at hr
    replace hr : RunW _ (impl M kind g p o q) l := hr
    rcases shape M kind g p o q with ⟨x, h, hf⟩ | ⟨l', f, h, _, _, _, h4⟩ | ⟨cs, a, d, hk, h, _, _, h4⟩ | ⟨h, h4⟩
    · exfalso
      cases hk : kind o with
      | biotSavart cs => rw [hk] at hf; cases hf
      | _ => cases q <;> simp [earlyOf, hk] at hm
    · rw [h4] at hm; cases hm
    · rw [h4] at hm
      obtain ⟨q1, hq1, e⟩ := List.mem_map.1 hm
      cases e
      rw [h] at hr
      simp only [compute] at hr
      rw [askAll_run] at hr
      obtain ⟨xs, _, _, hr⟩ := hr
      cases hr
      exact ⟨_, List.mem_map.2 ⟨q', hq1, rfl⟩⟩
    · rw [h4] at hm; cases hm
  persist := by
    intro o q hp
    replace hp : persistentOf M kind o q = true := hp
    cases hk : kind o with
    | curve fam =>
      cases q with
      | dgamma d =>
        simp only [persistentOf, hk] at hp
        refine ⟨[(.dgamma d, M.dgamma fam d [])], ?_⟩
        intro g p
        show impl M kind g p o (.dgamma d) = _
        simp only [impl, hk]
        rw [hpl fam d (exts g o) [] hp]
      | _ => simp [persistentOf, hk] at hp
    | _ => cases q <;> simp [persistentOf, hk] at hp

end Simsopt.Caches
