import Verif.MakeOpt.Frame
import Verif.MakeOpt.Model
import Verif.Graph.Witness
/-!
# C13: `make_optimizable` reassembles the arguments
-/
namespace Simsopt.MakeOpt
open Simsopt.Graph
variable {V A : Type} {cfg : Cfg V}

/-! ### specification -/

/-- `got` is `orig` with every argument marked `dof` replaced by the entry of `xs` whose position is the number
    of `dof` marks before it. -/
def Wanted (ind : List String) (orig : List (Arg V A)) (xs : List V) (got : List (Arg V A)) : Prop :=
  got.length = orig.length ∧
  ∀ j a, orig[j]? = some a →
    got[j]? = if ind[j]? = some "dof" then xs[(ind.take j).count "dof"]?.map .num else some a

/-- Any sequence of API calls, raising or not, none of which edits the parents or replaces the DOFs object of `o`. -/
inductive Later (cfg : Cfg V) (o : Nat) : State V → State V → Prop
  | refl (s : State V) : Later cfg o s s
  | step {s s' : State V} (op : Op V) : Later cfg o s s' → Leaves o op → Later cfg o s (after (exec cfg op s'))

/-- `obj.local_full_x` -/
def localFullX (s : State V) (o : Nat) : List V := (s.dof (s.obj o).dofs).x

/-! ### the two loops -/

theorem splitLoop_append (ind : List String) : ∀ (l l' : List (Arg V A)) (i : Nat) (p : Parts V A),
    splitLoop ind i (l ++ l') p =
      (match splitLoop ind i l p with | .ok q => splitLoop ind (i + l.length) l' q | .error e => .error e)
  | [], l', i, p => rfl
  | a :: l, l', i, p => by
    simp only [List.cons_append, splitLoop, List.length_cons]
    rw [show i + (l.length + 1) = i + 1 + l.length by omega]
    split
    · rfl
    · split_ifs
      · exact splitLoop_append ind l l' _ _
      · exact splitLoop_append ind l l' _ _
      · exact splitLoop_append ind l l' _ _
      · rfl

theorem pickLoop_add (ps : List Nat) (xs : List V) (t : Temp V A) : ∀ (m n i : Nat) (c : Ctr),
    pickLoop ps xs t (m + n) i c =
      (match pickLoop ps xs t m i c with
      | .ok (l, c') => (match pickLoop ps xs t n (i + m) c' with | .ok (l', c'') => .ok (l ++ l', c'') | .error e => .error e)
      | .error e => .error e)
  | 0, n, i, c => by
    simp only [Nat.zero_add, pickLoop, Nat.add_zero, List.nil_append]
    cases pickLoop ps xs t n i c with
    | ok r => rfl
    | error e => rfl
  | m + 1, n, i, c => by
    rw [show m + 1 + n = (m + n) + 1 by omega]
    simp only [pickLoop]
    cases pick ps xs t i c with
    | error e => rfl
    | ok r =>
      obtain ⟨a, c'⟩ := r
      simp only []
      rw [pickLoop_add ps xs t m n (i + 1) c', show i + 1 + m = i + (m + 1) by omega]
      cases pickLoop ps xs t m (i + 1) c' with
      | error e => rfl
      | ok r =>
        obtain ⟨l, c''⟩ := r
        simp only []
        cases pickLoop ps xs t n (i + (m + 1)) c'' with
        | error e => rfl
        | ok r => rfl

theorem splitLoop_prefix {ind : List String} : ∀ {l : List (Arg V A)} {i : Nat} {p p' : Parts V A},
    splitLoop ind i l p = .ok p' →
      (∃ r, p'.opts = p.opts ++ r) ∧ (∃ r, p'.dofs = p.dofs ++ r) ∧ (∃ r, p'.nonDofs = p.nonDofs ++ r)
  | [], i, p, p', h => by
    simp only [splitLoop, Except.ok.injEq] at h; subst h
    exact ⟨⟨[], by simp⟩, ⟨[], by simp⟩, ⟨[], by simp⟩⟩
  | a :: l, i, p, p', h => by
    simp only [splitLoop] at h
    split at h
    · cases h
    · split_ifs at h
      · obtain ⟨⟨r1, h1⟩, ⟨r2, h2⟩, ⟨r3, h3⟩⟩ := splitLoop_prefix h
        exact ⟨⟨a :: r1, by simp [h1, Parts.addOpt]⟩, ⟨r2, h2⟩, ⟨r3, h3⟩⟩
      · obtain ⟨⟨r1, h1⟩, ⟨r2, h2⟩, ⟨r3, h3⟩⟩ := splitLoop_prefix h
        exact ⟨⟨r1, h1⟩, ⟨r2, h2⟩, ⟨a :: r3, by simp [h3, Parts.addNonDof]⟩⟩
      · obtain ⟨⟨r1, h1⟩, ⟨r2, h2⟩, ⟨r3, h3⟩⟩ := splitLoop_prefix h
        exact ⟨⟨r1, h1⟩, ⟨a :: r2, by simp [h2, Parts.addDof]⟩, ⟨r3, h3⟩⟩

theorem getElem?_mid {α : Type} (l : List α) (a : α) (r : List α) : (l ++ [a] ++ r)[l.length]? = some a := by simp

theorem reassemble {ind : List String} : ∀ (l : List (Arg V A)) (i : Nat) (p p' : Parts V A) (ps : List Nat) (xs : List V)
    (t : Temp V A) (c : Ctr), splitLoop ind i l p = .ok p' → t.ind = ind → t.nonDofs = p'.nonDofs →
    ps.map Arg.obj = p'.opts → xs.length = p'.dofs.length →
    c.opt = p.opts.length → c.dof = p.dofs.length → c.nonDof = p.nonDofs.length →
    p.dofs.length = (ind.take i).count "dof" →
    ∃ out c', pickLoop ps xs t l.length i c = .ok (out, c') ∧ out.length = l.length ∧
      ∀ j a, l[j]? = some a →
        out[j]? = if ind[i + j]? = some "dof" then xs[(ind.take (i + j)).count "dof"]?.map .num else some a
  | [], i, p, p', ps, xs, t, c, _, _, _, _, _, _, _, _, _ => ⟨[], c, rfl, rfl, by simp⟩
  | a :: l, i, p, p', ps, xs, t, c, h, hi, hnd, hps, hxs, c1, c2, c3, hc => by
    simp only [splitLoop] at h
    cases hk : ind[i]? with
    | none => rw [hk] at h; cases h
    | some k =>
      rw [hk] at h
      simp only at h
      have htake : ind.take (i + 1) = ind.take i ++ [k] := by
        rw [List.take_add_one, hk]; rfl
      -- the recursive call, once the first argument and the new counters are known
      have fin : ∀ (q : Parts V A) (c' : Ctr) (b : Arg V A), splitLoop ind (i + 1) l q = .ok p' →
          pick ps xs t i c = .ok (b, c') →
          c'.opt = q.opts.length → c'.dof = q.dofs.length → c'.nonDof = q.nonDofs.length →
          q.dofs.length = (ind.take (i + 1)).count "dof" →
          (some b = if k = "dof" then xs[(ind.take i).count "dof"]?.map .num else some a) →
          ∃ out c', pickLoop ps xs t (a :: l).length i c = .ok (out, c') ∧ out.length = (a :: l).length ∧
            ∀ j a', (a :: l)[j]? = some a' →
              out[j]? = if ind[i + j]? = some "dof" then xs[(ind.take (i + j)).count "dof"]?.map .num else some a' := by
        intro q c' b hq hp e1 e2 e3 e4 hb
        obtain ⟨out, c'', ho, hlen, hspec⟩ := reassemble l (i + 1) q p' ps xs t c' hq hi hnd hps hxs e1 e2 e3 e4
        refine ⟨b :: out, c'', ?_, by simp [hlen], ?_⟩
        · simp only [List.length_cons, pickLoop, hp, ho]
        · intro j a' hj
          cases j with
          | zero =>
            simp only [List.getElem?_cons_zero, Option.some.injEq] at hj ⊢
            subst hj
            simp only [Nat.add_zero, hk, Option.some.injEq]
            exact hb
          | succ j =>
            simp only [List.getElem?_cons_succ] at hj ⊢
            rw [show i + (j + 1) = i + 1 + j by omega]
            exact hspec j a' hj
      by_cases k1 : k = "opt"
      · rw [if_pos k1] at h
        obtain ⟨⟨r, hr⟩, _, _⟩ := splitLoop_prefix h
        have hat : p'.opts[c.opt]? = some a := by rw [hr, c1]; exact getElem?_mid _ _ _
        rw [← hps, List.getElem?_map] at hat
        cases hpo : ps[c.opt]? with
        | none => rw [hpo] at hat; cases hat
        | some o =>
          rw [hpo] at hat
          simp only [Option.map_some, Option.some.injEq] at hat
          refine fin _ { c with opt := c.opt + 1 } (.obj o) h ?_ (by simp [Parts.addOpt, c1]) c2 c3 ?_ ?_
          · simp only [pick, hi, hk, if_pos k1, hpo]
          · rw [htake]; simp [Parts.addOpt, hc, k1]
          · rw [hat, if_neg (by rw [k1]; decide)]
      · rw [if_neg k1] at h
        by_cases k2 : k = "non-dof"
        · rw [if_pos k2] at h
          obtain ⟨_, _, ⟨r, hr⟩⟩ := splitLoop_prefix h
          have hat : t.nonDofs[c.nonDof]? = some a := by rw [hnd, hr, c3]; exact getElem?_mid _ _ _
          refine fin _ { c with nonDof := c.nonDof + 1 } a h ?_ c1 c2 (by simp [Parts.addNonDof, c3]) ?_ ?_
          · have k3 : k ≠ "dof" := by rw [k2]; decide
            simp only [pick, hi, hk, if_neg k1, if_neg k3, if_pos k2, hat]
          · rw [htake]; simp [Parts.addNonDof, hc, k2]
          · rw [if_neg (by rw [k2]; decide)]
        · rw [if_neg k2] at h
          by_cases k3 : k = "dof"
          · rw [if_pos k3] at h
            obtain ⟨_, ⟨r, hr⟩, _⟩ := splitLoop_prefix h
            have hlt : c.dof < xs.length := by rw [hxs, hr, c2]; simp [Parts.addDof]
            refine fin _ { c with dof := c.dof + 1 } (.num xs[c.dof]) h ?_ c1 (by simp [Parts.addDof, c2]) c3 ?_ ?_
            · simp only [pick, hi, hk, if_neg k1, if_pos k3, List.getElem?_eq_getElem hlt]
            · rw [htake]; simp [Parts.addDof, hc, k3]
            · rw [if_pos k3, ← hc, ← c2, List.getElem?_eq_getElem hlt]; rfl
          · rw [if_neg k3] at h; cases h

theorem autoLoop_ind : ∀ (l : List (Arg V A)) (p : Parts V A) (ind : List String),
    (autoLoop l p ind).2 = ind ++ l.map (fun a => if a.isOpt then "opt" else "non-dof")
  | [], p, ind => by simp [autoLoop]
  | a :: l, p, ind => by
    simp only [autoLoop]
    split <;> rename_i h <;> rw [autoLoop_ind l] <;> simp [h]

theorem autoLoop_split : ∀ (l : List (Arg V A)) (p : Parts V A) (ind rest : List String),
    splitLoop ((autoLoop l p ind).2 ++ rest) ind.length l p = .ok (autoLoop l p ind).1
  | [], p, ind, rest => rfl
  | a :: l, p, ind, rest => by
    have hget : ((autoLoop (a :: l) p ind).2 ++ rest)[ind.length]? = some (if a.isOpt then "opt" else "non-dof") := by
      rw [autoLoop_ind]; simp
    simp only [splitLoop, hget]
    by_cases h : a.isOpt = true
    · have := autoLoop_split l (p.addOpt a) (ind ++ ["opt"]) rest
      simp only [List.length_append, List.length_singleton] at this
      simp only [h, autoLoop, if_true, this]
    · have := autoLoop_split l (p.addNonDof a) (ind ++ ["non-dof"]) rest
      simp only [List.length_append, List.length_singleton] at this
      simp only [h, autoLoop, Bool.false_eq_true, if_false, if_true, this]
      rw [if_neg (by decide)]

/-- Both ways of calling `make_optimizable` amount to one split along the marks finally stored. -/
theorem split_run {args : List (Arg V A)} {kwargs : List (String × Arg V A)} {ind : Option (List String)}
    {p : Parts V A} {im : List String} (h : split args kwargs ind = .ok (p, im)) :
    splitLoop im 0 (args ++ kwargs.map Prod.snd) {} = .ok p ∧
    (∀ j : Nat, (im[j]? = some "dof") ↔ (ind.getD [])[j]? = some "dof") ∧
    (∀ j : Nat, (im.take j).count "dof" = ((ind.getD []).take j).count "dof") := by
  cases ind with
  | some ind =>
    simp only [split] at h
    split at h
    · cases h1 : splitLoop ind 0 args {} with
      | error e => rw [h1] at h; cases h
      | ok q =>
        rw [h1] at h
        simp only at h
        cases h2 : splitLoop ind args.length (kwargs.map Prod.snd) q with
        | error e => rw [h2] at h; cases h
        | ok q' =>
          rw [h2] at h
          simp only [Except.ok.injEq, Prod.mk.injEq] at h
          obtain ⟨rfl, rfl⟩ := h
          refine ⟨?_, fun _ => Iff.rfl, fun _ => rfl⟩
          rw [splitLoop_append, h1]
          simpa using h2
    · cases h
  | none =>
    simp only [split, Except.ok.injEq] at h
    have e1 := autoLoop_split args ({} : Parts V A) [] ((kwargs.map Prod.snd).map (fun a => if a.isOpt then "opt" else "non-dof"))
    have e2 := autoLoop_split (kwargs.map Prod.snd) (autoLoop args ({} : Parts V A) []).1 (autoLoop args ({} : Parts V A) []).2 []
    rw [h] at e2
    have him : im = (autoLoop args ({} : Parts V A) []).2 ++ (kwargs.map Prod.snd).map (fun a => if a.isOpt then "opt" else "non-dof") := by
      have := autoLoop_ind (kwargs.map Prod.snd) (autoLoop args ({} : Parts V A) []).1 (autoLoop args ({} : Parts V A) []).2
      rw [h] at this; exact this
    rw [← him] at e1
    have hno : ∀ k ∈ im, k ≠ "dof" := by
      intro k hk
      rw [him, autoLoop_ind] at hk
      simp only [List.nil_append, List.mem_append, List.mem_map] at hk
      rcases hk with ⟨a, _, rfl⟩ | ⟨a, _, rfl⟩ <;> split <;> decide
    refine ⟨?_, fun j => ⟨fun hj => absurd rfl (hno _ (List.mem_of_getElem? hj)), fun hj => by simp at hj⟩, fun j => ?_⟩
    · rw [splitLoop_append]
      simp only [List.length_nil] at e1
      rw [e1]
      have hl : (autoLoop args ({} : Parts V A) []).2.length = 0 + args.length := by rw [autoLoop_ind]; simp
      rw [hl] at e2
      simpa using e2
    · have h1 : (im.take j).count "dof" = 0 := List.count_eq_zero.mpr fun hm => hno _ (List.mem_of_mem_take hm) rfl
      rw [h1]; simp

/-! ### the constructor -/

theorem asObjs_map {l : List (Arg V A)} : ∀ {os : List Nat}, asObjs l = .ok os → os.map Arg.obj = l := by
  induction l with
  | nil => intro os h; cases h; rfl
  | cons a l ih =>
    intro os h
    cases a with
    | obj o =>
      simp only [asObjs] at h
      cases hl : asObjs l with
      | error e => rw [hl] at h; cases h
      | ok r => rw [hl] at h; cases h; simp [ih hl]
    | num v => cases h
    | other v => cases h

theorem asNums_map {l : List (Arg V A)} : ∀ {xs : List V}, asNums l = .ok xs → xs.map Arg.num = l := by
  induction l with
  | nil => intro os h; cases h; rfl
  | cons a l ih =>
    intro os h
    cases a with
    | num o =>
      simp only [asNums] at h
      cases hl : asNums l with
      | error e => rw [hl] at h; cases h
      | ok r => rw [hl] at h; cases h; simp [ih hl]
    | obj v => cases h
    | other v => cases h

theorem liftG_run {α : Type} (e : Except Err α) (s : State V) :
    (liftG e : M V α) s = (match e with | .ok a => .ok a s | .error e => .error e s) := by cases e <;> rfl

/-- What a successful call has done. -/
theorem make_ok {cls : Nat} {args : List (Arg V A)} {kwargs : List (String × Arg V A)} {ind : Option (List String)}
    {s s' : State V} {t : Temp V A} (h : make cfg cls args kwargs ind s = .ok t s') :
    ∃ p im xs os, split args kwargs ind = .ok (p, im) ∧ asNums p.dofs = .ok xs ∧ asObjs p.opts = .ok os ∧
      new cfg cls (.fresh { x := some xs }) false os false s = .ok t.oid s' ∧
      t.argLen = args.length ∧ t.kwargKeys = kwargs.map Prod.fst ∧ t.nonDofs = p.nonDofs ∧ t.ind = im := by
  unfold make at h
  split at h
  · simp [run_bind, throw, throwThe, MonadExceptOf.throw, EStateM.throw] at h
  · simp only [run_bind, liftG_run] at h
    cases h1 : split args kwargs ind with
    | error e => rw [h1] at h; cases h
    | ok r =>
      obtain ⟨p, im⟩ := r
      rw [h1] at h; simp only at h
      cases h2 : asNums p.dofs with
      | error e => rw [h2] at h; cases h
      | ok xs =>
        rw [h2] at h; simp only at h
        cases h3 : asObjs p.opts with
        | error e => rw [h3] at h; cases h
        | ok os =>
          rw [h3] at h; simp only at h
          cases h4 : new cfg cls (.fresh { x := some xs }) false os false s with
          | error e u => rw [h4] at h; cases h
          | ok i u =>
            rw [h4] at h
            cases h
            exact ⟨p, im, xs, os, rfl, h2, h3, h4, rfl, rfl, rfl, rfl⟩

/-- action that leaves the dof store alone -/
def KeepDof {α : Type} (m : M V α) : Prop := ∀ s, (after (m s)).dof = s.dof

theorem keepDof_bind {α β : Type} {m : M V α} {f : α → M V β} (h : KeepDof m) (hf : ∀ a, KeepDof (f a)) : KeepDof (m >>= f) := by
  intro s
  rw [run_bind]
  have := h s
  cases hm : m s with
  | ok a u => rw [hm] at this; exact (hf a u).trans this
  | error e u => rw [hm] at this; exact this

theorem keepDof_forEach {α : Type} {f : α → M V Unit} (h : ∀ a, KeepDof (f a)) : ∀ l : List α, KeepDof (forEach l f)
  | [] => fun _ => rfl
  | a :: l => keepDof_bind (h a) fun _ => keepDof_forEach h l

theorem keepDof_walkM {act : State V → Nat → State V} (ha : LocalAct act) (i : Nat) : KeepDof (walkM cfg act i) := by
  intro s
  unfold walkM
  cases hw : walk act cfg.limit i s with
  | none => rfl
  | some s' => exact (walk_static ha hw).dof

theorem keepDof_addChild (p c : Nat) : KeepDof (addChild cfg p c) := by
  intro s
  show (if _ then s else _ : State V).dof = s.dof
  split <;> rfl

theorem keepDof_addOpt (d i : Nat) : KeepDof (V := V) (addOpt d i) := by
  intro s
  show (if _ then s else _ : State V).dof = s.dof
  split <;> rfl

theorem new_result {cls : Nat} {xs : List V} {os : List Nat} {s s' : State V} {i : Nat}
    (h : new cfg cls (.fresh { x := some xs }) false os false s = .ok i s') :
    i < s'.nobj ∧ (s'.obj i).dofs < s'.ndof ∧ (s'.obj i).parents = os ∧ localFullX s' i = xs := by
  rw [new_fresh_eq, run_bind] at h
  unfold newDofs at h
  simp only [run_bind, run_get] at h
  cases hd : Dofs.init cfg.ninf cfg.pinf (some xs) none none none none with
  | error e => rw [hd] at h; cases h
  | ok r =>
    have hx : r.x = xs := by
      unfold Dofs.init at hd
      simp only at hd
      split at hd
      · split at hd
        · cases hd; rfl
        · cases hd
      · cases hd
    rw [hd] at h
    simp only [run_bind, run_set] at h
    change newWith cfg cls s.ndof false os false
      { s with ndof := s.ndof + 1, dof := upd s.dof s.ndof r, deps := upd s.deps s.ndof [] } = .ok i s' at h
    unfold newWith at h
    simp only [run_bind, run_get, run_set, Bool.false_eq_true, if_false] at h
    generalize hg : State.grow cfg _ cls s.ndof false os = g at h
    have hm : ∀ {m : M V Nat}, Pres s.nobj m → KeepDof m → m g = .ok i s' → Fr s.nobj g s' ∧ s'.dof = g.dof := by
      intro m h1 h2 h3
      have := h1 g; rw [h3] at this
      have h4 := h2 g; rw [h3] at h4
      exact ⟨this, h4⟩
    have hp : Pres s.nobj (do forEach os (fun p => addChild cfg p s.nobj); refresh cfg s.nobj; addOpt s.ndof s.nobj; pure s.nobj : M V Nat) :=
      pres_bind (pres_forEach (fun p => pres_addChild _ p _) _) fun _ => pres_bind (pres_refresh _ _) fun _ =>
        pres_bind (pres_addOpt _ _ _) fun _ => pres_pure _ _
    have hk : KeepDof (do forEach os (fun p => addChild cfg p s.nobj); refresh cfg s.nobj; addOpt s.ndof s.nobj; pure s.nobj : M V Nat) :=
      keepDof_bind (keepDof_forEach (fun p => keepDof_addChild p _) _) fun _ =>
        keepDof_bind (keepDof_bind (keepDof_walkM localAct_full _) fun _ => keepDof_bind (keepDof_walkM localAct_free _) fun _ =>
          keepDof_walkM localAct_flag _) fun _ => keepDof_bind (keepDof_addOpt _ _) fun _ => fun _ => rfl
    have hrun : (do forEach os (fun p => addChild cfg p s.nobj); refresh cfg s.nobj; addOpt s.ndof s.nobj; pure s.nobj : M V Nat) g = .ok i s' := by
      simp only [run_bind]; exact h
    obtain ⟨fr, hdof⟩ := hm hp hk hrun
    have hi : i = s.nobj := by
      revert h
      cases forEach os (fun p => addChild cfg p s.nobj) g with
      | error e u => intro h; cases h
      | ok a u =>
        simp only []
        cases refresh cfg s.nobj u with
        | error e u => intro h; cases h
        | ok a u =>
          simp only []
          cases addOpt s.ndof s.nobj u with
          | error e u => intro h; cases h
          | ok a u => intro h; cases h; rfl
    have gn : g.nobj = s.nobj + 1 := by rw [← hg]; rfl
    have gd : g.ndof = s.ndof + 1 := by rw [← hg]; rfl
    have gp : (g.obj s.nobj).parents = os := by rw [← hg]; simp [State.grow, upd, freshObj]
    have gdo : (g.obj s.nobj).dofs = s.ndof := by rw [← hg]; simp [State.grow, upd, freshObj]
    have gx : g.dof s.ndof = r := by rw [← hg]; simp [State.grow, upd]
    have lt : s.nobj < g.nobj := by omega
    subst hi
    refine ⟨lt_of_lt_of_le lt fr.nobj, ?_, (fr.parents lt).trans gp, ?_⟩
    · rw [fr.dofs lt, gdo]; exact lt_of_lt_of_le (by omega) fr.ndof
    · unfold localFullX
      rw [fr.dofs lt, gdo, hdof, gx, hx]

theorem Later.frame {o : Nat} {s s' : State V} (h : Later cfg o s s') : Fr o s s' := by
  induction h with
  | refl => exact Fr.refl o _
  | step op _ hl ih => exact ih.trans (pres_exec op hl _)

/-! ### theorems -/

/-- **C13.** Whatever the arguments, keywords and marks (or none), and whatever happens to the graph afterwards, as
    long as nobody edits the object's own parents or replaces its DOFs object, `J()` calls the function with the
    original arguments in their original positions and under their original keywords, the ones marked `dof`
    replaced by the current entries of `local_full_x`. -/
theorem C13_call {cls : Nat} {args : List (Arg V A)} {kwargs : List (String × Arg V A)} {ind : Option (List String)}
    {s s1 s2 : State V} {t : Temp V A} (h : make cfg cls args kwargs ind s = .ok t s1) (hl : Later cfg t.oid s1 s2) :
    ∃ call, J s2 t = .ok call ∧ call.args.length = args.length ∧ call.kwargs.map Prod.fst = kwargs.map Prod.fst ∧
      Wanted (ind.getD []) (args ++ kwargs.map Prod.snd) (localFullX s2 t.oid) (call.args ++ call.kwargs.map Prod.snd) := by
  obtain ⟨p, im, xs, os, hs, hxs, hos, hnew, t1, t2, t3, t4⟩ := make_ok h
  obtain ⟨i1, i2, i3, i4⟩ := new_result hnew
  have fr := hl.frame
  have hpar : (s2.obj t.oid).parents = os := (fr.parents i1).trans i3
  have hlen : (localFullX s2 t.oid).length = p.dofs.length := by
    have e1 : (localFullX s2 t.oid).length = (localFullX s1 t.oid).length := by
      unfold localFullX; rw [fr.dofs i1]; exact fr.size _ i2
    rw [e1, i4, ← asNums_map hxs, List.length_map]
  obtain ⟨hsplit, hmark, hcount⟩ := split_run hs
  obtain ⟨out, c', hrun, holen, hspec⟩ := reassemble _ 0 {} p os (localFullX s2 t.oid) t {} hsplit t4 t3 (asObjs_map hos) hlen
    rfl rfl rfl (by simp)
  rw [List.length_append, pickLoop_add] at hrun
  have hJ : J s2 t = (match pickLoop os (localFullX s2 t.oid) t args.length 0 {} with
      | .error e => .error e
      | .ok (a, c) =>
        match pickLoop os (localFullX s2 t.oid) t (kwargs.map Prod.snd).length (0 + args.length) c with
        | .error e => .error e
        | .ok (vals, _) => .ok { args := a, kwargs := (kwargs.map Prod.fst).zip vals }) := by
    unfold J
    simp only [hpar, t1, t2, List.length_map, Nat.zero_add]
    rfl
  have plen : ∀ (n i : Nat) (c c' : Ctr) (l : List (Arg V A)), pickLoop os (localFullX s2 t.oid) t n i c = .ok (l, c') → l.length = n := by
    intro n
    induction n with
    | zero => intro i c c' l h; simp only [pickLoop, Except.ok.injEq, Prod.mk.injEq] at h; rw [← h.1]; rfl
    | succ n ih =>
      intro i c c' l h
      simp only [pickLoop] at h
      cases hp : pick os (localFullX s2 t.oid) t i c with
      | error e => rw [hp] at h; cases h
      | ok r =>
        obtain ⟨b, cb⟩ := r
        rw [hp] at h; simp only at h
        cases hq : pickLoop os (localFullX s2 t.oid) t n (i + 1) cb with
        | error e => rw [hq] at h; cases h
        | ok r =>
          obtain ⟨l', cl⟩ := r
          rw [hq] at h
          simp only [Except.ok.injEq, Prod.mk.injEq] at h
          rw [← h.1, List.length_cons, ih _ _ _ _ hq]
  cases ha : pickLoop os (localFullX s2 t.oid) t args.length 0 {} with
  | error e => rw [ha] at hrun; cases hrun
  | ok r =>
    obtain ⟨la, ca⟩ := r
    rw [ha] at hrun hJ
    simp only at hrun hJ
    cases hb : pickLoop os (localFullX s2 t.oid) t (kwargs.map Prod.snd).length (0 + args.length) ca with
    | error e => rw [hb] at hrun; cases hrun
    | ok r =>
      obtain ⟨lb, cb⟩ := r
      rw [hb] at hrun hJ
      simp only [Except.ok.injEq, Prod.mk.injEq] at hrun hJ
      have hla := plen _ _ _ _ _ ha
      have hlb := plen _ _ _ _ _ hb
      simp only [List.length_map] at hlb
      refine ⟨_, hJ, hla, ?_, ?_⟩
      · simp only []
        rw [List.map_fst_zip (by simp [hlb])]
      · simp only []
        rw [List.map_snd_zip (by simp [hlb]), hrun.1]
        refine ⟨by simpa using holen, fun j a hj => ?_⟩
        have := hspec j a hj
        simp only [Nat.zero_add] at this
        rw [this, hcount j]
        simp only [hmark j]

/-- **C13.** Right after creation the call is made with exactly the original arguments. -/
theorem C13_initial_call {cls : Nat} {args : List (Arg V A)} {kwargs : List (String × Arg V A)} {ind : Option (List String)}
    {s s1 : State V} {t : Temp V A} (h : make cfg cls args kwargs ind s = .ok t s1) :
    ∃ call, J s1 t = .ok call ∧ call.args = args ∧ call.kwargs = kwargs := by
  obtain ⟨p, im, xs, os, hs, hxs, hos, hnew, t1, t2, t3, t4⟩ := make_ok h
  obtain ⟨i1, i2, i3, i4⟩ := new_result hnew
  obtain ⟨hsplit, hmark, hcount⟩ := split_run hs
  obtain ⟨call, hJ, hl, hk, hw⟩ := C13_call h (Later.refl s1)
  refine ⟨call, hJ, ?_⟩
  -- the k-th dof is the argument carrying the k-th `dof` mark
  have hdof : ∀ (l : List (Arg V A)) (i : Nat) (q q' : Parts V A), splitLoop im i l q = .ok q' →
      q.dofs.length = (im.take i).count "dof" → ∀ j a, l[j]? = some a → im[i + j]? = some "dof" →
      q'.dofs[(im.take (i + j)).count "dof"]? = some a := by
    intro l
    induction l with
    | nil => intro i q q' _ _ j a hj; simp at hj
    | cons b l ih =>
      intro i q q' hq hc j a hj hd
      simp only [splitLoop] at hq
      cases hk : im[i]? with
      | none => rw [hk] at hq; cases hq
      | some k =>
        rw [hk] at hq; simp only at hq
        have htake : im.take (i + 1) = im.take i ++ [k] := by rw [List.take_add_one, hk]; rfl
        have next : ∀ r, splitLoop im (i + 1) l r = .ok q' → r.dofs.length = (im.take (i + 1)).count "dof" → j ≠ 0 →
            q'.dofs[(im.take (i + j)).count "dof"]? = some a := by
          intro r hr hrl hj0
          obtain ⟨j, rfl⟩ := Nat.exists_eq_succ_of_ne_zero hj0
          have := ih (i + 1) r q' hr hrl j a (by simpa using hj) (by rw [show i + 1 + j = i + j.succ by omega]; exact hd)
          rw [show i + 1 + j = i + j.succ by omega] at this
          exact this
        by_cases k1 : k = "opt"
        · rw [if_pos k1] at hq
          refine next _ hq (by rw [htake]; simp [Parts.addOpt, hc, k1]) ?_
          rintro rfl
          rw [Nat.add_zero, hk, k1] at hd; simp at hd
        · rw [if_neg k1] at hq
          by_cases k2 : k = "non-dof"
          · rw [if_pos k2] at hq
            refine next _ hq (by rw [htake]; simp [Parts.addNonDof, hc, k2]) ?_
            rintro rfl
            rw [Nat.add_zero, hk, k2] at hd; simp at hd
          · rw [if_neg k2] at hq
            by_cases k3 : k = "dof"
            · rw [if_pos k3] at hq
              by_cases hj0 : j = 0
              · subst hj0
                obtain ⟨_, ⟨r, hr⟩, _⟩ := splitLoop_prefix hq
                simp only [List.getElem?_cons_zero, Option.some.injEq] at hj
                subst hj
                rw [Nat.add_zero, ← hc, hr]
                exact getElem?_mid _ _ _
              · exact next _ hq (by rw [htake]; simp [Parts.addDof, hc, k3]) hj0
            · rw [if_neg k3] at hq; cases hq
  have hall : call.args ++ call.kwargs.map Prod.snd = args ++ kwargs.map Prod.snd := by
    apply List.ext_getElem?
    intro j
    cases hj : (args ++ kwargs.map Prod.snd)[j]? with
    | none =>
      rw [List.getElem?_eq_none_iff] at hj ⊢
      rw [hw.1]; exact hj
    | some a =>
      rw [hw.2 j a hj]
      split
      · rename_i hd
        have hd' := (hmark j).mpr hd
        have := hdof _ 0 {} p hsplit (by simp) j a hj (by simpa using hd')
        rw [Nat.zero_add, ← asNums_map hxs, List.getElem?_map, hcount j] at this
        rw [i4]; exact this
      · rfl
  have hsep := List.append_inj hall hl
  refine ⟨hsep.1, ?_⟩
  have h1 := hsep.2
  exact List.ext_getElem? fun j => by
    have e1 := congrArg (fun l => l[j]?) hk
    have e2 := congrArg (fun l => l[j]?) h1
    simp only [List.getElem?_map] at e1 e2
    cases ha : call.kwargs[j]? with
    | none => rw [ha] at e1; cases hb : kwargs[j]? with
      | none => rfl
      | some b => rw [hb] at e1; cases e1
    | some a =>
      cases hb : kwargs[j]? with
      | none => rw [ha, hb] at e1; cases e1
      | some b =>
        rw [ha, hb] at e1 e2
        simp only [Option.map_some, Option.some.injEq] at e1 e2
        rw [Prod.ext e1 e2]

/-- **C13.** A wrong number of marks is rejected, and nothing is created. -/
theorem C13_wrong_count_rejected (cls : Nat) (args : List (Arg V A)) (kwargs : List (String × Arg V A)) (ind : List String)
    (s : State V) (hkw : ∀ k ∈ kwargs.map Prod.fst, k ≠ "func" ∧ k ≠ "self")
    (h : ind.length ≠ args.length + kwargs.length) :
    make cfg cls args kwargs (some ind) s = .error .assertionError s := by
  unfold make
  rw [if_neg]
  · simp only [run_bind, liftG_run, split]
    rw [if_neg (fun e => h e.symm)]
  · simp only [List.any_eq_true, Bool.or_eq_true, beq_iff_eq, not_exists, not_and, not_or]
    exact hkw

/-- **C13.** A mark other than the three known ones is rejected, and nothing is created. -/
theorem C13_wrong_mark_rejected (cls : Nat) (args : List (Arg V A)) (kwargs : List (String × Arg V A)) (ind : List String)
    (s : State V) (hkw : ∀ k ∈ kwargs.map Prod.fst, k ≠ "func" ∧ k ≠ "self")
    (hlen : ind.length = args.length + kwargs.length) (h : ∃ k ∈ ind, k ≠ "opt" ∧ k ≠ "dof" ∧ k ≠ "non-dof") :
    make cfg cls args kwargs (some ind) s = .error .valueError s := by
  have key : ∀ (l : List (Arg V A)) (i : Nat) (q : Parts V A), i + l.length = ind.length →
      (∃ k ∈ ind.drop i, k ≠ "opt" ∧ k ≠ "dof" ∧ k ≠ "non-dof") → splitLoop ind i l q = .error .valueError := by
    intro l
    induction l with
    | nil =>
      intro i q hi ⟨k, hk, _⟩
      rw [List.drop_eq_nil_of_le (by simp at hi; omega)] at hk; cases hk
    | cons a l ih =>
      intro i q hi ⟨k, hk, hbad⟩
      simp only [List.length_cons] at hi
      have hlt : i < ind.length := by omega
      simp only [splitLoop, List.getElem?_eq_getElem hlt]
      rw [List.drop_eq_getElem_cons hlt] at hk
      have hrest : (ind[i] = "opt" ∨ ind[i] = "non-dof" ∨ ind[i] = "dof") → ∃ k ∈ ind.drop (i + 1), k ≠ "opt" ∧ k ≠ "dof" ∧ k ≠ "non-dof" := by
        intro hi'
        rcases List.mem_cons.mp hk with rfl | hk
        · exact absurd hi' (by simp only [not_or]; exact ⟨hbad.1, hbad.2.2, hbad.2.1⟩)
        · exact ⟨k, hk, hbad⟩
      split_ifs with c1 c2 c3
      · exact ih (i + 1) _ (by omega) (hrest (Or.inl c1))
      · exact ih (i + 1) _ (by omega) (hrest (Or.inr (Or.inl c2)))
      · exact ih (i + 1) _ (by omega) (hrest (Or.inr (Or.inr c3)))
      · rfl
  have hall := key (args ++ kwargs.map Prod.snd) 0 {} (by simp [hlen]) (by simpa using h)
  rw [splitLoop_append] at hall
  unfold make
  rw [if_neg]
  · simp only [run_bind, liftG_run, split]
    rw [if_pos hlen.symm]
    cases h1 : splitLoop ind 0 args ({} : Parts V A) with
    | error e => rw [h1] at hall; simp only [Except.error.injEq] at hall; subst hall; rfl
    | ok q =>
      rw [h1] at hall
      simp only [Nat.zero_add] at hall
      simp only [hall]
  · simp only [List.any_eq_true, Bool.or_eq_true, beq_iff_eq, not_exists, not_and, not_or]
    exact hkw

end Simsopt.MakeOpt
