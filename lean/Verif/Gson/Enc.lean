import Verif.Gson.Spec
/-!
# The encoder writes every reachable object exactly once
-/
namespace Simsopt.Gson
open Simsopt

variable {A : Type}

mutual
/-- The document of a plain value. -/
def docV (H : Heap A) : Val A → J A
  | .atom a => .atom a
  | .str s => .str s
  | .list l => .arr (docL H l)
  | .tuple l => .arr (docL H l)
  | .dict l => .dict (docD H l)
  | .ref o => refDoc (H o).name
  | .meth o _ _ => refDoc (H o).name
def docL (H : Heap A) : List (Val A) → List (J A)
  | [] => []
  | v :: l => docV H v :: docL H l
def docD (H : Heap A) : List (String × Val A) → List (String × J A)
  | [] => []
  | (k, v) :: l => (k, docV H v) :: docD H l
end

/-- The entry of an object. -/
def docO (H : Heap A) (o : Nat) : J A := objDoc (H o) (docD H (H o).args)

/-- The entries of a list of objects. -/
def docs (H : Heap A) (L : List Nat) : Objs A := L.map fun o => ((H o).name, docO H o)

/-- A domain closed under attributes on which names are different and values plain. -/
structure Dom (H : Heap A) (D : Nat → Prop) (rank : Nat → Nat) : Prop where
  closed : ∀ o, D o → ∀ o' ∈ refsD (H o).args, D o'
  plain : ∀ o, D o → plainD (H o).args = true
  names : ∀ o o', D o → D o' → (H o).name = (H o').name → o = o'
  rank : ∀ o, D o → ∀ o' ∈ refsD (H o).args, rank o' < rank o

/-- A list of objects of the domain without repetition that contains the attributes of its members. -/
structure Good (H : Heap A) (D : Nat → Prop) (L : List Nat) : Prop where
  nodup : L.Nodup
  dom : ∀ o ∈ L, D o
  closed : ∀ o ∈ L, ∀ o' ∈ refsD (H o).args, o' ∈ L

theorem get?_map_name {B : Type} (H : Heap A) (g : Nat → B) {D : Nat → Prop} {rank : Nat → Nat} (hd : Dom H D rank) :
    ∀ (L : List Nat), (∀ o ∈ L, D o) → ∀ o, D o →
      get? (H o).name (L.map fun o => ((H o).name, g o)) = if o ∈ L then some (g o) else none := by
  intro L
  induction L with
  | nil => intro _ o _; simp [get?]
  | cons a L ih =>
    intro hL o ho
    simp only [List.map_cons, get?]
    by_cases hn : (H a).name = (H o).name
    · have : a = o := hd.names a o (hL a (by simp)) ho hn
      subst this
      simp
    · rw [if_neg hn, ih (fun o h => hL o (by simp [h])) o ho]
      have : o ≠ a := fun h => hn (by rw [h])
      simp [this]

theorem assign_append {B : Type} (k : String) (v : B) : ∀ (d : List (String × B)), get? k d = none → assign k v d = d ++ [(k, v)] := by
  intro d
  induction d with
  | nil => intro _; rfl
  | cons a d ih =>
    intro h
    obtain ⟨k', v'⟩ := a
    simp only [get?] at h
    by_cases hk : k' = k
    · simp [hk] at h
    · rw [if_neg hk] at h
      simp [assign, hk, ih h]

theorem assign_same {B : Type} (k : String) (v : B) : ∀ (d : List (String × B)), get? k d = some v → assign k v d = d := by
  intro d
  induction d with
  | nil => intro h; simp [get?] at h
  | cons a d ih =>
    intro h
    obtain ⟨k', v'⟩ := a
    simp only [get?] at h
    by_cases hk : k' = k
    · simp only [hk, if_true, Option.some.injEq] at h
      simp [assign, hk, h]
    · rw [if_neg hk] at h
      simp [assign, hk, ih h]

/-- `f` run from the entries of any good list writes the given result and appends objects reached from `R`. -/
def EncOK {Y : Type} (H : Heap A) (D : Nat → Prop) (f : Nat → Objs A → Except Err (Y × Objs A)) (y : Y) (R : List Nat) : Prop :=
  ∃ N, ∀ n, N ≤ n → ∀ L, Good H D L → ∃ T, f n (docs H L) = .ok (y, docs H (L ++ T)) ∧ Good H D (L ++ T) ∧
    (∀ o ∈ R, o ∈ L ++ T) ∧ (∀ o ∈ T, ∃ o0 ∈ R, ReachO H o0 o)

theorem EncOK.pure {Y : Type} {H : Heap A} {D : Nat → Prop} (f : Nat → Objs A → Except Err (Y × Objs A)) (y : Y)
    (h : ∀ n s, 1 ≤ n → f n s = .ok (y, s)) : EncOK H D f y [] :=
  ⟨1, fun n hn L hL => ⟨[], by simp [h n _ hn], by simpa using hL, by simp, by simp⟩⟩

/-- One more level of the same computation. -/
theorem EncOK.lift {Y Z : Type} {H : Heap A} {D : Nat → Prop} {f : Nat → Objs A → Except Err (Y × Objs A)} {y : Y} {R : List Nat}
    (hf : EncOK H D f y R) (g : Nat → Objs A → Except Err (Z × Objs A)) (z : Z)
    (h : ∀ n s s', f n s = .ok (y, s') → g (n + 1) s = .ok (z, s')) : EncOK H D g z R := by
  obtain ⟨N, hN⟩ := hf
  refine ⟨N + 1, fun n hn L hL => ?_⟩
  obtain ⟨m, rfl⟩ : ∃ m, n = m + 1 := ⟨n - 1, by omega⟩
  obtain ⟨T, h1, h2⟩ := hN m (by omega) L hL
  exact ⟨T, h _ _ _ h1, h2⟩

/-- Sequencing. -/
theorem EncOK.seq {Y Z W : Type} {H : Heap A} {D : Nat → Prop} {f : Nat → Objs A → Except Err (Y × Objs A)} {y : Y} {R : List Nat}
    {g : Nat → Objs A → Except Err (Z × Objs A)} {z : Z} {R' : List Nat} (hf : EncOK H D f y R) (hg : EncOK H D g z R')
    (k : Nat → Objs A → Except Err (W × Objs A)) (w : W)
    (h : ∀ n s s' s'', f n s = .ok (y, s') → g n s' = .ok (z, s'') → k n s = .ok (w, s'')) : EncOK H D k w (R ++ R') := by
  obtain ⟨N, hN⟩ := hf
  obtain ⟨M, hM⟩ := hg
  refine ⟨max N M, fun n hn L hL => ?_⟩
  obtain ⟨T, h1, h2, h3, h4⟩ := hN n (by omega) L hL
  obtain ⟨T', g1, g2, g3, g4⟩ := hM n (by omega) (L ++ T) h2
  refine ⟨T ++ T', ?_, by rwa [← List.append_assoc], ?_, ?_⟩
  · rw [← List.append_assoc]; exact h _ _ _ _ h1 g1
  · intro o ho
    rw [← List.append_assoc]
    rcases List.mem_append.1 ho with ho | ho
    · exact List.mem_append_left _ (h3 o ho)
    · exact g3 o ho
  · intro o ho
    rcases List.mem_append.1 ho with ho | ho
    · obtain ⟨o0, a, b⟩ := h4 o ho; exact ⟨o0, List.mem_append_left _ a, b⟩
    · obtain ⟨o0, a, b⟩ := g4 o ho; exact ⟨o0, List.mem_append_right _ a, b⟩

mutual
theorem enc_val (H : Heap A) (D : Nat → Prop) : ∀ (v : Val A), v.plain = true →
    (∀ o ∈ v.refs, EncOK H D (fun n => enc H n (.ref o)) (refDoc (H o).name) [o]) → EncOK H D (fun n => enc H n v) (docV H v) v.refs
  | .atom a, _, _ => EncOK.pure _ _ (fun n s hn => by obtain ⟨m, rfl⟩ : ∃ m, n = m + 1 := ⟨n - 1, by omega⟩; rfl)
  | .str a, _, _ => EncOK.pure _ _ (fun n s hn => by obtain ⟨m, rfl⟩ : ∃ m, n = m + 1 := ⟨n - 1, by omega⟩; rfl)
  | .list l, hp, hr => (enc_list H D l (by simpa [Val.plain] using hp) (by simpa [Val.refs] using hr)).lift _ _
      (fun n s s' h => by simp [enc, h, docV])
  | .tuple l, hp, hr => (enc_list H D l (by simpa [Val.plain] using hp) (by simpa [Val.refs] using hr)).lift _ _
      (fun n s s' h => by simp [enc, h, docV])
  | .dict l, hp, hr => (enc_dict H D l (by simpa [Val.plain] using hp) (by simpa [Val.refs] using hr)).lift _ _
      (fun n s s' h => by simp [enc, h, docV])
  | .ref o, _, hr => hr o (by simp [Val.refs])
  | .meth o m q, hp, _ => by simp [Val.plain] at hp
theorem enc_list (H : Heap A) (D : Nat → Prop) : ∀ (l : List (Val A)), plainL l = true →
    (∀ o ∈ refsL l, EncOK H D (fun n => enc H n (.ref o)) (refDoc (H o).name) [o]) →
    EncOK H D (fun n => mapS (enc H n) l) (docL H l) (refsL l)
  | [], _, _ => EncOK.pure _ _ (fun n s _ => rfl)
  | v :: l, hp, hr => by
    simp only [plainL, Bool.and_eq_true] at hp
    simp only [refsL, List.mem_append] at hr
    exact (enc_val H D v hp.1 (fun o ho => hr o (.inl ho))).seq (enc_list H D l hp.2 (fun o ho => hr o (.inr ho))) _ _
      (fun n s s' s'' h h' => by simp [mapS, h, h', docL])
theorem enc_dict (H : Heap A) (D : Nat → Prop) : ∀ (l : List (String × Val A)), plainD l = true →
    (∀ o ∈ refsD l, EncOK H D (fun n => enc H n (.ref o)) (refDoc (H o).name) [o]) →
    EncOK H D (fun n => mapD (enc H n) l) (docD H l) (refsD l)
  | [], _, _ => EncOK.pure _ _ (fun n s _ => rfl)
  | (k, v) :: l, hp, hr => by
    simp only [plainD, Bool.and_eq_true] at hp
    simp only [refsD, List.mem_append] at hr
    exact (enc_val H D v hp.1.2 (fun o ho => hr o (.inl ho))).seq (enc_dict H D l hp.2 (fun o ho => hr o (.inr ho))) _ _
      (fun n s s' s'' h h' => by simp only [mapD] at h'; simp [mapD, mapS, h, h', docD])
end

theorem ReachO.trans {H : Heap A} {a b c : Nat} (h : ReachO H a b) (h' : ReachO H b c) : ReachO H a c := by
  induction h with
  | refl => exact h'
  | step hm _ ih => exact .step hm (ih h')

theorem ReachO.dom {H : Heap A} {D : Nat → Prop} {rank : Nat → Nat} (hd : Dom H D rank) {a b : Nat} (h : ReachO H a b) :
    D a → D b ∧ rank b ≤ rank a := by
  induction h with
  | refl => exact fun h => ⟨h, Nat.le_refl _⟩
  | step hm _ ih =>
    intro ha
    have := ih (hd.closed _ ha _ hm)
    exact ⟨this.1, Nat.le_trans this.2 (Nat.le_of_lt (hd.rank _ ha _ hm))⟩

theorem enc_ref {H : Heap A} {D : Nat → Prop} {rank : Nat → Nat} (hd : Dom H D rank) : ∀ (r : Nat) (o : Nat), rank o < r → D o →
    EncOK H D (fun n => enc H n (.ref o)) (refDoc (H o).name) [o] := by
  intro r
  induction r with
  | zero => intro o h; omega
  | succ r ih =>
    intro o hr ho
    obtain ⟨N, hN⟩ := enc_dict H D (H o).args (hd.plain o ho)
      (fun o' ho' => ih o' (by have := hd.rank o ho o' ho'; omega) (hd.closed o ho o' ho'))
    refine ⟨N + 1, fun n hn L hL => ?_⟩
    obtain ⟨m, rfl⟩ : ∃ m, n = m + 1 := ⟨n - 1, by omega⟩
    by_cases hm : o ∈ L
    · refine ⟨[], ?_, by simpa using hL, by simpa using hm, by simp⟩
      have : hasKey (H o).name (docs H L) = true := by
        simp [hasKey, docs, get?_map_name H (docO H) hd L hL.dom o ho, hm]
      simp [enc, this]
    · obtain ⟨T, h1, h2, h3, h4⟩ := hN m (by omega) L hL
      have hk : hasKey (H o).name (docs H L) = false := by
        simp [hasKey, docs, get?_map_name H (docO H) hd L hL.dom o ho, hm]
      have hT : o ∉ T := by
        intro hoT
        obtain ⟨o0, a, b⟩ := h4 o hoT
        have h5 := (b.dom hd (hd.closed o ho o0 a)).2
        have h6 := hd.rank o ho o0 a
        omega
      have hLT : o ∉ L ++ T := by simp [hm, hT]
      have hg : get? (H o).name (docs H (L ++ T)) = none := by
        rw [docs, get?_map_name H (docO H) hd _ h2.dom o ho, if_neg hLT]
      refine ⟨T ++ [o], ?_, ?_, by simp, ?_⟩
      · simp only at h1
        simp only [enc, hk, h1, assign_append _ _ _ hg]
        simp [docs, docO]
      · rw [← List.append_assoc]
        refine ⟨?_, ?_, ?_⟩
        · rw [List.nodup_append]
          refine ⟨h2.nodup, by simp, ?_⟩
          intro a ha b hb
          simp only [List.mem_singleton] at hb
          rintro rfl
          exact hLT (hb ▸ ha)
        · intro a ha
          rcases List.mem_append.1 ha with ha | ha
          · exact h2.dom a ha
          · simp only [List.mem_singleton] at ha; exact ha ▸ ho
        · intro a ha o' ho'
          rcases List.mem_append.1 ha with ha | ha
          · exact List.mem_append_left _ (h2.closed a ha o' ho')
          · simp only [List.mem_singleton] at ha
            exact List.mem_append_left _ (h3 o' (ha ▸ ho'))
      · intro a ha
        rcases List.mem_append.1 ha with ha | ha
        · obtain ⟨o0, b, c⟩ := h4 a ha
          exact ⟨o, by simp, .step b c⟩
        · simp only [List.mem_singleton] at ha
          exact ⟨o, by simp, by rw [ha]; exact .refl o⟩

/-- Saving from scratch. -/
theorem save_ok {H : Heap A} {D : Nat → Prop} {rank : Nat → Nat} (hd : Dom H D rank) (root : Val A) (hp : root.plain = true)
    (hr : ∀ o ∈ root.refs, D o) : ∃ N, ∀ depth, N ≤ depth → ∃ L, save H depth root = .ok (docV H root, docs H L) ∧ Good H D L ∧
      (∀ o ∈ root.refs, o ∈ L) ∧ (∀ o ∈ L, Reach H root o) := by
  obtain ⟨N, hN⟩ := enc_val H D root hp (fun o ho => enc_ref hd _ o (Nat.lt_succ_self _) (hr o ho))
  refine ⟨N, fun n hn => ?_⟩
  obtain ⟨T, h1, h2, h3, h4⟩ := hN n hn [] ⟨by simp, by simp, by simp⟩
  exact ⟨T, by simpa [save, docs] using h1, by simpa using h2, by simpa using h3, fun o ho => h4 o ho⟩

end Simsopt.Gson
