import Verif.Gson.Enc
/-!
# The decoder builds every object of the document exactly once
-/
namespace Simsopt.Gson
open Simsopt

variable {A : Type}

mutual
theorem image_congr (f g : Nat → Nat) : ∀ (v : Val A), (∀ o ∈ v.refs, f o = g o) → v.image f = v.image g
  | .atom _, _ => rfl
  | .str _, _ => rfl
  | .list l, h => by simp only [Val.image, imageL_congr f g l (by simpa [Val.refs] using h)]
  | .tuple l, h => by simp only [Val.image, imageL_congr f g l (by simpa [Val.refs] using h)]
  | .dict l, h => by simp only [Val.image, imageD_congr f g l (by simpa [Val.refs] using h)]
  | .ref o, h => by simp only [Val.image, h o (by simp [Val.refs])]
  | .meth o _ _, h => by simp only [Val.image, h o (by simp [Val.refs])]
theorem imageL_congr (f g : Nat → Nat) : ∀ (l : List (Val A)), (∀ o ∈ refsL l, f o = g o) → imageL f l = imageL g l
  | [], _ => rfl
  | v :: l, h => by
    simp only [refsL, List.mem_append] at h
    simp only [imageL, image_congr f g v (fun o ho => h o (.inl ho)), imageL_congr f g l (fun o ho => h o (.inr ho))]
theorem imageD_congr (f g : Nat → Nat) : ∀ (l : List (String × Val A)), (∀ o ∈ refsD l, f o = g o) → imageD f l = imageD g l
  | [], _ => rfl
  | (k, v) :: l, h => by
    simp only [refsD, List.mem_append] at h
    simp only [imageD, image_congr f g v (fun o ho => h o (.inl ho)), imageD_congr f g l (fun o ho => h o (.inr ho))]
end

/-- The object the decoder builds for `o` when the objects of `M` are numbered by position. -/
def newO (H : Heap A) (M : List Nat) (o : Nat) : New A := ⟨(H o).mod, (H o).cls, imageD (fun o => M.idxOf o) (H o).args⟩

/-- The decoder's state after the objects of `M` have been built. -/
def stOf (H : Heap A) (M : List Nat) : DSt A :=
  ⟨M.map fun o => ((H o).name, .ref (M.idxOf o)), M.map (newO H M)⟩

theorem idxOf_append_mem {o : Nat} {M T : List Nat} (h : o ∈ M) : (M ++ T).idxOf o = M.idxOf o := by
  rw [List.idxOf_append, if_pos h]

theorem idxOf_snoc {o : Nat} {M : List Nat} (h : o ∉ M) : (M ++ [o]).idxOf o = M.length := by
  rw [List.idxOf_append, if_neg h]; simp

theorem newO_append {H : Heap A} {D : Nat → Prop} {M : List Nat} (T : List Nat) {o : Nat} (h : ∀ o' ∈ refsD (H o).args, o' ∈ M) :
    newO H (M ++ T) o = newO H M o := by
  simp only [newO, imageD_congr (fun o => (M ++ T).idxOf o) (fun o => M.idxOf o) _ (fun o' ho' => idxOf_append_mem (h o' ho'))]

theorem stOf_snoc {H : Heap A} {D : Nat → Prop} {rank : Nat → Nat} (hd : Dom H D rank) {M : List Nat} (hM : Good H D M) {o : Nat} (ho : D o)
    (hn : o ∉ M) (hr : ∀ o' ∈ refsD (H o).args, o' ∈ M) :
    ((stOf H M).alloc (newO H M o)).register (H o).name (.ref (stOf H M).heap.length) = stOf H (M ++ [o]) := by
  have hg : get? (H o).name (stOf H M).recon = none := by
    rw [stOf, get?_map_name H _ hd _ hM.dom o ho, if_neg hn]
  simp only [DSt.register, DSt.alloc, assign_append _ _ _ hg]
  simp only [stOf, List.map_append, List.map_cons, List.map_nil, List.length_map, idxOf_snoc hn, newO_append (D := D) [o] hr]
  congr 1
  · congr 1
    apply List.map_congr_left
    intro a ha
    rw [idxOf_append_mem ha]
  · congr 1
    apply List.map_congr_left
    intro a ha
    rw [newO_append (D := D) [o] (hM.closed a ha)]

/-- `f` run from the state of any good list builds the image of the value and appends objects reached from `R`. -/
def DecOK {Y : Type} (H : Heap A) (D : Nat → Prop) (f : Nat → DSt A → Except Err (Y × DSt A)) (y : (Nat → Nat) → Y) (R : List Nat) : Prop :=
  ∃ N, ∀ n, N ≤ n → ∀ M, Good H D M → ∃ T, f n (stOf H M) = .ok (y (fun o => (M ++ T).idxOf o), stOf H (M ++ T)) ∧ Good H D (M ++ T) ∧
    (∀ o ∈ R, o ∈ M ++ T) ∧ (∀ o ∈ T, ∃ o0 ∈ R, ReachO H o0 o)

theorem DecOK.pure {Y : Type} {H : Heap A} {D : Nat → Prop} (f : Nat → DSt A → Except Err (Y × DSt A)) (y : (Nat → Nat) → Y)
    (h : ∀ n s g, 1 ≤ n → f n s = .ok (y g, s)) : DecOK H D f y [] :=
  ⟨1, fun n hn L hL => ⟨[], by simp [h n _ (fun o => (L ++ []).idxOf o) hn], by simpa using hL, by simp, by simp⟩⟩

theorem DecOK.lift {Y Z : Type} {H : Heap A} {D : Nat → Prop} {f : Nat → DSt A → Except Err (Y × DSt A)} {y : (Nat → Nat) → Y} {R : List Nat}
    (hf : DecOK H D f y R) (g : Nat → DSt A → Except Err (Z × DSt A)) (z : (Nat → Nat) → Z)
    (h : ∀ n s s' i, f n s = .ok (y i, s') → g (n + 1) s = .ok (z i, s')) : DecOK H D g z R := by
  obtain ⟨N, hN⟩ := hf
  refine ⟨N + 1, fun n hn L hL => ?_⟩
  obtain ⟨m, rfl⟩ : ∃ m, n = m + 1 := ⟨n - 1, by omega⟩
  obtain ⟨T, h1, h2⟩ := hN m (by omega) L hL
  exact ⟨T, h _ _ _ _ h1, h2⟩

theorem DecOK.seq {Y Z W : Type} {H : Heap A} {D : Nat → Prop} {f : Nat → DSt A → Except Err (Y × DSt A)} {y : (Nat → Nat) → Y} {R : List Nat}
    {g : Nat → DSt A → Except Err (Z × DSt A)} {z : (Nat → Nat) → Z} {R' : List Nat} (hf : DecOK H D f y R) (hg : DecOK H D g z R')
    (hy : ∀ i i', (∀ o ∈ R, i o = i' o) → y i = y i')
    (k : Nat → DSt A → Except Err (W × DSt A)) (w : (Nat → Nat) → W)
    (h : ∀ n s s' s'' i, f n s = .ok (y i, s') → g n s' = .ok (z i, s'') → k n s = .ok (w i, s'')) : DecOK H D k w (R ++ R') := by
  obtain ⟨N, hN⟩ := hf
  obtain ⟨M, hM⟩ := hg
  refine ⟨max N M, fun n hn L hL => ?_⟩
  obtain ⟨T, h1, h2, h3, h4⟩ := hN n (by omega) L hL
  obtain ⟨T', g1, g2, g3, g4⟩ := hM n (by omega) (L ++ T) h2
  refine ⟨T ++ T', ?_, by rwa [← List.append_assoc], ?_, ?_⟩
  · rw [← List.append_assoc]
    refine h _ _ _ _ _ ?_ g1
    rw [h1, hy _ (fun o => (L ++ T ++ T').idxOf o)]
    intro o ho
    exact (idxOf_append_mem (h3 o ho)).symm
  · intro o ho
    rw [← List.append_assoc]
    rcases List.mem_append.1 ho with ho | ho
    · exact List.mem_append_left _ (h3 o ho)
    · exact g3 o ho
  · intro o ho
    rcases List.mem_append.1 ho with ho | ho
    · obtain ⟨o0, a, b⟩ := h4 o ho; exact ⟨o0, List.mem_append_left _ a, b⟩
    · obtain ⟨o0, a, b⟩ := g4 o ho; exact ⟨o0, List.mem_append_right _ a, b⟩

/-! ### Reading the keys of documents -/

theorem get?_docD (H : Heap A) (k : String) (hk : k = "$type" ∨ isMeta k = true) : ∀ (l : List (String × Val A)), plainD l = true →
    get? k (docD H l) = none
  | [], _ => rfl
  | (k', v) :: l, hp => by
    simp only [plainD, Bool.and_eq_true, decide_eq_true_eq, Bool.not_eq_true'] at hp
    have : k' ≠ k := by
      rintro rfl
      rcases hk with h | h
      · exact hp.1.1.1 h
      · rw [hp.1.1.2] at h; cases h
    simp only [docD, get?, if_neg this]
    exact get?_docD H k hk l hp.2

theorem filter_docD (H : Heap A) : ∀ (l : List (String × Val A)), plainD l = true →
    (docD H l).filter (fun kv => !isMeta kv.1) = docD H l
  | [], _ => rfl
  | (k', v) :: l, hp => by
    simp only [plainD, Bool.and_eq_true, decide_eq_true_eq, Bool.not_eq_true'] at hp
    simp only [docD, List.filter_cons, hp.1.1.2, Bool.not_false, if_true, filter_docD H l hp.2]

theorem isMeta_module : isMeta "@module" = true := by decide +kernel
theorem isMeta_class : isMeta "@class" = true := by decide +kernel
theorem isMeta_name : isMeta "@name" = true := by decide +kernel
theorem isMeta_version : isMeta "@version" = true := by decide +kernel

/-- No redirection applies to the objects of the domain. -/
def NoRedirect (T : Redirect) (H : Heap A) (D : Nat → Prop) : Prop :=
  ∀ o, D o → hasKey (H o).cls ((get? (H o).mod T).getD []) = false

theorem dec_dict_step (T : Redirect) (known : String → String → Bool) (objs : Objs A) (H : Heap A) (n : Nat) (l : List (String × Val A))
    (hp : plainD l = true) (s s' : DSt A) (d : List (String × Val A)) (h : mapD (dec T known objs n) (docD H l) s = .ok (d, s')) :
    dec T known objs (n + 1) (.dict (docD H l)) s = .ok (.dict d, s') := by
  simp only [dec, get?_docD H "$type" (.inl rfl) l hp, get?_docD H "@module" (.inr isMeta_module) l hp, h]

theorem dec_obj_step (T : Redirect) (known : String → String → Bool) (objs : Objs A) (H : Heap A) (n : Nat) (o : Nat)
    (hp : plainD (H o).args = true) (hk : known (H o).mod (H o).cls = true) (hT : hasKey (H o).cls ((get? (H o).mod T).getD []) = false)
    (s s' : DSt A) (d : List (String × Val A))
    (h : mapD (dec T known objs n) (docD H (H o).args) s = .ok (d, s')) :
    dec T known objs (n + 1) (docO H o) s = .ok (.ref s'.heap.length,
      (s'.alloc ⟨(H o).mod, (H o).cls, d⟩).register (H o).name (.ref s'.heap.length)) := by
  have hf : ((("@module", J.str (H o).mod) :: ("@class", .str (H o).cls) :: ("@name", .str (H o).name) :: ("@version", (H o).version) ::
      docD H (H o).args).filter fun kv => !isMeta kv.1) = docD H (H o).args := by
    simp [List.filter_cons, isMeta_module, isMeta_class, isMeta_name, isMeta_version, filter_docD H _ hp]
  have h1 : get? "$type" (("@module", J.str (H o).mod) :: ("@class", .str (H o).cls) :: ("@name", .str (H o).name) ::
      ("@version", (H o).version) :: docD H (H o).args) = none := by
    simp [get?, get?_docD H "$type" (.inl rfl) _ hp]
  simp only [docO, objDoc, List.cons_append, List.nil_append, dec, h1, hf]
  simp [get?, redirect, hT, hk, h]

theorem mapD_cons {S X Y : Type} (f : X → S → Except Err (Y × S)) (k : String) (x : X) (d : List (String × X)) (s s' s'' : S) (y : Y)
    (ys : List (String × Y)) (h : f x s = .ok (y, s')) (h' : mapD f d s' = .ok (ys, s'')) :
    mapD f ((k, x) :: d) s = .ok ((k, y) :: ys, s'') := by
  simp only [mapD] at h'
  simp [mapD, mapS, h, h']

mutual
theorem dec_val (T : Redirect) (known : String → String → Bool) (objs : Objs A) (H : Heap A) (D : Nat → Prop) :
    ∀ (v : Val A), v.plain = true →
    (∀ o ∈ v.refs, DecOK H D (fun n => dec T known objs n (refDoc (H o).name)) (fun f => .ref (f o)) [o]) →
    DecOK H D (fun n => dec T known objs n (docV H v)) (fun f => v.image f) v.refs
  | .atom a, _, _ => DecOK.pure _ _ (fun n s _ hn => by obtain ⟨m, rfl⟩ : ∃ m, n = m + 1 := ⟨n - 1, by omega⟩; rfl)
  | .str a, _, _ => DecOK.pure _ _ (fun n s _ hn => by obtain ⟨m, rfl⟩ : ∃ m, n = m + 1 := ⟨n - 1, by omega⟩; rfl)
  | .list l, hp, hr => (dec_list T known objs H D l (by simpa [Val.plain] using hp) (by simpa [Val.refs] using hr)).lift _ _
      (fun n s s' i h => by simp [dec, docV, h, Val.image])
  | .tuple l, hp, hr => (dec_list T known objs H D l (by simpa [Val.plain] using hp) (by simpa [Val.refs] using hr)).lift _ _
      (fun n s s' i h => by simp [dec, docV, h, Val.image])
  | .dict l, hp, hr => (dec_dict T known objs H D l (by simpa [Val.plain] using hp) (by simpa [Val.refs] using hr)).lift _ _
      (fun n s s' i h => by
        simp only [docV, Val.image]
        exact dec_dict_step T known objs H n l (by simpa [Val.plain] using hp) s s' _ h)
  | .ref o, _, hr => hr o (by simp [Val.refs])
  | .meth o m q, hp, _ => by simp [Val.plain] at hp
theorem dec_list (T : Redirect) (known : String → String → Bool) (objs : Objs A) (H : Heap A) (D : Nat → Prop) :
    ∀ (l : List (Val A)), plainL l = true →
    (∀ o ∈ refsL l, DecOK H D (fun n => dec T known objs n (refDoc (H o).name)) (fun f => .ref (f o)) [o]) →
    DecOK H D (fun n => mapS (dec T known objs n) (docL H l)) (fun f => imageL f l) (refsL l)
  | [], _, _ => DecOK.pure _ _ (fun n s _ _ => rfl)
  | v :: l, hp, hr => by
    simp only [plainL, Bool.and_eq_true] at hp
    simp only [refsL, List.mem_append] at hr
    exact (dec_val T known objs H D v hp.1 (fun o ho => hr o (.inl ho))).seq (dec_list T known objs H D l hp.2 (fun o ho => hr o (.inr ho)))
      (fun i i' h => image_congr i i' v h) _ _
      (fun n s s' s'' i h h' => by simp [mapS, h, h', docL, imageL])
theorem dec_dict (T : Redirect) (known : String → String → Bool) (objs : Objs A) (H : Heap A) (D : Nat → Prop) :
    ∀ (l : List (String × Val A)), plainD l = true →
    (∀ o ∈ refsD l, DecOK H D (fun n => dec T known objs n (refDoc (H o).name)) (fun f => .ref (f o)) [o]) →
    DecOK H D (fun n => mapD (dec T known objs n) (docD H l)) (fun f => imageD f l) (refsD l)
  | [], _, _ => DecOK.pure _ _ (fun n s _ _ => rfl)
  | (k, v) :: l, hp, hr => by
    simp only [plainD, Bool.and_eq_true] at hp
    simp only [refsD, List.mem_append] at hr
    exact (dec_val T known objs H D v hp.1.2 (fun o ho => hr o (.inl ho))).seq (dec_dict T known objs H D l hp.2 (fun o ho => hr o (.inr ho)))
      (fun i i' h => image_congr i i' v h) _ _
      (fun n s s' s'' i h h' => mapD_cons _ _ _ _ _ _ _ _ _ h h')
end

theorem dec_ref {T : Redirect} {known : String → String → Bool} {H : Heap A} {D : Nat → Prop} {rank : Nat → Nat} (hd : Dom H D rank)
    (hk : ∀ o, D o → known (H o).mod (H o).cls = true) (hT : NoRedirect T H D) {L : List Nat} (hL : ∀ o, D o ↔ o ∈ L) :
    ∀ (r : Nat) (o : Nat), rank o < r → D o →
      DecOK H D (fun n => dec T known (docs H L) n (refDoc (H o).name)) (fun f => .ref (f o)) [o] := by
  intro r
  induction r with
  | zero => intro o h; omega
  | succ r ih =>
    intro o hr ho
    obtain ⟨N, hN⟩ := dec_dict T known (docs H L) H D (H o).args (hd.plain o ho)
      (fun o' ho' => ih o' (by have := hd.rank o ho o' ho'; omega) (hd.closed o ho o' ho'))
    refine ⟨N + 2, fun n hn M hM => ?_⟩
    obtain ⟨m, rfl⟩ : ∃ m, n = m + 2 := ⟨n - 2, by omega⟩
    have hrec : get? (H o).name (stOf H M).recon = if o ∈ M then some (.ref (M.idxOf o)) else none := by
      rw [stOf, get?_map_name H _ hd _ hM.dom o ho]
    by_cases hm : o ∈ M
    · refine ⟨[], ?_, by simpa using hM, by simpa using hm, by simp⟩
      rw [if_pos hm] at hrec
      simp [dec, refDoc, get?, hrec]
    · obtain ⟨T', h1, h2, h3, h4⟩ := hN m (by omega) M hM
      rw [if_neg hm] at hrec
      have hT' : o ∉ T' := by
        intro hoT
        obtain ⟨o0, a, b⟩ := h4 o hoT
        have h5 := (b.dom hd (hd.closed o ho o0 a)).2
        have h6 := hd.rank o ho o0 a
        omega
      have hMT : o ∉ M ++ T' := by simp [hm, hT']
      have hobj : get? (H o).name (docs H L) = some (docO H o) := by
        rw [docs, get?_map_name H (docO H) hd _ (fun o h => (hL o).2 h) o ho, if_pos ((hL o).1 ho)]
      have hstep := dec_obj_step T known (docs H L) H m o (hd.plain o ho) (hk o ho) (hT o ho) _ _ _ h1
      have hsn : (((stOf H (M ++ T')).alloc ⟨(H o).mod, (H o).cls, imageD (fun o => (M ++ T').idxOf o) (H o).args⟩).register (H o).name
          (.ref (stOf H (M ++ T')).heap.length)) = stOf H (M ++ T' ++ [o]) := stOf_snoc hd h2 ho hMT h3
      rw [hsn] at hstep
      have hlen : (stOf H (M ++ T')).heap.length = (M ++ T' ++ [o]).idxOf o := by
        rw [idxOf_snoc hMT]; simp [stOf]
      have hgood : Good H D (M ++ T' ++ [o]) := by
        refine ⟨?_, ?_, ?_⟩
        · rw [List.nodup_append]
          refine ⟨h2.nodup, by simp, ?_⟩
          intro a ha b hb
          simp only [List.mem_singleton] at hb
          rintro rfl
          exact hMT (hb ▸ ha)
        · intro a ha
          rcases List.mem_append.1 ha with ha | ha
          · exact h2.dom a ha
          · simp only [List.mem_singleton] at ha; exact ha ▸ ho
        · intro a ha o' ho'
          rcases List.mem_append.1 ha with ha | ha
          · exact List.mem_append_left _ (h2.closed a ha o' ho')
          · simp only [List.mem_singleton] at ha
            exact List.mem_append_left _ (h3 o' (ha ▸ ho'))
      have hreg : (stOf H (M ++ T' ++ [o])).register (H o).name (.ref ((M ++ T' ++ [o]).idxOf o)) = stOf H (M ++ T' ++ [o]) := by
        rw [DSt.register, assign_same]
        rw [stOf, get?_map_name H _ hd _ hgood.dom o ho, if_pos (by simp)]
      refine ⟨T' ++ [o], ?_, by rwa [← List.append_assoc], by simp, ?_⟩
      · rw [← List.append_assoc]
        rw [hlen] at hstep
        show dec T known (docs H L) (m + 1 + 1) (refDoc (H o).name) (stOf H M) = _
        simp only [refDoc, dec]
        simp only [get?]
        generalize M ++ T' ++ [o] = Q at *
        simp [hrec, hobj, hstep, hreg]
      · intro a ha
        rcases List.mem_append.1 ha with ha | ha
        · obtain ⟨o0, b, c⟩ := h4 a ha
          exact ⟨o, by simp, .step b c⟩
        · simp only [List.mem_singleton] at ha
          exact ⟨o, by simp, by rw [ha]; exact .refl o⟩

/-- Loading a document whose entries are those of the objects of the domain. -/
theorem load_ok {T : Redirect} {known : String → String → Bool} {H : Heap A} {D : Nat → Prop} {rank : Nat → Nat} (hd : Dom H D rank)
    (hk : ∀ o, D o → known (H o).mod (H o).cls = true) (hT : NoRedirect T H D) {L : List Nat} (hL : ∀ o, D o ↔ o ∈ L)
    (root : Val A) (hp : root.plain = true) (hr : ∀ o ∈ root.refs, D o) :
    ∃ N, ∀ depth, N ≤ depth → ∃ M, load T known depth (docV H root, docs H L) = .ok (root.image (fun o => M.idxOf o), M.map (newO H M)) ∧
      Good H D M ∧ (∀ o ∈ root.refs, o ∈ M) ∧ (∀ o ∈ M, Reach H root o) := by
  obtain ⟨N, hN⟩ := dec_val T known (docs H L) H D root hp (fun o ho => dec_ref hd hk hT hL _ o (Nat.lt_succ_self _) (hr o ho))
  refine ⟨N, fun n hn => ?_⟩
  obtain ⟨M, h1, h2, h3, h4⟩ := hN n hn [] ⟨by simp, by simp, by simp⟩
  refine ⟨M, ?_, by simpa using h2, by simpa using h3, fun o ho => h4 o ho⟩
  simp only [List.nil_append] at h1
  have : (⟨[], []⟩ : DSt A) = stOf H [] := rfl
  simp only [load, this, h1]
  rfl

end Simsopt.Gson
