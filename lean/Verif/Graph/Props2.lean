import Verif.Graph.Bulk
/-!
# Property theorems about lineage-wide setters and the external dof mirror: C12, C42, C43, C44
-/
set_option linter.unusedSimpArgs false
namespace Simsopt.Graph
open Dofs
variable {V : Type} {cfg : Cfg V}

/-! ### list facts -/

theorem slices_flatMap {α : Type} (v : List α) : ∀ (opts : List Nat) (f : Nat → Nat) (a : Nat),
    a + (opts.map f).sum ≤ v.length →
    (opts.zip (offsetPairs a (opts.map f))).flatMap (fun e => pySlice v e.2.1 e.2.2) = (v.drop a).take (opts.map f).sum ∧
    ∀ e ∈ opts.zip (offsetPairs a (opts.map f)), (pySlice v e.2.1 e.2.2).length = f e.1 := by
  intro opts f
  induction opts with
  | nil => intro a _; simp [offsetPairs]
  | cons o opts ih =>
    intro a h
    simp only [List.map_cons, List.sum_cons] at h ⊢
    obtain ⟨h1, h2⟩ := ih (a + f o) (by omega)
    simp only [offsetPairs, List.zip_cons_cons, List.flatMap_cons]
    refine ⟨?_, ?_⟩
    · rw [h1]
      have hs : pySlice v a (a + f o) = (v.drop a).take (f o) := by
        unfold pySlice; rw [List.drop_take]; congr 1; omega
      rw [hs, ← List.drop_drop, List.take_add]
    · intro e he
      rcases List.mem_cons.mp he with rfl | he
      · exact pySlice_length v a (f o) (by omega)
      · exact h2 e he

theorem zip_offset_fst (opts : List Nat) (f : Nat → Nat) (a : Nat) :
    (opts.zip (offsetPairs a (opts.map f))).map (·.1) = opts := by
  apply List.map_fst_zip
  rw [offsetPairs_length]; simp

section
variable (hn : NameInj cfg) (hsh : ShuffleOK cfg) {s s' : State V} (hr : Reachable cfg s)
include hn hsh hr

/-! ### C12: bounds of the whole lineage -/

theorem bounds_spec {B : BField V} (hB : B.OK) (i : Nat) (hi : s.alive i = true) (v : List V) :
    (v.length ≠ (s.obj i).freeSize ∧ setBoundsWith B.set i v s = .error .valueError s) ∨
    (v.length = (s.obj i).freeSize ∧ ∃ s', setBoundsWith B.set i v s = .ok () s' ∧ s'.obj = s.obj ∧
      (s.obj i).uniq.flatMap (fun o => gather (s'.dof (s.obj o).dofs).free (B.get (s'.dof (s.obj o).dofs))) = v ∧
      (∀ d, d ∉ (s.obj i).uniq.map (fun o => (s.obj o).dofs) → s'.dof d = s.dof d) ∧
      (∀ d, (∃ w, s'.dof d = B.put (s.dof d) w ∧ ∀ k : Nat, (s.dof d).free[k]? = some false → w[k]? = (B.get (s.dof d))[k]?)
        ∨ s'.dof d = s.dof d)) := by
  have h := hr.inv hn hsh
  rw [setBoundsWith_eq, h.lastIndex_free hn hi]
  simp only
  by_cases hl : (s.obj i).freeSize = v.length
  · right
    refine ⟨hl.symm, ?_⟩
    simp only [hl, ne_eq, not_true_eq_false, if_false]
    rw [h.freeIdx_eq hn hi]
    obtain ⟨s', e, o, _, fx, fr, sm⟩ := boundLoop hB v (s.obj i).uniq 0 s (fun d => hB.get_len _ (h.dofs.wf d))
      (h.uniq_dofs_nodup hi) (by rw [← hl, (h.free i hi).size]; simp)
    exact ⟨s', e, o, by simpa using fx, fr, sm⟩
  · left
    refine ⟨fun e => hl e.symm, ?_⟩
    simp only [ne_eq, hl, not_false_eq_true, if_true]

/-- `obj.lower_bounds = v` and `obj.upper_bounds = v`: accepted exactly for `dof_size` entries, read back as `v`, and
    nothing but the corresponding bounds of the free dofs of the lineage changes. -/
theorem C12_lineage_bounds (i : Nat) (hi : s.alive i = true) (v : List V) :
    (v.length ≠ (s.obj i).freeSize → exec cfg (.bounds i (.lb v)) s = .error .valueError s ∧
        exec cfg (.bounds i (.ub v)) s = .error .valueError s) ∧
    (v.length = (s.obj i).freeSize →
      (∃ t, exec cfg (.bounds i (.lb v)) s = .ok () t ∧ getLb t i = v ∧ t.obj = s.obj ∧
        (∀ d, (∀ o, DependsOn s i o → (s.obj o).dofs ≠ d) → t.dof d = s.dof d) ∧
        ∀ d, (t.dof d).x = (s.dof d).x ∧ (t.dof d).names = (s.dof d).names ∧ (t.dof d).free = (s.dof d).free ∧
          (t.dof d).ub = (s.dof d).ub ∧ ∀ k : Nat, (s.dof d).free[k]? = some false → (t.dof d).lb[k]? = (s.dof d).lb[k]?) ∧
      (∃ t, exec cfg (.bounds i (.ub v)) s = .ok () t ∧ getUb t i = v ∧ t.obj = s.obj ∧
        (∀ d, (∀ o, DependsOn s i o → (s.obj o).dofs ≠ d) → t.dof d = s.dof d) ∧
        ∀ d, (t.dof d).x = (s.dof d).x ∧ (t.dof d).names = (s.dof d).names ∧ (t.dof d).free = (s.dof d).free ∧
          (t.dof d).lb = (s.dof d).lb ∧ ∀ k : Nat, (s.dof d).free[k]? = some false → (t.dof d).ub[k]? = (s.dof d).ub[k]?)) := by
  have h := hr.inv hn hsh
  have hmem : ∀ d, (∀ o, DependsOn s i o → (s.obj o).dofs ≠ d) → d ∉ (s.obj i).uniq.map (fun o => (s.obj o).dofs) := by
    intro d hd hc
    obtain ⟨o, ho, e⟩ := List.mem_map.mp hc
    exact hd o (h.uniq_mem hn hi ho).1 e
  have L := bounds_spec hn hsh hr lbF_ok i hi v
  have U := bounds_spec hn hsh hr ubF_ok i hi v
  refine ⟨?_, ?_⟩
  · intro hl
    exact ⟨(L.resolve_right (fun q => hl q.1)).2, (U.resolve_right (fun q => hl q.1)).2⟩
  · intro hl
    refine ⟨?_, ?_⟩
    · obtain ⟨_, t, e, o, fx, fr, sm⟩ := L.resolve_left (fun q => q.1 hl)
      refine ⟨t, e, ?_, o, fun d hd => fr d (hmem d hd), ?_⟩
      · unfold getLb; rw [o]; exact fx
      · intro d
        rcases sm d with ⟨w, e, hw⟩ | e
        · rw [e]; exact ⟨rfl, rfl, rfl, rfl, hw⟩
        · rw [e]; exact ⟨rfl, rfl, rfl, rfl, fun _ _ => rfl⟩
    · obtain ⟨_, t, e, o, fx, fr, sm⟩ := U.resolve_left (fun q => q.1 hl)
      refine ⟨t, e, ?_, o, fun d hd => fr d (hmem d hd), ?_⟩
      · unfold getUb; rw [o]; exact fx
      · intro d
        rcases sm d with ⟨w, e, hw⟩ | e
        · rw [e]; exact ⟨rfl, rfl, rfl, rfl, hw⟩
        · rw [e]; exact ⟨rfl, rfl, rfl, rfl, fun _ _ => rfl⟩

/-! ### C43: `full_x` of the whole lineage -/

/-- `obj.full_x = v` with at least `full_dof_size` entries: the lineage holds the first `full_dof_size` of them, everything
    else is untouched.  (Extra entries are silently ignored: `C43_overlong_violated`.) -/
theorem C43_full_x (i : Nat) (hi : s.alive i = true) (v : List V) (hd : NoDeepChain cfg s)
    (hl : (s.obj i).fullSize ≤ v.length) :
    ∃ t, exec cfg (.setFullX i v) s = .ok () t ∧ getFullX t i = v.take (s.obj i).fullSize ∧
      (∀ d, (∀ o, DependsOn s i o → (s.obj o).dofs ≠ d) → t.dof d = s.dof d) ∧
      (∀ d, (t.dof d).names = (s.dof d).names ∧ (t.dof d).free = (s.dof d).free ∧ (t.dof d).lb = (s.dof d).lb ∧
        (t.dof d).ub = (s.dof d).ub) := by
  have h := hr.inv hn hsh
  have hsz := (h.full i hi).size
  show ∃ t, setFullX cfg i v s = .ok () t ∧ _
  have heq : setFullX cfg i v s = forEach (s.obj i).fullIdx (fun e => setLocalFullX cfg e.1 (pySlice v e.2.1 e.2.2)) s := rfl
  rw [heq, h.fullIdx_eq hn hi]
  have := setFullXLoop v (s.obj i).uniq 0 s h (h.uniq_dofs_nodup hi) (by rw [← hsz]; omega)
  rcases this with ⟨s1, _, hns⟩ | ⟨t, e, _, vr, fx, fr, sm⟩
  · exact absurd (hd.shallow h.graph) hns
  · refine ⟨t, e, ?_, ?_, fun d => sm d⟩
    · unfold getFullX
      rw [vr.uniq]
      simp only [vr.dofs]
      have : (s.obj i).uniq.flatMap (fun o => (t.dof (s.obj o).dofs).fullX) =
        (s.obj i).uniq.flatMap (fun o => (t.dof (s.obj o).dofs).x) := rfl
      rw [this, fx, hsz]; simp
    · intro d hdd
      apply fr
      intro hc
      obtain ⟨o, ho, e⟩ := List.mem_map.mp hc
      exact hdd o (h.uniq_mem hn hi ho).1 e

/-- Exact length: what is read back is what was written. -/
theorem C43_full_x_round_trip (i : Nat) (hi : s.alive i = true) (v : List V) (hd : NoDeepChain cfg s)
    (hl : v.length = (s.obj i).fullSize) : ∃ t, exec cfg (.setFullX i v) s = .ok () t ∧ getFullX t i = v := by
  obtain ⟨t, e, fx, _⟩ := C43_full_x hn hsh hr i hi v hd (le_of_eq hl.symm)
  exact ⟨t, e, by rw [fx, ← hl, List.take_length]⟩

/-! ### C44: free/fixed status of the whole lineage -/

omit hsh hr in
theorem mask_result {i : Nat} (h : Inv cfg s) (hi : s.alive i = true) {t : State V} (h' : Inv cfg t)
    (mr : MaskRel s t) (g : Nat → List Bool)
    (hg : ∀ o ∈ (s.obj i).uniq, (t.dof (s.obj o).dofs).free = g o)
    (hfr : ∀ d, d ∉ (s.obj i).uniq.map (fun o => (s.obj o).dofs) → t.dof d = s.dof d) :
    freeStatus t i = (s.obj i).uniq.flatMap g ∧ getFullX t i = getFullX s i ∧
    (t.obj i).freeSize = ((s.obj i).uniq.flatMap g).count true ∧
    (∀ d, (∀ o, DependsOn s i o → (s.obj o).dofs ≠ d) → t.dof d = s.dof d) := by
  have hu : (t.obj i).uniq = (s.obj i).uniq := (mr.lineage i).2.1
  have hfs : freeStatus t i = (s.obj i).uniq.flatMap g := by
    unfold freeStatus
    rw [hu]
    apply List.flatMap_congr
    intro o ho
    rw [mr.dofs]; exact hg o ho
  have hit : t.alive i = true := by rw [mr.alive]; exact hi
  refine ⟨hfs, ?_, ?_, ?_⟩
  · unfold getFullX
    rw [hu]
    apply List.flatMap_congr
    intro o _
    rw [mr.dofs]; exact (mr.same _).1
  · rw [(h'.free i hit).size, ← hfs]
    unfold freeStatus
    rw [List.count_flatMap]
    congr 1
    apply List.map_congr_left
    intro o _
    simp only [Function.comp]
    rw [localSize_eq]; rfl
  · intro d hdd
    apply hfr
    intro hc
    obtain ⟨o, ho, e⟩ := List.mem_map.mp hc
    exact hdd o (h.uniq_mem hn hi ho).1 e

/-- `fix_all()` / `unfix_all()`: every dof of the lineage becomes fixed / free; no value, no other DOFs object changes. -/
theorem C44_fix_all (i : Nat) (hi : s.alive i = true) (hd : NoDeepChain cfg s) :
    (∃ t, exec cfg (.fixAll i) s = .ok () t ∧ (∀ b ∈ freeStatus t i, b = false) ∧ (t.obj i).freeSize = 0 ∧
      getFullX t i = getFullX s i ∧ (∀ d, (∀ o, DependsOn s i o → (s.obj o).dofs ≠ d) → t.dof d = s.dof d)) ∧
    (∃ t, exec cfg (.unfixAll i) s = .ok () t ∧ (∀ b ∈ freeStatus t i, b = true) ∧ (t.obj i).freeSize = (s.obj i).fullSize ∧
      getFullX t i = getFullX s i ∧ (∀ d, (∀ o, DependsOn s i o → (s.obj o).dofs ≠ d) → t.dof d = s.dof d)) := by
  have h := hr.inv hn hsh
  have hsh' := hd.shallow h.graph
  constructor
  · have loop := maskLoop hn (fun o => localFixAll cfg o) id
      (fun o => List.replicate (s.dof (s.obj o).dofs).free.length false)
      (fun b t ht ha hlen => by
        rw [localFixAll_eq]
        refine maskOp_ok hn mask_fixAll b t ht ha ?_
        simp only [List.length_replicate] at hlen
        rw [fixAll_run, hlen]; rfl) (s.obj i).uniq s h (fun o ho => (h.uniq_mem hn hi ho).2) (h.uniq_dofs_nodup hi)
      (fun o _ => by simp)
    rcases loop with ⟨t, _, hns⟩ | ⟨t, e, iv, mr, hg, hfr⟩
    · exact absurd hsh' hns
    · obtain ⟨r1, r2, r3, r4⟩ := mask_result hn h hi iv mr _ hg hfr
      refine ⟨t, e, ?_, ?_, r2, r4⟩
      · rw [r1]; intro b hb
        obtain ⟨o, _, hb⟩ := List.mem_flatMap.mp hb
        exact List.eq_of_mem_replicate hb
      · rw [r3, List.count_eq_zero]
        intro hc
        obtain ⟨o, _, hb⟩ := List.mem_flatMap.mp hc
        exact absurd (List.eq_of_mem_replicate hb) (by decide)
  · have loop := maskLoop hn (fun o => localUnfixAll cfg o) id
      (fun o => List.replicate (s.dof (s.obj o).dofs).free.length true)
      (fun b t ht ha hlen => by
        rw [localUnfixAll_eq]
        refine maskOp_ok hn mask_unfixAll b t ht ha ?_
        simp only [List.length_replicate] at hlen
        rw [unfixAll_run, hlen]; rfl) (s.obj i).uniq s h (fun o ho => (h.uniq_mem hn hi ho).2) (h.uniq_dofs_nodup hi)
      (fun o _ => by simp)
    rcases loop with ⟨t, _, hns⟩ | ⟨t, e, iv, mr, hg, hfr⟩
    · exact absurd hsh' hns
    · obtain ⟨r1, r2, r3, r4⟩ := mask_result hn h hi iv mr _ hg hfr
      refine ⟨t, e, ?_, ?_, r2, r4⟩
      · rw [r1]; intro b hb
        obtain ⟨o, _, hb⟩ := List.mem_flatMap.mp hb
        exact List.eq_of_mem_replicate hb
      · rw [r3, (h.full i hi).size, List.count_flatMap]
        congr 1
        apply List.map_congr_left
        intro o _
        simp [localFullSize, Dofs.len]

omit hn hsh hr in
theorem assignFree_ok (arr : List Bool) (r : Dofs V) (h : arr.length = r.free.length) :
    Dofs.assignFree arr r = .ok () { r with free := arr } := by
  rw [assignFree_run, if_pos h]

theorem fullMask_result (f : Bool → Bool) (i : Nat) (hi : s.alive i = true) (hd : NoDeepChain cfg s) (arr : List Bool)
    (hl : arr.length = (s.obj i).fullSize) :
    ∃ t, forEach (s.obj i).fullIdx (fun e => do
      let s ← get
      onDofs (s.obj e.1).dofs (Dofs.assignFree ((pySlice arr e.2.1 e.2.2).map f))
      updateOptIndices cfg (s.obj e.1).dofs) s = .ok () t ∧ freeStatus t i = arr.map f ∧
      getFullX t i = getFullX s i ∧ (∀ d, (∀ o, DependsOn s i o → (s.obj o).dofs ≠ d) → t.dof d = s.dof d) := by
  have h := hr.inv hn hsh
  have hsh' := hd.shallow h.graph
  have hsz := (h.full i hi).size
  rw [h.fullIdx_eq hn hi]
  obtain ⟨sl1, sl2⟩ := slices_flatMap arr (s.obj i).uniq (localFullSize s) 0 (by rw [hl, hsz]; omega)
  have hfst := zip_offset_fst (s.obj i).uniq (localFullSize s) 0
  generalize hL : (s.obj i).uniq.zip (offsetPairs 0 ((s.obj i).uniq.map (localFullSize s))) = L at *
  have hmemL : ∀ e ∈ L, e.1 ∈ (s.obj i).uniq := fun e he => by rw [← hfst]; exact List.mem_map_of_mem he
  have hdofsL : L.map (fun e => (s.obj e.1).dofs) = (s.obj i).uniq.map (fun o => (s.obj o).dofs) := by
    rw [← hfst, List.map_map]; rfl
  have loop := maskLoop hn (fun e : Nat × (Nat × Nat) => (do
      let s ← get
      onDofs (s.obj e.1).dofs (Dofs.assignFree ((pySlice arr e.2.1 e.2.2).map f))
      updateOptIndices cfg (s.obj e.1).dofs : M V Unit)) (fun e => e.1)
    (fun e => (pySlice arr e.2.1 e.2.2).map f)
    (fun e t ht ha hlen => maskAct_ok hn (mask_assignFree _) (t.obj e.1).dofs t ht (assignFree_ok _ _ hlen))
    L s h (fun e he => (h.uniq_mem hn hi (hmemL e he)).2) (by rw [hdofsL]; exact h.uniq_dofs_nodup hi)
    (fun e he => by rw [List.length_map, sl2 e he]; rfl)
  rcases loop with ⟨t, _, hns⟩ | ⟨t, e, iv, mr, hg, hfr⟩
  · exact absurd hsh' hns
  · rw [hdofsL] at hfr
    refine ⟨t, e, ?_, ?_⟩
    · unfold freeStatus
      rw [(mr.lineage i).2.1]
      have : (s.obj i).uniq.flatMap (fun o => (t.dof (t.obj o).dofs).free) = L.flatMap (fun e => (pySlice arr e.2.1 e.2.2).map f) := by
        rw [← hfst, List.flatMap_map]
        apply List.flatMap_congr
        intro e he
        rw [mr.dofs]; exact hg e he
      rw [this, ← List.map_flatMap, sl1, ← hsz, ← hl]; simp
    · obtain ⟨_, r2, _, r4⟩ := mask_result hn h hi iv mr (fun o => (t.dof (s.obj o).dofs).free) (fun _ _ => rfl) hfr
      exact ⟨r2, r4⟩

/-- `full_fix(arr)` / `full_unfix(arr)` with one flag per dof of the lineage: exactly the flagged dofs are fixed / free
    afterwards; no value, no other DOFs object changes. -/
theorem C44_full_fix (i : Nat) (hi : s.alive i = true) (hd : NoDeepChain cfg s) (arr : List Bool)
    (hl : arr.length = (s.obj i).fullSize) :
    (∃ t, exec cfg (.fullFix i arr) s = .ok () t ∧ freeStatus t i = arr.map (fun b => !b) ∧
      getFullX t i = getFullX s i ∧ (∀ d, (∀ o, DependsOn s i o → (s.obj o).dofs ≠ d) → t.dof d = s.dof d)) ∧
    (∃ t, exec cfg (.fullUnfix i arr) s = .ok () t ∧ freeStatus t i = arr ∧
      getFullX t i = getFullX s i ∧ (∀ d, (∀ o, DependsOn s i o → (s.obj o).dofs ≠ d) → t.dof d = s.dof d)) := by
  refine ⟨fullMask_result hn hsh hr (fun b => !b) i hi hd arr hl, ?_⟩
  have := fullMask_result hn hsh hr id i hi hd arr hl
  simp only [List.map_id] at this
  exact this

/-- `fix(key)` / `unfix(key)` on an object: the status of exactly the addressed dof of its own DOFs object changes, in
    every view of every object that depends on it. -/
theorem C02_object_fix (i : Nat) (hi : s.alive i = true) (hd : NoDeepChain cfg s) (k : Key) (n : Nat)
    (hk : Addresses (s.dof (s.obj i).dofs) k n) :
    (∃ t, exec cfg (.fix i k) s = .ok () t ∧ t.dof = upd s.dof (s.obj i).dofs
      { s.dof (s.obj i).dofs with free := (s.dof (s.obj i).dofs).free.set n false }) ∧
    (∃ t, exec cfg (.unfix i k) s = .ok () t ∧ t.dof = upd s.dof (s.obj i).dofs
      { s.dof (s.obj i).dofs with free := (s.dof (s.obj i).dofs).free.set n true }) := by
  have h := hr.inv hn hsh
  have hsh' := hd.shallow h.graph
  have hres := (resolve_ok (h.dofs.wf (s.obj i).dofs)).mpr hk
  have hfix : Dofs.fix k (s.dof (s.obj i).dofs) = .ok () { s.dof (s.obj i).dofs with free := (s.dof (s.obj i).dofs).free.set n false } := by
    simp [Dofs.fix, hres, Dofs.liftE, get, getThe, MonadStateOf.get, EStateM.get, bind, EStateM.bind, set, MonadStateOf.set, EStateM.set]
  have hunfix : Dofs.unfix k (s.dof (s.obj i).dofs) = .ok () { s.dof (s.obj i).dofs with free := (s.dof (s.obj i).dofs).free.set n true } := by
    simp [Dofs.unfix, hres, Dofs.liftE, get, getThe, MonadStateOf.get, EStateM.get, bind, EStateM.bind, set, MonadStateOf.set, EStateM.set]
  refine ⟨?_, ?_⟩
  · show ∃ t, fix cfg i k s = _ ∧ _
    rw [fix_eq]
    rcases maskOp_ok hn (mask_fix k) i s h hi hfix with ⟨t, _, hns⟩ | ⟨t, e, _, _, ed⟩
    · exact absurd hsh' hns
    · exact ⟨t, e, ed⟩
  · show ∃ t, unfix cfg i k s = _ ∧ _
    rw [unfix_eq]
    rcases maskOp_ok hn (mask_unfix k) i s h hi hunfix with ⟨t, _, hns⟩ | ⟨t, e, _, _, ed⟩
    · exact absurd hsh' hns
    · exact ⟨t, e, ed⟩

end

/-! ### C42: external mirror -/

theorem ReachableNoSwap.reachable {s : State V} (h : ReachableNoSwap cfg s) : Reachable cfg s := by
  induction h with
  | init => exact .init
  | step _ hs _ hst ih => exact .step ih hs hst

theorem Kept.mirror {s t : State V} (k : Kept s t) (hg : ∀ j, s.alive j = true → j < s.nobj)
    (hlt : ∀ j, s.alive j = true → (s.obj j).dofs < s.ndof)
    (hm : MirrorInSync s) (j : Nat) (hj : s.alive j = true) (hdofs : (t.obj j).dofs = (s.obj j).dofs)
    (hset : (t.obj j).setter = true) : (t.obj j).ext = (t.dof (t.obj j).dofs).x := by
  rw [k.ext j (hg j hj), hdofs, k.dof _ (hlt j hj)]
  exact hm j hj (by rw [← k.setter j (hg j hj)]; exact hset)

/-- On every execution that never swaps the DOFs of an object with an external setter, the C++ copy of the dofs equals the Python
    copy after every call (also after a call that raised). -/
theorem C42_mirror_in_sync (hn : NameInj cfg) (hsh : ShuffleOK cfg) {s : State V} (hr : ReachableNoSwap cfg s) :
    MirrorInSync s := by
  induction hr with
  | init => intro j hj; cases hj
  | @step s t op hr hsafe hno hst ih =>
    have h := hr.reachable.inv hn hsh
    have hlt := h.graph.lt
    have hdl : ∀ j, s.alive j = true → (s.obj j).dofs < s.ndof := h.dofs.lt
    have vrOK : ValRel s t → MirrorInSync t := by
      intro vr j hj hset
      rw [vr.alive] at hj
      refine vr.ext j hj (h.dofs.depIn j hj) ?_ ?_ (ih j hj ?_)
      · intro d hd; exact h.dofs.depOf j d hj hd
      · rw [← vr.flag.static.setter]; exact hset
      · rw [← vr.flag.static.setter]; exact hset
    have mrOK : MaskRel s t → MirrorInSync t := by
      intro mr j hj hset
      rw [mr.alive] at hj
      rw [(mr.lineage j).2.2.2.2.1, mr.dofs, (mr.same _).1]
      exact ih j hj (by rw [← mr.static.setter]; exact hset)
    have keptOK : Kept s t → (∀ j, t.alive j = true → s.alive j = true ∧ (t.obj j).dofs = (s.obj j).dofs) → MirrorInSync t := by
      intro k hk j hj hset
      exact k.mirror hlt hdl ih j (hk j hj).1 (hk j hj).2 hset
    have editOK : ∀ i ps, EditOK cfg s i ps t → MirrorInSync t := by
      intro i ps ok
      exact keptOK ok.2.1 (fun j hj => ⟨by rw [← ok.2.2.1]; exact hj, (ok.2.2.2.2.2.2.1 j).1⟩)
    have createOK : ∀ {s0 : State V} {cls d setter ps}, MirrorInSync s0 → Inv cfg s0 → CreateOK cfg s0 cls d setter ps t → MirrorInSync t := by
      intro s0 cls d setter ps hm0 h0 ok j hj hset
      obtain ⟨_, k, _, al, dd, _, _, pd, pset, _, pext, old, _⟩ := ok
      rw [al] at hj
      by_cases hjn : j = s0.nobj
      · subst hjn
        rw [pset] at hset
        rw [pext, pd, dd, hset]; rfl
      · rw [upd_ne _ _ _ _ hjn] at hj
        exact k.mirror h0.graph.lt h0.dofs.lt hm0 j hj (old j (h0.graph.lt j hj)).2.1 hset
    have same : t = s → MirrorInSync t := by rintro rfl; exact ih
    have byStep := step_ok hn hsh h hsafe hst
    have fin : (exec cfg op s = .error .recursionError t → False) := by
      intro e
      rcases hst with e' | ⟨_, hne, e'⟩
      · rw [e] at e'; cases e'
      · rw [e] at e'; cases e'; exact hne rfl
    have stp : ∀ {r}, exec cfg op s = r → (∃ u, r = .error .recursionError u) ∨ (∃ u, r = .ok () u ∧ (u = t → MirrorInSync t)) ∨
        (∃ e u, r = .error e u ∧ (u = t → MirrorInSync t)) → MirrorInSync t := by
      intro r er hr
      rcases hr with ⟨u, e⟩ | ⟨u, e, k⟩ | ⟨e', u, e, k⟩
      · rcases hst with e' | ⟨_, hne, e'⟩
        · rw [er, e] at e'; cases e'
        · rw [er, e] at e'; cases e'; exact absurd rfl hne
      · rcases hst with e' | ⟨_, hne, e'⟩
        · rw [er, e] at e'; cases e'; exact k rfl
        · rw [er, e] at e'; cases e'
      · rcases hst with e' | ⟨_, hne, e''⟩
        · rw [er, e] at e'; cases e'
        · rw [er, e] at e''; cases e''; exact k rfl
    cases op with
    | newDofs a =>
      refine stp (discard_run (newDofs cfg a) s) ?_
      rcases newDofs_spec hn a s h with ⟨e, _, h1⟩ | ⟨r, _, h1, _⟩
      · rw [h1]; right; right; exact ⟨_, _, rfl, fun e => same e.symm⟩
      · rw [h1]; right; left
        refine ⟨_, rfl, fun e => ?_⟩
        refine keptOK (e ▸ newDofs_kept s r) (fun j hj => ?_)
        subst e; exact ⟨hj, rfl⟩
    | new cls src setter depends dedup =>
      refine stp (discard_run (new cfg cls src setter depends dedup) s) ?_
      cases src with
      | shared d =>
        rw [new_shared_eq]
        rcases newWith_spec hn hsh cls d setter depends dedup s h hsafe.2 hsafe.1 with ⟨s', e⟩ | ⟨ps, s', _, e, ok⟩
        · rw [e]; left; exact ⟨_, rfl⟩
        · rw [e]; right; left; exact ⟨_, rfl, fun e => createOK ih h (e ▸ ok)⟩
      | fresh a =>
        rw [new_fresh_eq, run_bind]
        rcases newDofs_spec hn a s h with ⟨e, _, h1⟩ | ⟨r, _, h1, h2⟩
        · rw [h1]; right; right; exact ⟨_, _, rfl, fun e => same e.symm⟩
        · rw [h1]
          simp only
          have hm2 : MirrorInSync { s with ndof := s.ndof + 1, dof := upd s.dof s.ndof r, deps := upd s.deps s.ndof [] } := by
            intro j hj hset
            have := ih j hj hset
            show (s.obj j).ext = (upd s.dof s.ndof r (s.obj j).dofs).x
            rw [upd_ne _ _ _ _ (Nat.ne_of_lt (hdl j hj))]; exact this
          rcases newWith_spec hn hsh cls s.ndof setter depends dedup _ h2 (Nat.lt_succ_self _) hsafe.1 with ⟨s', e⟩ | ⟨ps, s', _, e, ok⟩
          · rw [e]; left; exact ⟨_, rfl⟩
          · rw [e]; right; left; exact ⟨_, rfl, fun e => createOK hm2 h2 (e ▸ ok)⟩
    | replaceDofs i d =>
      have hns := hno i d rfl
      refine stp (r := replaceDofs cfg i d s) rfl ?_
      rcases replaceDofs_spec hn i d s h hsafe.1 hsafe.2 with ⟨s', e, _⟩ | ⟨s', e, ok⟩
      · rw [e]; left; exact ⟨_, rfl⟩
      · rw [e]; right; left
        refine ⟨_, rfl, fun e => ?_⟩
        subst e
        obtain ⟨_, k, al, nb, _, _, _, oth, _, _⟩ := ok
        intro j hj hset
        rw [al] at hj
        by_cases hji : j = i
        · subst hji
          rw [k.setter j (hlt j hj), hns] at hset; cases hset
        · exact k.mirror hlt hdl ih j hj (oth j hji) hset
    | addParent i idx p =>
      refine stp (r := addParent cfg i idx p s) rfl ?_
      rcases addParent_spec hn hsh i idx p s h hsafe.1 hsafe.2 with ⟨s', e⟩ | ⟨_, e⟩ | ⟨_, s', e, ok⟩
      · rw [e]; left; exact ⟨_, rfl⟩
      · rw [e]; right; left; exact ⟨_, rfl, fun e => same e.symm⟩
      · rw [e]; right; left; exact ⟨_, rfl, fun e => editOK _ _ (e ▸ ok)⟩
    | appendParent i p =>
      refine stp (r := addParent cfg i (s.obj i).parents.length p s) rfl ?_
      rcases addParent_spec hn hsh i (s.obj i).parents.length p s h hsafe.1 hsafe.2 with ⟨s', e⟩ | ⟨_, e⟩ | ⟨_, s', e, ok⟩
      · rw [e]; left; exact ⟨_, rfl⟩
      · rw [e]; right; left; exact ⟨_, rfl, fun e => same e.symm⟩
      · rw [e]; right; left; exact ⟨_, rfl, fun e => editOK _ _ (e ▸ ok)⟩
    | popParent i idx =>
      refine stp (discard_run (popParent cfg i idx) s) ?_
      rcases popParent_spec hn hsh i idx s h hsafe.1 hsafe.2 with ⟨s', e⟩ | ⟨e, _⟩ | ⟨k, p, s', _, _, e, ok⟩
      · rw [e]; left; exact ⟨_, rfl⟩
      · rw [e]; right; right; exact ⟨_, _, rfl, fun e => same e.symm⟩
      · rw [e]; right; left; exact ⟨_, rfl, fun e => editOK _ _ (e ▸ ok)⟩
    | removeParent i p =>
      refine stp (r := removeParent cfg i p s) rfl ?_
      rcases removeParent_spec hn hsh i p s h hsafe.1 hsafe.2.1 hsafe.2.2 with ⟨s', e⟩ | ⟨_, e⟩ | ⟨_, ps, s', _, _, e, ok⟩
      · rw [e]; left; exact ⟨_, rfl⟩
      · rw [e]; right; right; exact ⟨_, _, rfl, fun e => same e.symm⟩
      · rw [e]; right; left; exact ⟨_, rfl, fun e => editOK _ _ (e ▸ ok)⟩
    | gc i =>
      obtain ⟨s', e, _, h2, _, al, ob⟩ := gc_spec i s h
      refine stp (r := gc i s) rfl ?_
      rw [e]; right; left
      refine ⟨_, rfl, fun e => ?_⟩
      subst e
      exact keptOK h2 (fun j hj => ⟨al j hj, by rw [ob]⟩)
    | setX i v => exact vrOK ((out_setX i v s h).of_step hst).2
    | setFullX i v => exact vrOK ((out_setFullX i v s h).of_step hst).2
    | setLocalX i v => exact vrOK ((out_setLocalX i v s s ⟨h, ValRel.refl s⟩).of_step hst).2
    | setLocalFullX i v => exact vrOK ((out_setLocalFullX i v s s ⟨h, ValRel.refl s⟩).of_step hst).2
    | setKey i k v => exact vrOK ((out_setKey i k v s s ⟨h, ValRel.refl s⟩).of_step hst).2
    | fix i k =>
      have : Out (fix cfg i k) s (fun s' => Inv cfg s' ∧ MaskRel s s') := by rw [fix_eq]; exact out_maskOp hn (mask_fix k) i s s ⟨h, MaskRel.refl s⟩ hsafe
      exact mrOK (this.of_step hst).2
    | unfix i k =>
      have : Out (unfix cfg i k) s (fun s' => Inv cfg s' ∧ MaskRel s s') := by rw [unfix_eq]; exact out_maskOp hn (mask_unfix k) i s s ⟨h, MaskRel.refl s⟩ hsafe
      exact mrOK (this.of_step hst).2
    | localFixAll i =>
      have : Out (localFixAll cfg i) s (fun s' => Inv cfg s' ∧ MaskRel s s') := by rw [localFixAll_eq]; exact out_maskOp hn mask_fixAll i s s ⟨h, MaskRel.refl s⟩ hsafe
      exact mrOK (this.of_step hst).2
    | localUnfixAll i =>
      have : Out (localUnfixAll cfg i) s (fun s' => Inv cfg s' ∧ MaskRel s s') := by rw [localUnfixAll_eq]; exact out_maskOp hn mask_unfixAll i s s ⟨h, MaskRel.refl s⟩ hsafe
      exact mrOK (this.of_step hst).2
    | fixAll i => exact mrOK ((out_fixAll hn i s h hsafe).of_step hst).2
    | unfixAll i => exact mrOK ((out_unfixAll hn i s h hsafe).of_step hst).2
    | fullFix i arr => exact mrOK ((out_fullFix hn i arr s h).of_step hst).2
    | fullUnfix i arr => exact mrOK ((out_fullUnfix hn i arr s h).of_step hst).2
    | bounds i b => exact vrOK ((out_execBound i b s h).of_step hst).2
    | clearNewX i =>
      refine stp (r := clearNewX i s) rfl (Or.inr (Or.inl ⟨_, rfl, fun e => ?_⟩))
      have hc : Cleared s t := ⟨i, e.symm⟩
      intro j hj hset
      rw [hc.static.alive] at hj
      rw [hc.field Obj.setter (fun _ _ => rfl) j] at hset
      rw [hc.field Obj.ext (fun _ _ => rfl) j, hc.field Obj.dofs (fun _ _ => rfl) j, hc.static.dof]
      exact ih j hj hset

end Simsopt.Graph
