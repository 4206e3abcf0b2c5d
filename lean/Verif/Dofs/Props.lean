import Verif.Dofs.Lemmas
/-!
# Property theorems for one `DOFs` object: C01, C02, C03, C12 (local part)

`EStateM.Result.ok a s'` / `.error e s'`: the call returned `a` / raised `e`, leaving state `s'`.
-/
set_option linter.unusedSimpArgs false
namespace Simsopt
namespace Dofs
variable {V : Type}

/-- Concrete object used in the non-vacuity examples: three dofs, the middle one fixed. -/
def demo : Dofs Int :=
  { names := ["a", "b", "c"], x := [1, 2, 3], free := [true, false, true],
    lb := [-9, -9, -9], ub := [9, 9, 9] }

theorem demo_WF : demo.WF := by constructor <;> decide

/-- C01, getter: the free-dof vector is the value vector restricted to the free dofs, in order. -/
theorem C01_free_x_is_mask (d : Dofs V) : d.freeX = maskedSpec d.free d.x :=
  gather_eq_masked _ _

/-- C01, success: with the right length the assignment succeeds, reading back gives the vector, fixed
    dofs keep their value, the number of dofs is unchanged and names, status and bounds are untouched. -/
theorem C01_set_free_x (d : Dofs V) (hd : d.WF) (v : List V) (hv : v.length = d.numFree) :
    ∃ d' : Dofs V, setFreeX v d = .ok () d' ∧ d'.freeX = v ∧ d'.x.length = d.x.length ∧
      (∀ i : Nat, d.free[i]? = some false → d'.x[i]? = d.x[i]?) ∧ SameButX d d' ∧ d'.WF := by
  refine ⟨{ d with x := scatter d.free d.x v }, ?_, ?_, ?_, ?_, ?_, ?_⟩
  · simp [setFreeX, reducedLen_eq, hv, get, getThe, MonadStateOf.get, EStateM.get, bind, EStateM.bind,
      set, MonadStateOf.set, EStateM.set, pure, EStateM.pure]
  · exact gather_scatter _ _ _ hd.free_len hv
  · exact scatter_length _ _ _
  · intro i hi; exact scatter_fixed _ _ _ _ hi
  · exact ⟨rfl, rfl, rfl, rfl⟩
  · exact ⟨by simp [scatter_length, hd.free_len], by simp [scatter_length, hd.lb_len],
      by simp [scatter_length, hd.ub_len], by simp [scatter_length, hd.names_len], hd.names_nodup⟩

/-- C01, failure: with any other length (in particular a single value for several free dofs) the
    assignment raises and nothing changes. -/
theorem C01_set_free_x_wrong_length (d : Dofs V) (v : List V) (hv : v.length ≠ d.numFree) :
    setFreeX v d = .error .dofLengthMismatch d := by
  simp [setFreeX, reducedLen_eq, Ne.symm hv, get, getThe, MonadStateOf.get, EStateM.get, bind, EStateM.bind,
      throw, throwThe, MonadExceptOf.throw, EStateM.throw]

/-- C01: writing back what was read changes nothing. -/
theorem C01_write_back (d : Dofs V) (hd : d.WF) : setFreeX d.freeX d = .ok () d := by
  have : d.freeX.length = d.numFree := gather_length _ _ hd.free_len
  simp [setFreeX, reducedLen_eq, this, get, getThe, MonadStateOf.get, EStateM.get, bind, EStateM.bind,
      set, MonadStateOf.set, EStateM.set, pure, EStateM.pure]
  simp [freeX, scatter_gather]

example : ([7, 8] : List Int).length = demo.numFree ∧ demo.WF := ⟨rfl, demo_WF⟩
example : setFreeX [7, 8] demo = .ok () { demo with x := [7, 2, 8] } := rfl
example : ([7] : List Int).length ≠ demo.numFree := by decide

/-- What `fix`/`unfix`-like calls must do: exactly dof `i` gets status `b`. -/
def StatusSetTo (d d' : Dofs V) (i : Nat) (b : Bool) : Prop :=
  d'.free[i]? = some b ∧ (∀ j : Nat, j ≠ i → d'.free[j]? = d.free[j]?) ∧
    d'.free.length = d.free.length ∧ SameButFree d d'

/-- Every well-formed key designates at most one dof. -/
theorem C02_key_unambiguous (d : Dofs V) (hd : d.WF) (k : Key) (i j : Nat)
    (hi : Addresses d k i) (hj : Addresses d k j) : i = j := by
  have h1 := (resolve_ok hd).mpr hi
  have h2 := (resolve_ok hd).mpr hj
  rw [h1] at h2; cases h2; rfl

theorem C02_fix (d : Dofs V) (hd : d.WF) (k : Key) (i : Nat) (h : Addresses d k i) :
    ∃ d' : Dofs V, fix k d = .ok () d' ∧ StatusSetTo d d' i false ∧ d'.WF := by
  refine ⟨{ d with free := d.free.set i false }, ?_, ?_, ?_⟩
  · simp [fix, (resolve_ok hd).mpr h, liftE, get, getThe, MonadStateOf.get, EStateM.get, bind, EStateM.bind,
      set, MonadStateOf.set, EStateM.set]
  · have := h.lt hd
    refine ⟨by simp [List.getElem?_set, hd.free_len, this], ?_, by simp, rfl, rfl, rfl, rfl⟩
    intro j hj; simp [List.getElem?_set, Ne.symm hj]
  · exact ⟨by simp [hd.free_len], hd.lb_len, hd.ub_len, hd.names_len, hd.names_nodup⟩

theorem C02_unfix (d : Dofs V) (hd : d.WF) (k : Key) (i : Nat) (h : Addresses d k i) :
    ∃ d' : Dofs V, unfix k d = .ok () d' ∧ StatusSetTo d d' i true ∧ d'.WF := by
  refine ⟨{ d with free := d.free.set i true }, ?_, ?_, ?_⟩
  · simp [unfix, (resolve_ok hd).mpr h, liftE, get, getThe, MonadStateOf.get, EStateM.get, bind, EStateM.bind,
      set, MonadStateOf.set, EStateM.set]
  · have := h.lt hd
    refine ⟨by simp [List.getElem?_set, hd.free_len, this], ?_, by simp, rfl, rfl, rfl, rfl⟩
    intro j hj; simp [List.getElem?_set, Ne.symm hj]
  · exact ⟨by simp [hd.free_len], hd.lb_len, hd.ub_len, hd.names_len, hd.names_nodup⟩

/-- An unknown name or an out-of-range index raises in `fix`, `unfix`, `get`, `set`, `is_free` and the
    bound updates, and changes nothing. -/
theorem C02_bad_key (d : Dofs V) (hd : d.WF) (k : Key) (h : ∀ i, ¬ Addresses d k i) (v : V) :
    ∃ e, fix k d = .error e d ∧ unfix k d = .error e d ∧ getKey k d = .error e d ∧
      setKey k v d = .error e d ∧ isFree k d = .error e d ∧ updateLb k v d = .error e d ∧
      updateUb k v d = .error e d := by
  obtain ⟨e, he⟩ := resolve_err hd h
  refine ⟨e, ?_, ?_, ?_, ?_, ?_, ?_, ?_⟩ <;>
  simp [fix, unfix, getKey, setKey, isFree, updateLb, updateUb, he, liftE, get, getThe, MonadStateOf.get,
    EStateM.get, bind, EStateM.bind]

/-- `is_free` reports the addressed dof's status. -/
theorem C02_is_free (d : Dofs V) (hd : d.WF) (k : Key) (i : Nat) (h : Addresses d k i) :
    ∃ b : Bool, d.free[i]? = some b ∧ isFree k d = .ok b d := by
  have hi := h.lt hd
  rw [← hd.free_len] at hi
  refine ⟨d.free[i], by simp [hi], ?_⟩
  simp [isFree, (resolve_ok hd).mpr h, liftE, get, getThe, MonadStateOf.get, EStateM.get, bind, EStateM.bind,
      hi, pure, EStateM.pure]

/-- Idempotence and override: fixing twice is fixing once, and the last of fix/unfix wins. -/
theorem C02_idempotent_override (d d1 d2 : Dofs V) (hd : d.WF) (k : Key) (i : Nat)
    (h : Addresses d k i) (h1 : fix k d = .ok () d1) (h2 : unfix k d = .ok () d2) :
    fix k d1 = .ok () d1 ∧ unfix k d2 = .ok () d2 ∧ unfix k d1 = .ok () d2 ∧ fix k d2 = .ok () d1 := by
  have hr := (resolve_ok hd).mpr h
  have e1 : d1 = { d with free := d.free.set i false } := by
    simp [fix, hr, liftE, get, getThe, MonadStateOf.get, EStateM.get, bind, EStateM.bind,
      set, MonadStateOf.set, EStateM.set] at h1
    exact h1.symm
  have e2 : d2 = { d with free := d.free.set i true } := by
    simp [unfix, hr, liftE, get, getThe, MonadStateOf.get, EStateM.get, bind, EStateM.bind,
      set, MonadStateOf.set, EStateM.set] at h2
    exact h2.symm
  have hd1 : d1.WF := by
    rw [e1]; exact ⟨by simp [hd.free_len], hd.lb_len, hd.ub_len, hd.names_len, hd.names_nodup⟩
  have hd2 : d2.WF := by
    rw [e2]; exact ⟨by simp [hd.free_len], hd.lb_len, hd.ub_len, hd.names_len, hd.names_nodup⟩
  have hr1 : d1.resolve k = .ok i := (resolve_ok hd1).mpr (by
    rw [e1]; cases k <;> exact h)
  have hr2 : d2.resolve k = .ok i := (resolve_ok hd2).mpr (by
    rw [e2]; cases k <;> exact h)
  refine ⟨?_, ?_, ?_, ?_⟩ <;>
  simp [fix, unfix, hr1, hr2, liftE, get, getThe, MonadStateOf.get, EStateM.get, bind, EStateM.bind,
      set, MonadStateOf.set, EStateM.set] <;> simp [e1, e2]

/-- `fix_all` / `unfix_all` set the status of every dof and change nothing else. -/
theorem C02_fix_all (d : Dofs V) (hd : d.WF) :
    ∃ d' : Dofs V, fixAll d = .ok () d' ∧ (∀ i, i < d.x.length → d'.free[i]? = some false) ∧
      d'.free.length = d.free.length ∧ SameButFree d d' ∧ d'.WF := by
  refine ⟨{ d with free := List.replicate d.free.length false }, ?_, ?_, by simp, ⟨rfl, rfl, rfl, rfl⟩,
    ⟨by simp [hd.free_len], hd.lb_len, hd.ub_len, hd.names_len, hd.names_nodup⟩⟩
  · rfl
  · intro i hi; simp [List.getElem?_replicate, hd.free_len, hi]

theorem C02_unfix_all (d : Dofs V) (hd : d.WF) :
    ∃ d' : Dofs V, unfixAll d = .ok () d' ∧ (∀ i, i < d.x.length → d'.free[i]? = some true) ∧
      d'.free.length = d.free.length ∧ SameButFree d d' ∧ d'.WF := by
  refine ⟨{ d with free := List.replicate d.free.length true }, ?_, ?_, by simp, ⟨rfl, rfl, rfl, rfl⟩,
    ⟨by simp [hd.free_len], hd.lb_len, hd.ub_len, hd.names_len, hd.names_nodup⟩⟩
  · rfl
  · intro i hi; simp [List.getElem?_replicate, hd.free_len, hi]

example : Addresses demo (.name "b") 1 ∧ Addresses demo (.idx (-1)) 2 ∧ demo.WF :=
  ⟨rfl, ⟨by decide, Or.inr rfl⟩, demo_WF⟩
example : ∀ i, ¬ Addresses demo (.idx 3) i := by
  intro i h
  have h1 : i < 3 := h.1
  have h2 : (3 : Int) = i ∨ (3 : Int) = (i : Int) - 3 := h.2
  omega
example : fix (.idx (-1)) demo = .ok () { demo with free := [true, false, false] } := rfl

/-- C03: `set` changes exactly the addressed value, even of a fixed dof, and `get` reads it back. -/
theorem C03_set_get (d : Dofs V) (hd : d.WF) (k : Key) (i : Nat) (h : Addresses d k i) (v : V) :
    ∃ d' : Dofs V, setKey k v d = .ok () d' ∧ getKey k d' = .ok v d' ∧ d'.x[i]? = some v ∧
      (∀ j : Nat, j ≠ i → d'.x[j]? = d.x[j]?) ∧ d'.x.length = d.x.length ∧ SameButX d d' ∧ d'.WF := by
  have hi := h.lt hd
  have hWF : ({ d with x := d.x.set i v } : Dofs V).WF :=
    ⟨by simp [hd.free_len], by simp [hd.lb_len], by simp [hd.ub_len], by simp [hd.names_len], hd.names_nodup⟩
  refine ⟨{ d with x := d.x.set i v }, ?_, ?_, ?_, ?_, by simp, ⟨rfl, rfl, rfl, rfl⟩, hWF⟩
  · simp [setKey, (resolve_ok hd).mpr h, liftE, get, getThe, MonadStateOf.get, EStateM.get, bind, EStateM.bind,
      set, MonadStateOf.set, EStateM.set]
  · have : resolve ({ d with x := d.x.set i v } : Dofs V) k = .ok i :=
      (resolve_ok hWF).mpr (by cases k <;> simpa [Addresses] using h)
    simp [getKey, this, liftE, get, getThe, MonadStateOf.get, EStateM.get, bind, EStateM.bind, hi,
      pure, EStateM.pure]
  · simp [hi]
  · intro j hj; simp [List.getElem?_set, Ne.symm hj]

/-- C03: `get` returns the addressed value and changes nothing. -/
theorem C03_get (d : Dofs V) (hd : d.WF) (k : Key) (i : Nat) (h : Addresses d k i) :
    ∃ v : V, d.x[i]? = some v ∧ getKey k d = .ok v d := by
  have hi := h.lt hd
  refine ⟨d.x[i], by simp [hi], ?_⟩
  simp [getKey, (resolve_ok hd).mpr h, liftE, get, getThe, MonadStateOf.get, EStateM.get, bind, EStateM.bind,
      hi, pure, EStateM.pure]

/-- C03: assigning the full vector of the right length replaces all values. -/
theorem C03_set_full_x (d : Dofs V) (hd : d.WF) (v : List V) (hv : v.length = d.x.length) :
    ∃ d' : Dofs V, setFullX v d = .ok () d' ∧ d'.fullX = v ∧ SameButX d d' ∧ d'.WF := by
  refine ⟨{ d with x := v }, ?_, rfl, ⟨rfl, rfl, rfl, rfl⟩,
    ⟨by simp [hd.free_len, hv], by simp [hd.lb_len, hv], by simp [hd.ub_len, hv], by simp [hd.names_len, hv],
      hd.names_nodup⟩⟩
  simp [setFullX, hv, get, getThe, MonadStateOf.get, EStateM.get, bind, EStateM.bind,
      set, MonadStateOf.set, EStateM.set, pure, EStateM.pure]

theorem C03_set_full_x_wrong_length (d : Dofs V) (v : List V) (hv : v.length ≠ d.x.length) :
    setFullX v d = .error .dofLengthMismatch d := by
  simp [setFullX, Ne.symm hv, get, getThe, MonadStateOf.get, EStateM.get, bind, EStateM.bind,
      throw, throwThe, MonadExceptOf.throw, EStateM.throw]

example : setKey (.name "b") 5 demo = .ok () { demo with x := [1, 5, 3] } := rfl

/-- C12 (one object): assigning the bounds of the free dofs round-trips, leaves bounds of
    fixed dofs alone and touches nothing else. -/
theorem C12_set_free_bounds (d : Dofs V) (hd : d.WF) (v : List V) (hv : v.length = d.numFree) :
    (∃ d' : Dofs V, setFreeLb v d = .ok () d' ∧ d'.freeLb = v ∧
      (∀ i : Nat, d.free[i]? = some false → d'.lb[i]? = d.lb[i]?) ∧
      d'.names = d.names ∧ d'.x = d.x ∧ d'.free = d.free ∧ d'.ub = d.ub ∧ d'.WF) ∧
    (∃ d' : Dofs V, setFreeUb v d = .ok () d' ∧ d'.freeUb = v ∧
      (∀ i : Nat, d.free[i]? = some false → d'.ub[i]? = d.ub[i]?) ∧
      d'.names = d.names ∧ d'.x = d.x ∧ d'.free = d.free ∧ d'.lb = d.lb ∧ d'.WF) := by
  constructor
  · refine ⟨{ d with lb := scatter d.free d.lb v }, ?_, ?_, ?_, rfl, rfl, rfl, rfl, ?_⟩
    · simp [setFreeLb, reducedLen_eq, hv, get, getThe, MonadStateOf.get, EStateM.get, bind, EStateM.bind,
        set, MonadStateOf.set, EStateM.set, pure, EStateM.pure]
    · exact gather_scatter _ _ _ (by rw [hd.free_len, hd.lb_len]) hv
    · intro i hi; exact scatter_fixed _ _ _ _ hi
    · exact ⟨hd.free_len, by simp [scatter_length, hd.lb_len], hd.ub_len, hd.names_len, hd.names_nodup⟩
  · refine ⟨{ d with ub := scatter d.free d.ub v }, ?_, ?_, ?_, rfl, rfl, rfl, rfl, ?_⟩
    · simp [setFreeUb, reducedLen_eq, hv, get, getThe, MonadStateOf.get, EStateM.get, bind, EStateM.bind,
        set, MonadStateOf.set, EStateM.set, pure, EStateM.pure]
    · exact gather_scatter _ _ _ (by rw [hd.free_len, hd.ub_len]) hv
    · intro i hi; exact scatter_fixed _ _ _ _ hi
    · exact ⟨hd.free_len, hd.lb_len, by simp [scatter_length, hd.ub_len], hd.names_len, hd.names_nodup⟩

theorem C12_set_free_bounds_wrong_length (d : Dofs V) (v : List V) (hv : v.length ≠ d.numFree) :
    setFreeLb v d = .error .dofLengthMismatch d ∧ setFreeUb v d = .error .dofLengthMismatch d := by
  constructor <;>
  simp [setFreeLb, setFreeUb, reducedLen_eq, Ne.symm hv, get, getThe, MonadStateOf.get, EStateM.get, bind,
    EStateM.bind, throw, throwThe, MonadExceptOf.throw, EStateM.throw]

/-- C12, single-key bound updates change exactly the addressed bound (of a free or fixed dof). -/
theorem C12_update_bound (d : Dofs V) (hd : d.WF) (k : Key) (i : Nat) (h : Addresses d k i) (l u : V) :
    updateBounds k (l, u) d = .ok () { d with lb := d.lb.set i l, ub := d.ub.set i u } ∧
    updateLb k l d = .ok () { d with lb := d.lb.set i l } ∧
    updateUb k u d = .ok () { d with ub := d.ub.set i u } ∧
    (d.lb.set i l)[i]? = some l ∧ (∀ j : Nat, j ≠ i → (d.lb.set i l)[j]? = d.lb[j]?) := by
  have hi := h.lt hd
  have hr := (resolve_ok hd).mpr h
  refine ⟨?_, ?_, ?_, by simp [hd.lb_len, hi], fun j hj => by simp [List.getElem?_set, Ne.symm hj]⟩ <;>
  simp [updateBounds, updateLb, updateUb, hr, liftE, get, getThe, MonadStateOf.get, EStateM.get, bind,
    EStateM.bind, set, MonadStateOf.set, EStateM.set]

/-- C12 is violated for the *full* bounds: the setter rejects even a vector of the right length. -/
theorem C12_full_bounds_setter_violated :
    ∃ (d : Dofs Int) (v : List Int), d.WF ∧ v.length = d.lb.length ∧
      ¬ ∃ d' : Dofs Int, setFullLb v d = .ok () d' ∧ d'.lb = v := by
  refine ⟨demo, [0, 0, 0], demo_WF, rfl, ?_⟩
  rintro ⟨d', h, _⟩
  simp [setFullLb, throw, throwThe, MonadExceptOf.throw, EStateM.throw] at h

/-- The constructor only produces well-formed objects; with no names given they are `x0, x1, ...`. -/
theorem C06_init_WF {ninf pinf : V} {x names free lb ub} {d : Dofs V}
    (h : init ninf pinf x names free lb ub = .ok d) : d.WF := init_WF h

example : init (-100 : Int) 100 (some [1, 2]) none (some [true, false]) none none =
    .ok ⟨["x0", "x1"], [1, 2], [true, false], [-100, -100], [100, 100]⟩ := by decide
example : init (-100 : Int) 100 (some [1, 2]) (some ["a", "a"]) none none none = .error .assertionError := by
  decide

end Dofs
end Simsopt
