import Verif.BagAttr.Create
import Verif.BagAttr.Update
/-
C52 to C55: the attributes of a data bag.

`getWithRemoved bags o attr` is what a reader sees who reads from the first of
the bags and uses the others as fallbacks: `none` if nobody knows anything,
`some none` if the attribute was removed, and `some (some v)` for a value.
`getAttr` is the same with both kinds of missing values identified.
-/

namespace Verif.BagAttr

/-! ### C52: reads follow writes -/

private theorem read_cons {b b' : Bag} {o : Obj} {attr : Attr}
    (h : b'.lookup o attr = b.lookup o attr) (fb : List Bag) :
    getWithRemoved (b' :: fb) o attr = getWithRemoved (b :: fb) o attr := by
  rw [getWithRemoved_cons, getWithRemoved_cons, h]

private theorem read_some {b' : Bag} {o : Obj} {attr : Attr} {v : Item}
    (h : b'.lookup o attr = some v) (fb : List Bag) :
    getWithRemoved (b' :: fb) o attr = some v := by
  rw [getWithRemoved_cons, h]; rfl

private theorem read_one (b : Bag) (o : Obj) (attr : Attr) :
    getWithRemoved [b] o attr = b.lookup o attr := by
  rw [getWithRemoved_cons]; cases b.lookup o attr <;> rfl

/-- After an attribute of an object was set, it reads as the value that was set
(whatever the fallbacks say, also if the value is missing), and everything else
reads as before. -/
theorem C52_set {b : Bag} (hb : b.WF) (hf : b.frozen = false) {o : Obj} (ho : o.Valid)
    (attr : Attr) (v : Item) :
    ∃ b', setAttr b (.object o) attr v = .ok b' ∧ Modified b b' ∧
      (∀ fb, getWithRemoved (b' :: fb) o attr = some v) ∧
      (∀ fb, getAttr (b' :: fb) (.object o) attr = .ok v) ∧
      ∀ fb o' attr', o'.Valid → ¬ (o' = o ∧ attr' = attr) →
        getWithRemoved (b' :: fb) o' attr' = getWithRemoved (b :: fb) o' attr' := by
  obtain ⟨b', e, w⟩ := setAttr_object hb hf ho attr v
  have h1 : ∀ fb, getWithRemoved (b' :: fb) o attr = some v :=
    read_some (by rw [w.lookup o attr ho, if_pos ⟨rfl, rfl⟩])
  refine ⟨b', e, ⟨w.wf, w.frozen.trans hf, w.parents, w.id⟩, h1, ?_, ?_⟩
  · intro fb; unfold getAttr; simp only; rw [h1]; rfl
  · intro fb o' attr' ho' hne
    exact read_cons (by rw [w.lookup o' attr' ho', if_neg hne]) fb

/-- Setting an attribute of a missing item does nothing, setting one of a
primitive is an error, and a frozen bag cannot be modified at all. -/
theorem C52_set_other (b : Bag) (attr : Attr) (v : Item) :
    (b.frozen = true → ∀ o, setAttr b o attr v = .error .frozen) ∧
    (b.frozen = false → setAttr b .missing attr v = .ok b) ∧
    (b.frozen = false → setAttr b .primitive attr v = .error .primitive) := by
  refine ⟨fun h o => ?_, fun h => ?_, fun h => ?_⟩ <;> unfold setAttr <;> rw [h] <;> rfl

/-- Reading an attribute: of a missing item it is missing, of a primitive it is an
error, of an object it is the value in the first bag that knows one. -/
theorem C52_get (bags : List Bag) (attr : Attr) :
    getAttr bags .missing attr = .ok none ∧
    getAttr bags .primitive attr = .error .primitive ∧
    (∀ o, getAttr [] (.object o) attr = .ok none) ∧
    ∀ b o, getAttr (b :: bags) (.object o) attr =
      match getWithRemoved [b] o attr with
      | some v => .ok v
      | none => getAttr bags (.object o) attr := by
  refine ⟨rfl, rfl, fun _ => rfl, ?_⟩
  intro b o
  rw [read_one]
  unfold getAttr
  simp only
  rw [getWithRemoved_cons]
  cases b.lookup o attr <;> rfl

/-- Setting an attribute of many objects at once (with values of any types):
attributes of objects that are not among them, and other attributes, stay; an
object gets one of the values written to it, and the last one unless it occurs
with values of several types (see `Written`). -/
theorem C52_set_slice {b : Bag} (hb : b.WF) (hf : b.frozen = false) {ids : List (Option Obj)}
    {allocs : List Alloc} {small : Bool} (hi : IdsWF ids allocs small) (attr : Attr)
    {values : Slice} (hv : values.WF) (hlen : ids.length = values.cells.length) :
    ∃ b', setAttrSlice b (.objects ids allocs small) attr values = .ok b' ∧ Modified b b' ∧
      (∀ fb o attr', o.Valid → attr' ≠ attr →
        getWithRemoved (b' :: fb) o attr' = getWithRemoved (b :: fb) o attr') ∧
      ∀ o, o.Valid → Written values (writesOf ids values o)
        (getWithRemoved [b] o attr) (getWithRemoved [b'] o attr) := by
  obtain ⟨b', e, w⟩ := setAttrSlice_ok hb hf hi attr hv hlen
  refine ⟨b', e, ⟨w.wf, w.frozen.trans hf, w.parents, w.id⟩, ?_, ?_⟩
  · exact fun fb o attr' ho hne => read_cons (w.other o attr' ho hne) fb
  · intro o ho; rw [read_one, read_one]; exact w.lookup o ho

private theorem writesOf_unique {ids : List (Option Obj)} {values : Slice} {o : Obj} {i : Nat}
    (hlen : ids.length = values.cells.length) (hi : ids[i]? = some (some o))
    (huniq : ∀ j, ids[j]? = some (some o) → j = i) : writesOf ids values o = [values.item i] := by
  unfold writesOf Slice.item
  generalize values.cells = cells at hlen ⊢
  induction ids generalizing cells i with
  | nil => simp at hi
  | cons x ids ih =>
    cases cells with
    | nil => simp at hlen
    | cons c cells =>
      rw [List.zip_cons_cons, List.filterMap_cons]
      cases i with
      | zero =>
        have hx : x = some o := by simpa using hi
        have hrest : ((ids.zip cells).filterMap fun p : Option Obj × Cell =>
            if p.1 = some o then some (p.2.getD none) else none) = [] := by
          rw [List.filterMap_eq_nil_iff]
          intro p hp
          rw [if_neg]
          intro he
          obtain ⟨j, hj, hj'⟩ := List.getElem_of_mem (List.of_mem_zip hp).1
          have := huniq (j + 1) (by rw [List.getElem?_cons_succ, List.getElem?_eq_getElem hj, hj', he])
          omega
        simp only [hx, if_true, hrest]
        rfl
      | succ i =>
        have hx : ¬ x = some o := by
          intro he
          have := huniq 0 (by rw [List.getElem?_cons_zero, he])
          omega
        simp only [if_neg hx]
        rw [ih (i := i) (by simpa using hi) (fun j hj => by
          have := huniq (j + 1) (by simpa using hj); omega) cells (by simpa using hlen)]
        simp

/-- If an object occurs once in the slice, it gets the value at its position. -/
theorem C52_set_slice_get {b b' : Bag} (hb : b.WF) (hf : b.frozen = false)
    {ids : List (Option Obj)} {allocs : List Alloc} {small : Bool} (hi : IdsWF ids allocs small)
    (attr : Attr) {values : Slice} (hv : values.WF) (hlen : ids.length = values.cells.length)
    (he : setAttrSlice b (.objects ids allocs small) attr values = .ok b') {o : Obj} {i : Nat}
    (ho : ids[i]? = some (some o)) (huniq : ∀ j, ids[j]? = some (some o) → j = i) (fb : List Bag) :
    getAttr (b' :: fb) (.object o) attr = .ok (values.item i) := by
  obtain ⟨b'', e, w⟩ := setAttrSlice_ok hb hf hi attr hv hlen
  obtain rfl : b'' = b' := Except.ok.inj (e.symm.trans he)
  have hval := hi.valid o (List.mem_of_getElem? ho)
  have hw := (w.lookup o hval).2 (values.item i) (by rw [writesOf_unique hlen ho huniq]; rfl)
  obtain ⟨v, hv1, hv2⟩ := hw.1
  rw [writesOf_unique hlen ho huniq, List.mem_singleton] at hv1
  unfold getAttr
  simp only
  rw [read_some hv2, hv1]
  rfl

/-- The other kinds of slices, and the errors of writing to many objects. -/
theorem C52_set_slice_other {b : Bag} (hb : b.WF) (attr : Attr) (values : Slice) :
    (b.frozen = true → ∀ objs, setAttrSlice b objs attr values = .error .frozen) ∧
    (b.frozen = false → ∀ n, setAttrSlice b (.emptyAndUnknown n) attr values = .ok b) ∧
    (b.frozen = false → ∀ n, setAttrSlice b (.primitives n) attr values = .error .primitive) ∧
    (b.frozen = false → ∀ ids allocs small, IdsWF ids allocs small →
      ids.length ≠ values.cells.length → allocs ≠ [] ∨ small = true →
      small = true ∨ allocs.length ≤ 5 ∨
        (allocs.length < 128 ∧ 2 ^ (allocs.length / 2) ≤ values.cells.length) →
      setAttrSlice b (.objects ids allocs small) attr values = .error .sizeMismatch) := by
  refine ⟨fun h o => ?_, fun h n => ?_, fun h n => ?_, ?_⟩
  · unfold setAttrSlice; rw [h]; rfl
  · unfold setAttrSlice; rw [h]; rfl
  · unfold setAttrSlice; rw [h]; rfl
  · intro h ids allocs small hi hlen hne hmany
    refine setAttrSlice_mismatch hb h attr hi hlen hne (hmany.imp id ?_)
    intro hm
    unfold hasTooManyAllocs
    rcases hm with hm | ⟨hm1, hm2⟩
    · have : ¬ 5 < allocs.length := by omega
      simp [this]
    · have h1 : ¬ 64 ≤ allocs.length / 2 := by omega
      have h2 : ¬ values.cells.length < 2 ^ (allocs.length / 2) := by omega
      simp [h1, h2]

/-- Writing to all objects of an allocation, as it happens when a whole slice of
new objects is assigned to: unless all values are missing, every object gets its
value, also the missing ones. -/
theorem C52_assign {b : Bag} (hb : b.WF) (hf : b.frozen = false) {a : Alloc} (ha : a.WF)
    (hbig : a.isSmall = false) (objs : Objs) (attr : Attr) {values : Slice} (hv : values.WF)
    (hlen : values.cells.length = a.n) (hsome : ∃ i v, values.item i = some v) :
    ∃ b', assignAttr b objs (some a) attr values = .ok b' ∧ Modified b b' ∧
      (∀ fb i, i < a.n → getAttr (b' :: fb) (.object ⟨a, i⟩) attr = .ok (values.item i)) ∧
      ∀ fb o attr', o.Valid → ¬ (o.alloc = a ∧ attr' = attr) →
        getWithRemoved (b' :: fb) o attr' = getWithRemoved (b :: fb) o attr' := by
  have hne : values.unsetToRemoved.types ≠ [] := by
    obtain ⟨i, v, h⟩ := hsome
    have hm : some (some v) ∈ values.cells := by
      unfold Slice.item at h
      cases hc : values.cells[i]? with
      | none => rw [hc] at h; cases h
      | some c =>
        rw [hc] at h
        cases c with
        | none => cases h
        | some x => exact h ▸ List.mem_of_getElem? hc
    have := hv.mem v hm
    rw [unsetToRemoved_types]
    intro he; rw [he] at this; cases this
  have hcells := unsetToRemoved_cells values hv
  obtain ⟨b', e, w⟩ := setAttrFullAlloc_ok hb hf ha attr (unsetToRemoved_wf values hv)
    (by rw [hcells, List.length_map]; exact hlen) hne
  refine ⟨b', ?_, ⟨w.wf, w.frozen.trans hf, w.parents, w.id⟩, ?_, ?_⟩
  · unfold assignAttr
    simp only [hbig, Bool.not_false, if_true]
    exact e
  · intro fb i hlt
    have h1 : b'.lookup ⟨a, i⟩ attr = some (values.item i) := by
      rw [w.lookup ⟨a, i⟩ attr ⟨ha, hlt⟩, if_pos ⟨rfl, rfl⟩, hcells, List.getElem?_map]
      have hl : i < values.cells.length := by omega
      unfold Slice.item
      rw [List.getElem?_eq_getElem hl]
      rfl
    unfold getAttr
    simp only
    rw [read_some h1]
    rfl
  · intro fb o attr' ho hne
    exact read_cons (by rw [w.lookup o attr' ho, if_neg hne]) fb

/-- In all other cases an assignment is `C52_set_slice`. -/
theorem C52_assign_other (b : Bag) (objs : Objs) (attr : Attr) (values : Slice) (full : Option Alloc)
    (h : ∀ a, full = some a → a.isSmall = true) :
    assignAttr b objs full attr values = setAttrSlice b objs attr values := by
  unfold assignAttr
  cases full with
  | none => rfl
  | some a => simp only [h a rfl, Bool.not_true, Bool.false_eq_true, if_false]

/-- The storage of values for a whole allocation, `SetAttrForFullAllocation`:
objects for which the values have nothing keep what they have. -/
theorem C52_set_full {b : Bag} (hb : b.WF) (hf : b.frozen = false) {a : Alloc} (ha : a.WF)
    (attr : Attr) {values : Slice} (hv : values.WF) (hlen : values.cells.length = a.n)
    (hne : values.types ≠ []) :
    ∃ b', setAttrFullAlloc b a attr values = .ok b' ∧ Modified b b' ∧
      (∀ fb i, i < a.n → getWithRemoved (b' :: fb) ⟨a, i⟩ attr =
        match values.cells[i]? with
        | some (some v) => some v
        | _ => getWithRemoved (b :: fb) ⟨a, i⟩ attr) ∧
      ∀ fb o attr', o.Valid → ¬ (o.alloc = a ∧ attr' = attr) →
        getWithRemoved (b' :: fb) o attr' = getWithRemoved (b :: fb) o attr' := by
  obtain ⟨b', e, w⟩ := setAttrFullAlloc_ok hb hf ha attr hv hlen hne
  refine ⟨b', e, ⟨w.wf, w.frozen.trans hf, w.parents, w.id⟩, ?_, ?_⟩
  · intro fb i hlt
    have h1 := w.lookup ⟨a, i⟩ attr ⟨ha, hlt⟩
    rw [if_pos ⟨rfl, rfl⟩] at h1
    simp only at h1
    cases hc : values.cells[i]? with
    | none => rw [hc] at h1; exact read_cons h1 fb
    | some c =>
      rw [hc] at h1
      cases c with
      | none => exact read_cons h1 fb
      | some x => exact read_some h1 fb
  · intro fb o attr' ho hne
    exact read_cons (by rw [w.lookup o attr' ho, if_neg hne]) fb

/-- Objects made from fields have the values of the fields, and nothing else
changes. -/
theorem C52_create {b : Bag} (hb : b.WF) (hf : b.frozen = false) {a : Alloc} (ha : a.WF)
    (hn : 0 < a.n) {fields : List (Attr × Slice)} (hne : fields ≠ [])
    (hnd : (fields.map (·.1)).Nodup) (hfl : ∀ f ∈ fields, f.2.WF ∧ f.2.cells.length = a.n)
    (hnew : Fresh b a) :
    ∃ b' ids allocs, createObjects b a fields = .ok (b', .objects ids allocs a.isSmall) ∧
      ids = (List.range a.n).map (fun i => some ⟨a, i⟩) ∧ IdsWF ids allocs a.isSmall ∧
      Modified b b' ∧
      (∀ fb i f, i < a.n → f ∈ fields → (∀ c ∈ fb, getWithRemoved [c] ⟨a, i⟩ f.1 = none) →
        getAttr (b' :: fb) (.object ⟨a, i⟩) f.1 = .ok (f.2.item i)) ∧
      ∀ fb o attr, o.Valid → ¬ (o.alloc = a ∧ attr ∈ fields.map (·.1)) →
        getWithRemoved (b' :: fb) o attr = getWithRemoved (b :: fb) o attr := by
  obtain ⟨b', e, w⟩ := createObjects_ok hb hf ha hn fields hne hnd hfl (fun attr _ => hnew _ (by simp [Bag.layers]) attr)
  refine ⟨b', _, _, e, rfl, allObjects_wf ha, ⟨w.wf, w.frozen.trans hf, w.parents, w.id⟩, ?_, ?_⟩
  · intro fb i f hi hm hfb
    have h1 := w.fields ⟨a, i⟩ f ⟨ha, hi⟩ rfl hm
    have h2 : getWithRemoved fb ⟨a, i⟩ f.1 = none := by
      clear e
      induction fb with
      | nil => rfl
      | cons c fb ih =>
        rw [getWithRemoved_cons, ← read_one, hfb c (by simp), Option.none_or]
        exact ih fun c hc => hfb c (by simp [hc])
    unfold getAttr
    simp only
    rw [getWithRemoved_cons, h2, Option.or_none, h1]
  · exact fun fb o attr ho hne => read_cons (w.other o attr ho hne) fb

/-- The other cases of making objects from fields. -/
theorem C52_create_other (b : Bag) (a : Alloc) :
    (b.frozen = true → ∀ fields, createObjects b a fields = .error .frozen) ∧
    (b.frozen = false → createObjects b a [] = .ok (b, .emptyAndUnknown 0)) ∧
    (b.frozen = false → ∀ fields f g, f ∈ fields → g ∈ fields →
      f.2.cells.length ≠ g.2.cells.length → createObjects b a fields = .error .sizeMismatch) ∧
    (b.frozen = false → ∀ fields, (∀ f ∈ fields, f.2.cells = []) →
      createObjects b a fields = .ok (b, .emptyAndUnknown 0)) := by
  refine ⟨fun h f => ?_, fun h => ?_, fun h fields f g h1 h2 h3 => createObjects_mismatch h a h1 h2 h3,
    fun h fields hall => ?_⟩
  · unfold createObjects; rw [h]; rfl
  · unfold createObjects; rw [h]; rfl
  · unfold createObjects
    rw [h]
    simp only [Bool.false_eq_true, if_false]
    cases fields with
    | nil => rfl
    | cons f fs =>
      simp only
      have h0 : f.2.cells.length = 0 := by rw [hall f (by simp)]; rfl
      rw [if_neg, if_pos h0]
      simp only [List.any_eq_true, not_exists, not_and]
      intro g hg
      rw [hall g hg, h0]
      simp

/-- A single object made from fields has the values of the fields. -/
theorem C52_create_one {b : Bag} (hb : b.WF) (hf : b.frozen = false) {o : Obj} (ho : o.Valid)
    (hs : o.alloc.isSmall = true) {fields : List (Attr × Item)} (hnd : (fields.map (·.1)).Nodup) :
    ∃ b', createObject b o fields = .ok b' ∧ Modified b b' ∧
      (∀ fb f, f ∈ fields → getAttr (b' :: fb) (.object o) f.1 = .ok f.2) ∧
      ∀ fb o' attr, o'.Valid → ¬ (o' = o ∧ attr ∈ fields.map (·.1)) →
        getWithRemoved (b' :: fb) o' attr = getWithRemoved (b :: fb) o' attr := by
  obtain ⟨b', e, w1, w2, w3, w4, w5, w6⟩ := createObject_ok hb hf ho hs fields hnd
  refine ⟨b', e, ⟨w1, w2.trans hf, w3, w4⟩, ?_, ?_⟩
  · intro fb f hm
    unfold getAttr
    simp only
    rw [read_some (w6 f hm)]
    rfl
  · exact fun fb o' attr ho' hne => read_cons (w5 o' attr ho' hne) fb

theorem C52_create_one_frozen (b : Bag) (h : b.frozen = true) (o : Obj)
    (fields : List (Attr × Item)) : createObject b o fields = .error .frozen := by
  unfold createObject; rw [h]; rfl

/-- A new bag knows nothing. -/
theorem C52_empty (id : Nat) (fb : List Bag) (o : Obj) (attr : Attr) :
    (emptyBag id).WF ∧ (emptyBag id).frozen = false ∧
      getWithRemoved (emptyBag id :: fb) o attr = getWithRemoved fb o attr := by
  refine ⟨emptyBag_wf id, rfl, ?_⟩
  rw [getWithRemoved_cons, emptyBag_lookup, Option.none_or]

/-- A fork is a mutable bag with the same content. -/
theorem C52_fork {b : Bag} (hb : b.WF) (id : Nat) (fb : List Bag) (o : Obj) (attr : Attr) :
    (b.fork id).WF ∧ (b.fork id).frozen = false ∧
      getWithRemoved (b.fork id :: fb) o attr = getWithRemoved (b :: fb) o attr :=
  ⟨fork_wf hb id, rfl, read_cons (fork_lookup b id o attr) fb⟩

/-! Examples for C52. -/

namespace Example

def v (n : Nat) : Val := ⟨1, n, n, false⟩
def w (n : Nat) : Val := ⟨2, n, n, false⟩

/-- An allocation of 5 objects with space for 8, and a small one. -/
def big : Alloc := ⟨7, 3, 5⟩
def small : Alloc := ⟨8, 0, 1⟩

def objs (a : Alloc) (is : List Nat) : List (Option Obj) := is.map fun i => some ⟨a, i⟩

/-- Two writes, a fork and a removal in the fork. -/
def history : Except Err Bag := do
  let b ← setAttr (emptyBag 0) (.object ⟨big, 1⟩) 0 (some (v 3))
  let b ← setAttr b (.object ⟨small, 0⟩) 0 (some (v 4))
  let b := b.fork 1
  setAttr b (.object ⟨big, 1⟩) 0 none

def read (b : Except Err Bag) (o : Obj) : Option Cell :=
  b.toOption.map fun b => getWithRemoved [b] o 0

example : read history ⟨big, 1⟩ = some (some none) ∧
    read history ⟨small, 0⟩ = some (some (some (v 4))) ∧ read history ⟨big, 2⟩ = some none := by
  decide +kernel

/-- Values of two types for some objects of both allocations. -/
example :
    read (setAttrSlice (emptyBag 0) (.objects [some ⟨big, 4⟩, none, some ⟨small, 0⟩, some ⟨big, 0⟩]
        [big] true) 0 (build [some (some (v 1)), none, some (some (w 2)), some none])) ⟨big, 4⟩ =
      some (some (some (v 1))) := by decide +kernel

theorem big_wf : big.WF := by unfold Alloc.WF; decide +kernel
theorem small_wf : small.WF := by unfold Alloc.WF; decide +kernel

theorem ids_wf : IdsWF [some ⟨big, 4⟩, none, some ⟨small, 0⟩, some ⟨big, 0⟩] [big] true := by
  have hm : ∀ o : Obj, some o ∈ [some (⟨big, 4⟩ : Obj), none, some ⟨small, 0⟩, some ⟨big, 0⟩] →
      o = ⟨big, 4⟩ ∨ o = ⟨small, 0⟩ ∨ o = ⟨big, 0⟩ := by
    intro o; simp
  refine ⟨?_, ?_, fun _ _ _ => rfl, by simp, ?_⟩
  · intro o h
    rcases hm o h with rfl | rfl | rfl
    · exact ⟨big_wf, by decide +kernel⟩
    · exact ⟨small_wf, by decide +kernel⟩
    · exact ⟨big_wf, by decide +kernel⟩
  · intro o h hs
    rcases hm o h with rfl | rfl | rfl
    · simp
    · cases hs
    · simp
  · intro a h
    rw [List.mem_singleton] at h
    subst h
    exact ⟨big_wf, by decide +kernel⟩

/-- The slice of the example below `C52_set_slice` meets the hypotheses. -/
example : ∃ b', setAttrSlice (emptyBag 0)
      (.objects [some ⟨big, 4⟩, none, some ⟨small, 0⟩, some ⟨big, 0⟩] [big] true) 0
      (build [some (some (v 1)), none, some (some (w 2)), some none]) = .ok b' ∧
      Modified (emptyBag 0) b' := by
  obtain ⟨b', h1, h2, _⟩ := C52_set_slice (emptyBag_wf 0) rfl ids_wf 0
    (build_wf [some (some (v 1)), none, some (some (w 2)), some none]) rfl
  exact ⟨b', h1, h2⟩

/-- All objects of an allocation. -/
example : read (do
      let b ← setAttr (emptyBag 0) (.object ⟨big, 1⟩) 0 (some (v 3))
      assignAttr b (.objects (objs big [0, 1, 2, 3, 4]) [big] false) (some big) 0
        (build [some (some (v 1)), none, none, some (some (w 2)), none])) ⟨big, 1⟩ =
    some (some none) := by decide +kernel

/-- Objects made from fields, one of which has only missing values. -/
example : (createObjects (emptyBag 0) big [(0, build [some (some (v 1)), none, none, none, none]),
      (1, Slice.allRemoved 5)]).toOption.map (fun r =>
        (getWithRemoved [r.1] ⟨big, 0⟩ 0, getWithRemoved [r.1] ⟨big, 0⟩ 1)) =
    some (some (some (v 1)), some none) := by decide +kernel

end Example

/-- `C52_assign` needs its hypothesis that some value is present: assigning a slice
of missing values to an attribute of all objects of an allocation does nothing. -/
theorem C52_assign_missing_ignored (b : Bag) (hf : b.frozen = false) (a : Alloc)
    (hbig : a.isSmall = false) (objs : Objs) (attr : Attr) (n : Nat) :
    assignAttr b objs (some a) attr (Slice.allRemoved n) = .ok b := by
  unfold assignAttr setAttrFullAlloc
  simp only [hbig, hf, Bool.not_false, if_true, Bool.false_eq_true, if_false]
  rfl

/-- So a value can survive the removal of all values (which, with the same
objects, does not happen if the objects are not recognised as the whole
allocation). -/
theorem C52_assign_missing_witness :
    let objs := Objs.objects (Example.objs Example.big [0, 1, 2, 3, 4]) [Example.big] false
    let b := setAttr (emptyBag 0) (.object ⟨Example.big, 1⟩) 0 (some (Example.v 3))
    Example.read (b.bind fun b => assignAttr b objs (some Example.big) 0 (Slice.allRemoved 5))
        ⟨Example.big, 1⟩ = some (some (some (Example.v 3))) ∧
    Example.read (b.bind fun b => assignAttr b objs none 0 (Slice.allRemoved 5))
        ⟨Example.big, 1⟩ = some (some none) := by decide +kernel

/-- The exception in `Written` is needed: an object that is first given a missing
value and then `1` in one write, together with a value of another type for another
object, may lose the `1`. -/
theorem C52_duplicates_witness :
    let ids := [some ⟨Example.big, 0⟩, some ⟨Example.big, 0⟩, some ⟨Example.big, 1⟩]
    let values := build [some none, some (some (Example.v 1)), some (some (Example.w 2))]
    Example.read (setAttrSlice (emptyBag 0) (.objects ids [Example.big] false) 0 values)
      ⟨Example.big, 0⟩ = some (some none) := by decide +kernel

/-! ### C53: reading many objects at once is reading each of them -/

/-- The item at a position of a slice of objects. -/
def itemAt (ids : List (Option Obj)) (i : Nat) : ObjItem :=
  match ids[i]? with
  | some (some o) => .object o
  | _ => .missing

/-- An attribute of a slice of objects has at each position the attribute of the
object there. -/
theorem C53_slice {ids : List (Option Obj)} {allocs : List Alloc} {small : Bool}
    (hi : IdsWF ids allocs small) (attr : Attr) {bags : List Bag} (h : ∀ b ∈ bags, b.WF) :
    ∃ s, getAttrSlice bags (.objects ids allocs small) attr = .ok s ∧ s.WF ∧
      s.cells.length = ids.length ∧
      ∀ i, getAttr bags (itemAt ids i) attr = .ok (s.item i) := by
  obtain ⟨s, e, r, _⟩ := getAttrImpl_ok hi attr bags h false
  refine ⟨s, e, r.wf, r.length, ?_⟩
  intro i
  rw [r.item i]
  unfold itemAt
  cases hc : ids[i]? with
  | none => rfl
  | some o => cases o <;> rfl

/-- The same for the read that tells unset and removed attributes apart. -/
theorem C53_with_removed {ids : List (Option Obj)} {allocs : List Alloc} {small : Bool}
    (hi : IdsWF ids allocs small) (attr : Attr) {bags : List Bag} (h : ∀ b ∈ bags, b.WF) :
    ∃ s, getAttrSliceWithRemoved bags (.objects ids allocs small) attr = .ok s ∧ s.WF ∧
      s.cells.length = ids.length ∧
      (∀ (i : Nat) o, ids[i]? = some (some o) → s.cells[i]? = some (getWithRemoved bags o attr)) ∧
      ∀ (i : Nat), ids[i]? = some none → s.cells[i]? = some (some none) := by
  obtain ⟨s, e, r, hc⟩ := getAttrImpl_ok hi attr bags h true
  refine ⟨s, e, r.wf, r.length, ?_, ?_⟩
  · intro i o ho
    rw [hc rfl, cellsOf, List.getElem?_map, ho]; rfl
  · intro i ho
    rw [hc rfl, cellsOf, List.getElem?_map, ho]; rfl

/-- The same for the read that also recognises the objects of a whole allocation. -/
theorem C53_full_alloc {ids : List (Option Obj)} {allocs : List Alloc} {small : Bool}
    (hi : IdsWF ids allocs small) (attr : Attr) {bags : List Bag} (h : ∀ b ∈ bags, b.WF) :
    ∃ s full, getMaybeFullAlloc bags (.objects ids allocs small) attr = .ok (s, full) ∧
      s.cells.length = ids.length ∧
      (∀ (i : Nat) o, ids[i]? = some (some o) → s.cells[i]? = some (getWithRemoved bags o attr)) ∧
      (∀ (i : Nat), ids[i]? = some none → s.cells[i]? = some (some none)) ∧
      (full = true → ids ≠ [] → ∃ a, ids = (List.range a.n).map (fun i => some ⟨a, i⟩)) := by
  obtain ⟨s, full, e, hc, hfull⟩ := getMaybeFullAlloc_ok hi attr bags h
  refine ⟨s, full, e, by rw [hc, cellsOf, List.length_map], ?_, ?_, hfull⟩
  · intro i o ho
    rw [hc, cellsOf, List.getElem?_map, ho]; rfl
  · intro i ho
    rw [hc, cellsOf, List.getElem?_map, ho]; rfl

/-- Slices without objects. -/
theorem C53_other (bags : List Bag) (attr : Attr) (n : Nat) :
    (∃ s, getAttrSlice bags (.emptyAndUnknown n) attr = .ok s ∧
      getAttrSliceWithRemoved bags (.emptyAndUnknown n) attr = .ok s ∧
      getMaybeFullAlloc bags (.emptyAndUnknown n) attr = .ok (s, false) ∧
      s.cells = List.replicate n (some none) ∧ s.WF) ∧
    getAttrSlice bags (.primitives n) attr = .error .primitive ∧
    getAttrSliceWithRemoved bags (.primitives n) attr = .error .primitive ∧
    getMaybeFullAlloc bags (.primitives n) attr = .error .primitive :=
  ⟨⟨_, rfl, rfl, rfl, rfl, allRemoved_wf n⟩, rfl, rfl, rfl⟩

namespace Example

/-- A bag, a fallback that knows more, and a removed value that hides the one of
the fallback. -/
example :
    let b := setAttrSlice (emptyBag 0) (.objects (objs big [0, 1]) [big] false) 0
      (build [some (some (v 1)), some none])
    let c := setAttrSlice (emptyBag 1) (.objects (objs big [1, 2]) [big] false) 0
      (build [some (some (w 1)), some (some (v 5))])
    (b.bind fun b => c.bind fun c =>
      (getAttrSliceWithRemoved [b, c] (.objects (objs big [0, 1, 2, 3]) [big] false) 0).map
        (·.cells)).toOption =
    some [some (some (v 1)), some none, some (some (v 5)), none] := by decide +kernel

/-- All objects of an allocation are recognised. -/
example :
    ((createObjects (emptyBag 0) big [(0, build ((List.range 5).map fun i => some (some (v i))))]).bind
      fun r => (getMaybeFullAlloc [r.1] r.2 0).map fun s => (s.1.cells, s.2)).toOption =
    some ((List.range 5).map (fun i => some (some (v i))), true) := by decide +kernel

end Example

/-! ### C54: merging a bag into another -/

/-- Merging does to every attribute of every object what the policy says. -/
theorem C54_merge {b other b' : Bag} (hb : b.WF) (hf : b.frozen = false) (ho : other.WF)
    (hrel : Related b other) {same : SameSources} (hsame : ∀ x y, same x y = true → x = y)
    {p : Policy} (h : mergeInplace same b other p = .ok b') :
    Modified b b' ∧ ∀ x attr, x.Valid → MergedAt p b other b' x attr := by
  have := mergeInplace_ok hb hf ho hrel hsame p
  rw [h] at this
  exact ⟨⟨this.1.1, this.1.2.1, this.1.2.2.1, this.1.2.2.2⟩, this.2⟩

/-- A merge fails only if conflicts are to be raised and there is one (or if an
array of the other bag is larger than its allocation, see `C54_overrun_witness`). -/
theorem C54_error {b other : Bag} (hb : b.WF) (hf : b.frozen = false) (ho : other.WF)
    (hrel : Related b other) {same : SameSources} (hsame : ∀ x y, same x y = true → x = y)
    {p : Policy} {e : Err} (h : mergeInplace same b other p = .error e) :
    MergeError p b other e := by
  have := mergeInplace_ok hb hf ho hrel hsame p
  rw [h] at this
  exact this

/-- So a merge succeeds if conflicts are allowed or if there are none. -/
theorem C54_succeeds {b other : Bag} (hb : b.WF) (hf : b.frozen = false) (ho : other.WF)
    (hrel : Related b other) {same : SameSources} (hsame : ∀ x y, same x y = true → x = y)
    {p : Policy} (hover : ¬ HasOversized other)
    (hp : p ≠ .raise ∨ ∀ x attr, x.Valid →
      ¬ Conflict (getWithRemoved [b] x attr) (getWithRemoved [other] x attr)) :
    ∃ b', mergeInplace same b other p = .ok b' := by
  cases h : mergeInplace same b other p with
  | ok b' => exact ⟨b', rfl⟩
  | error e =>
    rcases C54_error hb hf ho hrel hsame h with ⟨_, h1, x, attr, h2, h3⟩ | ⟨_, h1⟩
    · rcases hp with hp | hp
      · exact absurd h1 hp
      · refine absurd ?_ (hp x attr h2)
        rw [read_one, read_one]
        exact h3
    · exact absurd h1 hover

/-- The attribute of the allocation of the object is more than removed values in
the bag. -/
def NotAllRemoved (b : Bag) (x : Obj) (attr : Attr) : Prop :=
  x.alloc.isSmall = true ∨
    ∃ y : Obj, y.Valid ∧ y.alloc = x.alloc ∧ getWithRemoved [b] y attr ≠ some none

private theorem merged_of_notAllRemoved {p : Policy} {b other b' : Bag} {x : Obj} {attr : Attr}
    (h : MergedAt p b other b' x attr) (hn : NotAllRemoved other x attr) :
    Merged p (b.lookup x attr) (other.lookup x attr) (b'.lookup x attr) := by
  rcases h with h | ⟨h1, _, _, _, h2⟩
  · exact h
  · rcases hn with hn | ⟨y, hy, hy1, hy2⟩
    · rw [h1] at hn; cases hn
    · rw [read_one] at hy2
      exact absurd (h2 y hy1 hy.off) hy2

/-- Overwriting: the merged bag reads like the other bag with this one as its
fallback. -/
theorem C54_overwrite {b other b' : Bag} (hb : b.WF) (hf : b.frozen = false) (ho : other.WF)
    (hrel : Related b other) {same : SameSources} (hsame : ∀ x y, same x y = true → x = y)
    (h : mergeInplace same b other .overwrite = .ok b') {x : Obj} (hx : x.Valid) (attr : Attr)
    (hn : NotAllRemoved other x attr) (fb : List Bag) :
    getWithRemoved (b' :: fb) x attr = getWithRemoved (other :: b :: fb) x attr := by
  have h1 := merged_of_notAllRemoved ((C54_merge hb hf ho hrel hsame h).2 x attr hx) hn
  rw [getWithRemoved_cons, getWithRemoved_cons, getWithRemoved_cons, h1.overwrite_eq, Option.or_assoc]

/-- Keeping: the merged bag reads like this bag with the other one as its
fallback. -/
theorem C54_keep {b other b' : Bag} (hb : b.WF) (hf : b.frozen = false) (ho : other.WF)
    (hrel : Related b other) {same : SameSources} (hsame : ∀ x y, same x y = true → x = y)
    (h : mergeInplace same b other .keep = .ok b') {x : Obj} (hx : x.Valid) (attr : Attr)
    (hn : NotAllRemoved other x attr) (fb : List Bag) :
    getWithRemoved (b' :: fb) x attr = getWithRemoved (b :: other :: fb) x attr := by
  have h1 := merged_of_notAllRemoved ((C54_merge hb hf ho hrel hsame h).2 x attr hx) hn
  have h2 : b'.lookup x attr = (b.lookup x attr).or (other.lookup x attr) := by
    revert h1
    cases b.lookup x attr with
    | none => exact id
    | some t => cases other.lookup x attr <;> exact id
  rw [getWithRemoved_cons, getWithRemoved_cons, getWithRemoved_cons, h2, Option.or_assoc]

/-- Raising: if the merge succeeds, the values both bags know are the same, and
all values of both are there. -/
theorem C54_raise {b other b' : Bag} (hb : b.WF) (hf : b.frozen = false) (ho : other.WF)
    (hrel : Related b other) {same : SameSources} (hsame : ∀ x y, same x y = true → x = y)
    (h : mergeInplace same b other .raise = .ok b') {x : Obj} (hx : x.Valid) (attr : Attr)
    (hn : NotAllRemoved other x attr) :
    (∀ t o, getWithRemoved [b] x attr = some t → getWithRemoved [other] x attr = some o →
      Same t o ∧ (getWithRemoved [b'] x attr = some t ∨ getWithRemoved [b'] x attr = some o)) ∧
    (getWithRemoved [b] x attr = none →
      getWithRemoved [b'] x attr = getWithRemoved [other] x attr) ∧
    (getWithRemoved [other] x attr = none →
      getWithRemoved [b'] x attr = getWithRemoved [b] x attr) := by
  have h1 := merged_of_notAllRemoved ((C54_merge hb hf ho hrel hsame h).2 x attr hx) hn
  rw [read_one, read_one, read_one]
  refine ⟨?_, ?_, ?_⟩
  · intro t o e1 e2; rw [e1, e2] at h1; exact h1
  · intro e; rw [e] at h1; exact h1
  · intro e
    rw [e] at h1
    revert h1
    cases b.lookup x attr <;> exact id

theorem C54_frozen {b : Bag} (h : b.frozen = true) (same : SameSources) (other : Bag) (p : Policy) :
    mergeInplace same b other p = .error .frozen := by
  unfold mergeInplace; rw [h]; rfl

namespace Example

def never : SameSources := fun _ _ => false

/-- A bag with an array of 5 values, and another one that knows values of another
type for two of the objects. -/
def this : Except Err Bag :=
  (createObjects (emptyBag 0) big [(0, build ((List.range 5).map fun i => some (some (v i))))]).map (·.1)

def that : Except Err Bag :=
  setAttrSlice (emptyBag 1) (.objects (objs big [1, 3]) [big] false) 0
    (build [some (some (w 7)), some none])

def merged (p : Policy) (b c : Except Err Bag) : Except Err Bag :=
  b.bind fun b => c.bind fun c => mergeInplace never b c p

def cells (b : Except Err Bag) : Option (List Cell) :=
  b.toOption.map fun b => (List.range 5).map fun i => getWithRemoved [b] ⟨big, i⟩ 0

def isErr (e : Err) : Except Err Bag → Bool
  | .ok _ => false
  | .error e' => e == e'

example : cells (merged .overwrite this that) =
      some [some (some (v 0)), some (some (w 7)), some (some (v 2)), some none, some (some (v 4))] ∧
    cells (merged .keep this that) = cells this ∧ isErr .conflict (merged .raise this that) := by
  refine ⟨?_, ?_, ?_⟩ <;> decide +kernel

/-- Bags that were made independently of each other are related. -/
theorem related : Related (emptyBag 0) (emptyBag 1) := by
  constructor
  · intro l ls l' ls' h1 h2 h3
    have e1 : l = (emptyBag 0).top := by
      have := h1.subset List.mem_cons_self
      simpa [Bag.layers, emptyBag] using this
    have e2 : l' = (emptyBag 1).top := by
      have := h2.subset List.mem_cons_self
      simpa [Bag.layers, emptyBag] using this
    rw [e1, e2] at h3
    cases h3
  · intro l hl h
    have e2 : l = (emptyBag 1).top := by simpa [Bag.layers, emptyBag] using hl
    rw [e2] at h
    cases h

/-- A bag in which all objects have a removed value. -/
def removed : Except Err Bag :=
  (createObjects (emptyBag 2) big [(0, Slice.allRemoved 5)]).map (·.1)

end Example

/-- The exception in `MergedAt` is needed: an array of removed values is ignored by
a merge, even if it is to overwrite, and does not cause a conflict. -/
theorem C54_all_removed_witness :
    Example.cells Example.removed = some (List.replicate 5 (some none)) ∧
    Example.cells (Example.merged .overwrite Example.this Example.removed) =
      Example.cells Example.this ∧
    Example.cells (Example.merged .raise Example.this Example.removed) =
      Example.cells Example.this := by
  refine ⟨?_, ?_, ?_⟩ <;> decide +kernel

/-- The exception in `MergeError` is needed: the array of removed values is as
large as the capacity of the allocation; with a value of its type `Unit` in it, it
is merged beyond the end of an array that is as large as the allocation. -/
theorem C54_overrun_witness :
    Example.isErr .outOfBounds (Example.merged .overwrite Example.this
      (Example.removed.bind fun b =>
        setAttr b (.object ⟨Example.big, 0⟩) 0 (some ⟨unitType, 0, 0, false⟩))) = true := by
  decide +kernel

/-! ### C55: an update that has the effect of a merge -/

/-- An update made from a bag is a new bag, and in front of this bag it reads like
the other bag in front of this bag. -/
theorem C55_update {b other u : Bag} (hb : b.WF) (ho : other.WF) (hrel : Related b other)
    {same : SameSources} (hsame : ∀ x y, same x y = true → x = y) {forkId updateId : Nat}
    (hid : ∀ l ∈ other.layers, l.id ≠ forkId)
    (h : createUpdate same b other forkId updateId = .ok u) :
    Modified (emptyBag updateId) u ∧
    (∀ x attr, x.Valid → UpdatedAt b other u x attr) ∧
    ∀ x attr, x.Valid → NotAllRemoved other x attr → ∀ fb,
      getWithRemoved (u :: b :: fb) x attr = getWithRemoved (other :: b :: fb) x attr := by
  have hok := createUpdate_ok hb ho hrel.shared hsame forkId updateId hid
  rw [h] at hok
  refine ⟨⟨hok.1.1, hok.1.2.1, hok.1.2.2.1, hok.1.2.2.2⟩, hok.2, ?_⟩
  intro x attr hx hn fb
  rw [getWithRemoved_cons, getWithRemoved_cons, getWithRemoved_cons, getWithRemoved_cons,
    ← Option.or_assoc, ← Option.or_assoc]
  rcases hok.2 x attr hx with h1 | ⟨h1, _, _, _, h2⟩
  · rw [h1]
  · rcases hn with hn | ⟨y, hy, hy1, hy2⟩
    · rw [h1] at hn; cases hn
    · rw [read_one] at hy2
      exact absurd (h2 y hy1 hy.off) hy2

/-- It can always be made, also from and for frozen bags. -/
theorem C55_succeeds {b other : Bag} (hb : b.WF) (ho : other.WF) (hrel : Related b other)
    {same : SameSources} (hsame : ∀ x y, same x y = true → x = y) {forkId updateId : Nat}
    (hid : ∀ l ∈ other.layers, l.id ≠ forkId) (hover : ¬ HasOversized other) :
    ∃ u, createUpdate same b other forkId updateId = .ok u := by
  have hok := createUpdate_ok hb ho hrel.shared hsame forkId updateId hid
  cases h : createUpdate same b other forkId updateId with
  | ok u => exact ⟨u, rfl⟩
  | error e => rw [h] at hok; exact absurd hok.2 hover

/-- Merging the update has the effect of merging the other bag. -/
theorem C55_apply {b other u b1 b2 : Bag} (hb : b.WF) (hf : b.frozen = false) (ho : other.WF)
    (hrel : Related b other) {same : SameSources} (hsame : ∀ x y, same x y = true → x = y)
    {forkId updateId : Nat} (hid : ∀ l ∈ other.layers, l.id ≠ forkId)
    (hid' : ∀ l ∈ b.layers, l.id ≠ updateId)
    (h : createUpdate same b other forkId updateId = .ok u)
    (h1 : mergeInplace same b u .overwrite = .ok b1)
    (h2 : mergeInplace same b other .overwrite = .ok b2) {x : Obj} (hx : x.Valid) (attr : Attr)
    (hn : NotAllRemoved other x attr) (hu : NotAllRemoved u x attr) (fb : List Bag) :
    getWithRemoved (b1 :: fb) x attr = getWithRemoved (b2 :: fb) x attr := by
  obtain ⟨m, _, e⟩ := C55_update hb ho hrel hsame hid h
  have hlay : u.layers = [u.top] := by unfold Bag.layers; rw [m.parents]; rfl
  have hrel' : Related b u := by
    constructor
    · intro l ls l' ls' g1 g2 g3
      have hl' : l' = u.top := by
        have := g2.subset List.mem_cons_self
        rw [hlay] at this
        simpa using this
      rw [hl', m.id] at g3
      exact absurd g3 (hid' l (g1.subset List.mem_cons_self))
    · intro l hl g
      rw [hlay, List.mem_singleton] at hl
      rw [hl, m.id] at g
      exact absurd g.symm (hid' b.top (by simp [Bag.layers]))
  rw [C54_overwrite hb hf m.wf hrel' hsame h1 hx attr hu, C54_overwrite hb hf ho hrel hsame h2 hx attr hn]
  exact e x attr hx hn fb

namespace Example

def updated (b c : Except Err Bag) : Option (List Cell) :=
  (b.bind fun b => c.bind fun c => (createUpdate never b c 10 11).map fun u =>
    (List.range 5).map fun i => getWithRemoved [u, b] ⟨big, i⟩ 0).toOption

example : updated this that = cells (merged .overwrite this that) ∧
    updated that this = cells (merged .overwrite that this) := by
  refine ⟨?_, ?_⟩ <;> decide +kernel

end Example

end Verif.BagAttr
