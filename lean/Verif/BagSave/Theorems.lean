import Verif.BagSave.Extract
/-
C92: saving and loading the attributes of a bag.
-/

namespace Verif.BagSave

open Verif.BagAttr

theorem empty_loading (id : Nat) : Loading (emptyBag id) where
  wf := by
    intro l hl
    have : l = (emptyBag id).top := by simpa [Bag.layers, emptyBag] using hl
    rw [this]
    exact ⟨by simp [emptyBag, PyDict.keys], by simp [emptyBag, PyDict.keys],
      fun attr s hs => (by cases hs), fun a attr c hc => (by cases hc)⟩
  frozen := rfl
  parents := rfl

theorem empty_lookup (id : Nat) (x : Obj) (attr : Attr) : (emptyBag id).lookup x attr = none := by
  unfold Bag.lookup
  split <;> rfl

theorem get?_index {K : Order} (layers : List Layer) (as : List Attr) (attr : Attr) :
    PyDict.get? (as.map fun attr => (attr, attrIndex K layers attr)) attr =
      if attr ∈ as then some (attrIndex K layers attr) else none := by
  induction as with
  | nil => simp [PyDict.get?]
  | cons a as ih =>
    rw [List.map_cons]
    show (if a = attr then some (attrIndex K layers a) else _) = _
    by_cases h : a = attr
    · rw [if_pos h, if_pos (by simp [h]), h]
    · rw [if_neg h, ih]
      by_cases hm : attr ∈ as
      · rw [if_pos hm, if_pos (List.mem_cons_of_mem _ hm)]
      · rw [if_neg hm, if_neg]
        simp [hm, Ne.symm h]

/-- **C92**: a saved bag can be loaded, in whatever order its contents were written,
and then every attribute of every object is what it was: a value, removed or not set.
The one exception are attributes stored in an array in which no object has a value:
they are not set in the loaded bag, even if they were removed in the saved one. -/
theorem C92_roundtrip {K : Order} (hK : K.WF) {b : Bag} (hb : b.WF) (id : Nat) :
    ∃ b', loadBag id (saveBag K b) = .ok b' ∧ b'.WF ∧ b'.frozen = false ∧ b'.parents = [] ∧
      ∀ (x : Obj) (attr : Attr), x.Valid → SavedAt b b' x attr := by
  have hnd : (PyDict.keys (createIndex K b.layers)).Nodup := by
    unfold createIndex PyDict.keys
    rw [List.map_map]
    have : (Prod.fst ∘ fun attr => (attr, attrIndex K b.layers attr)) = fun a => a := rfl
    rw [this, List.map_id']
    exact (hK.attrs _).nodup_iff.2 (nodup_dedup _)
  obtain ⟨b', e, l, w⟩ := loadAttrs_ok K b.layers (createIndex K b.layers) hnd
    (by
      intro e he
      obtain ⟨attr, _, rfl⟩ := List.mem_map.1 he
      exact (extract_ok hK hb attr).1)
    [] (saveBag K b).inputs List.prefix_rfl (empty_loading id)
    (fun e _ => ⟨fun _ => rfl, fun x _ => empty_lookup id x e.1⟩)
  refine ⟨b', e, l.wf, l.frozen, l.parents, ?_⟩
  intro x attr hx
  have hw := w x attr hx
  unfold createIndex at hw
  rw [get?_index] at hw
  by_cases hm : attr ∈ K.attrs (indexAttrs b.layers)
  · rw [if_pos hm] at hw
    have hw : b'.lookup x attr =
      (extractAttr K b.layers attr (attrIndex K b.layers attr)).cell x := hw
    unfold SavedAt NoValue
    rcases (extract_ok hK hb attr).2 x hx with ⟨hs, h1⟩ | ⟨hs, h1 | ⟨h1, h2, h3⟩⟩
    · rw [Bag.lookup_small (b := b) hs, hw]
      exact .inl h1
    · rw [Bag.lookup_big (b := b) hs, hw]
      exact .inl h1
    · refine .inr ⟨hw.trans h1, hs, h2, ?_⟩
      intro y hy hya v
      rw [Bag.lookup_big (b := b) (by rw [hya]; exact hs)]
      exact h3 y hy hya v
  · rw [if_neg hm] at hw
    have hw : b'.lookup x attr = none := hw.trans (empty_lookup id x attr)
    left
    rw [hw]
    have hno : ∀ l ∈ b.layers, (∀ a, l.big.get? (a, attr) = none) ∧ l.small.get? attr = none := by
      intro l hl
      have hn : attr ∉ indexAttrs b.layers := fun h => hm ((hK.attrs _).mem_iff.2 h)
      constructor
      · intro a
        cases hg : l.big.get? (a, attr) with
        | none => rfl
        | some c =>
          exact absurd ((mem_indexAttrs _ _).2 ⟨l, hl, .inl ⟨a, by rw [hg]; rfl⟩⟩) hn
      · cases hg : l.small.get? attr with
        | none => rfl
        | some c => exact absurd ((mem_indexAttrs _ _).2 ⟨l, hl, .inr (by rw [hg]; rfl)⟩) hn
    unfold Bag.lookup
    split
    · exact (lookupSmall_none _ _ _ fun l hl => (hno l hl).2).symm
    · exact (lookupBig_none _ _ _ fun l hl => (hno l hl).1 _).symm

/-- **C92**: reading an attribute of an object from the loaded bag gives what reading
it from the saved one gives. -/
theorem C92_get {K : Order} (hK : K.WF) {b b' : Bag} (hb : b.WF) {id : Nat}
    (h : loadBag id (saveBag K b) = .ok b') (x : Obj) (hx : x.Valid) (attr : Attr) :
    getAttr [b'] (.object x) attr = getAttr [b] (.object x) attr := by
  obtain ⟨b1, e1, _, _, _, w⟩ := C92_roundtrip hK hb id
  rw [h] at e1
  cases e1
  have hg : ∀ b : Bag, getAttr [b] (.object x) attr = .ok ((b.lookup x attr).getD none) := by
    intro b
    unfold getAttr getWithRemoved
    simp only
    cases b.lookup x attr <;> rfl
  rw [hg, hg]
  rcases w x attr hx with h1 | ⟨h1, _, _, h4⟩
  · rw [h1]
  · rw [h1]
    cases hl : b.lookup x attr with
    | none => rfl
    | some i =>
      cases i with
      | none => rfl
      | some v => exact absurd hl (h4 x hx rfl v)

/-- **C92**: reading through fallbacks gives the same as well, if one of the objects of
the allocation has a value, or if the attribute is not stored in an array. -/
theorem C92_get_fallbacks {K : Order} (hK : K.WF) {b b' : Bag} (hb : b.WF) {id : Nat}
    (h : loadBag id (saveBag K b) = .ok b') (x : Obj) (hx : x.Valid) (attr : Attr)
    (hex : ¬ NoValue b x.alloc attr ∨ ¬ InArray b.layers x.alloc attr) (before after : List Bag) :
    getAttr (before ++ b' :: after) (.object x) attr =
      getAttr (before ++ b :: after) (.object x) attr := by
  obtain ⟨b1, e1, _, _, _, w⟩ := C92_roundtrip hK hb id
  rw [h] at e1
  cases e1
  have hl : b'.lookup x attr = b.lookup x attr := by
    rcases w x attr hx with h1 | ⟨_, _, h3, h4⟩
    · exact h1
    · rcases hex with h | h
      · exact absurd h4 h
      · exact absurd h3 h
  have hg : getWithRemoved (before ++ b' :: after) x attr =
      getWithRemoved (before ++ b :: after) x attr := by
    induction before with
    | nil =>
      show getWithRemoved (b' :: after) x attr = getWithRemoved (b :: after) x attr
      rw [getWithRemoved, getWithRemoved, hl]
    | cons c before ih =>
      rw [List.cons_append, List.cons_append, getWithRemoved, getWithRemoved, ih]
  unfold getAttr
  simp only
  rw [hg]

/-! ### Saved bags that were not made by `saveBag` -/

theorem decodeChunk_checked {attr : Attr} {ins : List Input} {b b' : Bag} {c : Chunk}
    (h : decodeChunk attr ins b c = .ok b') : c.Ok ins := by
  unfold decodeChunk at h
  cases hg : ins[c.sub]? with
  | none => rw [hg] at h; cases h
  | some inp =>
    rw [hg] at h
    refine ⟨inp, hg, ?_⟩
    rintro s rfl
    simp only at h
    by_cases h0 : c.first.off = 0
    · rw [if_neg (by simp [h0])] at h
      refine ⟨h0, ?_⟩
      by_cases h1 : c.first.alloc.capacity < s.cells.length
      · rw [if_pos h1] at h; cases h
      · omega
    · rw [if_pos h0] at h; cases h

theorem decodeChunk_fails {attr : Attr} {ins : List Input} {b : Bag} {c : Chunk} {e : LoadErr}
    (h : decodeChunk attr ins b c = .error e) : c.Fails ins e := by
  have lift : ∀ r : Except Err Bag, liftErr r = .error e → ∃ e', e = .bag e' := by
    intro r hr
    cases r with
    | ok b => cases hr
    | error e' => cases hr; exact ⟨e', rfl⟩
  unfold decodeChunk at h
  cases hg : ins[c.sub]? with
  | none =>
    rw [hg] at h
    cases h
    exact List.getElem?_eq_none_iff.1 hg
  | some inp =>
    rw [hg] at h
    cases inp with
    | item v =>
      obtain ⟨e', rfl⟩ := lift _ h
      exact ⟨_, hg, by intro s hs; cases hs⟩
    | slice s =>
      simp only at h
      by_cases h0 : c.first.off = 0
      · rw [if_neg (by simp [h0])] at h
        by_cases h1 : c.first.alloc.capacity < s.cells.length
        · rw [if_pos h1] at h
          cases h
          exact ⟨s, hg, h0, h1⟩
        · rw [if_neg h1] at h
          obtain ⟨e', rfl⟩ := lift _ h
          refine ⟨_, hg, ?_⟩
          intro s' hs
          cases hs
          exact ⟨h0, by omega⟩
      · rw [if_pos h0] at h
        cases h
        exact ⟨s, hg, h0⟩

theorem decodeChunks_checked {attr : Attr} {ins : List Input} (cs : List Chunk) {b b' : Bag}
    (h : decodeChunks attr ins b cs = .ok b') : ∀ c ∈ cs, c.Ok ins := by
  induction cs generalizing b with
  | nil => intro c hc; cases hc
  | cons c cs ih =>
    rw [decodeChunks] at h
    cases hd : decodeChunk attr ins b c with
    | error e => rw [hd] at h; cases h
    | ok b1 =>
      rw [hd] at h
      intro c' hc'
      rcases List.mem_cons.1 hc' with rfl | hc'
      · exact decodeChunk_checked hd
      · exact ih h c' hc'

theorem decodeChunks_fails {attr : Attr} {ins : List Input} (cs : List Chunk) {b : Bag}
    {e : LoadErr} (h : decodeChunks attr ins b cs = .error e) : ∃ c ∈ cs, c.Fails ins e := by
  induction cs generalizing b with
  | nil => cases h
  | cons c cs ih =>
    rw [decodeChunks] at h
    cases hd : decodeChunk attr ins b c with
    | error e' =>
      rw [hd] at h
      cases h
      exact ⟨c, List.mem_cons_self, decodeChunk_fails hd⟩
    | ok b1 =>
      rw [hd] at h
      obtain ⟨c', hc', hf⟩ := ih h
      exact ⟨c', List.mem_cons_of_mem _ hc', hf⟩

/-- **C92**: loading checks every chunk: whatever data it is given, if it succeeds then
every chunk refers to a value that is there, and many values begin at the first object
of an allocation and fit into it. -/
theorem C92_checked {id : Nat} {s : Saved} {b : Bag} (h : loadBag id s = .ok b) :
    ∀ e ∈ s.attrs, ∀ c ∈ e.2, c.Ok s.inputs := by
  obtain ⟨attrs, ins⟩ := s
  unfold loadBag at h
  simp only at h ⊢
  generalize emptyBag id = b0 at h
  induction attrs generalizing b0 with
  | nil => intro e he; cases he
  | cons e es ih =>
    rw [decodeAttrs] at h
    cases hd : decodeChunks e.1 ins b0 e.2 with
    | error err => rw [hd] at h; cases h
    | ok b1 =>
      rw [hd] at h
      intro e' he'
      rcases List.mem_cons.1 he' with rfl | he'
      · exact decodeChunks_checked _ hd
      · exact ih b1 h e' he'

/-- **C92**: if loading fails then a chunk is to blame, and the error tells why. -/
theorem C92_fails {id : Nat} {s : Saved} {err : LoadErr} (h : loadBag id s = .error err) :
    ∃ e ∈ s.attrs, ∃ c ∈ e.2, c.Fails s.inputs err := by
  obtain ⟨attrs, ins⟩ := s
  unfold loadBag at h
  simp only at h ⊢
  generalize emptyBag id = b0 at h
  induction attrs generalizing b0 with
  | nil => cases h
  | cons e es ih =>
    rw [decodeAttrs] at h
    cases hd : decodeChunks e.1 ins b0 e.2 with
    | error err' =>
      rw [hd] at h
      cases h
      exact ⟨e, List.mem_cons_self, decodeChunks_fails _ hd⟩
    | ok b1 =>
      rw [hd] at h
      obtain ⟨e', he', hc⟩ := ih b1 h
      exact ⟨e', List.mem_cons_of_mem _ he', hc⟩

/-! ### Concrete cases -/

/-- Everything in the order it is found. -/
def exOrder : Order := { attrs := id, allocs := id, items := id }

theorem exOrder_wf : exOrder.WF :=
  ⟨fun _ => .refl _, fun _ => .refl _, fun _ => .refl _⟩

/-- An allocation of four objects. -/
def exAlloc : Alloc := { id := 1, bits := 2, n := 4 }

/-- A single object. -/
def exObj : Obj := { alloc := { id := 2, bits := 0, n := 1 }, off := 0 }

def exVal (n : Nat) : Item := some { ty := 3, num := n, bits := n, nan := false }

/-- The bag an operation made. -/
def bagOf (r : Except Err Bag) : Bag :=
  match r with
  | .ok b => b
  | .error _ => emptyBag 0

def loadedOf (r : Except LoadErr Bag) : Bag :=
  match r with
  | .ok b => b
  | .error _ => emptyBag 0

def exIds : List (Option Obj) := (List.range 4).map fun i => some ⟨exAlloc, i⟩

/-- A bag in which three of the four objects have a value. -/
def exBase : Bag :=
  bagOf (setAttrSlice (emptyBag 1) (.objects exIds [exAlloc] false) 7
    (build [some (exVal 5), some (exVal 6), some none, some (exVal 8)]))

/-- A fork of it, in which one value is removed, and a single object has one. -/
def exBag : Bag :=
  bagOf (setAttr (bagOf (setAttr (exBase.fork 2) (.object ⟨exAlloc, 1⟩) 7 none))
    (.object exObj) 7 (exVal 9))

theorem exBase_ok : (setAttrSlice (emptyBag 1) (.objects exIds [exAlloc] false) 7
    (build [some (exVal 5), some (exVal 6), some none, some (exVal 8)])).toOption = some exBase := by
  decide +kernel

example : (loadBag 3 (saveBag exOrder exBag)).toOption.isSome = true := by decide +kernel

/-- Saved and loaded: values, removed values and values that were never set. -/
example : [(loadedOf (loadBag 3 (saveBag exOrder exBag))).lookup ⟨exAlloc, 0⟩ 7,
    (loadedOf (loadBag 3 (saveBag exOrder exBag))).lookup ⟨exAlloc, 1⟩ 7,
    (loadedOf (loadBag 3 (saveBag exOrder exBag))).lookup ⟨exAlloc, 2⟩ 7,
    (loadedOf (loadBag 3 (saveBag exOrder exBag))).lookup exObj 7,
    (loadedOf (loadBag 3 (saveBag exOrder exBag))).lookup exObj 8] =
    [some (exVal 5), some none, some none, some (exVal 9), none] := by decide +kernel

/-- The value of all four objects is removed. -/
def exRemoval : Bag :=
  bagOf (setAttrSlice (emptyBag 4) (.objects exIds [exAlloc] false) 7 (Slice.allRemoved 4))

/-- **C92**: the exception is real.  A bag in which the attribute of all objects of an
allocation was removed hides the values of the bag below it; after it was saved and
loaded it does not. -/
theorem C92_removals_lost :
    (setAttrSlice (emptyBag 4) (.objects exIds [exAlloc] false) 7 (Slice.allRemoved 4)).toOption =
      some exRemoval ∧
    (loadBag 5 (saveBag exOrder exRemoval)).toOption =
      some (loadedOf (loadBag 5 (saveBag exOrder exRemoval))) ∧
    (getAttr [exRemoval, exBase] (.object ⟨exAlloc, 0⟩) 7).toOption = some none ∧
    (getAttr [loadedOf (loadBag 5 (saveBag exOrder exRemoval)), exBase]
      (.object ⟨exAlloc, 0⟩) 7).toOption = some (exVal 5) := by
  decide +kernel

/-- A chunk that refers to a value that is not there. -/
def exNoValue : Saved := ⟨[(7, [⟨exObj, 1⟩])], [.item (exVal 1)]⟩

/-- A chunk of many values that does not begin at the first object. -/
def exNotFirst : Saved := ⟨[(7, [⟨⟨exAlloc, 1⟩, 0⟩])], [.slice (build [some (exVal 1)])]⟩

/-- More values than the allocation has objects. -/
def exTooMany : Saved :=
  ⟨[(7, [⟨⟨exAlloc, 0⟩, 0⟩])], [.slice (build (List.replicate 5 (some (exVal 1))))]⟩

/-- The error of loading. -/
def errorOf (r : Except LoadErr Bag) : Option LoadErr :=
  match r with
  | .ok _ => none
  | .error e => some e

example : errorOf (loadBag 1 exNoValue) = some .badIndex ∧
    errorOf (loadBag 1 exNotFirst) = some .badOffset ∧
    errorOf (loadBag 1 exTooMany) = some .tooManyValues := by decide +kernel

end Verif.BagSave
