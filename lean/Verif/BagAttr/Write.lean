import Verif.BagAttr.Read
/-
Writing attributes: what the bag says afterwards.
-/

namespace Verif.BagAttr

/-! ### Bags and their parts -/

theorem Bag.WF.top {b : Bag} (h : b.WF) : b.top.WF := h _ (by simp [Bag.layers])

theorem Bag.WF.parents {b : Bag} (h : b.WF) : ∀ l ∈ b.parents, l.WF :=
  fun l hl => h l (by simp [Bag.layers, hl])

theorem Bag.wf_of {b : Bag} (h1 : b.top.WF) (h2 : ∀ l ∈ b.parents, l.WF) : b.WF := by
  intro l hl
  rcases List.mem_cons.1 hl with h | h
  · rw [h]; exact h1
  · exact h2 l h

theorem Bag.lookup_big {b : Bag} {o : Obj} (ho : o.alloc.isSmall = false) (attr : Attr) :
    b.lookup o attr = lookupBig o attr b.layers := by
  unfold Bag.lookup
  rw [ho]; rfl

theorem Bag.lookup_small {b : Bag} {o : Obj} (ho : o.alloc.isSmall = true) (attr : Attr) :
    b.lookup o attr = lookupSmall o attr b.layers := by
  unfold Bag.lookup
  rw [ho]; rfl

theorem lookupSmall_cons (o : Obj) (attr : Attr) (l : Layer) (ls : List Layer) :
    lookupSmall o attr (l :: ls) =
      ((l.small.get? attr).bind (·.get o)).or (lookupSmall o attr ls) := by
  rw [lookupSmall]
  cases l.small.get? attr with
  | none => rfl
  | some s =>
    simp only [Option.bind_some]
    cases s.get o <;> rfl

theorem Bag.coll_cell (b : Bag) (o : Obj) (attr : Attr) :
    lookupBig o attr b.layers = (b.coll o.alloc attr).cell o (lookupBig o attr b.parents) := by
  unfold Bag.layers Bag.coll
  rw [lookupBig_cons]
  cases b.top.big.get? (o.alloc, attr) with
  | some c => rfl
  | none =>
    simp only [Option.getD_none, Coll.cell, Option.bind_none, Option.none_or]
    cases hp : b.parents with
    | nil => rfl
    | cons l ls => simp

theorem Bag.coll_wf {b : Bag} (h : b.WF) (a : Alloc) (attr : Attr) : (b.coll a attr).WF a := by
  unfold Bag.coll
  cases hg : b.top.big.get? (a, attr) with
  | some c => exact (h.top.big a attr c hg).2.2.1
  | none =>
    exact ⟨(by intro s hs; cases hs), (by intro d hd; cases hd), (by intro d hd; cases hd)⟩

theorem Bag.setColl_big (b : Bag) (a : Alloc) (attr : Attr) (c : Coll) (o : Obj) (attr' : Attr) :
    lookupBig o attr' (b.setColl a attr c).layers =
      if o.alloc = a ∧ attr' = attr then c.cell o (lookupBig o attr b.parents)
      else lookupBig o attr' b.layers := by
  unfold Bag.layers Bag.setColl
  rw [lookupBig_cons, lookupBig_cons]
  by_cases h : o.alloc = a ∧ attr' = attr
  · rw [if_pos h, h.1, h.2]
    simp only [PyDict.get?_set_self]
  · rw [if_neg h]
    have hne : (o.alloc, attr') ≠ (a, attr) := fun he =>
      h ⟨congrArg Prod.fst he, congrArg Prod.snd he⟩
    simp only [PyDict.get?_set_ne _ hne]

theorem Bag.setColl_lookup (b : Bag) (a : Alloc) (ha : a.isSmall = false) (attr : Attr) (c : Coll)
    (o : Obj) (attr' : Attr) :
    (b.setColl a attr c).lookup o attr' =
      if o.alloc = a ∧ attr' = attr then c.cell o (lookupBig o attr b.parents)
      else b.lookup o attr' := by
  cases hs : o.alloc.isSmall with
  | false => rw [Bag.lookup_big hs, Bag.lookup_big hs, Bag.setColl_big]
  | true =>
    rw [Bag.lookup_small hs, Bag.lookup_small hs, if_neg]
    · unfold Bag.layers Bag.setColl
      rw [lookupSmall_cons, lookupSmall_cons]
    · rintro ⟨h, _⟩
      rw [h, ha] at hs
      cases hs

theorem Bag.setColl_wf {b : Bag} (h : b.WF) {a : Alloc} (ha : a.WF) (hs : a.isSmall = false)
    (attr : Attr) {c : Coll} (hc : c.WF a) (hl : c.lookupParent = true → c.sparse.isSome) :
    (b.setColl a attr c).WF := by
  refine Bag.wf_of ⟨h.top.nodupSmall, PyDict.nodup_set h.top.nodupBig _ _, h.top.small, ?_⟩
    h.parents
  intro a' attr' c' hg
  by_cases he : (a', attr') = (a, attr)
  · cases he
    have hg' : (b.top.big.set (a, attr) c).get? (a, attr) = some c' := hg
    rw [PyDict.get?_set_self] at hg'
    have := Option.some.inj hg'
    subst this
    exact ⟨ha, hs, hc, hl⟩
  · have hg' : (b.top.big.set (a, attr) c).get? (a', attr') = some c' := hg
    rw [PyDict.get?_set_ne _ he] at hg'
    exact h.top.big a' attr' c' hg'

theorem Bag.smallSource_get (b : Bag) (o : Obj) (attr : Attr) :
    lookupSmall o attr b.layers =
      ((b.smallSource attr).get o).or (lookupSmall o attr b.parents) := by
  unfold Bag.layers Bag.smallSource
  rw [lookupSmall_cons]
  cases b.top.small.get? attr <;> rfl

theorem Bag.smallSource_wf {b : Bag} (h : b.WF) (attr : Attr) : (b.smallSource attr).WF none := by
  unfold Bag.smallSource
  cases hg : b.top.small.get? attr with
  | some s => exact h.top.small attr s hg
  | none => exact ⟨rfl, by simp [PyDict.keys], by simp [PyDict.keys]⟩

theorem Bag.setSmall_small (b : Bag) (attr : Attr) (s : Sparse) (o : Obj) (attr' : Attr) :
    lookupSmall o attr' (b.setSmall attr s).layers =
      if attr' = attr then (s.get o).or (lookupSmall o attr b.parents)
      else lookupSmall o attr' b.layers := by
  unfold Bag.layers Bag.setSmall
  rw [lookupSmall_cons, lookupSmall_cons]
  by_cases h : attr' = attr
  · rw [if_pos h, h]
    simp only [PyDict.get?_set_self, Option.bind_some]
  · rw [if_neg h]
    simp only [PyDict.get?_set_ne _ h]

theorem Bag.setSmall_lookup (b : Bag) (attr : Attr) (s : Sparse) (o : Obj) (attr' : Attr) :
    (b.setSmall attr s).lookup o attr' =
      if o.alloc.isSmall = true ∧ attr' = attr then
        (s.get o).or (lookupSmall o attr b.parents)
      else b.lookup o attr' := by
  cases hs : o.alloc.isSmall with
  | true =>
    rw [Bag.lookup_small hs, Bag.lookup_small hs, Bag.setSmall_small]
    by_cases h : attr' = attr
    · rw [if_pos h, if_pos ⟨rfl, h⟩]
    · rw [if_neg h, if_neg (fun h' => h h'.2)]
  | false =>
    rw [Bag.lookup_big hs, Bag.lookup_big hs, if_neg (by simp)]
    unfold Bag.layers Bag.setSmall
    rw [lookupBig_cons, lookupBig_cons]

theorem Bag.setSmall_wf {b : Bag} (h : b.WF) (attr : Attr) {s : Sparse} (hs : s.WF none) :
    (b.setSmall attr s).WF := by
  refine Bag.wf_of ⟨PyDict.nodup_set h.top.nodupSmall _ _, h.top.nodupBig, ?_, h.top.big⟩
    h.parents
  intro attr' s' hg
  have hg' : (b.top.small.set attr s).get? attr' = some s' := hg
  by_cases he : attr' = attr
  · rw [he, PyDict.get?_set_self] at hg'
    have := Option.some.inj hg'
    subst this
    exact hs
  · rw [PyDict.get?_set_ne _ he] at hg'
    exact h.top.small attr' s' hg'

/-! ### Collections to write to -/

theorem getOrCreateMutable_ok (parents : List Layer) (hp : ∀ l ∈ parents, l.WF) (c : Coll)
    (a : Alloc) (attr : Attr) (ty : Option Nat) (k : Nat) (hc : c.WF a) (ha : a.WF)
    (hs : a.isSmall = false) :
    ∃ c', getOrCreateMutable parents c a attr ty k = .ok c' ∧ c'.WF a ∧
      (c'.mutDense.isSome = true ∨ c'.sparse.isSome = true) ∧
      ∀ o : Obj, o.alloc = a → o.off < a.n →
        c'.cell o (lookupBig o attr parents) = c.cell o (lookupBig o attr parents) := by
  unfold getOrCreateMutable
  by_cases hm : c.mutDense.isSome = true
  · rw [if_pos hm]
    exact ⟨c, rfl, hc, .inl hm, fun _ _ _ => rfl⟩
  · rw [if_neg hm]
    have hm' : c.mutDense = none := by
      cases h : c.mutDense with
      | none => rfl
      | some d => rw [h] at hm; exact absurd rfl hm
    by_cases hk : k ≤ a.capacity / sparsityCoef
    · rw [if_pos hk]
      refine ⟨_, rfl, ⟨?_, ?_, ?_⟩, .inr rfl, ?_⟩
      · intro s hs'
        have := Option.some.inj hs'
        subst this
        cases hsp : c.sparse with
        | some s => exact hc.sparse s hsp
        | none => exact ⟨rfl, by simp [PyDict.keys], by simp [PyDict.keys]⟩
      · intro d hd
        simp only [hm'] at hd
        cases hd
      · intro d hd
        exact hc.const d hd
      · intro o _ _
        simp only [Coll.cell, Option.bind_some]
        cases hsp : c.sparse with
        | some s => rfl
        | none => rfl
    · rw [if_neg hk]
      obtain ⟨d, h1, h2, h3, h4⟩ := createMutableDense_ok parents hp c a attr ty a.capacity hc hm'
        hs ha (Nat.le_refl _)
      refine ⟨_, h1, Coll.WF.ofDense h2 h3, .inl rfl, ?_⟩
      intro o ho hoff
      rw [Coll.cell_dense, h4 o ho hoff]

theorem Coll.write_ok {a : Alloc} {c : Coll} (hc : c.WF a)
    (hex : c.mutDense.isSome = true ∨ c.sparse.isSome = true)
    (onDense : Dense → Except Err Dense) (onSparse : Sparse → Except Err Sparse)
    (L : Obj → Cell) (R : Obj → Cell → Cell → Prop)
    (hL : ∀ o old, R o old ((L o).or old))
    (hd : ∀ d : Dense, d.WF a → d.rep.isMutable = true → ∃ d', onDense d = .ok d' ∧ d'.WF a ∧
      d'.rep.isMutable = true ∧ ∀ o : Obj, o.alloc = a → o.off < a.n → R o (d.get o) (d'.get o))
    (hs : ∀ s : Sparse, s.WF (some a) → ∃ s', onSparse s = .ok s' ∧ s'.WF (some a) ∧
      ∀ o : Obj, o.alloc = a → s'.get o = (L o).or (s.get o)) :
    ∃ c', c.write onDense onSparse = .ok c' ∧ c'.WF a ∧
      (c'.lookupParent = true → c'.sparse.isSome = true) ∧
      ∀ (o : Obj) (up : Cell), o.alloc = a → o.off < a.n → R o (c.cell o up) (c'.cell o up) := by
  obtain ⟨sp, md, cd, lp⟩ := c
  unfold Coll.write
  cases md with
  | some d =>
    have hw := hc.mutd d rfl
    simp only at hw
    obtain ⟨hw1, hw2, rfl, rfl, rfl⟩ := hw
    obtain ⟨d', h1, h2, h3, h4⟩ := hd d hw1 hw2
    simp only [h1]
    refine ⟨_, rfl, Coll.WF.ofDense h2 h3, (by intro h; cases h), ?_⟩
    intro o up ho hoff
    rw [Coll.cell_dense, Coll.cell_dense]
    exact h4 o ho hoff
  | none =>
    cases sp with
    | none => rcases hex with h | h <;> cases h
    | some s =>
      obtain ⟨s', h1, h2, h3⟩ := hs s (hc.sparse s rfl)
      simp only [h1]
      refine ⟨_, rfl, ⟨?_, ?_, ?_⟩, fun _ => rfl, ?_⟩
      · intro s1 hs1
        have := Option.some.inj hs1
        subst this
        exact h2
      · intro d hd; cases hd
      · intro d hd; exact hc.const d hd
      · intro o up ho hoff
        simp only [Coll.cell, Option.bind_some, h3 o ho, Option.or_assoc]
        exact hL o _

/-! ### One object -/

/-- The effect of writing one attribute of one object. -/
structure WroteItem (b b' : Bag) (o : Obj) (attr : Attr) (v : Item) : Prop where
  wf : b'.WF
  frozen : b'.frozen = b.frozen
  parents : b'.parents = b.parents
  id : b'.top.id = b.top.id
  lookup : ∀ o' attr', o'.Valid →
    b'.lookup o' attr' = if o' = o ∧ attr' = attr then some v else b.lookup o' attr'

theorem setAttr_object {b : Bag} (h : b.WF) (hf : b.frozen = false) {o : Obj} (ho : o.Valid)
    (attr : Attr) (v : Item) :
    ∃ b', setAttr b (.object o) attr v = .ok b' ∧ WroteItem b b' o attr v := by
  unfold setAttr
  rw [hf]
  simp only [Bool.false_eq_true, if_false]
  by_cases hs : o.alloc.isSmall = true
  · rw [if_pos hs]
    have hw := Bag.smallSource_wf h attr
    refine ⟨_, rfl, Bag.setSmall_wf h attr (hw.set ho v), hf.symm ▸ hf, rfl, rfl, ?_⟩
    intro o' attr' _
    rw [Bag.setSmall_lookup, Sparse.get_set (by rw [hw.belongs_none]; exact hs)]
    by_cases he : o' = o ∧ attr' = attr
    · rw [if_pos he, he.1, he.2, if_pos ⟨hs, rfl⟩, if_pos rfl]; rfl
    · rw [if_neg he]
      by_cases hc : o'.alloc.isSmall = true ∧ attr' = attr
      · rw [if_pos hc, if_neg (fun h' => he ⟨h', hc.2⟩), Bag.lookup_small hc.1, hc.2,
          ← Bag.smallSource_get]
      · rw [if_neg hc]
  · rw [if_neg hs]
    have hs : o.alloc.isSmall = false := by simpa using hs
    obtain ⟨c1, h1, h2, h3, h4⟩ := getOrCreateMutable_ok b.parents h.parents (b.coll o.alloc attr)
      o.alloc attr (v.map (·.ty)) 1 (Bag.coll_wf h _ _) ho.alloc hs
    obtain ⟨c2, g1, g2, g3, g4⟩ := Coll.write_ok h2 h3 (·.set o v) (fun s => .ok (s.set o v))
      (fun o' => if o' = o then some v else none)
      (fun o' old new => new = if o' = o then some v else old)
      (by
        intro o' old
        by_cases he : o' = o
        · rw [if_pos he, if_pos he]; rfl
        · rw [if_neg he, if_neg he]; rfl)
      (by
        intro d hd hm
        obtain ⟨d', e1, e2, e3, _, e4⟩ := hd.set_ok hm o rfl v (.inl ho.off)
        refine ⟨d', e1, e2, e3, ?_⟩
        intro o' ho' hoff'
        show d'.rep.get o'.off = _
        rw [e4]
        by_cases he : o' = o
        · rw [if_pos he, he, if_pos rfl]
        · rw [if_neg he, if_neg]
          · rfl
          · intro h'
            apply he
            cases o'; cases o
            simp only at ho' h'
            subst ho'; subst h'
            rfl)
      (by
        intro s hsw
        refine ⟨s.set o v, rfl, hsw.set ho v, ?_⟩
        intro o' ho'
        rw [Sparse.get_set ((hsw.belongs_some o).2 rfl)]
        by_cases he : o' = o
        · rw [if_pos he, if_pos he]; rfl
        · rw [if_neg he, if_neg he]; rfl)
    refine ⟨b.setColl o.alloc attr c2, ?_, Bag.setColl_wf h ho.alloc hs attr g2 g3,
      hf.symm ▸ hf, rfl, rfl, ?_⟩
    · simp only [h1, bind, Except.bind, g1, pure, Except.pure]
    · intro o' attr' ho'
      rw [Bag.setColl_lookup b o.alloc hs]
      by_cases hc : o'.alloc = o.alloc ∧ attr' = attr
      · rw [if_pos hc, g4 o' _ hc.1 (by rw [← hc.1]; exact ho'.off),
          h4 o' hc.1 (by rw [← hc.1]; exact ho'.off), ← hc.1, ← Bag.coll_cell,
          Bag.lookup_big (by rw [hc.1]; exact hs), hc.2]
        by_cases he : o' = o
        · rw [if_pos he, if_pos ⟨he, rfl⟩]
        · rw [if_neg he, if_neg (fun h' => he h'.1)]
      · rw [if_neg hc, if_neg]
        rintro ⟨rfl, rfl⟩
        exact hc ⟨rfl, rfl⟩

/-! ### Many objects -/

/-- The effect of writing an attribute of many objects. -/
structure WroteMany (b b' : Bag) (values : Slice) (ws : Obj → List Item) (attr : Attr) : Prop where
  wf : b'.WF
  frozen : b'.frozen = b.frozen
  parents : b'.parents = b.parents
  id : b'.top.id = b.top.id
  other : ∀ o attr', o.Valid → attr' ≠ attr → b'.lookup o attr' = b.lookup o attr'
  lookup : ∀ o, o.Valid → Written values (ws o) (b.lookup o attr) (b'.lookup o attr)

/-- The values `setEach` writes to an object. -/
def eachWrites (values : Slice) (o : Obj) : List (Option Obj) → Nat → List Item
  | [], _ => []
  | x :: ids, i =>
    if x = some o ∧ o.alloc.isSmall = false then values.item i :: eachWrites values o ids (i + 1)
    else eachWrites values o ids (i + 1)

theorem setEach_ok (values : Slice) (attr : Attr) (ids : List (Option Obj))
    (hids : ∀ o, some o ∈ ids → o.Valid) (i : Nat) {b : Bag} (h : b.WF) (hf : b.frozen = false) :
    ∃ b', setEach b attr values ids i = .ok b' ∧ b'.WF ∧ b'.frozen = b.frozen ∧
      b'.parents = b.parents ∧ b'.top.id = b.top.id ∧
      (∀ o attr', o.Valid → attr' ≠ attr → b'.lookup o attr' = b.lookup o attr') ∧
      ∀ o, o.Valid → b'.lookup o attr =
        (((eachWrites values o ids i).getLast?).or (b.lookup o attr)) := by
  induction ids generalizing i b with
  | nil => exact ⟨b, rfl, h, rfl, rfl, rfl, fun _ _ _ _ => rfl, fun _ _ => rfl⟩
  | cons x ids ih =>
    have hids' : ∀ o, some o ∈ ids → o.Valid := fun o ho => hids o (List.mem_cons_of_mem _ ho)
    cases x with
    | none =>
      obtain ⟨b', h1, h2, h3, h4, h5, h6, h7⟩ := ih hids' (i + 1) h hf
      refine ⟨b', h1, h2, h3, h4, h5, h6, fun o ho => ?_⟩
      rw [h7 o ho, eachWrites, if_neg (by simp)]
    | some o1 =>
      rw [setEach]
      by_cases hs : o1.alloc.isSmall = true
      · rw [if_pos hs]
        obtain ⟨b', h1, h2, h3, h4, h5, h6, h7⟩ := ih hids' (i + 1) h hf
        refine ⟨b', h1, h2, h3, h4, h5, h6, fun o ho => ?_⟩
        rw [h7 o ho, eachWrites, if_neg]
        rintro ⟨he, hb⟩
        have := Option.some.inj he
        subst this
        rw [hs] at hb; cases hb
      · rw [if_neg hs]
        have hs : o1.alloc.isSmall = false := by simpa using hs
        obtain ⟨b1, g1, g2⟩ := setAttr_object h hf (hids o1 (by simp)) attr (values.item i)
        obtain ⟨b', h1, h2, h3, h4, h5, h6, h7⟩ := ih hids' (i + 1) g2.wf (by rw [g2.frozen, hf])
        refine ⟨b', by simp only [g1, bind, Except.bind, h1], h2, by rw [h3, g2.frozen],
          by rw [h4, g2.parents], by rw [h5, g2.id], ?_, ?_⟩
        · intro o attr' ho hne
          rw [h6 o attr' ho hne, g2.lookup o attr' ho, if_neg (fun h' => hne h'.2)]
        · intro o ho
          rw [h7 o ho, g2.lookup o attr ho, eachWrites]
          by_cases he : o = o1
          · subst he
            rw [if_pos ⟨rfl, rfl⟩, if_pos ⟨rfl, hs⟩, getLast?_cons_getD]
            cases (eachWrites values o ids (i + 1)).getLast? <;> rfl
          · rw [if_neg (fun h' => he h'.1), if_neg (fun h' => he (Option.some.inj h'.1).symm)]

theorem eachWrites_eq (values : Slice) (o : Obj) (ho : o.alloc.isSmall = false)
    (ids : List (Option Obj)) (pre cells : List Cell) (hv : values.cells = pre ++ cells)
    (hlen : ids.length = cells.length) :
    eachWrites values o ids pre.length =
      (ids.zip cells).filterMap fun p => if p.1 = some o then some (p.2.getD none) else none := by
  induction ids generalizing pre cells with
  | nil => rfl
  | cons x ids ih =>
    cases cells with
    | nil => simp at hlen
    | cons c cells =>
      have := ih (pre ++ [c]) cells (by rw [hv]; simp) (by simpa using hlen)
      rw [List.length_append, List.length_singleton] at this
      rw [eachWrites, this, List.zip_cons_cons, List.filterMap_cons]
      have hitem : values.item pre.length = c.getD none := by
        unfold Slice.item
        rw [hv, List.getElem?_append_right (Nat.le_refl _)]
        simp
      by_cases hx : x = some o
      · rw [if_pos ⟨hx, ho⟩, hitem]
        simp only [if_pos hx]
      · rw [if_neg (fun h' => hx h'.1)]
        simp only [if_neg hx]

theorem eachWrites_small (values : Slice) (o : Obj) (ho : o.alloc.isSmall = true)
    (ids : List (Option Obj)) (i : Nat) : eachWrites values o ids i = [] := by
  induction ids generalizing i with
  | nil => rfl
  | cons x ids ih =>
    rw [eachWrites, if_neg, ih]
    rintro ⟨_, h⟩
    rw [ho] at h; cases h

theorem setAllocs_ok (attr : Attr) (ids : List (Option Obj)) (hids : ∀ o, some o ∈ ids → o.Valid)
    (values : Slice) (hv : values.WF) (hlen : ids.length = values.cells.length)
    (as : List Alloc) (hnd : as.Nodup) (has : ∀ a ∈ as, a.WF ∧ a.isSmall = false)
    {b : Bag} (h : b.WF) :
    ∃ b', setAllocs b attr ids values as = .ok b' ∧ b'.WF ∧ b'.frozen = b.frozen ∧
      b'.parents = b.parents ∧ b'.top.id = b.top.id ∧
      (∀ o attr', o.Valid → ¬ (o.alloc ∈ as ∧ attr' = attr) →
        b'.lookup o attr' = b.lookup o attr') ∧
      ∀ o, o.Valid → o.alloc ∈ as →
        Written values (writesOf ids values o) (b.lookup o attr) (b'.lookup o attr) := by
  induction as generalizing b with
  | nil => exact ⟨b, rfl, h, rfl, rfl, rfl, fun _ _ _ _ => rfl, fun _ _ hm => by cases hm⟩
  | cons a as ih =>
    have hnd' := List.nodup_cons.1 hnd
    have ha := has a (by simp)
    obtain ⟨c1, h1, h2, h3, h4⟩ := getOrCreateMutable_ok b.parents h.parents (b.coll a attr)
      a attr values.dtype ids.length (Bag.coll_wf h _ _) ha.1 ha.2
    obtain ⟨c2, g1, g2, g3, g4⟩ := Coll.write_ok h2 h3 (·.setMany ids values)
      (·.setMany ids values)
      (fun o' => (writesOf ids values o').getLast?)
      (fun o' old new => Written values (writesOf ids values o') old new)
      (by
        intro o' old
        apply written_of_last
        cases (writesOf ids values o').getLast? <;> rfl)
      (by
        intro d hd hm
        obtain ⟨d', e1, e2, e3, _, e4⟩ := hd.setMany_ok hm ids hids values hv hlen
        exact ⟨d', e1, e2, e3, e4⟩)
      (by
        intro s hsw
        obtain ⟨s', e1, e2, e3⟩ := hsw.setMany_ok ids hids values hlen
        refine ⟨s', e1, e2, ?_⟩
        intro o' ho'
        rw [e3 o' ((hsw.belongs_some o').2 ho')]
        cases (writesOf ids values o').getLast? <;> rfl)
    have hwf := Bag.setColl_wf h ha.1 ha.2 attr g2 g3
    obtain ⟨b', k1, k2, k3, k4, k5, k6, k7⟩ := ih hnd'.2
      (fun a ha => has a (List.mem_cons_of_mem _ ha)) hwf
    refine ⟨b', ?_, k2, k3, k4, k5, ?_, ?_⟩
    · rw [setAllocs]
      simp only [h1, bind, Except.bind, g1, k1]
    · intro o attr' ho hne
      rw [k6 o attr' ho (fun h' => hne ⟨List.mem_cons_of_mem _ h'.1, h'.2⟩),
        Bag.setColl_lookup b a ha.2, if_neg]
      rintro ⟨rfl, rfl⟩
      exact hne ⟨by simp, rfl⟩
    · intro o ho hm
      by_cases hoa : o.alloc = a
      · rw [k6 o attr ho (fun h' => hnd'.1 (hoa ▸ h'.1)), Bag.setColl_lookup b a ha.2,
          if_pos ⟨hoa, rfl⟩]
        have hoff : o.off < a.n := by rw [← hoa]; exact ho.off
        have := g4 o (lookupBig o attr b.parents) hoa hoff
        rw [h4 o hoa hoff] at this
        rw [Bag.lookup_big (by rw [hoa]; exact ha.2), Bag.coll_cell, hoa]
        exact this
      · have hm' : o.alloc ∈ as := by
          rcases List.mem_cons.1 hm with h' | h'
          · exact absurd h' hoa
          · exact h'
        have := k7 o ho hm'
        rw [Bag.setColl_lookup b a ha.2, if_neg (fun h' => hoa h'.1)] at this
        exact this

theorem writesOf_nil {ids : List (Option Obj)} {values : Slice} {o : Obj} (h : some o ∉ ids) :
    writesOf ids values o = [] := by
  rw [List.eq_nil_iff_forall_not_mem]
  intro v hv
  obtain ⟨c, hc, _⟩ := mem_writesOf.1 hv
  exact h (List.of_mem_zip hc).1

theorem setSmallPart_ok {b : Bag} (h : b.WF) (attr : Attr) (ids : List (Option Obj))
    (hids : ∀ o, some o ∈ ids → o.Valid) (values : Slice)
    (hlen : ids.length = values.cells.length) (small : Bool)
    (hsm : ∀ o, some o ∈ ids → o.alloc.isSmall = true → small = true) :
    ∃ b', setSmallPart b attr ids values small = .ok b' ∧ b'.WF ∧ b'.frozen = b.frozen ∧
      b'.parents = b.parents ∧ b'.top.id = b.top.id ∧
      (∀ o attr', o.Valid → ¬ (o.alloc.isSmall = true ∧ attr' = attr) →
        b'.lookup o attr' = b.lookup o attr') ∧
      ∀ o, o.Valid → o.alloc.isSmall = true →
        Written values (writesOf ids values o) (b.lookup o attr) (b'.lookup o attr) := by
  unfold setSmallPart
  cases small with
  | false =>
    refine ⟨b, rfl, h, rfl, rfl, rfl, fun _ _ _ _ => rfl, ?_⟩
    intro o _ hs
    rw [writesOf_nil (fun hm => by have := hsm o hm hs; cases this)]
    exact written_of_last _ _ _ _ rfl
  | true =>
    have hw := Bag.smallSource_wf h attr
    obtain ⟨s', e1, e2, e3⟩ := hw.setMany_ok ids hids values hlen
    simp only [if_true, e1]
    refine ⟨_, rfl, Bag.setSmall_wf h attr e2, rfl, rfl, rfl, ?_, ?_⟩
    · intro o attr' _ hne
      rw [Bag.setSmall_lookup, if_neg hne]
    · intro o _ hs
      rw [Bag.setSmall_lookup, if_pos ⟨hs, rfl⟩, e3 o (by rw [hw.belongs_none]; exact hs),
        Bag.lookup_small hs, Bag.smallSource_get]
      apply written_of_last
      cases (writesOf ids values o).getLast? <;> rfl

theorem setAttrSlice_ok {b : Bag} (h : b.WF) (hf : b.frozen = false) {ids : List (Option Obj)}
    {allocs : List Alloc} {small : Bool} (hi : IdsWF ids allocs small) (attr : Attr)
    {values : Slice} (hv : values.WF) (hlen : ids.length = values.cells.length) :
    ∃ b', setAttrSlice b (.objects ids allocs small) attr values = .ok b' ∧
      WroteMany b b' values (writesOf ids values) attr := by
  unfold setAttrSlice
  rw [hf]
  simp only [Bool.false_eq_true, if_false]
  by_cases hnone : (allocs.isEmpty && !small) = true
  · rw [if_pos hnone]
    have hn := Bool.and_eq_true_iff.1 hnone
    have hn1 : allocs = [] := List.isEmpty_iff.1 hn.1
    have hn2 : small = false := by simpa using hn.2
    refine ⟨b, rfl, h, rfl, rfl, rfl, fun _ _ _ _ => rfl, ?_⟩
    intro o _
    rw [writesOf_nil]
    · exact written_of_last _ _ _ _ rfl
    · intro hm
      cases hs : o.alloc.isSmall with
      | true => have := hi.small o hm hs; rw [hn2] at this; cases this
      | false => have := hi.big o hm hs; rw [hn1] at this; cases this
  · rw [if_neg hnone]
    obtain ⟨b1, g1, g2, g3, g4, g5, g6, g7⟩ :=
      setSmallPart_ok h attr ids hi.valid values hlen small hi.small
    rw [g1]
    simp only []
    by_cases hmany : hasTooManyAllocs allocs.length values.cells.length = true
    · rw [if_pos hmany]
      obtain ⟨b', k1, k2, k3, k4, k5, k6, k7⟩ := setEach_ok values attr ids hi.valid 0 g2
        (by rw [g3, hf])
      refine ⟨b', k1, k2, by rw [k3, g3, hf], by rw [k4, g4], by rw [k5, g5], ?_, ?_⟩
      · intro o attr' ho hne
        rw [k6 o attr' ho hne, g6 o attr' ho (fun h' => hne h'.2)]
      · intro o ho
        rw [k7 o ho]
        cases hs : o.alloc.isSmall with
        | true =>
          rw [eachWrites_small values o hs]
          exact g7 o ho hs
        | false =>
          have he : eachWrites values o ids 0 = writesOf ids values o :=
            eachWrites_eq values o hs ids [] values.cells rfl hlen
          rw [he, g6 o attr ho (fun h' => by rw [hs] at h'; cases h'.1)]
          apply written_of_last
          cases (writesOf ids values o).getLast? <;> rfl
    · rw [if_neg hmany]
      obtain ⟨b', k1, k2, k3, k4, k5, k6, k7⟩ := setAllocs_ok attr ids hi.valid values hv hlen
        allocs hi.nodup hi.wf g2
      refine ⟨b', k1, k2, by rw [k3, g3, hf], by rw [k4, g4], by rw [k5, g5], ?_, ?_⟩
      · intro o attr' ho hne
        rw [k6 o attr' ho (fun h' => hne h'.2), g6 o attr' ho (fun h' => hne h'.2)]
      · intro o ho
        cases hs : o.alloc.isSmall with
        | true =>
          rw [k6 o attr ho (fun h' => by have := (hi.wf _ h'.1).2; rw [hs] at this; cases this)]
          exact g7 o ho hs
        | false =>
          have hbase := g6 o attr ho (fun h' => by rw [hs] at h'; cases h'.1)
          by_cases hm : o.alloc ∈ allocs
          · have := k7 o ho hm
            rw [hbase] at this
            exact this
          · rw [k6 o attr ho (fun h' => hm h'.1), hbase,
              writesOf_nil (fun hmem => hm (hi.big o hmem hs))]
            exact written_of_last _ _ _ _ rfl

/-- A size mismatch is an error, and writes nothing, unless there are so many
allocations that the objects are written one by one. -/
theorem setAttrSlice_mismatch {b : Bag} (hb : b.WF) (hf : b.frozen = false)
    {ids : List (Option Obj)} {allocs : List Alloc} {small : Bool} (attr : Attr) {values : Slice}
    (hi : IdsWF ids allocs small)
    (hlen : ids.length ≠ values.cells.length) (hne : allocs ≠ [] ∨ small = true)
    (hmany : small = true ∨ hasTooManyAllocs allocs.length values.cells.length = false) :
    setAttrSlice b (.objects ids allocs small) attr values = .error .sizeMismatch := by
  unfold setAttrSlice
  rw [hf]
  simp only [Bool.false_eq_true, if_false]
  rw [if_neg]
  · cases hsm : small with
    | true =>
      simp only [setSmallPart, if_true, Sparse.setMany_mismatch _ _ _ hlen]
    | false =>
      have hmf : hasTooManyAllocs allocs.length values.cells.length = false := by
        rcases hmany with h | h
        · rw [hsm] at h; cases h
        · exact h
      simp only [setSmallPart, Bool.false_eq_true, if_false, hmf]
      cases ha : allocs with
      | nil =>
        rcases hne with h | h
        · exact absurd ha h
        · rw [hsm] at h; cases h
      | cons a as =>
        have haw := hi.wf a (by rw [ha]; simp)
        obtain ⟨c1, h1, h2, h3, _⟩ := getOrCreateMutable_ok b.parents hb.parents (b.coll a attr)
          a attr values.dtype ids.length (Bag.coll_wf hb _ _) haw.1 haw.2
        rw [setAllocs]
        simp only [h1, bind, Except.bind]
        unfold Coll.write
        cases hmd : c1.mutDense with
        | some d =>
          simp only [Dense.setMany_mismatch d (h2.mutd d hmd).2.1 ids values hlen, bind,
            Except.bind]
        | none =>
          cases hsp : c1.sparse with
          | some s => simp only [Sparse.setMany_mismatch s ids values hlen, bind, Except.bind]
          | none =>
            rw [hmd, hsp] at h3
            rcases h3 with h3 | h3 <;> cases h3
  · intro h
    have h := Bool.and_eq_true_iff.1 h
    rcases hne with h' | h'
    · exact h' (List.isEmpty_iff.1 h.1)
    · rw [h'] at h; simp at h

end Verif.BagAttr
