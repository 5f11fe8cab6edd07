import Verif.BagWorld.World
/-
Operations that modify a bag.
-/

namespace Verif.BagWorld

open Verif.BagAttr

/-! ### The implementation that is modified -/

/-- A mutable bag gets another implementation. -/
theorem setImpl_ok {w : World} (hok : Ok w) {h : Nat} {d : DataBag} (hd : w.bags[h]? = some d)
    (hm : d.mutbl = true) {impls' : List Impl} (he : Ext w.impls impls') {n : Nat}
    (hn : w.impls.length ≤ n) {b' : Bag} (hb' : bagAt impls' n = some b') (hf : b'.frozen = false) :
    Ok { impls := impls', bags := w.bags.modify h fun d => { d with impl := n, forked := false } } := by
  have key : ∀ (k : Nat) (dk' : DataBag),
      (w.bags.modify h fun d => { d with impl := n, forked := false })[k]? = some dk' →
      ∃ dk : DataBag, w.bags[k]? = some dk ∧ dk'.fallbacks = dk.fallbacks ∧ dk'.mutbl = dk.mutbl ∧
        ((h = k ∧ dk'.impl = n ∧ dk'.forked = false) ∨ (h ≠ k ∧ dk' = dk)) := by
    intro k dk' hk
    obtain ⟨dk, hdk, he⟩ := modify_some hk
    by_cases hhk : h = k
    · rw [if_pos hhk] at he; subst he; exact ⟨dk, hdk, rfl, rfl, .inl ⟨hhk, rfl, rfl⟩⟩
    · rw [if_neg hhk] at he; subst he; exact ⟨dk', hdk, rfl, rfl, .inr ⟨hhk, rfl⟩⟩
  constructor
  · exact he.ok
  · intro k dk' hk
    obtain ⟨dk, a1, a2, a3, ⟨rfl, a4, a5⟩ | ⟨a4, rfl⟩⟩ := key k dk' hk
    · rw [hd] at a1
      obtain rfl := Option.some.inj a1
      simp only
      rw [a4, hb', a3, a5]
      refine ⟨b', rfl, ?_, fun _ => hf⟩
      rw [hm]; intro h; cases h
    · simp only
      rw [he.same _ (hok.impl_lt a1)]
      exact hok.valid k dk' a1
  · intro k k' e e' h1 h2 hi
    obtain ⟨dk, a1, a2, a3, ⟨rfl, a4, a5⟩ | ⟨a4, rfl⟩⟩ := key k e h1 <;>
      obtain ⟨dk', b1, b2, b3, ⟨g, b4, b5⟩ | ⟨b4, rfl⟩⟩ := key k' e' h2
    · exact g
    · have := hok.impl_lt b1; omega
    · have := hok.impl_lt a1; omega
    · exact hok.inj k k' e e' a1 b1 hi
  · intro k dk' hk hm'
    obtain ⟨dk, a1, a2, a3, _⟩ := key k dk' hk
    rw [a2]; exact hok.fb k dk a1 (a3 ▸ hm')
  · intro k dk' hk g hg
    obtain ⟨dk, a1, a2, a3, _⟩ := key k dk' hk
    rw [a2] at hg
    obtain ⟨b1, dg, b2, b3⟩ := hok.fbs k dk a1 g hg
    refine ⟨b1, ?_⟩
    simp only
    rw [modify_get, b2]
    refine ⟨_, rfl, ?_⟩
    by_cases hhg : h = g
    · simp only [if_pos hhg]; exact b3
    · simp only [if_neg hhg]; exact b3
  · intro k dk' b hk hne hb
    obtain ⟨dk, a1, a2, a3, ⟨rfl, a4, a5⟩ | ⟨a4, rfl⟩⟩ := key k dk' hk
    · rw [hd] at a1
      obtain rfl := Option.some.inj a1
      rw [a2] at hne
      exact absurd (hok.fb h d hd hm) hne
    · simp only at hb
      rw [he.same _ (hok.impl_lt a1)] at hb
      exact hok.own k dk' b a1 hne hb

theorem setImpl_keeps {w : World} (hok : Ok w) {h : Nat} {d : DataBag} (hd : w.bags[h]? = some d)
    {impls' : List Impl} (he : Ext w.impls impls') {n : Nat} {b b' : Bag}
    (hb : bagAt w.impls d.impl = some b) (hb' : bagAt impls' n = some b')
    (hl : ∀ x attr, b'.lookup x attr = b.lookup x attr) :
    Keeps w { impls := impls', bags := w.bags.modify h fun d => { d with impl := n, forked := false } }
      none none where
  bag k dk hk := by
    simp only
    rw [modify_get, hk]
    refine ⟨_, rfl, ?_⟩
    by_cases hhk : h = k
    · simp only [if_pos hhk]; exact ⟨trivial, id, fun _ => trivial⟩
    · simp only [if_neg hhk]; exact ⟨trivial, id, fun _ => trivial⟩
  look k hlt _ x attr := by
    obtain ⟨dk, hk⟩ := get_of_lt hlt
    by_cases hhk : h = k
    · subst hhk
      rw [hd] at hk
      obtain rfl := Option.some.inj hk
      have hk' : (w.bags.modify h fun d => { d with impl := n, forked := false })[h]? =
          some { d with impl := n, forked := false } := by rw [modify_get, hd]; simp
      rw [look_some (b := b') (by
          rw [implOf_some (w := { impls := impls', bags := w.bags.modify h fun d =>
            { d with impl := n, forked := false } }) hk']; exact hb'),
        look_some (b := b) (by rw [implOf_some hd]; exact hb), hl]
    · have hk' : (w.bags.modify h fun d => { d with impl := n, forked := false })[k]? = some dk := by
        rw [modify_get, hk]; simp [hhk]
      unfold look
      rw [implOf_some hk, implOf_some (w := { impls := impls', bags := w.bags.modify h fun d =>
            { d with impl := n, forked := false } }) hk']
      simp only
      rw [he.same _ (hok.impl_lt hk)]

/-- A world in which a bag is ready to be modified. -/
structure Ready (w w' : World) (h : Nat) (b b' : Bag) : Prop where
  ok : Ok w'
  keeps : Keeps w w' none none
  len : w'.bags.length = w.bags.length
  bag : ∃ d : DataBag, w'.bags[h]? = some d ∧ d.mutbl = true ∧ d.fallbacks = [] ∧
    bagAt w'.impls d.impl = some b'
  frozen : b'.frozen = false
  was : b' = b ∨ ∃ n, b' = b.fork n
  other : ∀ k, k ≠ h → implOf w' k = implOf w k

theorem getMutableImpl_ok {w : World} (hok : Ok w) {h : Nat} {d : DataBag}
    (hd : w.bags[h]? = some d) (hm : d.mutbl = true) :
    ∃ w' b b', getMutableImpl w h = .ok w' ∧ implOf w h = some b ∧ Ready w w' h b b' := by
  obtain ⟨b, hb, _, hfz⟩ := hok.valid h d hd
  have hfz := hfz hm
  have hfb := hok.fb h d hd hm
  have hio : implOf w h = some b := by rw [implOf_some hd]; exact hb
  unfold getMutableImpl
  rw [hd]
  simp only [hm, Bool.not_true, Bool.false_eq_true, if_false]
  cases hfk : d.forked with
  | false =>
    rw [hfk] at hfz
    exact ⟨w, b, b, rfl, hio, hok, Keeps.refl _ _ _, rfl, ⟨d, hd, hm, hfb, hb⟩, hfz, .inl rfl,
      fun _ _ => rfl⟩
  | true =>
    rw [hfk] at hfz
    simp only [if_true]
    have hb1 : bagAt (freezeImpl w.impls d.impl) d.impl = some b := by
      rw [bagAt_freeze, hb]
      simp only [Option.map_some, if_true]
      rw [← hfz]
    have hext1 : Ext w.impls (freezeImpl w.impls d.impl) := by
      refine ⟨freeze_ok hok.impls _, by rw [length_freeze]; exact Nat.le_refl _, ?_⟩
      intro i hi
      by_cases hii : d.impl = i
      · subst hii; rw [hb1, hb]
      · rw [bagAt_freeze]
        simp only [if_neg hii]
        cases bagAt w.impls i <;> rfl
    obtain ⟨m, hm1, hbm⟩ := bagAt_inv hb1
    have hfo : ImplsOk (forkImpl (freezeImpl w.impls d.impl) d.impl) :=
      fork_ok hext1.ok hm1 (by rw [hbm] at hfz; exact hfz)
    have hext := hext1.trans (ext_append hext1.ok hfo)
    have hat := bagAt_fork hext1.ok hb1
    rw [length_freeze] at hat
    refine ⟨_, b, b.fork w.impls.length, rfl, hio, ?_⟩
    refine ⟨setImpl_ok hok hd hm hext (Nat.le_refl _) hat rfl,
      setImpl_keeps hok hd hext hb hat (fun x attr => fork_lookup b _ x attr), by simp,
      ⟨{ d with impl := w.impls.length, forked := false }, ?_, hm, hfb, hat⟩, rfl, .inr ⟨_, rfl⟩, ?_⟩
    · simp only
      rw [modify_get, hd]
      simp
    · intro k hk
      unfold implOf
      simp only
      rw [modify_get]
      cases hdk : w.bags[k]? with
      | none => rfl
      | some dk =>
        simp only [Option.map_some, Option.bind_some, if_neg (Ne.symm hk)]
        exact hext.same _ (hok.impl_lt hdk)

/-- Only the mutable bags have an implementation that can be modified. -/
theorem getMutableImpl_err {w : World} {h : Nat} {d : DataBag}
    (hd : w.bags[h]? = some d) (hm : d.mutbl = false) : getMutableImpl w h = .error .immutable := by
  unfold getMutableImpl
  rw [hd]
  simp only [hm, Bool.not_false, if_true]

theorem Ready.lookup {w w' : World} {h : Nat} {b b' : Bag} (hr : Ready w w' h b b') (x : Obj)
    (attr : Attr) : b'.lookup x attr = b.lookup x attr := by
  rcases hr.was with rfl | ⟨n, rfl⟩
  · rfl
  · exact fork_lookup b n x attr

/-- The result of a modification is stored. -/
theorem store_world {w : World} (hok : Ok w) {h : Nat} {d : DataBag} (hd : w.bags[h]? = some d)
    (hm : d.mutbl = true) {b b' : Bag} (hb : bagAt w.impls d.impl = some b) (hf : b.frozen = false)
    (hmod : Modified b b') :
    Ok { w with impls := store w.impls d.impl b' } ∧
    Keeps w { w with impls := store w.impls d.impl b' } (some h) none ∧
    bagAt (store w.impls d.impl b') d.impl = some b' := by
  obtain ⟨m, hm1, hbm⟩ := bagAt_inv hb
  have hmf : m.frozen = false := by rw [hbm] at hf; exact hf
  have hat := bagAt_store_eq hok.impls hb hf hmod
  have hne : ∀ j, j ≠ d.impl → bagAt (store w.impls d.impl b') j = bagAt w.impls j :=
    fun j hj => bagAt_store_ne hok.impls hm1 hmf b' hj
  have hother : ∀ (k : Nat) (dk : DataBag), w.bags[k]? = some dk → k ≠ h → dk.impl ≠ d.impl :=
    fun k dk hk hkh he => hkh (hok.inj k h dk d hk hd he)
  refine ⟨?_, ?_, hat⟩
  · refine ⟨store_ok hok.impls hb hmod, ?_, hok.inj, hok.fb, hok.fbs, ?_⟩
    · intro k dk hk
      simp only at hk ⊢
      by_cases hkh : k = h
      · subst hkh
        rw [hd] at hk
        obtain rfl := Option.some.inj hk
        rw [hat]
        obtain ⟨b0, c1, c2, c3⟩ := hok.valid k d hd
        rw [hb] at c1
        obtain rfl := Option.some.inj c1
        refine ⟨b', rfl, fun h => ?_, fun h => ?_⟩
        · rw [hm] at h; cases h
        · rw [← c3 h, hf]; exact hmod.frozen
      · rw [hne _ (hother k dk hk hkh)]; exact hok.valid k dk hk
    · intro k dk b0 hk hfb hb0
      simp only at hk hb0
      by_cases hkh : k = h
      · subst hkh
        rw [hd] at hk
        obtain rfl := Option.some.inj hk
        exact absurd (hok.fb k d hd hm) hfb
      · rw [hne _ (hother k dk hk hkh)] at hb0
        exact hok.own k dk b0 hk hfb hb0
  · refine ⟨fun k dk hk => ⟨dk, hk, rfl, id, fun _ => rfl⟩, ?_⟩
    intro k hl hkt x attr
    obtain ⟨dk, hk⟩ := get_of_lt hl
    have hkh : k ≠ h := fun he => hkt (by rw [he])
    unfold look
    rw [implOf_some hk, implOf_some (w := { w with impls := store w.impls d.impl b' }) hk]
    simp only
    rw [hne _ (hother k dk hk hkh)]

/-- What is known after a modification that may have failed. -/
structure Did (w w' : World) (h : Nat) (b' : Bag) : Prop where
  ok : Ok w'
  keeps : Keeps w w' (some h) none
  len : w'.bags.length = w.bags.length
  look : ∀ x attr, look w' h x attr = b'.lookup x attr

theorem modifyImpl_ok {w : World} (hok : Ok w) {h : Nat} {d : DataBag} (hd : w.bags[h]? = some d)
    (hm : d.mutbl = true) {b : Bag} (hb : bagAt w.impls d.impl = some b) (hf : b.frozen = false)
    {crash : Bag → Bag} (hc : CrashOk crash) {f : Bag → Except Err Bag}
    (hmod : ∀ b', f b = .ok b' → Modified b b') :
    match f b with
    | .ok b' => (modifyImpl w h crash f).2 = none ∧ Did w (modifyImpl w h crash f).1 h b'
    | .error e => (modifyImpl w h crash f).2 = some e ∧ Did w (modifyImpl w h crash f).1 h (crash b) := by
  have key : ∀ b', Modified b b' → Did w { w with impls := store w.impls d.impl b' } h b' := by
    intro b' hmod
    obtain ⟨h1, h2, h3⟩ := store_world hok hd hm hb hf hmod
    refine ⟨h1, h2, rfl, fun x attr => look_some ?_ x attr⟩
    rw [implOf_some (w := { w with impls := store w.impls d.impl b' }) hd]
    exact h3
  unfold modifyImpl
  rw [hd]
  simp only
  rw [hb]
  simp only
  cases hfb : f b with
  | ok b' => exact ⟨rfl, key b' (hmod b' hfb)⟩
  | error e => exact ⟨rfl, key _ (hc b (bagAt_wf hok.impls hb) hf)⟩

/-! ### Writes -/

theorem WriteOp.Valid.fork {b : Bag} {op : WriteOp} (h : op.Valid b) (n : Nat) :
    op.Valid (b.fork n) := by
  cases op with
  | setAttr o attr v => exact h
  | setSlice objs attr values => exact h
  | assign objs full attr values => exact h
  | createOne o fields => exact h
  | create a fields =>
    obtain ⟨h1, h2, h3, h4⟩ := h
    refine ⟨h1, h2, h3, ?_⟩
    intro l hl attr
    unfold Bag.fork Bag.layers at hl
    simp only at hl
    rcases List.mem_cons.1 hl with rfl | hl
    · rfl
    · refine h4 l ?_ attr
      unfold Bag.layers
      split at hl
      · exact List.mem_cons_of_mem _ hl
      · exact hl

private theorem modified_refl {b : Bag} (hb : b.WF) (hf : b.frozen = false) : Modified b b :=
  ⟨hb, hf, rfl, rfl⟩

private theorem setSlice_modified {b b' : Bag} (hb : b.WF) (hf : b.frozen = false) {objs : Objs}
    {attr : Attr} {values : Slice} (hv : values.WF)
    (ho : ∀ ids allocs small, objs = .objects ids allocs small →
        IdsWF ids allocs small ∧ ids.length = values.cells.length)
    (h : setAttrSlice b objs attr values = .ok b') : Modified b b' := by
  cases objs with
  | emptyAndUnknown n =>
    rw [(C52_set_slice_other hb attr values).2.1 hf n] at h
    rw [← Except.ok.inj h]; exact modified_refl hb hf
  | primitives n =>
    rw [(C52_set_slice_other hb attr values).2.2.1 hf n] at h
    cases h
  | objects ids allocs small =>
    obtain ⟨h1, h2⟩ := ho ids allocs small rfl
    obtain ⟨b'', e, hm, _⟩ := C52_set_slice hb hf h1 attr hv h2
    rw [e] at h
    rw [← Except.ok.inj h]; exact hm

theorem WriteOp.run_modified {b b' : Bag} (hb : b.WF) (hf : b.frozen = false) {op : WriteOp}
    (hv : op.Valid b) (h : op.run b = .ok b') : Modified b b' := by
  cases op with
  | setAttr o attr v =>
    unfold WriteOp.run at h
    simp only at h
    cases o with
    | missing =>
      rw [(C52_set_other b attr v).2.1 hf] at h
      rw [← Except.ok.inj h]; exact modified_refl hb hf
    | primitive =>
      rw [(C52_set_other b attr v).2.2 hf] at h
      cases h
    | object x =>
      obtain ⟨b'', e, hm, _⟩ := C52_set hb hf (hv x rfl) attr v
      rw [e] at h
      rw [← Except.ok.inj h]; exact hm
  | setSlice objs attr values => exact setSlice_modified hb hf hv.1 hv.2 h
  | assign objs full attr values =>
    unfold WriteOp.run at h
    simp only at h
    obtain ⟨hv1, hv2, hv3⟩ := hv
    by_cases hs : ∀ a, full = some a → a.isSmall = true
    · rw [C52_assign_other b objs attr values full hs] at h
      exact setSlice_modified hb hf hv1 hv2 h
    · cases full with
      | none => exact absurd (fun a ha => by cases ha) hs
      | some a =>
        have hbig : a.isSmall = false := by
          cases hh : a.isSmall with
          | false => rfl
          | true => exact absurd (fun a' ha => by cases ha; exact hh) hs
        obtain ⟨ha, hlen⟩ := hv3 a rfl
        by_cases hsome : ∃ i v, values.item i = some v
        · obtain ⟨b'', e, hm, _⟩ := C52_assign hb hf ha hbig objs attr hv1 hlen hsome
          rw [e] at h
          rw [← Except.ok.inj h]; exact hm
        · have hty : values.types = [] := by
            cases ht : values.types with
            | nil => rfl
            | cons t ts =>
              obtain ⟨v, h1, _⟩ := hv1.used t (by rw [ht]; simp)
              obtain ⟨i, hi, hi'⟩ := List.getElem_of_mem h1
              refine absurd ⟨i, v, ?_⟩ hsome
              unfold Slice.item
              rw [List.getElem?_eq_getElem hi, hi']
              rfl
          have : assignAttr b objs (some a) attr values = .ok b := by
            unfold assignAttr setAttrFullAlloc
            simp only [hbig, hf, Bool.not_false, if_true, Bool.false_eq_true, if_false]
            have : values.unsetToRemoved.isEmptyAndUnknown = true := by
              unfold Slice.isEmptyAndUnknown
              rw [unsetToRemoved_types, hty]
              rfl
            rw [if_pos this]
          rw [this] at h
          rw [← Except.ok.inj h]; exact modified_refl hb hf
  | create a fields =>
    unfold WriteOp.run at h
    simp only at h
    obtain ⟨h1, h2, h3, h4⟩ := hv
    by_cases hz : ∀ f ∈ fields, f.2.cells = []
    · rw [(C52_create_other b a).2.2.2 hf fields hz] at h
      have := Except.ok.inj h
      rw [← this]; exact modified_refl hb hf
    · have hne : fields ≠ [] := by
        intro he; apply hz; rw [he]; simp
      have hn : 0 < a.n := by
        rcases Nat.eq_zero_or_pos a.n with h0 | h0
        · exfalso; apply hz
          intro f hf
          have := (h3 f hf).2
          rw [h0] at this
          exact List.length_eq_zero_iff.1 this
        · exact h0
      obtain ⟨b'', ids, allocs, e, _, _, hm, _⟩ := C52_create hb hf h1 hn hne h2 h3 h4
      rw [e] at h
      have := Except.ok.inj h
      rw [← this]; exact hm
  | createOne o fields =>
    obtain ⟨h1, h2, h3⟩ := hv
    obtain ⟨b'', e, hm, _⟩ := C52_create_one hb hf h1 h2 h3
    unfold WriteOp.run at h
    simp only at h
    rw [e] at h
    rw [← Except.ok.inj h]; exact hm

/-- What a modification does. -/
theorem write_ok {w : World} (hok : Ok w) {h : Nat} {d : DataBag} (hd : w.bags[h]? = some d)
    (hm : d.mutbl = true) {crash : Bag → Bag} (hc : CrashOk crash) {op : WriteOp}
    (hv : ∀ b, implOf w h = some b → op.Valid b) :
    ∃ b : Bag, b.WF ∧ b.frozen = false ∧ op.Valid b ∧ (∀ x attr, b.lookup x attr = look w h x attr) ∧
      ∃ b', Did w (write w h op crash).1 h b' ∧
        ((op.run b = .ok b' ∧ (write w h op crash).2 = none) ∨
          (∃ e, op.run b = .error e ∧ (write w h op crash).2 = some (.impl e) ∧ b' = crash b)) := by
  obtain ⟨w', b, b', e, hb, hr⟩ := getMutableImpl_ok hok hd hm
  obtain ⟨d', hd', hm', _, hat⟩ := hr.bag
  have hwf : b'.WF := bagAt_wf hr.ok.impls hat
  have hv' : op.Valid b' := by
    rcases hr.was with rfl | ⟨n, rfl⟩
    · exact hv _ hb
    · exact (hv _ hb).fork n
  refine ⟨b', hwf, hr.frozen, hv', ?_, ?_⟩
  · intro x attr; rw [hr.lookup, look_some hb]
  · unfold write
    rw [e]
    simp only
    have hmain := modifyImpl_ok hr.ok hd' hm' hat hr.frozen hc (f := op.run)
      (fun b'' h => WriteOp.run_modified hwf hr.frozen hv' h)
    have did : ∀ b'', Did w' (modifyImpl w' h crash op.run).1 h b'' →
        Did w (modifyImpl w' h crash op.run).1 h b'' := fun b'' hdid =>
      ⟨hdid.ok, hr.keeps.weaken.trans hdid.keeps, hdid.len.trans hr.len, hdid.look⟩
    cases hrun : op.run b' with
    | ok b'' =>
      rw [hrun] at hmain
      refine ⟨b'', did _ hmain.2, .inl ⟨rfl, ?_⟩⟩
      rw [hmain.1]; rfl
    | error er =>
      rw [hrun] at hmain
      refine ⟨crash b', did _ hmain.2, .inr ⟨er, rfl, ?_, rfl⟩⟩
      rw [hmain.1]; rfl

/-! ### Merging fallbacks -/

/-- What `mergeAll` does. -/
theorem mergeAll_ok {same : SameSources} (hsame : SameOk same) {n : Nat} :
    ∀ (fs : List Nat) {impls : List Impl} {b : Bag}, ImplsOk impls → bagAt impls n = some b →
      b.frozen = false → (∀ f ∈ fs, f ≠ n) →
      match mergeAll same impls n fs with
      | .ok impls' => ImplsOk impls' ∧ impls'.length = impls.length ∧
          (∀ i, i ≠ n → bagAt impls' i = bagAt impls i) ∧
          ∃ b', bagAt impls' n = some b' ∧ b'.frozen = false ∧
            ∀ x attr, x.Valid →
              (∀ f ∈ fs, ∀ o, bagAt impls f = some o → NotAllRemoved o x attr) →
              b'.lookup x attr = (b.lookup x attr).or
                (fs.findSome? fun f => (bagAt impls f).bind fun o => o.lookup x attr)
      | .error e => e = .outOfBounds ∧ ∃ f ∈ fs, ∃ o, bagAt impls f = some o ∧ HasOversized o := by
  intro fs
  induction fs with
  | nil =>
    intro impls b hok hb hf _
    refine ⟨hok, rfl, fun _ _ => rfl, b, hb, hf, ?_⟩
    intro x attr _ _
    rw [List.findSome?_nil, Option.or_none]
  | cons f fs ih =>
    intro impls b hok hb hf hne
    have hne' : ∀ f ∈ fs, f ≠ n := fun g hg => hne g (List.mem_cons_of_mem _ hg)
    unfold mergeAll
    rw [hb]
    cases ho : bagAt impls f with
    | none =>
      simp only
      have := ih hok hb hf hne'
      cases hr : mergeAll same impls n fs with
      | error e =>
        rw [hr] at this
        obtain ⟨h1, g, hg, h2⟩ := this
        exact ⟨h1, g, List.mem_cons_of_mem _ hg, h2⟩
      | ok impls' =>
        rw [hr] at this
        obtain ⟨h1, h2, h3, b', h4, h5, h6⟩ := this
        refine ⟨h1, h2, h3, b', h4, h5, ?_⟩
        intro x attr hx hcl
        rw [h6 x attr hx (fun g hg => hcl g (List.mem_cons_of_mem _ hg)), List.findSome?_cons, ho]
        rfl
    | some o =>
      simp only
      have hrel := related hok hb ho hf
      have hbwf := bagAt_wf hok hb
      have howf := bagAt_wf hok ho
      cases hmi : mergeInplace same b o .keep with
      | error e =>
        simp only
        rcases C54_error hbwf hf howf hrel hsame hmi with ⟨_, h, _⟩ | ⟨h1, h2⟩
        · cases h
        · exact ⟨h1, f, by simp, o, ho, h2⟩
      | ok b1 =>
        simp only
        obtain ⟨hmod, _⟩ := C54_merge hbwf hf howf hrel hsame hmi
        obtain ⟨m, hm, hbm⟩ := bagAt_inv hb
        have hmf : m.frozen = false := by rw [hbm] at hf; exact hf
        have hat := bagAt_store_eq hok hb hf hmod
        have hoth : ∀ i, i ≠ n → bagAt (store impls n b1) i = bagAt impls i :=
          fun i hi => bagAt_store_ne hok hm hmf b1 hi
        have := ih (store_ok hok hb hmod) hat hmod.frozen hne'
        cases hr : mergeAll same (store impls n b1) n fs with
        | error e =>
          rw [hr] at this
          obtain ⟨h1, g, hg, og, h2, h3⟩ := this
          rw [hoth g (hne' g hg)] at h2
          exact ⟨h1, g, List.mem_cons_of_mem _ hg, og, h2, h3⟩
        | ok impls' =>
          rw [hr] at this
          obtain ⟨h1, h2, h3, b', h4, h5, h6⟩ := this
          refine ⟨h1, by rw [h2, length_store], fun i hi => (h3 i hi).trans (hoth i hi), b', h4, h5, ?_⟩
          intro x attr hx hcl
          have hk := C54_keep hbwf hf howf hrel hsame hmi hx attr (hcl f (by simp) o ho) []
          have hk' : b1.lookup x attr = (b.lookup x attr).or (o.lookup x attr) := by
            rw [getWithRemoved_cons, getWithRemoved_cons, getWithRemoved_cons] at hk
            have e0 : getWithRemoved [] x attr = none := rfl
            rw [e0, Option.or_none, Option.or_none] at hk
            exact hk
          have hfs : (fs.findSome? fun f => (bagAt (store impls n b1) f).bind fun o => o.lookup x attr) =
              fs.findSome? fun f => (bagAt impls f).bind fun o => o.lookup x attr := by
            clear ih h6 hr hcl
            induction fs with
            | nil => rfl
            | cons g fs ih =>
              rw [List.findSome?_cons, List.findSome?_cons, hoth g (hne' g (by simp)),
                ih (fun h hh => hne h (by
                  rcases List.mem_cons.1 hh with rfl | hh
                  · simp
                  · simp [hh])) (fun h hh => hne' h (List.mem_cons_of_mem _ hh))]
          rw [h6 x attr hx ?_, hk', hfs, List.findSome?_cons, ho, Option.or_assoc]
          · simp only [Option.bind_some]
            congr 1
            cases o.lookup x attr <;> rfl
          · intro g hg og hog
            rw [hoth g (hne' g hg)] at hog
            exact hcl g (List.mem_cons_of_mem _ hg) og hog

theorem visit_behind {w : World} {h : Nat} (F V : List Nat) :
    (∀ f ∈ F, Behind w h f) → ∀ g ∈ visit w.bags F V, Behind w h g := by
  have tr : ∀ {a b c : Nat} {d : DataBag}, Behind w a b → w.bags[b]? = some d → c ∈ d.fallbacks →
      Behind w a c := by
    intro a b c d hab hb hc
    induction hab with
    | direct h1 h2 => exact .more h1 h2 (.direct hb hc)
    | more h1 h2 _ ih => exact .more h1 h2 (ih hb)
  refine visit.induct w.bags (motive := fun F V => (∀ f ∈ F, Behind w h f) →
    ∀ g ∈ visit w.bags F V, Behind w h g) ?_ ?_ ?_ ?_ F V
  · intro V _ g hg
    rw [visit_nil] at hg; cases hg
  · intro V f rest hn ih hF
    rw [visit_none hn]
    exact ih fun f hf => hF f (List.mem_cons_of_mem _ hf)
  · intro V f rest d hd hs ih hF
    rw [visit_seen hs]
    exact ih fun f hf => hF f (List.mem_cons_of_mem _ hf)
  · intro V f rest d hd hs ih hF g hg
    rw [visit_new hd hs] at hg
    rcases List.mem_cons.1 hg with rfl | hg
    · exact hF _ (by simp)
    · refine ih ?_ g hg
      intro x hx
      rcases List.mem_append.1 hx with hx | hx
      · exact tr (hF f (by simp)) hd hx
      · exact hF x (List.mem_cons_of_mem _ hx)

/-- In none of the bags behind `h` the attribute is removed for all objects of the
allocation. -/
def Clean (w : World) (h : Nat) (x : Obj) (attr : Attr) : Prop :=
  x.alloc.isSmall = true ∨ ∀ f, Behind w h f →
    ∃ y : Obj, y.Valid ∧ y.alloc = x.alloc ∧ look w f y attr ≠ some none

theorem one_lookup (b : Bag) (x : Obj) (attr : Attr) : getWithRemoved [b] x attr = b.lookup x attr := by
  rw [getWithRemoved_cons]; cases b.lookup x attr <;> rfl

/-- What merging the fallbacks of a bag does. -/
theorem mergeFallbacksToForked_ok {same : SameSources} (hsame : SameOk same) {w : World} (hok : Ok w)
    {h : Nat} {d : DataBag} (hd : w.bags[h]? = some d) (hfb : d.fallbacks ≠ []) :
    match mergeFallbacksToForked same w h d with
    | .ok impls' => Ext w.impls impls' ∧ impls'.length = w.impls.length + 1 ∧
        ∃ b', bagAt impls' w.impls.length = some b' ∧ b'.frozen = false ∧
          ∀ x attr, x.Valid → Clean w h x attr → b'.lookup x attr = read w h x attr
    | .error e => e = .outOfBounds ∧ ∃ f o, Behind w h f ∧ implOf w f = some o ∧ HasOversized o := by
  obtain ⟨b, hb, hfz, _⟩ := hok.valid h d hd
  have hmut : d.mutbl = false := by
    cases hm : d.mutbl with
    | false => rfl
    | true => exact absurd (hok.fb h d hd hm) hfb
  have hfz := hfz hmut
  obtain ⟨m, hm, hbm⟩ := bagAt_inv hb
  have hfo : ImplsOk (forkImpl w.impls d.impl) :=
    fork_ok hok.impls hm (by rw [hbm] at hfz; exact hfz)
  have hext : Ext w.impls (forkImpl w.impls d.impl) := ext_append hok.impls hfo
  have hat := bagAt_fork hok.impls hb
  have hflat : ∀ f ∈ flatFallbacks w h, f < w.bags.length ∧ Behind w h f := by
    intro f hf
    rw [flat_eq] at hf
    refine ⟨visit_valid _ _ f hf, visit_behind _ _ ?_ f hf⟩
    intro g hg
    rw [kids_some hd] at hg
    exact .direct hd hg
  have hlist : ∀ i ∈ ((flatFallbacks w h).filterMap fun f => (w.bags[f]?).map (·.impl)),
      ∃ f df, f ∈ flatFallbacks w h ∧ w.bags[f]? = some df ∧ df.impl = i := by
    intro i hi
    obtain ⟨f, hf, he⟩ := List.mem_filterMap.1 hi
    cases hdf : w.bags[f]? with
    | none => rw [hdf] at he; cases he
    | some df => rw [hdf] at he; exact ⟨f, df, hf, hdf, Option.some.inj he⟩
  have hnew : ∀ i ∈ ((flatFallbacks w h).filterMap fun f => (w.bags[f]?).map (·.impl)),
      i ≠ w.impls.length := by
    intro i hi
    obtain ⟨f, df, _, h1, h2⟩ := hlist i hi
    have := hok.impl_lt h1
    omega
  have hsameAt : ∀ i ∈ ((flatFallbacks w h).filterMap fun f => (w.bags[f]?).map (·.impl)),
      bagAt (forkImpl w.impls d.impl) i = bagAt w.impls i := by
    intro i hi
    obtain ⟨f, df, _, h1, h2⟩ := hlist i hi
    exact hext.same i (h2 ▸ hok.impl_lt h1)
  have hmain := mergeAll_ok hsame _ hfo hat rfl hnew
  unfold mergeFallbacksToForked
  cases hr : mergeAll same (forkImpl w.impls d.impl) w.impls.length
      ((flatFallbacks w h).filterMap fun f => (w.bags[f]?).map (·.impl)) with
  | error e =>
    rw [hr] at hmain
    obtain ⟨h1, i, hi, o, h2, h3⟩ := hmain
    rw [hsameAt i hi] at h2
    obtain ⟨f, df, g1, g2, g3⟩ := hlist i hi
    refine ⟨h1, f, o, (hflat f g1).2, ?_, h3⟩
    rw [implOf_some g2, g3]; exact h2
  | ok impls' =>
    rw [hr] at hmain
    obtain ⟨h1, h2, h3, b', h4, h5, h6⟩ := hmain
    have hlen : impls'.length = w.impls.length + 1 := by rw [h2, length_fork]
    refine ⟨⟨h1, by omega, fun i hi => ?_⟩, hlen, b', h4, h5, ?_⟩
    · rw [h3 i (by omega), hext.same i hi]
    · intro x attr hx hcl
      rw [h6 x attr hx]
      · rw [fork_lookup, hok.own h d b hd hfb hb, Option.none_or, read_first]
        unfold first
        rw [List.findSome?_cons]
        have hown : look w h x attr = none := by
          rw [look_some (b := b) (by rw [implOf_some hd]; exact hb), hok.own h d b hd hfb hb]
        rw [hown, ← flat_eq]
        simp only
        have hall : ∀ f ∈ flatFallbacks w h, f < w.bags.length := fun f hf => (hflat f hf).1
        clear hr h6 hlist hnew hsameAt hflat
        generalize flatFallbacks w h = fl at hall
        induction fl with
        | nil => rfl
        | cons f fl ih =>
          obtain ⟨df, hdf⟩ := get_of_lt (hall f (by simp))
          rw [List.filterMap_cons, hdf]
          simp only [Option.map_some]
          rw [List.findSome?_cons, List.findSome?_cons, hext.same _ (hok.impl_lt hdf)]
          have : look w f x attr = (bagAt w.impls df.impl).bind fun o => o.lookup x attr := by
            unfold look; rw [implOf_some hdf]
          rw [this, ih fun g hg => hall g (List.mem_cons_of_mem _ hg)]
      · intro i hi o ho
        rcases hcl with hcl | hcl
        · exact .inl hcl
        · right
          rw [hsameAt i hi] at ho
          obtain ⟨f, df, g1, g2, g3⟩ := hlist i hi
          obtain ⟨y, y1, y2, y3⟩ := hcl f (hflat f g1).2
          refine ⟨y, y1, y2, ?_⟩
          rw [one_lookup]
          rw [look_some (b := o) (by rw [implOf_some g2, g3]; exact ho)] at y3
          exact y3

theorem mergeFallbacks_new {same : SameSources} (hsame : SameOk same) {w : World} (hok : Ok w)
    {h : Nat} {d : DataBag} (hd : w.bags[h]? = some d) (hfb : d.fallbacks ≠ []) {impls' : List Impl}
    (hr : mergeFallbacksToForked same w h d = .ok impls') :
    ∃ b', NewBag w impls' { impl := w.impls.length, fallbacks := [], mutbl := true, forked := false } b' ∧
      ∀ x attr, x.Valid → Clean w h x attr → b'.lookup x attr = read w h x attr := by
  have := mergeFallbacksToForked_ok hsame hok hd hfb
  rw [hr] at this
  obtain ⟨h1, _, b', h2, h3, h4⟩ := this
  exact ⟨b', ⟨h1, Nat.le_refl _, h2, h3, rfl, fun _ => rfl, (fun f hf => by cases hf),
    fun h => absurd rfl h⟩, h4⟩

/-- The other bag of a merge. -/
theorem otherImpl_ok {same : SameSources} (hsame : SameOk same) {w : World} (hok : Ok w)
    {h : Nat} {d : DataBag} (hd : w.bags[h]? = some d) :
    match otherImpl same w h d with
    | .ok r => Ext w.impls r.1 ∧ ∃ o, bagAt r.1 r.2 = some o ∧
        (∀ x attr, x.Valid → Clean w h x attr → o.lookup x attr = read w h x attr) ∧
        (d.fallbacks = [] → implOf w h = some o)
    | .error e => e = .outOfBounds ∧ d.fallbacks ≠ [] ∧
        ∃ f o, Behind w h f ∧ implOf w f = some o ∧ HasOversized o := by
  unfold otherImpl
  by_cases hfb : d.fallbacks = []
  · rw [hfb]
    simp only [List.isEmpty_nil, if_true]
    obtain ⟨b, hb, _⟩ := hok.valid h d hd
    have hio : implOf w h = some b := by rw [implOf_some hd]; exact hb
    refine ⟨Ext.refl hok.impls, b, hb, ?_, fun _ => hio⟩
    intro x attr _ _
    rw [read_nofb hd hfb, look_some hio]
  · have hemp : d.fallbacks.isEmpty = false := by
      cases hx : d.fallbacks with
      | nil => exact absurd hx hfb
      | cons _ _ => rfl
    rw [hemp]
    simp only [Bool.false_eq_true, if_false]
    have hmain := mergeFallbacksToForked_ok hsame hok hd hfb
    cases hr : mergeFallbacksToForked same w h d with
    | error e => rw [hr] at hmain; exact ⟨hmain.1, hfb, hmain.2⟩
    | ok impls' =>
      rw [hr] at hmain
      obtain ⟨h1, _, b', h2, h3, h4⟩ := hmain
      exact ⟨h1, b', h2, h4, fun h => absurd h hfb⟩

end Verif.BagWorld
