import Verif.BagWorld.Modify
/-
All operations preserve the invariant, and change only their target.
-/

namespace Verif.BagWorld

open Verif.BagAttr

/-! ### Merging bags -/

theorem Behind.back {w w' : World} {t im : Option Nat} (hok : Ok w) (hk : Keeps w w' t im) {h f : Nat}
    (hl : h < w.bags.length) (hb : Behind w' h f) : Behind w h f := by
  induction hb with
  | direct h1 h2 =>
    obtain ⟨d, hd⟩ := get_of_lt hl
    obtain ⟨d', hd', e, _⟩ := hk.bag _ d hd
    rw [h1] at hd'
    rw [Option.some.inj hd', e] at h2
    exact .direct hd h2
  | more h1 h2 _ ih =>
    obtain ⟨d, hd⟩ := get_of_lt hl
    obtain ⟨d', hd', e, _⟩ := hk.bag _ d hd
    rw [h1] at hd'
    rw [Option.some.inj hd', e] at h2
    obtain ⟨_, dg, hg, _⟩ := hok.fbs _ d hd _ h2
    exact .more hd h2 (ih (lt_of_get hg))

theorem Behind.lt {w : World} (hok : Ok w) {h f : Nat} (hb : Behind w h f) : f < w.bags.length := by
  induction hb with
  | direct h1 h2 =>
    obtain ⟨_, dg, hg, _⟩ := hok.fbs _ _ h1 _ h2
    exact lt_of_get hg
  | more _ _ _ ih => exact ih

theorem Behind.immutable {w : World} (hok : Ok w) {h f : Nat} (hb : Behind w h f) :
    ∃ d : DataBag, w.bags[f]? = some d ∧ d.mutbl = false := by
  induction hb with
  | direct h1 h2 => exact (hok.fbs _ _ h1 _ h2).2
  | more _ _ _ ih => exact ih

theorem Clean.forward {w w' : World} (hok : Ok w) (hk : Keeps w w' none none) {h : Nat}
    (hl : h < w.bags.length) {x : Obj} {attr : Attr} (hc : Clean w h x attr) : Clean w' h x attr := by
  rcases hc with hc | hc
  · exact .inl hc
  · right
    intro f hf
    have hf' := Behind.back hok hk hl hf
    obtain ⟨y, h1, h2, h3⟩ := hc f hf'
    refine ⟨y, h1, h2, ?_⟩
    rw [hk.look f (hf'.lt hok) (by simp)]
    exact h3

theorem noTarget {w : World} : ∀ k d, (none : Option Nat) = some k → w.bags[k]? = some d →
    d.mutbl = true := fun _ _ h => by cases h

/-- Before the merge of two bags: the implementation of the bag that is modified
and one with the content of the other one. -/
structure Pair (w : World) (h other : Nat) (b o : Bag) : Prop where
  bwf : b.WF
  owf : o.WF
  frozen : b.frozen = false
  rel : Related b o
  lookb : ∀ x attr, b.lookup x attr = look w h x attr
  looko : ∀ x attr, x.Valid → Clean w other x attr → o.lookup x attr = read w other x attr
  plain : ∀ d : DataBag, w.bags[other]? = some d → d.fallbacks = [] →
    (∀ x attr, o.lookup x attr = look w other x attr) ∧
    (h ≠ other → implOf w other = some o)

theorem mergeBags_ok {same : SameSources} (hsame : SameOk same) {w : World} (hok : Ok w)
    {h other : Nat} {d d' : DataBag} (hd : w.bags[h]? = some d) (hm : d.mutbl = true)
    (hd' : w.bags[other]? = some d') (p : Policy) {crash : Bag → Bag} (hc : CrashOk crash) :
    (∃ b o, Pair w h other b o ∧
      match mergeInplace same b o p with
      | .ok b' => (mergeBags same w h other p crash).2 = none ∧
          Did w (mergeBags same w h other p crash).1 h b'
      | .error e => (mergeBags same w h other p crash).2 = some (.impl e) ∧
          Did w (mergeBags same w h other p crash).1 h (crash b)) ∨
    ((mergeBags same w h other p crash).2 = some (.impl .outOfBounds) ∧ d'.fallbacks ≠ [] ∧
      Ok (mergeBags same w h other p crash).1 ∧
      Keeps w (mergeBags same w h other p crash).1 none none ∧
      (mergeBags same w h other p crash).1.bags.length = w.bags.length ∧
      ∃ f o, Behind w other f ∧ implOf w f = some o ∧ HasOversized o) := by
  obtain ⟨w1, b0, b, e, hb0, hr⟩ := getMutableImpl_ok hok hd hm
  obtain ⟨dh, hdh, hmh, _, hat⟩ := hr.bag
  obtain ⟨do1, hdo, hfbe, _⟩ := hr.keeps.bag other d' hd'
  have hlo := lt_of_get hd'
  have hoth := otherImpl_ok hsame hr.ok hdo
  unfold mergeBags
  rw [hd']
  simp only
  rw [e]
  simp only
  rw [hdo]
  simp only
  cases hoi : otherImpl same w1 other do1 with
  | error er =>
    rw [hoi] at hoth
    obtain ⟨h1, h2, f, o, h3, h4, h5⟩ := hoth
    right
    simp only
    rw [h1]
    refine ⟨rfl, by rw [← hfbe]; exact h2, hr.ok, hr.keeps, hr.len, f, o,
      Behind.back hok hr.keeps hlo h3, ?_, h5⟩
    have h3' := Behind.back hok hr.keeps hlo h3
    obtain ⟨df, g1, g2⟩ := h3'.immutable hok
    have hfh : f ≠ h := by
      intro hfh; subst hfh
      rw [hd] at g1; rw [← Option.some.inj g1, hm] at g2; cases g2
    rw [← hr.other f hfh]
    exact h4
  | ok r =>
    rw [hoi] at hoth
    obtain ⟨hext, o, ho1, ho2, ho3⟩ := hoth
    left
    simp only
    rw [ho1]
    simp only
    have hok2 := hext.okWorld hr.ok
    have hk2 := hext.keeps hr.ok
    have hat2 : bagAt r.1 dh.impl = some b := by rw [hext.same _ (hr.ok.impl_lt hdh)]; exact hat
    have hbwf := bagAt_wf hext.ok hat2
    have howf := bagAt_wf hext.ok ho1
    have hrel := related hext.ok hat2 ho1 hr.frozen
    refine ⟨b, o, ⟨hbwf, howf, hr.frozen, hrel, ?_, ?_, ?_⟩, ?_⟩
    · intro x attr; rw [hr.lookup, look_some hb0]
    · intro x attr hx hcl
      rw [ho2 x attr hx (hcl.forward hok hr.keeps hlo), hr.keeps.read hok hlo (by simp) noTarget]
    · intro dd hdd hfb
      rw [hd'] at hdd
      rw [← Option.some.inj hdd] at hfb
      have hio := ho3 (by rw [hfbe]; exact hfb)
      refine ⟨fun x attr => ?_, fun hne => ?_⟩
      · rw [← look_some hio, hr.keeps.look other hlo (by simp)]
      · rw [← hr.other other (Ne.symm hne)]
        exact hio
    · have hmain := modifyImpl_ok hok2 hdh hmh hat2 hr.frozen hc
        (f := fun b => mergeInplace same b o p)
        (fun b' h => (C54_merge hbwf hr.frozen howf hrel hsame h).1)
      have did : ∀ b'', Did { w1 with impls := r.1 }
          (modifyImpl { w1 with impls := r.1 } h crash (fun b => mergeInplace same b o p)).1 h b'' →
          Did w (modifyImpl { w1 with impls := r.1 } h crash (fun b => mergeInplace same b o p)).1 h b'' :=
        fun b'' hdid => ⟨hdid.ok, (hr.keeps.trans hk2).weaken.trans hdid.keeps,
          hdid.len.trans hr.len, hdid.look⟩
      cases hmi : mergeInplace same b o p with
      | ok b' =>
        rw [hmi] at hmain
        refine ⟨?_, did _ hmain.2⟩
        rw [hmain.1]; rfl
      | error er =>
        rw [hmi] at hmain
        refine ⟨?_, did _ hmain.2⟩
        rw [hmain.1]; rfl

/-! ### Updates -/

theorem createUpdateBag_ok {same : SameSources} (hsame : SameOk same) {w : World} (hok : Ok w)
    {h other : Nat} {d d' : DataBag} (hd : w.bags[h]? = some d) (hfb : d.fallbacks = [])
    (hd' : w.bags[other]? = some d') :
    match createUpdateBag same w h other with
    | .ok w' => ∃ b o u, implOf w h = some b ∧ o.WF ∧
        (∀ x attr, x.Valid → Clean w other x attr → o.lookup x attr = read w other x attr) ∧
        (d'.fallbacks = [] → implOf w other = some o) ∧
        u.WF ∧ (∀ x attr, x.Valid → UpdatedAt b o u x attr) ∧
        Ok w' ∧ Keeps w w' none none ∧ w'.bags.length = w.bags.length + 1 ∧
        (∃ dn : DataBag, w'.bags[w.bags.length]? = some dn ∧ dn.mutbl = false ∧ dn.fallbacks = []) ∧
        ∀ x attr, look w' w.bags.length x attr = u.lookup x attr
    | .error e => e = .impl .outOfBounds ∧
        ((∃ f o, Behind w other f ∧ implOf w f = some o ∧ HasOversized o) ∨
          (d'.fallbacks = [] ∧ ∃ o, implOf w other = some o ∧ HasOversized o) ∨
          (d'.fallbacks ≠ [] ∧ ∃ o : Bag, (∀ x attr, x.Valid → Clean w other x attr →
            o.lookup x attr = read w other x attr) ∧ HasOversized o)) := by
  obtain ⟨b, hb, _⟩ := hok.valid h d hd
  have hoth := otherImpl_ok hsame hok hd'
  unfold createUpdateBag
  rw [hd, hd']
  simp only [hfb, ne_eq, not_true_eq_false, if_false]
  cases hoi : otherImpl same w other d' with
  | error er =>
    rw [hoi] at hoth
    obtain ⟨h1, _, h2⟩ := hoth
    simp only
    rw [h1]
    exact ⟨rfl, .inl h2⟩
  | ok r =>
    rw [hoi] at hoth
    obtain ⟨hext, o, ho1, ho2, ho3⟩ := hoth
    have hb1 : bagAt r.1 d.impl = some b := by rw [hext.same _ (hok.impl_lt hd)]; exact hb
    simp only
    rw [hb1, ho1]
    simp only
    have hbwf := bagAt_wf hext.ok hb1
    have howf := bagAt_wf hext.ok ho1
    have hid : ∀ l ∈ o.layers, l.id ≠ r.1.length + 1 := by
      intro l hl
      rw [bagAt_layers hext.ok ho1] at hl
      have := layer_id_lt hext.ok hl
      omega
    have hmain := createUpdate_ok hbwf howf (shared hext.ok hb1 ho1) hsame (r.1.length + 1) r.1.length hid
    cases hcu : createUpdate same b o (r.1.length + 1) r.1.length with
    | error er =>
      rw [hcu] at hmain
      simp only
      rw [hmain.1]
      refine ⟨rfl, .inr ?_⟩
      by_cases hfb' : d'.fallbacks = []
      · exact .inl ⟨hfb', o, ho3 hfb', hmain.2⟩
      · exact .inr ⟨hfb', o, ho2, hmain.2⟩
    | ok u =>
      rw [hcu] at hmain
      obtain ⟨⟨u1, u2, u3, u4⟩, hupd⟩ := hmain
      simp only
      have hnewok : ImplsOk (r.1 ++ [{ frozen := true, layer := u.top, parent := none }]) :=
        append_ok hext.ok u4 (u1 _ (by simp [Bag.layers])) (fun p hp => by cases hp)
      have hat : bagAt (r.1 ++ [{ frozen := true, layer := u.top, parent := none }]) r.1.length =
          some { u with frozen := true } := by
        rw [bagAt_append_last hext.ok (fun p hp => by cases hp)]
        simp only [parentLayers]
        rw [← u3]
      have hn : NewBag w (r.1 ++ [{ frozen := true, layer := u.top, parent := none }])
          { impl := r.1.length, fallbacks := [], mutbl := false, forked := false }
          { u with frozen := true } :=
        ⟨hext.trans (ext_append hext.ok hnewok), hext.len, hat, rfl, rfl, fun _ => rfl,
          (fun f hf => by cases hf), fun h => absurd rfl h⟩
      refine ⟨b, o, u, by rw [implOf_some hd]; exact hb, howf, ho2, ho3, u1, hupd, hn.okWorld hok,
        hn.keeps hok, by simp, ⟨_, (get_bags _ _ _ _).2 (.inr ⟨rfl, rfl⟩), rfl, rfl⟩, ?_⟩
      intro x attr
      rw [hn.look, lookup_frozen]

/-! ### All operations -/

theorem emptyWorld_ok : Ok emptyWorld := by
  have hb : ∀ (h : Nat) (d : DataBag), ¬ emptyWorld.bags[h]? = some d := by
    intro h d hd; simp [emptyWorld] at hd
  refine ⟨⟨?_, ?_, ?_⟩, ?_, ?_, ?_, ?_, ?_⟩
  · intro i m h; simp [emptyWorld] at h
  · intro i m h; simp [emptyWorld] at h
  · intro i m p h; simp [emptyWorld] at h
  · exact fun h d hd => absurd hd (hb h d)
  · exact fun h h' d d' hd => absurd hd (hb h d)
  · exact fun h d hd => absurd hd (hb h d)
  · exact fun h d hd => absurd hd (hb h d)
  · exact fun h d b hd => absurd hd (hb h d)

/-- The bag an operation makes immutable. -/
def Op.makes : Op → Option Nat
  | .makeImmutable h => some h
  | _ => none

/-- What every operation does to the bags that are there. -/
structure Stepped (w w' : World) (op : Op) : Prop where
  ok : Ok w'
  keeps : ∃ t, Keeps w w' t op.makes ∧ ∀ k, t = some k → op.target = some k ∧ Mutable w k

theorem Stepped.same {w : World} (hok : Ok w) (op : Op) : Stepped w w op :=
  ⟨hok, none, Keeps.refl _ _ _, fun _ h => by cases h⟩

theorem Stepped.of {w w' : World} {op : Op} (hok : Ok w') (hk : Keeps w w' none none) : Stepped w w' op :=
  ⟨hok, none, hk.weaken, fun _ h => by cases h⟩

theorem makeImmutable_ok {w : World} (hok : Ok w) {h : Nat} {d : DataBag} (hd : w.bags[h]? = some d) :
    Ok { impls := freezeImpl w.impls d.impl, bags := w.bags.modify h fun d => { d with mutbl := false } } ∧
    Keeps w { impls := freezeImpl w.impls d.impl, bags := w.bags.modify h fun d => { d with mutbl := false } }
      none (some h) := by
  refine ⟨freezeBag_ok hok hd rfl rfl (fun h => by cases h),
    freezeBag_keeps hd rfl rfl (fun _ => rfl) (fun h => absurd rfl h)⟩

theorem withFallbacks_fs {w : World} {fs : List Nat}
    (h1 : ¬ (fs.any fun f => (w.bags[f]?).isNone) = true)
    (h2 : ¬ (fs.any fun f => (w.bags[f]?).any (·.mutbl)) = true) :
    ∀ f ∈ fs, ∃ d' : DataBag, w.bags[f]? = some d' ∧ d'.mutbl = false := by
  intro f hf
  simp only [List.any_eq_true, not_exists, not_and] at h1 h2
  have h1 := h1 f hf
  have h2 := h2 f hf
  cases hd : w.bags[f]? with
  | none => rw [hd] at h1; simp at h1
  | some d =>
    rw [hd] at h2
    refine ⟨d, rfl, ?_⟩
    simpa using h2

theorem step_ok {same : SameSources} (hsame : SameOk same) {crash : Bag → Bag} (hc : CrashOk crash)
    {w : World} (hok : Ok w) {op : Op} (hv : op.Valid w) : Stepped w (step same crash w op).1 op := by
  cases op with
  | newBag m =>
    have hn := newBag_new w hok m
    exact Stepped.of (hn.okWorld hok) (hn.keeps hok)
  | fork h i =>
    unfold step fork
    simp only
    cases hd : w.bags[h]? with
    | none => exact Stepped.same hok _
    | some d =>
      simp only
      split
      · exact Stepped.same hok _
      · obtain ⟨h1, h2, _⟩ := fallbackFreeFork_ok hok hd i
        exact Stepped.of h1 h2
  | freeze h =>
    unfold step freeze
    simp only
    cases hd : w.bags[h]? with
    | none => exact Stepped.same hok _
    | some d =>
      simp only
      split
      · obtain ⟨h1, h2, _⟩ := fallbackFreeFork_ok hok hd true
        exact Stepped.of h1 h2
      · exact Stepped.same hok _
  | makeImmutable h =>
    unfold step makeImmutable
    simp only
    cases hd : w.bags[h]? with
    | none => exact Stepped.same hok _
    | some d =>
      obtain ⟨h1, h2⟩ := makeImmutable_ok hok hd
      exact ⟨h1, none, h2, fun _ h => by cases h⟩
  | withFallbacks fs =>
    unfold step withFallbacks
    simp only
    by_cases h1 : ((fs.filterMap id).any fun f => (w.bags[f]?).isNone) = true
    · rw [if_pos h1]; exact Stepped.same hok _
    · rw [if_neg h1]
      by_cases h2 : ((fs.filterMap id).any fun f => (w.bags[f]?).any (·.mutbl)) = true
      · rw [if_pos h2]; exact Stepped.same hok _
      · rw [if_neg h2]
        have hn := withFallbacks_new w hok _ (withFallbacks_fs h1 h2)
        exact Stepped.of (hn.okWorld hok) (hn.keeps hok)
  | write h op =>
    unfold step
    simp only
    cases hd : w.bags[h]? with
    | none =>
      have : write w h op crash = (w, some .noBag) := by
        unfold write getMutableImpl; rw [hd]
      rw [this]; exact Stepped.same hok _
    | some d =>
      cases hm : d.mutbl with
      | false =>
        have : write w h op crash = (w, some .immutable) := by
          unfold write; rw [getMutableImpl_err hd hm]
        rw [this]; exact Stepped.same hok _
      | true =>
        obtain ⟨b, _, _, _, _, b', hdid, _⟩ := write_ok hok hd hm hc hv
        exact ⟨hdid.ok, some h, hdid.keeps, fun k hk => ⟨hk, d, by cases hk; exact hd, hm⟩⟩
  | mergeFallbacks h =>
    unfold step mergeFallbacks
    simp only
    cases hd : w.bags[h]? with
    | none => exact Stepped.same hok _
    | some d =>
      simp only
      by_cases hfb : d.fallbacks = []
      · rw [if_pos (by rw [hfb]; rfl)]
        obtain ⟨h1, h2, _⟩ := fallbackFreeFork_ok hok hd false
        exact Stepped.of h1 h2
      · rw [if_neg (by rw [List.isEmpty_iff]; exact hfb)]
        cases hr : mergeFallbacksToForked same w h d with
        | error e => exact Stepped.same hok _
        | ok impls' =>
          obtain ⟨b', hn, _⟩ := mergeFallbacks_new hsame hok hd hfb hr
          exact Stepped.of (hn.okWorld hok) (hn.keeps hok)
  | merge h o p =>
    unfold step
    simp only
    cases hd' : w.bags[o]? with
    | none =>
      have : mergeBags same w h o p crash = (w, some .noBag) := by unfold mergeBags; rw [hd']
      rw [this]; exact Stepped.same hok _
    | some d' =>
      cases hd : w.bags[h]? with
      | none =>
        have : mergeBags same w h o p crash = (w, some .noBag) := by
          unfold mergeBags; rw [hd']; simp only; unfold getMutableImpl; rw [hd]
        rw [this]; exact Stepped.same hok _
      | some d =>
        cases hm : d.mutbl with
        | false =>
          have : mergeBags same w h o p crash = (w, some .immutable) := by
            unfold mergeBags; rw [hd']; simp only; rw [getMutableImpl_err hd hm]
          rw [this]; exact Stepped.same hok _
        | true =>
          have hfin : ∀ w' b', Did w w' h b' → Stepped w w' (.merge h o p) := fun w' b' hdid =>
            ⟨hdid.ok, some h, hdid.keeps, fun k hk => ⟨hk, d, by cases hk; exact hd, hm⟩⟩
          rcases mergeBags_ok hsame hok hd hm hd' p hc with ⟨b, ob, _, hr⟩ | ⟨_, _, h1, h2, _⟩
          · cases hmi : mergeInplace same b ob p with
            | ok b' => rw [hmi] at hr; exact hfin _ _ hr.2
            | error e => rw [hmi] at hr; exact hfin _ _ hr.2
          · exact Stepped.of h1 h2
  | update h o =>
    unfold step
    simp only
    have herr : ∀ e, createUpdateBag same w h o = .error e →
        Stepped w (okOr w (createUpdateBag same w h o)).1 (.update h o) := by
      intro e he; rw [he]; exact Stepped.same hok _
    cases hd : w.bags[h]? with
    | none => exact herr .noBag (by unfold createUpdateBag; rw [hd])
    | some d =>
      cases hd' : w.bags[o]? with
      | none => exact herr .noBag (by unfold createUpdateBag; rw [hd, hd'])
      | some d' =>
        by_cases hfb : d.fallbacks = []
        · have := createUpdateBag_ok hsame hok hd hfb hd'
          cases hr : createUpdateBag same w h o with
          | error e => exact hr ▸ herr e hr
          | ok w' =>
            rw [hr] at this
            obtain ⟨_, _, _, _, _, _, _, _, _, h1, h2, _⟩ := this
            exact Stepped.of h1 h2
        · exact herr .hasFallbacks (by
            unfold createUpdateBag; rw [hd, hd']; simp only; rw [if_pos hfb])

theorem Reach.ok {w : World} (h : Reach w) : Ok w := by
  induction h with
  | init => exact emptyWorld_ok
  | step _ h1 h2 h3 ih => exact (step_ok h1 h2 ih h3).ok

end Verif.BagWorld
