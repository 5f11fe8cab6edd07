import Verif.BagAttr.MergeKey
import Verif.BagAttr.Create
/-
Merging bags.
-/

namespace Verif.BagAttr

/-- Two bags that share layers only by having the same ancestors, the first of
which the second does not build on. -/
structure Apart (b other : Bag) : Prop where
  own : ∀ l ∈ other.layers, l.id ≠ b.top.id
  shared : ∀ l ls l' ls', l :: ls <:+ b.parents → l' :: ls' <:+ other.layers → l.id = l'.id →
    l :: ls = l' :: ls'

/-! ### The loops -/

theorem goKeys_ok {σ : Type} (visit : σ → List Layer → Alloc × Attr → Except Err σ)
    (I : σ → List (Alloc × Attr) → Prop) (E : Err → Prop) (ls : List Layer)
    (used keys : List (Alloc × Attr)) (hnd : keys.Nodup)
    (hv : ∀ s done k, I s done → k ∉ done → k ∉ used → k ∈ keys → match visit s ls k with
      | .ok s' => I s' (k :: done)
      | .error e => E e)
    (s : σ) (done : List (Alloc × Attr)) (hI : I s done) (hdone : ∀ k ∈ done, k ∈ keys → k ∈ used)
    (hud : ∀ k ∈ used, k ∈ done) :
    match forBigKeys.goKeys visit ls used keys s with
    | .ok s' => ∃ done', I s' done' ∧ ∀ k, k ∈ done' ↔ k ∈ done ∨ k ∈ keys
    | .error e => E e := by
  induction keys generalizing s done with
  | nil => exact ⟨done, hI, by simp⟩
  | cons k ks ih =>
    obtain ⟨hk, hnd⟩ := List.nodup_cons.1 hnd
    rw [forBigKeys.goKeys]
    by_cases hu : k ∈ used
    · rw [if_pos hu]
      have := ih hnd (fun s done k' h1 h2 h3 h4 => hv s done k' h1 h2 h3 (List.mem_cons_of_mem _ h4))
        s done hI (fun k' h1 h2 => hdone k' h1 (List.mem_cons_of_mem _ h2)) hud
      revert this
      cases forBigKeys.goKeys visit ls used ks s with
      | error e => exact id
      | ok s' =>
        rintro ⟨d, h1, h2⟩
        refine ⟨d, h1, ?_⟩
        intro k'
        rw [h2, List.mem_cons]
        constructor
        · rintro (h | h)
          · exact .inl h
          · exact .inr (.inr h)
        · rintro (h | h | h)
          · exact .inl h
          · exact .inl (h ▸ hud k hu)
          · exact .inr h
    · rw [if_neg hu]
      have hkd : k ∉ done := fun h => hu (hdone k h List.mem_cons_self)
      have h1 := hv s done k hI hkd hu List.mem_cons_self
      cases hr : visit s ls k with
      | error e => rw [hr] at h1; exact h1
      | ok s1 =>
        rw [hr] at h1
        simp only [bind, Except.bind]
        have := ih hnd (fun s done k' h1 h2 h3 h4 => hv s done k' h1 h2 h3 (List.mem_cons_of_mem _ h4))
          s1 (k :: done) h1 (by
            intro k' h2 h3
            rcases List.mem_cons.1 h2 with h2 | h2
            · subst h2; exact absurd h3 hk
            · exact hdone k' h2 (List.mem_cons_of_mem _ h3)) (fun k' h => List.mem_cons_of_mem _ (hud k' h))
        revert this
        cases forBigKeys.goKeys visit ls used ks s1 with
        | error e => exact id
        | ok s' =>
          rintro ⟨d, h1, h2⟩
          refine ⟨d, h1, ?_⟩
          intro k'
          rw [h2, List.mem_cons, List.mem_cons]
          constructor
          · rintro ((h | h) | h)
            · exact .inr (.inl h)
            · exact .inl h
            · exact .inr (.inr h)
          · rintro (h | h | h)
            · exact .inl (.inr h)
            · exact .inl (.inl h)
            · exact .inr h

theorem forBigKeys_ok {σ : Type} (visit : σ → List Layer → Alloc × Attr → Except Err σ)
    (I : σ → List (Alloc × Attr) → Prop) (E : Err → Prop) (all : List Layer)
    (hv : ∀ s done l ls k c, I s done → k ∉ done → l :: ls <:+ all → l.big.get? k = some c →
      (∀ o attr, (o.alloc, attr) = k → lookupBig o attr (l :: ls) = lookupBig o attr all) →
      match visit s (l :: ls) k with
      | .ok s' => I s' (k :: done)
      | .error e => E e)
    (n : Nat) (layers : List Layer) (hwf : ∀ l ∈ layers, l.WF) (hsuf : layers <:+ all)
    (used : List (Alloc × Attr)) (s : σ) (done : List (Alloc × Attr)) (hI : I s done)
    (hud : ∀ k, k ∈ used ↔ k ∈ done)
    (hpre : ∀ o attr, (o.alloc, attr) ∉ used → lookupBig o attr layers = lookupBig o attr all) :
    match forBigKeys visit n layers used s with
    | .ok s' => ∃ done', I s' done' ∧ ∀ o attr, (o.alloc, attr) ∉ done' →
        lookupBig o attr (layers.drop n) = lookupBig o attr all
    | .error e => E e := by
  induction n generalizing layers used s done with
  | zero =>
    rw [forBigKeys]
    refine ⟨done, hI, ?_⟩
    intro o attr h
    rw [List.drop_zero]
    exact hpre o attr (fun h' => h ((hud _).1 h'))
  | succ n ih =>
    cases layers with
    | nil =>
      rw [forBigKeys]
      · refine ⟨done, hI, ?_⟩
        intro o attr h
        rw [List.drop_nil]
        exact hpre o attr (fun h' => h ((hud _).1 h'))
    | cons l ls =>
      rw [forBigKeys]
      have hl := hwf l List.mem_cons_self
      have hgo := goKeys_ok visit I E (l :: ls) used l.big.keys hl.nodupBig (by
        intro s done k h1 h2 h3 h4
        have h5 := (PyDict.get?_isSome_iff l.big k).2 h4
        obtain ⟨c, hc⟩ := Option.isSome_iff_exists.1 h5
        refine hv s done l ls k c h1 h2 hsuf hc ?_
        intro o attr he
        refine hpre o attr ?_
        rw [he]
        exact h3) s done hI (fun k h1 _ => (hud k).2 h1) (fun k h => (hud k).1 h)
      revert hgo
      cases forBigKeys.goKeys visit (l :: ls) used l.big.keys s with
      | error e => exact id
      | ok s1 =>
        rintro ⟨d1, h1, h2⟩
        simp only [bind, Except.bind, List.drop_succ_cons]
        refine ih ls (fun l' h => hwf l' (List.mem_cons_of_mem _ h))
          ((List.suffix_cons l ls).trans hsuf) (used ++ l.big.keys) s1 d1 h1 ?_ ?_
        · intro k
          rw [List.mem_append, h2, hud]
        · intro o attr hn
          rw [List.mem_append, not_or] at hn
          rw [← hpre o attr hn.1, lookupBig_cons, (PyDict.get?_none_iff l.big (o.alloc, attr)).2 hn.2]

theorem goAttrs_ok {σ : Type} (this : σ → List Layer)
    (visit : σ → Attr → List (Nat × Sparse) → List (Nat × Sparse) → Except Err σ)
    (other : List Layer) (I : σ → List Attr → Prop) (E : Err → Prop) (above : List Layer)
    (keys : List Attr) (hnd : keys.Nodup)
    (hv : ∀ s done a, I s done → a ∉ done →
      if (smallPointers a (this s)).map (·.1) = (smallPointers a other).map (·.1) then
        I s (a :: done)
      else match visit s a (smallPointers a (this s)) (smallPointers a other) with
        | .ok s' => I s' (a :: done)
        | .error e => E e)
    (s : σ) (done : List Attr) (hI : I s done)
    (hdone : ∀ a ∈ done, a ∈ keys → above.any (fun l => (l.small.get? a).isSome) = true)
    (hud : ∀ a, above.any (fun l => (l.small.get? a).isSome) = true → a ∈ done) :
    match forSmallAttrs.goAttrs this visit other above keys s with
    | .ok s' => ∃ done', I s' done' ∧ ∀ a, a ∈ done' ↔ a ∈ done ∨ a ∈ keys
    | .error e => E e := by
  induction keys generalizing s done with
  | nil => exact ⟨done, hI, by simp⟩
  | cons k ks ih =>
    obtain ⟨hk, hnd⟩ := List.nodup_cons.1 hnd
    rw [forSmallAttrs.goAttrs]
    by_cases hu : above.any (fun l => (l.small.get? k).isSome) = true
    · rw [if_pos hu]
      have := ih hnd s done hI (fun k' h1 h2 => hdone k' h1 (List.mem_cons_of_mem _ h2)) hud
      revert this
      cases forSmallAttrs.goAttrs this visit other above ks s with
      | error e => exact id
      | ok s' =>
        rintro ⟨d, h1, h2⟩
        refine ⟨d, h1, ?_⟩
        intro k'
        rw [h2, List.mem_cons]
        constructor
        · rintro (h | h)
          · exact .inl h
          · exact .inr (.inr h)
        · rintro (h | h | h)
          · exact .inl h
          · exact .inl (h ▸ hud k hu)
          · exact .inr h
    · rw [if_neg hu]
      have hkd : k ∉ done := fun h => hu (hdone k h List.mem_cons_self)
      have h1 := hv s done k hI hkd
      have hnext : ∀ s1, I s1 (k :: done) →
          match forSmallAttrs.goAttrs this visit other above ks s1 with
          | .ok s' => ∃ done', I s' done' ∧ ∀ a, a ∈ done' ↔ a ∈ done ∨ a ∈ k :: ks
          | .error e => E e := by
        intro s1 h1
        have := ih hnd s1 (k :: done) h1 (by
            intro k' h2 h3
            rcases List.mem_cons.1 h2 with h2 | h2
            · subst h2; exact absurd h3 hk
            · exact hdone k' h2 (List.mem_cons_of_mem _ h3)) (fun k' h => List.mem_cons_of_mem _ (hud k' h))
        revert this
        cases forSmallAttrs.goAttrs this visit other above ks s1 with
        | error e => exact id
        | ok s' =>
          rintro ⟨d, h1, h2⟩
          refine ⟨d, h1, ?_⟩
          intro k'
          rw [h2, List.mem_cons, List.mem_cons]
          constructor
          · rintro ((h | h) | h)
            · exact .inr (.inl h)
            · exact .inl h
            · exact .inr (.inr h)
          · rintro (h | h | h)
            · exact .inl (.inr h)
            · exact .inl (.inl h)
            · exact .inr h
      simp only
      by_cases he : (smallPointers k (this s)).map (·.1) = (smallPointers k other).map (·.1)
      · rw [if_pos he] at h1 ⊢
        exact hnext s h1
      · rw [if_neg he] at h1 ⊢
        cases hr : visit s k (smallPointers k (this s)) (smallPointers k other) with
        | error e => rw [hr] at h1; exact h1
        | ok s1 =>
          rw [hr] at h1
          exact hnext s1 h1

theorem forSmallAttrs_ok {σ : Type} (this : σ → List Layer)
    (visit : σ → Attr → List (Nat × Sparse) → List (Nat × Sparse) → Except Err σ)
    (other : List Layer) (I : σ → List Attr → Prop) (E : Err → Prop) (rest : List Layer)
    (hv : ∀ s done a, I s done → a ∉ done →
      if (smallPointers a (this s)).map (·.1) = (smallPointers a other).map (·.1) then
        I s (a :: done)
      else match visit s a (smallPointers a (this s)) (smallPointers a other) with
        | .ok s' => I s' (a :: done)
        | .error e => E e)
    (layers above : List Layer) (hall : other = above ++ (layers ++ rest))
    (hwf : ∀ l ∈ layers, l.WF) (s : σ) (done : List Attr) (hI : I s done)
    (hud : ∀ a, above.any (fun l => (l.small.get? a).isSome) = true ↔ a ∈ done) :
    match forSmallAttrs this visit other layers above s with
    | .ok s' => ∃ done', I s' done' ∧ ∀ o attr, attr ∉ done' →
        lookupSmall o attr rest = lookupSmall o attr other
    | .error e => E e := by
  induction layers generalizing above s done with
  | nil =>
    rw [forSmallAttrs]
    refine ⟨done, hI, ?_⟩
    intro o attr h
    rw [← hud] at h
    rw [hall, List.nil_append]
    clear hall hud
    induction above with
    | nil => rfl
    | cons l ls ih =>
      rw [List.any_cons, Bool.or_eq_true, not_or] at h
      rw [List.cons_append, lookupSmall_cons]
      have : l.small.get? attr = none := by
        cases hx : l.small.get? attr with
        | none => rfl
        | some _ => rw [hx] at h; exact absurd rfl h.1
      rw [this]
      exact ih h.2
  | cons l ls ih =>
    rw [forSmallAttrs]
    have hl := hwf l List.mem_cons_self
    have hgo := goAttrs_ok this visit other I E above l.small.keys hl.nodupSmall hv s done hI
      (fun a h1 _ => (hud a).2 h1) (fun a h => (hud a).1 h)
    revert hgo
    cases forSmallAttrs.goAttrs this visit other above l.small.keys s with
    | error e => exact id
    | ok s1 =>
      rintro ⟨d1, h1, h2⟩
      simp only [bind, Except.bind]
      refine ih (above ++ [l]) ?_ (fun l' h => hwf l' (List.mem_cons_of_mem _ h)) s1 d1 h1 ?_
      · rw [hall]
        simp
      · intro a
        rw [h2, ← hud, List.any_append, List.any_cons, List.any_nil, Bool.or_false,
          Bool.or_eq_true, PyDict.get?_isSome_iff]

/-! ### The layers that are not looked at -/

theorem newLayers_split {b other : Bag} (hap : Apart b other) :
    ∃ rest, other.layers = newLayers b.nonPristine other.layers ++ rest ∧
      (rest = [] ∨ ∀ o attr, lookupBig o attr rest = lookupBig o attr b.layers ∧
        lookupSmall o attr rest = lookupSmall o attr b.layers) := by
  refine ⟨other.layers.dropWhile fun l => b.nonPristine != some l.id,
    (List.takeWhile_append_dropWhile).symm, ?_⟩
  cases hd : other.layers.dropWhile fun l => b.nonPristine != some l.id with
  | nil => exact .inl rfl
  | cons l ls =>
    right
    have hsuf : l :: ls <:+ other.layers := by
      rw [← hd]
      exact List.dropWhile_suffix _
    have hne : (other.layers.dropWhile fun l => b.nonPristine != some l.id) ≠ [] := by
      rw [hd]; exact List.cons_ne_nil _ _
    have hhead := List.head_dropWhile_not (fun l : Layer => b.nonPristine != some l.id) hne
    simp only [hd, List.head_cons] at hhead
    have hid : b.nonPristine = some l.id := by
      simpa using hhead
    have hmem : l ∈ other.layers := hsuf.subset List.mem_cons_self
    unfold Bag.nonPristine at hid
    by_cases hp : b.top.isPristine = true
    · rw [if_pos hp] at hid
      cases hpar : b.parents with
      | nil => rw [hpar] at hid; cases hid
      | cons pl pls =>
        rw [hpar] at hid
        have hid := Option.some.inj hid
        have := hap.shared pl pls l ls (by rw [hpar]; exact List.suffix_refl _) hsuf hid
        rw [← this]
        intro o attr
        unfold Bag.layers
        rw [hpar, (pristine_skip hp _ o attr).1, (pristine_skip hp _ o attr).2]
        exact ⟨rfl, rfl⟩
    · rw [if_neg hp] at hid
      exact absurd (Option.some.inj hid).symm (hap.own l hmem)

/-! ### Big allocations -/

theorem coll_noDense {b : Bag} (a : Alloc) (attr : Attr) (size : Nat)
    (h : (bigSources a attr b.layers size).2.1 = []) :
    (b.coll a attr).mutDense = none ∧ (b.coll a attr).constDense = none := by
  unfold Bag.layers at h
  rw [bigSources] at h
  unfold Bag.coll
  cases hg : b.top.big.get? (a, attr) with
  | none => exact ⟨rfl, rfl⟩
  | some c =>
    rw [hg] at h
    simp only at h
    simp only [Option.getD_some]
    cases hm : c.mutDense with
    | some d => rw [hm] at h; simp at h
    | none =>
      rw [hm] at h
      cases hcd : c.constDense with
      | some d => rw [hcd] at h; simp at h
      | none => exact ⟨rfl, rfl⟩

/-- What merging big allocations leaves alone. -/
structure BigFrame (b b' : Bag) : Prop where
  wf : b'.WF
  frozen : b'.frozen = b.frozen
  parents : b'.parents = b.parents
  id : b'.top.id = b.top.id
  small : b'.top.small = b.top.small

theorem mergeBig_ok {b other : Bag} (hb : b.WF) (ho : other.WF) (hap : Apart b other)
    {same : SameSources} (hsame : ∀ x y, same x y = true → x = y) (p : Policy) :
    match mergeBig same b other p with
    | .ok b' => BigFrame b b' ∧ ∀ x attr, x.Valid → x.alloc.isSmall = false →
        MergedAt p b other b' x attr
    | .error e => MergeError p b other e := by
  obtain ⟨rest, hsplit, hrest⟩ := newLayers_split hap
  have hloop := forBigKeys_ok (fun (b : Bag) ls k =>
      if same (dataSources k.1 k.2 b.layers).2 (dataSources k.1 k.2 ls).2 then .ok b
      else do
        let c ← mergeBigKey other.frozen b.layers b.parents ls k.1 k.2 p (b.coll k.1 k.2)
        pure (b.setColl k.1 k.2 c))
    (fun s done => BigFrame b s ∧
      (∀ x attr, x.Valid → x.alloc.isSmall = false → (x.alloc, attr) ∈ done →
        MergedAt p b other s x attr) ∧
      ∀ (x : Obj) (attr : Attr), (x.alloc, attr) ∉ done →
        lookupBig x attr s.layers = lookupBig x attr b.layers ∧
          s.top.big.get? (x.alloc, attr) = b.top.big.get? (x.alloc, attr))
    (MergeError p b other) other.layers (by
      rintro s done l ls ⟨a, attr⟩ c ⟨hf, hd, hn⟩ hk hsuf hget hlook
      have hlswf : ∀ l' ∈ l :: ls, l'.WF := fun l' h => ho l' (hsuf.subset h)
      have hkey := (hlswf l List.mem_cons_self).big a attr c hget
      have hO : ∀ x : Obj, x.alloc = a → lookupBig x attr (l :: ls) = lookupBig x attr other.layers :=
        fun x hx => hlook x attr (by rw [hx])
      have hTs : ∀ x : Obj, x.alloc = a → lookupBig x attr s.layers = lookupBig x attr b.layers :=
        fun x hx => (hn x attr (by rw [hx]; exact hk)).1
      have hlk : ∀ (bg : Bag) (x : Obj), x.alloc = a → bg.lookup x attr = lookupBig x attr bg.layers :=
        fun bg x hx => Bag.lookup_big (by rw [hx]; exact hkey.2.1) attr
      have harr : InArray s.layers a attr → InArray b.layers a attr := by
        rintro ⟨l', e1, c', d, e2, e3⟩
        rcases List.mem_cons.1 e1 with rfl | e1
        · refine ⟨b.top, List.mem_cons_self, c', d, ?_, e3⟩
          rw [← (hn ⟨a, 0⟩ attr hk).2]
          exact e2
        · exact ⟨l', List.mem_cons_of_mem _ (by rw [← hf.parents]; exact e1), c', d, e2, e3⟩
      simp only
      by_cases hs : same (dataSources a attr s.layers).2 (dataSources a attr (l :: ls)).2 = true
      · rw [if_pos hs]
        refine ⟨hf, ?_, ?_⟩
        · intro x attr' hx hxs hmem
          rcases List.mem_cons.1 hmem with he | he
          · have he1 : x.alloc = a := congrArg Prod.fst he
            have he2 : attr' = attr := congrArg Prod.snd he
            subst he2
            have heq := hsame _ _ hs
            rw [dataSources_big hkey.2.1, dataSources_big hkey.2.1] at heq
            have h1 := bigSources_cell x attr' s.layers a.capacity hf.wf
            have h2 := bigSources_cell x attr' (l :: ls) a.capacity hlswf
            rw [he1] at h1 h2
            rw [heq, h2, hO x he1, hTs x he1] at h1
            left
            rw [hlk _ x he1, hlk _ x he1, hlk _ x he1, hTs x he1, h1]
            exact Merged.refl p _
          · exact hd x attr' hx hxs he
        · intro x attr' hmem
          exact hn x attr' (fun h => hmem (List.mem_cons_of_mem _ h))
      · rw [if_neg hs]
        have hm := mergeBigKey_ok hkey.2.1 hkey.1 hf.wf hf.wf.parents hlswf hget other.frozen p
          (Bag.coll_wf hf.wf a attr) (by
            intro o hoa
            have := Bag.coll_cell s o attr
            rw [hoa] at this
            exact this) (coll_noDense a attr a.capacity)
        cases hr : mergeBigKey other.frozen s.layers s.parents (l :: ls) a attr p (s.coll a attr) with
        | error e =>
          rw [hr] at hm
          simp only [bind, Except.bind]
          rcases hm with ⟨e1, e2, x, e3, e4, e5⟩ | ⟨e1, l', h1, c', d, h2, h3, h4⟩
          · refine .inl ⟨e1, e2, x, attr, ⟨by rw [e3]; exact hkey.1, by rw [e3]; exact e4⟩, ?_⟩
            rw [hlk _ x e3, hlk _ x e3, ← hTs x e3, ← hO x e3]
            exact e5
          · exact .inr ⟨e1, l', hsuf.subset h1, a, attr, c', d, h2, h3, h4⟩
        | ok c' =>
          rw [hr] at hm
          simp only [bind, Except.bind, pure, Except.pure]
          obtain ⟨hcw, hcl, hcm⟩ := hm
          refine ⟨⟨Bag.setColl_wf hf.wf hkey.1 hkey.2.1 attr hcw (by rw [hcl]; intro h; cases h),
            hf.frozen, hf.parents, hf.id, hf.small⟩, ?_, ?_⟩
          · intro x attr' hx hxs hmem
            by_cases he : x.alloc = a ∧ attr' = attr
            · obtain ⟨he1, he2⟩ := he
              subst he2
              have hxn : x.off < a.n := by rw [← he1]; exact hx.off
              have hres : (s.setColl a attr' c').lookup x attr' =
                  c'.cell x (lookupBig x attr' s.parents) := by
                rw [Bag.setColl_lookup s a hkey.2.1, if_pos ⟨he1, rfl⟩]
              unfold MergedAt
              rw [hres, hlk _ x he1, hlk _ x he1, ← hTs x he1, ← hO x he1]
              rcases hcm with hcm | ⟨⟨ha1, l', ha2, ha3⟩, h1, h2⟩
              · exact .inl (hcm x he1 hxn _)
              · refine .inr ⟨hxs, h2 x he1 hxn _, by rw [he1]; exact harr ha1,
                  by rw [he1]; exact ⟨l', hsuf.subset ha2, ha3⟩, ?_⟩
                intro y hy hyn
                have hya : y.alloc = a := by rw [hy, he1]
                rw [hlk _ y hya, ← hO y hya]
                exact h1 y hya (by rw [← hya]; exact hyn)
            · have hmem' : (x.alloc, attr') ∈ done := by
                rcases List.mem_cons.1 hmem with h | h
                · exact absurd ⟨congrArg Prod.fst h, congrArg Prod.snd h⟩ he
                · exact h
              have := hd x attr' hx hxs hmem'
              unfold MergedAt
              rw [Bag.setColl_lookup s a hkey.2.1, if_neg he]
              exact this
          · intro x attr' hmem
            rw [List.mem_cons, not_or] at hmem
            have hne : ¬ (x.alloc = a ∧ attr' = attr) := by
              rintro ⟨h1, h2⟩
              exact hmem.1 (by rw [h1, h2])
            rw [Bag.setColl_big, if_neg hne]
            refine ⟨(hn x attr' hmem.2).1, ?_⟩
            rw [← (hn x attr' hmem.2).2]
            simp only [Bag.setColl]
            exact PyDict.get?_set_ne _ (fun h => hmem.1 h) _)
    (newLayers b.nonPristine other.layers).length other.layers ho (List.suffix_refl _) [] b []
    ⟨⟨hb, rfl, rfl, rfl, rfl⟩, (by intro x attr _ _ h; cases h), fun _ _ _ => ⟨rfl, rfl⟩⟩
    (fun _ => Iff.rfl) (fun _ _ _ => rfl)
  unfold mergeBig
  revert hloop
  cases forBigKeys _ _ other.layers [] b with
  | error e => exact id
  | ok b' =>
    rintro ⟨done, ⟨hf, hd, hn⟩, hl⟩
    refine ⟨hf, ?_⟩
    intro x attr hx hxs
    by_cases hmem : (x.alloc, attr) ∈ done
    · exact hd x attr hx hxs hmem
    · left
      rw [Bag.lookup_big hxs, Bag.lookup_big hxs, Bag.lookup_big hxs, (hn x attr hmem).1,
        ← hl x attr hmem]
      have hdrop : other.layers.drop (newLayers b.nonPristine other.layers).length = rest := by
        have := congrArg (List.drop (newLayers b.nonPristine other.layers).length) hsplit
        rw [List.drop_left] at this
        exact this
      rw [hdrop]
      rcases hrest with hrest | hrest
      · rw [hrest]
        cases lookupBig x attr b.layers <;> rfl
      · rw [(hrest x attr).1]
        exact Merged.refl p _

/-! ### Small allocations -/

theorem smallPointers_snd (attr : Attr) (layers : List Layer) :
    (smallPointers attr layers).map (·.2) = smallSources attr layers := by
  unfold smallPointers smallSources
  induction layers with
  | nil => rfl
  | cons l ls ih =>
    rw [List.filterMap_cons, List.filterMap_cons]
    cases l.small.get? attr with
    | none => exact ih
    | some s =>
      simp only [Option.map_some, List.map_cons]
      rw [ih]

theorem smallPointers_mem {attr : Attr} {layers : List Layer} {e : Nat × Sparse}
    (h : e ∈ smallPointers attr layers) :
    ∃ l ∈ layers, l.id = e.1 ∧ l.small.get? attr = some e.2 := by
  obtain ⟨l, hl, hg⟩ := List.mem_filterMap.1 h
  cases hx : l.small.get? attr with
  | none => rw [hx] at hg; cases hg
  | some s =>
    rw [hx] at hg
    have := Option.some.inj hg
    subst this
    exact ⟨l, hl, rfl, hx⟩

theorem mem_suffix {l : Layer} {ls : List Layer} (h : l ∈ ls) : ∃ tl, l :: tl <:+ ls := by
  obtain ⟨s, t, rfl⟩ := List.append_of_mem h
  exact ⟨t, List.suffix_append s (l :: t)⟩

theorem pointers_same {b other : Bag} (hap : Apart b other) {attr : Attr} {e e' : Nat × Sparse}
    (he : e ∈ smallPointers attr b.layers) (he' : e' ∈ smallPointers attr other.layers)
    (h : e.1 = e'.1) : e = e' := by
  obtain ⟨l, hl, h1, h2⟩ := smallPointers_mem he
  obtain ⟨l', hl', h1', h2'⟩ := smallPointers_mem he'
  rcases List.mem_cons.1 hl with ht | ht
  · subst ht
    exact absurd (by rw [h1', ← h, h1]) (hap.own l' hl')
  · obtain ⟨tl, htl⟩ := mem_suffix ht
    obtain ⟨tl', htl'⟩ := mem_suffix hl'
    have := hap.shared l tl l' tl' htl htl' (by rw [h1, h1', h])
    have hll : l = l' := (List.cons.inj this).1
    subst hll
    rw [h2] at h2'
    obtain ⟨e1, e2⟩ := e
    obtain ⟨e1', e2'⟩ := e'
    simp only at h h2'
    rw [h, Option.some.inj h2']

theorem eq_of_map_fst {α β : Type} {l l' : List (α × β)}
    (h : ∀ e ∈ l, ∀ e' ∈ l', e.1 = e'.1 → e = e') (hm : l.map (·.1) = l'.map (·.1)) : l = l' := by
  induction l generalizing l' with
  | nil =>
    cases l' with
    | nil => rfl
    | cons _ _ => simp at hm
  | cons e l ih =>
    cases l' with
    | nil => simp at hm
    | cons e' l' =>
      simp only [List.map_cons, List.cons.injEq] at hm
      rw [h e List.mem_cons_self e' List.mem_cons_self hm.1,
        ih (fun x hx y hy => h x (List.mem_cons_of_mem _ hx) y (List.mem_cons_of_mem _ hy)) hm.2]

/-- Either nothing is stripped, or the first list is a suffix of the second. -/
theorem stripSuffix_ok {t o : List (Nat × Sparse)}
    (h : ∀ e ∈ t, ∀ e' ∈ o, e.1 = e'.1 → e = e') :
    stripSuffix t o = (t, o) ∨ ∃ o1, stripSuffix t o = ([], o1) ∧ o = o1 ++ t := by
  unfold stripSuffix
  by_cases hl : o.length < t.length
  · rw [if_pos hl]; exact .inl rfl
  · rw [if_neg hl]
    by_cases he : t.map (·.1) = (o.drop (o.length - t.length)).map (·.1)
    · rw [if_pos he]
      right
      refine ⟨_, rfl, ?_⟩
      have := eq_of_map_fst (fun e h1 e' h2 h3 => h e h1 e' (List.mem_of_mem_drop h2) h3) he
      generalize o.length - t.length = k at this
      rw [this]
      exact (List.take_append_drop k o).symm
    · rw [if_neg he]; exact .inl rfl

/-- What merging small allocations leaves alone. -/
structure SmallFrame (b b' : Bag) : Prop where
  wf : b'.WF
  frozen : b'.frozen = b.frozen
  parents : b'.parents = b.parents
  id : b'.top.id = b.top.id
  big : b'.top.big = b.top.big

theorem SmallFrame.refl {b : Bag} (h : b.WF) : SmallFrame b b := ⟨h, rfl, rfl, rfl, rfl⟩

theorem SmallFrame.set {b b' : Bag} (h : SmallFrame b b') (attr : Attr) {s : Sparse}
    (hs : s.WF none) : SmallFrame b (b'.setSmall attr s) :=
  ⟨Bag.setSmall_wf h.wf attr hs, h.frozen, h.parents, h.id, h.big⟩

theorem setEntry_small {b : Bag} {attr : Attr} {o : Obj} (hs : (b.smallSource attr).belongs o = true)
    (v : Item) (x : Obj) (attr' : Attr) :
    lookupSmall x attr' (b.setSmall attr ((b.smallSource attr).set o v)).layers =
      if attr' = attr ∧ x = o then some v else lookupSmall x attr' b.layers := by
  rw [Bag.setSmall_small]
  by_cases h : attr' = attr
  · subst h
    rw [if_pos rfl, Sparse.get_set hs]
    by_cases hx : x = o
    · rw [if_pos hx, if_pos ⟨rfl, hx⟩]
      rfl
    · rw [if_neg hx, if_neg (fun h => hx h.2), ← Bag.smallSource_get]
  · rw [if_neg h, if_neg (fun h' => h h'.1)]

theorem mergeSmallEntries_ok {p : Policy} {t : List Sparse} {attr : Attr}
    (es : PyDict Obj Item) (hnd : es.keys.Nodup)
    (hk : ∀ e ∈ es, e.1.Valid ∧ e.1.alloc.isSmall = true) {b : Bag} (hb : b.WF) :
    match mergeSmall.mergeSmallEntries p t attr es b with
    | .ok b' => SmallFrame b b' ∧
        (∀ x attr', attr' ≠ attr → lookupSmall x attr' b'.layers = lookupSmall x attr' b.layers) ∧
        (∀ x, lookupSmall x attr b'.layers =
          if p = .overwrite ∨ t.findSome? (·.get x) = none then
            (es.get? x).or (lookupSmall x attr b.layers)
          else lookupSmall x attr b.layers) ∧
        (p = .raise → ∀ x u v, t.findSome? (·.get x) = some u → es.get? x = some v → Same u v)
    | .error e => e = .conflict ∧ p = .raise ∧
        ∃ x v, es.get? x = some v ∧ Conflict (t.findSome? (·.get x)) (some v) := by
  induction es generalizing b with
  | nil =>
    refine ⟨SmallFrame.refl hb, fun _ _ _ => rfl, ?_, (by intro _ _ _ _ _ h; cases h)⟩
    intro x
    split <;> rfl
  | cons e es ih =>
    have hnd' : (PyDict.keys es).Nodup ∧ e.1 ∉ PyDict.keys es := by
      unfold PyDict.keys at hnd ⊢
      rw [List.map_cons, List.nodup_cons] at hnd
      exact ⟨hnd.2, hnd.1⟩
    have hget : ∀ o, PyDict.get? (e :: es) o = if e.1 = o then some e.2 else PyDict.get? es o :=
      fun _ => rfl
    have hne : PyDict.get? es e.1 = none := (PyDict.get?_none_iff _ _).2 hnd'.2
    have ih := fun {b} hb => @ih hnd'.1 (fun e' he => hk e' (List.mem_cons_of_mem _ he)) b hb
    have hke := hk e List.mem_cons_self
    rw [mergeSmall.mergeSmallEntries]
    -- the entry is stored
    have hstore : (p = .overwrite ∨ t.findSome? (·.get e.1) = none) →
        match mergeSmall.mergeSmallEntries p t attr es
          (b.setSmall attr ((b.smallSource attr).set e.1 e.2)) with
        | .ok b' => SmallFrame b b' ∧
            (∀ x attr', attr' ≠ attr → lookupSmall x attr' b'.layers = lookupSmall x attr' b.layers) ∧
            (∀ x, lookupSmall x attr b'.layers =
              if p = .overwrite ∨ t.findSome? (·.get x) = none then
                (PyDict.get? (e :: es) x).or (lookupSmall x attr b.layers)
              else lookupSmall x attr b.layers) ∧
            (p = .raise → ∀ x u v, t.findSome? (·.get x) = some u →
              PyDict.get? (e :: es) x = some v → Same u v)
        | .error er => er = .conflict ∧ p = .raise ∧
            ∃ x v, PyDict.get? (e :: es) x = some v ∧ Conflict (t.findSome? (·.get x)) (some v) := by
      intro hc
      have hsw := Bag.smallSource_wf hb attr
      have hbel : (b.smallSource attr).belongs e.1 = true := by
        rw [hsw.belongs_none]; exact hke.2
      have hwf1 : SmallFrame b (b.setSmall attr ((b.smallSource attr).set e.1 e.2)) :=
        (SmallFrame.refl hb).set attr (hsw.set hke.1 e.2)
      have h1 := ih hwf1.wf
      revert h1
      cases mergeSmall.mergeSmallEntries p t attr es
        (b.setSmall attr ((b.smallSource attr).set e.1 e.2)) with
      | error er =>
        rintro ⟨e1, e2, x, v, e3, e4⟩
        refine ⟨e1, e2, x, v, ?_, e4⟩
        rw [hget, if_neg]
        · exact e3
        · intro he
          rw [← he, hne] at e3
          cases e3
      | ok b' =>
        rintro ⟨h1, h2, h3, h4⟩
        refine ⟨⟨h1.wf, h1.frozen, h1.parents, h1.id, h1.big⟩, ?_, ?_, ?_⟩
        · intro x attr' hne'
          rw [h2 x attr' hne', setEntry_small hbel, if_neg (fun h => hne' h.1)]
        · intro x
          rw [h3, setEntry_small hbel, hget]
          by_cases he : e.1 = x
          · subst he
            rw [if_pos hc, if_pos hc, if_pos ⟨rfl, rfl⟩, if_pos rfl, hne]
            rfl
          · have hn' : ¬ (attr = attr ∧ x = e.1) := fun h => he h.2.symm
            rw [if_neg hn', if_neg he]
        · intro hp x u v hu hv
          rw [hget] at hv
          by_cases he : e.1 = x
          · subst he
            rcases hc with hc | hc
            · rw [hc] at hp; cases hp
            · rw [hc] at hu; cases hu
          · rw [if_neg he] at hv
            exact h4 hp x u v hu hv
    by_cases hp : p = .overwrite
    · rw [if_pos hp]
      exact hstore (.inl hp)
    · rw [if_neg hp]
      cases hg : t.findSome? (·.get e.1) with
      | none => exact hstore (.inr hg)
      | some w =>
        simp only
        have hcur : ¬ (p = .overwrite ∨ t.findSome? (·.get e.1) = none) := by
          rintro (h | h)
          · exact hp h
          · rw [hg] at h; cases h
        by_cases hdif : (p == .raise && itemsDiffer w e.2) = true
        · rw [if_pos hdif]
          have hd := Bool.and_eq_true_iff.1 hdif
          refine ⟨rfl, eq_of_beq hd.1, e.1, e.2, ?_, w, e.2, hg, rfl, ?_⟩
          · rw [hget, if_pos rfl]
          · intro h; exact itemsDiffer_true hd.2 h.1
        · rw [if_neg hdif]
          have h1 := ih hb
          revert h1
          cases mergeSmall.mergeSmallEntries p t attr es b with
          | error er =>
            rintro ⟨e1, e2, x, v, e3, e4⟩
            refine ⟨e1, e2, x, v, ?_, e4⟩
            rw [hget, if_neg]
            · exact e3
            · intro he
              rw [← he, hne] at e3
              cases e3
          | ok b' =>
            rintro ⟨h1, h2, h3, h4⟩
            refine ⟨h1, h2, ?_, ?_⟩
            · intro x
              rw [h3, hget]
              by_cases he : e.1 = x
              · subst he
                rw [if_neg hcur, if_neg hcur]
              · rw [if_neg he]
            · intro hpr x u v hu hv
              rw [hget] at hv
              by_cases he : e.1 = x
              · subst he
                rw [if_pos rfl] at hv
                have hv := Option.some.inj hv
                rw [hg] at hu
                have hu := Option.some.inj hu
                subst hv hu
                apply itemsDiffer_false
                cases hi : itemsDiffer w e.2 with
                | false => rfl
                | true =>
                  rw [hi, hpr] at hdif
                  exact absurd rfl hdif
              · rw [if_neg he] at hv
                exact h4 hpr x u v hu hv

theorem Apart.of_frame {b b' other : Bag} (h : Apart b other) (hid : b'.top.id = b.top.id)
    (hp : b'.parents = b.parents) : Apart b' other :=
  ⟨by rw [hid]; exact h.own, by rw [hp]; exact h.shared⟩

theorem Merged.overwrite_or (t o : Cell) : Merged .overwrite t o (o.or t) := by
  cases t <;> cases o <;> rfl

theorem emplaceSmall_new {b : Bag} {attr : Attr} (h : b.top.small.get? attr = none) (s : Sparse) :
    b.emplaceSmall attr s = b.setSmall attr s := by
  unfold Bag.emplaceSmall
  rw [h]
  rfl

theorem top_pointer {b : Bag} {attr : Attr} {s : Sparse} (h : b.top.small.get? attr = some s) :
    (b.top.id, s) ∈ smallPointers attr b.layers := by
  unfold smallPointers
  rw [List.mem_filterMap]
  exact ⟨b.top, List.mem_cons_self, by rw [h]; rfl⟩

theorem onlySource_some {t o : List (Nat × Sparse)} {s : Sparse} (h : onlySource t o = some s) :
    t = [] ∧ ∃ i, o = [(i, s)] := by
  match t, o, h with
  | [], [(i, s')], h =>
    have := Option.some.inj h
    exact ⟨rfl, i, by rw [← this]⟩

theorem mergeSmall_ok {b other : Bag} (hb : b.WF) (ho : other.WF) (hap : Apart b other)
    (p : Policy) :
    match mergeSmall b other p with
    | .ok b' => SmallFrame b b' ∧ ∀ x attr,
        Merged p (lookupSmall x attr b.layers) (lookupSmall x attr other.layers)
          (lookupSmall x attr b'.layers)
    | .error e => e = .conflict ∧ p = .raise ∧ ∃ (x : Obj) (attr : Attr), x.Valid ∧
        x.alloc.isSmall = true ∧
        Conflict (lookupSmall x attr b.layers) (lookupSmall x attr other.layers) := by
  obtain ⟨rest, hsplit, hrest⟩ := newLayers_split hap
  have hloop := forSmallAttrs_ok Bag.layers (fun (b : Bag) attr t o =>
      let r := if p = .overwrite then stripSuffix t o else (t, o)
      match onlySource r.1 r.2 with
      | some s => .ok (b.emplaceSmall attr s)
      | none => mergeSmall.mergeSmallEntries p (r.1.map (·.2)) attr (sparseEntries (r.2.map (·.2))) b)
    other.layers
    (fun s done => SmallFrame b s ∧
      (∀ x attr, attr ∈ done →
        Merged p (lookupSmall x attr b.layers) (lookupSmall x attr other.layers)
          (lookupSmall x attr s.layers)) ∧
      ∀ (x : Obj) (attr : Attr), attr ∉ done →
        lookupSmall x attr s.layers = lookupSmall x attr b.layers)
    (fun e => e = .conflict ∧ p = .raise ∧ ∃ (x : Obj) (attr : Attr), x.Valid ∧
        x.alloc.isSmall = true ∧
        Conflict (lookupSmall x attr b.layers) (lookupSmall x attr other.layers))
    rest (by
      rintro s done attr ⟨hf, hd, hn⟩ hk
      have haps := hap.of_frame hf.id hf.parents
      have hsamep := fun e he e' he' h => pointers_same haps (attr := attr) (e := e) (e' := e') he he' h
      have hT : ∀ x, ((smallPointers attr s.layers).map (·.2)).findSome? (·.get x) =
          lookupSmall x attr b.layers := by
        intro x
        rw [smallPointers_snd, smallSources_cell, hn x attr hk]
      have hO : ∀ x, ((smallPointers attr other.layers).map (·.2)).findSome? (·.get x) =
          lookupSmall x attr other.layers := by
        intro x
        rw [smallPointers_snd, smallSources_cell]
      have howf : ∀ e ∈ smallPointers attr other.layers, e.2.WF none := by
        intro e he
        obtain ⟨l, hl, _, hg⟩ := smallPointers_mem he
        exact (ho l hl).small attr _ hg
      -- what remains to be shown for a new state
      have hfin : ∀ s', SmallFrame b s' →
          (∀ x attr', attr' ≠ attr → lookupSmall x attr' s'.layers = lookupSmall x attr' s.layers) →
          (∀ x, Merged p (lookupSmall x attr b.layers) (lookupSmall x attr other.layers)
            (lookupSmall x attr s'.layers)) →
          SmallFrame b s' ∧
          (∀ x attr', attr' ∈ attr :: done →
            Merged p (lookupSmall x attr' b.layers) (lookupSmall x attr' other.layers)
              (lookupSmall x attr' s'.layers)) ∧
          ∀ (x : Obj) (attr' : Attr), attr' ∉ attr :: done →
            lookupSmall x attr' s'.layers = lookupSmall x attr' b.layers := by
        intro s' h1 h2 h3
        refine ⟨h1, ?_, ?_⟩
        · intro x attr' hmem
          by_cases he : attr' = attr
          · rw [he]; exact h3 x
          · rw [h2 x attr' he]
            rcases List.mem_cons.1 hmem with h | h
            · exact absurd h he
            · exact hd x attr' h
        · intro x attr' hmem
          rw [List.mem_cons, not_or] at hmem
          rw [h2 x attr' hmem.1, hn x attr' hmem.2]
      by_cases hids : (smallPointers attr s.layers).map (·.1) =
          (smallPointers attr other.layers).map (·.1)
      · rw [if_pos hids]
        have heq := eq_of_map_fst hsamep hids
        refine hfin s hf (fun _ _ _ => rfl) ?_
        intro x
        rw [hn x attr hk, ← hO x, ← heq, hT x]
        exact Merged.refl p _
      · rw [if_neg hids]
        generalize hpt : smallPointers attr s.layers = t at hsamep hT
        generalize hpo : smallPointers attr other.layers = o at hsamep hO howf
        simp only
        -- the sources that are merged, and what they say
        have hstrip : ∃ t' o', (if p = .overwrite then stripSuffix t o else (t, o)) = (t', o') ∧
            ((t' = t ∧ o' = o) ∨ (p = .overwrite ∧ t' = [] ∧ o = o' ++ t)) := by
          by_cases hp : p = .overwrite
          · rw [if_pos hp]
            rcases stripSuffix_ok hsamep with h | ⟨o1, h1, h2⟩
            · exact ⟨t, o, h, .inl ⟨rfl, rfl⟩⟩
            · exact ⟨[], o1, h1, .inr ⟨hp, rfl, h2⟩⟩
          · rw [if_neg hp]
            exact ⟨t, o, rfl, .inl ⟨rfl, rfl⟩⟩
        obtain ⟨t', o', hr, hcase⟩ := hstrip
        rw [hr]
        have ho'wf : ∀ e ∈ o', e.2.WF none := by
          intro e he
          rcases hcase with ⟨_, rfl⟩ | ⟨_, _, h⟩
          · exact howf e he
          · exact howf e (by rw [h]; exact List.mem_append_left _ he)
        have hO' : ∀ x, lookupSmall x attr other.layers =
            ((o'.map (·.2)).findSome? (·.get x)).or
              (if t' = t then none else lookupSmall x attr b.layers) := by
          intro x
          rw [← hO x]
          rcases hcase with ⟨rfl, rfl⟩ | ⟨_, rfl, h⟩
          · rw [if_pos rfl, Option.or_none]
          · rw [h, List.map_append, List.findSome?_append, hT x]
            by_cases ht : ([] : List (Nat × Sparse)) = t
            · rw [if_pos ht, Option.or_none, ← hT x, ← ht]
              simp
            · rw [if_neg ht]
        have hentries : match mergeSmall.mergeSmallEntries p (t'.map (·.2)) attr
              (sparseEntries (o'.map (·.2))) s with
            | .ok s' => SmallFrame b s' ∧
              (∀ x attr', attr' ∈ attr :: done →
                Merged p (lookupSmall x attr' b.layers) (lookupSmall x attr' other.layers)
                  (lookupSmall x attr' s'.layers)) ∧
              ∀ (x : Obj) (attr' : Attr), attr' ∉ attr :: done →
                lookupSmall x attr' s'.layers = lookupSmall x attr' b.layers
            | .error e => e = .conflict ∧ p = .raise ∧ ∃ (x : Obj) (attr : Attr), x.Valid ∧
              x.alloc.isSmall = true ∧
              Conflict (lookupSmall x attr b.layers) (lookupSmall x attr other.layers) := by
          have hswf : ∀ s' ∈ o'.map (·.2), s'.WF none := by
            intro s' hs'
            obtain ⟨e, he, rfl⟩ := List.mem_map.1 hs'
            exact ho'wf e he
          have hkey : ∀ e ∈ sparseEntries (o'.map (·.2)), e.1.Valid ∧ e.1.alloc.isSmall = true := by
            intro e he
            obtain ⟨h1, s', h2, h3⟩ := sparseEntries_mem hswf he
            rw [(hswf s' h2).belongs_none] at h3
            exact ⟨h1, h3⟩
          have hm := mergeSmallEntries_ok (p := p) (t := t'.map (·.2)) (attr := attr)
            (sparseEntries (o'.map (·.2)))
            (sparseEntries_nodup _ fun s' h => (hswf s' h).nodup) hkey hf.wf
          revert hm
          cases mergeSmall.mergeSmallEntries p (t'.map (·.2)) attr
              (sparseEntries (o'.map (·.2))) s with
          | error e =>
            rintro ⟨e1, e2, x, v, e3, e4⟩
            have hval := hkey _ (PyDict.mem_of_get? e3)
            refine ⟨e1, e2, x, attr, hval.1, hval.2, ?_⟩
            rcases hcase with ⟨rfl, rfl⟩ | ⟨h, _, _⟩
            · rw [hT x] at e4
              rw [hO' x, if_pos rfl, Option.or_none, ← sparseEntries_get, e3]
              exact e4
            · rw [h] at e2; cases e2
          | ok s' =>
            rintro ⟨h1, h2, h3, h4⟩
            refine hfin s' ⟨h1.wf, by rw [h1.frozen, hf.frozen], by rw [h1.parents, hf.parents],
              by rw [h1.id, hf.id], by rw [h1.big, hf.big]⟩ h2 ?_
            intro x
            rw [h3 x, hn x attr hk, hO' x, sparseEntries_get]
            rcases hcase with ⟨rfl, rfl⟩ | ⟨hp, _, _⟩
            · rw [if_pos rfl, Option.or_none, hT x]
              have h4 : p = .raise → ∀ u v, lookupSmall x attr b.layers = some u →
                  (o'.map (·.2)).findSome? (·.get x) = some v → Same u v := by
                intro hp u v hu hv
                rw [← hT x] at hu
                exact h4 hp x u v hu (by rw [sparseEntries_get]; exact hv)
              generalize (o'.map (·.2)).findSome? (·.get x) = oc at h4
              generalize lookupSmall x attr b.layers = tc at h4
              cases p with
              | overwrite =>
                rw [if_pos (.inl rfl)]
                exact Merged.overwrite_or tc oc
              | keep =>
                cases tc with
                | none => rw [if_pos (.inr rfl), Option.or_none]; rfl
                | some u =>
                  rw [if_neg (by simp)]
                  cases oc <;> rfl
              | raise =>
                cases tc with
                | none => rw [if_pos (.inr rfl), Option.or_none]; rfl
                | some u =>
                  rw [if_neg (by simp)]
                  cases oc with
                  | none => rfl
                  | some v => exact ⟨h4 rfl u v rfl rfl, .inl rfl⟩
            · subst hp
              have hif : (Policy.overwrite = .overwrite ∨
                  (t'.map (·.2)).findSome? (·.get x) = none) := .inl rfl
              rw [if_pos hif]
              generalize (o'.map (·.2)).findSome? (·.get x) = oc
              have := Merged.overwrite_or (lookupSmall x attr b.layers)
                (oc.or (if t' = t then none else lookupSmall x attr b.layers))
              rw [Option.or_assoc] at this
              have h5 : (if t' = t then none else lookupSmall x attr b.layers).or
                  (lookupSmall x attr b.layers) = lookupSmall x attr b.layers := by
                split
                · rfl
                · cases lookupSmall x attr b.layers <;> rfl
              rw [h5] at this
              exact this
        simp only
        cases hone : onlySource t' o' with
        | none =>
          simp only
          revert hentries
          cases mergeSmall.mergeSmallEntries p (t'.map (·.2)) attr
            (sparseEntries (o'.map (·.2))) s <;> exact id
        | some s1 =>
              obtain ⟨ht', i1, ho'⟩ := onlySource_some hone
              subst ht' ho'
              simp only
              have hnone : s.top.small.get? attr = none := by
                cases hx : s.top.small.get? attr with
                | none => rfl
                | some s0 =>
                  have hm := top_pointer hx
                  rw [hpt] at hm
                  rcases hcase with ⟨h, _⟩ | ⟨_, _, h⟩
                  · rw [← h] at hm; cases hm
                  · have hm' : (s.top.id, s0) ∈ o := by rw [h]; exact List.mem_append_right _ hm
                    rw [← hpo] at hm'
                    obtain ⟨l, hl, h1, _⟩ := smallPointers_mem hm'
                    exact absurd h1 (haps.own l hl)
              rw [emplaceSmall_new hnone]
              have hpar : ∀ x, lookupSmall x attr s.parents = lookupSmall x attr b.layers := by
                intro x
                rw [← hn x attr hk]
                unfold Bag.layers
                rw [lookupSmall_cons, hnone]
                rfl
              refine hfin _ (hf.set attr (ho'wf (i1, s1) List.mem_cons_self)) ?_ ?_
              · intro x attr' hne
                rw [Bag.setSmall_small, if_neg hne]
              · intro x
                rw [Bag.setSmall_small, if_pos rfl, hpar x, hO' x, List.map_cons, List.map_nil,
                  findSome_cons_or, List.findSome?_nil, Option.or_none]
                rcases hcase with ⟨h, _⟩ | ⟨hp, _, _⟩
                · rw [if_pos h, Option.or_none, ← hT x, ← h]
                  exact Option.or_none
                · subst hp
                  have := Merged.overwrite_or (lookupSmall x attr b.layers)
                    ((s1.get x).or (if [] = t then none else lookupSmall x attr b.layers))
                  rw [Option.or_assoc] at this
                  have h5 : (if [] = t then none else lookupSmall x attr b.layers).or
                      (lookupSmall x attr b.layers) = lookupSmall x attr b.layers := by
                    split
                    · rfl
                    · cases lookupSmall x attr b.layers <;> rfl
                  rw [h5] at this
                  exact this)
    (newLayers b.nonPristine other.layers) [] (by rw [List.nil_append]; exact hsplit)
    (fun l hl => ho l (by rw [hsplit]; exact List.mem_append_left _ hl)) b []
    ⟨SmallFrame.refl hb, (by intro x attr h; cases h), fun _ _ _ => rfl⟩
    (fun a => by simp)
  unfold mergeSmall
  revert hloop
  cases forSmallAttrs Bag.layers _ other.layers (newLayers b.nonPristine other.layers) [] b with
  | error e => exact id
  | ok b' =>
    rintro ⟨done, ⟨hf, hd, hn⟩, hl⟩
    refine ⟨hf, ?_⟩
    intro x attr
    by_cases hmem : attr ∈ done
    · exact hd x attr hmem
    · rw [hn x attr hmem, ← hl x attr hmem]
      rcases hrest with hrest | hrest
      · rw [hrest]
        cases lookupSmall x attr b.layers <;> rfl
      · rw [(hrest x attr).2]
        exact Merged.refl p _

/-! ### Whole bags -/

theorem subset_lookup {b other : Bag}
    (hsh : ∀ l ls l' ls', l :: ls <:+ b.layers → l' :: ls' <:+ other.layers → l.id = l'.id →
      l :: ls = l' :: ls')
    (h : other.isSubsetOf b = true) (x : Obj) (attr : Attr) :
    other.lookup x attr = b.lookup x attr := by
  have hlook : ∀ (c : Bag), c.lookup x attr =
      if x.alloc.isSmall then lookupSmall x attr c.layers else lookupBig x attr c.layers :=
    fun _ => rfl
  have hskip : ∀ c : Bag, c.top.isPristine = true → c.lookup x attr =
      if x.alloc.isSmall then lookupSmall x attr c.parents else lookupBig x attr c.parents := by
    intro c hc
    rw [hlook]
    unfold Bag.layers
    rw [(pristine_skip hc c.parents x attr).1, (pristine_skip hc c.parents x attr).2]
  have hsuf : ∀ c : Bag, c.parents <:+ c.layers := fun c => List.suffix_cons _ _
  unfold Bag.isSubsetOf Bag.isUnmodifiedForkOf at h
  by_cases h1 : other.top.id = b.top.id
  · have := hsh b.top b.parents other.top other.parents (List.suffix_refl _) (List.suffix_refl _)
      h1.symm
    have heq : b.layers = other.layers := this
    rw [hlook, hlook, heq]
  · rw [if_neg h1] at h
    by_cases h2 : other.top.isPristine = true
    · rw [h2] at h
      simp only [Bool.not_true, Bool.false_eq_true, if_false, Bool.or_eq_true,
        Bool.and_eq_true, beq_iff_eq] at h
      rcases h with h | ⟨h, h3⟩
      · cases hp : other.parents with
        | nil => rw [hp] at h; cases h
        | cons l' ls' =>
          rw [hp] at h
          have hid := Option.some.inj h
          have := hsh b.top b.parents l' ls' (List.suffix_refl _) (hp ▸ hsuf other) hid.symm
          have heq : b.layers = other.parents := by rw [hp]; exact this
          rw [hskip other h2, hlook b, heq]
      · rw [hskip other h2, hskip b h3]
        cases hp : other.parents with
        | nil =>
          cases hbp : b.parents with
          | nil => rfl
          | cons _ _ => rw [hp, hbp] at h; cases h
        | cons l' ls' =>
          cases hbp : b.parents with
          | nil => rw [hp, hbp] at h; cases h
          | cons l ls =>
            rw [hp, hbp] at h
            have hid := Option.some.inj h
            rw [hsh l ls l' ls' (hbp ▸ hsuf b) (hp ▸ hsuf other) hid]
    · rw [Bool.not_eq_true] at h2
      rw [h2] at h
      simp only [Bool.not_false, if_true, Bool.and_eq_true, beq_iff_eq] at h
      obtain ⟨h, h3⟩ := h
      cases hbp : b.parents with
      | nil => rw [hbp] at h; cases h
      | cons l ls =>
        rw [hbp] at h
        have hid := Option.some.inj h
        have := hsh l ls other.top other.parents (hbp ▸ hsuf b) (List.suffix_refl _) hid
        have heq : b.parents = other.layers := by rw [hbp]; exact this
        rw [hskip b h3, hlook other, heq]

theorem Related.apart {b other : Bag} (h : Related b other) (hs : ¬ other.isSubsetOf b = true) :
    Apart b other := by
  refine ⟨?_, ?_⟩
  · intro l hl hid
    apply hs
    unfold Bag.isSubsetOf
    rcases h.own l hl hid with h1 | ⟨h1, h2⟩
    · rw [if_pos]
      have : other.top :: other.parents = b.top :: b.parents := h1
      rw [(List.cons.inj this).1]
    · by_cases h3 : other.top.id = b.top.id
      · rw [if_pos h3]
      · rw [if_neg h3, h2, h1]
        simp [Bag.layers]
  · intro l ls l' ls' h1 h2 h3
    exact h.shared l ls l' ls' (h1.trans (List.suffix_cons _ _)) h2 h3

theorem mergeInplace_ok {b other : Bag} (hb : b.WF) (hf : b.frozen = false) (ho : other.WF)
    (hrel : Related b other) {same : SameSources} (hsame : ∀ x y, same x y = true → x = y)
    (p : Policy) :
    match mergeInplace same b other p with
    | .ok b' => (b'.WF ∧ b'.frozen = false ∧ b'.parents = b.parents ∧ b'.top.id = b.top.id) ∧
        ∀ x attr, x.Valid → MergedAt p b other b' x attr
    | .error e => MergeError p b other e := by
  unfold mergeInplace
  rw [hf, if_neg (by simp)]
  by_cases hs : other.isSubsetOf b = true
  · rw [if_pos hs]
    refine ⟨⟨hb, hf, rfl, rfl⟩, ?_⟩
    intro x attr _
    left
    rw [subset_lookup hrel.shared hs x attr]
    exact Merged.refl p _
  · rw [if_neg hs]
    have hap := hrel.apart hs
    have h1 := mergeBig_ok hb ho hap hsame p
    cases hr1 : mergeBig same b other p with
    | error e => rw [hr1] at h1; exact h1
    | ok b1 =>
      rw [hr1] at h1
      obtain ⟨hf1, hm1⟩ := h1
      have h2 := mergeSmall_ok hf1.wf ho (hap.of_frame hf1.id hf1.parents) p
      have hsm : ∀ x attr, lookupSmall x attr b1.layers = lookupSmall x attr b.layers := by
        intro x attr
        unfold Bag.layers
        rw [lookupSmall_cons, lookupSmall_cons, hf1.small, hf1.parents]
      simp only [bind, Except.bind]
      cases hr2 : mergeSmall b1 other p with
      | error e =>
        rw [hr2] at h2
        obtain ⟨e1, e2, x, attr, e3, e4, e5⟩ := h2
        left
        refine ⟨e1, e2, x, attr, e3, ?_⟩
        rw [Bag.lookup_small e4, Bag.lookup_small e4, ← hsm]
        exact e5
      | ok b2 =>
        rw [hr2] at h2
        obtain ⟨hf2, hm2⟩ := h2
        refine ⟨⟨hf2.wf, by rw [hf2.frozen, hf1.frozen, hf], by rw [hf2.parents, hf1.parents],
          by rw [hf2.id, hf1.id]⟩, ?_⟩
        intro x attr hx
        cases hxs : x.alloc.isSmall with
        | true =>
          left
          rw [Bag.lookup_small hxs, Bag.lookup_small hxs, Bag.lookup_small hxs, ← hsm]
          exact hm2 x attr
        | false =>
          have hbig : b2.lookup x attr = b1.lookup x attr := by
            rw [Bag.lookup_big hxs, Bag.lookup_big hxs]
            unfold Bag.layers
            rw [lookupBig_cons, lookupBig_cons, hf2.big, hf2.parents]
          have := hm1 x attr hx hxs
          unfold MergedAt at this ⊢
          rw [hbig]
          exact this

end Verif.BagAttr
