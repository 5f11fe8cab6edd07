import Verif.BagAttr.Merge
import Verif.BagAttr.Batch
/-
Creating an update that has the effect of a merge.
-/

namespace Verif.BagAttr

theorem Merged.overwrite_eq {t o r : Cell} (h : Merged .overwrite t o r) : r = o.or t := by
  cases t with
  | none =>
    have h : r = o := h
    rw [h, Option.or_none]
  | some t => cases o <;> exact h

theorem updateBig_ok {b other u0 : Bag} (hb : b.WF) (htop : b.top.big = []) (ho : other.WF)
    (hap : Apart b other) {same : SameSources} (hsame : ∀ x y, same x y = true → x = y)
    (hu0 : u0.WF) (hempty : u0.top.big = []) (hpar : u0.parents = []) :
    match updateBig same b other u0 with
    | .ok u => BigFrame u0 u ∧ ∀ x attr, x.Valid → x.alloc.isSmall = false → UpdatedAt b other u x attr
    | .error e => e = .outOfBounds ∧ HasOversized other := by
  obtain ⟨rest, hsplit, hrest⟩ := newLayers_split hap
  have hnone : ∀ (x : Obj) (attr : Attr), lookupBig x attr u0.layers = none := by
    intro x attr
    unfold Bag.layers
    rw [lookupBig_cons, hempty, hpar]
    rfl
  have hloop := forBigKeys_ok (fun (u : Bag) ls k =>
      if same (dataSources k.1 k.2 b.layers).2 (dataSources k.1 k.2 ls).2 then .ok u
      else do
        let c ← mergeBigKey other.frozen b.layers b.parents ls k.1 k.2 .overwrite
          { sparse := none, mutDense := none, constDense := none, lookupParent := true }
        pure (u.setColl k.1 k.2 c))
    (fun u done => BigFrame u0 u ∧
      (∀ x attr, x.Valid → x.alloc.isSmall = false → (x.alloc, attr) ∈ done →
        UpdatedAt b other u x attr) ∧
      ∀ (x : Obj) (attr : Attr), (x.alloc, attr) ∉ done → lookupBig x attr u.layers = none)
    (fun e => e = .outOfBounds ∧ HasOversized other) other.layers (by
      rintro u done l ls ⟨a, attr⟩ c ⟨hf, hd, hn⟩ hk hsuf hget hlook
      have hlswf : ∀ l' ∈ l :: ls, l'.WF := fun l' h => ho l' (hsuf.subset h)
      have hkey := (hlswf l List.mem_cons_self).big a attr c hget
      have hO : ∀ x : Obj, x.alloc = a → lookupBig x attr (l :: ls) = lookupBig x attr other.layers :=
        fun x hx => hlook x attr (by rw [hx])
      have hU : ∀ x : Obj, x.alloc = a → lookupBig x attr u.layers = none :=
        fun x hx => hn x attr (by rw [hx]; exact hk)
      have hlk : ∀ (bg : Bag) (x : Obj), x.alloc = a → bg.lookup x attr = lookupBig x attr bg.layers :=
        fun bg x hx => Bag.lookup_big (by rw [hx]; exact hkey.2.1) attr
      simp only
      by_cases hs : same (dataSources a attr b.layers).2 (dataSources a attr (l :: ls)).2 = true
      · rw [if_pos hs]
        refine ⟨hf, ?_, ?_⟩
        · intro x attr' hx hxs hmem
          rcases List.mem_cons.1 hmem with he | he
          · have he1 : x.alloc = a := congrArg Prod.fst he
            have he2 : attr' = attr := congrArg Prod.snd he
            subst he2
            have heq := hsame _ _ hs
            rw [dataSources_big hkey.2.1, dataSources_big hkey.2.1] at heq
            have h1 := bigSources_cell x attr' b.layers a.capacity hb
            have h2 := bigSources_cell x attr' (l :: ls) a.capacity hlswf
            rw [he1] at h1 h2
            rw [heq, h2, hO x he1] at h1
            left
            rw [hlk _ x he1, hlk _ x he1, hlk _ x he1, hU x he1, h1]
            cases lookupBig x attr' b.layers <;> rfl
          · exact hd x attr' hx hxs he
        · intro x attr' hmem
          exact hn x attr' (fun h => hmem (List.mem_cons_of_mem _ h))
      · rw [if_neg hs]
        have hm := mergeBigKey_ok (this := b.layers) (thisParents := b.parents) hkey.2.1 hkey.1 hb
          hb.parents hlswf hget other.frozen .overwrite
          (c := { sparse := none, mutDense := none, constDense := none, lookupParent := true })
          ⟨(by intro s hs; cases hs), (by intro d hd; cases hd), (by intro d hd; cases hd)⟩ (by
            intro o hoa
            unfold Bag.layers
            rw [lookupBig_cons, htop]
            simp only [PyDict.get?, Coll.cell]
            simp) (fun _ => ⟨rfl, rfl⟩)
        cases hr : mergeBigKey other.frozen b.layers b.parents (l :: ls) a attr .overwrite
            { sparse := none, mutDense := none, constDense := none, lookupParent := true } with
        | error e =>
          rw [hr] at hm
          simp only [bind, Except.bind]
          rcases hm with ⟨_, e2, _⟩ | ⟨e1, l', h1, c', d, h2, h3, h4⟩
          · cases e2
          · exact ⟨e1, l', hsuf.subset h1, a, attr, c', d, h2, h3, h4⟩
        | ok c' =>
          rw [hr] at hm
          simp only [bind, Except.bind, pure, Except.pure]
          obtain ⟨hcw, hcl, hcm⟩ := hm
          refine ⟨⟨Bag.setColl_wf hf.wf hkey.1 hkey.2.1 attr hcw (by rw [hcl]; intro h; cases h),
            hf.frozen, hf.parents, hf.id, hf.small⟩, ?_, ?_⟩
          · intro x attr' hx hxs hmem
            by_cases he : x.alloc = a ∧ attr' = attr
            · obtain ⟨he1, he2⟩ := he
              subst he2
              have hxn : x.off < a.n := by rw [← he1]; exact hx.off
              have hres : (u.setColl a attr' c').lookup x attr' =
                  c'.cell x (lookupBig x attr' u.parents) := by
                rw [Bag.setColl_lookup u a hkey.2.1, if_pos ⟨he1, rfl⟩]
              unfold UpdatedAt
              rw [hres, hlk _ x he1, hlk _ x he1, ← hO x he1]
              rcases hcm with hcm | ⟨⟨ha1, l', ha2, ha3⟩, h1, h2⟩
              · left
                have := hcm x he1 hxn (lookupBig x attr' u.parents)
                rw [this.overwrite_eq]
                simp only
                cases lookupBig x attr' (l :: ls) <;> cases lookupBig x attr' b.layers <;> rfl
              · refine .inr ⟨hxs, ?_, by rw [he1]; exact ha1,
                  by rw [he1]; exact ⟨l', hsuf.subset ha2, ha3⟩, ?_⟩
                · rw [h2 x he1 hxn]
                  simp only
                  cases lookupBig x attr' b.layers <;> rfl
                · intro y hy hyn
                  have hya : y.alloc = a := by rw [hy, he1]
                  rw [hlk _ y hya, ← hO y hya]
                  exact h1 y hya (by rw [← hya]; exact hyn)
            · have hmem' : (x.alloc, attr') ∈ done := by
                rcases List.mem_cons.1 hmem with h | h
                · exact absurd ⟨congrArg Prod.fst h, congrArg Prod.snd h⟩ he
                · exact h
              have := hd x attr' hx hxs hmem'
              unfold UpdatedAt
              rw [Bag.setColl_lookup u a hkey.2.1, if_neg he]
              exact this
          · intro x attr' hmem
            rw [List.mem_cons, not_or] at hmem
            rw [Bag.setColl_big, if_neg]
            · exact hn x attr' hmem.2
            · rintro ⟨h1, h2⟩
              exact hmem.1 (by rw [h1, h2]))
    (newLayers b.nonPristine other.layers).length other.layers ho (List.suffix_refl _) [] u0 []
    ⟨⟨hu0, rfl, rfl, rfl, rfl⟩, (by intro x attr _ _ h; cases h), fun x attr _ => hnone x attr⟩
    (fun _ => Iff.rfl) (fun _ _ _ => rfl)
  unfold updateBig
  revert hloop
  cases forBigKeys _ _ other.layers [] u0 with
  | error e => exact id
  | ok u =>
    rintro ⟨done, ⟨hf, hd, hn⟩, hl⟩
    refine ⟨hf, ?_⟩
    intro x attr hx hxs
    by_cases hmem : (x.alloc, attr) ∈ done
    · exact hd x attr hx hxs hmem
    · left
      rw [Bag.lookup_big hxs, Bag.lookup_big hxs, Bag.lookup_big hxs, hn x attr hmem,
        ← hl x attr hmem]
      have hdrop : other.layers.drop (newLayers b.nonPristine other.layers).length = rest := by
        have := congrArg (List.drop (newLayers b.nonPristine other.layers).length) hsplit
        rw [List.drop_left] at this
        exact this
      rw [hdrop]
      rcases hrest with hrest | hrest
      · rw [hrest]
        rfl
      · rw [(hrest x attr).1]
        cases lookupBig x attr b.layers <;> rfl

/-! ### Small allocations -/

theorem foldSmall_ok (attr : Attr) (es : PyDict Obj Item) (hnd : es.keys.Nodup)
    (hk : ∀ e ∈ es, e.1.Valid ∧ e.1.alloc.isSmall = true) {u : Bag} (hu : u.WF) :
    SmallFrame u (es.foldl (fun u e => u.setSmall attr ((u.smallSource attr).set e.1 e.2)) u) ∧
    (∀ attr', attr' ≠ attr →
      (es.foldl (fun u e => u.setSmall attr ((u.smallSource attr).set e.1 e.2)) u).top.small.get? attr'
        = u.top.small.get? attr') ∧
    ∀ x, lookupSmall x attr
      (es.foldl (fun u e => u.setSmall attr ((u.smallSource attr).set e.1 e.2)) u).layers =
        (es.get? x).or (lookupSmall x attr u.layers) := by
  induction es generalizing u with
  | nil => exact ⟨SmallFrame.refl hu, fun _ _ => rfl, fun _ => rfl⟩
  | cons e es ih =>
    have hnd' : (PyDict.keys es).Nodup ∧ e.1 ∉ PyDict.keys es := by
      unfold PyDict.keys at hnd ⊢
      rw [List.map_cons, List.nodup_cons] at hnd
      exact ⟨hnd.2, hnd.1⟩
    have hke := hk e List.mem_cons_self
    have hsw := Bag.smallSource_wf hu attr
    have hbel : (u.smallSource attr).belongs e.1 = true := by
      rw [hsw.belongs_none]; exact hke.2
    have hwf1 : SmallFrame u (u.setSmall attr ((u.smallSource attr).set e.1 e.2)) :=
      (SmallFrame.refl hu).set attr (hsw.set hke.1 e.2)
    obtain ⟨h1, h2, h3⟩ := ih hnd'.1 (fun e' he => hk e' (List.mem_cons_of_mem _ he)) hwf1.wf
    rw [List.foldl_cons]
    refine ⟨⟨h1.wf, h1.frozen, h1.parents, h1.id, h1.big⟩, ?_, ?_⟩
    · intro attr' hne
      rw [h2 attr' hne]
      exact PyDict.get?_set_ne _ hne _
    · intro x
      rw [h3, setEntry_small hbel]
      show _ = (if e.1 = x then some e.2 else PyDict.get? es x).or _
      by_cases he : e.1 = x
      · subst he
        rw [if_pos rfl, if_pos ⟨rfl, rfl⟩, (PyDict.get?_none_iff _ _).2 hnd'.2]
        rfl
      · have hn' : ¬ (attr = attr ∧ x = e.1) := fun h => he h.2.symm
        rw [if_neg hn', if_neg he]

theorem updateSmall_ok {b other u0 : Bag} (ho : other.WF) (hap : Apart b other)
    (hu0 : u0.WF) (hempty : u0.top.small = []) (hpar : u0.parents = []) :
    ∃ u, updateSmall b other u0 = .ok u ∧ SmallFrame u0 u ∧ ∀ x attr,
      (lookupSmall x attr u.layers).or (lookupSmall x attr b.layers) =
        (lookupSmall x attr other.layers).or (lookupSmall x attr b.layers) := by
  obtain ⟨rest, hsplit, hrest⟩ := newLayers_split hap
  have hloop := forSmallAttrs_ok (fun _ => b.layers) (fun (u : Bag) attr t o =>
      let r := stripSuffix t o
      match onlySource r.1 r.2 with
      | some s => .ok (u.emplaceSmall attr s)
      | none => .ok ((sparseEntries (r.2.map (·.2))).foldl (fun u e =>
          u.setSmall attr ((u.smallSource attr).set e.1 e.2)) u))
    other.layers
    (fun u done => SmallFrame u0 u ∧
      (∀ x attr, attr ∈ done →
        (lookupSmall x attr u.layers).or (lookupSmall x attr b.layers) =
          (lookupSmall x attr other.layers).or (lookupSmall x attr b.layers)) ∧
      ∀ (attr : Attr), attr ∉ done → u.top.small.get? attr = none)
    (fun _ => False)
    rest (by
      rintro u done attr ⟨hf, hd, hn⟩ hk
      have hsamep := fun e he e' he' h => pointers_same hap (attr := attr) (e := e) (e' := e') he he' h
      have hupar : u.parents = [] := by rw [hf.parents, hpar]
      have hlookU : ∀ x attr', u.top.small.get? attr' = none → lookupSmall x attr' u.layers = none := by
        intro x attr' h
        unfold Bag.layers
        rw [lookupSmall_cons, h, hupar]
        rfl
      have hT : ∀ x, ((smallPointers attr b.layers).map (·.2)).findSome? (·.get x) =
          lookupSmall x attr b.layers := by
        intro x
        rw [smallPointers_snd, smallSources_cell]
      have hO : ∀ x, ((smallPointers attr other.layers).map (·.2)).findSome? (·.get x) =
          lookupSmall x attr other.layers := by
        intro x
        rw [smallPointers_snd, smallSources_cell]
      have howf : ∀ e ∈ smallPointers attr other.layers, e.2.WF none := by
        intro e he
        obtain ⟨l, hl, _, hg⟩ := smallPointers_mem he
        exact (ho l hl).small attr _ hg
      have hfin : ∀ u', SmallFrame u0 u' →
          (∀ attr', attr' ≠ attr → u'.top.small.get? attr' = u.top.small.get? attr') →
          (∀ x, (lookupSmall x attr u'.layers).or (lookupSmall x attr b.layers) =
            (lookupSmall x attr other.layers).or (lookupSmall x attr b.layers)) →
          SmallFrame u0 u' ∧
          (∀ x attr', attr' ∈ attr :: done →
            (lookupSmall x attr' u'.layers).or (lookupSmall x attr' b.layers) =
              (lookupSmall x attr' other.layers).or (lookupSmall x attr' b.layers)) ∧
          ∀ (attr' : Attr), attr' ∉ attr :: done → u'.top.small.get? attr' = none := by
        intro u' h1 h2 h3
        refine ⟨h1, ?_, ?_⟩
        · intro x attr' hmem
          by_cases he : attr' = attr
          · rw [he]; exact h3 x
          · have hsl : lookupSmall x attr' u'.layers = lookupSmall x attr' u.layers := by
              unfold Bag.layers
              rw [lookupSmall_cons, lookupSmall_cons, h2 attr' he, h1.parents, hf.parents]
            rw [hsl]
            rcases List.mem_cons.1 hmem with h | h
            · exact absurd h he
            · exact hd x attr' h
        · intro attr' hmem
          rw [List.mem_cons, not_or] at hmem
          rw [h2 attr' hmem.1, hn attr' hmem.2]
      by_cases hids : (smallPointers attr b.layers).map (·.1) =
          (smallPointers attr other.layers).map (·.1)
      · rw [if_pos hids]
        have heq := eq_of_map_fst hsamep hids
        refine hfin u hf (fun _ _ => rfl) ?_
        intro x
        rw [hlookU x attr (hn attr hk), ← hO x, ← heq, hT x]
        cases lookupSmall x attr b.layers <;> rfl
      · rw [if_neg hids]
        generalize hpt : smallPointers attr b.layers = t at hsamep hT
        generalize hpo : smallPointers attr other.layers = o at hsamep hO howf
        simp only
        have hstrip : ∃ t' o', stripSuffix t o = (t', o') ∧
            ((t' = t ∧ o' = o) ∨ o = o' ++ t) := by
          rcases stripSuffix_ok hsamep with h | ⟨o1, h1, h2⟩
          · exact ⟨t, o, h, .inl ⟨rfl, rfl⟩⟩
          · exact ⟨[], o1, h1, .inr h2⟩
        obtain ⟨t', o', hr, hcase⟩ := hstrip
        rw [hr]
        have ho'wf : ∀ e ∈ o', e.2.WF none := by
          intro e he
          rcases hcase with ⟨_, rfl⟩ | h
          · exact howf e he
          · exact howf e (by rw [h]; exact List.mem_append_left _ he)
        have hO' : ∀ x, ((o'.map (·.2)).findSome? (·.get x)).or (lookupSmall x attr b.layers) =
            (lookupSmall x attr other.layers).or (lookupSmall x attr b.layers) := by
          intro x
          rw [← hO x]
          rcases hcase with ⟨_, rfl⟩ | h
          · rfl
          · rw [h, List.map_append, List.findSome?_append, hT x, Option.or_assoc]
            congr 1
            cases lookupSmall x attr b.layers <;> rfl
        simp only
        cases hone : onlySource t' o' with
        | none =>
          simp only
          have hswf : ∀ s' ∈ o'.map (·.2), s'.WF none := by
            intro s' hs'
            obtain ⟨e, he, rfl⟩ := List.mem_map.1 hs'
            exact ho'wf e he
          have hkey : ∀ e ∈ sparseEntries (o'.map (·.2)), e.1.Valid ∧ e.1.alloc.isSmall = true := by
            intro e he
            obtain ⟨h1, s', h2, h3⟩ := sparseEntries_mem hswf he
            rw [(hswf s' h2).belongs_none] at h3
            exact ⟨h1, h3⟩
          obtain ⟨h1, h2, h3⟩ := foldSmall_ok attr (sparseEntries (o'.map (·.2)))
            (sparseEntries_nodup _ fun s' h => (hswf s' h).nodup) hkey hf.wf
          refine hfin _ ⟨h1.wf, by rw [h1.frozen, hf.frozen], by rw [h1.parents, hf.parents],
              by rw [h1.id, hf.id], by rw [h1.big, hf.big]⟩ h2 ?_
          intro x
          rw [h3 x, hlookU x attr (hn attr hk), Option.or_none, sparseEntries_get, hO' x]
        | some s1 =>
          obtain ⟨ht', i1, ho'⟩ := onlySource_some hone
          subst ht' ho'
          simp only
          rw [emplaceSmall_new (hn attr hk)]
          refine hfin _ (hf.set attr (ho'wf (i1, s1) List.mem_cons_self)) ?_ ?_
          · intro attr' hne
            exact PyDict.get?_set_ne _ hne _
          · intro x
            have := hO' x
            rw [List.map_cons, List.map_nil, findSome_cons_or, List.findSome?_nil,
              Option.or_none] at this
            rw [Bag.setSmall_small, if_pos rfl, hupar, ← this]
            show ((s1.get x).or none).or _ = _
            rw [Option.or_none])
    (newLayers b.nonPristine other.layers) [] (by rw [List.nil_append]; exact hsplit)
    (fun l hl => ho l (by rw [hsplit]; exact List.mem_append_left _ hl)) u0 []
    ⟨SmallFrame.refl hu0, (by intro x attr h; cases h), fun attr _ => by rw [hempty]; rfl⟩
    (fun a => by simp)
  unfold updateSmall
  revert hloop
  cases forSmallAttrs _ _ other.layers (newLayers b.nonPristine other.layers) [] u0 with
  | error e => exact False.elim
  | ok u =>
    rintro ⟨done, ⟨hf, hd, hn⟩, hl⟩
    refine ⟨u, rfl, hf, ?_⟩
    intro x attr
    by_cases hmem : attr ∈ done
    · exact hd x attr hmem
    · have hu : lookupSmall x attr u.layers = none := by
        unfold Bag.layers
        rw [lookupSmall_cons, hn attr hmem, hf.parents, hpar]
        rfl
      rw [hu, ← hl x attr hmem]
      rcases hrest with hrest | hrest
      · rw [hrest]
        rfl
      · rw [(hrest x attr).2]
        cases lookupSmall x attr b.layers <;> rfl

/-! ### Whole bags -/

theorem fork_apart {b other : Bag} {id : Nat}
    (hsh : ∀ l ls l' ls', l :: ls <:+ b.layers → l' :: ls' <:+ other.layers → l.id = l'.id →
      l :: ls = l' :: ls')
    (hid : ∀ l ∈ other.layers, l.id ≠ id) : Apart (b.fork id) other := by
  refine ⟨hid, ?_⟩
  intro l ls l' ls' h1 h2 h3
  refine hsh l ls l' ls' ?_ h2 h3
  unfold Bag.fork at h1
  simp only at h1
  split at h1
  · exact h1.trans (List.suffix_cons _ _)
  · exact h1

theorem createUpdate_ok {b other : Bag} (hb : b.WF) (ho : other.WF)
    (hsh : ∀ l ls l' ls', l :: ls <:+ b.layers → l' :: ls' <:+ other.layers → l.id = l'.id →
      l :: ls = l' :: ls')
    {same : SameSources} (hsame : ∀ x y, same x y = true → x = y) (forkId updateId : Nat)
    (hid : ∀ l ∈ other.layers, l.id ≠ forkId) :
    match createUpdate same b other forkId updateId with
    | .ok u => (u.WF ∧ u.frozen = false ∧ u.parents = [] ∧ u.top.id = updateId) ∧
        ∀ x attr, x.Valid → UpdatedAt b other u x attr
    | .error e => e = .outOfBounds ∧ HasOversized other := by
  unfold createUpdate
  by_cases hs : other.isSubsetOf b = true
  · rw [if_pos hs]
    refine ⟨⟨emptyBag_wf _, rfl, rfl, rfl⟩, ?_⟩
    intro x attr _
    left
    rw [subset_lookup hsh hs x attr, emptyBag_lookup]
    cases b.lookup x attr <;> rfl
  · rw [if_neg hs]
    have hap := fork_apart hsh hid
    have h1 := updateBig_ok (fork_wf hb forkId) rfl ho hap hsame (emptyBag_wf updateId) rfl rfl
    simp only
    cases hr1 : updateBig same (b.fork forkId) other (emptyBag updateId) with
    | error e => rw [hr1] at h1; exact h1
    | ok u1 =>
      rw [hr1] at h1
      obtain ⟨hf1, hm1⟩ := h1
      obtain ⟨u, hr2, hf2, hm2⟩ := updateSmall_ok ho hap hf1.wf (by rw [hf1.small]; rfl)
        (by rw [hf1.parents]; rfl)
      simp only [bind, Except.bind]
      rw [hr2]
      refine ⟨⟨hf2.wf, by rw [hf2.frozen, hf1.frozen]; rfl, by rw [hf2.parents, hf1.parents]; rfl,
          by rw [hf2.id, hf1.id]; rfl⟩, ?_⟩
      intro x attr hx
      cases hxs : x.alloc.isSmall with
      | true =>
        left
        rw [← fork_lookup b forkId]
        rw [Bag.lookup_small hxs, Bag.lookup_small hxs, Bag.lookup_small hxs]
        exact hm2 x attr
      | false =>
        have hbig : u.lookup x attr = u1.lookup x attr := by
          rw [Bag.lookup_big hxs, Bag.lookup_big hxs]
          unfold Bag.layers
          rw [lookupBig_cons, lookupBig_cons, hf2.big, hf2.parents]
        have := hm1 x attr hx hxs
        unfold UpdatedAt at this ⊢
        rw [hbig, ← fork_lookup b forkId]
        refine this.imp id ?_
        rintro ⟨e1, e2, e3, e4⟩
        refine ⟨e1, e2, ?_, e4⟩
        obtain ⟨l', f1, c', d, f2, f3⟩ := e3
        refine ⟨l', ?_, c', d, f2, f3⟩
        rcases List.mem_cons.1 f1 with rfl | f1
        · simp [Bag.fork, PyDict.get?] at f2
        · unfold Bag.fork at f1
          simp only at f1
          split at f1
          · exact List.mem_cons_of_mem _ f1
          · exact f1

end Verif.BagAttr
