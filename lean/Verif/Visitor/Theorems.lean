import Verif.Visitor.Spec

/-!
C94: visiting functors.
-/

namespace Verif.Visitor

set_option linter.unusedSectionVars false

variable {I E R S : Type} [DecidableEq I]

theorem Subs.mono {W : World I E} {done done' : List (I × R)} (h : ∀ x ∈ done, x ∈ done')
    {vs : List (String × I)} {subs : List (String × R)} (hs : Subs W done vs subs) :
    Subs W done' vs subs := by
  induction hs with
  | nil => exact .nil
  | functor h1 h2 _ ih => exact .functor h1 (h _ h2) ih
  | other h1 _ ih => exact .other h1 ih

/-- What holds between two steps. -/
structure Good (W : World I E) (cb : Callback I E R S) (u₀ : S) (st : St I R S) : Prop where
  run : Run W cb u₀ st.visited st.user
  once : (st.visited.map Prod.fst).Nodup
  apart : ∀ x ∈ st.onStack, x ∉ st.visited.map Prod.fst

/-- What visiting `item` does. -/
structure Visited (W : World I E) (cb : Callback I E R S) (u₀ : S) (item : I) (st : St I R S)
    (r : R) (st' : St I R S) : Prop where
  good : Good W cb u₀ st'
  stack : st'.onStack = st.onStack
  mem : (item, r) ∈ st'.visited
  last : item ∉ st.visited.map Prod.fst → st'.visited.getLast? = some (item, r)
  more : ∃ ext, st'.visited = st.visited ++ ext ∧ ∀ x ∈ ext.map Prod.fst, Reach W item x

theorem lookup_mem {l : List (I × R)} {a : I} {r : R} (h : l.lookup a = some r) : (a, r) ∈ l := by
  induction l with
  | nil => simp at h
  | cons p l ih =>
    obtain ⟨b, s⟩ := p
    rw [List.lookup_cons] at h
    by_cases hab : a = b
    · subst hab
      simp only [beq_self_eq_true] at h
      cases h
      exact List.mem_cons_self
    · rw [show (a == b) = false from by simpa using hab] at h
      exact List.mem_cons_of_mem _ (ih h)

theorem lookup_none {l : List (I × R)} {a : I} (h : l.lookup a = none) : a ∉ l.map Prod.fst := by
  induction l with
  | nil => simp
  | cons p l ih =>
    obtain ⟨b, s⟩ := p
    rw [List.lookup_cons] at h
    by_cases hab : a = b
    · subst hab
      simp only [beq_self_eq_true] at h
      cases h
    · rw [show (a == b) = false from by simpa using hab] at h
      rw [List.map_cons, List.mem_cons]
      rintro (h' | h')
      · exact hab h'
      · exact ih h h'

theorem reach_child {W : World I E} {a b x : I} (h : Child W a b) (hr : Reach W b x) :
    Below W a x := by
  rcases hr with rfl | hb
  · exact .child h
  · induction hb with
    | child h' => exact .step (.child h) h'
    | step _ h' ih => exact .step ih h'

theorem below_reach {W : World I E} {a b x : I} (h : Below W a b) (hr : Reach W b x) :
    Below W a x := by
  rcases hr with rfl | hb
  · exact h
  · induction hb with
    | child h' => exact .step h h'
    | step _ h' ih => exact .step ih h'

theorem reach_trans {W : World I E} {a b x : I} (h : Reach W a b) (hr : Reach W b x) :
    Reach W a x := by
  rcases h with rfl | h
  · exact hr
  · exact .inr (below_reach h hr)

theorem visitVars_ok {W : World I E} {cb : Callback I E R S} {u₀ : S}
    {visit : I → St I R S → Except (Err I E) (R × St I R S)}
    (hv : ∀ v st r st', Good W cb u₀ st → visit v st = .ok (r, st') → Visited W cb u₀ v st r st')
    (vs : List (String × I)) : ∀ (subs : List (String × R)) (st : St I R S)
      (subs' : List (String × R)) (st' : St I R S), Good W cb u₀ st →
      visitVars W visit vs subs st = .ok (subs', st') →
      Good W cb u₀ st' ∧ st'.onStack = st.onStack ∧
      (∃ ext, st'.visited = st.visited ++ ext ∧ ∀ x ∈ ext.map Prod.fst,
        ∃ p ∈ vs, W.isFn p.2 = true ∧ Reach W p.2 x) ∧
      ∃ new, subs' = subs ++ new ∧ Subs W st'.visited vs new := by
  induction vs with
  | nil =>
    intro subs st subs' st' hg h
    rw [visitVars] at h
    cases h
    exact ⟨hg, rfl, ⟨[], (List.append_nil _).symm, by simp⟩, [], (List.append_nil _).symm, .nil⟩
  | cons p vs ih =>
    obtain ⟨name, v⟩ := p
    intro subs st subs' st' hg h
    rw [visitVars] at h
    by_cases hf : W.isFn v = true
    · rw [if_pos hf] at h
      cases hr : visit v st with
      | error e => rw [hr] at h; cases h
      | ok q =>
        obtain ⟨r, st1⟩ := q
        rw [hr] at h
        have h1 := hv v st r st1 hg hr
        obtain ⟨hg', hs', ⟨ext, he, hx⟩, new, hn, hsub⟩ := ih _ _ _ _ h1.good h
        obtain ⟨ext1, he1, hx1⟩ := h1.more
        refine ⟨hg', hs'.trans h1.stack, ⟨ext1 ++ ext, ?_, ?_⟩, (name, r) :: new, ?_, ?_⟩
        · rw [he, he1, List.append_assoc]
        · intro x hxm
          rw [List.map_append, List.mem_append] at hxm
          rcases hxm with hxm | hxm
          · exact ⟨(name, v), List.mem_cons_self, hf, hx1 x hxm⟩
          · obtain ⟨p, hp, hpf, hpr⟩ := hx x hxm
            exact ⟨p, List.mem_cons_of_mem _ hp, hpf, hpr⟩
        · rw [hn, List.append_assoc]; rfl
        · refine .functor hf ?_ hsub
          rw [he]
          exact List.mem_append_left _ h1.mem
    · rw [if_neg hf] at h
      obtain ⟨hg', hs', ⟨ext, he, hx⟩, new, hn, hsub⟩ := ih _ _ _ _ hg h
      refine ⟨hg', hs', ⟨ext, he, fun x hxm => ?_⟩, new, hn,
        .other (by simpa using hf) hsub⟩
      obtain ⟨p, hp, hpf, hpr⟩ := hx x hxm
      exact ⟨p, List.mem_cons_of_mem _ hp, hpf, hpr⟩

theorem visitFunctor_ok (W : World I E) (cb : Callback I E R S) (u₀ : S) : ∀ (n : Nat) (item : I)
    (st : St I R S) (r : R) (st' : St I R S), Good W cb u₀ st →
    visitFunctor W cb n item st = .ok (r, st') → Visited W cb u₀ item st r st' := by
  intro n
  induction n with
  | zero => intro item st r st' _ h; rw [visitFunctor] at h; cases h
  | succ n ih =>
    intro item st r st' hg h
    rw [visitFunctor] at h
    by_cases hs : item ∈ st.onStack
    · rw [if_pos hs] at h; cases h
    rw [if_neg hs] at h
    cases hl : st.visited.lookup item with
    | some r' =>
      rw [hl] at h
      cases h
      exact ⟨hg, rfl, lookup_mem hl, fun hni => (hni (List.mem_map.2 ⟨_, lookup_mem hl, rfl⟩)).elim,
        [], (List.append_nil _).symm, by simp⟩
    | none =>
      rw [hl] at h
      have hnv := lookup_none hl
      cases hvs : W.vars item with
      | error e => rw [hvs] at h; cases h
      | ok vs =>
        rw [hvs] at h
        simp only at h
        have hg1 : Good W cb u₀ { st with onStack := item :: st.onStack } := by
          refine ⟨hg.run, hg.once, ?_⟩
          intro x hx
          rcases List.mem_cons.1 hx with rfl | hx
          · exact hnv
          · exact hg.apart x hx
        cases hw : visitVars W (visitFunctor W cb n) vs []
            { st with onStack := item :: st.onStack } with
        | error e => rw [hw] at h; cases h
        | ok q =>
          obtain ⟨subs, st2⟩ := q
          rw [hw] at h
          simp only at h
          obtain ⟨hg2, hst2, ⟨ext, he, hx⟩, new, hn, hsub⟩ :=
            visitVars_ok (fun v st r st' => ih v st r st') vs _ _ _ _ hg1 hw
          rw [List.nil_append] at hn
          subst hn
          simp only at hst2 he
          have herase : st2.onStack.erase item = st.onStack := by
            rw [hst2, List.erase_cons_head]
          unfold finish at h
          simp only at h
          cases hcb : cb item subs st2.user with
          | error e => rw [hcb] at h; cases h
          | ok q =>
            obtain ⟨r', u'⟩ := q
            rw [hcb] at h
            cases h
            have hni : item ∉ st2.visited.map Prod.fst :=
              hg2.apart item (by rw [hst2]; exact List.mem_cons_self)
            refine ⟨⟨.call hg2.run hvs hsub hcb, ?_, ?_⟩, herase, ?_, fun _ => by simp,
              ext ++ [(item, r)], ?_, ?_⟩
            · rw [List.map_append, List.nodup_append]
              refine ⟨hg2.once, by simp, ?_⟩
              intro a ha b hb hab
              simp only [List.map_cons, List.map_nil, List.mem_singleton] at hb
              rw [hab, hb] at ha
              exact hni ha
            · intro x hxm hxv
              simp only [herase] at hxm
              rw [List.map_append, List.mem_append] at hxv
              rcases hxv with hxv | hxv
              · exact hg2.apart x (by rw [hst2]; exact List.mem_cons_of_mem _ hxm) hxv
              · simp only [List.map_cons, List.map_nil, List.mem_singleton] at hxv
                rw [hxv] at hxm
                exact hs hxm
            · exact List.mem_append_right _ List.mem_cons_self
            · simp only [he, List.append_assoc]
            · intro x hxm
              rw [List.map_append, List.mem_append] at hxm
              rcases hxm with hxm | hxm
              · obtain ⟨p, hp, hpf, hpr⟩ := hx x hxm
                exact .inr (reach_child ⟨vs, p.1, hvs, hp, hpf⟩ hpr)
              · simp only [List.map_cons, List.map_nil, List.mem_singleton] at hxm
                exact .inl hxm

theorem subs_mem {W : World I E} {done : List (I × R)} {vs : List (String × I)}
    {subs : List (String × R)} (h : Subs W done vs subs) :
    ∀ p ∈ vs, W.isFn p.2 = true → p.2 ∈ done.map Prod.fst := by
  induction h with
  | nil => intro p hp; cases hp
  | functor h1 h2 _ ih =>
    intro p hp hf
    rcases List.mem_cons.1 hp with rfl | hp
    · exact List.mem_map.2 ⟨_, h2, rfl⟩
    · exact ih p hp hf
  | other h1 _ ih =>
    intro p hp hf
    rcases List.mem_cons.1 hp with rfl | hp
    · rw [h1] at hf; cases hf
    · exact ih p hp hf

/-- Calls come after those for the subfunctors. -/
theorem run_children {W : World I E} {cb : Callback I E R S} {u₀ u : S} {done : List (I × R)}
    (h : Run W cb u₀ done u) : ∀ x ∈ done.map Prod.fst, ∀ y, Child W x y →
      y ∈ done.map Prod.fst := by
  induction h with
  | nil => intro x hx; cases hx
  | @call done u item vs subs r u' _ h2 h3 _ ih =>
    intro x hx y hc
    rw [List.map_append, List.mem_append] at hx ⊢
    rcases hx with hx | hx
    · exact .inl (ih x hx y hc)
    · simp only [List.map_cons, List.map_nil, List.mem_singleton] at hx
      subst hx
      obtain ⟨vs', name, hv, hm, hf⟩ := hc
      rw [h2] at hv
      cases hv
      exact .inl (subs_mem h3 _ hm hf)

theorem run_below {W : World I E} {cb : Callback I E R S} {u₀ u : S} {done : List (I × R)}
    (h : Run W cb u₀ done u) {x y : I} (hx : x ∈ done.map Prod.fst) (hb : Below W x y) :
    y ∈ done.map Prod.fst := by
  induction hb with
  | child hc => exact run_children h _ hx _ hc
  | step _ hc ih => exact run_children h _ ih _ hc

/-- A call that is the last has everything below it before it. -/
theorem run_no_cycle {W : World I E} {cb : Callback I E R S} {u₀ u : S} {done : List (I × R)}
    (h : Run W cb u₀ done u) (hn : (done.map Prod.fst).Nodup) :
    ∀ x ∈ done.map Prod.fst, ¬ Below W x x := by
  induction h with
  | nil => intro x hx; cases hx
  | @call done u item vs subs r u' h1 h2 h3 _ ih =>
    rw [List.map_append, List.nodup_append] at hn
    intro x hx hb
    rw [List.map_append, List.mem_append] at hx
    rcases hx with hx | hx
    · exact ih hn.1 x hx hb
    · simp only [List.map_cons, List.map_nil, List.mem_singleton] at hx
      subst hx
      have key : ∀ y, Below W x y → y ∈ done.map Prod.fst := by
        intro y hy
        induction hy with
        | child hc =>
          obtain ⟨vs', name, hv, hm, hf⟩ := hc
          rw [h2] at hv
          cases hv
          exact subs_mem h3 _ hm hf
        | step _ hc ih' => exact run_children h1 _ ih' _ hc
      exact hn.2.2 x (key x hb) x (by simp) rfl

theorem good_start (W : World I E) (cb : Callback I E R S) (u₀ : S) :
    Good W cb u₀ { onStack := [], visited := [], user := u₀ } :=
  ⟨.nil, List.nodup_nil, fun _ h => by cases h⟩

/-- A visit that succeeds calls the callback exactly once for every functor below the root and for
the root, after those for its subfunctors and with their results; it returns the result of the last
call, the one for the root. No functor is below itself. -/
theorem C94_visits (W : World I E) (cb : Callback I E R S) (fuel : Nat) (u₀ : S) (root : I) (r : R)
    (u : S) (h : visitFunctors W cb fuel u₀ root = .ok (r, u)) :
    W.isFn root = true ∧ ∃ calls : List (I × R), Run W cb u₀ calls u ∧
      (calls.map Prod.fst).Nodup ∧ (∀ x, x ∈ calls.map Prod.fst ↔ Reach W root x) ∧
      calls.getLast? = some (root, r) ∧ ∀ x, Reach W root x → ¬ Below W x x := by
  unfold visitFunctors at h
  by_cases hf : W.isFn root = true
  · rw [if_pos hf] at h
    cases hv : visitFunctor W cb fuel root { onStack := [], visited := [], user := u₀ } with
    | error e => rw [hv] at h; cases h
    | ok q =>
      obtain ⟨r', st⟩ := q
      rw [hv] at h
      cases h
      have hV := visitFunctor_ok W cb u₀ _ _ _ _ _ (good_start W cb u₀) hv
      obtain ⟨ext, he, hx⟩ := hV.more
      rw [List.nil_append] at he
      have hall : ∀ x, x ∈ st.visited.map Prod.fst ↔ Reach W root x := by
        intro x
        constructor
        · rw [he]; exact hx x
        · rintro (rfl | hb)
          · exact List.mem_map.2 ⟨_, hV.mem, rfl⟩
          · exact run_below hV.good.run (List.mem_map.2 ⟨_, hV.mem, rfl⟩) hb
      refine ⟨hf, st.visited, hV.good.run, hV.good.once, hall, hV.last (by simp), ?_⟩
      intro x hr
      exact run_no_cycle hV.good.run hV.good.once x ((hall x).2 hr)
  · rw [if_neg hf] at h; cases h

theorem visitVars_error {W : World I E} {cb : Callback I E R S} {u₀ : S} {P : Err I E → Prop}
    {stack : List I} {root : I}
    {visit : I → St I R S → Except (Err I E) (R × St I R S)}
    (hv : ∀ v st r st', Good W cb u₀ st → visit v st = .ok (r, st') → Visited W cb u₀ v st r st')
    (vs : List (String × I)) (hr : ∀ p ∈ vs, W.isFn p.2 = true → Reach W root p.2)
    (he : ∀ p ∈ vs, W.isFn p.2 = true → ∀ st e, Good W cb u₀ st → st.onStack = stack →
      (∀ x ∈ st.visited.map Prod.fst, Reach W root x) → visit p.2 st = .error e → P e) :
    ∀ (subs : List (String × R)) (st : St I R S) (e : Err I E),
      Good W cb u₀ st → st.onStack = stack → (∀ x ∈ st.visited.map Prod.fst, Reach W root x) →
      visitVars W visit vs subs st = .error e → P e := by
  induction vs with
  | nil => intro subs st e _ _ _ h; rw [visitVars] at h; cases h
  | cons p vs ih =>
    obtain ⟨name, v⟩ := p
    intro subs st e hg hst hre h
    have ih' := ih (fun p hp => hr p (List.mem_cons_of_mem _ hp)) (fun p hp => he p (List.mem_cons_of_mem _ hp))
    rw [visitVars] at h
    by_cases hf : W.isFn v = true
    · rw [if_pos hf] at h
      cases hq : visit v st with
      | error e' =>
        rw [hq] at h
        cases h
        exact he (name, v) List.mem_cons_self hf st e hg hst hre hq
      | ok q =>
        obtain ⟨r, st1⟩ := q
        rw [hq] at h
        have h1 := hv v st r st1 hg hq
        obtain ⟨ext, hext, hx⟩ := h1.more
        refine ih' _ _ _ h1.good (h1.stack.trans hst) ?_ h
        intro x hxm
        rw [hext, List.map_append, List.mem_append] at hxm
        rcases hxm with hxm | hxm
        · exact hre x hxm
        · exact reach_trans (hr (name, v) List.mem_cons_self hf) (hx x hxm)
    · rw [if_neg hf] at h
      exact ih' _ _ _ hg hst hre h

theorem length_le {l : List I} : ∀ {m : List I}, l.Nodup → (∀ x ∈ l, x ∈ m) →
    l.length ≤ m.length := by
  induction l with
  | nil => intro m _ _; exact Nat.zero_le _
  | cons a l ih =>
    intro m hn h
    rw [List.nodup_cons] at hn
    have ha := h a List.mem_cons_self
    have := ih (m := m.erase a) hn.2 (fun x hx =>
      (List.mem_erase_of_ne (fun hxa => hn.1 (by rw [← hxa]; exact hx))).2
        (h x (List.mem_cons_of_mem _ hx)))
    rw [List.length_erase_of_mem ha] at this
    have := List.length_pos_of_mem ha
    rw [List.length_cons]
    omega

theorem visitFunctor_error (W : World I E) (cb : Callback I E R S) (u₀ : S) (root : I)
    (hroot : W.isFn root = true) (all : List I) (hall : ∀ x, Reach W root x → x ∈ all) :
    ∀ (n : Nat) (item : I) (st : St I R S) (e : Err I E), Good W cb u₀ st →
    (∀ x ∈ st.onStack, Below W x item) → (∀ x ∈ st.onStack, Reach W root x) → st.onStack.Nodup →
    (∀ x ∈ st.visited.map Prod.fst, Reach W root x) → Reach W root item → all.length + 1 ≤ n + st.onStack.length →
    visitFunctor W cb n item st = .error e → Fails W cb u₀ root e := by
  intro n
  induction n with
  | zero =>
    intro item st e _ _ h2 h3 _ _ h5 _
    have := length_le h3 (fun x hx => hall x (h2 x hx))
    omega
  | succ n ih =>
    intro item st e hg h1 h2 h3 hre h4 h5 h
    rw [visitFunctor] at h
    by_cases hs : item ∈ st.onStack
    · rw [if_pos hs] at h
      cases h
      exact .recursive hroot h4 (h1 item hs)
    rw [if_neg hs] at h
    cases hl : st.visited.lookup item with
    | some r' => rw [hl] at h; cases h
    | none =>
      rw [hl] at h
      have hnv := lookup_none hl
      cases hvs : W.vars item with
      | error e' =>
        rw [hvs] at h
        cases h
        exact .order hroot h4 hvs
      | ok vs =>
        rw [hvs] at h
        simp only at h
        have hg1 : Good W cb u₀ { st with onStack := item :: st.onStack } := by
          refine ⟨hg.run, hg.once, ?_⟩
          intro x hx
          rcases List.mem_cons.1 hx with rfl | hx
          · exact hnv
          · exact hg.apart x hx
        have hvok := fun v st r st' => visitFunctor_ok W cb u₀ n v st r st'
        cases hw : visitVars W (visitFunctor W cb n) vs []
            { st with onStack := item :: st.onStack } with
        | error e' =>
          rw [hw] at h
          cases h
          refine visitVars_error (P := Fails W cb u₀ root) (stack := item :: st.onStack) (root := root)
            hvok vs ?_ ?_ _ _ _ hg1 rfl hre hw
          · intro p hp hpf
            exact reach_trans h4 (.inr (.child ⟨vs, p.1, hvs, hp, hpf⟩))
          intro p hp hpf st1 e1 hg' hst' hre' herr
          have hc : Child W item p.2 := ⟨vs, p.1, hvs, hp, hpf⟩
          refine ih p.2 st1 e1 hg' ?_ ?_ ?_ hre' ?_ ?_ herr
          · rw [hst']
            intro x hx
            rcases List.mem_cons.1 hx with rfl | hx
            · exact .child hc
            · exact .step (h1 x hx) hc
          · rw [hst']
            intro x hx
            rcases List.mem_cons.1 hx with rfl | hx
            · exact h4
            · exact h2 x hx
          · rw [hst']; exact List.nodup_cons.2 ⟨hs, h3⟩
          · exact reach_trans h4 (.inr (.child hc))
          · rw [hst', List.length_cons]; omega
        | ok q =>
          obtain ⟨subs, st2⟩ := q
          rw [hw] at h
          simp only at h
          obtain ⟨hg2, hst2, ⟨ext, hext, hx⟩, new, hn, hsub⟩ := visitVars_ok hvok vs _ _ _ _ hg1 hw
          rw [List.nil_append] at hn
          subst hn
          simp only at hst2 hext
          have hre2 : ∀ x ∈ st2.visited.map Prod.fst, Reach W root x := by
            intro x hxm
            rw [hext, List.map_append, List.mem_append] at hxm
            rcases hxm with hxm | hxm
            · exact hre x hxm
            · obtain ⟨p, hp, hpf, hpr⟩ := hx x hxm
              exact reach_trans h4 (.inr (reach_child ⟨vs, p.1, hvs, hp, hpf⟩ hpr))
          unfold finish at h
          simp only at h
          cases hcb : cb item subs st2.user with
          | error e' =>
            rw [hcb] at h
            cases h
            exact .callback hroot hg2.run hg2.once hre2 h4
              (hg2.apart item (by rw [hst2]; exact List.mem_cons_self)) hvs hsub hcb
          | ok q =>
            obtain ⟨r', u'⟩ := q
            rw [hcb] at h
            cases h

/-- An error says what is wrong: the root is not a functor, a functor is below itself, or the order of
evaluation or the callback fails for one of the functors, after calls as in a visit that succeeds. The
depth of the recursion is at most the number of functors. -/
theorem C94_fails (W : World I E) (cb : Callback I E R S) (fuel : Nat) (u₀ : S) (root : I)
    (all : List I) (hall : ∀ x, Reach W root x → x ∈ all) (hfuel : all.length < fuel)
    (e : Err I E) (h : visitFunctors W cb fuel u₀ root = .error e) : Fails W cb u₀ root e := by
  unfold visitFunctors at h
  by_cases hf : W.isFn root = true
  · rw [if_pos hf] at h
    cases hv : visitFunctor W cb fuel root { onStack := [], visited := [], user := u₀ } with
    | error e' =>
      rw [hv] at h
      cases h
      refine visitFunctor_error W cb u₀ root hf all hall fuel root _ e (good_start W cb u₀)
        (fun _ h => by cases h) (fun _ h => by cases h) List.nodup_nil
        (fun _ h => by cases h) (.inl rfl) ?_ hv
      simp only [List.length_nil]
      omega
    | ok q => rw [hv] at h; cases h
  · rw [if_neg hf] at h
    cases h
    exact .notFunctor (by simpa using hf)

theorem lookup_of_mem {l : List (I × R)} (hn : (l.map Prod.fst).Nodup) {a : I} {r : R}
    (h : (a, r) ∈ l) : l.lookup a = some r := by
  induction l with
  | nil => cases h
  | cons p l ih =>
    obtain ⟨b, s⟩ := p
    rw [List.map_cons, List.nodup_cons] at hn
    rw [List.lookup_cons]
    rcases List.mem_cons.1 h with h' | h'
    · simp only [Prod.mk.injEq] at h'
      obtain ⟨rfl, rfl⟩ := h'
      simp only [beq_self_eq_true]
    · have hab : (a == b) = false := by
        rw [beq_eq_false_iff_ne]
        rintro rfl
        exact hn.1 (List.mem_map.2 ⟨_, h', rfl⟩)
      rw [hab]
      exact ih hn.2 h'

theorem subs_eq {W : World I E} {done : List (I × R)} (hn : (done.map Prod.fst).Nodup) (d : R)
    {vs : List (String × I)} {subs : List (String × R)} (h : Subs W done vs subs) :
    subs = (vs.filter fun p => W.isFn p.2).map (fun p => (p.1, (done.lookup p.2).getD d)) ∧
    ∀ p ∈ vs, W.isFn p.2 = true → (p.2, (done.lookup p.2).getD d) ∈ done := by
  induction h with
  | nil => exact ⟨rfl, fun p hp => by cases hp⟩
  | @functor name v r vs subs h1 h2 _ ih =>
    have hl := lookup_of_mem hn h2
    refine ⟨?_, ?_⟩
    · rw [List.filter_cons_of_pos (by simpa using h1), List.map_cons, ← ih.1, hl]
      rfl
    · intro p hp hf
      rcases List.mem_cons.1 hp with rfl | hp
      · simp only [hl]; exact h2
      · exact ih.2 p hp hf
  | @other name v vs subs h1 _ ih =>
    refine ⟨?_, ?_⟩
    · rw [List.filter_cons_of_neg (by simp [h1])]
      exact ih.1
    · intro p hp hf
      rcases List.mem_cons.1 hp with rfl | hp
      · rw [h1] at hf; cases hf
      · exact ih.2 p hp hf

/-- For a callback without state the result is the one that is computed without sharing. -/
theorem C94_value (W : World I E) (f : I → List (String × R) → R) (fuel : Nat) (root : I) (r : R)
    (u₀ u : S) (h : visitFunctors W (fun i subs u => .ok (f i subs, u)) fuel u₀ root = .ok (r, u)) :
    Value W f root r := by
  obtain ⟨_, calls, hrun, hn, hall, hlast, _⟩ := C94_visits W _ fuel u₀ root r u h
  have key : ∀ x s, (x, s) ∈ calls → Value W f x s := by
    clear hlast h hall
    induction hrun with
    | nil => intro x s hx; cases hx
    | @call done u item vs subs r' u' h1 h2 h3 h4 ih =>
      rw [List.map_append, List.nodup_append] at hn
      have ih' := ih hn.1
      intro x s hx
      rcases List.mem_append.1 hx with hx | hx
      · exact ih' x s hx
      · simp only [List.mem_singleton, Prod.mk.injEq] at hx
        obtain ⟨rfl, rfl⟩ := hx
        cases h4
        obtain ⟨he, hm⟩ := subs_eq hn.1 (f x subs) h3
        exact .mk (fun v => (done.lookup v).getD (f x subs)) h2 he
          (fun p hp hf => ih' _ _ (hm p hp hf))
  exact key root r (List.mem_of_getLast? hlast)

/-! ### Substitution -/

theorem lookup_setAttr (name n : String) (t : Tree I) (l : List (String × Tree I)) :
    (setAttr n t l).lookup name = if name = n then some t else l.lookup name := by
  induction l with
  | nil =>
    rw [setAttr, List.lookup_cons]
    by_cases h : name = n
    · rw [if_pos h, h, beq_self_eq_true]
    · rw [if_neg h, show (name == n) = false from by simpa using h]
  | cons p l ih =>
    obtain ⟨m, x⟩ := p
    rw [setAttr]
    by_cases hm : m = n
    · rw [if_pos hm, List.lookup_cons, List.lookup_cons, hm]
      by_cases h : name = n
      · rw [if_pos h, h, beq_self_eq_true]
      · rw [if_neg h, show (name == n) = false from by simpa using h]
    · rw [if_neg hm, List.lookup_cons, List.lookup_cons, ih]
      by_cases h : name = m
      · rw [h]
        simp only [beq_self_eq_true, hm, if_false]
      · rw [show (name == m) = false from by simpa using h]

theorem replaceAttrs_ok {W : World I E} {ignore : Bool} {check : I → I → Except E Unit}
    {rep : String → I → Option I} (as : List (String × I)) :
    ∀ (changes out : List (String × Tree I)), (as.map Prod.fst).Nodup →
      replaceAttrs W ignore check rep as changes = .ok out →
      (∀ name old new, (name, old) ∈ as → rep name old = some new →
        out.lookup name = some (.node new []) ∧ checkOne W ignore check old new = .ok ()) ∧
      ∀ name, (∀ old, (name, old) ∈ as → rep name old = none) →
        out.lookup name = changes.lookup name := by
  induction as with
  | nil =>
    intro changes out _ h
    rw [replaceAttrs] at h
    cases h
    exact ⟨fun _ _ _ h => (by cases h), fun _ _ => rfl⟩
  | cons p as ih =>
    obtain ⟨n, v⟩ := p
    intro changes out hn h
    rw [List.map_cons, List.nodup_cons] at hn
    rw [replaceAttrs] at h
    cases hr : rep n v with
    | none =>
      rw [hr] at h
      obtain ⟨h1, h2⟩ := ih _ _ hn.2 h
      refine ⟨?_, fun name hname => h2 name fun old ho => hname old (List.mem_cons_of_mem _ ho)⟩
      intro name old new hm hrep
      rcases List.mem_cons.1 hm with hm | hm
      · cases hm
        rw [hr] at hrep
        cases hrep
      · exact h1 name old new hm hrep
    | some new' =>
      rw [hr] at h
      simp only at h
      cases hc : checkOne W ignore check v new' with
      | error e => rw [hc] at h; cases h
      | ok _ =>
        rw [hc] at h
        obtain ⟨h1, h2⟩ := ih _ _ hn.2 h
        refine ⟨?_, ?_⟩
        · intro name old new hm hrep
          rcases List.mem_cons.1 hm with hm | hm
          · cases hm
            rw [hr] at hrep
            cases hrep
            refine ⟨?_, hc⟩
            rw [h2 n, lookup_setAttr, if_pos rfl]
            intro old' ho
            exact (hn.1 (List.mem_map.2 ⟨_, ho, rfl⟩)).elim
          · exact h1 name old new hm hrep
        · intro name hname
          rw [h2 name fun old ho => hname old (List.mem_cons_of_mem _ ho), lookup_setAttr, if_neg]
          rintro rfl
          rw [hname v List.mem_cons_self] at hr
          cases hr

theorem replaceAttrs_error {W : World I E} {ignore : Bool} {check : I → I → Except E Unit}
    {rep : String → I → Option I} (as : List (String × I)) :
    ∀ (changes : List (String × Tree I)) (e : E),
      replaceAttrs W ignore check rep as changes = .error e →
      ignore = false ∧ ∃ name old new, (name, old) ∈ as ∧ rep name old = some new ∧
        W.isFn old = true ∧ check old new = .error e := by
  induction as with
  | nil => intro changes e h; rw [replaceAttrs] at h; cases h
  | cons p as ih =>
    obtain ⟨n, v⟩ := p
    intro changes e h
    rw [replaceAttrs] at h
    have lift : (ignore = false ∧ ∃ name old new, (name, old) ∈ as ∧ rep name old = some new ∧
        W.isFn old = true ∧ check old new = .error e) → ignore = false ∧ ∃ name old new,
        (name, old) ∈ (n, v) :: as ∧ rep name old = some new ∧
        W.isFn old = true ∧ check old new = .error e := by
      rintro ⟨h1, name, old, new, h2, h3⟩
      exact ⟨h1, name, old, new, List.mem_cons_of_mem _ h2, h3⟩
    cases hr : rep n v with
    | none =>
      rw [hr] at h
      exact lift (ih _ _ h)
    | some new' =>
      rw [hr] at h
      simp only at h
      cases hc : checkOne W ignore check v new' with
      | error e' =>
        rw [hc] at h
        cases h
        unfold checkOne at hc
        by_cases hb : (W.isFn v && !ignore) = true
        · rw [if_pos hb] at hc
          simp only [Bool.and_eq_true, Bool.not_eq_true'] at hb
          exact ⟨hb.2, n, v, new', List.mem_cons_self, hr, hb.1, hc⟩
        · rw [if_neg hb] at hc; cases hc
      | ok _ =>
        rw [hc] at h
        exact lift (ih _ _ h)

theorem lookup_filter_map {W : World I E} (g : I → R) (vs : List (String × I))
    (hn : (vs.map Prod.fst).Nodup) (name : String) :
    (∀ v, (name, v) ∈ vs → W.isFn v = true →
      ((vs.filter fun p => W.isFn p.2).map fun p => (p.1, g p.2)).lookup name = some (g v)) ∧
    ((∀ v, (name, v) ∈ vs → W.isFn v = false) →
      ((vs.filter fun p => W.isFn p.2).map fun p => (p.1, g p.2)).lookup name = none) := by
  induction vs with
  | nil => exact ⟨fun _ h => (by cases h), fun _ => rfl⟩
  | cons p vs ih =>
    obtain ⟨n, w⟩ := p
    rw [List.map_cons, List.nodup_cons] at hn
    obtain ⟨ih1, ih2⟩ := ih hn.2
    by_cases hw : W.isFn w = true
    · rw [List.filter_cons_of_pos (by simpa using hw), List.map_cons, List.lookup_cons]
      by_cases hnn : name = n
      · subst hnn
        simp only [beq_self_eq_true]
        refine ⟨?_, ?_⟩
        · intro v hv _
          rcases List.mem_cons.1 hv with hv | hv
          · cases hv; rfl
          · exact (hn.1 (List.mem_map.2 ⟨_, hv, rfl⟩)).elim
        · intro h
          rw [h w List.mem_cons_self] at hw
          cases hw
      · rw [show (name == n) = false from by simpa using hnn]
        refine ⟨?_, ?_⟩
        · intro v hv hf
          rcases List.mem_cons.1 hv with hv | hv
          · cases hv; exact (hnn rfl).elim
          · exact ih1 v hv hf
        · intro h
          exact ih2 fun v hv => h v (List.mem_cons_of_mem _ hv)
    · rw [List.filter_cons_of_neg (by simpa using hw)]
      refine ⟨?_, ?_⟩
      · intro v hv hf
        rcases List.mem_cons.1 hv with hv | hv
        · cases hv; exact (hw hf).elim
        · exact ih1 v hv hf
      · intro h
        exact ih2 fun v hv => h v (List.mem_cons_of_mem _ hv)

theorem transform_run {W : World I E} (hW : W.WF) {ignore : Bool} {check : I → I → Except E Unit}
    {rep : String → I → Option I} {calls : List (I × Tree I)} {u : Unit}
    (h : Run W (transform W ignore check rep) () calls u) (hn : (calls.map Prod.fst).Nodup) :
    ∀ x t, (x, t) ∈ calls → Substituted W rep x t ∧
      ∀ name old new, (name, old) ∈ W.attrs x → rep name old = some new →
        checkOne W ignore check old new = .ok () := by
  induction h with
  | nil => intro x t hx; cases hx
  | @call done u item vs subs r u' h1 h2 h3 h4 ih =>
    rw [List.map_append, List.nodup_append] at hn
    have ih' := ih hn.1
    intro x t hx
    rcases List.mem_append.1 hx with hx | hx
    · exact ih' x t hx
    · simp only [List.mem_singleton, Prod.mk.injEq] at hx
      obtain ⟨rfl, rfl⟩ := hx
      unfold transform at h4
      cases hr : replaceAttrs W ignore check rep (W.attrs x) subs with
      | error e => rw [hr] at h4; cases h4
      | ok changes =>
        rw [hr] at h4
        cases h4
        obtain ⟨hr1, hr2⟩ := replaceAttrs_ok _ _ _ (hW.attrs x) hr
        obtain ⟨he, hm⟩ := subs_eq hn.1 (.node x []) h3
        have hlk := lookup_filter_map (W := W)
          (fun v => (done.lookup v).getD (.node x [])) vs (hW.vars x vs h2)
        refine ⟨.mk (fun v => (done.lookup v).getD (.node x [])) h2
          (fun name old new ho hre => (hr1 name old new ho hre).1) ?_ ?_ ?_,
          fun name old new ho hre => (hr1 name old new ho hre).2⟩
        · intro name v hv hf hre
          rw [hr2 name, he]
          · exact (hlk name).1 v hv hf
          · intro old ho
            have hv' := hW.sub x vs h2 _ hv
            have : old = v := by
              have h5 := lookup_of_mem (hW.attrs x) ho
              have h6 := lookup_of_mem (hW.attrs x) hv'
              rw [h5] at h6
              exact Option.some.inj h6
            rw [this]
            exact hre
        · intro name h5 h6
          rw [hr2 name h6, he]
          exact (hlk name).2 h5
        · intro name v hv hf
          exact (ih' _ _ (hm (name, v) hv hf)).1

theorem transform_visit {W : World I E} (hW : W.WF) {ignore : Bool} {check : I → I → Except E Unit}
    {rep : String → I → Option I} {fuel : Nat} {root : I} {t : Tree I} {u : Unit}
    (h : visitFunctors W (transform W ignore check rep) fuel () root = .ok (t, u)) :
    Substituted W rep root t ∧ (ignore = false → ∀ e, ¬ Rejected W check rep root e) := by
  obtain ⟨_, calls, hrun, hn, hall, hlast, _⟩ := C94_visits W _ fuel () root t u h
  have hr := transform_run hW hrun hn
  refine ⟨(hr root t (List.mem_of_getLast? hlast)).1, ?_⟩
  rintro hi e ⟨x, name, old, new, hx, hm, hre, hf, hc⟩
  obtain ⟨⟨x', t'⟩, hxt, rfl⟩ := List.mem_map.1 ((hall x).2 hx)
  have := (hr x' t' hxt).2 name old new hm hre
  unfold checkOne at this
  rw [if_pos (by rw [hf, hi]; rfl), hc] at this
  cases this

theorem transform_fails {W : World I E} {ignore : Bool} {check : I → I → Except E Unit}
    {rep : String → I → Option I} {root : I} {e : Err I E}
    (h : Fails W (transform W ignore check rep) () root e) :
    Stuck W root e ∨ ignore = false ∧ ∃ x, e = .raised x ∧ Rejected W check rep root x := by
  cases h with
  | notFunctor h => exact .inl (.notFunctor h)
  | recursive _ h1 h2 => exact .inl (.recursive h1 h2)
  | order _ h1 h2 => exact .inl (.order h1 h2)
  | @callback done u item vs subs e' h1 h2 h3 h4 h5 h6 h7 h8 h9 =>
    unfold transform at h9
    cases hr : replaceAttrs W ignore check rep (W.attrs item) subs with
    | ok changes => rw [hr] at h9; cases h9
    | error e'' =>
      rw [hr] at h9
      cases h9
      obtain ⟨hi, name, old, new, ha, hb, hc, hd⟩ := replaceAttrs_error _ _ _ hr
      exact .inr ⟨hi, _, rfl, item, name, old, new, h5, ha, hb, hc, hd⟩

/-- `sub` returns the functor with all replacements in all functors below it. No functor was replaced
by one with an incompatible signature, unless the check was turned off. -/
theorem C94_sub (W : World I E) (hW : W.WF) (ignore : Bool) (check : I → I → Except E Unit)
    (reps : List (I × I)) (fuel : Nat) (root : I) (t : Tree I) (u : Unit)
    (h : sub W ignore check reps fuel root = .ok (t, u)) :
    Substituted W (fun _ v => reps.lookup v) root t ∧
    (ignore = false → ∀ e, ¬ Rejected W check (fun _ v => reps.lookup v) root e) :=
  transform_visit hW h

/-- `sub` fails only if the functors below the root cannot be visited, or if a signature is not
compatible. -/
theorem C94_sub_fails (W : World I E) (ignore : Bool) (check : I → I → Except E Unit)
    (reps : List (I × I)) (fuel : Nat) (root : I) (all : List I)
    (hall : ∀ x, Reach W root x → x ∈ all) (hfuel : all.length < fuel) (e : Err I E)
    (h : sub W ignore check reps fuel root = .error e) :
    Stuck W root e ∨
    ignore = false ∧ ∃ x, e = .raised x ∧ Rejected W check (fun _ v => reps.lookup v) root x :=
  transform_fails (C94_fails W _ fuel () root all hall hfuel e h)

theorem collect_ok {same : I → I → Bool} {clash : String → I → I → E} {names : List String}
    (as : List (String × I)) : ∀ (seen seen' : List (String × I)),
      collectNames same clash names as seen = .ok seen' →
      (∀ n p, seen.lookup n = some p → seen'.lookup n = some p) ∧
      (∀ n v, (n, v) ∈ as → n ∈ names →
        ∃ p, seen'.lookup n = some p ∧ (v = p ∨ same v p = true)) ∧
      ∀ n p, seen'.lookup n = some p → seen.lookup n = some p ∨ (n, p) ∈ as := by
  induction as with
  | nil =>
    intro seen seen' h
    rw [collectNames] at h
    cases h
    exact ⟨fun _ _ h => h, fun _ _ h => (by cases h), fun _ _ h => .inl h⟩
  | cons a as ih =>
    obtain ⟨m, w⟩ := a
    intro seen seen' h
    rw [collectNames] at h
    by_cases hm : m ∈ names
    · rw [if_pos hm] at h
      cases hl : seen.lookup m with
      | some prev =>
        rw [hl] at h
        simp only at h
        by_cases hs : same w prev = true
        · rw [if_pos hs] at h
          obtain ⟨h1, h2, h3⟩ := ih _ _ h
          refine ⟨h1, ?_, fun n p hp => (h3 n p hp).imp id (List.mem_cons_of_mem _)⟩
          intro n v hv hn
          rcases List.mem_cons.1 hv with hv | hv
          · cases hv
            exact ⟨prev, h1 _ _ hl, .inr hs⟩
          · exact h2 n v hv hn
        · rw [if_neg hs] at h; cases h
      | none =>
        rw [hl] at h
        obtain ⟨h1, h2, h3⟩ := ih _ _ h
        have hlk : ∀ n, (seen ++ [(m, w)]).lookup n =
            (seen.lookup n).or (if n = m then some w else none) := by
          intro n
          rw [List.lookup_append, List.lookup_cons, List.lookup_nil]
          by_cases hnm : n = m
          · rw [if_pos hnm, hnm, beq_self_eq_true]
          · rw [if_neg hnm, show (n == m) = false from by simpa using hnm]
        refine ⟨?_, ?_, ?_⟩
        · intro n p hp
          refine h1 n p ?_
          rw [hlk, hp]
          rfl
        · intro n v hv hn
          rcases List.mem_cons.1 hv with hv | hv
          · cases hv
            refine ⟨w, h1 _ _ ?_, .inl rfl⟩
            rw [hlk, hl, if_pos rfl]
            rfl
          · exact h2 n v hv hn
        · intro n p hp
          rcases h3 n p hp with h' | h'
          · rw [hlk] at h'
            cases hsn : seen.lookup n with
            | some q =>
              rw [hsn] at h'
              exact .inl h'
            | none =>
              rw [hsn, Option.none_or] at h'
              by_cases hnm : n = m
              · rw [if_pos hnm] at h'
                cases h'
                rw [hnm]
                exact .inr List.mem_cons_self
              · rw [if_neg hnm] at h'; cases h'
          · exact .inr (List.mem_cons_of_mem _ h')
    · rw [if_neg hm] at h
      obtain ⟨h1, h2, h3⟩ := ih _ _ h
      refine ⟨h1, ?_, fun n p hp => (h3 n p hp).imp id (List.mem_cons_of_mem _)⟩
      intro n v hv hn
      rcases List.mem_cons.1 hv with hv | hv
      · cases hv; exact (hm hn).elim
      · exact h2 n v hv hn

theorem collect_error {same : I → I → Bool} {clash : String → I → I → E} {names : List String}
    (as : List (String × I)) : ∀ (seen : List (String × I)) (e : E),
      collectNames same clash names as seen = .error e →
      ∃ n v prev, (n, v) ∈ as ∧ n ∈ names ∧ same v prev = false ∧ e = clash n prev v ∧
        (seen.lookup n = some prev ∨ (n, prev) ∈ as) := by
  induction as with
  | nil => intro seen e h; rw [collectNames] at h; cases h
  | cons a as ih =>
    obtain ⟨m, w⟩ := a
    intro seen e h
    rw [collectNames] at h
    by_cases hm : m ∈ names
    · rw [if_pos hm] at h
      cases hl : seen.lookup m with
      | some prev =>
        rw [hl] at h
        simp only at h
        by_cases hs : same w prev = true
        · rw [if_pos hs] at h
          obtain ⟨n, v, prev, h1, h2, h3, h4, h5⟩ := ih _ _ h
          exact ⟨n, v, prev, List.mem_cons_of_mem _ h1, h2, h3, h4,
            h5.imp id (List.mem_cons_of_mem _)⟩
        · rw [if_neg hs] at h
          cases h
          exact ⟨m, w, prev, List.mem_cons_self, hm, by simpa using hs, rfl, .inl hl⟩
      | none =>
        rw [hl] at h
        obtain ⟨n, v, prev, h1, h2, h3, h4, h5⟩ := ih _ _ h
        refine ⟨n, v, prev, List.mem_cons_of_mem _ h1, h2, h3, h4, ?_⟩
        rcases h5 with h5 | h5
        · rw [List.lookup_append, List.lookup_cons, List.lookup_nil] at h5
          cases hsn : seen.lookup n with
          | some q => rw [hsn] at h5; exact .inl h5
          | none =>
            rw [hsn, Option.none_or] at h5
            by_cases hnm : n = m
            · rw [hnm, beq_self_eq_true] at h5
              cases h5
              rw [hnm]
              exact .inr List.mem_cons_self
            · rw [show (n == m) = false from by simpa using hnm] at h5; cases h5
        · exact .inr (List.mem_cons_of_mem _ h5)
    · rw [if_neg hm] at h
      obtain ⟨n, v, prev, h1, h2, h3, h4, h5⟩ := ih _ _ h
      exact ⟨n, v, prev, List.mem_cons_of_mem _ h1, h2, h3, h4, h5.imp id (List.mem_cons_of_mem _)⟩

theorem validation_run {W : World I E} {same : I → I → Bool} {clash : String → I → I → E}
    {names : List String} {calls : List (I × Unit)} {seen : List (String × I)}
    (h : Run W (validation W same clash names) [] calls seen) :
    (∀ x ∈ calls.map Prod.fst, ∀ n v, (n, v) ∈ W.attrs x → n ∈ names →
      ∃ p, seen.lookup n = some p ∧ (v = p ∨ same v p = true)) ∧
    ∀ n p, seen.lookup n = some p → ∃ x ∈ calls.map Prod.fst, (n, p) ∈ W.attrs x := by
  induction h with
  | nil => exact ⟨fun _ h => (by cases h), fun _ _ h => (by cases h)⟩
  | @call done u item vs subs r u' h1 h2 h3 h4 ih =>
    obtain ⟨ih1, ih2⟩ := ih
    unfold validation at h4
    cases hc : collectNames same clash names (W.attrs item) u with
    | error e => rw [hc] at h4; cases h4
    | ok seen' =>
      rw [hc] at h4
      cases h4
      obtain ⟨c1, c2, c3⟩ := collect_ok _ _ _ hc
      refine ⟨?_, ?_⟩
      · intro x hx n v hv hn
        rw [List.map_append, List.mem_append] at hx
        rcases hx with hx | hx
        · obtain ⟨p, hp, hs⟩ := ih1 x hx n v hv hn
          exact ⟨p, c1 n p hp, hs⟩
        · simp only [List.map_cons, List.map_nil, List.mem_singleton] at hx
          subst hx
          exact c2 n v hv hn
      · intro n p hp
        rcases c3 n p hp with h' | h'
        · obtain ⟨x, hx, hm⟩ := ih2 n p h'
          exact ⟨x, by rw [List.map_append]; exact List.mem_append_left _ hx, hm⟩
        · exact ⟨item, by rw [List.map_append]; exact List.mem_append_right _ (by simp), h'⟩

/-- `sub_by_name` returns the functor with all replacements in all functors below it. The attributes
it replaces have the same value wherever they have the same name, and no functor was replaced by one
with an incompatible signature, unless the check was turned off. -/
theorem C94_sub_by_name (W : World I E) (hW : W.WF) (ignore : Bool) (check : I → I → Except E Unit)
    (same : I → I → Bool) (clash : String → I → I → E) (reps : List (String × I)) (fuel : Nat)
    (root : I) (t : Tree I) (u : Unit)
    (h : subByName W ignore check same clash reps fuel root = .ok (t, u)) :
    Substituted W (fun name _ => reps.lookup name) root t ∧
    (ignore = false → ∀ e, ¬ Rejected W check (fun name _ => reps.lookup name) root e) ∧
    ((∀ a, same a a = true) → (∀ a b, same a b = true → same b a = true) →
      (∀ a b c, same a b = true → same b c = true → same a c = true) →
      ¬ Clash W same (reps.map Prod.fst) root) := by
  unfold subByName at h
  cases hv : visitFunctors W (validation W same clash (reps.map Prod.fst)) fuel [] root with
  | error e => rw [hv] at h; cases h
  | ok q =>
    obtain ⟨r, seen⟩ := q
    rw [hv] at h
    obtain ⟨h1, h2⟩ := transform_visit hW h
    refine ⟨h1, h2, ?_⟩
    rintro hrefl hsymm htrans ⟨x, y, name, v, w, hx, hy, hn, hvm, hwm, hs⟩
    obtain ⟨_, calls, hrun, _, hall, _⟩ := C94_visits W _ fuel [] root r seen hv
    obtain ⟨hr1, _⟩ := validation_run hrun
    obtain ⟨p, hp, hvp⟩ := hr1 x ((hall x).2 hx) name v hvm hn
    obtain ⟨p', hp', hwp⟩ := hr1 y ((hall y).2 hy) name w hwm hn
    rw [hp] at hp'
    cases hp'
    have hvp' : same v p = true := by
      rcases hvp with rfl | hvp
      · exact hrefl _
      · exact hvp
    have hwp' : same w p = true := by
      rcases hwp with rfl | hwp
      · exact hrefl _
      · exact hwp
    rw [htrans v p w hvp' (hsymm _ _ hwp')] at hs
    cases hs

/-- `sub_by_name` fails only if the functors below the root cannot be visited, if two attributes with
the name of a replacement differ (then before any check of signatures), or if a signature is not
compatible. -/
theorem C94_sub_by_name_fails (W : World I E) (ignore : Bool) (check : I → I → Except E Unit)
    (same : I → I → Bool) (clash : String → I → I → E) (reps : List (String × I)) (fuel : Nat)
    (root : I) (all : List I) (hall : ∀ x, Reach W root x → x ∈ all) (hfuel : all.length < fuel)
    (e : Err I E) (h : subByName W ignore check same clash reps fuel root = .error e) :
    Stuck W root e ∨
    (∃ x y name v w, e = .raised (clash name v w) ∧ Reach W root x ∧ Reach W root y ∧
      name ∈ reps.map Prod.fst ∧ (name, v) ∈ W.attrs x ∧ (name, w) ∈ W.attrs y ∧
      same w v = false) ∨
    ignore = false ∧ ∃ x, e = .raised x ∧
      Rejected W check (fun name _ => reps.lookup name) root x := by
  unfold subByName at h
  cases hv : visitFunctors W (validation W same clash (reps.map Prod.fst)) fuel [] root with
  | ok q =>
    rw [hv] at h
    rcases transform_fails (C94_fails W _ fuel () root all hall hfuel e h) with h' | h'
    · exact .inl h'
    · exact .inr (.inr h')
  | error e' =>
    rw [hv] at h
    cases h
    have hF := C94_fails W _ fuel [] root all hall hfuel e hv
    cases hF with
    | notFunctor h => exact .inl (.notFunctor h)
    | recursive _ h1 h2 => exact .inl (.recursive h1 h2)
    | order _ h1 h2 => exact .inl (.order h1 h2)
    | @callback done u item vs subs e' h1 h2 h3 h4 h5 h6 h7 h8 h9 =>
      unfold validation at h9
      cases hc : collectNames same clash (reps.map Prod.fst) (W.attrs item) u with
      | ok seen => rw [hc] at h9; cases h9
      | error e'' =>
        rw [hc] at h9
        cases h9
        obtain ⟨n, v, prev, c1, c2, c3, c4, c5⟩ := collect_error _ _ _ hc
        obtain ⟨_, hr2⟩ := validation_run h2
        refine .inr (.inl ?_)
        rcases c5 with c5 | c5
        · obtain ⟨y, hy, hym⟩ := hr2 n prev c5
          exact ⟨y, item, n, prev, v, by rw [c4], h4 y hy, h5, c2, hym, c1, c3⟩
        · exact ⟨item, item, n, prev, v, by rw [c4], h5, h5, c2, c5, c1, c3⟩

/-! ### Examples -/

/-- Items are numbers below 10 for functors: 0 calls 1 and 2, and both call 3; 4 calls itself. The
variable `p` of 2 and 3 is the number 10. -/
def demo : World Nat String where
  isFn := fun i => i < 10
  vars := fun
    | 0 => .ok [("f", 1), ("g", 2), ("returns", 20)]
    | 1 => .ok [("h", 3), ("returns", 20)]
    | 2 => .ok [("h", 3), ("p", 10), ("returns", 20)]
    | 3 => .ok [("p", 10), ("returns", 20)]
    | 4 => .ok [("self", 4), ("returns", 20)]
    | _ => .error "no variables"
  attrs := fun
    | 0 => [("f", 1), ("g", 2), ("returns", 20)]
    | 1 => [("h", 3), ("returns", 20)]
    | 2 => [("h", 3), ("p", 10), ("returns", 20)]
    | 3 => [("p", 10), ("returns", 20)]
    | 4 => [("returns", 20), ("self", 4)]
    | _ => []

/-- The functors below 0. -/
example : ∀ x, Reach demo 0 x → x ∈ [0, 1, 2, 3] := by
  have hc : ∀ a b, a ∈ [0, 1, 2, 3] → Child demo a b → b ∈ [0, 1, 2, 3] := by
    rintro a b ha ⟨vs, name, hv, hm, hf⟩
    simp only [List.mem_cons, List.not_mem_nil, or_false] at ha
    rcases ha with rfl | rfl | rfl | rfl <;> cases hv <;>
      simp only [List.mem_cons, List.not_mem_nil, or_false, Prod.mk.injEq] at hm <;>
      first
        | (rcases hm with ⟨_, rfl⟩ | ⟨_, rfl⟩ | ⟨_, rfl⟩ <;> first | decide | (revert hf; decide))
        | (rcases hm with ⟨_, rfl⟩ | ⟨_, rfl⟩ <;> first | decide | (revert hf; decide))
  rintro x (rfl | hb)
  · decide
  · induction hb with
    | child h => exact hc _ _ (by decide) h
    | step _ h ih => exact hc _ _ ih h

example : demo.WF := by
  refine ⟨?_, ?_, ?_⟩
  · intro i
    match i with
    | 0 | 1 | 2 | 3 | 4 => decide
    | i + 5 => exact List.nodup_nil
  · intro i vs h
    match i with
    | 0 | 1 | 2 | 3 | 4 => cases h; decide
    | i + 5 => cases h
  · intro i vs h p hp
    match i with
    | 0 | 1 | 2 | 3 => cases h; exact hp
    | 4 =>
      cases h
      simp only [List.mem_cons, List.not_mem_nil, or_false] at hp
      rcases hp with rfl | rfl <;> decide
    | i + 5 => cases h

/-- A callback that counts: its result is one more than those of the subfunctors, its state the list
of calls. -/
def count : Callback Nat String Nat (List Nat) :=
  fun i subs u => .ok ((subs.map Prod.snd).sum + 1, u ++ [i])

/-- 3 is visited once, though its result counts twice. -/
example : (visitFunctors demo count 5 [] 0).toOption = some (5, [3, 1, 2, 0]) := by decide +kernel

/-- The text of an error. -/
def errorOf {α : Type} : Except (Err Nat String) α → Option String
  | .ok _ => none
  | .error .notFunctor => some "not a functor"
  | .error (.recursive i) => some ("recursive " ++ toString i)
  | .error (.raised m) => some m
  | .error .tooDeep => some "too deep"

example : errorOf (visitFunctors demo count 5 [] 4) = some "recursive 4" := by decide +kernel

example : errorOf (visitFunctors demo count 5 [] 10) = some "not a functor" := by decide +kernel

mutual

/-- A tree as text. -/
def show' : Tree Nat → String
  | .node i changes => toString i ++ "(" ++ showAll changes ++ ")"

def showAll : List (String × Tree Nat) → String
  | [] => ""
  | (n, t) :: rest => n ++ "=" ++ show' t ++ ";" ++ showAll rest

end

/-- Every `p` is replaced. -/
example : (sub demo false (fun _ _ => .error "signature") [(10, 11)] 5 0).toOption.map
    (fun r => show' r.1) =
      some "0(f=1(h=3(p=11();););g=2(h=3(p=11(););p=11(););)" := rfl

/-- The functor 3 is replaced where it is used, if its signature allows it. -/
example : (sub demo false (fun _ _ => .ok ()) [(3, 7)] 5 0).toOption.map (fun r => show' r.1) =
      some "0(f=1(h=7(););g=2(h=7(););)" := rfl

example : errorOf (sub demo false (fun _ _ => .error "signature") [(3, 7)] 5 0) =
    some "signature" := by decide +kernel

example : errorOf (sub demo true (fun _ _ => .error "signature") [(3, 7)] 5 0) = none := by
  decide +kernel

/-- `returns` is the same everywhere here; `f` and `g` could not share a name. -/
example : errorOf (subByName demo false (fun _ _ => .ok ()) (· == ·) (fun n _ _ => n)
    [("p", 11)] 5 0) = none := by decide +kernel

example : errorOf (subByName demo false (fun _ _ => .ok ()) (fun _ _ => false) (fun n _ _ => n)
    [("p", 11)] 5 0) = some "p" := by decide +kernel

end Verif.Visitor
