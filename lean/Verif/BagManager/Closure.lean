import Verif.BagManager.Spec

/-! The closure loops compute reachability; canonical sorting is the order of adding. -/
namespace Verif.BagManager

variable {D N X B : Type} [DecidableEq D] [DecidableEq N]

/-- Reachability in a relation given by lists of successors. -/
inductive RelStar (rel : N → Option (List N)) : N → N → Prop
  | refl (x : N) : RelStar rel x x
  | step {x y z : N} {ys : List N} : rel x = some ys → y ∈ ys → RelStar rel y z → RelStar rel x z

omit [DecidableEq N] in
theorem RelStar.tail {rel : N → Option (List N)} {x y z : N} {ys : List N}
    (h : RelStar rel x y) (hy : rel y = some ys) (hz : z ∈ ys) : RelStar rel x z := by
  induction h with
  | refl x => exact .step hy hz (.refl z)
  | step h1 h2 _ ih => exact .step h1 h2 (ih hy)

omit [DecidableEq N] in
theorem RelStar.closed {rel : N → Option (List N)} {r : List N}
    (hc : ∀ x ∈ r, ∀ ys, rel x = some ys → ∀ y ∈ ys, y ∈ r) {x z : N}
    (h : RelStar rel x z) (hx : x ∈ r) : z ∈ r := by
  induction h with
  | refl x => exact hx
  | step h1 h2 _ ih => exact ih (hc _ hx _ h1 _ h2)

theorem nodup_eraseDups (l : List N) : l.eraseDups.Nodup := by
  generalize hn : l.length = n
  induction n using Nat.strongRecOn generalizing l with
  | ind n ih =>
    cases l with
    | nil => simp
    | cons a as =>
      rw [List.eraseDups_cons, List.nodup_cons]
      constructor
      · rw [List.mem_eraseDups, List.mem_filter]; simp
      · refine ih _ ?_ _ rfl
        have := List.length_filter_le (fun b => !b == a) as
        simp at hn; omega

/-- The loop terminates within the bound and computes reachability from `start`. -/
theorem closureLoop_done (rel : N → Option (List N)) (pick : Nat → Nat) (U start : List N)
    (hU : ∀ x ∈ U, ∃ ys, rel x = some ys ∧ ∀ y ∈ ys, y ∈ U) :
    ∀ (fuel : Nat) (un result : List N),
      un.Nodup → (∀ x ∈ un, x ∈ U) → result.Nodup → (∀ x ∈ result, x ∈ U) →
      (U.length - result.length) * (U.length + 1) + un.length ≤ fuel →
      (∀ x, x ∈ result ∨ x ∈ un → ∃ s ∈ start, RelStar rel s x) →
      (∀ s ∈ start, s ∈ result ∨ s ∈ un) →
      (∀ x ∈ result, ∀ ys, rel x = some ys → ∀ y ∈ ys, y ∈ result ∨ y ∈ un) →
      ∃ r, closureLoop rel pick fuel un result = .done r ∧ r.Nodup ∧
        ∀ x, x ∈ r ↔ ∃ s ∈ start, RelStar rel s x := by
  intro fuel
  induction fuel with
  | zero =>
    intro un result _ _ hr _ hf hreach hstart hcl
    cases un with
    | cons a as => simp at hf
    | nil =>
      refine ⟨result, by simp [closureLoop], hr, fun x => ⟨fun hx => hreach x (Or.inl hx), ?_⟩⟩
      rintro ⟨s, hs, hsx⟩
      refine RelStar.closed (fun x hx ys h y hy => ?_) hsx ?_
      · simpa using hcl x hx ys h y hy
      · simpa using hstart s hs
  | succ n ih =>
    intro un result hun hunU hr hrU hf hreach hstart hcl
    cases un with
    | nil =>
      refine ⟨result, by simp [closureLoop], hr, fun x => ⟨fun hx => hreach x (Or.inl hx), ?_⟩⟩
      rintro ⟨s, hs, hsx⟩
      refine RelStar.closed (fun x hx ys h y hy => ?_) hsx ?_
      · simpa using hcl x hx ys h y hy
      · simpa using hstart s hs
    | cons a as =>
      rw [closureLoop]
      generalize hi : pick n % (a :: as).length = i
      have hlt : i < (a :: as).length := by rw [← hi]; exact Nat.mod_lt _ (by simp)
      generalize hw : (a :: as) = w at *
      have hcur : w.getD i a = w[i] := by simp [List.getD, hlt]
      rw [hcur]
      have hmem : w[i] ∈ w := List.getElem_mem hlt
      have hrest : ∀ x, x ∈ w ↔ x = w[i] ∨ x ∈ w.eraseIdx i := by
        intro x
        rw [List.mem_eraseIdx_iff_getElem?]
        constructor
        · intro hx
          obtain ⟨j, hj, rfl⟩ := List.getElem_of_mem hx
          by_cases e : j = i
          · left; subst e; rfl
          · right; exact ⟨j, e, by simp [hj]⟩
        · rintro (rfl | ⟨j, _, h⟩)
          · exact hmem
          · exact List.mem_of_getElem? h
      have hlen : (w.eraseIdx i).length = w.length - 1 := List.length_eraseIdx_of_lt hlt
      have hnd : (w.eraseIdx i).Nodup := hun.eraseIdx i
      split
      · next hin =>
        refine ih _ _ hnd (fun x hx => hunU x ((hrest x).2 (Or.inr hx))) hr hrU (by omega) ?_ ?_ ?_
        · intro x hx
          refine hreach x ?_
          rcases hx with hx | hx
          · exact Or.inl hx
          · exact Or.inr ((hrest x).2 (Or.inr hx))
        · intro s hs
          rcases hstart s hs with h | h
          · exact Or.inl h
          · rcases (hrest s).1 h with rfl | h
            · exact Or.inl hin
            · exact Or.inr h
        · intro x hx ys h y hy
          rcases hcl x hx ys h y hy with h | h
          · exact Or.inl h
          · rcases (hrest y).1 h with rfl | h
            · exact Or.inl hin
            · exact Or.inr h
      · next hin =>
        obtain ⟨ys, hys, hysU⟩ := hU w[i] (hunU _ hmem)
        rw [hys]
        simp only []
        have hmem' : ∀ x, x ∈ w.eraseIdx i ++ ys.eraseDups.filter (fun y => y ∉ w.eraseIdx i) ↔
            x ∈ w.eraseIdx i ∨ x ∈ ys := by
          intro x
          simp only [List.mem_append, List.mem_filter, List.mem_eraseDups, decide_eq_true_eq]
          by_cases h : x ∈ w.eraseIdx i <;> simp [h]
        have hnd' : (w.eraseIdx i ++ ys.eraseDups.filter (fun y => y ∉ w.eraseIdx i)).Nodup := by
          rw [List.nodup_append]
          refine ⟨hnd, (nodup_eraseDups ys).sublist List.filter_sublist, ?_⟩
          intro x hx y hy e
          subst e
          simp only [List.mem_filter, decide_eq_true_eq] at hy
          exact hy.2 hx
        have hsubU : ∀ x ∈ w.eraseIdx i ++ ys.eraseDups.filter (fun y => y ∉ w.eraseIdx i),
            x ∈ U := by
          intro x hx
          rcases (hmem' x).1 hx with h | h
          · exact hunU x ((hrest x).2 (Or.inr h))
          · exact hysU x h
        have hr' : (result ++ [w[i]]).Nodup := by
          rw [List.nodup_append]
          refine ⟨hr, by simp, ?_⟩
          intro x hx y hy e
          simp at hy; subst e; subst hy; exact hin hx
        have hrU' : ∀ x ∈ result ++ [w[i]], x ∈ U := by
          intro x hx
          rcases List.mem_append.1 hx with h | h
          · exact hrU x h
          · simp at h; subst h; exact hunU _ hmem
        have hle1 := List.Nodup.length_le_of_subset hnd' (fun x hx => hsubU x hx)
        have hle2 := List.Nodup.length_le_of_subset hr' (fun x hx => hrU' x hx)
        refine ih _ _ hnd' hsubU hr' hrU' ?_ ?_ ?_ ?_
        · simp only [List.length_append, List.length_singleton] at hle2 ⊢
          have e : U.length - result.length = (U.length - (result.length + 1)) + 1 := by omega
          rw [e, Nat.add_mul] at hf
          simp only [List.length_append] at hle1
          omega
        · intro x hx
          have hx' : x ∈ result ∨ x ∈ w ∨ x ∈ ys := by
            rcases hx with hx | hx
            · rcases List.mem_append.1 hx with h | h
              · exact Or.inl h
              · simp at h; subst h; exact Or.inr (Or.inl hmem)
            · rcases (hmem' x).1 hx with h | h
              · exact Or.inr (Or.inl ((hrest x).2 (Or.inr h)))
              · exact Or.inr (Or.inr h)
          rcases hx' with h | h | h
          · exact hreach x (Or.inl h)
          · exact hreach x (Or.inr h)
          · obtain ⟨s, hs, hst⟩ := hreach _ (Or.inr hmem)
            exact ⟨s, hs, hst.tail hys h⟩
        · intro s hs
          rcases hstart s hs with h | h
          · exact Or.inl (List.mem_append_left _ h)
          · rcases (hrest s).1 h with rfl | h
            · left; simp
            · exact Or.inr ((hmem' s).2 (Or.inl h))
        · intro x hx zs h y hy
          rcases List.mem_append.1 hx with hx | hx
          · rcases hcl x hx zs h y hy with h | h
            · exact Or.inl (List.mem_append_left _ h)
            · rcases (hrest y).1 h with rfl | h
              · left; simp
              · exact Or.inr ((hmem' y).2 (Or.inl h))
          · simp at hx; subst hx
            rw [hys] at h; injection h with h; subst h
            exact Or.inr ((hmem' y).2 (Or.inr hy))

/-- Metadata and entries describe the same dependency graph. -/
def SameGraph (m : Metadata D N X) (es : List (Entry N X B)) : Prop :=
  m.bags.map (fun b => (b.name, b.deps)) = es.map (fun e => (e.name, e.deps))

omit [DecidableEq D] [DecidableEq N] in
theorem SameGraph.names {m : Metadata D N X} {es : List (Entry N X B)} (h : SameGraph m es) :
    names m = es.map (·.name) := by
  have := congrArg (List.map Prod.fst) h
  simpa [BagManager.names, List.map_map, Function.comp_def] using this

omit [DecidableEq D] [DecidableEq N] in
theorem SameGraph.mem {m : Metadata D N X} {es : List (Entry N X B)} (h : SameGraph m es)
    (x : N) (ds : List N) :
    (∃ b ∈ m.bags, b.name = x ∧ b.deps = ds) ↔ ∃ e ∈ es, e.name = x ∧ e.deps = ds := by
  have : (x, ds) ∈ m.bags.map (fun b => (b.name, b.deps)) ↔
      (x, ds) ∈ es.map (fun e => (e.name, e.deps)) := by rw [h]
  simpa using this

omit [DecidableEq D] [DecidableEq N] in
theorem SameGraph.length {m : Metadata D N X} {es : List (Entry N X B)} (h : SameGraph m es) :
    m.bags.length = es.length := by
  have := congrArg List.length h
  simpa using this

omit [DecidableEq D] in
/-- In metadata with unique names, the dependency relation is functional. -/
theorem depRel_some_iff {m : Metadata D N X} (nd : (BagManager.names m).Nodup) (x : N)
    (ds : List N) : depRel m x = some ds ↔ ∃ b ∈ m.bags, b.name = x ∧ b.deps = ds := by
  unfold depRel
  unfold BagManager.names at nd
  generalize m.bags = bs at nd
  induction bs with
  | nil => simp
  | cons a as ih =>
    simp only [List.map_cons, List.nodup_cons] at nd
    by_cases e : a.name = x
    · simp only [List.find?_cons, e, decide_true, Option.map_some, Option.some.injEq]
      constructor
      · rintro rfl; exact ⟨a, by simp, e, rfl⟩
      · rintro ⟨b, hb, h1, h2⟩
        rcases List.mem_cons.1 hb with rfl | hb
        · exact h2
        · exact absurd (List.mem_map.2 ⟨b, hb, h1.trans e.symm⟩) nd.1
    · simp only [List.find?_cons, e, decide_false]
      rw [ih nd.2]
      constructor
      · rintro ⟨b, hb, h⟩; exact ⟨b, List.mem_cons_of_mem _ hb, h⟩
      · rintro ⟨b, hb, h1, h2⟩
        rcases List.mem_cons.1 hb with rfl | hb
        · exact absurd h1 e
        · exact ⟨b, hb, h1, h2⟩

omit [DecidableEq D] in
theorem relStar_dep_iff {m : Metadata D N X} {es : List (Entry N X B)} (h : SameGraph m es)
    (nd : (BagManager.names m).Nodup) (x y : N) :
    RelStar (depRel m) x y ↔ DependsOn es x y := by
  constructor
  · intro hr
    induction hr with
    | refl x => exact .refl x
    | step h1 h2 _ ih =>
      obtain ⟨e, he, hn, hd⟩ := (h.mem _ _).1 ((depRel_some_iff nd _ _).1 h1)
      subst hn; subst hd
      exact .step he h2 ih
  · intro hr
    induction hr with
    | refl x => exact .refl x
    | step h1 h2 _ ih =>
      exact .step ((depRel_some_iff nd _ _).2 ((h.mem _ _).2 ⟨_, h1, rfl, rfl⟩)) h2 ih

omit [DecidableEq N] in
theorem DependsOn.trans {es : List (Entry N X B)} {x y z : N} (h1 : DependsOn es x y)
    (h2 : DependsOn es y z) : DependsOn es x z := by
  induction h1 with
  | refl => exact h2
  | step h3 h4 _ ih => exact .step h3 h4 (ih h2)

omit [DecidableEq D] in
theorem relStar_rev_iff {m : Metadata D N X} {es : List (Entry N X B)} (h : SameGraph m es)
    (x y : N) : RelStar (revRel m) x y ↔ DependsOn es y x := by
  constructor
  · intro hr
    induction hr with
    | refl x => exact .refl x
    | step h1 h2 _ ih =>
      unfold revRel at h1
      injection h1 with h1
      subst h1
      obtain ⟨b, hb, hn⟩ := List.mem_map.1 h2
      obtain ⟨hb, hx⟩ := List.mem_filter.1 hb
      obtain ⟨e, he, hn', hd⟩ := (h.mem b.name b.deps).1 ⟨b, hb, rfl, rfl⟩
      simp only [decide_eq_true_eq] at hx
      rw [← hn, ← hn'] at ih
      rw [← hn, ← hn'] at *
      exact ih.trans (.step he (by rw [hd]; exact hx) (.refl _))
  · intro hr
    induction hr with
    | refl x => exact .refl x
    | @step e y z h1 h2 _ ih =>
      obtain ⟨b, hb, hn, hd⟩ := (h.mem e.name e.deps).2 ⟨e, h1, rfl, rfl⟩
      refine ih.tail (ys := (m.bags.filter fun b => y ∈ b.deps).map (·.name)) rfl ?_
      exact List.mem_map.2 ⟨b, List.mem_filter.2 ⟨hb, by simp [hd, h2]⟩, hn⟩

omit [DecidableEq N] in
theorem WellFormed.deps_mem {es : List (Entry N X B)} (h : WellFormed es) {e : Entry N X B}
    (he : e ∈ es) {y : N} (hy : y ∈ e.deps) : ∃ f ∈ es, f.name = y := by
  obtain ⟨i, hi, rfl⟩ := List.getElem_of_mem he
  obtain ⟨j, f, _, hf, hn⟩ := h.2 i es[i] (by simp [hi]) y hy
  exact ⟨f, List.mem_of_getElem? hf, hn⟩

omit [DecidableEq D] in
/-- `_get_dependency_closure` on well formed metadata. -/
theorem depClosure_spec {m : Metadata D N X} {es : List (Entry N X B)} (h : SameGraph m es)
    (wf : WellFormed es) (ns : List N) (wd : Bool) (pick : Nat → Nat) :
    (∃ x ∈ ns, ∀ e ∈ es, e.name ≠ x) ∧ depClosure m ns wd pick = .error .valueError ∨
    (∀ x ∈ ns, ∃ e ∈ es, e.name = x) ∧ ∃ r, depClosure m ns wd pick = .ok r ∧ r.Nodup ∧
      ∀ x, x ∈ r ↔ Needed es ns wd x := by
  have nd : (BagManager.names m).Nodup := by rw [h.names]; exact wf.1
  by_cases hall : ∀ x ∈ ns, ∃ e ∈ es, e.name = x
  · right
    refine ⟨hall, ?_⟩
    have hchk : ns.eraseDups.all (· ∈ names m) = true := by
      rw [List.all_eq_true]
      intro x hx
      obtain ⟨e, he, hn⟩ := hall x (List.mem_eraseDups.1 hx)
      simp only [decide_eq_true_eq, h.names]
      exact List.mem_map.2 ⟨e, he, hn⟩
    have hnames : ∀ x, x ∈ names m ↔ ∃ e ∈ es, e.name = x := by
      intro x; rw [h.names]; simp
    have hUdep : ∀ x ∈ names m, ∃ ys, depRel m x = some ys ∧ ∀ y ∈ ys, y ∈ names m := by
      intro x hx
      obtain ⟨e, he, hn⟩ := (hnames x).1 hx
      refine ⟨e.deps, (depRel_some_iff nd _ _).2 ((h.mem _ _).2 ⟨e, he, hn, rfl⟩), ?_⟩
      intro y hy
      exact (hnames y).2 (wf.deps_mem he hy)
    have hUrev : ∀ x ∈ names m, ∃ ys, revRel m x = some ys ∧ ∀ y ∈ ys, y ∈ names m := by
      intro x _
      refine ⟨_, rfl, ?_⟩
      intro y hy
      obtain ⟨b, hb, hn⟩ := List.mem_map.1 hy
      exact List.mem_map.2 ⟨b, (List.mem_filter.1 hb).1, hn⟩
    have hstartU : ∀ x ∈ ns.eraseDups, x ∈ names m := by
      intro x hx
      exact (hnames x).2 (hall x (List.mem_eraseDups.1 hx))
    have hlenN : (names m).length = m.bags.length := by simp [BagManager.names]
    have fuelOk : ∀ st : List N, st.Nodup → (∀ x ∈ st, x ∈ names m) →
        ((names m).length - ([] : List N).length) * ((names m).length + 1) + st.length
          ≤ closureFuel m := by
      intro st hst hsub
      have := List.Nodup.length_le_of_subset hst (fun x hx => hsub x hx)
      unfold closureFuel
      rw [hlenN] at *
      simp only [List.length_nil, Nat.sub_zero, Nat.add_mul, Nat.mul_add]
      omega
    have final : ∀ (c : List N), c.Nodup → (∀ x ∈ c, x ∈ names m) →
        ∃ r, closureLoop (depRel m) pick (closureFuel m) c [] = .done r ∧ r.Nodup ∧
          ∀ x, x ∈ r ↔ ∃ s ∈ c, DependsOn es s x := by
      intro c hc hcU
      obtain ⟨r, h1, h2, h3⟩ := closureLoop_done (depRel m) pick (names m) c hUdep (closureFuel m)
        c [] hc hcU (by simp) (by simp) (fuelOk c hc hcU)
        (fun x hx => ⟨x, by simpa using hx, .refl x⟩) (fun s hs => Or.inr hs) (by simp)
      refine ⟨r, h1, h2, fun x => ?_⟩
      rw [h3]
      constructor
      · rintro ⟨s, hs, hr⟩; exact ⟨s, hs, (relStar_dep_iff h nd _ _).1 hr⟩
      · rintro ⟨s, hs, hr⟩; exact ⟨s, hs, (relStar_dep_iff h nd _ _).2 hr⟩
    unfold depClosure
    simp only [hchk, if_true]
    cases wd with
    | false =>
      obtain ⟨r, h1, h2, h3⟩ := final ns.eraseDups (nodup_eraseDups ns) hstartU
      simp only [Bool.false_eq_true, if_false, h1]
      refine ⟨r, rfl, h2, fun x => ?_⟩
      rw [h3]
      simp only [List.mem_eraseDups, Needed, Bool.false_eq_true, false_and, or_false]
      constructor
      · rintro ⟨s, hs, hd⟩; exact ⟨s, hs, s, rfl, hd⟩
      · rintro ⟨s, hs, t, rfl, hd⟩; exact ⟨t, hs, hd⟩
    | true =>
      obtain ⟨r0, g1, g2, g3⟩ := closureLoop_done (revRel m) pick (names m) ns.eraseDups hUrev
        (closureFuel m) ns.eraseDups [] (nodup_eraseDups ns) hstartU (by simp) (by simp)
        (fuelOk _ (nodup_eraseDups ns) hstartU)
        (fun x hx => ⟨x, by simpa using hx, .refl x⟩) (fun s hs => Or.inr hs) (by simp)
      have g3' : ∀ x, x ∈ r0 ↔ ∃ s ∈ ns, DependsOn es x s := by
        intro x
        rw [g3]
        constructor
        · rintro ⟨s, hs, hr⟩
          exact ⟨s, List.mem_eraseDups.1 hs, (relStar_rev_iff h _ _).1 hr⟩
        · rintro ⟨s, hs, hr⟩
          exact ⟨s, List.mem_eraseDups.2 hs, (relStar_rev_iff h _ _).2 hr⟩
      have hcm : ∀ x, x ∈ ns.eraseDups ++ r0.filter (fun y => y ∉ ns.eraseDups) ↔
          ∃ s ∈ ns, x = s ∨ DependsOn es x s := by
        intro x
        simp only [List.mem_append, List.mem_filter, List.mem_eraseDups, decide_eq_true_eq, g3']
        constructor
        · rintro (hx | ⟨⟨s, hs, hd⟩, _⟩)
          · exact ⟨x, hx, Or.inl rfl⟩
          · exact ⟨s, hs, Or.inr hd⟩
        · rintro ⟨s, hs, rfl | hd⟩
          · exact Or.inl hs
          · by_cases hx : x ∈ ns
            · exact Or.inl hx
            · exact Or.inr ⟨⟨s, hs, hd⟩, hx⟩
      have hcU : ∀ x ∈ ns.eraseDups ++ r0.filter (fun y => y ∉ ns.eraseDups), x ∈ names m := by
        intro x hx
        rcases List.mem_append.1 hx with hx | hx
        · exact hstartU x hx
        · obtain ⟨s, hs, hr⟩ := (g3 x).1 (List.mem_filter.1 hx).1
          refine RelStar.closed (r := names m) (fun a ha ys hy b hb => ?_) hr (hstartU s hs)
          obtain ⟨ys', h1, h2⟩ := hUrev a ha
          rw [hy] at h1; injection h1 with h1; subst h1
          exact h2 b hb
      have hcnd : (ns.eraseDups ++ r0.filter (fun y => y ∉ ns.eraseDups)).Nodup := by
        rw [List.nodup_append]
        refine ⟨nodup_eraseDups ns, g2.sublist List.filter_sublist, ?_⟩
        intro x hx y hy e
        subst e
        have := (List.mem_filter.1 hy).2
        simp only [decide_eq_true_eq] at this
        exact this hx
      obtain ⟨r, h1, h2, h3⟩ := final _ hcnd hcU
      simp only [g1, if_true, h1]
      refine ⟨r, rfl, h2, fun x => ?_⟩
      rw [h3]
      unfold Needed
      constructor
      · rintro ⟨s, hs, hd⟩
        obtain ⟨t, ht, hst⟩ := (hcm s).1 hs
        exact ⟨t, ht, s, hst.imp id (fun z => ⟨rfl, z⟩), hd⟩
      · rintro ⟨t, ht, s, hst, hd⟩
        exact ⟨s, (hcm s).2 ⟨t, ht, hst.imp id (fun z => z.2)⟩, hd⟩
  · left
    have hall' : ∃ x ∈ ns, ∀ e ∈ es, e.name ≠ x := by
      refine Classical.byContradiction fun hc => hall fun x hx => ?_
      refine Classical.byContradiction fun hc' => hc ⟨x, hx, fun e he hn => hc' ⟨e, he, hn⟩⟩
    refine ⟨hall', ?_⟩
    obtain ⟨x, hx, hne⟩ := hall'
    have hchk : ¬ ns.eraseDups.all (· ∈ names m) = true := by
      rw [List.all_eq_true]
      intro hc
      have := hc x (List.mem_eraseDups.2 hx)
      simp only [decide_eq_true_eq, h.names] at this
      obtain ⟨e, he, hn⟩ := List.mem_map.1 this
      exact hne e he hn
    unfold depClosure
    simp only [hchk]
    rfl

/-! ### Canonical sorting -/

omit [DecidableEq N] in
theorem mem_insertBy (key : N → Nat) (x : N) (l : List N) (y : N) :
    y ∈ insertBy key x l ↔ y = x ∨ y ∈ l := by
  induction l with
  | nil => simp [insertBy]
  | cons a as ih =>
    unfold insertBy
    split
    · simp
    · simp only [List.mem_cons, ih]
      constructor
      · rintro (h | h | h) <;> simp [h]
      · rintro (h | h | h) <;> simp [h]

omit [DecidableEq N] in
theorem perm_insertBy (key : N → Nat) (x : N) (l : List N) : (insertBy key x l).Perm (x :: l) := by
  induction l with
  | nil => simp [insertBy]
  | cons a as ih =>
    unfold insertBy
    split
    · exact List.Perm.refl _
    · exact (List.Perm.cons a ih).trans (List.Perm.swap x a as)

omit [DecidableEq N] in
theorem sorted_insertBy (key : N → Nat) (x : N) (l : List N)
    (h : l.Pairwise fun a b => key a ≤ key b) :
    (insertBy key x l).Pairwise fun a b => key a ≤ key b := by
  induction l with
  | nil => simp [insertBy]
  | cons a as ih =>
    rw [List.pairwise_cons] at h
    unfold insertBy
    split
    · next hlt =>
      rw [List.pairwise_cons, List.pairwise_cons]
      refine ⟨?_, h⟩
      intro b hb
      rcases List.mem_cons.1 hb with rfl | hb
      · omega
      · have := h.1 b hb; omega
    · next hlt =>
      rw [List.pairwise_cons]
      refine ⟨?_, ih h.2⟩
      intro b hb
      rcases (mem_insertBy key x as b).1 hb with rfl | hb
      · omega
      · exact h.1 b hb

omit [DecidableEq N] in
theorem sortBy_spec (key : N → Nat) (l : List N) :
    (sortBy key l).Perm l ∧ (sortBy key l).Pairwise fun a b => key a ≤ key b := by
  have : ∀ (l acc : List N), acc.Pairwise (fun a b => key a ≤ key b) →
      (l.foldl (fun acc x => insertBy key x acc) acc).Perm (l ++ acc) ∧
      (l.foldl (fun acc x => insertBy key x acc) acc).Pairwise fun a b => key a ≤ key b := by
    intro l
    induction l with
    | nil => intro acc h; exact ⟨List.Perm.refl _, h⟩
    | cons a as ih =>
      intro acc h
      obtain ⟨h1, h2⟩ := ih _ (sorted_insertBy key a acc h)
      refine ⟨?_, h2⟩
      simp only [List.foldl_cons]
      refine h1.trans ?_
      refine ((perm_insertBy key a acc).append_left as).trans ?_
      exact List.perm_middle
  have := this l [] List.Pairwise.nil
  simpa [sortBy] using this

omit [DecidableEq N] in
/-- Two lists with the same elements, both sorted by a key that is injective on them
and without duplicates, are equal. -/
theorem sorted_unique (key : N → Nat) : ∀ (l₁ l₂ : List N), l₁.Nodup → l₂.Nodup →
    (∀ x, x ∈ l₁ ↔ x ∈ l₂) → (∀ x ∈ l₁, ∀ y ∈ l₁, key x = key y → x = y) →
    l₁.Pairwise (fun a b => key a ≤ key b) → l₂.Pairwise (fun a b => key a ≤ key b) →
    l₁ = l₂ := by
  intro l₁
  induction l₁ with
  | nil =>
    intro l₂ _ _ h _ _ _
    cases l₂ with
    | nil => rfl
    | cons b bs => have := (h b).2 (by simp); simp at this
  | cons a as ih =>
    intro l₂ n1 n2 h inj s1 s2
    cases l₂ with
    | nil => have := (h a).1 (by simp); simp at this
    | cons b bs =>
      rw [List.pairwise_cons] at s1 s2
      rw [List.nodup_cons] at n1 n2
      have hab : a = b := by
        have ha := (h a).1 (by simp)
        have hb := (h b).2 (by simp)
        rcases List.mem_cons.1 ha with e | ha
        · exact e
        · rcases List.mem_cons.1 hb with e | hb'
          · exact e.symm
          · have h1 := s1.1 b hb'
            have h2 := s2.1 a ha
            exact inj a (by simp) b hb (by omega)
      subst hab
      congr 1
      refine ih bs n1.2 n2.2 ?_ ?_ s1.2 s2.2
      · intro x
        have := h x
        simp only [List.mem_cons] at this
        constructor
        · intro hx
          rcases this.1 (Or.inr hx) with rfl | h
          · exact absurd hx n1.1
          · exact h
        · intro hx
          rcases this.2 (Or.inr hx) with rfl | h
          · exact absurd hx n2.1
          · exact h
      · intro x hx y hy
        exact inj x (List.mem_cons_of_mem _ hx) y (List.mem_cons_of_mem _ hy)

theorem idxOf_sorted (l : List N) (nd : l.Nodup) :
    l.Pairwise fun a b => l.idxOf a ≤ l.idxOf b := by
  rw [List.pairwise_iff_getElem]
  intro i j hi hj hij
  rw [List.Nodup.idxOf_getElem nd i hi, List.Nodup.idxOf_getElem nd j hj]
  omega

theorem idxOf_inj (l : List N) {x y : N} (hx : x ∈ l) (hy : y ∈ l)
    (h : l.idxOf x = l.idxOf y) : x = y := by
  have h1 : l[l.idxOf x]'(List.idxOf_lt_length_of_mem hx) = x := List.getElem_idxOf _
  have h2 : l[l.idxOf y]'(List.idxOf_lt_length_of_mem hy) = y := List.getElem_idxOf _
  rw [← h1, ← h2]
  simp only [h]

omit [DecidableEq D] in
/-- Canonical sorting lists the names in the order of adding. -/
theorem topoSort_spec {m : Metadata D N X} (nd : (names m).Nodup) {l : List N} (hl : l.Nodup)
    (hsub : ∀ x ∈ l, x ∈ names m) :
    topoSort m l = .ok ((names m).filter fun x => x ∈ l) := by
  unfold topoSort
  have hchk : l.all (· ∈ names m) = true := by
    rw [List.all_eq_true]; intro x hx; simpa using hsub x hx
  rw [if_pos hchk]
  congr 1
  obtain ⟨hp, hs⟩ := sortBy_spec (fun x => (names m).idxOf x) l
  refine sorted_unique (fun x => (names m).idxOf x) _ _ (hp.nodup_iff.2 hl)
    (nd.sublist List.filter_sublist) ?_ ?_ hs ?_
  · intro x
    rw [hp.mem_iff, List.mem_filter]
    simp only [decide_eq_true_eq]
    exact ⟨fun h => ⟨hsub x h, h⟩, fun h => h.2⟩
  · intro x hx y hy
    exact idxOf_inj _ (hsub x (hp.mem_iff.1 hx)) (hsub y (hp.mem_iff.1 hy))
  · exact (idxOf_sorted _ nd).sublist List.filter_sublist

end Verif.BagManager
