import Verif.BagManager.Closure

/-! Facts about versions: validation, well formedness, what the metadata represents. -/
namespace Verif.BagManager

set_option linter.unusedSectionVars false

variable {D N X B : Type} [DecidableEq D] [DecidableEq N]

/-! ### Validation -/

/-- `Valid` over a list of available names. -/
def ValidN (av : List N) (adds : List (ToAdd N X B)) : Prop :=
  ∀ (i : Nat) (a : ToAdd N X B), adds[i]? = some a →
    a.name ∉ av ∧
    (∀ (j : Nat) (b : ToAdd N X B), j < i → adds[j]? = some b → b.name ≠ a.name) ∧
    (∀ y ∈ a.deps, y ∈ av ∨
      ∃ (j : Nat) (b : ToAdd N X B), j < i ∧ adds[j]? = some b ∧ b.name = y)

omit [DecidableEq N] in
theorem valid_iff_validN (es : List (Entry N X B)) (adds : List (ToAdd N X B)) :
    Valid es adds ↔ ValidN (es.map (·.name)) adds := by
  unfold Valid ValidN
  simp [List.mem_map, not_exists]

omit [DecidableEq N] in
theorem validN_cons (av : List N) (a : ToAdd N X B) (rest : List (ToAdd N X B)) :
    ValidN av (a :: rest) ↔
      a.name ∉ av ∧ (∀ y ∈ a.deps, y ∈ av) ∧ ValidN (av ++ [a.name]) rest := by
  constructor
  · intro h
    have h0 := h 0 a rfl
    refine ⟨h0.1, ?_, ?_⟩
    · intro y hy
      rcases h0.2.2 y hy with h | ⟨j, _, hj, _⟩
      · exact h
      · omega
    · intro i b hb
      have hi := h (i + 1) b (by simpa using hb)
      refine ⟨?_, ?_, ?_⟩
      · simp only [List.mem_append, List.mem_singleton, not_or]
        exact ⟨hi.1, fun e => hi.2.1 0 a (by omega) rfl e.symm⟩
      · intro j c hj hc
        exact hi.2.1 (j + 1) c (by omega) (by simpa using hc)
      · intro y hy
        rcases hi.2.2 y hy with h | ⟨j, c, hj, hc, hn⟩
        · left; simp [h]
        · cases j with
          | zero =>
            left
            simp only [List.getElem?_cons_zero, Option.some.injEq] at hc
            subst hc; simp [hn]
          | succ j => exact Or.inr ⟨j, c, by omega, by simpa using hc, hn⟩
  · rintro ⟨h1, h2, h3⟩ i b hb
    cases i with
    | zero =>
      simp only [List.getElem?_cons_zero, Option.some.injEq] at hb
      subst hb
      exact ⟨h1, fun j _ hj => by omega, fun y hy => Or.inl (h2 y hy)⟩
    | succ i =>
      have hi := h3 i b (by simpa using hb)
      simp only [List.mem_append, List.mem_singleton, not_or] at hi
      refine ⟨hi.1.1, ?_, ?_⟩
      · intro j c hj hc
        cases j with
        | zero =>
          simp only [List.getElem?_cons_zero, Option.some.injEq] at hc
          subst hc; exact fun e => hi.1.2 e.symm
        | succ j => exact hi.2.1 j c (by omega) (by simpa using hc)
      · intro y hy
        rcases hi.2.2 y hy with (h | h) | ⟨j, c, hj, hc, hn⟩
        · exact Or.inl h
        · exact Or.inr ⟨0, a, by omega, rfl, h.symm⟩
        · exact Or.inr ⟨j + 1, c, by omega, by simpa using hc, hn⟩

theorem validate_iff (av : List N) (adds : List (ToAdd N X B)) :
    validate av adds = .ok () ∧ ValidN av adds ∨
    validate av adds = .error .valueError ∧ ¬ ValidN av adds := by
  induction adds generalizing av with
  | nil => left; exact ⟨rfl, fun i a h => by simp at h⟩
  | cons a rest ih =>
    rw [validN_cons]
    unfold validate
    by_cases h1 : a.name ∈ av
    · right; simp [h1]
    · by_cases h2 : a.deps.all (· ∈ av) = true
      · simp only [h1, if_false, h2, if_true, not_false_eq_true, true_and]
        have h2' : ∀ y ∈ a.deps, y ∈ av := by simpa [List.all_eq_true] using h2
        rcases ih (av ++ [a.name]) with h | h
        · exact Or.inl ⟨h.1, h2', h.2⟩
        · exact Or.inr ⟨h.1, fun hc => h.2 hc.2⟩
      · right
        simp only [h1, if_false, h2]
        refine ⟨rfl, ?_⟩
        rintro ⟨_, hc, _⟩
        exact h2 (by simpa [List.all_eq_true] using hc)

theorem validate_ok_iff (es : List (Entry N X B)) (adds : List (ToAdd N X B)) :
    validate (es.map (·.name)) adds = .ok () ↔ Valid es adds := by
  rw [valid_iff_validN]
  rcases validate_iff (es.map (·.name)) adds with h | h
  · simp [h.1, h.2]
  · simp [h.1, h.2]

/-! ### Well formed versions -/

omit [DecidableEq N] in
/-- The dependencies of a bag are among the bags before it. -/
theorem wellFormed_iff (es : List (Entry N X B)) :
    WellFormed es ↔ (es.map (·.name)).Nodup ∧
      ∀ pre e post, es = pre ++ e :: post → ∀ y ∈ e.deps, ∃ f ∈ pre, f.name = y := by
  unfold WellFormed
  refine and_congr Iff.rfl ?_
  constructor
  · intro h pre e post he y hy
    subst he
    obtain ⟨j, f, hj, hf, hn⟩ := h pre.length e (by simp) y hy
    rw [List.getElem?_append_left hj] at hf
    exact ⟨f, List.mem_of_getElem? hf, hn⟩
  · intro h i e he y hy
    obtain ⟨hi, rfl⟩ := List.getElem?_eq_some_iff.1 he
    obtain ⟨f, hf, hn⟩ := h (es.take i) es[i] (es.drop (i + 1)) (by simp) y hy
    obtain ⟨j, hj, rfl⟩ := List.getElem_of_mem hf
    simp only [List.length_take] at hj
    refine ⟨j, es[j], by omega, by simp, ?_⟩
    simpa using hn

omit [DecidableEq N] in
theorem WellFormed.nil : WellFormed ([] : List (Entry N X B)) := by
  simp [WellFormed]

omit [DecidableEq N] in
theorem WellFormed.filter {es : List (Entry N X B)} (h : WellFormed es) (P : Entry N X B → Bool)
    (hP : ∀ e ∈ es, P e = true → ∀ f ∈ es, f.name ∈ e.deps → P f = true) :
    WellFormed (es.filter P) := by
  rw [wellFormed_iff] at h ⊢
  refine ⟨h.1.sublist (List.filter_sublist.map _), ?_⟩
  intro pre e post he y hy
  obtain ⟨l1, l2, h1, h2, h3⟩ := List.filter_eq_append_iff.1 he
  obtain ⟨m1, m2, h4, h5, h6, h7⟩ := List.filter_eq_cons_iff.1 h3
  subst h1; subst h4
  obtain ⟨f, hf, hn⟩ := h.2 (l1 ++ m1) e m2 (by simp) y hy
  have hfP : P f = true := by
    refine hP e (by simp) h6 f ?_ (hn ▸ hy)
    rcases List.mem_append.1 hf with hf | hf <;> simp [hf]
  refine ⟨f, ?_, hn⟩
  rcases List.mem_append.1 hf with hf | hf
  · rw [← h2]; exact List.mem_filter.2 ⟨hf, hfP⟩
  · exact absurd hfP (by simpa using h5 f hf)

omit [DecidableEq N] in
theorem WellFormed.append {es : List (Entry N X B)} (h : WellFormed es)
    {adds : List (ToAdd N X B)} (hv : Valid es adds) :
    WellFormed (es ++ adds.map ToAdd.entry) := by
  refine ⟨?_, ?_⟩
  · rw [List.map_append, List.nodup_append]
    refine ⟨h.1, ?_, ?_⟩
    · rw [List.map_map, List.nodup_iff_pairwise_ne, List.pairwise_iff_getElem]
      intro i j hi hj hij
      simp only [List.length_map] at hi hj
      simp only [List.getElem_map, Function.comp_def, ToAdd.entry]
      exact (hv j adds[j] (by simp [hj])).2.1 i adds[i] hij (by simp [hi])
    · intro x hx y hy e
      subst e
      obtain ⟨e, he, rfl⟩ := List.mem_map.1 hx
      rw [List.map_map] at hy
      obtain ⟨a, ha, hn⟩ := List.mem_map.1 hy
      obtain ⟨i, hi, rfl⟩ := List.getElem_of_mem ha
      exact (hv i adds[i] (by simp [hi])).1 e he hn.symm
  · intro i e he y hy
    by_cases hi : i < es.length
    · rw [List.getElem?_append_left hi] at he
      obtain ⟨j, f, hj, hf, hn⟩ := h.2 i e he y hy
      exact ⟨j, f, hj, by rw [List.getElem?_append_left (by omega)]; exact hf, hn⟩
    · rw [List.getElem?_append_right (by omega), List.getElem?_map] at he
      obtain ⟨a, ha, rfl⟩ := Option.map_eq_some_iff.1 he
      rcases (hv _ a ha).2.2 y hy with ⟨f, hf, hn⟩ | ⟨j, b, hj, hb, hn⟩
      · obtain ⟨j, hj, rfl⟩ := List.getElem_of_mem hf
        exact ⟨j, es[j], by omega, by rw [List.getElem?_append_left hj]; simp, hn⟩
      · refine ⟨es.length + j, b.entry, by omega, ?_, hn⟩
        rw [List.getElem?_append_right (by omega)]
        simp [hb]

/-! ### What metadata represents -/

/-- The metadata of directory `d` lists exactly the entries `es`, all readable. -/
def Repr (fs : Fs D N X B) (d : D) (m : Metadata D N X) (es : List (Entry N X B)) : Prop :=
  entriesOf fs d m = es.map some

theorem Repr.sameGraph {fs : Fs D N X B} {d : D} {m : Metadata D N X} {es : List (Entry N X B)}
    (h : Repr fs d m es) : SameGraph m es := by
  unfold Repr entriesOf at h
  unfold SameGraph
  generalize m.bags = bs at h
  induction bs generalizing es with
  | nil =>
    cases es with
    | nil => rfl
    | cons e es => simp at h
  | cons b bs ih =>
    cases es with
    | nil => simp at h
    | cons e es =>
      simp only [List.map_cons, List.cons.injEq] at h ⊢
      obtain ⟨h1, h2⟩ := h
      refine ⟨?_, ih h2⟩
      obtain ⟨c, _, rfl⟩ := Option.map_eq_some_iff.1 h1
      rfl

theorem Repr.mono {fs fs' : Fs D N X B} {d : D} {m : Metadata D N X} {es : List (Entry N X B)}
    (h : Repr fs d m es)
    (hm : ∀ path b, readBag fs path = some b → readBag fs' path = some b) : Repr fs' d m es := by
  unfold Repr entriesOf at *
  generalize m.bags = bs at *
  induction bs generalizing es with
  | nil => simpa using h
  | cons b bs ih =>
    cases es with
    | nil => simp at h
    | cons e es =>
      simp only [List.map_cons, List.cons.injEq] at h ⊢
      refine ⟨?_, ih h.2⟩
      obtain ⟨c, h1, h2⟩ := Option.map_eq_some_iff.1 h.1
      rw [hm _ _ h1, Option.map_some, h2]

theorem Repr.find {fs : Fs D N X B} {d : D} {m : Metadata D N X} {es : List (Entry N X B)}
    (h : Repr fs d m es) (nd : (es.map (·.name)).Nodup) {e : Entry N X B} (he : e ∈ es) :
    ∃ bm, (m.bags.find? fun b => b.name = e.name) = some bm ∧
      readBag fs (bagPath d bm) = some e.content ∧ bm.deps = e.deps := by
  unfold Repr entriesOf at h
  generalize m.bags = bs at h
  induction bs generalizing es with
  | nil => cases es with
    | nil => simp at he
    | cons e es => simp at h
  | cons b bs ih =>
    cases es with
    | nil => simp at h
    | cons f es =>
      simp only [List.map_cons, List.cons.injEq, List.nodup_cons] at h nd
      obtain ⟨h1, h2⟩ := h
      obtain ⟨c, hc, hf⟩ := Option.map_eq_some_iff.1 h1
      by_cases hn : b.name = e.name
      · have hef : e = f := by
          rcases List.mem_cons.1 he with e1 | he
          · exact e1
          · exfalso
            refine nd.1 (List.mem_map.2 ⟨e, he, ?_⟩)
            rw [← hf, ← hn]
        subst hef
        refine ⟨b, by simp [hn], ?_, ?_⟩
        · rw [hc, ← hf]
        · rw [← hf]
      · have hef : e ∈ es := by
          rcases List.mem_cons.1 he with rfl | he
          · exact absurd (by rw [← hf]) hn
          · exact he
        obtain ⟨bm, h3, h4⟩ := ih nd.2 hef h2
        exact ⟨bm, by simp [hn, h3], h4⟩

theorem Repr.added {fs : Fs D N X B} {d : D} {m : Metadata D N X} {es : List (Entry N X B)}
    (h : Repr fs d m es) (u : Nat) (adds : List (ToAdd N X B))
    (hf : ∀ (i : Nat) a, adds[i]? = some a → readBag fs (d, .bagFile u i) = some a.bag) :
    Repr fs d (addedMeta m u adds) (es ++ adds.map ToAdd.entry) := by
  unfold Repr entriesOf at *
  simp only [addedMeta, List.map_append, h, List.append_cancel_left_eq]
  apply List.ext_getElem?
  intro i
  simp only [List.getElem?_map, List.getElem?_mapIdx, Option.map_map]
  cases ha : adds[i]? with
  | none => simp
  | some a => simp [bagPath, hf i a ha, ToAdd.entry]

theorem Repr.branch {fs : Fs D N X B} {src : D} {m : Metadata D N X} {es : List (Entry N X B)}
    (h : Repr fs src m es) (out : D) (keep : List N) (P : Entry N X B → Bool)
    (hP : ∀ e ∈ es, e.name ∈ keep ↔ P e = true) :
    Repr fs out (branchMeta src m keep) (es.filter P) := by
  unfold Repr entriesOf at *
  simp only [branchMeta, List.map_map]
  generalize m.bags = bs at h
  induction bs generalizing es with
  | nil => cases es with
    | nil => rfl
    | cons e es => simp at h
  | cons b bs ih =>
    cases es with
    | nil => simp at h
    | cons e es =>
      simp only [List.map_cons, List.cons.injEq] at h
      obtain ⟨h1, h2⟩ := h
      have ih' := ih (fun e he => hP e (List.mem_cons_of_mem _ he)) h2
      obtain ⟨c, hc, he⟩ := Option.map_eq_some_iff.1 h1
      have hPe := hP e (by simp)
      have hne : e.name = b.name := by rw [← he]
      by_cases hk : b.name ∈ keep
      · have hpt : P e = true := hPe.1 (by rw [hne]; exact hk)
        simp only [List.filter_cons, hk, decide_true, if_true, List.map_cons, hpt, ih']
        congr 1
      · have hpf : P e = false := by
          cases hp : P e with
          | false => rfl
          | true => exact absurd (hPe.2 hp) (by rw [hne]; exact hk)
        simp only [List.filter_cons, hk, decide_false, hpf]
        simpa using ih'

omit [DecidableEq N] in
/-- What is needed is closed under dependencies. -/
theorem Needed.closed {es : List (Entry N X B)} {ns : List N} {wd : Bool} {e : Entry N X B}
    (he : e ∈ es) (h : Needed es ns wd e.name) {y : N} (hy : y ∈ e.deps) : Needed es ns wd y := by
  obtain ⟨r, hr, s, hs, hd⟩ := h
  exact ⟨r, hr, s, hs, hd.trans (.step he hy (.refl _))⟩

end Verif.BagManager
