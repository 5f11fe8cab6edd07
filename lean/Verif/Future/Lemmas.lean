import Verif.Future.Spec

/-!
The invariant of a future and its history.
-/

namespace Verif.Future

set_option linter.unusedSectionVars false

variable {V E : Type}

theorem foldl_owner (orphaned : E) (tr : Trace V E) (s : Option Nat × Option (Value V E)) :
    (tr.foldl (resultAfter orphaned) s).1 = tr.foldl ownerAfter s.1 := by
  induction tr generalizing s with
  | nil => rfl
  | cons e tr ih =>
    simp only [List.foldl_cons]
    rw [ih]
    rfl

theorem owner_snoc (tr : Trace V E) (e : Op V E × Out V E) :
    owner (tr ++ [e]) = ownerAfter (owner tr) e := by
  simp [owner]

theorem result_snoc (orphaned : E) (tr : Trace V E) (e : Op V E × Out V E) :
    result orphaned (tr ++ [e]) = (result orphaned tr).or (valueBy orphaned (owner tr) e) := by
  simp only [result, List.foldl_append, List.foldl_cons, List.foldl_nil, resultAfter]
  rw [foldl_owner]
  rfl

theorem got_snoc (r : Nat) (tr : Trace V E) (e : Op V E × Out V E) :
    got r (tr ++ [e]) = got r tr ++ (gotBy r e).toList := by
  simp only [got, List.filterMap_append, List.filterMap_cons, List.filterMap_nil]
  cases gotBy r e <;> rfl

theorem added_snoc (tr : Trace V E) (e : Op V E × Out V E) :
    added (tr ++ [e]) = added tr ++ (addedBy e).toList := by
  simp only [added, List.filterMap_append, List.filterMap_cons, List.filterMap_nil]
  cases addedBy e <;> rfl

theorem called_snoc (tr : Trace V E) (e : Op V E × Out V E) :
    called (tr ++ [e]) = called tr ++ (calledBy e).toList := by
  simp only [called, List.filterMap_append, List.filterMap_cons, List.filterMap_nil]
  cases calledBy e <;> rfl

/-- The state of a reader. -/
def ReaderOk (value : Option (Value V E)) (items : List V) (q : Reader E) : Prop :=
  (q = {} ∧ items = []) ∨
  (∃ v, value = some (.ok v) ∧ items = [v] ∧ q = ⟨true, none⟩) ∨
  (∃ e, value = some (.error e) ∧ items = [] ∧ q = ⟨true, some e⟩)

structure Inv (orphaned : E) (w : World V E) (tr : Trace V E) : Prop where
  owner : ∀ i : Nat, (w.writers[i]?).join = some true ↔ owner tr = some i
  value : w.value = result orphaned tr
  resolved : Future.owner tr ≠ none → result orphaned tr = none
  readers : ∀ (r : Nat) (q : Reader E), w.readers[r]? = some q → ReaderOk w.value (got r tr) q
  fresh : ∀ r : Nat, w.readers.length ≤ r → got r tr = []
  made : made tr = List.range w.readers.length
  count : ∀ id : Nat, (w.consumers.map Consumer.id ++ w.pool.map (fun p => p.1.id) ++
    called tr).count id = (added tr).count id
  empty : w.value ≠ none → w.consumers = []
  pool : ∀ p ∈ w.pool, w.value = some p.2

theorem inv_new (orphaned : E) : Inv orphaned ({} : World V E) [] := by
  refine ⟨?_, rfl, fun _ => rfl, ?_, fun _ _ => rfl, rfl, fun _ => rfl, fun h => absurd rfl h, ?_⟩
  · intro i
    cases i with
    | zero => simp [owner]
    | succ i => simp [owner]
  · intro r q h
    simp at h
  · intro p hp
    cases hp

theorem made_snoc (tr : Trace V E) (e : Op V E × Out V E) :
    made (tr ++ [e]) = made tr ++ (match e with | (_, .reader r) => [r] | _ => []) := by
  simp only [made, List.filterMap_append, List.filterMap_cons, List.filterMap_nil]
  obtain ⟨op, out⟩ := e
  cases out <;> rfl

/-- A step that leaves the value, the writers and the readers alone. -/
theorem inv_consumers (orphaned : E) (w : World V E) (tr : Trace V E) (h : Inv orphaned w tr)
    (e : Op V E × Out V E) (consumers : List Consumer) (pool : List (Consumer × Value V E))
    (h1 : ownerAfter (owner tr) e = owner tr) (h2 : valueBy orphaned (owner tr) e = none)
    (h3 : ∀ r, gotBy r e = none) (h4 : ∀ op r, e ≠ (op, .reader r))
    (h5 : ∀ id, (consumers.map Consumer.id ++ pool.map (fun p => p.1.id)).count id +
        (calledBy e).toList.count id =
      (w.consumers.map Consumer.id ++ w.pool.map (fun p => p.1.id)).count id +
        (addedBy e).toList.count id)
    (h6 : w.value ≠ none → consumers = []) (h7 : ∀ p ∈ pool, w.value = some p.2) :
    Inv orphaned { w with consumers, pool } (tr ++ [e]) := by
  have hr : result orphaned (tr ++ [e]) = result orphaned tr := by rw [result_snoc, h2]; simp
  refine ⟨?_, ?_, ?_, ?_, ?_, ?_, ?_, h6, h7⟩
  · rw [owner_snoc, h1]
    exact h.owner
  · rw [hr]
    exact h.value
  · rw [hr, owner_snoc, h1]
    exact h.resolved
  · intro r q hq
    rw [got_snoc, h3]
    simpa using h.readers r q hq
  · intro r hlen
    rw [got_snoc, h3]
    simpa using h.fresh r hlen
  · rw [made_snoc, h.made]
    obtain ⟨op, out⟩ := e
    cases out <;> first | simp | skip
    rename_i r
    exact absurd rfl (h4 op r)
  · intro id
    rw [called_snoc, added_snoc]
    have := h.count id
    have := h5 id
    simp only [List.count_append] at *
    omega

theorem inv_addConsumer (orphaned : E) (w : World V E) (tr : Trace V E) (h : Inv orphaned w tr)
    (e : Op V E × Out V E) (c : Consumer) (he : addedBy e = some c.id) :
    Inv orphaned (w.addConsumer c) (tr ++ [e]) := by
  have hop : (∃ id, e = (.addConsumer id, .done)) ∨ ∃ r id, e = (.subscribe r id, .done) := by
    obtain ⟨op, out⟩ := e
    cases op <;> cases out <;> simp [addedBy] at he
    · exact .inl ⟨_, rfl⟩
    · exact .inr ⟨_, _, rfl⟩
  have hcalled : calledBy e = none := by
    rcases hop with ⟨id, rfl⟩ | ⟨r, id, rfl⟩ <;> rfl
  unfold World.addConsumer
  split
  · rename_i hv
    apply inv_consumers orphaned w tr h e
    · rcases hop with ⟨id, rfl⟩ | ⟨r, id, rfl⟩ <;> rfl
    · rcases hop with ⟨id, rfl⟩ | ⟨r, id, rfl⟩ <;> rfl
    · rcases hop with ⟨id, rfl⟩ | ⟨r, id, rfl⟩ <;> intro <;> rfl
    · rcases hop with ⟨id, rfl⟩ | ⟨r, id, rfl⟩ <;> simp
    · intro id
      rw [he, hcalled]
      simp [List.count_append, List.count_cons]
      omega
    · intro hne
      exact absurd hv hne
    · exact h.pool
  · rename_i value hv
    apply inv_consumers orphaned w tr h e
    · rcases hop with ⟨id, rfl⟩ | ⟨r, id, rfl⟩ <;> rfl
    · rcases hop with ⟨id, rfl⟩ | ⟨r, id, rfl⟩ <;> rfl
    · rcases hop with ⟨id, rfl⟩ | ⟨r, id, rfl⟩ <;> intro <;> rfl
    · rcases hop with ⟨id, rfl⟩ | ⟨r, id, rfl⟩ <;> simp
    · intro id
      rw [he, hcalled]
      simp [List.count_append, List.count_cons]
      omega
    · exact h.empty
    · intro p hp
      rcases List.mem_append.1 hp with hp | hp
      · exact h.pool p hp
      · rw [List.mem_singleton] at hp
        rw [hp, hv]

theorem inv_same (orphaned : E) (w : World V E) (tr : Trace V E) (h : Inv orphaned w tr)
    (e : Op V E × Out V E)
    (h1 : ownerAfter (owner tr) e = owner tr) (h2 : valueBy orphaned (owner tr) e = none)
    (h3 : ∀ r, gotBy r e = none) (h4 : ∀ op r, e ≠ (op, .reader r))
    (h5 : calledBy e = none) (h6 : addedBy e = none) :
    Inv orphaned w (tr ++ [e]) := by
  apply inv_consumers orphaned w tr h e w.consumers w.pool h1 h2 h3 h4 ?_ h.empty h.pool
  intro id
  rw [h5, h6]

theorem writer_set (l : List (Option Bool)) (i j : Nat) (x : Option Bool) (hi : i < l.length) :
    ((l.set i x)[j]?).join = if j = i then x else (l[j]?).join := by
  by_cases hj : j = i
  · subst hj
    rw [if_pos rfl, List.getElem?_set_self hi]
    rfl
  · rw [if_neg hj, List.getElem?_set_ne (fun h => hj h.symm)]

theorem writer_lt {l : List (Option Bool)} {i : Nat} {b : Bool} (h : (l[i]?).join = some b) :
    i < l.length := by
  by_cases hi : i < l.length
  · exact hi
  · rw [List.getElem?_eq_none (by omega)] at h
    cases h

/-- A step that only changes the writers. -/
theorem inv_writers (orphaned : E) (w : World V E) (tr : Trace V E) (h : Inv orphaned w tr)
    (e : Op V E × Out V E) (writers : List (Option Bool))
    (h1 : ∀ i : Nat, (writers[i]?).join = some true ↔ ownerAfter (owner tr) e = some i)
    (h2 : valueBy orphaned (owner tr) e = none)
    (h0 : owner tr = none → ownerAfter (owner tr) e = none)
    (h3 : ∀ r, gotBy r e = none) (h4 : ∀ op r, e ≠ (op, .reader r))
    (h5 : calledBy e = none) (h6 : addedBy e = none) :
    Inv orphaned { w with writers } (tr ++ [e]) := by
  have hr : result orphaned (tr ++ [e]) = result orphaned tr := by rw [result_snoc, h2]; simp
  refine ⟨?_, ?_, ?_, ?_, ?_, ?_, ?_, h.empty, h.pool⟩
  · rw [owner_snoc]
    exact h1
  · rw [hr]
    exact h.value
  · rw [hr, owner_snoc]
    intro hne
    exact h.resolved (fun hn => hne (h0 hn))
  · intro r q hq
    rw [got_snoc, h3]
    simpa using h.readers r q hq
  · intro r hlen
    rw [got_snoc, h3]
    simpa using h.fresh r hlen
  · rw [made_snoc, h.made]
    obtain ⟨op, out⟩ := e
    cases out <;> first | simp | skip
    rename_i r
    exact absurd rfl (h4 op r)
  · intro id
    rw [called_snoc, added_snoc, h5, h6]
    simpa using h.count id

/-- A step of the owner that sets the value. -/
theorem inv_set (orphaned : E) (hasType : V → Bool) (w w' : World V E) (tr : Trace V E)
    (h : Inv orphaned w tr) (e : Op V E × Out V E) (i : Nat) (value : Value V E) (x : Option Bool)
    (hi : owner tr = some i) (hs : w.set hasType value = some w') (hx : x ≠ some true)
    (h1 : ownerAfter (owner tr) e = none) (h2 : valueBy orphaned (owner tr) e = some value)
    (h3 : ∀ r, gotBy r e = none) (h4 : ∀ op r, e ≠ (op, .reader r))
    (h5 : calledBy e = none) (h6 : addedBy e = none) :
    Inv orphaned { w' with writers := w'.writers.set i x } (tr ++ [e]) := by
  have hnone : result orphaned tr = none := h.resolved (by rw [hi]; simp)
  have hvn : w.value = none := by rw [h.value]; exact hnone
  have hr : result orphaned (tr ++ [e]) = some value := by rw [result_snoc, h2, hnone]; rfl
  have hw' : w' = { w with
      value := some value
      consumers := []
      pool := w.pool ++ w.consumers.map fun c => (c, value) } := by
    unfold World.set at hs
    split at hs
    · cases hs
    · rw [hvn] at hs
      simp only [Option.some.injEq] at hs
      exact hs.symm
  subst hw'
  have hlt : i < w.writers.length := writer_lt ((h.owner i).2 hi)
  have hpool : w.pool = [] := by
    rcases hp : w.pool with _ | ⟨p, ps⟩
    · rfl
    · have := h.pool p (by rw [hp]; simp)
      rw [hvn] at this
      cases this
  refine ⟨?_, ?_, ?_, ?_, ?_, ?_, ?_, ?_, ?_⟩
  · intro j
    rw [owner_snoc, h1]
    show ((w.writers.set i x)[j]?).join = some true ↔ none = some j
    rw [writer_set _ _ _ _ hlt]
    constructor
    · intro hj
      split at hj
      · exact absurd hj hx
      · rename_i hne
        have := (h.owner j).1 hj
        rw [hi] at this
        cases this
        exact absurd rfl hne
    · intro hj
      cases hj
  · rw [hr]
  · rw [owner_snoc, h1]
    intro hne
    exact absurd rfl hne
  · intro r q hq
    rw [got_snoc, h3]
    have := h.readers r q hq
    rw [hvn] at this
    rcases this with ⟨h1, h2⟩ | ⟨v, h1, _⟩ | ⟨v, h1, _⟩
    · exact .inl ⟨h1, by simp [h2]⟩
    · cases h1
    · cases h1
  · intro r hlen
    rw [got_snoc, h3]
    simpa using h.fresh r hlen
  · rw [made_snoc, h.made]
    obtain ⟨op, out⟩ := e
    cases out <;> first | simp | skip
    rename_i r
    exact absurd rfl (h4 op r)
  · intro id
    rw [called_snoc, added_snoc, h5, h6]
    have := h.count id
    simp only [List.map_append, List.map_map, Option.toList_none, List.append_nil, List.map_nil,
      List.nil_append, List.count_append] at this ⊢
    have hid : (w.consumers.map ((fun p : Consumer × Value V E => p.1.id) ∘ fun c => (c, value))) =
        w.consumers.map Consumer.id := by
      apply List.map_congr_left
      intro c _
      rfl
    rw [hid]
    omega
  · intro _
    rfl
  · intro p hp
    simp only [hpool, List.nil_append, List.mem_map] at hp
    obtain ⟨c, _, rfl⟩ := hp
    rfl

theorem range_snoc (n : Nat) : List.range (n + 1) = List.range n ++ [n] := List.range_succ

/-- The item of a result. -/
def itemOf : ReadResult V E → List V
  | .item v => [v]
  | _ => []

theorem read_ok (value : Option (Value V E)) (items : List V) (q : Reader E)
    (h : ReaderOk value items q) :
    (q.tryRead value).2 = nextRead value items ∧
    ReaderOk value (items ++ itemOf (q.tryRead value).2)
      (q.tryRead value).1 := by
  rcases h with ⟨rfl, rfl⟩ | ⟨v, rfl, rfl, rfl⟩ | ⟨e, rfl, rfl, rfl⟩
  · rcases value with _ | (v | e)
    · exact ⟨rfl, .inl ⟨rfl, rfl⟩⟩
    · exact ⟨rfl, .inr (.inl ⟨v, rfl, rfl, rfl⟩)⟩
    · exact ⟨rfl, .inr (.inr ⟨e, rfl, rfl, rfl⟩)⟩
  · exact ⟨rfl, .inr (.inl ⟨v, rfl, rfl, rfl⟩)⟩
  · exact ⟨rfl, .inr (.inr ⟨e, rfl, rfl, rfl⟩)⟩

theorem count_eraseIdx (l : List (Consumer × Value V E)) (i id : Nat) (p : Consumer × Value V E)
    (h : l[i]? = some p) :
    ((l.eraseIdx i).map (fun p => p.1.id)).count id + [p.1.id].count id =
      (l.map (fun p => p.1.id)).count id := by
  induction l generalizing i with
  | nil => simp at h
  | cons x xs ih =>
    cases i with
    | zero =>
      simp at h
      subst h
      simp [List.count_cons]
    | succ i =>
      have := ih i (by simpa using h)
      rw [List.eraseIdx_cons_succ]
      simp only [List.map_cons, List.count_cons, List.count_nil] at this ⊢
      omega

theorem inv_step (hasType : V → Bool) (orphaned : E) (w : World V E) (tr : Trace V E)
    (h : Inv orphaned w tr) (op : Op V E) :
    Inv orphaned (step hasType orphaned w op).1
      (tr ++ [(op, (step hasType orphaned w op).2)]) := by
  cases op with
  | addConsumer id => exact inv_addConsumer orphaned w tr h _ ⟨id, false⟩ rfl
  | setValue i value =>
    simp only [step, World.setValue]
    split
    · apply inv_same orphaned w tr h <;> simp [ownerAfter, valueBy, gotBy, calledBy, addedBy]
    · apply inv_same orphaned w tr h <;> simp [ownerAfter, valueBy, gotBy, calledBy, addedBy]
    · rename_i hown
      split
      · apply inv_same orphaned w tr h <;> simp [ownerAfter, valueBy, gotBy, calledBy, addedBy]
      · rename_i w' hs
        have hi := (h.owner i).1 hown
        apply inv_set orphaned hasType w w' tr h _ i value _ hi hs <;>
          simp [ownerAfter, valueBy, gotBy, calledBy, addedBy, hi]
  | destroyWriter i =>
    simp only [step, World.destroyWriter]
    split
    · rename_i hn
      have hi : owner tr ≠ some i := fun hi => by rw [(h.owner i).2 hi] at hn; cases hn
      apply inv_same orphaned w tr h <;> simp [ownerAfter, valueBy, gotBy, calledBy, addedBy, hi]
    · rename_i hn
      have hi : owner tr ≠ some i := fun hi => by rw [(h.owner i).2 hi] at hn; cases hn
      apply inv_writers orphaned w tr h <;>
        try simp [ownerAfter, valueBy, gotBy, calledBy, addedBy, hi]
      · intro j
        rw [writer_set _ _ _ _ (writer_lt hn)]
        by_cases hj : j = i
        · subst hj
          simp [hi]
        · rw [if_neg hj]
          exact h.owner j
    · rename_i hown
      have hi := (h.owner i).1 hown
      split
      · rename_i hs
        exfalso
        have hv : w.value = none := by rw [h.value]; exact h.resolved (by rw [hi]; simp)
        simp [World.set, wrongType, hv] at hs
      · rename_i w' hs
        apply inv_set orphaned hasType w w' tr h _ i _ _ hi hs <;>
          simp [ownerAfter, valueBy, gotBy, calledBy, addedBy, hi]
  | moveWriter i =>
    simp only [step]
    split
    · rename_i hn
      have hi : owner tr ≠ some i := fun hi => by rw [(h.owner i).2 hi] at hn; cases hn
      apply inv_same orphaned w tr h <;> simp [ownerAfter, valueBy, gotBy, calledBy, addedBy]
    · rename_i owns hn
      have hlt := writer_lt hn
      apply inv_writers orphaned w tr h <;>
        try simp [ownerAfter, valueBy, gotBy, calledBy, addedBy]
      · intro j
        by_cases hj : j < w.writers.length
        · rw [List.getElem?_append_left (by simpa using hj), writer_set _ _ _ _ hlt]
          by_cases hi : owner tr = some i
          · rw [if_pos hi]
            constructor
            · intro hjt
              split at hjt
              · cases hjt
              · rename_i hne
                have := (h.owner j).1 hjt
                rw [hi] at this
                cases this
                exact absurd rfl hne
            · intro hjt
              cases hjt
              exact absurd hj (Nat.lt_irrefl _)
          · rw [if_neg hi]
            by_cases hji : j = i
            · subst hji
              simp [hi]
            · rw [if_neg hji]
              exact h.owner j
        · rw [List.getElem?_append_right (by simp; omega), List.length_set]
          by_cases hjl : j = w.writers.length
          · subst hjl
            rw [Nat.sub_self]
            simp only [List.getElem?_cons_zero, Option.join_some]
            have hnot : owner tr ≠ some w.writers.length := by
              intro ho
              have := writer_lt ((h.owner _).2 ho)
              omega
            by_cases hi : owner tr = some i
            · rw [if_pos hi]
              rw [(h.owner i).2 hi] at hn
              cases hn
              simp
            · rw [if_neg hi]
              constructor
              · intro ho
                cases ho
                exact absurd ((h.owner i).1 hn) hi
              · intro ho
                exact absurd ho hnot
          · rw [List.getElem?_eq_none (by simp; omega)]
            constructor
            · intro hc
              cases hc
            · intro hc
              exfalso
              split at hc
              · cases hc
                exact hjl rfl
              · have := writer_lt ((h.owner _).2 hc)
                omega
      · intro ho
        simp [ho]
  | overwriteWriter i =>
    simp only [step]
    split
    · rename_i hn
      have hi : owner tr ≠ some i := fun hi => by rw [(h.owner i).2 hi] at hn; cases hn
      apply inv_same orphaned w tr h <;> simp [ownerAfter, valueBy, gotBy, calledBy, addedBy, hi]
    · rename_i owns hn
      have hlt := writer_lt hn
      apply inv_writers orphaned w tr h <;>
        try simp [ownerAfter, valueBy, gotBy, calledBy, addedBy]
      · intro j
        rw [writer_set _ _ _ _ hlt]
        have hj := h.owner j
        by_cases hji : j = i
        · subst hji
          rw [if_pos rfl]
          constructor
          · intro hc
            cases hc
          · rintro ⟨h1, h2⟩
            exact absurd h2 h1
        · rw [if_neg hji, hj]
          constructor
          · intro ho
            refine ⟨?_, ho⟩
            rw [ho]
            intro hc
            cases hc
            exact hji rfl
          · exact fun hc => hc.2
      · intro ho _
        exact ho
  | peek =>
    apply inv_same orphaned w tr h <;> simp [step, ownerAfter, valueBy, gotBy, calledBy, addedBy]
  | getForTesting =>
    simp only [step]
    split <;> apply inv_same orphaned w tr h <;>
      simp [ownerAfter, valueBy, gotBy, calledBy, addedBy]
  | makeReader =>
    simp only [step]
    have hr : result orphaned (tr ++ [(.makeReader, .reader w.readers.length)]) =
        result orphaned tr := by rw [result_snoc]; simp [valueBy]
    have ho : owner (tr ++ [((.makeReader : Op V E), (.reader w.readers.length : Out V E))]) =
        owner tr := by rw [owner_snoc]; simp [ownerAfter]
    have hg : ∀ r, got r (tr ++ [((.makeReader : Op V E), (.reader w.readers.length : Out V E))]) =
        got r tr := by intro r; rw [got_snoc]; simp [gotBy]
    refine ⟨?_, ?_, ?_, ?_, ?_, ?_, ?_, h.empty, h.pool⟩
    · rw [ho]
      exact h.owner
    · rw [hr]
      exact h.value
    · rw [hr, ho]
      exact h.resolved
    · intro r q hq
      rw [hg]
      by_cases hlt : r < w.readers.length
      · rw [List.getElem?_append_left hlt] at hq
        exact h.readers r q hq
      · rw [List.getElem?_append_right (by omega)] at hq
        rw [h.fresh r (by omega)]
        have hq' := List.mem_of_getElem? hq
        rw [List.mem_singleton] at hq'
        exact .inl ⟨hq', rfl⟩
    · intro r hlen
      rw [hg]
      apply h.fresh
      simp at hlen
      omega
    · rw [made_snoc, h.made, List.length_append, List.length_singleton, range_snoc]
    · intro id
      rw [called_snoc, added_snoc]
      simpa [calledBy, addedBy] using h.count id
  | tryRead r =>
    simp only [step]
    split
    · apply inv_same orphaned w tr h <;> simp [ownerAfter, valueBy, gotBy, calledBy, addedBy]
    · rename_i q hq
      simp only
      have hok := read_ok w.value (got r tr) q (h.readers r q hq)
      have hlt := (List.getElem?_eq_some_iff.1 hq).1
      generalize hres : (q.tryRead w.value).2 = res at hok
      have hr : result orphaned (tr ++ [(.tryRead r, .read res)]) = result orphaned tr := by
        rw [result_snoc]; simp [valueBy]
      have ho : owner (tr ++ [((.tryRead r : Op V E), (.read res : Out V E))]) =
          owner tr := by rw [owner_snoc]; simp [ownerAfter]
      have hself : got r (tr ++ [((.tryRead r : Op V E), (.read res : Out V E))]) =
          got r tr ++ itemOf res := by
        rw [got_snoc]
        cases res <;> simp [gotBy, itemOf]
      have hother : ∀ j, j ≠ r →
          got j (tr ++ [((.tryRead r : Op V E), (.read res : Out V E))]) = got j tr := by
        intro j hj
        have : r ≠ j := fun h => hj h.symm
        rw [got_snoc]
        cases res <;> simp [gotBy, this]
      refine ⟨?_, ?_, ?_, ?_, ?_, ?_, ?_, h.empty, h.pool⟩
      · rw [ho]
        exact h.owner
      · rw [hr]
        exact h.value
      · rw [hr, ho]
        exact h.resolved
      · intro j q' hq'
        by_cases hj : j = r
        · subst hj
          rw [List.getElem?_set_self hlt] at hq'
          cases hq'
          rw [hself]
          exact hok.2
        · rw [List.getElem?_set_ne (fun h => hj h.symm)] at hq'
          rw [hother j hj]
          exact h.readers j q' hq'
      · intro j hlen
        rw [List.length_set] at hlen
        rw [hother j (by omega)]
        exact h.fresh j hlen
      · rw [made_snoc, h.made, List.length_set]
        simp
      · intro id
        rw [called_snoc, added_snoc]
        simpa [calledBy, addedBy] using h.count id
  | subscribe r id =>
    simp only [step]
    split
    · apply inv_same orphaned w tr h <;> simp [ownerAfter, valueBy, gotBy, calledBy, addedBy]
    · exact inv_addConsumer orphaned w tr h _ ⟨id, true⟩ rfl
  | call i =>
    simp only [step]
    split
    · apply inv_same orphaned w tr h <;> simp [ownerAfter, valueBy, gotBy, calledBy, addedBy]
    · rename_i c value hc
      apply inv_consumers orphaned w tr h _ w.consumers (w.pool.eraseIdx i)
      · simp [ownerAfter]
      · simp [valueBy]
      · simp [gotBy]
      · simp
      · intro id
        have := count_eraseIdx w.pool i id _ hc
        simp only [calledBy, addedBy, Option.toList_some, Option.toList_none, List.count_append,
          List.count_nil] at this ⊢
        omega
      · exact h.empty
      · intro p hp
        exact h.pool p (List.mem_of_mem_eraseIdx hp)

theorem inv_run (hasType : V → Bool) (orphaned : E) (ops : List (Op V E)) (w : World V E)
    (tr : Trace V E) (h : Inv orphaned w tr) :
    Inv orphaned (run hasType orphaned w ops).1 (tr ++ (run hasType orphaned w ops).2) := by
  induction ops generalizing w tr with
  | nil =>
    simp only [run, List.append_nil]
    exact h
  | cons op ops ih =>
    have := ih _ _ (inv_step hasType orphaned w tr h op)
    simp only [run]
    simpa using this

theorem inv_start (hasType : V → Bool) (orphaned : E) (ops : List (Op V E)) :
    Inv orphaned (run hasType orphaned {} ops).1 (run hasType orphaned {} ops).2 := by
  have := inv_run hasType orphaned ops _ _ (inv_new orphaned)
  simpa using this

theorem reached_inv {hasType : V → Bool} {orphaned : E} {w : World V E} {tr : Trace V E}
    (h : Reached hasType orphaned w tr) : Inv orphaned w tr := by
  obtain ⟨ops, h⟩ := h
  have := inv_start hasType orphaned ops
  rw [h] at this
  exact this

theorem run_append (hasType : V → Bool) (orphaned : E) (w : World V E) (xs ys : List (Op V E)) :
    run hasType orphaned w (xs ++ ys) =
      ((run hasType orphaned (run hasType orphaned w xs).1 ys).1,
        (run hasType orphaned w xs).2 ++
          (run hasType orphaned (run hasType orphaned w xs).1 ys).2) := by
  induction xs generalizing w with
  | nil => rfl
  | cons op ops ih =>
    simp only [List.cons_append, run]
    rw [ih]

end Verif.Future
