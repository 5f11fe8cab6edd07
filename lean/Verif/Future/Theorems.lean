import Verif.Future.Lemmas

/-!
# C44: futures
-/

namespace Verif.Future

set_option linter.unusedSectionVars false

variable {V E : Type}

theorem snoc_induction {α : Type} {motive : List α → Prop} (l : List α) (nil : motive [])
    (append_singleton : ∀ l a, motive l → motive (l ++ [a])) : motive l := by
  have : ∀ n, ∀ l : List α, l.length = n → motive l := by
    intro n
    induction n with
    | zero =>
      intro l hl
      rw [List.length_eq_zero_iff.1 hl]
      exact nil
    | succ n ih =>
      intro l hl
      rcases List.eq_nil_or_concat l with rfl | ⟨l', a, rfl⟩
      · cases hl
      · rw [List.concat_eq_append] at hl ⊢
        exact append_singleton l' a (ih l' (by simpa using hl))
  exact this _ l rfl

/-! ### The value -/

/-- A future shows the value that the owner of its writer set, and the cancelled error if the owner
was destroyed instead. -/
theorem C44_peek (hasType : V → Bool) (orphaned : E) (w : World V E) (tr : Trace V E)
    (h : Reached hasType orphaned w tr) :
    (step hasType orphaned w .peek).2 = .peeked (result orphaned tr) ∧
    (step hasType orphaned w .getForTesting).2 =
      (if result orphaned tr = none then .noValue else .peeked (result orphaned tr)) := by
  have hi := reached_inv h
  simp only [step]
  rw [← hi.value]
  refine ⟨rfl, ?_⟩
  cases w.value <;> simp

/-- Once there is a value, it does not change. -/
theorem C44_immutable (hasType : V → Bool) (orphaned : E) (before after : List (Op V E))
    (value : Value V E)
    (h : (step hasType orphaned (run hasType orphaned {} before).1 .peek).2 =
      .peeked (some value)) :
    (step hasType orphaned (run hasType orphaned {} (before ++ after)).1 .peek).2 =
      .peeked (some value) := by
  have h1 := (C44_peek hasType orphaned _ _ ⟨before, rfl⟩).1
  have h2 := (C44_peek hasType orphaned _ _ ⟨before ++ after, rfl⟩).1
  rw [h2]
  rw [h1] at h
  simp only [Out.peeked.injEq] at h ⊢
  rw [run_append]
  simp only
  generalize (run hasType orphaned (run hasType orphaned {} before).1 after).2 = rest
  induction rest using snoc_induction with
  | nil => simpa using h
  | append_singleton tr e ih =>
    rw [← List.append_assoc, result_snoc, ih]
    rfl

/-- Only the owner of the writer can set the value, once, and only to an error or a value of the
type of the future. -/
theorem C44_set (hasType : V → Bool) (orphaned : E) (w : World V E) (tr : Trace V E)
    (h : Reached hasType orphaned w tr) (i : Nat) (value : Value V E) :
    (step hasType orphaned w (.setValue i value)).2 = .done ↔
      owner tr = some i ∧ ∀ v, value = .ok v → hasType v = true := by
  have hi := reached_inv h
  simp only [step, World.setValue]
  have ho := hi.owner i
  rcases hw : (w.writers[i]?).join with _ | _ | _
  · rw [hw] at ho
    simp only [reduceCtorEq, false_iff, not_and]
    intro hc
    exact absurd (ho.2 hc) (by simp)
  · rw [hw] at ho
    simp only [reduceCtorEq, false_iff, not_and]
    intro hc
    exact absurd (ho.2 hc) (by simp)
  · have hown := ho.1 hw
    have hv : w.value = none := by rw [hi.value]; exact hi.resolved (by rw [hown]; simp)
    simp only [World.set, hv]
    cases value with
    | ok v =>
      cases hv : hasType v <;> simp [wrongType, hv, hown]
    | error e => simp [wrongType, hown]

/-- Destroying a writer never fails. -/
theorem C44_destroy (hasType : V → Bool) (orphaned : E) (w : World V E) (tr : Trace V E)
    (h : Reached hasType orphaned w tr) (i : Nat) :
    (step hasType orphaned w (.destroyWriter i)).2 ≠ .fatal := by
  have hi := reached_inv h
  simp only [step, World.destroyWriter]
  rcases hw : (w.writers[i]?).join with _ | _ | _
  · simp
  · simp
  · have hown := (hi.owner i).1 hw
    have hv : w.value = none := by rw [hi.value]; exact hi.resolved (by rw [hown]; simp)
    simp [World.set, wrongType, hv]

/-- The right to set the value is lost only by setting it, unless a writer is overwritten. -/
theorem C44_no_loss (hasType : V → Bool) (orphaned : E) (ops : List (Op V E))
    (hops : ∀ i, Op.overwriteWriter i ∉ ops) (w : World V E) (tr : Trace V E)
    (h : run hasType orphaned {} ops = (w, tr)) (hown : owner tr = none) :
    result orphaned tr ≠ none := by
  have key : ∀ (tr : Trace V E), (∀ e ∈ tr, ∀ i, e.1 ≠ .overwriteWriter i) →
      owner tr = none → result orphaned tr ≠ none := by
    intro tr
    induction tr using snoc_induction with
    | nil =>
      intro _ hc
      cases hc
    | append_singleton tr e ih =>
      intro hall ho
      rw [owner_snoc] at ho
      rw [result_snoc]
      by_cases hprev : owner tr = none
      · have := ih (fun x hx => hall x (by simp [hx])) hprev
        cases hr : result orphaned tr with
        | none => exact absurd hr this
        | some v => simp
      · cases hp : owner tr with
        | none => exact absurd hp hprev
        | some j =>
          rw [hp] at ho
          obtain ⟨op, out⟩ := e
          cases op with
          | setValue i v =>
            cases out <;> simp [ownerAfter] at ho
            subst ho
            cases result orphaned tr <;> simp [valueBy]
          | destroyWriter i =>
            simp [ownerAfter] at ho
            subst ho
            cases result orphaned tr <;> simp [valueBy]
          | moveWriter i =>
            cases out <;> simp [ownerAfter] at ho
            split at ho <;> cases ho
          | overwriteWriter i =>
            exact absurd rfl (hall (.overwriteWriter i, out) (List.mem_append.2 (.inr (by simp))) i)
          | _ => simp [ownerAfter] at ho
  apply key tr _ hown
  have hfst : ∀ (ops : List (Op V E)) (w : World V E),
      (run hasType orphaned w ops).2.map Prod.fst = ops := by
    intro ops
    induction ops with
    | nil => intro w; rfl
    | cons op ops ih =>
      intro w
      simp only [run, List.map_cons]
      rw [ih]
  intro e he i hc
  have := hfst ops {}
  rw [h] at this
  apply hops i
  rw [← this, ← hc]
  exact List.mem_map_of_mem he

/-! ### The consumers -/

/-- A step calls a consumer with a value, `none` for a callback that takes no value. -/
def Callable (hasType : V → Bool) (orphaned : E) (w : World V E) (id : Nat)
    (value : Option (Value V E)) (i : Nat) : Prop :=
  (step hasType orphaned w (.call i)).2 = .called id value

theorem callable_iff (hasType : V → Bool) (orphaned : E) (w : World V E) (id : Nat)
    (value : Option (Value V E)) (i : Nat) :
    Callable hasType orphaned w id value i ↔
      ∃ c v, w.pool[i]? = some (c, v) ∧ c.id = id ∧ (if c.ignores then none else some v) = value := by
  unfold Callable
  simp only [step]
  cases h : w.pool[i]? with
  | none => simp
  | some p =>
    obtain ⟨c, v⟩ := p
    simp only [Out.called.injEq, Option.some.injEq, Prod.mk.injEq]
    constructor
    · rintro ⟨h1, h2⟩
      exact ⟨c, v, ⟨rfl, rfl⟩, h1, h2⟩
    · rintro ⟨c', v', ⟨rfl, rfl⟩, h1, h2⟩
      exact ⟨h1, h2⟩

theorem unique_of_count {α : Type} (l : List α) (f : α → Nat) (x : Nat)
    (h : (l.map f).count x = 1) :
    ∃ (i : Nat) (a : α), l[i]? = some a ∧ f a = x ∧
      ∀ (j : Nat) (b : α), l[j]? = some b → f b = x → j = i := by
  induction l with
  | nil => simp at h
  | cons y ys ih =>
    by_cases hy : f y = x
    · have hz : x ∉ ys.map f := by
        rw [← List.count_eq_zero]
        rw [List.map_cons, List.count_cons, if_pos (by simpa using hy)] at h
        omega
      refine ⟨0, y, rfl, hy, ?_⟩
      intro j b hj hb
      cases j with
      | zero => rfl
      | succ j =>
        exfalso
        apply hz
        rw [← hb]
        exact List.mem_map_of_mem (List.mem_of_getElem? (by simpa using hj))
    · rw [List.map_cons, List.count_cons, if_neg (by simpa using hy), Nat.add_zero] at h
      obtain ⟨i, a, hi, ha, hu⟩ := ih h
      refine ⟨i + 1, a, by simpa using hi, ha, ?_⟩
      intro j b hj hb
      cases j with
      | zero =>
        simp at hj
        exact absurd (hj ▸ hb) hy
      | succ j => rw [hu j b (by simpa using hj) hb]

/-- A consumer that was added once. -/
structure Sub (orphaned : E) (w : World V E) (tr : Trace V E) (id : Nat) (ignores : Bool) :
    Prop where
  once : (added tr).count id = 1
  waits : w.value = none → id ∈ w.consumers.map Consumer.id
  consumers : ∀ c ∈ w.consumers, c.id = id → c.ignores = ignores
  pool : ∀ p ∈ w.pool, p.1.id = id → p.1.ignores = ignores
  calls : ∀ op x, (op, Out.called id x) ∈ tr →
    ∃ v, result orphaned tr = some v ∧ x = if ignores then none else some v

theorem result_mono (orphaned : E) (tr : Trace V E) (e : Op V E × Out V E) (v : Value V E)
    (h : result orphaned tr = some v) : result orphaned (tr ++ [e]) = some v := by
  rw [result_snoc, h]
  rfl

/-- What a step does to the consumers and the pool. -/
theorem step_pool (hasType : V → Bool) (orphaned : E) (w : World V E) (op : Op V E) :
    ((step hasType orphaned w op).1.value = none →
      w.value = none ∧ ∀ c ∈ w.consumers, c ∈ (step hasType orphaned w op).1.consumers) ∧
    (∀ c ∈ (step hasType orphaned w op).1.consumers, c ∈ w.consumers ∨
      op = .addConsumer c.id ∧ c.ignores = false ∨ ∃ r, op = .subscribe r c.id ∧ c.ignores = true) ∧
    (∀ p ∈ (step hasType orphaned w op).1.pool, p ∈ w.pool ∨ p.1 ∈ w.consumers ∨
      op = .addConsumer p.1.id ∧ p.1.ignores = false ∨
      ∃ r, op = .subscribe r p.1.id ∧ p.1.ignores = true) := by
  have hadd : ∀ c : Consumer,
      ((w.addConsumer c).value = none → w.value = none ∧ ∀ d ∈ w.consumers,
        d ∈ (w.addConsumer c).consumers) ∧
      (∀ d ∈ (w.addConsumer c).consumers, d ∈ w.consumers ∨ d = c) ∧
      (∀ p ∈ (w.addConsumer c).pool, p ∈ w.pool ∨ p.1 = c) := by
    intro c
    unfold World.addConsumer
    cases hv : w.value with
    | none =>
      simp only
      refine ⟨fun _ => ⟨trivial, fun d hd => by simp [hd]⟩, fun d hd => by simpa using hd,
        fun p hp => .inl hp⟩
    | some v =>
      simp only
      refine ⟨(fun hc => by cases hc), fun d hd => .inl hd, ?_⟩
      intro p hp
      rcases List.mem_append.1 hp with hp | hp
      · exact .inl hp
      · rw [List.mem_singleton] at hp
        exact .inr (by rw [hp])
  have hsame : (w.value = none → w.value = none ∧ ∀ c ∈ w.consumers, c ∈ w.consumers) ∧
      (∀ c ∈ w.consumers, c ∈ w.consumers ∨
        op = .addConsumer c.id ∧ c.ignores = false ∨
        ∃ r, op = .subscribe r c.id ∧ c.ignores = true) ∧
      (∀ p ∈ w.pool, p ∈ w.pool ∨ p.1 ∈ w.consumers ∨
        op = .addConsumer p.1.id ∧ p.1.ignores = false ∨
        ∃ r, op = .subscribe r p.1.id ∧ p.1.ignores = true) :=
    ⟨fun h => ⟨h, fun c hc => hc⟩, fun c hc => .inl hc, fun p hp => .inl hp⟩
  have hset : ∀ value w', w.set hasType value = some w' →
      (w'.value = none → w.value = none ∧ ∀ c ∈ w.consumers, c ∈ w'.consumers) ∧
      (∀ c ∈ w'.consumers, c ∈ w.consumers ∨
        op = .addConsumer c.id ∧ c.ignores = false ∨
        ∃ r, op = .subscribe r c.id ∧ c.ignores = true) ∧
      (∀ p ∈ w'.pool, p ∈ w.pool ∨ p.1 ∈ w.consumers ∨
        op = .addConsumer p.1.id ∧ p.1.ignores = false ∨
        ∃ r, op = .subscribe r p.1.id ∧ p.1.ignores = true) := by
    intro value w' hs
    unfold World.set at hs
    split at hs
    · cases hs
    · split at hs
      · cases hs
      · simp only [Option.some.injEq] at hs
        subst hs
        refine ⟨(fun hc => by cases hc), (fun c hc => by cases hc), ?_⟩
        intro p hp
        rcases List.mem_append.1 hp with hp | hp
        · exact .inl hp
        · obtain ⟨c, hc, rfl⟩ := List.mem_map.1 hp
          exact .inr (.inl hc)
  cases op with
  | addConsumer id =>
    obtain ⟨h1, h2, h3⟩ := hadd ⟨id, false⟩
    refine ⟨h1, ?_, ?_⟩
    · intro c hc
      rcases h2 c hc with h | rfl
      · exact .inl h
      · exact .inr (.inl ⟨rfl, rfl⟩)
    · rintro ⟨c, v⟩ hp
      rcases h3 _ hp with h | h
      · exact .inl h
      · exact .inr (.inr (.inl ⟨by rw [h], by rw [h]⟩))
  | setValue i v =>
    simp only [step, World.setValue]
    split
    · exact hsame
    · exact hsame
    · split
      · exact hsame
      · rename_i w' hs
        have := hset _ w' hs
        exact this
  | destroyWriter i =>
    simp only [step, World.destroyWriter]
    split
    · exact hsame
    · exact hsame
    · split
      · exact hsame
      · rename_i w' hs
        have := hset _ w' hs
        exact this
  | moveWriter i =>
    simp only [step]
    split <;> exact hsame
  | overwriteWriter i =>
    simp only [step]
    split <;> exact hsame
  | peek => exact hsame
  | getForTesting =>
    simp only [step]
    split <;> exact hsame
  | makeReader => exact hsame
  | tryRead r =>
    simp only [step]
    split <;> exact hsame
  | subscribe r id =>
    simp only [step]
    split
    · exact hsame
    · obtain ⟨h1, h2, h3⟩ := hadd ⟨id, true⟩
      refine ⟨h1, ?_, ?_⟩
      · intro c hc
        rcases h2 c hc with h | rfl
        · exact .inl h
        · exact .inr (.inr ⟨r, rfl, rfl⟩)
      · rintro ⟨c, v⟩ hp
        rcases h3 _ hp with h | h
        · exact .inl h
        · exact .inr (.inr (.inr ⟨r, by rw [h], by rw [h]⟩))
  | call i =>
    simp only [step]
    split
    · exact hsame
    · refine ⟨hsame.1, hsame.2.1, ?_⟩
      intro p hp
      exact .inl (List.mem_of_mem_eraseIdx hp)

/-- What a step calls was in the pool. -/
theorem called_mem (hasType : V → Bool) (orphaned : E) (w : World V E) (op : Op V E) (id : Nat)
    (x : Option (Value V E)) (h : (step hasType orphaned w op).2 = .called id x) :
    ∃ p ∈ w.pool, p.1.id = id ∧ x = if p.1.ignores then none else some p.2 := by
  cases op <;> simp only [step] at h
  case addConsumer => cases h
  case setValue =>
    unfold World.setValue at h
    split at h
    · cases h
    · cases h
    · split at h <;> cases h
  case destroyWriter =>
    unfold World.destroyWriter at h
    split at h
    · cases h
    · cases h
    · split at h <;> cases h
  case moveWriter => split at h <;> cases h
  case overwriteWriter => split at h <;> cases h
  case peek => cases h
  case getForTesting => split at h <;> cases h
  case makeReader => cases h
  case tryRead => split at h <;> cases h
  case subscribe => split at h <;> cases h
  case call i =>
    split at h
    · cases h
    · rename_i c v hc
      simp only [Out.called.injEq] at h
      exact ⟨(c, v), List.mem_of_getElem? hc, h.1, h.2.symm⟩

theorem sub_step (hasType : V → Bool) (orphaned : E) (w : World V E) (tr : Trace V E)
    (hi : Inv orphaned w tr) (id : Nat) (ignores : Bool) (h : Sub orphaned w tr id ignores)
    (op : Op V E) (h1 : op ≠ .addConsumer id) (h2 : ∀ r, op ≠ .subscribe r id) :
    Sub orphaned (step hasType orphaned w op).1 (tr ++ [(op, (step hasType orphaned w op).2)]) id
      ignores := by
  obtain ⟨p1, p2, p3⟩ := step_pool hasType orphaned w op
  constructor
  · rw [added_snoc, List.count_append, h.once]
    have : (addedBy (op, (step hasType orphaned w op).2)).toList.count id = 0 := by
      rw [List.count_eq_zero]
      intro hm
      cases op <;> cases hout : (step hasType orphaned w _).2 <;> rw [hout] at hm <;>
        simp [addedBy] at hm
      · exact h1 (by rw [hm])
      · exact h2 _ (by rw [hm])
    omega
  · intro hv
    obtain ⟨hv', hc⟩ := p1 hv
    obtain ⟨c, hc', hid⟩ := List.mem_map.1 (h.waits hv')
    exact List.mem_map.2 ⟨c, hc c hc', hid⟩
  · intro c hc hid
    rcases p2 c hc with hc | ⟨hop, _⟩ | ⟨r, hop, _⟩
    · exact h.consumers c hc hid
    · exact absurd (by rw [hop, hid]) h1
    · exact absurd (by rw [hop, hid]) (h2 r)
  · intro p hp hid
    rcases p3 p hp with hp | hp | ⟨hop, _⟩ | ⟨r, hop, _⟩
    · exact h.pool p hp hid
    · exact h.consumers _ hp hid
    · exact absurd (by rw [hop, hid]) h1
    · exact absurd (by rw [hop, hid]) (h2 r)
  · intro op' x hm
    rcases List.mem_append.1 hm with hm | hm
    · obtain ⟨v, hv, hx⟩ := h.calls op' x hm
      exact ⟨v, result_mono _ _ _ _ hv, hx⟩
    · rw [List.mem_singleton] at hm
      have hout : (step hasType orphaned w op).2 = .called id x := (congrArg Prod.snd hm).symm
      obtain ⟨p, hp, hpid, hx⟩ := called_mem hasType orphaned w op id x hout
      refine ⟨p.2, ?_, ?_⟩
      · apply result_mono
        rw [← hi.value]
        exact hi.pool p hp
      · rw [hx, h.pool p hp hpid]

theorem sub_run (hasType : V → Bool) (orphaned : E) (ops : List (Op V E)) (w : World V E)
    (tr : Trace V E) (hi : Inv orphaned w tr) (id : Nat) (ignores : Bool)
    (h : Sub orphaned w tr id ignores) (h1 : Op.addConsumer id ∉ ops)
    (h2 : ∀ r, Op.subscribe r id ∉ ops) :
    Sub orphaned (run hasType orphaned w ops).1 (tr ++ (run hasType orphaned w ops).2) id
      ignores := by
  induction ops generalizing w tr with
  | nil =>
    simp only [run, List.append_nil]
    exact h
  | cons op ops ih =>
    have := ih _ _ (inv_step hasType orphaned w tr hi op)
      (sub_step hasType orphaned w tr hi id ignores h op (fun hc => h1 (by simp [hc]))
        (fun r hc => h2 r (by simp [hc])))
      (fun hc => h1 (by simp [hc])) (fun r hc => h2 r (by simp [hc]))
    simp only [run]
    simpa using this

theorem added_ops (hasType : V → Bool) (orphaned : E) (ops : List (Op V E)) (w : World V E)
    (id : Nat) (h1 : Op.addConsumer id ∉ ops) (h2 : ∀ r, Op.subscribe r id ∉ ops) :
    (added (run hasType orphaned w ops).2).count id = 0 := by
  induction ops generalizing w with
  | nil => rfl
  | cons op ops ih =>
    have hrest := ih (step hasType orphaned w op).1 (fun hc => h1 (by simp [hc]))
      (fun r hr => h2 r (by simp [hr]))
    rw [List.count_eq_zero] at hrest ⊢
    simp only [run]
    intro hm
    unfold added at hm
    rw [List.mem_filterMap] at hm
    obtain ⟨e, he, hcb⟩ := hm
    rcases List.mem_cons.1 he with rfl | he
    · cases op <;> cases hout : (step hasType orphaned w _).2 <;> rw [hout] at hcb <;>
        simp [addedBy] at hcb
      · subst hcb
        exact h1 (List.mem_cons_self ..)
      · subst hcb
        exact h2 _ (List.mem_cons_self ..)
    · exact hrest (List.mem_filterMap.2 ⟨e, he, hcb⟩)

/-- The way a consumer is added: as such, or as a callback of a stream reader. -/
def adds (id : Nat) (op : Op V E) (ignores : Bool) : Prop :=
  (op = .addConsumer id ∧ ignores = false) ∨ ∃ r, op = .subscribe r id ∧ ignores = true

theorem sub_start (hasType : V → Bool) (orphaned : E) (w : World V E) (tr : Trace V E)
    (hi : Inv orphaned w tr) (id : Nat) (op : Op V E) (ignores : Bool) (hop : adds id op ignores)
    (hdone : (step hasType orphaned w op).2 = .done) (hn : (added tr).count id = 0) :
    Sub orphaned (step hasType orphaned w op).1 (tr ++ [(op, .done)]) id ignores := by
  have hstep : (step hasType orphaned w op).1 = w.addConsumer ⟨id, ignores⟩ := by
    rcases hop with ⟨rfl, rfl⟩ | ⟨r, rfl, rfl⟩
    · rfl
    · simp only [step] at hdone ⊢
      split at hdone
      · cases hdone
      · rename_i q hq
        rfl
  have hadd : addedBy (op, (.done : Out V E)) = some id := by
    rcases hop with ⟨rfl, rfl⟩ | ⟨r, rfl, rfl⟩ <;> rfl
  have hcount := hi.count id
  rw [hn, List.count_append, List.count_append] at hcount
  have hc : id ∉ w.consumers.map Consumer.id := by rw [← List.count_eq_zero]; omega
  have hp : id ∉ w.pool.map (fun p => p.1.id) := by rw [← List.count_eq_zero]; omega
  have hcl : id ∉ called tr := by rw [← List.count_eq_zero]; omega
  rw [hstep]
  constructor
  · rw [added_snoc, List.count_append, hn, hadd]
    simp
  · unfold World.addConsumer
    cases hv : w.value with
    | none => simp
    | some v => simp
  · intro c hmem hid
    unfold World.addConsumer at hmem
    cases hv : w.value with
    | none =>
      rw [hv] at hmem
      rcases List.mem_append.1 hmem with hm | hm
      · exact absurd (List.mem_map.2 ⟨c, hm, hid⟩) hc
      · rw [List.mem_singleton] at hm
        rw [hm]
    | some v =>
      rw [hv] at hmem
      exact absurd (List.mem_map.2 ⟨c, hmem, hid⟩) hc
  · intro p hmem hid
    unfold World.addConsumer at hmem
    cases hv : w.value with
    | none =>
      rw [hv] at hmem
      exact absurd (List.mem_map.2 ⟨p, hmem, hid⟩) hp
    | some v =>
      rw [hv] at hmem
      rcases List.mem_append.1 hmem with hm | hm
      · exact absurd (List.mem_map.2 ⟨p, hm, hid⟩) hp
      · rw [List.mem_singleton] at hm
        rw [hm]
  · intro op' x hmem
    exfalso
    rcases List.mem_append.1 hmem with hm | hm
    · exact hcl (List.mem_filterMap.2 ⟨_, hm, rfl⟩)
    · rw [List.mem_singleton] at hm
      exact absurd (congrArg Prod.snd hm) (by simp)

/-- A consumer is added. As long as the future has no value, it was not called and cannot be called.
When the future has a value, it was called once, with the value, and cannot be called again, or it
was not called and can be called once, with the value. A callback of a stream reader gets no value,
but is called just so. -/
theorem C44_exactly_once (hasType : V → Bool) (orphaned : E) (before after : List (Op V E))
    (id : Nat) (op : Op V E) (ignores : Bool) (hop : adds id op ignores)
    (hdone : (step hasType orphaned (run hasType orphaned {} before).1 op).2 = .done)
    (hops : ∀ o ∈ before ++ after, ∀ b, ¬ adds id o b) (w : World V E) (tr : Trace V E)
    (hrun : run hasType orphaned {} (before ++ op :: after) = (w, tr)) :
    (result orphaned tr = none → id ∉ called tr ∧ ∀ x i, ¬ Callable hasType orphaned w id x i) ∧
    (∀ v, result orphaned tr = some v →
      ((called tr).count id = 1 ∧
        (∃ o, (o, Out.called id (if ignores then none else some v)) ∈ tr) ∧
        ∀ x i, ¬ Callable hasType orphaned w id x i) ∨
      (id ∉ called tr ∧ ∃ i, Callable hasType orphaned w id (if ignores then none else some v) i ∧
        ∀ x j, Callable hasType orphaned w id x j → j = i)) := by
  have hi := inv_start hasType orphaned before
  have hb1 : Op.addConsumer id ∉ before ++ after :=
    fun hm => hops _ hm false (.inl ⟨rfl, rfl⟩)
  have hb2 : ∀ r, Op.subscribe r id ∉ before ++ after :=
    fun r hm => hops _ hm true (.inr ⟨r, rfl, rfl⟩)
  have hzero := added_ops hasType orphaned before {} id (fun hm => hb1 (by simp [hm]))
    (fun r hm => hb2 r (by simp [hm]))
  rw [run_append] at hrun
  generalize run hasType orphaned {} before = b at *
  obtain ⟨w1, tr1⟩ := b
  simp only at *
  have hstart := sub_start hasType orphaned w1 tr1 hi id op ignores hop hdone hzero
  have hinv := inv_step hasType orphaned w1 tr1 hi op
  rw [hdone] at hinv
  have hsub := sub_run hasType orphaned after _ _ hinv id ignores hstart
    (fun hm => hb1 (by simp [hm])) (fun r hm => hb2 r (by simp [hm]))
  have hfin := inv_run hasType orphaned after _ _ hinv
  simp only [run, Prod.mk.injEq] at hrun
  obtain ⟨rfl, rfl⟩ := hrun
  rw [hdone] at *
  rw [List.append_assoc, List.singleton_append] at hsub hfin
  generalize hwd : (run hasType orphaned (step hasType orphaned w1 op).1 after).1 = w at *
  generalize htd : tr1 ++ (op, Out.done) ::
    (run hasType orphaned (step hasType orphaned w1 op).1 after).2 = tr at *
  have hcount := hfin.count id
  rw [hsub.once, List.count_append, List.count_append] at hcount
  simp only [callable_iff]
  constructor
  · intro hnone
    have hmem := List.count_pos_iff.2 (hsub.waits (by rw [hfin.value]; exact hnone))
    refine ⟨?_, ?_⟩
    · rw [← List.count_eq_zero]
      omega
    · rintro x i ⟨c, v, hc, hid, _⟩
      have : id ∈ w.pool.map (fun p => p.1.id) :=
        List.mem_map.2 ⟨_, List.mem_of_getElem? hc, hid⟩
      have := List.count_pos_iff.2 this
      omega
  · intro v hv
    have hval : w.value = some v := by rw [hfin.value]; exact hv
    have hemp := hfin.empty (by rw [hval]; simp)
    rw [hemp] at hcount
    simp only [List.map_nil, List.count_nil, Nat.zero_add] at hcount
    by_cases hp : (w.pool.map (fun p => p.1.id)).count id = 0
    · left
      have hone : (called tr).count id = 1 := by omega
      refine ⟨hone, ?_, ?_⟩
      · have hm : id ∈ called tr := List.count_pos_iff.1 (by omega)
        obtain ⟨⟨o, out⟩, he, hcb⟩ := List.mem_filterMap.1 hm
        cases out <;> simp [calledBy] at hcb
        rename_i id' x
        subst hcb
        obtain ⟨v', hv', hx⟩ := hsub.calls o x he
        rw [hv] at hv'
        cases hv'
        exact ⟨o, by rw [← hx]; exact he⟩
      · rintro x i ⟨c, v', hc, hid, _⟩
        exact List.count_eq_zero.1 hp (List.mem_map.2 ⟨_, List.mem_of_getElem? hc, hid⟩)
    · right
      refine ⟨by rw [← List.count_eq_zero]; omega, ?_⟩
      obtain ⟨i, ⟨c, v'⟩, hi1, hi2, hi3⟩ :=
        unique_of_count w.pool (fun p => p.1.id) id (by omega)
      refine ⟨i, ⟨c, v', hi1, hi2, ?_⟩, ?_⟩
      · have hmem := List.mem_of_getElem? hi1
        rw [hsub.pool _ hmem hi2]
        have := hfin.pool _ hmem
        rw [hval] at this
        cases this
        rfl
      · rintro x j ⟨c', v'', hj, hid, _⟩
        exact hi3 j _ hj hid

/-- Adding a consumer never fails. -/
theorem C44_add (hasType : V → Bool) (orphaned : E) (w : World V E) (id : Nat) :
    (step hasType orphaned w (.addConsumer id)).2 = .done := rfl

/-! ### The stream of a future -/

/-- A reader of the stream of a future gets the value as the only item, then the end; an error ends
the stream at once. -/
theorem C44_read (hasType : V → Bool) (orphaned : E) (w : World V E) (tr : Trace V E)
    (h : Reached hasType orphaned w tr) (r : Nat) (hr : r ∈ made tr) :
    (step hasType orphaned w (.tryRead r)).2 = .read (nextRead (result orphaned tr) (got r tr)) ∧
    (∀ id, (step hasType orphaned w (.subscribe r id)).2 = .done) ∧
    (got r tr = [] ∨ ∃ v, result orphaned tr = some (.ok v) ∧ got r tr = [v]) := by
  have hi := reached_inv h
  rw [hi.made, List.mem_range] at hr
  have hq : w.readers[r]? = some w.readers[r] := List.getElem?_eq_getElem hr
  have hok := hi.readers r _ hq
  refine ⟨?_, ?_, ?_⟩
  · simp only [step, hq]
    rw [(read_ok _ _ _ hok).1, hi.value]
  · intro id
    simp only [step, hq]
  · rw [← hi.value]
    rcases hok with ⟨_, h⟩ | ⟨v, h1, h2, _⟩ | ⟨e, _, h, _⟩
    · exact .inl h
    · exact .inr ⟨v, h1, h2⟩
    · exact .inl h

/-- The stream of a future gives new readers. -/
theorem C44_makeReader (hasType : V → Bool) (orphaned : E) (w : World V E) (tr : Trace V E)
    (h : Reached hasType orphaned w tr) :
    ∃ r, (step hasType orphaned w .makeReader).2 = .reader r ∧ r ∉ made tr := by
  have hi := reached_inv h
  refine ⟨w.readers.length, rfl, ?_⟩
  rw [hi.made]
  simp

/-- Move-assigning to a writer that was not used loses the future: nobody can set its value any
more, and its consumers are never called. The default assignment of `FutureWriter` does not do what
its destructor does. -/
theorem C44_overwritten :
    ∃ tr, Reached (V := Nat) (E := Nat) (fun _ => true) 9
        (run (fun _ => true) 9 {} [.addConsumer 1, .overwriteWriter 0, .destroyWriter 0]).1 tr ∧
      owner tr = none ∧ result 9 tr = none := by
  exact ⟨_, ⟨_, rfl⟩, rfl, rfl⟩

/-! ### Examples -/

example : (run (fun v : Nat => v < 10) 99 {}
    [.addConsumer 1, .makeReader, .tryRead 0, .subscribe 0 2, .peek, .setValue 0 (.ok 12),
      .moveWriter 0, .setValue 0 (.ok 5), .setValue 1 (.ok 5), .addConsumer 3, .call 1, .call 1,
      .tryRead 0, .tryRead 0, .call 0, .setValue 1 (.ok 6), .destroyWriter 1, .getForTesting]).2.map
        Prod.snd =
    [.done, .reader 0, .read .empty, .done, .peeked none, .fatal, .writer 1, .fatal, .done, .done,
      .called 2 none, .called 3 (some (.ok 5)), .read (.item 5), .read (.closed none),
      .called 1 (some (.ok 5)), .fatal, .done, .peeked (some (.ok 5))] := by decide +kernel

example : (run (fun v : Nat => v < 10) 99 {}
    [.addConsumer 1, .getForTesting, .makeReader, .destroyWriter 0, .call 0, .tryRead 0,
      .tryRead 0]).2.map Prod.snd =
    [.done, .noValue, .reader 0, .done, .called 1 (some (.error 99)), .read (.closed (some 99)),
      .read (.closed (some 99))] := by decide +kernel

example : adds (V := Nat) (E := Nat) 1 (.addConsumer 1) false := .inl ⟨rfl, rfl⟩

end Verif.Future
