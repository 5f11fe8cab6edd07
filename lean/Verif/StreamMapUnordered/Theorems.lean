import Verif.StreamMapUnordered.Progress

/-!
C40: the output of `stream.map_unordered` has the mapped items, each once.
-/

namespace Verif.StreamMapUnordered

open Verif.StreamMap (Config Output res)

set_option linter.unusedSectionVars false

variable {A B S : Type} [DecidableEq S]

/-! ### Permutations -/

/-- Distinct elements of a list are a part of a permutation of it. -/
theorem nodup_perm : ∀ (xs ys : List Nat), xs.Nodup → (∀ x ∈ xs, x ∈ ys) →
    ∃ rest, (xs ++ rest).Perm ys := by
  intro xs
  induction xs with
  | nil => exact fun ys _ _ => ⟨ys, List.Perm.refl _⟩
  | cons x xs ih =>
    intro ys hn hs
    rw [List.nodup_cons] at hn
    have hx : x ∈ ys := hs x (List.mem_cons_self ..)
    obtain ⟨rest, hr⟩ := ih (ys.erase x) hn.2 (fun y hy => by
      have hne : y ≠ x := fun he => hn.1 (he ▸ hy)
      exact (List.mem_erase_of_ne hne).2 (hs y (List.mem_cons_of_mem _ hy)))
    exact ⟨rest, (hr.cons x).trans (List.perm_cons_erase hx).symm⟩

/-- The value of the task of an offset. -/
def value (c : Config A B S) (k : Nat) : Option B :=
  match res c k with
  | some (.ok b) => some b
  | _ => none

theorem range_filterMap (f : A → Option B) : ∀ l : List A,
    (List.range l.length).filterMap (fun k => (l[k]?).bind f) = l.filterMap f := by
  intro l
  induction l with
  | nil => rfl
  | cons a l ih =>
    rw [List.length_cons, List.range_succ_eq_map, List.filterMap_cons, List.filterMap_map,
      List.filterMap_cons]
    have e : ((fun k => ((a :: l)[k]?).bind f) ∘ Nat.succ) = fun (k : Nat) => (l[k]?).bind f := by
      funext k
      simp
    rw [e, ih]
    simp

theorem values_mapped (c : Config A B S) :
    (List.range c.input.length).filterMap (value c) = mapped c.functor c.hasType c.input := by
  unfold mapped
  rw [← range_filterMap _ c.input]
  refine congrArg (fun g => (List.range c.input.length).filterMap g) ?_
  funext k
  unfold value res
  cases hk : c.input[k]? with
  | none => rfl
  | some a =>
    simp only [Option.map_some, Option.bind_some, StreamMap.Config.result]
    cases c.functor a with
    | error s => rfl
    | ok b =>
      simp only
      by_cases ht : c.hasType b = true
      · rw [if_pos ht, if_pos ht]
      · rw [if_neg ht, if_neg ht]

theorem written_values {c : Config A B S} : ∀ (offs : List Nat) (items : List B),
    offs.map (res c) = items.map (fun b => some (.ok b)) → offs.filterMap (value c) = items := by
  intro offs
  induction offs with
  | nil =>
    intro items h
    cases items with
    | nil => rfl
    | cons b bs => cases h
  | cons k ks ih =>
    intro items h
    cases items with
    | nil => cases h
    | cons b bs =>
      rw [List.map_cons, List.map_cons, List.cons.injEq] at h
      rw [List.filterMap_cons]
      have hv : value c k = some b := by
        unfold value
        rw [h.1]
      rw [hv]
      simp only
      rw [ih bs h.2]

theorem res_error {c : Config A B S} {k : Nat} {s : S} (h : res c k = some (.error s)) :
    IsError c s := by
  unfold res at h
  cases hk : c.input[k]? with
  | none =>
    rw [hk] at h
    cases h
  | some a =>
    rw [hk] at h
    have hm := List.mem_of_getElem? hk
    simp only [Option.map_some, Option.some.injEq, StreamMap.Config.result] at h
    cases hf : c.functor a with
    | error s' =>
      rw [hf] at h
      simp only at h
      cases h
      exact .inl ⟨a, hm, hf⟩
    | ok b =>
      rw [hf] at h
      simp only at h
      split at h
      · cases h
      · rename_i ht
        cases h
        exact .inr (.inl ⟨a, hm, b, hf, by simpa using ht, rfl⟩)

/-- Where all items were written there is no error. -/
theorem all_written {c : Config A B S} {orphaned : S} {w : World B S} (h : Inv c orphaned w)
    (hlen : w.out.items.length = c.input.length) (hok : c.ending = c.ok) :
    (∀ e, ¬ IsError c e) ∧ w.out.items.Perm (mapped c.functor c.hasType c.input) := by
  obtain ⟨offs, hn, hlt, hmap⟩ := h.data
  have hrN : w.readCount ≤ c.input.length := Nat.le_trans h.readReady h.readyAll
  obtain ⟨rest, hp⟩ := nodup_perm offs (List.range c.input.length) hn (fun k hk => by
    rw [List.mem_range]
    have := (hlt k hk).1
    omega)
  have hol : offs.length = w.out.items.length := by
    have := congrArg List.length hmap
    simpa using this
  have hrest : rest = [] := by
    have := hp.length_eq
    rw [List.length_append, List.length_range] at this
    exact List.eq_nil_of_length_eq_zero (by omega)
  subst hrest
  rw [List.append_nil] at hp
  refine ⟨?_, ?_⟩
  · have hall : ∀ (k : Nat), k < c.input.length → ∃ b, res c k = some (.ok b) := by
      intro k hk
      have hm : k ∈ offs := hp.mem_iff.2 (List.mem_range.2 hk)
      have : res c k ∈ offs.map (res c) := List.mem_map.2 ⟨k, hm, rfl⟩
      rw [hmap] at this
      obtain ⟨b, _, hb⟩ := List.mem_map.1 this
      exact ⟨b, hb.symm⟩
    have hin : ∀ a ∈ c.input, ∃ b, c.functor a = .ok b ∧ c.hasType b = true := by
      intro a ha
      obtain ⟨k, hk⟩ := List.mem_iff_getElem?.1 ha
      obtain ⟨b, hb⟩ := hall k (List.getElem?_eq_some_iff.1 hk).1
      unfold res at hb
      rw [hk] at hb
      simp only [Option.map_some, Option.some.injEq, StreamMap.Config.result] at hb
      cases hf : c.functor a with
      | error s =>
        rw [hf] at hb
        cases hb
      | ok b' =>
        rw [hf] at hb
        simp only at hb
        split at hb
        · rename_i ht
          exact ⟨b', rfl, ht⟩
        · cases hb
    intro e he
    rcases he with ⟨a, ha, hf⟩ | ⟨a, ha, b, hf, ht, _⟩ | ⟨he, hne⟩
    · obtain ⟨b, hb, _⟩ := hin a ha
      rw [hf] at hb
      cases hb
    · obtain ⟨b', hb, ht'⟩ := hin a ha
      rw [hf] at hb
      cases hb
      rw [ht] at ht'
      cases ht'
    · exact hne (he.trans hok)
  · rw [← values_mapped, ← written_values offs _ hmap]
    exact hp.filterMap _

/-! ### Steps from outside -/

theorem reader_outside (c : Config A B S) (w : World B S) :
    (w.reader c).cancelled = w.cancelled ∧ (w.reader c).out.gone = w.out.gone := by
  unfold World.reader
  split
  · exact ⟨rfl, rfl⟩
  · split
    · exact ⟨rfl, rfl⟩
    · split
      · unfold World.readerStatus
        split
        · exact ⟨rfl, rfl⟩
        · split <;> exact ⟨rfl, rfl⟩
      · exact ⟨rfl, rfl⟩
  · exact ⟨rfl, rfl⟩
  · split <;> exact ⟨rfl, rfl⟩
  · unfold World.close
    split <;> exact ⟨rfl, rfl⟩
  · exact ⟨rfl, rfl⟩

theorem task_outside (c : Config A B S) (w : World B S) (i : Nat) :
    (w.task c i).cancelled = w.cancelled ∧ (w.task c i).out.gone = w.out.gone := by
  unfold World.task
  split
  · exact ⟨rfl, rfl⟩
  · split <;> exact ⟨rfl, rfl⟩
  · unfold World.push
    split
    · exact ⟨rfl, rfl⟩
    · split <;> exact ⟨rfl, rfl⟩
    · split <;> exact ⟨rfl, rfl⟩
  · unfold World.write
    split
    · rename_i b _
      have hw : (w.out.tryWrite b).1.gone = w.out.gone := by
        unfold Output.tryWrite
        split <;> rfl
      split
      · rename_i out heq
        rw [heq] at hw
        exact ⟨rfl, hw⟩
      · exact ⟨rfl, rfl⟩
    · exact ⟨rfl, rfl⟩
  · exact ⟨rfl, rfl⟩
  · exact ⟨rfl, rfl⟩
  · unfold World.closeTask
    split
    · unfold World.close
      split <;> exact ⟨rfl, rfl⟩
    · exact ⟨rfl, rfl⟩
  · exact ⟨rfl, rfl⟩

theorem cancelStep_outside (w : World B S) :
    w.cancelStep.cancelled = w.cancelled ∧ w.cancelStep.out.gone = w.out.gone := by
  unfold World.cancelStep
  split
  · split <;> exact ⟨rfl, rfl⟩
  · unfold World.close
    split <;> exact ⟨rfl, rfl⟩
  · exact ⟨rfl, rfl⟩

theorem destroy_outside (c : Config A B S) (orphaned : S) (w : World B S) :
    (w.destroy c orphaned).cancelled = w.cancelled ∧
    (w.destroy c orphaned).out.gone = w.out.gone := by
  have htc : ∀ o : Output B S, (o.tryClose orphaned).gone = o.gone := by
    intro o
    unfold Output.tryClose
    split <;> rfl
  unfold World.destroy
  split
  · simp only
    rw [htc]
    split
    · unfold World.close
      split <;> exact ⟨rfl, rfl⟩
    · exact ⟨rfl, rfl⟩
  · exact ⟨rfl, rfl⟩

theorem cancelled_mem {c : Config A B S} {orphaned : S} (ops : List (Op S)) :
    ∀ (w : World B S) (s : S), (run c orphaned w ops).cancelled = some s →
      w.cancelled = some s ∨ .cancel s ∈ ops := by
  induction ops with
  | nil => exact fun w s h => .inl h
  | cons op ops ih =>
    intro w s h
    rcases ih _ s h with h1 | h1
    · cases op with
      | cancel s' =>
        simp only [step] at h1
        split at h1
        · simp only [Option.some.injEq] at h1
          subst h1
          exact .inr (List.mem_cons_self ..)
        · exact .inl h1
      | reader => exact .inl (by rw [← (reader_outside c w).1]; exact h1)
      | task i => exact .inl (by rw [← (task_outside c w i).1]; exact h1)
      | cancelStep => exact .inl (by rw [← (cancelStep_outside w).1]; exact h1)
      | destroy => exact .inl (by rw [← (destroy_outside c orphaned w).1]; exact h1)
      | produce => simp only [step] at h1; split at h1 <;> exact .inl h1
      | finish => simp only [step] at h1; split at h1 <;> exact .inl h1
      | drop => exact .inl h1
    · exact .inr (List.mem_cons_of_mem _ h1)

theorem gone_mem {c : Config A B S} {orphaned : S} (ops : List (Op S)) : ∀ (w : World B S),
    (run c orphaned w ops).out.gone = true → w.out.gone = true ∨ .drop ∈ ops := by
  induction ops with
  | nil => exact fun w h => .inl h
  | cons op ops ih =>
    intro w h
    rcases ih _ h with h1 | h1
    · cases op with
      | drop => exact .inr (List.mem_cons_self ..)
      | reader => exact .inl (by rw [← (reader_outside c w).2]; exact h1)
      | task i => exact .inl (by rw [← (task_outside c w i).2]; exact h1)
      | cancelStep => exact .inl (by rw [← (cancelStep_outside w).2]; exact h1)
      | destroy => exact .inl (by rw [← (destroy_outside c orphaned w).2]; exact h1)
      | produce => simp only [step] at h1; split at h1 <;> exact .inl h1
      | finish => simp only [step] at h1; split at h1 <;> exact .inl h1
      | cancel s => simp only [step] at h1; split at h1 <;> exact .inl h1
    · exact .inr (List.mem_cons_of_mem _ h1)

/-! ### C40 -/

/-- In every state of every execution, the items of the output are mapped items, each at most once.
The status of the output is that of a cancellation, or one of the errors, or OK where there is no error
and all the mapped items were written. Only an output that no one can read is closed as orphaned. -/
theorem C40_safe (c : Config A B S) (orphaned : S) (ops : List (Op S)) :
    (∃ rest, ((run c orphaned {} ops).out.items ++ rest).Perm
      (mapped c.functor c.hasType c.input)) ∧
    ∀ s, (run c orphaned {} ops).out.closed = some s →
      .cancel s ∈ ops ∨ IsError c s ∨
      (s = c.ok ∧ (∀ e, ¬ IsError c e) ∧
        (run c orphaned {} ops).out.items.Perm (mapped c.functor c.hasType c.input)) ∨
      (s = orphaned ∧ .drop ∈ ops) := by
  have h := inv_run ops (inv_new c orphaned)
  have hc0 := cancelled_mem (c := c) (orphaned := orphaned) ops {}
  have hg0 := gone_mem (c := c) (orphaned := orphaned) ops {}
  generalize run c orphaned {} ops = w at *
  refine ⟨?_, ?_⟩
  · obtain ⟨offs, hn, hlt, hmap⟩ := h.data
    have hrN : w.readCount ≤ c.input.length := Nat.le_trans h.readReady h.readyAll
    obtain ⟨rest, hp⟩ := nodup_perm offs (List.range c.input.length) hn (fun k hk => by
      rw [List.mem_range]
      have := (hlt k hk).1
      omega)
    refine ⟨rest.filterMap (value c), ?_⟩
    rw [← values_mapped, ← written_values offs _ hmap, ← List.filterMap_append]
    exact hp.filterMap _
  · intro s hs
    rcases h.closed s hs with h1 | ⟨k, h1⟩ | h1 | ⟨h1, h2, h3⟩ | ⟨h1, h2⟩
    · rcases hc0 s h1 with h2 | h2
      · cases h2
      · exact .inl h2
    · exact .inr (.inl (res_error h1))
    · exact .inr (.inl (.inr (.inr h1)))
    · exact .inr (.inr (.inl ⟨h1, all_written h h2 h3⟩))
    · rcases hg0 h2 with h3 | h3
      · cases h3
      · exact .inr (.inr (.inr ⟨h1, h3⟩))

/-- When the input stream is closed and nothing of the operator is left to run, without cancellation
and with a reader of the output, the output is closed: without errors with OK after all the mapped
items, otherwise with one of the errors. -/
theorem C40_complete (c : Config A B S) (orphaned : S) (ops : List (Op S))
    (hcancel : ∀ s, .cancel s ∉ ops) (hdrop : .drop ∉ ops)
    (hended : (run c orphaned {} ops).ended = true)
    (hquiet : ∀ op : Op S, op.Internal →
      step c orphaned (run c orphaned {} ops) op = run c orphaned {} ops) :
    ((∀ e, ¬ IsError c e) ∧ (run c orphaned {} ops).out.closed = some c.ok ∧
      (run c orphaned {} ops).out.items.Perm (mapped c.functor c.hasType c.input)) ∨
    ∃ e, IsError c e ∧ (run c orphaned {} ops).out.closed = some e := by
  have h := inv_run ops (inv_new c orphaned)
  have hsafe := (C40_safe c orphaned ops).2
  generalize run c orphaned {} ops = w at *
  obtain ⟨_, _, hpc⟩ := quiescent h hquiet
  have hd : w.destroyed = true := by
    rcases hpc with h1 | h1
    · exact h1.2
    · rw [hended] at h1
      cases h1.2
  have hreq := (h.destroyed hd).1
  rw [h.requested] at hreq
  obtain ⟨s, hs⟩ := Option.isSome_iff_exists.1 hreq
  rcases hsafe s hs with h1 | h1 | ⟨rfl, h2, h3⟩ | ⟨_, h1⟩
  · exact absurd h1 (hcancel s)
  · exact .inr ⟨s, h1, hs⟩
  · exact .inl ⟨h2, hs, h3⟩
  · exact absurd h1 hdrop

/-- The operator comes to this state. -/
theorem C40_terminates (c : Config A B S) (orphaned : S) (ops : List (Op S)) :
    ∃ n, ∀ busy, Busy c orphaned (run c orphaned {} ops) busy → busy.length ≤ n := by
  have h := inv_run ops (inv_new c orphaned)
  generalize run c orphaned {} ops = w at *
  refine ⟨measure w, ?_⟩
  intro busy hb
  induction hb with
  | nil w => exact Nat.zero_le _
  | cons hi hne _ ih =>
    have h1 := ih (inv_step h _)
    rcases internal_decreases h hi with h2 | h2
    · exact absurd h2 hne
    · rw [List.length_cons]
      omega

/-- The writer is never closed twice, which would end the process. -/
theorem C40_not_fatal (c : Config A B S) (orphaned : S) (ops : List (Op S)) :
    (run c orphaned {} ops).fatal = false :=
  (inv_run ops (inv_new c orphaned)).fatal

/-- A closed output stays as it is. -/
theorem step_stable {c : Config A B S} {orphaned : S} {w : World B S} (h : Inv c orphaned w) {s : S}
    (hs : w.out.closed = some s) (op : Op S) :
    (step c orphaned w op).out.items = w.out.items ∧
    (step c orphaned w op).out.closed = some s := by
  have hreq : w.out.requested = true := by
    rw [h.requested, hs]
    rfl
  have hclose : ∀ st, (w.close st).out = w.out := by
    intro st
    unfold World.close
    rw [if_pos hreq]
  have htc : w.out.tryClose orphaned = w.out := by
    unfold Output.tryClose
    rw [if_pos hreq]
  have htw : ∀ b, w.out.tryWrite b = (w.out, false) := by
    intro b
    unfold Output.tryWrite
    rw [if_pos (by rw [hs]; rfl)]
  cases op with
  | produce => simp only [step]; split <;> exact ⟨rfl, hs⟩
  | finish => simp only [step]; split <;> exact ⟨rfl, hs⟩
  | drop => exact ⟨rfl, hs⟩
  | cancel st => simp only [step]; split <;> exact ⟨rfl, hs⟩
  | cancelStep =>
    simp only [step]
    unfold World.cancelStep
    split
    · split <;> exact ⟨rfl, hs⟩
    · simp only
      rw [hclose]
      exact ⟨rfl, hs⟩
    · exact ⟨rfl, hs⟩
  | reader =>
    simp only [step]
    unfold World.reader
    split
    · exact ⟨rfl, hs⟩
    · split
      · exact ⟨rfl, hs⟩
      · split
        · unfold World.readerStatus
          split
          · exact ⟨rfl, hs⟩
          · split <;> exact ⟨rfl, hs⟩
        · exact ⟨rfl, hs⟩
    · exact ⟨rfl, hs⟩
    · split <;> exact ⟨rfl, hs⟩
    · simp only
      rw [hclose]
      exact ⟨rfl, hs⟩
    · exact ⟨rfl, hs⟩
  | task i =>
    simp only [step]
    unfold World.task
    split
    · exact ⟨rfl, hs⟩
    · split <;> exact ⟨rfl, hs⟩
    · unfold World.push
      split
      · exact ⟨rfl, hs⟩
      · split <;> exact ⟨rfl, hs⟩
      · split <;> exact ⟨rfl, hs⟩
    · unfold World.write
      split
      · rw [htw]
        exact ⟨rfl, hs⟩
      · exact ⟨rfl, hs⟩
    · exact ⟨rfl, hs⟩
    · exact ⟨rfl, hs⟩
    · unfold World.closeTask
      split
      · simp only [World.goto]
        rw [hclose]
        exact ⟨rfl, hs⟩
      · exact ⟨rfl, hs⟩
    · exact ⟨rfl, hs⟩
  | destroy =>
    simp only [step]
    unfold World.destroy
    split
    · simp only
      split
      · rw [hclose, htc]
        exact ⟨rfl, hs⟩
      · rw [htc]
        exact ⟨rfl, hs⟩
    · exact ⟨rfl, hs⟩

theorem run_stable {c : Config A B S} {orphaned : S} (more : List (Op S)) : ∀ {w : World B S},
    Inv c orphaned w → ∀ {s : S}, w.out.closed = some s →
    (run c orphaned w more).out.items = w.out.items ∧
    (run c orphaned w more).out.closed = some s := by
  induction more with
  | nil => exact fun _ s hs => ⟨rfl, hs⟩
  | cons op more ih =>
    intro w h s hs
    obtain ⟨h1, h2⟩ := step_stable h hs op
    obtain ⟨h3, h4⟩ := ih (inv_step h op) h2
    exact ⟨h3.trans h1, h4⟩

theorem run_append (c : Config A B S) (orphaned : S) (xs ys : List (Op S)) : ∀ w : World B S,
    run c orphaned w (xs ++ ys) = run c orphaned (run c orphaned w xs) ys := by
  induction xs with
  | nil => exact fun _ => rfl
  | cons x xs ih => exact fun w => ih _

/-- A closed output stays as it is. -/
theorem C40_stable (c : Config A B S) (orphaned : S) (ops more : List (Op S)) (s : S)
    (hs : (run c orphaned {} ops).out.closed = some s) :
    (run c orphaned {} (ops ++ more)).out.items = (run c orphaned {} ops).out.items ∧
    (run c orphaned {} (ops ++ more)).out.closed = some s := by
  rw [run_append]
  exact run_stable more (inv_run ops (inv_new c orphaned)) hs

theorem cancelled_keep {c : Config A B S} {orphaned : S} (ops : List (Op S)) : ∀ (w : World B S),
    w.cancelled ≠ none → (run c orphaned w ops).cancelled ≠ none := by
  induction ops with
  | nil => exact fun w h => h
  | cons op ops ih =>
    intro w h
    refine ih (step c orphaned w op) ?_
    cases op with
    | cancel s =>
      simp only [step]
      split
      · simp
      · exact h
    | reader => simp only [step]; rw [(reader_outside c w).1]; exact h
    | task i => simp only [step]; rw [(task_outside c w i).1]; exact h
    | cancelStep => simp only [step]; rw [(cancelStep_outside w).1]; exact h
    | destroy => simp only [step]; rw [(destroy_outside c orphaned w).1]; exact h
    | produce => simp only [step]; split <;> exact h
    | finish => simp only [step]; split <;> exact h
    | drop => exact h

/-- A cancellation closes an output that can be read, whether the input stream is closed or not. -/
theorem C40_cancel (c : Config A B S) (orphaned : S) (ops : List (Op S)) (s : S)
    (hcancel : .cancel s ∈ ops) (hdrop : .drop ∉ ops)
    (hquiet : ∀ op : Op S, op.Internal →
      step c orphaned (run c orphaned {} ops) op = run c orphaned {} ops) :
    (run c orphaned {} ops).out.closed.isSome := by
  have h := inv_run ops (inv_new c orphaned)
  have hg0 := gone_mem (c := c) (orphaned := orphaned) ops {}
  have hmark : (run c orphaned {} ops).cancelled ≠ none ∨
      (run c orphaned {} ops).out.closed.isSome = true := by
    obtain ⟨before, after, rfl⟩ := List.append_of_mem hcancel
    rw [run_append]
    have hb := inv_run before (inv_new c orphaned)
    generalize run c orphaned {} before = w0 at hb
    by_cases hd : w0.destroyed = true
    · right
      have hreq := (hb.destroyed hd).1
      rw [hb.requested] at hreq
      obtain ⟨s', hs'⟩ := Option.isSome_iff_exists.1 hreq
      rw [(run_stable (.cancel s :: after) hb hs').2]
      rfl
    · left
      refine cancelled_keep after (step c orphaned w0 (.cancel s)) ?_
      simp only [step]
      split
      · simp
      · rename_i hn
        intro hc
        exact hn ⟨hc, by simpa using hd⟩
  generalize run c orphaned {} ops = w at *
  rcases hmark with hm | hm
  · obtain ⟨htasks, hcan, hpc⟩ := quiescent h hquiet
    have hf : w.failed = true := by
      rcases h.cancelled hm with h1 | h1
      · exact h1
      · rw [hcan] at h1
        cases h1
    rw [← h.requested]
    rcases h.failedWhy hf with h1 | h1 | h1
    · exact h1
    · rcases hg0 h1 with h2 | h2
      · cases h2
      · exact absurd h2 hdrop
    · exfalso
      have : closers w = 0 := by
        rcases hpc with ⟨hpc, _⟩ | ⟨hpc, _⟩ <;> simp [closers, hpc, htasks, hcan, num]
      omega
  · exact hm

/-! ### Examples -/

/-- Ten times the item; 3 is an error. -/
def exConfig (input : List Nat) : Config Nat Nat String where
  input := input
  ending := "OK"
  functor := fun n => if n = 3 then .error "three" else .ok (10 * n)
  hasType := fun n => n < 1000
  wrongType := fun _ => "type"
  ok := "OK"

/-- Three items are read, the input ends, the tasks run with the last first. -/
def exOps : List (Op String) :=
  [.produce, .produce, .reader, .reader, .reader, .produce, .reader, .reader, .finish, .reader, .reader,
   .reader, .task 2, .task 2, .task 2, .task 2, .task 1, .task 0, .task 1, .task 0,
   .task 0, .task 0, .task 0, .task 0, .task 0, .task 0, .task 0, .destroy]

/-- The hypotheses of `C40_complete` hold for `exOps`, with and without an error. -/
example :
    (run (exConfig [1, 2, 4]) "orphaned" {} exOps).destroyed = true ∧
    (run (exConfig [1, 2, 4]) "orphaned" {} exOps).out.items = [40, 10, 20] ∧
    (run (exConfig [1, 2, 4]) "orphaned" {} exOps).out.closed = some "OK" ∧
    (run (exConfig [1, 3, 4]) "orphaned" {} exOps).destroyed = true ∧
    (run (exConfig [1, 3, 4]) "orphaned" {} exOps).out.items = [40] ∧
    (run (exConfig [1, 3, 4]) "orphaned" {} exOps).out.closed = some "three" := by
  decide +kernel

/-- A cancellation in between. -/
example :
    (run (exConfig [1, 2, 4]) "orphaned" {} (exOps.take 16 ++
      [.cancel "stop", .cancelStep, .task 0, .task 0, .task 0, .task 0, .cancelStep])).out.closed =
        some "stop" ∧
    (run (exConfig [1, 2, 4]) "orphaned" {} (exOps.take 16 ++
      [.cancel "stop", .cancelStep, .task 0, .task 0, .task 0, .task 0, .cancelStep])).out.items =
        [40] := by
  decide +kernel

end Verif.StreamMapUnordered
