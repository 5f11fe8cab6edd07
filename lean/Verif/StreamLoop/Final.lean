import Verif.StreamLoop.LoopEnd
import Verif.StreamLoop.Reduce

/-!
The closed output, the cancellation and the start.
-/

namespace Verif.StreamLoop

open Verif.StreamChain (Input)

set_option linter.unusedSectionVars false

section Generic

variable {V S L : Type} {orphaned : S} {P : L → Action V S L} {K : L → Nat → Prop} {x₀ : Ideal V S L}
  {w : World V S L}

theorem stable_step (h : Inv orphaned P K x₀ w) {s : S} (hs : w.closed = some s) (op : Op S) :
    (step orphaned P w op).closed = some s ∧ (step orphaned P w op).items = w.items := by
  cases op with
  | produce r => simp only [step, World.change]; split <;> exact ⟨hs, rfl⟩
  | finish r => simp only [step, World.change]; split <;> exact ⟨hs, rfl⟩
  | drop => exact ⟨hs, rfl⟩
  | cancel s' => simp only [step]; split <;> exact ⟨hs, rfl⟩
  | cancelRequest =>
    simp only [step]
    split
    · split <;> exact ⟨hs, rfl⟩
    · exact ⟨hs, rfl⟩
  | cancelClose =>
    simp only [step]
    split
    · rename_i hc
      cases h.phase with
      | free n requested gone closed => rw [hs] at closed; cases closed
      | own n s' requested cancel => exact absurd hc cancel
      | dropped n gone closed => rw [hs] at closed; cases closed
      | cancelled s' x requested status closing cancel =>
        rcases cancel with ⟨_, hn⟩ | ⟨hd, _⟩
        · rw [hs] at hn; cases hn
        · rw [hc] at hd; cases hd
      | orphaned n requested pc cancel => exact absurd hc cancel
    · exact ⟨hs, rfl⟩
  | destroy =>
    simp only [step, World.destroy]
    split
    · cases hr : w.requested with
      | true => exact ⟨hs, rfl⟩
      | false =>
        exfalso
        cases h.phase with
        | free n requested gone closed => rw [hs] at closed; cases closed
        | own n s' requested cancel => rw [hr] at requested; cases requested
        | dropped n gone closed => rw [hs] at closed; cases closed
        | cancelled s' x requested => rw [hr] at requested; cases requested
        | orphaned n requested => rw [hr] at requested; cases requested
    · exact ⟨hs, rfl⟩
  | routine =>
    simp only [step]
    unfold World.routine
    cases hpc : w.pc with
    | running =>
      simp only
      cases P w.loc with
      | check no yes => exact ⟨hs, rfl⟩
      | pure next => exact ⟨hs, rfl⟩
      | makeReader items ending next => exact ⟨hs, rfl⟩
      | tryRead r item closed q l =>
        simp only [World.act]
        repeat' split
        all_goals exact ⟨hs, rfl⟩
      | tryWrite v written failed => simp [World.act, hs]
      | tryClose s' next => simp only [World.act]; split <;> exact ⟨hs, rfl⟩
      | stop => exact ⟨hs, rfl⟩
    | closing s' =>
      exfalso
      cases h.phase with
      | free n requested gone closed => rw [hs] at closed; cases closed
      | own n s'' requested cancel ending items loc pc =>
        rcases pc with ⟨_, hn, _⟩ | ⟨hn | hn, _⟩
        · rw [hs] at hn; cases hn
        · rw [hpc] at hn; cases hn
        · rw [hpc] at hn; cases hn
      | dropped n gone closed => rw [hs] at closed; cases closed
      | cancelled s'' x requested status closing => exact closing s' hpc
      | orphaned n requested pc => rw [hpc] at pc; cases pc
    | subscribing r =>
      simp only [World.subscribe]
      cases w.readers[r]? with
      | none => exact ⟨hs, rfl⟩
      | some x => simp only; split <;> exact ⟨hs, rfl⟩
    | waiting r =>
      simp only [World.subscribe]
      cases w.readers[r]? with
      | none => exact ⟨hs, rfl⟩
      | some x => simp only; split <;> exact ⟨hs, rfl⟩
    | _ => exact ⟨hs, rfl⟩

theorem stable_run (hR : Runs P K x₀) (ops : List (Op S)) : ∀ {w : World V S L}, Inv orphaned P K x₀ w →
    ∀ {s : S}, w.closed = some s →
    (run orphaned P w ops).closed = some s ∧ (run orphaned P w ops).items = w.items := by
  induction ops with
  | nil => intro w _ s hs; exact ⟨hs, rfl⟩
  | cons op ops ih =>
    intro w h s hs
    have h1 := stable_step h hs op
    have h2 := ih (inv_step hR h op) h1.1
    exact ⟨h2.1, h2.2.trans h1.2⟩

/-- A routine waits only for a stream in which there is nothing to read. -/
theorem quiet_waits (h : Inv orphaned P K x₀ w) (hq : Quiet orphaned P w) (hgone : w.gone = false)
    (hopen : w.closed = none) (hc : w.cancelled = none) :
    ∃ (r : Nat) (x : Input V S), w.readers[r]? = some x ∧ x.read = x.ready ∧ x.ended = false := by
  obtain ⟨hb, hq1, hq2, hq3⟩ := hq
  unfold blocked at hb
  cases hpc : w.pc with
  | waiting r =>
    rw [hpc] at hb
    simp only at hb
    cases hx : w.readers[r]? with
    | none => rw [hx] at hb; cases hb
    | some x =>
      rw [hx] at hb
      simp only [Bool.and_eq_true, decide_eq_true_eq, Bool.not_eq_true'] at hb
      exact ⟨r, x, hx, hb.1, hb.2⟩
  | done =>
    exfalso
    cases h.phase with
    | free n requested gone closed destroyed cancel open_ items rest loc closing done =>
      have := done hpc
      rw [hc] at this; cases this
    | own n s requested cancel ending items loc pc =>
      rcases pc with pc | ⟨pc, hc | hc⟩
      · rw [hpc] at pc; cases pc.1
      · rw [hopen] at hc; cases hc
      · rw [hgone] at hc; cases hc.1
    | dropped n gone closed items => rw [hgone] at gone; cases gone
    | cancelled s y requested status => rw [hc] at status; cases status
    | orphaned n requested pc cancel closed => rw [hopen] at closed; cases closed
  | starting => rw [hpc] at hb; cases hb
  | scheduled => rw [hpc] at hb; cases hb
  | running => rw [hpc] at hb; cases hb
  | closing s => rw [hpc] at hb; cases hb
  | checking r => rw [hpc] at hb; cases hb
  | subscribing r => rw [hpc] at hb; cases hb
  | called => rw [hpc] at hb; cases hb

/-- The callback of the cancellation closes the output, whatever the routine does in the meantime. -/
theorem cancel_closes (h : Inv orphaned P K x₀ w) (hr : w.requested = false)
    (hgone : w.gone = false) (hc : w.cancelled = none) (s : S) :
    let w' := run orphaned P w [.cancel s, .cancelRequest, .cancelClose]
    w'.closed = some s ∧ w'.items = w.items := by
  cases h.phase with
  | free n requested gone closed destroyed cancel open_ items rest loc closing done =>
    simp [run, step, hc, cancel, destroyed, requested, gone, World.close]
  | own n s' requested => rw [hr] at requested; cases requested
  | dropped n gone => rw [hgone] at gone; cases gone
  | cancelled s' x requested => rw [hr] at requested; cases requested
  | orphaned n requested => rw [hr] at requested; cases requested

/-- What closed the output. -/
theorem closed_by (h : Inv orphaned P K x₀ w) {s : S} (hs : w.closed = some s) :
    (∃ n, (x₀.after P n).closed = some s ∧ (x₀.after P n).items = w.items) ∨
      w.cancelled = some s ∨ (s = orphaned ∧ w.cancelled.isSome = true) := by
  cases h.phase with
  | free n requested gone closed => rw [hs] at closed; cases closed
  | own n s' requested cancel ending items loc pc =>
    rcases pc with ⟨_, hn, _⟩ | ⟨_, hn | ⟨_, hn⟩⟩
    · rw [hs] at hn; cases hn
    · rw [hs] at hn; injection hn with hn; subst hn; exact .inl ⟨n, ending, items⟩
    · rw [hs] at hn; cases hn
  | dropped n gone closed => rw [hs] at closed; cases closed
  | cancelled s' x requested status closing cancel =>
    rcases cancel with ⟨_, hn⟩ | ⟨_, hn | ⟨_, hn⟩⟩
    · rw [hs] at hn; cases hn
    · rw [hs] at hn; injection hn with hn; subst hn; exact .inr (.inl status)
    · rw [hs] at hn; cases hn
  | orphaned n requested pc cancel closed items why =>
    rw [hs] at closed; injection closed with hn; exact .inr (.inr ⟨hn, why⟩)

/-- Where the items come from. -/
theorem items_of (h : Inv orphaned P K x₀ w) :
    (∃ n, (x₀.after P n).items = w.items) ∨
      (w.cancelled.isSome = true ∧ ∃ x, Late P x₀ x ∧ x.items = w.items) := by
  cases h.phase with
  | free n requested gone closed destroyed cancel open_ items rest loc closing done => exact .inl ⟨n, items⟩
  | own n s' requested cancel ending items loc pc => exact .inl ⟨n, items⟩
  | dropped n gone closed items => exact .inl ⟨n, items⟩
  | cancelled s' x requested status closing cancel late items rest loc =>
    exact .inr ⟨by rw [status]; rfl, x, late, items⟩
  | orphaned n requested pc cancel closed items why => exact .inl ⟨n, items⟩

end Generic

variable {V T S : Type} [DecidableEq T] [DecidableEq S]

theorem loop_starts {c : Loop V T S} {w : World V S (Place V S)} (h : c.start = .ok w) :
    c.lastName ∉ c.state.fields.map Prod.fst ∧ Starts c.program c.valid c.ideal w := by
  unfold Loop.start at h
  split at h
  · cases h
  · rename_i hn
    refine ⟨hn, ?_⟩
    injection h with h
    subst h
    constructor
    · rfl
    · unfold World.rest Loop.ideal
      simp only
      cases hi : c.input with
      | none => rfl
      | some p => rfl
    · rfl
    · rfl
    · intro r x hx
      simp only at hx
      cases hi : c.input with
      | none => rw [hi] at hx; cases hx
      | some p =>
        rw [hi] at hx
        cases r with
        | zero =>
          simp only [List.getElem?_cons_zero, Option.some.injEq] at hx
          subst hx
          exact ⟨Nat.le_refl _, Nat.zero_le _, fun h => by cases h⟩
        | succ r => cases hx
    · refine ⟨fun hi => ?_, trivial⟩
      simp only
      cases h : c.input with
      | none => rw [h] at hi; cases hi
      | some p => exact Nat.one_pos
    all_goals rfl

theorem loop_inv {c : Loop V T S} {w : World V S (Place V S)} (h : c.start = .ok w) (ops : List (Op S)) :
    Inv c.orphaned c.program c.valid c.ideal (run c.orphaned c.program w ops) :=
  inv_run (loop_runs c (loop_starts h).1) ops (inv_starts (loop_starts h).2)

theorem reduce_inv (c : Reduce V T S) (ops : List (Op S)) :
    Inv c.orphaned c.program c.valid c.ideal (run c.orphaned c.program c.start ops) :=
  inv_run (reduce_runs c) ops (inv_starts (reduce_starts c))

end Verif.StreamLoop
