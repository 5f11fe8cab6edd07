import Verif.StreamLoop.Progress

/-!
The program of a reduction against its specification.
-/

namespace Verif.StreamLoop

open Verif.StreamChain (Input)

set_option linter.unusedSectionVars false

variable {V T S : Type} [DecidableEq T] [DecidableEq S]

/-- The start of the program. -/
def Reduce.ideal (_ : Reduce V T S) : Ideal V S (ReducePlace V S) where
  loc := .start
  rest := []
  items := []
  closed := none

/-- Where a reduction is after `n` operations. -/
inductive RAt (c : Reduce V T S) (n : Nat) (x : Ideal V S (ReducePlace V S)) : Prop
  | start (loc : x.loc = .start) (closed : x.closed = none) (items : x.items = []) (rest : x.rest = [])
      (steps : n = 0)
  | read (value : V) (vs : List V) (loc : x.loc = .read value) (closed : x.closed = none) (items : x.items = [])
      (rest : x.rest = [(vs, c.ending)]) (steps : n + 3 * vs.length ≤ 3 * c.input.length + 1)
      (fold : c.fold c.input c.initial = c.fold vs value)
  | item (value v : V) (vs : List V) (loc : x.loc = .item value v) (closed : x.closed = none)
      (items : x.items = []) (rest : x.rest = [(vs, c.ending)])
      (steps : n + 3 * vs.length + 1 ≤ 3 * c.input.length)
      (fold : c.fold c.input c.initial = c.fold (v :: vs) value)
  | call (value v : V) (vs : List V) (loc : x.loc = .call value v) (closed : x.closed = none)
      (items : x.items = []) (rest : x.rest = [(vs, c.ending)])
      (steps : n + 3 * vs.length ≤ 3 * c.input.length)
      (fold : c.fold c.input c.initial = c.fold (v :: vs) value)
  | write (value : V) (loc : x.loc = .write value c.ok) (closed : x.closed = none)
      (items : x.items = []) (steps : n ≤ 3 * c.input.length + 2) (out : c.output = ([value], c.ok))
  | close (s : S) (loc : x.loc = .close s) (closed : x.closed = none)
      (steps : n ≤ 3 * c.input.length + 3) (out : c.output = (x.items, s))
  | closed (s : S) (loc : x.loc = .stop) (closed : x.closed = some s) (out : c.output = (x.items, s))

theorem rat_step {c : Reduce V T S} {n : Nat} {x : Ideal V S (ReducePlace V S)} (h : RAt c n x) :
    RAt c (n + 1) (x.step c.program) := by
  unfold Ideal.step
  cases h with
  | start loc closed items rest steps =>
    rw [loc]
    exact .read c.initial c.input rfl closed items (by simp [rest, Reduce.program]) (by omega) rfl
  | read value vs loc closed items rest steps fold =>
    rw [loc]
    cases vs with
    | nil =>
      simp only [Reduce.program, rest, List.getElem?_cons_zero]
      by_cases hs : c.ending = c.ok
      · refine .write value (by simp [hs]) closed items (by simp at steps; omega) ?_
        simp [Reduce.output, fold, Reduce.fold, hs]
      · refine .close c.ending (by simp [hs]) closed (by simp at steps; omega) ?_
        simp [Reduce.output, fold, Reduce.fold, hs, items]
    | cons v vs =>
      simp only [Reduce.program, rest, List.getElem?_cons_zero]
      exact .item value v vs rfl closed items rfl (by simp at steps; omega) fold
  | item value v vs loc closed items rest steps fold =>
    rw [loc]
    exact .call value v vs rfl closed items rest (by omega) fold
  | call value v vs loc closed items rest steps fold =>
    rw [loc]
    simp only [Reduce.program]
    cases hf : c.functor value v with
    | error s =>
      refine .close s rfl closed (by omega) ?_
      simp [Reduce.output, fold, Reduce.fold, hf, items]
    | ok value' =>
      simp only
      by_cases ht : c.typeOf value' = c.typeOf c.initial
      · refine .read value' vs (by simp [ht]) closed items rest (by omega) ?_
        simp [fold, Reduce.fold, hf, ht]
      · refine .close c.wrongType (by simp [ht]) closed (by omega) ?_
        simp [Reduce.output, fold, Reduce.fold, hf, ht, items]
  | write value loc closed items steps out =>
    rw [loc]
    exact .close c.ok rfl closed (by omega) (by simp [out, items, Reduce.program])
  | close s loc closed steps out =>
    rw [loc]
    exact .closed s rfl rfl out
  | closed s loc closed out =>
    rw [loc]
    exact .closed s loc closed out

theorem rat_after (c : Reduce V T S) : ∀ n, RAt c n (c.ideal.after c.program n)
  | 0 => .start rfl rfl rfl rfl rfl
  | n + 1 => rat_step (rat_after c n)

/-- The places of a reduction with their readers. -/
def Reduce.valid (_ : Reduce V T S) (l : ReducePlace V S) (m : Nat) : Prop :=
  match l with
  | .start => True
  | _ => 0 < m

theorem reduce_valid (c : Reduce V T S) : Valid c.program c.valid := by
  constructor
  · intro l m no yes h hP
    cases l <;> cases hP
    exact ⟨h, h⟩
  · intro l m next h hP
    cases l <;> cases hP
    rename_i value v
    have h : 0 < m := h
    show c.valid (match c.functor value v with
      | .error s => .close s
      | .ok value => if c.typeOf value ≠ c.typeOf c.initial then .close c.wrongType else .read value) m
    cases c.functor value v with
    | error s => exact h
    | ok value =>
      simp only
      split <;> exact h
  · intro l m items ending next h hP
    cases l <;> cases hP
    exact Nat.succ_pos _
  · intro l m r item closed q l' h hP
    cases l <;> cases hP
    have h : 0 < m := h
    refine ⟨h, rfl, rfl, fun v => h, fun s => ?_⟩
    simp only
    split <;> exact h
  · intro l m v written failed h hP
    cases l <;> cases hP
    exact ⟨h, h⟩
  · intro l m s next h hP
    cases l <;> cases hP
    exact ⟨h, rfl⟩

theorem reduce_stop {c : Reduce V T S} {l : ReducePlace V S} (hP : c.program l = .stop) : l = .stop := by
  cases l <;> first | rfl | cases hP

theorem reduce_runs (c : Reduce V T S) : Runs c.program c.valid c.ideal := by
  refine ⟨reduce_valid c, fun n hP => ?_⟩
  have hl := reduce_stop hP
  cases rat_after c n with
  | closed s loc closed out => rw [closed]; rfl
  | _ => simp_all

/-- The steps of a reduction after its output was closed. -/
def ReducePlace.rank : ReducePlace V S → Nat
  | .stop => 0
  | .close _ => 1
  | .item _ _ => 1
  | .write _ _ => 2
  | .read _ => 3
  | .call _ _ => 4
  | .start => 4

theorem reduce_rank (c : Reduce V T S) : Rank c.program ReducePlace.rank 4 := by
  constructor
  · intro l; cases l <;> simp [ReducePlace.rank]
  · intro l no yes hP; cases l <;> cases hP; simp [ReducePlace.rank]
  · intro l next hP
    cases l <;> cases hP
    rename_i value v
    cases c.functor value v with
    | error s => simp [ReducePlace.rank]
    | ok value => simp only; split <;> simp [ReducePlace.rank]
  · intro l items ending next m hP; cases l <;> cases hP; simp [ReducePlace.rank]
  · intro l r item closed q l' v hP; cases l <;> cases hP; simp [ReducePlace.rank]
  · intro l r item closed q l' s hP
    cases l <;> cases hP
    simp only
    split <;> simp [ReducePlace.rank]
  · intro l v written failed hP; cases l <;> cases hP; simp [ReducePlace.rank]
  · intro l v written failed hP; cases l <;> cases hP; simp [ReducePlace.rank]
  · intro l s next hP; cases l <;> cases hP; simp [ReducePlace.rank]

theorem reduce_limit (c : Reduce V T S) (n : Nat) (hc : (c.ideal.after c.program n).closed = none) :
    n < 3 * c.input.length + 4 := by
  cases rat_after c n with
  | closed s loc closed out => rw [hc] at closed; cases closed
  | _ => omega

theorem reduce_starts (c : Reduce V T S) : Starts c.program c.valid c.ideal c.start := by
  refine ⟨rfl, rfl, rfl, rfl, ?_, trivial, rfl, rfl, rfl, rfl, rfl, rfl, rfl⟩
  intro r x hx
  cases hx

theorem rat_prefix {c : Reduce V T S} {n : Nat} {x : Ideal V S (ReducePlace V S)} (h : RAt c n x) :
    x.items <+: c.output.1 := by
  cases h with
  | close s loc closed steps out => rw [out]; exact List.prefix_refl _
  | closed s loc closed out => rw [out]; exact List.prefix_refl _
  | start loc closed items rest steps => rw [items]; exact List.nil_prefix
  | read value vs loc closed items rest steps fold => rw [items]; exact List.nil_prefix
  | item value v vs loc closed items rest steps fold => rw [items]; exact List.nil_prefix
  | call value v vs loc closed items rest steps fold => rw [items]; exact List.nil_prefix
  | write value loc closed items steps out => rw [items]; exact List.nil_prefix

theorem rat_closed {c : Reduce V T S} {n : Nat} {x : Ideal V S (ReducePlace V S)} (h : RAt c n x) {s : S}
    (hs : x.closed = some s) : c.output = (x.items, s) := by
  cases h with
  | closed s' loc closed out =>
    rw [closed] at hs
    injection hs with hs
    subst hs
    exact out
  | _ => simp_all

/-- When it is interrupted, a reduction stops or goes on as if it were not. -/
theorem reduce_late {c : Reduce V T S} {x : Ideal V S (ReducePlace V S)} (h : Late c.program c.ideal x) :
    x.items <+: c.output.1 ∧ (x.loc = .stop ∨ ∃ n, (c.ideal.after c.program n).loc = x.loc ∧
      (c.ideal.after c.program n).items = x.items ∧ (c.ideal.after c.program n).rest = x.rest) := by
  have sync : ∀ {n : Nat} {y : Ideal V S (ReducePlace V S)}, (c.ideal.after c.program n).loc = y.loc ∧
      (c.ideal.after c.program n).items = y.items ∧ (c.ideal.after c.program n).rest = y.rest →
      y.items <+: c.output.1 ∧ (y.loc = .stop ∨ ∃ n, (c.ideal.after c.program n).loc = y.loc ∧
        (c.ideal.after c.program n).items = y.items ∧ (c.ideal.after c.program n).rest = y.rest) := by
    intro n y hy
    exact ⟨by rw [← hy.2.1]; exact rat_prefix (rat_after c n), .inr ⟨n, hy⟩⟩
  induction h with
  | start n _ => exact sync ⟨rfl, rfl, rfl⟩
  | @step x y _ hl ih =>
    obtain ⟨h1, h2⟩ := ih
    rcases h2 with h2 | ⟨n, hloc, hitems, hrest⟩
    · cases hl <;> simp_all [Reduce.program]
    have hstep : c.ideal.after c.program (n + 1) = (c.ideal.after c.program n).step c.program := rfl
    cases hl with
    | @check no yes hP =>
      refine ⟨h1, .inl ?_⟩
      cases hl : x.loc <;> rw [hl] at hP <;> cases hP
      rfl
    | @pure next hP =>
      refine sync (n := n + 1) ?_
      rw [hstep]; unfold Ideal.step; rw [hloc, hP]
      exact ⟨rfl, hitems, hrest⟩
    | @make its ending next hP =>
      refine sync (n := n + 1) ?_
      rw [hstep]; unfold Ideal.step; rw [hloc, hP, hrest]
      exact ⟨rfl, hitems, rfl⟩
    | @item r item closed q l v vs s hP hr =>
      refine sync (n := n + 1) ?_
      rw [hstep]; unfold Ideal.step; rw [hloc, hP, hrest]
      simp only [hr]
      exact ⟨trivial, hitems, trivial⟩
    | @closed r item closed q l s hP hr =>
      refine sync (n := n + 1) ?_
      rw [hstep]; unfold Ideal.step; rw [hloc, hP, hrest]
      simp only [hr]
      exact ⟨trivial, hitems, trivial⟩
    | @later r item closed q l hP =>
      refine ⟨h1, .inr ⟨n, ?_, hitems, hrest⟩⟩
      rw [hloc]
      cases hl : x.loc <;> rw [hl] at hP <;> cases hP
      rfl
    | @written v written failed hP =>
      refine sync (n := n + 1) ?_
      rw [hstep]; unfold Ideal.step; rw [hloc, hP, hitems]
      exact ⟨rfl, rfl, hrest⟩
    | @failed v written failed hP =>
      refine ⟨h1, .inl ?_⟩
      cases hl : x.loc <;> rw [hl] at hP <;> cases hP
      rfl
    | @close s next hP =>
      refine ⟨h1, .inl ?_⟩
      cases hl : x.loc <;> rw [hl] at hP <;> cases hP
      rfl

end Verif.StreamLoop
