import Verif.StreamLoop.Loop

/-!
The end of a loop: the number of its steps, and its output when it is cancelled.
-/

namespace Verif.StreamLoop

set_option linter.unusedSectionVars false

variable {V T S : Type} [DecidableEq T] [DecidableEq S]

theorem at_open {c : Loop V T S} {n : Nat} {x : Ideal V S (Place V S)} (h : At c n x) (hc : x.closed = none) :
    ∃ j, n ≤ 8 * j + 9 ∧ Bound c j := by
  cases h with
  | closed j s loc closed out => rw [hc] at closed; cases closed
  | _ =>
    refine ⟨_, ?_, by assumption⟩
    omega

/-- The items of the input. -/
def Loop.size (c : Loop V T S) : Nat :=
  match c.input with
  | none => 0
  | some (items, _) => items.length

theorem loop_limit {c : Loop V T S} (hn : c.lastName ∉ c.state.fields.map Prod.fst) {k : Nat}
    (hk : (c.output k).2.isSome = true) (n : Nat) (hc : (c.ideal.after c.program n).closed = none) :
    n < 8 * (k + c.size) + 10 := by
  obtain ⟨j, h1, h2⟩ := at_open (at_after c hn n) hc
  unfold Bound at h2
  unfold Loop.size
  cases hi : c.input with
  | none =>
    rw [hi] at h2
    simp only at h2 ⊢
    have : j < k := by
      apply Nat.lt_of_not_le
      intro hle
      have := output_mono c hk (j - k)
      rw [show k + (j - k) = j by omega] at this
      rw [this] at h2
      rw [h2] at hk
      cases hk
    omega
  | some p =>
    rw [hi] at h2
    simp only at h2 ⊢
    omega

/-- The steps of a loop after its output was closed. -/
def Place.rank : Place V S → Nat
  | .stop => 0
  | .close _ => 1
  | .success _ => 2
  | .condition _ => 3
  | .yieldFinalize _ => 3
  | .yieldBody _ => 4
  | .callFinalize _ => 4
  | .callBody _ _ => 5
  | .finalize _ => 5
  | .body _ _ => 6
  | .read _ => 7
  | .parse _ _ => 8
  | .openCondition _ _ _ => 9
  | .callCondition _ => 10

theorem rank_decide (c : Loop V T S) (vars : List (Var V)) (e : Except ConditionError Bool) :
    (c.decide vars e).rank ≤ 7 := by
  match e with
  | .error e => simp [Loop.decide, Place.rank]
  | .ok false => simp [Loop.decide, Place.rank]
  | .ok true => simp only [Loop.decide]; split <;> simp [Place.rank]

theorem rank_called (c : Loop V T S) (vars : List (Var V)) {next yield : List (Var V) → Place V S} {k : Nat}
    (hk : 1 ≤ k) (hn : ∀ vars, (next vars).rank ≤ k) (hy : ∀ vars, (yield vars).rank ≤ k)
    (r : Except S (Option (NamedTuple V))) : (c.called vars next yield r).rank ≤ k := by
  unfold Loop.called
  cases r with
  | error s => exact hk
  | ok t =>
    simp only
    cases update c.typeOf vars t with
    | error e => exact hk
    | ok vars =>
      simp only
      split
      · exact hy _
      · exact hn _

theorem loop_rank (c : Loop V T S) : Rank c.program Place.rank 10 := by
  constructor
  · intro l; cases l <;> simp [Place.rank]
  · intro l no yes hP
    cases l with
    | condition vars => injection hP with h1 h2; subst h2; simp [Place.rank]
    | body vars item => injection hP with h1 h2; subst h2; simp [Place.rank]
    | finalize vars => injection hP with h1 h2; subst h2; simp [Place.rank]
    | yieldBody vars =>
      rcases yield_action c vars .condition with ⟨v, hy⟩ | hy <;> (simp only [Loop.program, hy] at hP; cases hP)
    | yieldFinalize vars =>
      rcases yield_action c vars .success with ⟨v, hy⟩ | hy <;> (simp only [Loop.program, hy] at hP; cases hP)
    | success vars =>
      rcases success_action c vars with ⟨v, hy, _⟩ | hy | hy <;> (simp only [Loop.program, hy] at hP; cases hP)
    | _ => cases hP
  · intro l next hP
    cases l with
    | callCondition vars =>
      injection hP with h1
      subst h1
      unfold Loop.callCondition
      have := fun e => rank_decide c vars e
      cases c.condition with
      | none => exact Nat.lt_of_le_of_lt (this _) (by simp [Place.rank])
      | some f =>
        simp only
        cases f (c.visible vars) with
        | error s => simp [Place.rank]
        | ok cond =>
          cases cond with
          | value v => exact Nat.lt_of_le_of_lt (this _) (by simp [Place.rank])
          | stream items ending => simp [Place.rank]
    | callBody vars item =>
      injection hP with h1
      subst h1
      exact Nat.lt_of_le_of_lt (rank_called c vars (k := 4) (by omega) (fun _ => by simp [Place.rank])
        (fun _ => by simp [Place.rank]) _) (by simp [Place.rank])
    | callFinalize vars =>
      injection hP with h1
      subst h1
      cases c.finalize with
      | none => simp [Place.rank]
      | some f =>
        exact Nat.lt_of_le_of_lt (rank_called c vars (k := 3) (by omega) (fun _ => by simp [Place.rank])
          (fun _ => by simp [Place.rank]) _) (by simp [Place.rank])
    | yieldBody vars =>
      rcases yield_action c vars .condition with ⟨v, hy⟩ | hy <;> (simp only [Loop.program, hy] at hP; cases hP)
      simp [Place.rank]
    | yieldFinalize vars =>
      rcases yield_action c vars .success with ⟨v, hy⟩ | hy <;> (simp only [Loop.program, hy] at hP; cases hP)
      simp [Place.rank]
    | success vars =>
      rcases success_action c vars with ⟨v, hy, _⟩ | hy | hy <;> (simp only [Loop.program, hy] at hP; cases hP) <;>
        simp [Place.rank]
    | _ => cases hP
  · intro l items ending next m hP
    cases l with
    | openCondition vars its e =>
      injection hP with h1 h2 h3
      subst h3
      simp [Place.rank]
    | yieldBody vars =>
      rcases yield_action c vars .condition with ⟨v, hy⟩ | hy <;> (simp only [Loop.program, hy] at hP; cases hP)
    | yieldFinalize vars =>
      rcases yield_action c vars .success with ⟨v, hy⟩ | hy <;> (simp only [Loop.program, hy] at hP; cases hP)
    | success vars =>
      rcases success_action c vars with ⟨v, hy, _⟩ | hy | hy <;> (simp only [Loop.program, hy] at hP; cases hP)
    | _ => cases hP
  · intro l r item closed q l' v hP
    cases l with
    | parse vars r' =>
      injection hP with h1 h2 h3 h4 h5
      subst h2
      exact Nat.lt_of_le_of_lt (rank_decide c vars _) (by simp [Place.rank])
    | read vars =>
      injection hP with h1 h2 h3 h4 h5
      subst h2
      simp [Place.rank]
    | yieldBody vars =>
      rcases yield_action c vars .condition with ⟨v, hy⟩ | hy <;> (simp only [Loop.program, hy] at hP; cases hP)
    | yieldFinalize vars =>
      rcases yield_action c vars .success with ⟨v, hy⟩ | hy <;> (simp only [Loop.program, hy] at hP; cases hP)
    | success vars =>
      rcases success_action c vars with ⟨v, hy, _⟩ | hy | hy <;> (simp only [Loop.program, hy] at hP; cases hP)
    | _ => cases hP
  · intro l r item closed q l' s hP
    cases l with
    | parse vars r' =>
      injection hP with h1 h2 h3 h4 h5
      subst h3
      simp [Place.rank, Loop.conditionClosed]
    | read vars =>
      injection hP with h1 h2 h3 h4 h5
      subst h3
      simp only
      split <;> simp [Place.rank]
    | yieldBody vars =>
      rcases yield_action c vars .condition with ⟨v, hy⟩ | hy <;> (simp only [Loop.program, hy] at hP; cases hP)
    | yieldFinalize vars =>
      rcases yield_action c vars .success with ⟨v, hy⟩ | hy <;> (simp only [Loop.program, hy] at hP; cases hP)
    | success vars =>
      rcases success_action c vars with ⟨v, hy, _⟩ | hy | hy <;> (simp only [Loop.program, hy] at hP; cases hP)
    | _ => cases hP
  · intro l v written failed hP
    cases l with
    | yieldBody vars =>
      rcases yield_action c vars .condition with ⟨v, hy⟩ | hy <;> (simp only [Loop.program, hy] at hP; cases hP)
      simp [Place.rank]
    | yieldFinalize vars =>
      rcases yield_action c vars .success with ⟨v, hy⟩ | hy <;> (simp only [Loop.program, hy] at hP; cases hP)
      simp [Place.rank]
    | success vars =>
      rcases success_action c vars with ⟨v, hy, _⟩ | hy | hy <;> (simp only [Loop.program, hy] at hP; cases hP)
      simp [Place.rank]
    | _ => cases hP
  · intro l v written failed hP
    cases l with
    | yieldBody vars =>
      rcases yield_action c vars .condition with ⟨v, hy⟩ | hy <;> (simp only [Loop.program, hy] at hP; cases hP)
      simp [Place.rank]
    | yieldFinalize vars =>
      rcases yield_action c vars .success with ⟨v, hy⟩ | hy <;> (simp only [Loop.program, hy] at hP; cases hP)
      simp [Place.rank]
    | success vars =>
      rcases success_action c vars with ⟨v, hy, _⟩ | hy | hy <;> (simp only [Loop.program, hy] at hP; cases hP)
      simp [Place.rank]
    | _ => cases hP
  · intro l s next hP
    cases l with
    | close s' => injection hP with h1 h2; subst h2; simp [Place.rank]
    | yieldBody vars =>
      rcases yield_action c vars .condition with ⟨v, hy⟩ | hy <;> (simp only [Loop.program, hy] at hP; cases hP)
    | yieldFinalize vars =>
      rcases yield_action c vars .success with ⟨v, hy⟩ | hy <;> (simp only [Loop.program, hy] at hP; cases hP)
    | success vars =>
      rcases success_action c vars with ⟨v, hy, _⟩ | hy | hy <;> (simp only [Loop.program, hy] at hP; cases hP)
    | _ => cases hP

/-- The places of a call of the body or of the finalizer. -/
def Place.calls : Place V S → Bool
  | .callBody _ _ => true
  | .yieldBody _ => true
  | .callFinalize _ => true
  | .yieldFinalize _ => true
  | _ => false

/-- The places at which a loop with `returns` has not written. -/
def Place.before : Place V S → Bool
  | .close _ => false
  | .stop => false
  | _ => true

/-- The places at which only a loop with `yields` is. -/
def Place.isYield : Place V S → Bool
  | .yieldBody _ => true
  | .yieldFinalize _ => true
  | _ => false

/-- A loop with `returns` writes at most one item. -/
def Few (l : Place V S) (items : List V) : Prop :=
  l.isYield = false ∧ (items = [] ∨ ((∃ v, items = [v]) ∧ l.before = false))

theorem calls_decide (c : Loop V T S) (vars : List (Var V)) (e : Except ConditionError Bool) :
    (c.decide vars e).calls = false ∧ (c.decide vars e).isYield = false := by
  match e with
  | .error e => exact ⟨rfl, rfl⟩
  | .ok false => exact ⟨rfl, rfl⟩
  | .ok true => simp only [Loop.decide]; split <;> exact ⟨rfl, rfl⟩

theorem calls_condition (c : Loop V T S) (vars : List (Var V)) :
    (c.callCondition vars).calls = false ∧ (c.callCondition vars).isYield = false := by
  unfold Loop.callCondition
  cases c.condition with
  | none => exact calls_decide c vars _
  | some f =>
    simp only
    cases f (c.visible vars) with
    | error s => exact ⟨rfl, rfl⟩
    | ok cond =>
      cases cond with
      | value v => exact calls_decide c vars _
      | stream items ending => exact ⟨rfl, rfl⟩

theorem yield_called {c : Loop V T S} (hy : c.yields = false) (vars : List (Var V))
    {next yield : List (Var V) → Place V S} (hn : ∀ vars, (next vars).isYield = false)
    (r : Except S (Option (NamedTuple V))) : (c.called vars next yield r).isYield = false := by
  unfold Loop.called
  cases r with
  | error s => rfl
  | ok t =>
    simp only
    cases update c.typeOf vars t with
    | error e => rfl
    | ok vars => simp only [hy, Bool.false_eq_true, if_false]; exact hn _

/-- What an operation does to the place and the items, whether interrupted or not. -/
inductive Moves (P : Place V S → Action V S (Place V S)) (l : Place V S) (items : List V) :
    Place V S → List V → Prop
  | no {no yes} : P l = .check no yes → Moves P l items no items
  | yes {no yes} : P l = .check no yes → Moves P l items yes items
  | pure {next} : P l = .pure next → Moves P l items next items
  | make {its ending next m} : P l = .makeReader its ending next → Moves P l items (next m) items
  | item {r item closed q l' v} : P l = .tryRead r item closed q l' → Moves P l items (item v) items
  | closed {r item closed q l' s} : P l = .tryRead r item closed q l' → Moves P l items (closed s) items
  | later {r item closed q l'} : P l = .tryRead r item closed q l' → Moves P l items l' items
  | written {v written failed} : P l = .tryWrite v written failed → Moves P l items written (items ++ [v])
  | failed {v written failed} : P l = .tryWrite v written failed → Moves P l items failed items
  | close {s next} : P l = .tryClose s next → Moves P l items next items
  | stay : Moves P l items l items

theorem step_moves (P : Place V S → Action V S (Place V S)) (x : Ideal V S (Place V S)) :
    Moves P x.loc x.items (x.step P).loc (x.step P).items := by
  unfold Ideal.step
  cases hP : P x.loc with
  | check no yes => exact .no hP
  | pure next => exact .pure hP
  | makeReader its ending next => exact .make hP
  | tryRead r item closed q l' =>
    simp only
    cases x.rest[r]? with
    | none => exact .stay
    | some p =>
      obtain ⟨vs, s⟩ := p
      cases vs with
      | nil => exact .closed hP
      | cons v vs => exact .item hP
  | tryWrite v written failed => exact .written hP
  | tryClose s next => exact .close hP
  | stop => exact .stay

theorem lax_moves {P : Place V S → Action V S (Place V S)} {x y : Ideal V S (Place V S)} (h : Lax P x y) :
    Moves P x.loc x.items y.loc y.items := by
  cases h with
  | check hP => exact .yes hP
  | pure hP => exact .pure hP
  | make hP => exact .make hP
  | item hP _ => exact .item hP
  | closed hP _ => exact .closed hP
  | later hP => exact .later hP
  | written hP => exact .written hP
  | failed hP => exact .failed hP
  | close hP => exact .close hP

theorem few_moves {c : Loop V T S} (hy : c.yields = false) {l l' : Place V S} {items items' : List V}
    (h : Few l items) (hm : Moves c.program l items l' items') : Few l' items' := by
  obtain ⟨h1, h2⟩ := h
  -- a place before the end
  have hb : l.before = true → items = [] := by
    intro hl
    rcases h2 with h2 | h2
    · exact h2
    · rw [hl] at h2; cases h2.2
  cases l with
  | condition vars =>
    cases hb rfl
    cases hm with
    | no hP => injection hP with a b; subst a; exact ⟨rfl, .inl rfl⟩
    | yes hP => injection hP with a b; subst b; exact ⟨rfl, .inl rfl⟩
    | stay => exact ⟨rfl, .inl rfl⟩
    | _ hP => cases hP
  | callCondition vars =>
    cases hb rfl
    cases hm with
    | pure hP => injection hP with a; subst a; exact ⟨(calls_condition c vars).2, .inl rfl⟩
    | stay => exact ⟨rfl, .inl rfl⟩
    | _ hP => cases hP
  | openCondition vars its ending =>
    cases hb rfl
    cases hm with
    | make hP => injection hP with a b d; subst d; exact ⟨rfl, .inl rfl⟩
    | stay => exact ⟨rfl, .inl rfl⟩
    | _ hP => cases hP
  | parse vars r =>
    cases hb rfl
    cases hm with
    | item hP => injection hP with a b d e f; subst b; exact ⟨(calls_decide c vars _).2, .inl rfl⟩
    | closed hP => injection hP with a b d e f; subst d; exact ⟨rfl, .inl rfl⟩
    | later hP => injection hP with a b d e f; subst f; exact ⟨rfl, .inl rfl⟩
    | stay => exact ⟨rfl, .inl rfl⟩
    | _ hP => cases hP
  | read vars =>
    cases hb rfl
    cases hm with
    | item hP => injection hP with a b d e f; subst b; exact ⟨rfl, .inl rfl⟩
    | closed hP =>
      injection hP with a b d e f
      subst d
      refine ⟨?_, .inl rfl⟩
      simp only
      split <;> rfl
    | later hP => injection hP with a b d e f; subst f; exact ⟨rfl, .inl rfl⟩
    | stay => exact ⟨rfl, .inl rfl⟩
    | _ hP => cases hP
  | body vars item =>
    cases hb rfl
    cases hm with
    | no hP => injection hP with a b; subst a; exact ⟨rfl, .inl rfl⟩
    | yes hP => injection hP with a b; subst b; exact ⟨rfl, .inl rfl⟩
    | stay => exact ⟨rfl, .inl rfl⟩
    | _ hP => cases hP
  | callBody vars item =>
    cases hb rfl
    cases hm with
    | pure hP => injection hP with a; subst a; exact ⟨yield_called hy vars (fun _ => rfl) _, .inl rfl⟩
    | stay => exact ⟨rfl, .inl rfl⟩
    | _ hP => cases hP
  | yieldBody vars => cases h1
  | finalize vars =>
    cases hb rfl
    cases hm with
    | no hP => injection hP with a b; subst a; exact ⟨rfl, .inl rfl⟩
    | yes hP => injection hP with a b; subst b; exact ⟨rfl, .inl rfl⟩
    | stay => exact ⟨rfl, .inl rfl⟩
    | _ hP => cases hP
  | callFinalize vars =>
    cases hb rfl
    cases hm with
    | pure hP =>
      injection hP with a
      subst a
      cases c.finalize with
      | none => exact ⟨rfl, .inl rfl⟩
      | some f => exact ⟨yield_called hy vars (fun _ => rfl) _, .inl rfl⟩
    | stay => exact ⟨rfl, .inl rfl⟩
    | _ hP => cases hP
  | yieldFinalize vars => cases h1
  | success vars =>
    cases hb rfl
    rcases success_action c vars with ⟨v, ha, _⟩ | ha | ha
    · cases hm with
      | written hP => rw [Loop.program, ha] at hP; cases hP; exact ⟨rfl, .inr ⟨⟨v, rfl⟩, rfl⟩⟩
      | failed hP => rw [Loop.program, ha] at hP; cases hP; exact ⟨rfl, .inl rfl⟩
      | stay => exact ⟨rfl, .inl rfl⟩
      | _ hP => rw [Loop.program, ha] at hP; cases hP
    · cases hm with
      | pure hP => rw [Loop.program, ha] at hP; cases hP; exact ⟨rfl, .inl rfl⟩
      | stay => exact ⟨rfl, .inl rfl⟩
      | _ hP => rw [Loop.program, ha] at hP; cases hP
    · cases hm with
      | pure hP => rw [Loop.program, ha] at hP; cases hP; exact ⟨rfl, .inl rfl⟩
      | stay => exact ⟨rfl, .inl rfl⟩
      | _ hP => rw [Loop.program, ha] at hP; cases hP
  | close s =>
    cases hm with
    | close hP => injection hP with a b; subst b; exact ⟨rfl, h2.imp id fun h => ⟨h.1, rfl⟩⟩
    | stay => exact ⟨rfl, h2⟩
    | _ hP => cases hP
  | stop =>
    cases hm with
    | stay => exact ⟨rfl, h2⟩
    | _ hP => cases hP

theorem few_after {c : Loop V T S} (hy : c.yields = false) :
    ∀ n, Few (c.ideal.after c.program n).loc (c.ideal.after c.program n).items
  | 0 => ⟨rfl, .inl (by simp [Ideal.after, Loop.ideal, hy])⟩
  | n + 1 => few_moves hy (few_after hy n) (step_moves _ _)

theorem few_late {c : Loop V T S} (hy : c.yields = false) {x : Ideal V S (Place V S)}
    (h : Late c.program c.ideal x) : Few x.loc x.items := by
  induction h with
  | start n _ => exact few_after hy n
  | step _ hl ih => exact few_moves hy ih (lax_moves hl)

theorem few_length {l : Place V S} {items : List V} (h : Few l items) : items.length ≤ 1 := by
  rcases h.2 with h | ⟨⟨v, h⟩, _⟩ <;> rw [h]
  · exact Nat.zero_le _
  · exact Nat.le_refl _

theorem late_yields {c : Loop V T S} (hy : c.yields = true) {x : Ideal V S (Place V S)}
    (h : Late c.program c.ideal x) :
    (∃ n, (c.ideal.after c.program n).items = x.items) ∧
      (x.loc.calls = true → ∃ n, (c.ideal.after c.program n).items = x.items ∧
        (c.ideal.after c.program n).loc = x.loc) := by
  induction h with
  | start n _ => exact ⟨⟨n, rfl⟩, fun _ => ⟨n, rfl, rfl⟩⟩
  | @step x y _ hl ih =>
    obtain ⟨⟨m, hm⟩, ih2⟩ := ih
    cases hl with
    | @check no yes hP =>
      refine ⟨⟨m, hm⟩, fun hc => ?_⟩
      exfalso
      cases hloc : x.loc with
      | condition vars => rw [hloc] at hP; injection hP with a b; subst b; cases hc
      | body vars item => rw [hloc] at hP; injection hP with a b; subst b; cases hc
      | finalize vars => rw [hloc] at hP; injection hP with a b; subst b; cases hc
      | yieldBody vars =>
        rw [hloc] at hP
        rcases yield_action c vars .condition with ⟨v, hy⟩ | hy <;> (simp only [Loop.program, hy] at hP; cases hP)
      | yieldFinalize vars =>
        rw [hloc] at hP
        rcases yield_action c vars .success with ⟨v, hy⟩ | hy <;> (simp only [Loop.program, hy] at hP; cases hP)
      | success vars =>
        rw [hloc] at hP
        rcases success_action c vars with ⟨v, hy, _⟩ | hy | hy <;> (simp only [Loop.program, hy] at hP; cases hP)
      | _ => rw [hloc] at hP; cases hP
    | @pure next hP =>
      refine ⟨⟨m, hm⟩, fun hc => ?_⟩
      have hsync : x.loc.calls = true → ∃ n, (c.ideal.after c.program n).items = x.items ∧
          (c.ideal.after c.program n).loc = next := by
        intro hcalls
        obtain ⟨n, h1, h2⟩ := ih2 hcalls
        refine ⟨n + 1, ?_, ?_⟩
        · show (Ideal.step c.program _).items = _
          unfold Ideal.step; rw [h2, hP]; exact h1
        · show (Ideal.step c.program _).loc = _
          unfold Ideal.step; rw [h2, hP]
      cases hloc : x.loc with
      | callBody vars item => exact hsync (by rw [hloc]; rfl)
      | yieldBody vars => exact hsync (by rw [hloc]; rfl)
      | callFinalize vars => exact hsync (by rw [hloc]; rfl)
      | yieldFinalize vars => exact hsync (by rw [hloc]; rfl)
      | callCondition vars =>
        rw [hloc] at hP
        injection hP with a
        subst a
        rw [(calls_condition c vars).1] at hc; cases hc
      | success vars =>
        rw [hloc] at hP
        rcases success_action c vars with ⟨v, hy, _⟩ | hy | hy <;> (simp only [Loop.program, hy] at hP; cases hP) <;>
          cases hc
      | _ => rw [hloc] at hP; cases hP
    | @make its ending next hP =>
      refine ⟨⟨m, hm⟩, fun hc => ?_⟩
      exfalso
      cases hloc : x.loc with
      | openCondition vars its e => rw [hloc] at hP; injection hP with a b d; subst d; cases hc
      | yieldBody vars =>
        rw [hloc] at hP
        rcases yield_action c vars .condition with ⟨v, hy⟩ | hy <;> (simp only [Loop.program, hy] at hP; cases hP)
      | yieldFinalize vars =>
        rw [hloc] at hP
        rcases yield_action c vars .success with ⟨v, hy⟩ | hy <;> (simp only [Loop.program, hy] at hP; cases hP)
      | success vars =>
        rw [hloc] at hP
        rcases success_action c vars with ⟨v, hy, _⟩ | hy | hy <;> (simp only [Loop.program, hy] at hP; cases hP)
      | _ => rw [hloc] at hP; cases hP
    | @item r item closed q l v vs s hP hrest =>
      refine ⟨⟨m, hm⟩, fun hc => ?_⟩
      exfalso
      cases hloc : x.loc with
      | parse vars r =>
        rw [hloc] at hP; injection hP with a b d e f; subst b
        simp only [(calls_decide c vars _).1] at hc
        cases hc
      | read vars => rw [hloc] at hP; injection hP with a b d e f; subst b; cases hc
      | yieldBody vars =>
        rw [hloc] at hP
        rcases yield_action c vars .condition with ⟨v, hy⟩ | hy <;> (simp only [Loop.program, hy] at hP; cases hP)
      | yieldFinalize vars =>
        rw [hloc] at hP
        rcases yield_action c vars .success with ⟨v, hy⟩ | hy <;> (simp only [Loop.program, hy] at hP; cases hP)
      | success vars =>
        rw [hloc] at hP
        rcases success_action c vars with ⟨v, hy, _⟩ | hy | hy <;> (simp only [Loop.program, hy] at hP; cases hP)
      | _ => rw [hloc] at hP; cases hP
    | @closed r item closed q l s hP hrest =>
      refine ⟨⟨m, hm⟩, fun hc => ?_⟩
      exfalso
      cases hloc : x.loc with
      | parse vars r => rw [hloc] at hP; injection hP with a b d e f; subst d; cases hc
      | read vars =>
        rw [hloc] at hP; injection hP with a b d e f; subst d
        simp only at hc
        split at hc <;> cases hc
      | yieldBody vars =>
        rw [hloc] at hP
        rcases yield_action c vars .condition with ⟨v, hy⟩ | hy <;> (simp only [Loop.program, hy] at hP; cases hP)
      | yieldFinalize vars =>
        rw [hloc] at hP
        rcases yield_action c vars .success with ⟨v, hy⟩ | hy <;> (simp only [Loop.program, hy] at hP; cases hP)
      | success vars =>
        rw [hloc] at hP
        rcases success_action c vars with ⟨v, hy, _⟩ | hy | hy <;> (simp only [Loop.program, hy] at hP; cases hP)
      | _ => rw [hloc] at hP; cases hP
    | @later r item closed q l hP =>
      refine ⟨⟨m, hm⟩, fun hc => ?_⟩
      exfalso
      cases hloc : x.loc with
      | parse vars r => rw [hloc] at hP; injection hP with a b d e f; subst f; cases hc
      | read vars => rw [hloc] at hP; injection hP with a b d e f; subst f; cases hc
      | yieldBody vars =>
        rw [hloc] at hP
        rcases yield_action c vars .condition with ⟨v, hy⟩ | hy <;> (simp only [Loop.program, hy] at hP; cases hP)
      | yieldFinalize vars =>
        rw [hloc] at hP
        rcases yield_action c vars .success with ⟨v, hy⟩ | hy <;> (simp only [Loop.program, hy] at hP; cases hP)
      | success vars =>
        rw [hloc] at hP
        rcases success_action c vars with ⟨v, hy, _⟩ | hy | hy <;> (simp only [Loop.program, hy] at hP; cases hP)
      | _ => rw [hloc] at hP; cases hP
    | @written v written failed hP =>
      have hcalls : x.loc.calls = true ∧ written.calls = false := by
        cases hloc : x.loc with
        | yieldBody vars =>
          rw [hloc] at hP
          rcases yield_action c vars .condition with ⟨v, hy⟩ | hy <;> (simp only [Loop.program, hy] at hP; cases hP)
          exact ⟨rfl, rfl⟩
        | yieldFinalize vars =>
          rw [hloc] at hP
          rcases yield_action c vars .success with ⟨v, hy⟩ | hy <;> (simp only [Loop.program, hy] at hP; cases hP)
          exact ⟨rfl, rfl⟩
        | success vars =>
          rw [hloc] at hP
          rcases success_action c vars with ⟨v, ha, hn⟩ | ha | ha
          · rw [hy] at hn; cases hn
          · simp only [Loop.program, ha] at hP; cases hP
          · simp only [Loop.program, ha] at hP; cases hP
        | _ => rw [hloc] at hP; cases hP
      obtain ⟨n, h1, h2⟩ := ih2 hcalls.1
      refine ⟨⟨n + 1, ?_⟩, fun hc => ?_⟩
      · show (Ideal.step c.program _).items = _
        unfold Ideal.step; rw [h2, hP]; simp [h1]
      · rw [hcalls.2] at hc; cases hc
    | @failed v written failed hP =>
      refine ⟨⟨m, hm⟩, fun hc => ?_⟩
      exfalso
      cases hloc : x.loc with
      | yieldBody vars =>
        rw [hloc] at hP
        rcases yield_action c vars .condition with ⟨v, hy⟩ | hy <;> (simp only [Loop.program, hy] at hP; cases hP)
        cases hc
      | yieldFinalize vars =>
        rw [hloc] at hP
        rcases yield_action c vars .success with ⟨v, hy⟩ | hy <;> (simp only [Loop.program, hy] at hP; cases hP)
        cases hc
      | success vars =>
        rw [hloc] at hP
        rcases success_action c vars with ⟨v, hy, _⟩ | hy | hy <;> (simp only [Loop.program, hy] at hP; cases hP)
        cases hc
      | _ => rw [hloc] at hP; cases hP
    | @close s next hP =>
      refine ⟨⟨m, hm⟩, fun hc => ?_⟩
      have := stop_place (loop_valid c |>.close (m := 1) (l := x.loc) ?_ hP).2
      · simp only [this] at hc; cases hc
      · refine ⟨fun _ => Nat.one_pos, ?_⟩
        cases hloc : x.loc with
        | parse vars r => rw [hloc] at hP; cases hP
        | read vars => exact Nat.one_pos
        | _ => exact trivial

end Verif.StreamLoop
