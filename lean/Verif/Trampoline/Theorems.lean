import Verif.Trampoline.Spec

/-! Theorems about `TrampolineExecutor`. -/

namespace Verif.Trampoline

variable {C S E : Type}

theorem enqueueAll_eq : ∀ (cs : List C) (x : Exec C S),
    enqueueAll x cs = { x with buffer := x.buffer ++ cs }
  | [], x => by simp [enqueueAll]
  | c :: cs, x => by
    rw [enqueueAll, enqueueAll_eq cs]
    simp [enqueue]

theorem pushAll_eq : ∀ (cs stack : List C), pushAll stack cs = stack ++ cs
  | [], stack => by simp [pushAll]
  | c :: cs, stack => by
    rw [pushAll, pushAll_eq cs]
    simp

/-- The executor with callbacks that are to be run in this order. -/
def ready (todo : List C) (s : S) (called : List C) : Exec C S := ⟨todo.reverse, [], s, called⟩

/-- One iteration. -/
theorem loop_ready (p : Program C S E) (n : Nat) (c : C) (rest : List C) (s : S) (called : List C) :
    loop p (n + 1) (ready (c :: rest) s called) =
      match p.run c s with
      | (s', cs, some e) => some (⟨(c :: rest).reverse, cs, s', called ++ [c]⟩, some e)
      | (s', cs, none) => loop p n (ready (cs ++ rest) s' (called ++ [c])) := by
  conv => lhs; unfold loop
  have hlast : (ready (c :: rest) s called).stack.getLast? = some c := by
    unfold ready
    simp
  rw [hlast]
  simp only
  unfold callBack
  have hstate : (ready (c :: rest) s called).state = s := rfl
  rw [hstate]
  cases hr : p.run c s with
  | mk s' y =>
    obtain ⟨cs, r⟩ := y
    simp only
    rw [enqueueAll_eq]
    cases r with
    | some e => simp [ready]
    | none =>
      simp only
      have : flushBuffer { ready (c :: rest) s' (called ++ [c]) with
          buffer := [] ++ cs, stack := (ready (c :: rest) s called).stack.dropLast } =
          ready (cs ++ rest) s' (called ++ [c]) := by
        unfold flushBuffer ready
        simp only
        rw [pushAll_eq]
        simp
      rw [← this]
      rfl

theorem loop_nil (p : Program C S E) (n : Nat) (s : S) (called : List C) :
    loop p (n + 1) (ready [] s called) = some (ready [] s called, none) := by
  unfold loop
  simp [ready]

theorem runs_append {p : Program C S E} : ∀ {a b : List C} {s s' : S} {called : List C}
    {r : Option E}, Runs p (a ++ b) s s' called r →
    (∃ e, r = some e ∧ Runs p a s s' called (some e)) ∨
    ∃ s1 t1 t2, Runs p a s s1 t1 none ∧ Runs p b s1 s' t2 r ∧ called = t1 ++ t2
  | [], b, s, s', called, r, h => .inr ⟨s, [], called, .done s, h, rfl⟩
  | c :: a, b, s, s', called, r, h => by
    rw [List.cons_append] at h
    generalize hl : c :: (a ++ b) = l at h
    cases h with
    | done => cases hl
    | fails hr =>
      cases hl
      exact .inl ⟨_, rfl, .fails hr⟩
    | inside hr hb =>
      cases hl
      exact .inl ⟨_, rfl, .inside hr hb⟩
    | next hr hb hrest =>
      cases hl
      rcases runs_append hrest with ⟨e, rfl, h'⟩ | ⟨s1, t1, t2, h1, h2, rfl⟩
      · exact .inl ⟨e, rfl, .next hr hb h'⟩
      · refine .inr ⟨s1, _, t2, .next hr hb h1, h2, ?_⟩
        simp

theorem loop_runs (p : Program C S E) : ∀ (n : Nat) (todo : List C) (s : S) (called : List C)
    (x : Exec C S) (r : Option E), loop p n (ready todo s called) = some (x, r) →
    ∃ t, Runs p todo s x.state t r ∧ x.called = called ++ t
  | 0, todo, s, called, x, r, h => by cases h
  | n + 1, [], s, called, x, r, h => by
    rw [loop_nil] at h
    cases h
    exact ⟨[], .done s, by simp [ready]⟩
  | n + 1, c :: rest, s, called, x, r, h => by
    rw [loop_ready] at h
    cases hr : p.run c s with
    | mk s' y =>
      obtain ⟨cs, o⟩ := y
      rw [hr] at h
      cases o with
      | some e =>
        cases h
        exact ⟨[c], .fails hr, rfl⟩
      | none =>
        simp only at h
        obtain ⟨t, h1, h2⟩ := loop_runs p n _ _ _ x r h
        rcases runs_append h1 with ⟨e, rfl, h'⟩ | ⟨s1, t1, t2, ha, hb, rfl⟩
        · exact ⟨c :: t, .inside hr h', by rw [h2]; simp⟩
        · exact ⟨c :: t1 ++ t2, .next hr ha hb, by rw [h2]; simp⟩

theorem runs_loop {p : Program C S E} {cs : List C} {s s' : S} {t : List C} {r : Option E}
    (h : Runs p cs s s' t r) : ∀ (rest called : List C),
    (∀ e, r = some e → ∃ n x, loop p n (ready (cs ++ rest) s called) = some (x, some e) ∧
      x.state = s' ∧ x.called = called ++ t) ∧
    (r = none → ∃ k, ∀ n, loop p (n + k) (ready (cs ++ rest) s called) =
      loop p n (ready rest s' (called ++ t))) := by
  induction h with
  | done s =>
    intro rest called
    refine ⟨(fun e h => by cases h), fun _ => ⟨0, fun n => ?_⟩⟩
    simp
  | @fails c cr s s' cs e hr =>
    intro rest called
    refine ⟨?_, fun h => by cases h⟩
    intro e' he
    cases he
    refine ⟨1, ⟨(c :: (cr ++ rest)).reverse, cs, s', called ++ [c]⟩, ?_, rfl, rfl⟩
    rw [List.cons_append, loop_ready, hr]
  | @inside c cr s s' s'' cs t e hr _ ih =>
    intro rest called
    refine ⟨?_, fun h => by cases h⟩
    intro e' he
    cases he
    obtain ⟨n, x, h1, h2, h3⟩ := (ih (cr ++ rest) (called ++ [c])).1 e rfl
    refine ⟨n + 1, x, ?_, h2, by rw [h3]; simp⟩
    rw [List.cons_append, loop_ready, hr]
    exact h1
  | @next c cr s s' s'' s''' cs t t' r hr _ _ ih1 ih2 =>
    intro rest called
    obtain ⟨k, hk⟩ := (ih1 (cr ++ rest) (called ++ [c])).2 rfl
    have hstep : ∀ n, loop p (n + k + 1) (ready (c :: cr ++ rest) s called) =
        loop p n (ready (cr ++ rest) s'' (called ++ [c] ++ t)) := by
      intro n
      rw [List.cons_append, loop_ready, hr]
      exact hk n
    have ih := ih2 rest (called ++ [c] ++ t)
    have hcalled : ∀ y : List C, called ++ [c] ++ t ++ y = called ++ (c :: t ++ y) := by
      intro y
      simp
    constructor
    · intro e he
      obtain ⟨n, x, h1, h2, h3⟩ := ih.1 e he
      refine ⟨n + k + 1, x, ?_, h2, by rw [h3, hcalled]⟩
      rw [hstep]
      exact h1
    · intro he
      obtain ⟨k', hk'⟩ := ih.2 he
      refine ⟨k' + k + 1, fun n => ?_⟩
      have : n + (k' + k + 1) = (n + k') + k + 1 := by omega
      rw [this, hstep, hk', hcalled]

theorem loop_mono (p : Program C S E) : ∀ (n m : Nat) (x : Exec C S) (r : Exec C S × Option E),
    n ≤ m → loop p n x = some r → loop p m x = some r
  | 0, _, _, _, _, h => by cases h
  | n + 1, 0, _, _, hnm, _ => by omega
  | n + 1, m + 1, x, r, hnm, h => by
    unfold loop at h ⊢
    cases hl : x.stack.getLast? with
    | none =>
      rw [hl] at h
      exact h
    | some c =>
      rw [hl] at h
      simp only at h ⊢
      cases hc : callBack p x c with
      | mk x' o =>
        rw [hc] at h
        cases o with
        | some e => exact h
        | none => exact loop_mono p n m _ r (by omega) h

/-- The executor does what the recursive program does: it ends with a state, a list of calls and a
status exactly if the recursive program does. -/
theorem C89_run (p : Program C S E) (root : C) (s s' : S) (called : List C) (r : Option E) :
    (∃ n, run p root s n = some (s', called, r)) ↔ Runs p [root] s s' called r := by
  unfold run callBack
  cases hr : p.run root s with
  | mk s1 y =>
    obtain ⟨cs, o⟩ := y
    simp only
    rw [enqueueAll_eq]
    cases o with
    | some e =>
      simp only [List.nil_append, Option.some.injEq, Prod.mk.injEq]
      constructor
      · rintro ⟨_, rfl, rfl, rfl⟩
        exact .fails hr
      · intro h
        generalize hl : [root] = l at h
        cases h with
        | done => cases hl
        | fails h' =>
          cases hl
          rw [hr] at h'
          cases h'
          exact ⟨0, rfl, rfl, rfl⟩
        | inside h' _ =>
          cases hl
          rw [hr] at h'
          cases h'
        | next h' _ _ =>
          cases hl
          rw [hr] at h'
          cases h'
    | none =>
      have hready : flushBuffer (⟨[], [] ++ cs, s1, [] ++ [root]⟩ : Exec C S) =
          ready cs s1 [root] := by
        unfold flushBuffer ready
        simp [pushAll_eq]
      simp only
      rw [hready]
      constructor
      · rintro ⟨n, h⟩
        cases hl : loop p n (ready cs s1 [root]) with
        | none =>
          rw [hl] at h
          cases h
        | some y =>
          obtain ⟨x, r'⟩ := y
          rw [hl] at h
          simp only [Option.some.injEq, Prod.mk.injEq] at h
          obtain ⟨rfl, rfl, rfl⟩ := h
          obtain ⟨t, h1, h2⟩ := loop_runs p n _ _ _ x _ hl
          rw [h2]
          cases r' with
          | some e => exact .inside hr h1
          | none =>
            have := Runs.next hr h1 (.done x.state)
            rw [List.append_nil] at this
            exact this
      · intro h
        have key : ∃ t, called = root :: t ∧ Runs p cs s1 s' t r := by
          generalize hl : [root] = l at h
          cases h with
          | done => cases hl
          | fails h' =>
            cases hl
            rw [hr] at h'
            cases h'
          | inside h' hb =>
            cases hl
            rw [hr] at h'
            cases h'
            exact ⟨_, rfl, hb⟩
          | next h' hb hrest =>
            cases hl
            rw [hr] at h'
            cases h'
            cases hrest
            exact ⟨_, by simp, hb⟩
        obtain ⟨t, rfl, hruns⟩ := key
        have hx := runs_loop hruns [] [root]
        rw [List.append_nil] at hx
        cases r with
        | some e =>
          obtain ⟨n, x, h1, h2, h3⟩ := hx.1 e rfl
          refine ⟨n, ?_⟩
          rw [h1]
          simp only [h2, h3]
          rfl
        | none =>
          obtain ⟨k, hk⟩ := hx.2 rfl
          refine ⟨1 + k, ?_⟩
          rw [hk 1, loop_nil]
          rfl

/-- The result does not depend on how long we wait for it. -/
theorem C89_stable (p : Program C S E) (root : C) (s : S) (n m : Nat) (hnm : n ≤ m)
    (r : S × List C × Option E) (h : run p root s n = some r) : run p root s m = some r := by
  unfold run at h ⊢
  cases hc : callBack p ⟨[], [], s, []⟩ root with
  | mk x o =>
    rw [hc] at h
    cases o with
    | some e => exact h
    | none =>
      simp only at h ⊢
      cases hl : loop p n (flushBuffer x) with
      | none =>
        rw [hl] at h
        cases h
      | some y =>
        rw [hl] at h
        rw [loop_mono p n m _ y hnm hl]
        exact h

theorem stateBy_append (p : Program C S E) : ∀ (a b : List C) (s : S),
    stateBy p (a ++ b) s = stateBy p b (stateBy p a s)
  | [], _, _ => rfl
  | _ :: a, b, _ => stateBy_append p a b _

theorem enqueuedBy_append (p : Program C S E) : ∀ (a b : List C) (s : S),
    enqueuedBy p (a ++ b) s = enqueuedBy p a s ++ enqueuedBy p b (stateBy p a s)
  | [], _, _ => rfl
  | c :: a, b, s => by
    show _ ++ enqueuedBy p (a ++ b) _ = _
    rw [enqueuedBy_append p a b]
    show _ = (_ ++ _) ++ _
    rw [List.append_assoc]
    rfl

theorem runs_once {p : Program C S E} {cs : List C} {s s' : S} {called : List C} {r : Option E}
    (h : Runs p cs s s' called r) :
    s' = stateBy p called s ∧
    ∃ dropped, (called ++ dropped).Perm (cs ++ enqueuedBy p called s) ∧ (r = none → dropped = []) := by
  induction h with
  | done s => exact ⟨rfl, [], .refl _, fun _ => rfl⟩
  | @fails c rest s s' cs e hr =>
    refine ⟨?_, rest ++ cs, ?_, fun h => by cases h⟩
    · simp [stateBy, hr]
    · simp [enqueuedBy, hr]
  | @inside c rest s s' s'' cs t e hr _ ih =>
    obtain ⟨h1, d, h2, _⟩ := ih
    refine ⟨?_, d ++ rest, ?_, fun h => by cases h⟩
    · rw [h1]
      simp [stateBy, hr]
    · simp only [enqueuedBy, hr, List.cons_append]
      refine List.Perm.cons c ?_
      rw [← List.append_assoc]
      refine (List.Perm.append_right rest h2).trans ?_
      exact List.perm_append_comm
  | @next c rest s s' s'' s''' cs t t' r hr _ _ ih1 ih2 =>
    obtain ⟨h1, d, h2, h3⟩ := ih1
    obtain ⟨h1', d', h2', h3'⟩ := ih2
    have hd := h3 rfl
    subst hd
    rw [List.append_nil] at h2
    refine ⟨?_, d', ?_, h3'⟩
    · rw [h1', h1, stateBy_append]
      simp [stateBy, hr]
    · rw [List.cons_append, List.cons_append, List.cons_append]
      refine List.Perm.cons c ?_
      simp only [enqueuedBy, hr]
      rw [enqueuedBy_append, ← h1, List.append_assoc]
      refine (List.Perm.append h2 h2').trans ?_
      have h5 : (cs ++ enqueuedBy p t s' ++ (rest ++ enqueuedBy p t' s'')).Perm
          (rest ++ (cs ++ enqueuedBy p t s') ++ enqueuedBy p t' s'') := by
        rw [← List.append_assoc]
        exact List.Perm.append_right _ List.perm_append_comm
      refine h5.trans ?_
      rw [List.append_assoc, List.append_assoc]

/-- Every callback that is enqueued is called exactly once, unless a callback before it fails: then
it is never called. The state at the end is the one that the calls made. -/
theorem C89_once (p : Program C S E) (root : C) (s s' : S) (called : List C) (r : Option E) (n : Nat)
    (h : run p root s n = some (s', called, r)) :
    s' = stateBy p called s ∧
    ∃ dropped, (called ++ dropped).Perm (root :: enqueuedBy p called s) ∧
      (r = none → dropped = []) :=
  runs_once ((C89_run p root s s' called r).1 ⟨n, h⟩)

theorem runs_last {p : Program C S E} {cs : List C} {s s' : S} {called : List C} {r : Option E}
    (h : Runs p cs s s' called r) :
    ∀ before c after, called = before ++ c :: after →
      (p.run c (stateBy p before s)).2.2 = if after = [] then r.or none else none := by
  induction h with
  | done s =>
    intro a c b hab
    cases a <;> cases hab
  | @fails c rest s s' cs e hr =>
    intro a c' b hab
    cases a with
    | nil =>
      cases hab
      simp [stateBy, hr]
    | cons x a =>
      cases a <;> cases hab
  | @inside c rest s s' s'' cs t e hr hb ih =>
    intro a c' b hab
    cases a with
    | nil =>
      cases hab
      have ht : t ≠ [] := by
        intro ht
        subst ht
        generalize hx : ([] : List C) = x at hb
        generalize hy : some e = y at hb
        cases hb with
        | done => cases hy
        | fails => cases hx
        | inside => cases hx
        | next => cases hx
      rw [if_neg ht]
      simp [stateBy, hr]
    | cons x a =>
      rw [List.cons_append, List.cons.injEq] at hab
      obtain ⟨rfl, hab⟩ := hab
      have := ih a c' b hab
      rw [← this]
      simp [stateBy, hr]
  | @next c rest s s' s'' s''' cs t t' r hr hb hrest ih1 ih2 =>
    intro a c' b hab
    have hlast : ∀ {t' : List C} {r : Option E} {rest s'' s'''}, Runs p rest s'' s''' t' r →
        t' = [] → r = none := by
      intro t' r rest s'' s''' h ht
      cases h with
      | done => rfl
      | fails => cases ht
      | inside => cases ht
      | next => cases ht
    cases a with
    | nil =>
      rw [List.nil_append, List.cons_append, List.cons.injEq] at hab
      obtain ⟨rfl, rfl⟩ := hab
      by_cases hnil : t ++ t' = []
      · rw [if_pos hnil, hlast hrest (List.append_eq_nil_iff.1 hnil).2]
        simp [stateBy, hr]
      · rw [if_neg hnil]
        simp [stateBy, hr]
    | cons x a =>
      rw [List.cons_append, List.cons_append, List.cons.injEq] at hab
      obtain ⟨rfl, hab⟩ := hab
      have hs : stateBy p (c :: a) s = stateBy p a s' := by simp [stateBy, hr]
      rw [hs]
      rcases List.append_eq_append_iff.1 hab with ⟨y, h1, h2⟩ | ⟨y, h1, h2⟩
      · subst h1
        have := ih2 y c' b h2
        rw [stateBy_append, ← (runs_once hb).1]
        exact this
      · cases y with
        | nil =>
          rw [List.append_nil] at h1
          rw [List.nil_append] at h2
          subst h1
          have := ih2 [] c' b h2.symm
          rw [← (runs_once hb).1]
          exact this
        | cons z y =>
          rw [List.cons_append, List.cons.injEq] at h2
          obtain ⟨rfl, rfl⟩ := h2
          have := ih1 a c' y h1
          rw [this]
          by_cases hy : y ++ t' = []
          · rw [if_pos hy, hlast hrest (List.append_eq_nil_iff.1 hy).2]
            simp
          · rw [if_neg hy]
            simp

/-- Nothing is called after an error: all calls but the last succeed, and the status is that of the
last call. -/
theorem C89_errors (p : Program C S E) (root : C) (s s' : S) (called : List C) (r : Option E)
    (n : Nat) (h : run p root s n = some (s', called, r)) (before : List C) (c : C)
    (after : List C) (hc : called = before ++ c :: after) :
    (p.run c (stateBy p before s)).2.2 = if after = [] then r else none := by
  have := runs_last ((C89_run p root s s' called r).1 ⟨n, h⟩) before c after hc
  rw [this]
  cases r <;> rfl

/-! ### Examples -/

/-- The example in trampoline_executor.h:37-68: `f(x)` with a place for its result, and the callback
that multiplies. A place is a number; the state has the values at the places. -/
inductive ExCall where
  | f (x place : Nat)
  | times (x place : Nat)
  deriving DecidableEq

/-- `f` fails for numbers above 9. -/
def exProgram : Program ExCall (List (Nat × Nat)) String where
  run
    | .f 0 place, s => ((place, 1) :: s, [], none)
    | .f (x + 1) place, s =>
      if x ≥ 9 then (s, [], some "too large")
      else (s, [.f x (place + 1), .times (x + 1) place], none)
    | .times x place, s => ((place, x * ((s.lookup (place + 1)).getD 0)) :: s, [], none)

example : (run exProgram (.f 5 0) [] 100).map (fun x => (x.1.lookup 0, x.2.1.length, x.2.2)) =
    some (some 120, 11, none) := by
  decide +kernel

example : (run exProgram (.f 2 0) [] 100).map (fun x => x.2.1) =
    some [.f 2 0, .f 1 1, .f 0 2, .times 1 1, .times 2 0] := by
  decide +kernel

example : (run exProgram (.f 10 0) [] 100).map (fun x => (x.1, x.2.1, x.2.2)) =
    some ([], [.f 10 0], some "too large") := by
  decide +kernel

/-- The factorial. -/
def factorial : Nat → Nat
  | 0 => 1
  | n + 1 => (n + 1) * factorial n

/-- The example computes the factorial. -/
theorem exProgram_runs : ∀ (x place : Nat) (s : List (Nat × Nat)), x < 10 →
    ∃ s' called, Runs exProgram [.f x place] s s' called none ∧
      s'.lookup place = some (factorial x)
  | 0, place, s, _ => by
    refine ⟨(place, 1) :: s, [.f 0 place], ?_, by simp [factorial]⟩
    exact Runs.next (p := exProgram) (c := .f 0 place) (rest := []) (cs := []) (called := [])
      (called' := []) rfl (.done _) (.done _)
  | x + 1, place, s, hx => by
    obtain ⟨s1, t, h1, h2⟩ := exProgram_runs x (place + 1) s (by omega)
    have hrun : exProgram.run (.f (x + 1) place) s =
        (s, [.f x (place + 1), .times (x + 1) place], none) := by
      show (if x ≥ 9 then _ else _) = _
      rw [if_neg (by omega)]
    have htimes : Runs exProgram [.times (x + 1) place] s1
        ((place, (x + 1) * ((s1.lookup (place + 1)).getD 0)) :: s1) [.times (x + 1) place] none :=
      Runs.next (p := exProgram) (c := .times (x + 1) place) (rest := []) (cs := []) (called := [])
        (called' := []) rfl (.done _) (.done _)
    have hboth : ∃ t', Runs exProgram [.f x (place + 1), .times (x + 1) place] s
        ((place, (x + 1) * ((s1.lookup (place + 1)).getD 0)) :: s1) t' none := by
      generalize hl : [ExCall.f x (place + 1)] = l at h1
      generalize hn : (none : Option String) = o at h1
      cases h1 with
      | done => cases hl
      | fails => cases hn
      | inside => cases hn
      | next hr hb hrest =>
        cases hl
        cases hrest
        exact ⟨_, .next hr hb htimes⟩
    obtain ⟨t', hboth⟩ := hboth
    refine ⟨_, _, .next hrun hboth (.done _), ?_⟩
    rw [h2]
    simp [factorial]

end Verif.Trampoline
