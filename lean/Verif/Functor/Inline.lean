import Verif.Functor.Order

/-! Inlining keeps the value of an expression. -/

namespace Verif.Functor

variable {Op V : Type}

/-- The inputs in a list are the given ones. -/
structure Fits (K : Kit Op V) (given : String → V → Prop) (ins : List (String × V)) : Prop where
  same : ∀ n v, ins.lookup n = some v ↔ given n v
  bag : ins.lookup kBag = some K.selfBag

/-- An input that the expression of a needed variable asks for. -/
def Asked (F : Fn Op V) (n : String) : Prop :=
  n = kBag ∨ ∃ a e, Reached F a ∧ F.attr a = some (.quote e) ∧ Asks e n

/-- The expression `e'` without variables does the same as `e`. -/
structure Same (K : Kit Op V) (F : Fn Op V) (given : String → V → Prop) (ins : List (String × V))
    (e e' : Expr Op V) : Prop where
  value : ∀ v, eval K ins e' = .ok v ↔ Evals K F given e v
  closed : e'.vars = []
  raises : ∀ m, eval K ins e' = .error (.op m) → Raises K F given e m
  asks : ∀ n ∈ e'.inputs, Asks e n ∨ Asked F n

/-- The same for lists. -/
structure SameAll (K : Kit Op V) (F : Fn Op V) (given : String → V → Prop) (ins : List (String × V))
    (es es' : List (Expr Op V)) : Prop where
  value : ∀ vs, evalAll K ins es' = .ok vs ↔ EvalsAll K F given es vs
  closed : varsAll es' = []
  raises : ∀ m, evalAll K ins es' = .error (.op m) → ∃ e ∈ es, Raises K F given e m
  asks : ∀ n ∈ inputsAll es', (∃ e ∈ es, Asks e n) ∨ Asked F n

/-- All entries of `env` do the same as the variables. -/
def EnvSame (K : Kit Op V) (F : Fn Op V) (given : String → V → Prop) (ins : List (String × V))
    (env : List (String × Expr Op V)) : Prop :=
  ∀ n e', env.lookup n = some e' → Same K F given ins (.var n) e'

mutual

theorem subst_same {K : Kit Op V} {F : Fn Op V} {given : String → V → Prop}
    {ins : List (String × V)} (hf : Fits K given ins) {env : List (String × Expr Op V)}
    (henv : EnvSame K F given ins env) :
    ∀ (e e' : Expr Op V), subst env e = .ok e' → Same K F given ins e e'
  | .input name, e', h => by
    unfold subst at h
    simp only [Except.ok.injEq] at h
    subst h
    constructor
    · intro v
      unfold eval
      cases hl : ins.lookup name with
      | none =>
        simp only
        constructor
        · intro h; cases h
        · intro h
          cases h with
          | input h =>
            rw [← hf.same, hl] at h
            cases h
      | some x =>
        simp only [Except.ok.injEq]
        constructor
        · rintro rfl
          exact .input ((hf.same _ _).1 hl)
        · intro h
          cases h with
          | input h =>
            rw [← hf.same, hl] at h
            cases h
            rfl
    · rfl
    · intro m h
      unfold eval at h
      cases hl : ins.lookup name with
      | none => rw [hl] at h; cases h
      | some x => rw [hl] at h; cases h
    · intro n hn
      exact .inl ((mem_inputs _ _).1 hn)
  | .var name, e', h => by
    unfold subst at h
    cases hl : env.lookup name with
    | none => rw [hl] at h; cases h
    | some x =>
      rw [hl] at h
      simp only [Except.ok.injEq] at h
      subst h
      exact henv name x hl
  | .lit x, e', h => by
    unfold subst at h
    simp only [Except.ok.injEq] at h
    subst h
    constructor
    · intro v
      unfold eval
      simp only [Except.ok.injEq]
      constructor
      · rintro rfl
        exact .lit _
      · intro h
        cases h
        rfl
    · rfl
    · intro m h
      unfold eval at h
      cases h
    · intro n hn
      exact .inl ((mem_inputs _ _).1 hn)
  | .node op args, e', h => by
    unfold subst at h
    cases hs : substAll env args with
    | error err => rw [hs] at h; cases h
    | ok args' =>
      rw [hs] at h
      simp only [Except.ok.injEq] at h
      subst h
      have ih := substAll_same hf henv args args' hs
      constructor
      · intro v
        unfold eval
        constructor
        · intro h
          cases he : evalAll K ins args' with
          | error err => rw [he] at h; cases h
          | ok vs =>
            rw [he] at h
            simp only at h
            cases ha : K.apply op vs with
            | error m => rw [ha] at h; cases h
            | ok x =>
              rw [ha] at h
              simp only [Except.ok.injEq] at h
              subst h
              exact .node ((ih.value vs).1 he) ha
        · intro h
          cases h with
          | node hvs ha =>
            rw [(ih.value _).2 hvs]
            simp only [ha]
      · unfold Expr.vars
        exact ih.closed
      · intro m h
        unfold eval at h
        cases he : evalAll K ins args' with
        | error err =>
          rw [he] at h
          simp only [Except.error.injEq] at h
          subst h
          obtain ⟨e, hm, hr⟩ := ih.raises m he
          exact .arg hm hr
        | ok vs =>
          rw [he] at h
          simp only at h
          cases ha : K.apply op vs with
          | error m' =>
            rw [ha] at h
            simp only [Except.error.injEq, Err.op.injEq] at h
            subst h
            exact .here ((ih.value vs).1 he) ha
          | ok x => rw [ha] at h; cases h
      · intro n hn
        unfold Expr.inputs at hn
        rcases ih.asks n hn with ⟨e, he, h⟩ | h
        · exact .inl (.node he h)
        · exact .inr h

theorem substAll_same {K : Kit Op V} {F : Fn Op V} {given : String → V → Prop}
    {ins : List (String × V)} (hf : Fits K given ins) {env : List (String × Expr Op V)}
    (henv : EnvSame K F given ins env) :
    ∀ (es es' : List (Expr Op V)), substAll env es = .ok es' → SameAll K F given ins es es'
  | [], es', h => by
    unfold substAll at h
    simp only [Except.ok.injEq] at h
    subst h
    constructor
    · intro vs
      unfold evalAll
      simp only [Except.ok.injEq]
      constructor
      · rintro rfl
        exact .nil
      · intro h
        cases h
        rfl
    · rfl
    · intro m h
      unfold evalAll at h
      cases h
    · intro n hn
      cases hn
  | e :: es, es', h => by
    unfold substAll at h
    cases h1 : subst env e with
    | error err => rw [h1] at h; cases h
    | ok e1 =>
      rw [h1] at h
      simp only at h
      cases h2 : substAll env es with
      | error err => rw [h2] at h; cases h
      | ok es1 =>
        rw [h2] at h
        simp only [Except.ok.injEq] at h
        subst h
        have i1 := subst_same hf henv e e1 h1
        have i2 := substAll_same hf henv es es1 h2
        constructor
        · intro vs
          unfold evalAll
          constructor
          · intro h
            cases a1 : eval K ins e1 with
            | error err => rw [a1] at h; cases h
            | ok v =>
              rw [a1] at h
              simp only at h
              cases a2 : evalAll K ins es1 with
              | error err => rw [a2] at h; cases h
              | ok vs' =>
                rw [a2] at h
                simp only [Except.ok.injEq] at h
                subst h
                exact .cons ((i1.value v).1 a1) ((i2.value vs').1 a2)
          · intro h
            cases h with
            | cons b1 b2 => rw [(i1.value _).2 b1, (i2.value _).2 b2]
        · unfold varsAll
          rw [i1.closed, i2.closed]
          rfl
        · intro m h
          unfold evalAll at h
          cases a1 : eval K ins e1 with
          | error err =>
            rw [a1] at h
            simp only [Except.error.injEq] at h
            subst h
            exact ⟨e, by simp, i1.raises m a1⟩
          | ok v =>
            rw [a1] at h
            simp only at h
            cases a2 : evalAll K ins es1 with
            | error err =>
              rw [a2] at h
              simp only [Except.error.injEq] at h
              subst h
              obtain ⟨x, hx, hr⟩ := i2.raises m a2
              exact ⟨x, List.mem_cons_of_mem _ hx, hr⟩
            | ok vs' => rw [a2] at h; cases h
        · intro n hn
          unfold inputsAll at hn
          rcases List.mem_append.1 hn with hn | hn
          · rcases i1.asks n hn with h | h
            · exact .inl ⟨e, by simp, h⟩
            · exact .inr h
          · rcases i2.asks n hn with ⟨x, hx, h⟩ | h
            · exact .inl ⟨x, List.mem_cons_of_mem _ hx, h⟩
            · exact .inr h

end

mutual

theorem subst_error {env : List (String × Expr Op V)} :
    ∀ (e : Expr Op V) (err : Err), subst env e = .error err →
      ∃ n, Mentions e n ∧ env.lookup n = none
  | .input name, err, h => by
    unfold subst at h
    cases h
  | .var name, err, h => by
    unfold subst at h
    cases hl : env.lookup name with
    | none => exact ⟨name, .var name, hl⟩
    | some x => rw [hl] at h; cases h
  | .lit x, err, h => by
    unfold subst at h
    cases h
  | .node op args, err, h => by
    unfold subst at h
    cases hs : substAll env args with
    | ok args' => rw [hs] at h; cases h
    | error err' =>
      obtain ⟨e, he, n, hn, hl⟩ := substAll_error args err' hs
      exact ⟨n, .node he hn, hl⟩

theorem substAll_error {env : List (String × Expr Op V)} :
    ∀ (es : List (Expr Op V)) (err : Err), substAll env es = .error err →
      ∃ e ∈ es, ∃ n, Mentions e n ∧ env.lookup n = none
  | [], err, h => by
    unfold substAll at h
    cases h
  | e :: es, err, h => by
    unfold substAll at h
    cases h1 : subst env e with
    | error err' => exact ⟨e, by simp, subst_error e err' h1⟩
    | ok e1 =>
      rw [h1] at h
      simp only at h
      cases h2 : substAll env es with
      | error err' =>
        obtain ⟨x, hx, h'⟩ := substAll_error es err' h2
        exact ⟨x, List.mem_cons_of_mem _ hx, h'⟩
      | ok es1 => rw [h2] at h; cases h

end

theorem evalAll_item {K : Kit Op V} {ins : List (String × V)}
    (hb : ins.lookup kBag = some K.selfBag) (i : Item) :
    eval K ins (.node K.withBag [.lit (K.item i), .input kBag]) = .ok (K.withSelf i) := by
  simp [eval, evalAll, hb, K.withBag_apply]

theorem item_same {K : Kit Op V} {F : Fn Op V} {given : String → V → Prop}
    {ins : List (String × V)} (hf : Fits K given ins) {name : String} {i : Item}
    (ha : F.attr name = some (.item i)) : Same K F given ins (.var name) (itemExpr K i) := by
  have hv : eval K ins (itemExpr K i) = .ok (attached K i) := by
    cases i with
    | missing => exact evalAll_item hf.bag _
    | object id => exact evalAll_item hf.bag _
    | prim n => simp [itemExpr, eval, attached]
  constructor
  · intro v
    rw [hv]
    simp only [Except.ok.injEq]
    constructor
    · rintro rfl
      exact .item ha
    · intro h
      cases h with
      | expr h _ => rw [ha] at h; cases h
      | item h =>
        rw [ha] at h
        cases h
        rfl
  · cases i <;> simp [itemExpr, Expr.vars, varsAll]
  · intro m h
    rw [hv] at h
    cases h
  · intro n hn
    right
    left
    cases i with
    | missing => simpa [itemExpr, Expr.inputs, inputsAll] using hn
    | object id => simpa [itemExpr, Expr.inputs, inputsAll] using hn
    | prim n => simp [itemExpr, Expr.inputs] at hn

theorem expr_same {K : Kit Op V} {F : Fn Op V} {given : String → V → Prop}
    {ins : List (String × V)} {name : String} {e e' : Expr Op V} (hr : Reached F name)
    (ha : F.attr name = some (.quote e)) (h : Same K F given ins e e') :
    Same K F given ins (.var name) e' := by
  constructor
  · intro v
    rw [h.value]
    constructor
    · exact .expr ha
    · intro h
      cases h with
      | expr h' hv =>
        rw [ha] at h'
        cases h'
        exact hv
      | item h' => rw [ha] at h'; cases h'
  · exact h.closed
  · intro m hm
    exact .var ha (h.raises m hm)
  · intro n hn
    rcases h.asks n hn with h' | h'
    · exact .inr (.inr ⟨name, e, hr, ha, h'⟩)
    · exact .inr h'

theorem lookup_append {β : Type} (n name : String) (v : β) : ∀ (l : List (String × β)),
    (l ++ [(name, v)]).lookup n =
      match l.lookup n with
      | some x => some x
      | none => if n = name then some v else none
  | [] => by
    rw [List.nil_append, lookup_cons]
    rfl
  | (m, x) :: l => by
    rw [List.cons_append, lookup_cons, lookup_cons, lookup_append n name v l]
    by_cases h : n = m
    · rw [if_pos h, if_pos h]
    · rw [if_neg h, if_neg h]

theorem lookup_none {β : Type} {n : String} : ∀ {l : List (String × β)},
    l.lookup n = none ↔ n ∉ l.map Prod.fst
  | [] => by simp
  | (m, x) :: l => by
    rw [lookup_cons]
    by_cases h : n = m
    · rw [if_pos h]
      simp [h]
    · rw [if_neg h, lookup_none (l := l)]
      simp [h]

theorem EnvSame.add {K : Kit Op V} {F : Fn Op V} {given : String → V → Prop}
    {ins : List (String × V)} {env : List (String × Expr Op V)} (henv : EnvSame K F given ins env)
    {name : String} {e : Expr Op V} (h : Same K F given ins (.var name) e) :
    EnvSame K F given ins (env ++ [(name, e)]) := by
  intro n e' hl
  rw [lookup_append] at hl
  cases hl' : env.lookup n with
  | some x =>
    rw [hl'] at hl
    simp only [Option.some.injEq] at hl
    subst hl
    exact henv n x hl'
  | none =>
    rw [hl'] at hl
    simp only at hl
    by_cases hn : n = name
    · rw [if_pos hn] at hl
      cases hl
      subst hn
      exact h
    · rw [if_neg hn] at hl
      cases hl

/-- The loop over a good order. -/
theorem inlineLoop_spec {K : Kit Op V} {F : Fn Op V} {order : List String} (ho : GoodOrder F order) :
    ∀ (names before : List String) (env : List (String × Expr Op V)), order = before ++ names →
      env.map Prod.fst = before →
      (∃ env', inlineLoop K F names env = .ok env' ∧ env'.map Prod.fst = order ∧
        (∀ n ∈ names, F.attr n ≠ none) ∧
        ∀ given ins, Fits K given ins → EnvSame K F given ins env → EnvSame K F given ins env') ∨
      (∃ n, inlineLoop K F names env = .error (.noAttr n) ∧ Reached F n ∧ F.attr n = none)
  | [], before, env, horder, henv => by
    left
    refine ⟨env, rfl, ?_, ?_, fun _ _ _ h => h⟩
    · rw [henv, horder, List.append_nil]
    · intro n hn
      cases hn
  | name :: names, before, env, horder, henv => by
    have hr : Reached F name := (ho.all name).1 (by rw [horder]; simp)
    have horder' : order = (before ++ [name]) ++ names := by rw [horder]; simp
    unfold inlineLoop inlineOne
    cases ha : F.attr name with
    | none =>
      right
      exact ⟨name, rfl, hr, ha⟩
    | some x =>
      cases x with
      | item i =>
        simp only
        rcases inlineLoop_spec ho names (before ++ [name]) (env ++ [(name, itemExpr K i)]) horder'
          (by simp [henv]) with ⟨env', h1, h2, h3, h4⟩ | h
        · left
          refine ⟨env', h1, h2, ?_, ?_⟩
          · intro n hn
            rcases List.mem_cons.1 hn with rfl | hn
            · rw [ha]
              simp
            · exact h3 n hn
          · intro given ins hf hs
            exact h4 given ins hf (hs.add (item_same hf ha))
        · exact .inr h
      | quote e =>
        simp only
        cases hsub : subst env e with
        | error err =>
          obtain ⟨n, hn, hl⟩ := subst_error e err hsub
          rw [lookup_none, henv] at hl
          exact absurd (ho.after before name names horder n ⟨e, ha, hn⟩) hl
        | ok e' =>
          simp only
          rcases inlineLoop_spec ho names (before ++ [name]) (env ++ [(name, e')]) horder'
            (by simp [henv]) with ⟨env', h1, h2, h3, h4⟩ | h
          · left
            refine ⟨env', h1, h2, ?_, ?_⟩
            · intro n hn
              rcases List.mem_cons.1 hn with rfl | hn
              · rw [ha]
                simp
              · exact h3 n hn
            · intro given ins hf hs
              exact h4 given ins hf (hs.add (expr_same hr ha (subst_same hf hs e e' hsub)))
          · exact .inr h

/-- What `InlineAllVariables` returns. -/
theorem inlineAll_spec (K : Kit Op V) {F : Fn Op V} (h : isFunctor F = true) :
    (∃ e, inlineAll K F = .ok e ∧ (∀ n, Reached F n → F.attr n ≠ none ∧ ¬ Path F n n) ∧
      ∀ given ins, Fits K given ins → Same K F given ins (.var kReturns) e) ∨
    (∃ n, inlineAll K F = .error (.noAttr n) ∧ Reached F n ∧ F.attr n = none) ∨
    (∃ n, inlineAll K F = .error (.cycle n) ∧ Reached F n ∧ Path F n n) := by
  unfold inlineAll
  rcases order_spec h with ⟨order, ho, hg⟩ | ⟨d, hd, hr, hp⟩
  · rw [ho]
    simp only
    have hlast : order.getLast? = some kReturns := hg.last
    rw [if_pos hlast]
    rcases inlineLoop_spec (K := K) hg order [] [] rfl rfl with ⟨env', h1, h2, h3, h4⟩ | ⟨n, h1, h2⟩
    · left
      rw [h1]
      simp only
      have hret : kReturns ∈ env'.map Prod.fst := by
        rw [h2]
        exact List.mem_of_getLast? hg.last
      cases hl : env'.lookup kReturns with
      | none => exact absurd hret (lookup_none.1 hl)
      | some e =>
        refine ⟨e, rfl, ?_, ?_⟩
        · intro n hn
          exact ⟨h3 n ((hg.all n).2 hn), hg.noCycle n hn⟩
        · intro given ins hf
          exact h4 given ins hf (fun n e hx => by cases hx) kReturns e hl
    · right
      left
      rw [h1]
      exact ⟨n, rfl, h2⟩
  · right
    right
    rw [hd]
    exact ⟨d, rfl, hr, hp⟩

/-! ### Expressions with a value -/

/-- A variable that has an attribute, as all those that it needs. -/
inductive Fine (F : Fn Op V) : String → Prop where
  | mk {n : String} : F.attr n ≠ none → (∀ d, Uses F n d → Fine F d) → Fine F n

theorem Evals.fine {K : Kit Op V} {F : Fn Op V} {given : String → V → Prop} {e : Expr Op V} {v : V}
    (h : Evals K F given e v) : ∀ n, Mentions e n → Fine F n := by
  refine Evals.rec (K := K) (F := F) (given := given)
    (motive_1 := fun e _ _ => ∀ n, Mentions e n → Fine F n)
    (motive_2 := fun es _ _ => ∀ n e, e ∈ es → Mentions e n → Fine F n) ?_ ?_ ?_ ?_ ?_ ?_ ?_ h
  · intro name v _ n hm
    cases hm
  · intro v n hm
    cases hm
  · intro op args vs v _ _ ih n hm
    cases hm with
    | node he hm => exact ih n _ he hm
  · intro name e v ha _ ih n hm
    cases hm
    refine .mk (by rw [ha]; simp) ?_
    rintro d ⟨e', ha', hd⟩
    rw [ha] at ha'
    cases ha'
    exact ih d hd
  · intro name i ha n hm
    cases hm
    refine .mk (by rw [ha]; simp) ?_
    rintro d ⟨e', ha', hd⟩
    rw [ha] at ha'
    cases ha'
  · intro n e he
    cases he
  · intro e es v vs _ _ ih1 ih2 n x hx hm
    rcases List.mem_cons.1 hx with hx | hx
    · subst hx
      exact ih1 n hm
    · exact ih2 n x hx hm

theorem Fine.path {F : Fn Op V} {a b : String} (h : Path F a b) : Fine F a → Fine F b := by
  induction h with
  | one h =>
    rintro ⟨_, hd⟩
    exact hd _ h
  | more h _ ih =>
    rintro ⟨_, hd⟩
    exact ih (hd _ h)

theorem Fine.noCycle {F : Fn Op V} {a : String} (h : Fine F a) : ¬ Path F a a := by
  induction h with
  | mk _ _ ih =>
    intro hp
    cases hp with
    | one h => exact ih _ h (.one h)
    | more h hp => exact ih _ h (hp.snoc h)

theorem Fine.reached {F : Fn Op V} (h : Fine F kReturns) {n : String} (hr : Reached F n) :
    F.attr n ≠ none ∧ ¬ Path F n n := by
  have hn : Fine F n := by
    rcases hr with rfl | hp
    · exact h
    · exact h.path hp
  refine ⟨?_, hn.noCycle⟩
  cases hn with
  | mk h _ => exact h

end Verif.Functor
