import Verif.Functor.Eval

/-!
The theorems about functors with variables. The last section shows concrete ones.
-/

namespace Verif.Functor

open Verif.Binding (Parameter Bound PyBinds PyValid Cfg)

variable {Op V : Type}

/-- An object is a functor if it has a result that is not missing, and a signature. -/
theorem isFunctor_iff (F : Fn Op V) : isFunctor F = true ↔
    (∃ a, F.attr "returns" = some a ∧ a ≠ .item .missing) ∧ ∃ ps, F.signature = some ps := by
  unfold isFunctor
  show (match F.attr kReturns with
    | none => false
    | some (.item .missing) => false
    | some _ => F.signature.isSome) = true ↔ _
  have hk : F.attr "returns" = F.attr kReturns := rfl
  rw [hk]
  cases ha : F.attr kReturns with
  | none => simp
  | some a =>
    cases a with
    | quote e =>
      simp only [Option.isSome_iff_exists, Option.some.injEq, ne_eq, exists_eq_left', reduceCtorEq,
        not_false_eq_true, true_and]
    | item i =>
      cases i with
      | missing => simp
      | object id =>
        simp [Option.isSome_iff_exists]
      | prim n =>
        simp [Option.isSome_iff_exists]

/-- The order of evaluation exists exactly if no variable that the result needs depends on itself.
Then it consists of all variables that the result needs; each comes once and after those that it
uses, and the result comes last. Otherwise the error names a variable that depends on itself. -/
theorem C85_order (F : Fn Op V) (h : isFunctor F = true) :
    (∀ order, evaluationOrder F = .ok order → GoodOrder F order) ∧
    (∀ err, evaluationOrder F = .error err → ∃ name, err = .cycle name ∧ Reached F name ∧
      Path F name name) ∧
    ((∃ order, evaluationOrder F = .ok order) ↔ ∀ name, Reached F name → ¬ Path F name name) := by
  rcases order_spec h with ⟨order, ho, hg⟩ | ⟨d, hd, hr, hp⟩
  · refine ⟨?_, ?_, ?_⟩
    · intro order' h'
      rw [ho] at h'
      cases h'
      exact hg
    · intro err h'
      rw [ho] at h'
      cases h'
    · exact ⟨fun _ => hg.noCycle, fun _ => ⟨order, ho⟩⟩
  · refine ⟨?_, ?_, ?_⟩
    · intro order' h'
      rw [hd] at h'
      cases h'
    · intro err h'
      rw [hd] at h'
      cases h'
      exact ⟨d, rfl, hr, hp⟩
    · constructor
      · rintro ⟨order, ho⟩
        rw [hd] at ho
        cases ho
      · intro h'
        exact absurd hp (h' d hr)

/-- Something that is not a functor has no order of evaluation. -/
theorem C85_not_functor (F : Fn Op V) (h : isFunctor F = false) :
    evaluationOrder F = .error .notFunctor := by
  unfold evaluationOrder
  rw [if_neg (by rw [h]; simp)]

/-- The list of the variables of an expression is sorted and has no repetitions. -/
theorem C85_variables (e : Expr Op V) :
    (exprVariables e).Pairwise (· < ·) ∧ ∀ name, name ∈ exprVariables e ↔ Mentions e name := by
  refine ⟨sortNames_sorted _, ?_⟩
  intro name
  unfold exprVariables
  rw [mem_sortNames, mem_vars]

/-- A call returns a value exactly if its arguments bind as in python and the value is the one of
`V.returns`. -/
theorem C85_call (K : Kit Op V) (F : Fn Op V) (ps : List (Parameter V))
    (h : isFunctor F = true) (hs : F.signature = some ps) (hv : PyValid K.cfg ps)
    (hb : "__bag" ∉ ps.map Parameter.name) (pos : List V) (kw : List (String × V)) (v : V) :
    call K F (pos ++ kw.map Prod.snd) (kw.map Prod.fst) = .ok v ↔
      ∃ bound, PyBinds K.cfg ps pos kw bound ∧
        Evals K F (Given K ps bound) (.var "returns") v := by
  obtain ⟨s, hcreate⟩ := (Binding.C43_signatures K.cfg ps).1.2 hv
  have hbind := Binding.C43_bind K.cfg ps s hcreate pos kw
  have hpar : s.parameters = ps := (Binding.C43_signatures K.cfg ps).2 s hcreate
  unfold call process runProcessed
  rw [if_pos h, hs]
  simp only [hcreate]
  have hno : (∃ n, Reached F n ∧ (F.attr n = none ∨ Path F n n)) →
      ¬ ∃ bound, PyBinds K.cfg ps pos kw bound ∧
        Evals K F (Given K ps bound) (.var "returns") v := by
    rintro ⟨n, hr, hn⟩ ⟨bound, _, he⟩
    have hf := Fine.reached (he.fine _ (.var _)) hr
    rcases hn with hn | hn
    · exact hf.1 hn
    · exact hf.2 hn
  rcases inlineAll_spec K h with ⟨e, he, hfine, hsame⟩ | ⟨n, he, hr, hn⟩ | ⟨n, he, hr, hn⟩
  · rw [he]
    simp only
    cases hba : Binding.bindArguments K.cfg s (pos ++ kw.map Prod.snd) (kw.map Prod.fst) with
    | error err =>
      simp only
      constructor
      · intro h; cases h
      · rintro ⟨bound, hp, _⟩
        rw [← hbind] at hp
        rw [hba] at hp
        cases hp
    | ok bound =>
      have hp := (hbind bound).1 hba
      simp only [hpar]
      rw [evalExpr_ok (callInputs_nodup hp.length hv.names hb),
        (hsame _ _ (callInputs_fits hp.length hv.names hb)).value v]
      constructor
      · intro h
        exact ⟨bound, hp, h⟩
      · rintro ⟨bound', hp', h⟩
        rw [Binding.binds_unique hv hp hp']
        exact h
  · rw [he]
    constructor
    · intro h; cases h
    · intro h
      exact absurd h (hno ⟨n, hr, .inl hn⟩)
  · rw [he]
    constructor
    · intro h; cases h
    · intro h
      exact absurd h (hno ⟨n, hr, .inr hn⟩)

/-- The error of a call says what is wrong with it. -/
theorem C85_errors (K : Kit Op V) (F : Fn Op V) (ps : List (Parameter V))
    (h : isFunctor F = true) (hs : F.signature = some ps) (hv : PyValid K.cfg ps)
    (hb : "__bag" ∉ ps.map Parameter.name) (pos : List V) (kw : List (String × V)) (err : Err)
    (hc : call K F (pos ++ kw.map Prod.snd) (kw.map Prod.fst) = .error err) :
    Wrong K F ps pos kw err := by
  obtain ⟨s, hcreate⟩ := (Binding.C43_signatures K.cfg ps).1.2 hv
  have hbind := Binding.C43_bind K.cfg ps s hcreate pos kw
  have hpar : s.parameters = ps := (Binding.C43_signatures K.cfg ps).2 s hcreate
  unfold call process runProcessed at hc
  rw [if_pos h, hs] at hc
  simp only [hcreate] at hc
  rcases inlineAll_spec K h with ⟨e, he, hfine, hsame⟩ | ⟨n, he, hr, hn⟩ | ⟨n, he, hr, hn⟩
  · rw [he] at hc
    simp only at hc
    cases hba : Binding.bindArguments K.cfg s (pos ++ kw.map Prod.snd) (kw.map Prod.fst) with
    | error err' =>
      rw [hba] at hc
      simp only [Except.error.injEq] at hc
      subst hc
      exact (Binding.C43_errors K.cfg ps s hcreate pos kw err' hba).1
    | ok bound =>
      have hp := (hbind bound).1 hba
      rw [hba] at hc
      simp only [hpar] at hc
      have hsm := hsame _ _ (callInputs_fits (K := K) hp.length hv.names hb)
      rcases evalExpr_error (callInputs_nodup hp.length hv.names hb) hsm.closed err hc with
        ⟨m, rfl, hm⟩ | ⟨names, rfl, hne, hn⟩
      · exact ⟨bound, hp, hsm.raises m hm⟩
      · refine ⟨hne, ?_⟩
        intro name hname
        obtain ⟨h1, h2⟩ := hn name hname
        rw [callInputs_names hp.length, List.mem_append, not_or, List.mem_singleton] at h2
        refine ⟨h2.1, ?_⟩
        rcases hsm.asks name h1 with h' | h' | h'
        · cases h'
        · exact absurd h' h2.2
        · exact h'
  · rw [he] at hc
    simp only [Except.error.injEq] at hc
    subst hc
    exact ⟨hr, hn⟩
  · rw [he] at hc
    simp only [Except.error.injEq] at hc
    subst hc
    exact ⟨hr, hn⟩

/-- Something that is not a functor, or has a signature that is not valid, cannot be called. -/
theorem C85_invalid (K : Kit Op V) (F : Fn Op V) (args : List V) (kwnames : List String) :
    (isFunctor F = false → call K F args kwnames = .error .notFunctor) ∧
    (∀ ps, isFunctor F = true → F.signature = some ps → ¬ PyValid K.cfg ps →
      ∃ e, Binding.create K.cfg ps = .error e ∧ call K F args kwnames = .error (.signature e)) := by
  constructor
  · intro h
    unfold call
    rw [if_neg (by rw [h]; simp)]
  · intro ps h hs hv
    cases hc : Binding.create K.cfg ps with
    | ok s => exact absurd ((Binding.C43_signatures K.cfg ps).1.1 ⟨s, hc⟩) hv
    | error e =>
      refine ⟨e, rfl, ?_⟩
      unfold call process
      rw [if_pos h, hs]
      simp only [hc]

/-- A call has at most one value: `Evals` is a function. -/
theorem evals_unique (K : Kit Op V) (F : Fn Op V) (given : String → V → Prop)
    (hg : ∀ n v v', given n v → given n v' → v = v') {e : Expr Op V} {v : V}
    (h : Evals K F given e v) : ∀ v', Evals K F given e v' → v = v' := by
  refine Evals.rec (K := K) (F := F) (given := given)
    (motive_1 := fun e v _ => ∀ v', Evals K F given e v' → v = v')
    (motive_2 := fun es vs _ => ∀ vs', EvalsAll K F given es vs' → vs = vs') ?_ ?_ ?_ ?_ ?_ ?_ ?_ h
  · intro name v h v' h'
    cases h' with
    | input h' => exact hg _ _ _ h h'
  · intro v v' h'
    cases h'
    rfl
  · intro op args vs v _ ha ih v' h'
    cases h' with
    | node hvs ha' =>
      rw [ih _ hvs] at ha
      rw [ha] at ha'
      cases ha'
      rfl
  · intro name e v ha _ ih v' h'
    cases h' with
    | expr ha' h' =>
      rw [ha] at ha'
      cases ha'
      exact ih _ h'
    | item ha' => rw [ha] at ha'; cases ha'
  · intro name i ha v' h'
    cases h' with
    | expr ha' h' => rw [ha] at ha'; cases ha'
    | item ha' =>
      rw [ha] at ha'
      cases ha'
      rfl
  · intro vs' h'
    cases h'
    rfl
  · intro e es v vs _ _ ih1 ih2 vs' h'
    cases h' with
    | cons h1 h2 => rw [ih1 _ h1, ih2 _ h2]

/-! ### Creation -/

/-- The attributes of a new functor. -/
def newAttrs (returns : Arg Op V) (variables : List (String × Arg Op V)) :
    List (String × Attr Op V) :=
  ("returns", returns.attr) :: variables.map fun e => (e.1, e.2.attr)

/-- The parameters of a new functor: the given ones; or `self`, all inputs of all variables as
keywords, and further keywords. -/
def NewParameters (unspecified : V) (signature : Option (List (Parameter V)))
    (attrs : List (String × Attr Op V)) (ps : List (Parameter V)) : Prop :=
  signature = some ps ∨
    (signature = none ∧ ∃ inputs : List String, inputs.Pairwise (· < ·) ∧
      (∀ name, name ∈ inputs ↔ ∃ a e, (a, .quote e) ∈ attrs ∧ Asks e name) ∧
      ps = Binding.defaultParameters unspecified inputs)

theorem validateArgs_ok : ∀ (l : List (String × Arg Op V)),
    validateArgs l = .ok () ↔ ∀ e ∈ l, e.2.rank = 0
  | [] => by simp [validateArgs]
  | (name, a) :: rest => by
    unfold validateArgs
    by_cases h : a.rank ≠ 0
    · rw [if_pos h]
      constructor
      · intro h'; cases h'
      · intro h'
        exact absurd (h' (name, a) (by simp)) h
    · rw [if_neg h, validateArgs_ok rest]
      have h0 : a.rank = 0 := by omega
      simp [h0]

theorem validateReturn_ok (r : Arg Op V) :
    validateReturn r = .ok () ↔ r.rank = 0 ∧ r.attr ≠ .item .missing := by
  unfold validateReturn
  by_cases h : r.rank ≠ 0
  · rw [if_pos h]
    simp [h]
  · rw [if_neg h]
    have h0 : r.rank = 0 := by omega
    cases ha : r.attr with
    | quote e => simp [h0]
    | item i => cases i <;> simp [h0]

theorem mem_attr_inputs {attrs : List (String × Attr Op V)} {name : String} :
    name ∈ (attrs.map Prod.snd).flatMap Attr.inputs ↔ ∃ a e, (a, .quote e) ∈ attrs ∧ Asks e name := by
  rw [List.mem_flatMap]
  constructor
  · rintro ⟨x, hx, hn⟩
    obtain ⟨⟨a, x'⟩, ha, rfl⟩ := List.mem_map.1 hx
    cases x' with
    | item i => cases hn
    | quote e => exact ⟨a, e, ha, (mem_inputs _ _).1 hn⟩
  · rintro ⟨a, e, ha, hn⟩
    exact ⟨.quote e, List.mem_map.2 ⟨_, ha, rfl⟩, (mem_inputs _ _).2 hn⟩

theorem sorted_unique : ∀ {l l' : List String}, l.Pairwise (· < ·) → l'.Pairwise (· < ·) →
    (∀ n, n ∈ l ↔ n ∈ l') → l = l'
  | [], [], _, _, _ => rfl
  | [], x :: xs, _, _, h => by
    have := (h x).2 (by simp)
    cases this
  | x :: xs, [], _, _, h => by
    have := (h x).1 (by simp)
    cases this
  | x :: xs, y :: ys, h1, h2, h => by
    rw [List.pairwise_cons] at h1 h2
    have hxy : x = y := by
      have hx := (h x).1 (by simp)
      have hy := (h y).2 (by simp)
      rcases List.mem_cons.1 hx with hx | hx
      · exact hx
      · rcases List.mem_cons.1 hy with hy | hy
        · exact hy.symm
        · exact absurd (String.lt_trans (h1.1 y hy) (h2.1 x hx)) (String.lt_irrefl x)
    subst hxy
    rw [sorted_unique h1.2 h2.2]
    intro n
    have hn := h n
    rw [List.mem_cons, List.mem_cons] at hn
    constructor
    · intro hm
      rcases hn.1 (.inr hm) with h' | h'
      · subst h'
        exact absurd (h1.1 n hm) (String.lt_irrefl n)
      · exact h'
    · intro hm
      rcases hn.2 (.inr hm) with h' | h'
      · subst h'
        exact absurd (h2.1 n hm) (String.lt_irrefl n)
      · exact h'

theorem processSignature_ok (c : Cfg V) (unspecified : V) (signature : Option (List (Parameter V)))
    (attrs : List (String × Attr Op V)) (ps : List (Parameter V)) :
    processSignature c unspecified signature (attrs.map Prod.snd) = .ok ps ↔
      NewParameters unspecified signature attrs ps ∧ PyValid c ps := by
  have hcreate : ∀ ps', checkSignature c ps' = .ok ps ↔ ps' = ps ∧ PyValid c ps := by
    intro ps'
    unfold checkSignature
    have h := (Binding.C43_signatures c ps').1
    cases hc : Binding.create c ps' with
    | error e =>
      simp only [reduceCtorEq, false_iff, not_and]
      rintro rfl hv
      obtain ⟨s, hs⟩ := h.2 hv
      rw [hc] at hs
      cases hs
    | ok s =>
      simp only [Except.ok.injEq]
      constructor
      · rintro rfl
        exact ⟨rfl, h.1 ⟨s, hc⟩⟩
      · exact fun h => h.1
  unfold processSignature NewParameters
  cases signature with
  | some ps' =>
    simp only
    rw [hcreate]
    simp
  | none =>
    simp only
    rw [hcreate]
    constructor
    · rintro ⟨rfl, hv⟩
      refine ⟨.inr ⟨trivial, _, sortNames_sorted _, ?_, rfl⟩, hv⟩
      intro name
      rw [mem_sortNames, mem_attr_inputs]
    · rintro ⟨h | ⟨_, inputs, h1, h2, rfl⟩, hv⟩
      · cases h
      · refine ⟨?_, hv⟩
        rw [sorted_unique (sortNames_sorted _) h1]
        intro n
        rw [mem_sortNames, mem_attr_inputs, h2]

theorem not_contains {l : List String} {n : String} : ¬ (!l.contains n) = true ↔ n ∈ l := by
  simp

/-- A functor is created exactly if the result is an item that is present, the signature and all
variables are items, the signature is valid, no variable that the result needs depends on itself,
and all variables that the result needs are given. -/
theorem C86_create (c : Cfg V) (unspecified : V) (signatureItem : Item) (returns : Arg Op V)
    (signatureRank : Nat) (signature : Option (List (Parameter V)))
    (variables : List (String × Arg Op V)) (F : Fn Op V) :
    createFunctor c unspecified signatureItem returns signatureRank signature variables = .ok F ↔
      returns.rank = 0 ∧ returns.attr ≠ .item .missing ∧ signatureRank = 0 ∧
      (∀ e ∈ variables, e.2.rank = 0) ∧
      (∃ ps, NewParameters unspecified signature (newAttrs returns variables) ps ∧ PyValid c ps ∧
        F = ⟨newAttrs returns variables, signatureItem, some ps⟩) ∧
      (∀ name, Reached F name → ¬ Path F name name ∧
        name ∈ "returns" :: variables.map Prod.fst) := by
  have hdef : ∀ ps, returns.attr ≠ .item .missing →
      (validateDefined (⟨newAttrs returns variables, signatureItem, some ps⟩ : Fn Op V)
          ((newAttrs returns variables).map Prod.fst) = .ok () ↔
        ∀ name, Reached (⟨newAttrs returns variables, signatureItem, some ps⟩ : Fn Op V) name →
          ¬ Path (⟨newAttrs returns variables, signatureItem, some ps⟩ : Fn Op V) name name ∧
          name ∈ "returns" :: variables.map Prod.fst) := by
    intro ps hr
    have hnames : ((newAttrs returns variables).map Prod.fst) =
        "returns" :: variables.map Prod.fst := by
      simp [newAttrs, Function.comp_def]
    rw [hnames]
    generalize hF : (⟨newAttrs returns variables, signatureItem, some ps⟩ : Fn Op V) = F
    have hfun : isFunctor F = true := by
      rw [isFunctor_iff]
      refine ⟨⟨returns.attr, ?_, hr⟩, ps, by rw [← hF]⟩
      rw [← hF]
      unfold Fn.attr newAttrs
      rw [if_neg (by decide), lookup_cons, if_pos rfl]
    unfold validateDefined
    rcases order_spec hfun with ⟨order, ho, hg⟩ | ⟨d, hd, hrd, hp⟩
    · rw [ho]
      simp only
      by_cases hu : (order.filter fun n => !("returns" :: variables.map Prod.fst).contains n).isEmpty = true
      · rw [if_pos hu]
        simp only [true_iff]
        rw [List.isEmpty_iff, List.filter_eq_nil_iff] at hu
        intro name hn
        refine ⟨hg.noCycle name hn, ?_⟩
        exact not_contains.1 (hu name ((hg.all name).2 hn))
      · rw [if_neg hu]
        constructor
        · intro h; cases h
        · intro h
          refine absurd ?_ hu
          rw [List.isEmpty_iff, List.filter_eq_nil_iff]
          intro name hn
          exact not_contains.2 (h name ((hg.all name).1 hn)).2
    · rw [hd]
      constructor
      · intro h; cases h
      · intro h
        exact absurd hp (h d hrd).1
  unfold createFunctor
  have hattrs : ((kReturns, returns.attr) :: variables.map fun e => (e.1, e.2.attr)) =
      newAttrs returns variables := rfl
  rw [hattrs]
  cases h1 : validateReturn returns with
  | error e =>
    simp only
    constructor
    · intro h; cases h
    · rintro ⟨a, b, _⟩
      rw [(validateReturn_ok returns).2 ⟨a, b⟩] at h1
      cases h1
  | ok _ =>
    have hret := (validateReturn_ok returns).1 h1
    simp only
    by_cases h2 : signatureRank ≠ 0
    · rw [if_pos h2]
      constructor
      · intro h; cases h
      · rintro ⟨_, _, h, _⟩
        exact absurd h h2
    · rw [if_neg h2]
      have h2' : signatureRank = 0 := by omega
      cases h3 : validateArgs variables with
      | error e =>
        simp only
        constructor
        · intro h; cases h
        · rintro ⟨_, _, _, h, _⟩
          rw [(validateArgs_ok variables).2 h] at h3
          cases h3
      | ok _ =>
        have hargs := (validateArgs_ok variables).1 h3
        simp only
        cases h4 : processSignature c unspecified signature ((newAttrs returns variables).map Prod.snd) with
        | error e =>
          simp only
          constructor
          · intro h; cases h
          · rintro ⟨_, _, _, _, ⟨ps, hps, hv, _⟩, _⟩
            rw [(processSignature_ok c unspecified signature _ ps).2 ⟨hps, hv⟩] at h4
            cases h4
        | ok ps =>
          have hps := (processSignature_ok c unspecified signature _ ps).1 h4
          simp only
          cases h5 : validateDefined (⟨newAttrs returns variables, signatureItem, some ps⟩ : Fn Op V)
              ((newAttrs returns variables).map Prod.fst) with
          | error e =>
            simp only
            constructor
            · intro h; cases h
            · rintro ⟨_, _, _, _, ⟨ps', hps', hv', rfl⟩, hall⟩
              have heq : ps' = ps := by
                have := (processSignature_ok c unspecified signature _ ps').2 ⟨hps', hv'⟩
                rw [h4] at this
                cases this
                rfl
              subst heq
              rw [(hdef ps' hret.2).2 hall] at h5
              cases h5
          | ok _ =>
            simp only [Except.ok.injEq]
            constructor
            · rintro rfl
              exact ⟨hret.1, hret.2, h2', hargs, ⟨ps, hps.1, hps.2, rfl⟩, (hdef ps hret.2).1 h5⟩
            · rintro ⟨_, _, _, _, ⟨ps', hps', hv', rfl⟩, hall⟩
              have heq : ps' = ps := by
                have := (processSignature_ok c unspecified signature _ ps').2 ⟨hps', hv'⟩
                rw [h4] at this
                cases this
                rfl
              rw [heq]

/-- What is wrong with the arguments of a creation, for every error. -/
def WrongCreation (c : Cfg V) (unspecified : V) (signatureItem : Item) (returns : Arg Op V)
    (signatureRank : Nat) (signature : Option (List (Parameter V)))
    (variables : List (String × Arg Op V)) : Err → Prop
  | .returnsNotItem => returns.rank ≠ 0
  | .returnsMissing => returns.attr = .item .missing
  | .notItem name => (name = "signature" ∧ signatureRank ≠ 0) ∨
      ∃ a, (name, a) ∈ variables ∧ a.rank ≠ 0
  | .signature e => ∃ ps, NewParameters unspecified signature (newAttrs returns variables) ps ∧
      Binding.create c ps = .error e
  | .cycle name => ∃ ps, NewParameters unspecified signature (newAttrs returns variables) ps ∧
      Reached ⟨newAttrs returns variables, signatureItem, some ps⟩ name ∧
      Path ⟨newAttrs returns variables, signatureItem, some ps⟩ name name
  | .undefined names => names ≠ [] ∧
      ∃ ps, NewParameters unspecified signature (newAttrs returns variables) ps ∧
      ∀ name, name ∈ names ↔
        Reached ⟨newAttrs returns variables, signatureItem, some ps⟩ name ∧
        name ∉ "returns" :: variables.map Prod.fst
  | _ => False

theorem validateArgs_error : ∀ (l : List (String × Arg Op V)) (err : Err),
    validateArgs l = .error err → ∃ name a, err = .notItem name ∧ (name, a) ∈ l ∧ a.rank ≠ 0
  | [], err, h => by cases h
  | (name, a) :: rest, err, h => by
    unfold validateArgs at h
    by_cases hr : a.rank ≠ 0
    · rw [if_pos hr] at h
      cases h
      exact ⟨name, a, rfl, by simp, hr⟩
    · rw [if_neg hr] at h
      obtain ⟨n, x, h1, h2, h3⟩ := validateArgs_error rest err h
      exact ⟨n, x, h1, List.mem_cons_of_mem _ h2, h3⟩

/-- The error of a creation says what is wrong with its arguments. -/
theorem C86_errors (c : Cfg V) (unspecified : V) (signatureItem : Item) (returns : Arg Op V)
    (signatureRank : Nat) (signature : Option (List (Parameter V)))
    (variables : List (String × Arg Op V)) (err : Err)
    (h : createFunctor c unspecified signatureItem returns signatureRank signature variables =
      .error err) :
    WrongCreation c unspecified signatureItem returns signatureRank signature variables err := by
  unfold createFunctor at h
  have hattrs : ((kReturns, returns.attr) :: variables.map fun e => (e.1, e.2.attr)) =
      newAttrs returns variables := rfl
  rw [hattrs] at h
  cases h1 : validateReturn returns with
  | error e =>
    rw [h1] at h
    cases h
    unfold validateReturn at h1
    by_cases hr : returns.rank ≠ 0
    · rw [if_pos hr] at h1
      cases h1
      exact hr
    · rw [if_neg hr] at h1
      cases ha : returns.attr with
      | quote e => rw [ha] at h1; cases h1
      | item i =>
        cases i with
        | missing =>
          rw [ha] at h1
          cases h1
          exact ha
        | object id => rw [ha] at h1; cases h1
        | prim n => rw [ha] at h1; cases h1
  | ok _ =>
    have hret := (validateReturn_ok returns).1 h1
    rw [h1] at h
    simp only at h
    by_cases h2 : signatureRank ≠ 0
    · rw [if_pos h2] at h
      cases h
      exact .inl ⟨rfl, h2⟩
    · rw [if_neg h2] at h
      cases h3 : validateArgs variables with
      | error e =>
        rw [h3] at h
        cases h
        obtain ⟨name, a, rfl, hm, hr⟩ := validateArgs_error _ _ h3
        exact .inr ⟨a, hm, hr⟩
      | ok _ =>
        rw [h3] at h
        simp only at h
        have hnew : ∃ ps, NewParameters unspecified signature (newAttrs returns variables) ps ∧
            processSignature c unspecified signature ((newAttrs returns variables).map Prod.snd) =
              checkSignature c ps := by
          unfold processSignature
          cases signature with
          | some ps => exact ⟨ps, .inl rfl, rfl⟩
          | none =>
            refine ⟨_, .inr ⟨rfl, _, sortNames_sorted _, ?_, rfl⟩, rfl⟩
            intro name
            rw [mem_sortNames, mem_attr_inputs]
        obtain ⟨ps, hps, heq⟩ := hnew
        rw [heq] at h
        unfold checkSignature at h
        cases h4 : Binding.create c ps with
        | error e =>
          rw [h4] at h
          cases h
          exact ⟨ps, hps, h4⟩
        | ok s =>
          rw [h4] at h
          simp only at h
          have hnames : ((newAttrs returns variables).map Prod.fst) =
              "returns" :: variables.map Prod.fst := by
            simp [newAttrs, Function.comp_def]
          rw [hnames] at h
          generalize hF : (⟨newAttrs returns variables, signatureItem, some ps⟩ : Fn Op V) = F at h
          have hfun : isFunctor F = true := by
            rw [isFunctor_iff]
            refine ⟨⟨returns.attr, ?_, hret.2⟩, ps, by rw [← hF]⟩
            rw [← hF]
            unfold Fn.attr newAttrs
            rw [if_neg (by decide), lookup_cons, if_pos rfl]
          unfold validateDefined at h
          rcases order_spec hfun with ⟨order, ho, hg⟩ | ⟨d, hd, hrd, hp⟩
          · rw [ho] at h
            simp only at h
            by_cases hu : (order.filter fun n =>
                !("returns" :: variables.map Prod.fst).contains n).isEmpty = true
            · rw [if_pos hu] at h
              cases h
            · rw [if_neg hu] at h
              simp only [Except.error.injEq] at h
              subst h
              refine ⟨?_, ps, hps, ?_⟩
              · intro hnil
                rw [hnil] at hu
                exact hu rfl
              · intro name
                rw [hF, List.mem_filter, hg.all]
                simp
          · rw [hd] at h
            simp only [Except.error.injEq] at h
            subst h
            exact ⟨ps, hps, by rw [hF]; exact hrd, by rw [hF]; exact hp⟩

theorem lookup_some_of_mem {β : Type} {n : String} {l : List (String × β)}
    (h : n ∈ l.map Prod.fst) : ∃ v, l.lookup n = some v := by
  cases hl : l.lookup n with
  | none => exact absurd h (lookup_none.1 hl)
  | some v => exact ⟨v, rfl⟩

/-- A functor that was created can be called: a call of it fails only if the arguments do not bind,
if an operator fails, or if an input is not a parameter; the last does not happen with the default
signature. -/
theorem C86_calls (K : Kit Op V) (unspecified : V) (signatureItem : Item) (returns : Arg Op V)
    (signatureRank : Nat) (signature : Option (List (Parameter V)))
    (variables : List (String × Arg Op V)) (hsig : "__signature__" ∉ variables.map Prod.fst)
    (F : Fn Op V)
    (h : createFunctor K.cfg unspecified signatureItem returns signatureRank signature variables =
      .ok F) :
    isFunctor F = true ∧ ∃ ps, F.signature = some ps ∧ PyValid K.cfg ps ∧
      ∀ (pos : List V) (kw : List (String × V)) (err : Err),
        "__bag" ∉ ps.map Parameter.name →
        call K F (pos ++ kw.map Prod.snd) (kw.map Prod.fst) = .error err →
        (∃ e, err = .bind e) ∨ (∃ m, err = .op m) ∨
        (signature ≠ none ∧ ∃ names, err = .missingInputs names) := by
  rw [C86_create] at h
  obtain ⟨h1, h2, h3, h4, ⟨ps, hps, hv, hF⟩, hall⟩ := h
  have hret : F.attr "returns" = some returns.attr := by
    rw [hF]
    unfold Fn.attr newAttrs
    rw [if_neg (by decide), lookup_cons, if_pos rfl]
  have hFs : F.signature = some ps := by rw [hF]
  have hfun : isFunctor F = true := (isFunctor_iff F).2 ⟨⟨_, hret, h2⟩, ps, hFs⟩
  refine ⟨hfun, ps, hFs, hv, ?_⟩
  intro pos kw err hb hc
  have hw := C85_errors K F ps hfun hFs hv hb pos kw err hc
  cases err with
  | bind e => exact .inl ⟨e, rfl⟩
  | op m => exact .inr (.inl ⟨m, rfl⟩)
  | cycle n => exact absurd hw.2 (hall n hw.1).1
  | noAttr n =>
    have hm := (hall n hw.1).2
    have hns : n ≠ kSignature := by
      rintro rfl
      rcases List.mem_cons.1 hm with hm | hm
      · exact absurd hm (by decide)
      · exact hsig hm
    have hn := hw.2
    unfold Fn.attr at hn
    rw [if_neg hns, hF] at hn
    refine absurd ?_ (lookup_none.1 hn)
    simpa [newAttrs, Function.comp_def] using hm
  | missingInputs names =>
    refine .inr (.inr ⟨?_, names, rfl⟩)
    rintro hnone
    obtain ⟨hne, hall'⟩ := hw
    cases names with
    | nil => exact hne rfl
    | cons name rest =>
      obtain ⟨hn, a, e, _, ha, hask⟩ := hall' name (by simp)
      rcases hps with hps | ⟨_, inputs, _, hin, rfl⟩
      · rw [hnone] at hps
        cases hps
      · have hmem : (a, Attr.quote e) ∈ newAttrs returns variables := by
          unfold Fn.attr at ha
          by_cases hs : a = kSignature
          · rw [if_pos hs, hFs] at ha
            cases ha
          · rw [if_neg hs, hF] at ha
            exact mem_of_lookup ha
        have hi := (hin name).2 ⟨a, e, hmem, hask⟩
        apply hn
        unfold Binding.defaultParameters Binding.inputParameters
        by_cases hself : name = "self"
        · rw [hself]
          simp
        · rw [List.map_cons, List.map_append]
          refine List.mem_cons_of_mem _ (List.mem_append_left _ ?_)
          rw [List.mem_map]
          refine ⟨{ name := name, kind := .keywordOnly }, ?_, rfl⟩
          rw [List.mem_filterMap]
          exact ⟨name, hi, by rw [if_neg hself]⟩
  | _ => exact hw.elim

/-! ### Examples -/

/-- Values of the examples: numbers, items with a bag, a bag. -/
inductive ExValue where
  | num (n : Nat)
  | item (i : Item) (bag : Bool)
  | bag
  deriving DecidableEq

/-- Operators of the examples. -/
inductive ExOp where
  | withBag
  | add
  | fail
  deriving DecidableEq

def exApply : ExOp → List ExValue → Except String ExValue
  | .withBag, [.item i _, .bag] => .ok (.item i true)
  | .add, [.num a, .num b] => .ok (.num (a + b))
  | .add, [.item (.prim a) _, .num b] => .ok (.num (a + b))
  | _, _ => .error "bad arguments"

def exKit : Kit ExOp ExValue where
  item i := .item i false
  withSelf i := .item i true
  selfBag := .bag
  bound
    | .value v => v
    | .tuple _ => .bag
    | .named _ => .bag
  withBag := .withBag
  apply := exApply
  cfg := { rank := fun _ => 0, withBag := id }
  withBag_apply := fun _ => rfl

/-- `a = I.x + 1`, `b = a + a`, `returns = b + a`, with a constant `c = 10` and an unused variable. -/
def exVariables : List (String × Arg ExOp ExValue) :=
  [("a", ⟨0, .quote (.node .add [.var "c", .input "x"])⟩),
    ("b", ⟨0, .quote (.node .add [.var "a", .var "a"])⟩),
    ("c", ⟨0, .item (.prim 10)⟩),
    ("unused", ⟨0, .quote (.var "nothing")⟩)]

def exReturns : Arg ExOp ExValue := ⟨0, .quote (.node .add [.var "b", .var "a"])⟩

def exFn : Fn ExOp ExValue :=
  ⟨newAttrs exReturns exVariables, .object 7,
    some (Binding.defaultParameters (.num 0) ["x"])⟩

/-- The functor is created: a variable that nothing needs may use one that does not exist. -/
example : (match createFunctor exKit.cfg (.num 0) (.object 7) exReturns 0 none exVariables with
    | .ok F => F.attrs.map Prod.fst
    | .error _ => []) = ["returns", "a", "b", "c", "unused"] := by decide +kernel

example : (match evaluationOrder exFn with
    | .ok order => order
    | .error _ => []) = ["c", "a", "b", "returns"] := by decide +kernel

/-- The hypotheses of `C85_call` hold, and the call returns `3 * (10 + 5)`. -/
example : isFunctor exFn = true ∧ "__bag" ∉ (Binding.defaultParameters (V := ExValue) (.num 0) ["x"]).map
    Parameter.name := by decide +kernel

theorem exFn_valid : PyValid exKit.cfg (Binding.defaultParameters (.num 0) ["x"]) :=
  ((Binding.C43_default_signature exKit.cfg (.num 0) rfl ["x"]).1).2 (by decide +kernel)

example : (match call exKit exFn [.num 5] ["x"] with
    | .ok (.num n) => n
    | _ => 0) = 45 := by decide +kernel

/-- A variable that depends on itself, and one that does not exist. -/
example : (match createFunctor exKit.cfg (.num 0) (.object 7) exReturns 0 none
      [("a", ⟨0, .quote (.var "b")⟩), ("b", ⟨0, .quote (.var "a")⟩)] with
    | .error e => e
    | .ok _ => .fuel) = .cycle "a" := by decide +kernel

example : (match createFunctor exKit.cfg (.num 0) (.object 7) exReturns 0 none
      [("a", ⟨0, .quote (.var "d")⟩)] with
    | .error e => e
    | .ok _ => .fuel) = .undefined ["d", "b"] := by decide +kernel

/-- `V.__signature__` is not accepted, although the functor has this attribute. -/
example : (match createFunctor exKit.cfg (.num 0) (.object 7)
      (⟨0, .quote (.var "__signature__")⟩ : Arg ExOp ExValue) 0 none [] with
    | .error e => e
    | .ok _ => .fuel) = .undefined ["__signature__"] := by decide +kernel

/-- An input without a parameter. -/
example : (match call exKit { exFn with signature := some [] } [] [] with
    | .error e => e
    | .ok _ => .fuel) = .missingInputs ["x", "x", "x"] := by decide +kernel

end Verif.Functor
