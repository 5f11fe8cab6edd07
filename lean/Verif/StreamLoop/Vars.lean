import Verif.StreamLoop.Spec

/-!
The variables of a loop and the calls of its functors against the specification.
-/

namespace Verif.StreamLoop

variable {V T S : Type} [DecidableEq T]

/-- The names and values of variables. -/
def envOf (vars : List (Var V)) : Env V := vars.map fun x => (x.name, x.value)

/-- A variable after an update. -/
def Var.set (fields : Env V) (x : Var V) : Var V :=
  match fields.lookup x.name with
  | none => x
  | some v => { x with value := v, initial := false }

set_option linter.unusedSectionVars false

theorem lookup_none {env : Env V} {name : String} (h : env.lookup name = none) : name ∉ env.map Prod.fst := by
  intro hm
  obtain ⟨p, hp, hn⟩ := List.mem_map.mp hm
  have := List.lookup_eq_none_iff.mp h p hp
  rw [hn] at this
  simp at this

theorem lookup_not_mem {env : Env V} {name : String} (h : name ∉ env.map Prod.fst) : env.lookup name = none := by
  apply List.lookup_eq_none_iff.mpr
  intro p hp
  simp only [ne_eq, bne_iff_ne]
  intro hn
  exact h (List.mem_map.mpr ⟨p, hp, hn.symm⟩)

theorem assign_eq (typeOf : V → T) (name : String) (value : V) : ∀ (vars : List (Var V)),
    (vars.map Var.name).Nodup →
    assign typeOf name value vars =
      match badField typeOf (envOf vars) (name, value) with
      | some e => .error e
      | none => .ok (vars.map (Var.set [(name, value)]))
  | [], _ => rfl
  | x :: xs, hn => by
    simp only [List.map_cons, List.nodup_cons] at hn
    unfold assign
    by_cases hx : x.name = name
    · subst hx
      have hrest : xs.map (Var.set [(x.name, value)]) = xs := by
        have : ∀ y ∈ xs, Var.set [(x.name, value)] y = y := by
          intro y hy
          have hne : y.name ≠ x.name := fun h => hn.1 (List.mem_map.mpr ⟨y, hy, h⟩)
          have hb : (y.name == x.name) = false := by simpa using hne
          simp [Var.set, List.lookup, hb]
        exact (List.map_congr_left this).trans (List.map_id _)
      rw [if_pos rfl]
      by_cases ht : typeOf x.value = typeOf value
      · rw [if_neg (by simpa using ht)]
        simp [badField, envOf, ht.symm, hrest]
        simp [Var.set, List.lookup]
      · rw [if_pos ht]
        have ht' : ¬typeOf value = typeOf x.value := fun h => ht h.symm
        simp [badField, envOf, ht']
    · rw [if_neg hx, assign_eq typeOf name value xs hn.2]
      have hb : (name == x.name) = false := by simpa using fun h : name = x.name => hx h.symm
      have hb' : (x.name == name) = false := by simpa using hx
      have he : badField typeOf (envOf (x :: xs)) (name, value) = badField typeOf (envOf xs) (name, value) := by
        simp [badField, envOf, List.lookup, hb]
      rw [he]
      cases badField typeOf (envOf xs) (name, value) with
      | some e => rfl
      | none => simp [Var.set, List.lookup, hb']

theorem set_name (fields : Env V) (x : Var V) : (x.set fields).name = x.name := by
  unfold Var.set; split <;> rfl

theorem names_set (fields : Env V) (vars : List (Var V)) :
    (vars.map (Var.set fields)).map Var.name = vars.map Var.name := by
  rw [List.map_map]
  exact List.map_congr_left fun x _ => set_name fields x

theorem badField_set (typeOf : V → T) (vars : List (Var V)) (p q : String × V) (hne : q.1 ≠ p.1) :
    badField typeOf (envOf (vars.map (Var.set [p]))) q = badField typeOf (envOf vars) q := by
  have : (envOf (vars.map (Var.set [p]))).lookup q.1 = (envOf vars).lookup q.1 := by
    induction vars with
    | nil => rfl
    | cons x xs ih =>
      simp only [envOf, List.map_cons, List.lookup, set_name] at ih ⊢
      cases hb : q.1 == x.name with
      | false => exact ih
      | true =>
        have hq : q.1 = x.name := by simpa using hb
        have hb' : (x.name == p.1) = false := by simpa [← hq] using hne
        obtain ⟨n, v⟩ := p
        simp [Var.set, List.lookup, hb']
  unfold badField
  rw [this]

theorem set_set (p : String × V) (fields : Env V) (hp : p.1 ∉ fields.map Prod.fst) (x : Var V) :
    (x.set [p]).set fields = x.set (p :: fields) := by
  obtain ⟨n, v⟩ := p
  by_cases hx : x.name = n
  · subst hx
    have : fields.lookup x.name = none := lookup_not_mem hp
    simp [Var.set, List.lookup, this]
  · have hb : (x.name == n) = false := by simpa using hx
    simp [Var.set, List.lookup, hb]

theorem assignAll_eq (typeOf : V → T) : ∀ (fields : Env V) (vars : List (Var V)),
    (fields.map Prod.fst).Nodup → (vars.map Var.name).Nodup →
    assignAll typeOf vars fields =
      match fields.findSome? (badField typeOf (envOf vars)) with
      | some e => .error e
      | none => .ok (vars.map (Var.set fields))
  | [], vars, _, _ => by
    have : vars.map (Var.set ([] : Env V)) = vars := List.map_id _
    simp [assignAll, this]
  | p :: fields, vars, hf, hv => by
    simp only [List.map_cons, List.nodup_cons] at hf
    obtain ⟨n, v⟩ := p
    unfold assignAll
    rw [assign_eq typeOf n v vars hv]
    simp only [List.findSome?_cons]
    cases hb : badField typeOf (envOf vars) (n, v) with
    | some e => rfl
    | none =>
      simp only
      rw [assignAll_eq typeOf fields _ hf.2 (by rw [names_set]; exact hv)]
      have h1 : fields.findSome? (badField typeOf (envOf (vars.map (Var.set [(n, v)])))) =
          fields.findSome? (badField typeOf (envOf vars)) := by
        have : ∀ (fs : Env V), (∀ q ∈ fs, q.1 ≠ n) →
            fs.findSome? (badField typeOf (envOf (vars.map (Var.set [(n, v)])))) =
              fs.findSome? (badField typeOf (envOf vars)) := by
          intro fs hfs
          induction fs with
          | nil => rfl
          | cons q fs ih =>
            rw [List.findSome?_cons, List.findSome?_cons,
              badField_set typeOf vars (n, v) q (hfs q (List.mem_cons_self ..)),
              ih fun q hq => hfs q (List.mem_cons_of_mem _ hq)]
        refine this fields fun q hq hqn => hf.1 (List.mem_map.mpr ⟨q, hq, hqn⟩)
      rw [h1, List.map_map]
      have h2 : (vars.map (Var.set fields ∘ Var.set [(n, v)])) = vars.map (Var.set ((n, v) :: fields)) :=
        List.map_congr_left fun x _ => set_set (n, v) fields hf.1 x
      rw [h2]

theorem env_set (fields : Env V) (vars : List (Var V)) :
    envOf (vars.map (Var.set fields)) = (envOf vars).with fields := by
  unfold envOf Env.with
  rw [List.map_map, List.map_map]
  apply List.map_congr_left
  intro x _
  simp only [Function.comp, Var.set]
  cases fields.lookup x.name <;> rfl

/-- The variables of a loop between its calls. -/
structure Rel (c : Loop V T S) (vars : List (Var V)) (state : Env V) (last : V) : Prop where
  env : envOf vars = state ++ [(c.lastName, last)]
  nodup : (vars.map Var.name).Nodup
  fresh : c.yields = true → ∃ front, vars = front ++ [{ name := c.lastName, value := last, initial := true }]
  const : c.yields = true → last = c.lastValue

theorem env_split {c : Loop V T S} {vars : List (Var V)} {state : Env V} {last : V}
    (h : envOf vars = state ++ [(c.lastName, last)]) :
    ∃ front x, vars = front ++ [x] ∧ envOf front = state ∧ x.name = c.lastName ∧ x.value = last := by
  have hlen : vars ≠ [] := by
    intro hv
    rw [hv] at h
    simp [envOf] at h
  refine ⟨vars.dropLast, vars.getLast hlen, (List.dropLast_concat_getLast hlen).symm, ?_⟩
  rw [← List.dropLast_concat_getLast hlen] at h
  simp only [envOf, List.map_append, List.map_cons, List.map_nil] at h
  have := List.append_inj' h rfl
  simp only [List.cons.injEq, Prod.mk.injEq, and_true] at this
  exact ⟨this.1, this.2.1, this.2.2⟩

theorem visible_eq {c : Loop V T S} {vars : List (Var V)} {state : Env V} {last : V} (h : Rel c vars state last) :
    c.visible vars = c.sees state last := by
  obtain ⟨front, x, hv, hf, hn, hl⟩ := env_split h.env
  unfold Loop.visible Loop.sees
  cases c.yields with
  | false => exact h.env
  | true =>
    rw [hv]
    simp only [if_true, List.dropLast_concat]
    exact hf

theorem fst_env (vars : List (Var V)) : (envOf vars).map Prod.fst = vars.map Var.name := by
  unfold envOf
  rw [List.map_map]
  rfl

theorem names_eq {c : Loop V T S} {vars : List (Var V)} {state : Env V} {last : V}
    (h : envOf vars = state ++ [(c.lastName, last)]) :
    vars.map Var.name = state.map Prod.fst ++ [c.lastName] := by
  have := congrArg (List.map Prod.fst) h
  rw [fst_env, List.map_append] at this
  exact this

theorem with_append (a b fields : Env V) : (a ++ b).with fields = a.with fields ++ b.with fields := by
  simp [Env.with]

/-- How a call ends. -/
inductive Called (c : Loop V T S) (vars : List (Var V)) (next yield : List (Var V) → Place V S) (p : Place V S) :
    Except S (Env V × V × List V) → Prop
  | error (s : S) : p = .close s → Called c vars next yield p (.error s)
  | returns (vars' : List (Var V)) (state : Env V) (last : V) : c.yields = false → p = next vars' →
      Rel c vars' state last → Called c vars next yield p (.ok (state, last, []))
  | quiet (vars' : List (Var V)) (state : Env V) (last : V) (x : Var V) : c.yields = true → p = yield vars' →
      vars'.getLast? = some x → x.initial = true → Rel c vars' state last →
      Called c vars next yield p (.ok (state, last, []))
  | yields (vars' : List (Var V)) (state : Env V) (last : V) (x : Var V) : c.yields = true → p = yield vars' →
      vars'.getLast? = some x → x.initial = false → Rel c (c.restore vars') state last →
      Called c vars next yield p (.ok (state, last, [x.value]))

theorem called_eq {c : Loop V T S} {vars : List (Var V)} {state : Env V} {last : V} (h : Rel c vars state last)
    (next yield : List (Var V) → Place V S) (returned : Except S (Option (NamedTuple V))) :
    Called c vars next yield (c.called vars next yield returned) (c.call state last returned) := by
  unfold Loop.called Loop.call Env.apply
  match returned with
  | .error s => exact .error s rfl
  | .ok none => exact .error _ rfl
  | .ok (some t) =>
    simp only [update]
    rw [assignAll_eq c.typeOf t.fields vars t.nodup h.nodup, h.env]
    cases hb : t.fields.findSome? (badField c.typeOf (state ++ [(c.lastName, last)])) with
    | some e => exact .error _ rfl
    | none =>
      simp only
      obtain ⟨front, x, hv, hf, hn, hl⟩ := env_split h.env
      have henv : envOf (vars.map (Var.set t.fields)) =
          state.with t.fields ++ [(c.lastName, (t.fields.lookup c.lastName).getD last)] := by
        rw [env_set, h.env, with_append]; rfl
      have hlen : (state.with t.fields).length = state.length := by simp [Env.with]
      have hw : (state ++ [(c.lastName, last)]).with t.fields =
          state.with t.fields ++ [(c.lastName, (t.fields.lookup c.lastName).getD last)] := by
        rw [with_append]; rfl
      have htake : ((state ++ [(c.lastName, last)]).with t.fields).take state.length = state.with t.fields := by
        rw [hw, ← hlen]; simp
      have hdrop : ((state ++ [(c.lastName, last)]).with t.fields).drop state.length =
          [(c.lastName, (t.fields.lookup c.lastName).getD last)] := by
        rw [hw, ← hlen]; simp
      have hnodup : ((vars.map (Var.set t.fields)).map Var.name).Nodup := by rw [names_set]; exact h.nodup
      rw [htake, hdrop]
      cases hy : c.yields with
      | false =>
        simp only [Loop.yielded, hy, Bool.false_eq_true, if_false, List.head?_cons, Option.map_some,
          Option.getD_some]
        refine .returns _ _ _ hy rfl ⟨henv, hnodup, ?_, ?_⟩
        · intro h; rw [hy] at h; cases h
        · intro h; rw [hy] at h; cases h
      | true =>
        simp only [Loop.yielded, hy, if_true]
        obtain ⟨front', hfresh⟩ := h.fresh hy
        have hx : x = { name := c.lastName, value := last, initial := true } := by
          rw [hfresh] at hv
          have := (List.append_inj' hv rfl).2
          simpa using this.symm
        have hlast : (vars.map (Var.set t.fields)).getLast? = some (x.set t.fields) := by
          rw [hv]; simp
        cases hlk : t.fields.lookup c.lastName with
        | none =>
          have hxs : x.set t.fields = x := by simp [Var.set, hn, hlk]
          refine .quiet _ _ _ x hy rfl (by rw [hlast, hxs]) (by rw [hx]) ?_
          rw [hlk] at henv
          refine ⟨henv, hnodup, ?_, h.const⟩
          intro _
          refine ⟨front.map (Var.set t.fields), ?_⟩
          rw [hv, List.map_append, List.map_cons, List.map_nil, hxs, hx]
        | some v =>
          have hxs : x.set t.fields = { x with value := v, initial := false } := by simp [Var.set, hn, hlk]
          have hval : v = (x.set t.fields).value := by rw [hxs]
          have hr : Rel c (c.restore (vars.map (Var.set t.fields))) (state.with t.fields) last := by
            have hdl : (vars.map (Var.set t.fields)).dropLast = front.map (Var.set t.fields) := by
              rw [hv]; simp
            unfold Loop.restore
            rw [hdl, ← h.const hy]
            refine ⟨?_, ?_, fun _ => ⟨_, rfl⟩, h.const⟩
            · unfold envOf
              rw [List.map_append]
              have := env_set t.fields front
              unfold envOf at this
              rw [this]
              have hf' : (front.map fun x => (x.name, x.value)) = state := hf
              rw [hf']
              rfl
            · have h1 := names_eq h.env
              have h2 := h.nodup
              rw [h1, ← hf, fst_env] at h2
              rw [List.map_append, names_set]
              exact h2
          show Called c vars next yield _ (.ok (state.with t.fields, last, [v]))
          rw [hval]
          exact .yields _ _ _ (x.set t.fields) hy rfl hlast (by rw [hxs]) hr

/-- A parsed condition with its status. -/
def Loop.parsed (c : Loop V T S) : Except ConditionError Bool → Except S Bool
  | .error e => .error (c.conditionError e)
  | .ok b => .ok b

omit [DecidableEq T] in
theorem parse_eq (c : Loop V T S) (v : V) : c.parsed (parseValue (c.slice v)) = truth c v := by
  unfold parseValue truth
  cases c.slice v with
  | none => rfl
  | some x =>
    obtain ⟨i, h, s⟩ := x
    cases i <;> cases h <;> cases s <;> rfl

end Verif.StreamLoop
