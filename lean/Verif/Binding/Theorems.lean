import Verif.Binding.Lemmas

/-!
The theorems about signatures and calls. The last section shows concrete ones.
-/

namespace Verif.Binding

set_option linter.unusedSectionVars false

variable {V : Type}

/-! ### C43: binding follows the rules of python -/

/-- A signature can be created exactly if python accepts it, with the given parameters. -/
theorem C43_signatures (c : Cfg V) (ps : List (Parameter V)) :
    ((∃ s, create c ps = .ok s) ↔ PyValid c ps) ∧
    ∀ s, create c ps = .ok s → s.parameters = ps := by
  rw [valid_iff]
  unfold create
  constructor
  · cases checkSingle c [] ps with
    | some e => simp
    | none =>
      cases checkPairs ps with
      | some e => simp
      | none => simp
  · intro s h
    cases hs : checkSingle c [] ps with
    | some e => rw [hs] at h; cases h
    | none =>
      rw [hs] at h
      cases hp : checkPairs ps with
      | some e => rw [hp] at h; cases h
      | none =>
        rw [hp] at h
        cases h
        rfl

theorem create_ok {c : Cfg V} {ps : List (Parameter V)} {s : Signature V}
    (h : create c ps = .ok s) :
    s = ⟨ps, buildIndex 0 [] ps⟩ ∧ PyValid c ps ∧ ps.Pairwise Ordered := by
  have hv := ((C43_signatures c ps).1).1 ⟨s, h⟩
  have h2 := (valid_iff c ps).1 hv
  refine ⟨?_, hv, (checkPairs_none ps).1 h2.2⟩
  unfold create at h
  rw [h2.1, h2.2] at h
  cases h
  rfl

theorem checkSingle_error (c : Cfg V) (ps : List (Parameter V)) (names : List String)
    (e : CreateError) (h : checkSingle c names ps = some e) :
    (∃ (i : Nat) (p : Parameter V), ps[i]? = some p ∧ e = .duplicateName p.name ∧
      p.name ∈ names ++ (ps.take i).map Parameter.name) ∨
    ∃ p ∈ ps, checkDefault c p = some e := by
  induction ps generalizing names with
  | nil => cases h
  | cons q ps ih =>
    rw [checkSingle] at h
    split at h
    · rename_i hm
      cases h
      exact .inl ⟨0, q, rfl, rfl, by simpa using hm⟩
    · cases hd : checkDefault c q with
      | some e' =>
        rw [hd] at h
        cases h
        exact .inr ⟨q, by simp, hd⟩
      | none =>
        rw [hd] at h
        rcases ih _ h with ⟨i, p, hi, he, hm⟩ | ⟨p, hp, hd⟩
        · refine .inl ⟨i + 1, p, hi, he, ?_⟩
          simp only [List.take_succ_cons, List.map_cons, List.mem_append, List.mem_cons] at hm ⊢
          rcases hm with (h | h) | h
          · exact .inr (.inl h)
          · exact .inl h
          · exact .inr (.inr h)
        · exact .inr ⟨p, List.mem_cons_of_mem _ hp, hd⟩

theorem checkPairs_error (ps : List (Parameter V)) (e : CreateError)
    (h : checkPairs ps = some e) :
    ∃ (i : Nat) (p q : Parameter V), ps[i]? = some p ∧ ps[i + 1]? = some q ∧
      checkPair p q = some e := by
  induction ps with
  | nil => cases h
  | cons p ps ih =>
    cases ps with
    | nil => cases h
    | cons q ps =>
      rw [checkPairs] at h
      cases hc : checkPair p q with
      | some e' =>
        rw [hc] at h
        cases h
        exact ⟨0, p, q, rfl, rfl, hc⟩
      | none =>
        rw [hc] at h
        obtain ⟨i, p', q', hi⟩ := ih h
        exact ⟨i + 1, p', q', hi⟩

/-- An error says what is wrong with a signature. -/
theorem C43_signature_errors (c : Cfg V) (ps : List (Parameter V)) (e : CreateError)
    (h : create c ps = .error e) : WrongSignature c ps e := by
  unfold create at h
  cases hs : checkSingle c [] ps with
  | some e' =>
    rw [hs] at h
    cases h
    rcases checkSingle_error c ps [] e hs with ⟨i, p, hi, rfl, hm⟩ | ⟨p, hp, hd⟩
    · rw [List.nil_append] at hm
      obtain ⟨q, hq, hn⟩ := List.mem_map.1 hm
      obtain ⟨j, hj⟩ := List.getElem?_of_mem hq
      have hlt : j < i := by
        have := (List.getElem?_eq_some_iff.1 hj).1
        rw [List.length_take] at this
        omega
      rw [List.getElem?_take, if_pos hlt] at hj
      exact ⟨j, i, q, p, hlt, hj, hi, hn, rfl⟩
    · unfold checkDefault at hd
      cases hv : p.default with
      | none => rw [hv] at hd; cases hd
      | some v =>
        rw [hv] at hd
        simp only at hd
        split at hd
        · rename_i hk
          cases hd
          exact ⟨p, hp, rfl, rfl, hk, by rw [hv]; rfl⟩
        · split at hd
          · rename_i hr
            cases hd
            exact ⟨p, hp, rfl, v, hv, rfl, hr⟩
          · cases hd
  | none =>
    rw [hs] at h
    cases hp : checkPairs ps with
    | none => rw [hp] at h; cases h
    | some e' =>
      rw [hp] at h
      cases h
      obtain ⟨i, p, q, hi, hj, hc⟩ := checkPairs_error ps e hp
      unfold checkPair at hc
      split at hc
      · rename_i hk
        cases hc
        exact ⟨i, p, q, hi, hj, rfl, rfl, rfl, rfl, by rw [place_eq, place_eq]; exact hk⟩
      · split at hc
        · rename_i hk
          cases hc
          exact ⟨i, p, q, hi, hj, rfl, hk.1.symm, hk.2⟩
        · split at hc
          · rename_i hk
            cases hc
            refine ⟨i, p, q, hi, hj, rfl, rfl, ?_, hk.2.1, hk.2.2⟩
            simpa [Parameter.positional] using hk.1
          · cases hc

theorem named_length (kw : List (String × V)) (name : String) :
    (named kw name).length = (kw.map Prod.fst).count name := by
  unfold named
  rw [List.count, List.countP_map, List.countP_eq_length_filter]
  rfl

theorem named_nil (kw : List (String × V)) (name : String) :
    named kw name = [] ↔ name ∉ kw.map Prod.fst := by
  rw [← List.length_eq_zero_iff, named_length, List.count_eq_zero]

theorem mem_named {kw : List (String × V)} {name : String} {v : V} (h : (name, v) ∈ kw) :
    (name, v) ∈ named kw name := by
  unfold named
  rw [List.mem_filter]
  exact ⟨h, by simp⟩

theorem keyword_kinds {p : Parameter V} (h : p.keyword = true) :
    p.kind ≠ .varPositional ∧ p.kind ≠ .varKeyword := by
  unfold Parameter.keyword at h
  constructor
  · intro e
    rw [e] at h
    simp at h
  · intro e
    rw [e] at h
    simp at h

theorem positional_kinds {p : Parameter V} (h : p.positional = true) :
    p.kind ≠ .varPositional ∧ p.kind ≠ .varKeyword := by
  unfold Parameter.positional at h
  constructor
  · intro e
    rw [e] at h
    simp at h
  · intro e
    rw [e] at h
    simp at h

theorem kinds {p : Parameter V} (h1 : p.kind ≠ .varPositional) (h2 : p.kind ≠ .varKeyword) :
    p.positional = true ∨ p.keyword = true := by
  unfold Parameter.positional Parameter.keyword
  cases hk : p.kind <;> simp_all

/-- `bindArguments` in terms of the positional and the keyword arguments. -/
theorem bindArguments_eq (c : Cfg V) (s : Signature V) (pos : List V) (kw : List (String × V)) :
    bindArguments c s (pos ++ kw.map Prod.snd) (kw.map Prod.fst) =
    match bindKeywords s.keywordIndex kw
      (bindPositionals s.parameters 0 pos ⟨List.replicate s.parameters.length none, [], []⟩) with
    | .error e => .error e
    | .ok st =>
      match bindVariadics 0 s.parameters st with
      | .error e => .error e
      | .ok st =>
        if !st.unknownArgs.isEmpty then .error (.tooManyPositional st.unknownArgs.length)
        else if !st.unknownKwargs.isEmpty then
          .error (.unknownKeywords (st.unknownKwargs.map Prod.fst))
        else bindDefaults c s.parameters st.bound := by
  unfold bindArguments
  rw [if_neg (by simp)]
  have h1 : (pos ++ kw.map Prod.snd).length - (kw.map Prod.fst).length = pos.length := by simp
  have h2 : (kw.map Prod.fst).zip (kw.map Prod.snd) = kw := by
    rw [List.zip_map']
    simp
  simp only [h1, List.take_left, List.drop_left, h2]
  all_goals rfl

/-- What the first two loops do. -/
theorem slots_spec {ps : List (Parameter V)} (ho : ps.Pairwise Ordered)
    (pos : List V) (j : Nat) (p : Parameter V) (hj : ps[j]? = some p) :
    (bindPositionals ps 0 pos ⟨List.replicate ps.length none, [], []⟩).bound[j]? =
      if p.positional = true ∧ j < pos.length then (pos[j]?).map fun v => some (.value v)
      else some none := by
  obtain ⟨_, h2, _, _⟩ := bindPositionals_spec ps ho pos 0 ⟨List.replicate ps.length none, [], []⟩
    (by simp)
  rw [h2 j]
  have hjl := (List.getElem?_eq_some_iff.1 hj).1
  have hpos := positional_prefix ps ho j p hj
  by_cases h : p.positional = true ∧ j < pos.length
  · rw [if_pos h, if_pos ⟨Nat.zero_le _, by omega, hpos.1 h.1⟩, Nat.sub_zero]
  · rw [if_neg h, if_neg]
    · rw [List.getElem?_replicate, if_pos hjl]
    · rintro ⟨_, h3, h4⟩
      exact h ⟨hpos.2 h4, by omega⟩

theorem bind_ok {c : Cfg V} {ps : List (Parameter V)} {s : Signature V} (hs : create c ps = .ok s)
    (pos : List V) (kw : List (String × V)) (out : List (Bound V))
    (h : bindArguments c s (pos ++ kw.map Prod.snd) (kw.map Prod.fst) = .ok out) :
    PyBinds c ps pos kw out := by
  obtain ⟨rfl, hv, ho⟩ := create_ok hs
  rw [bindArguments_eq] at h
  obtain ⟨p1, _, p3, p4⟩ := bindPositionals_spec ps ho pos 0
    ⟨List.replicate ps.length none, [], []⟩ (by simp)
  have p2 := slots_spec ho pos
  simp only at h
  generalize bindPositionals ps 0 pos ⟨List.replicate ps.length none, [], []⟩ = st0 at h p1 p2 p3 p4
  cases hk : bindKeywords (buildIndex 0 [] ps) kw st0 with
  | error e => rw [hk] at h; cases h
  | ok st1 =>
    rw [hk] at h
    simp only at h
    obtain ⟨k1, k2, k3, k4, k5⟩ := bindKeywords_ok ps hv.names kw st0 st1 p1 hk
    cases hvar : bindVariadics 0 ps st1 with
    | error e => rw [hvar] at h; cases h
    | ok st2 =>
      rw [hvar] at h
      simp only at h
      obtain ⟨v1, _, v3, v4, v5⟩ := bindVariadics_ok ps 0 st1 st2 (by omega) ho hvar
      split at h
      · cases h
      · rename_i hargs
        split at h
        · cases h
        · rename_i hkws
          have hargs : st2.unknownArgs = [] := by simpa using hargs
          have hkws : st2.unknownKwargs = [] := by simpa using hkws
          obtain ⟨d1, d2⟩ := bindDefaults_ok c ps st2.bound out (by omega) h
          have hua : st1.unknownArgs = pos.drop (slots ps) := by
            rw [k4, p3]
            simp
          have huk : st1.unknownKwargs = kw.filter fun e => !takes ps e.1 := by
            rw [k5, p4]
            simp
          refine ⟨?_, ?_, ?_, ?_, d1, ?_⟩
          · rw [List.nodup_iff_count]
            intro name
            rw [← named_length]
            by_cases ht : takes ps name = true
            · obtain ⟨j, p, hj, hpk, rfl⟩ := (takes_iff ps name).1 ht
              rcases k2 j p hj hpk with ⟨hnil, _⟩ | ⟨v, hone, _⟩
              · rw [hnil]; simp
              · rw [hone]; simp
            · have hnd : ((kw.filter fun e => !takes ps e.1).map Prod.fst).Nodup := by
                rw [← huk]
                rcases v5 with ⟨_, hnd, _⟩ | ⟨_, he⟩
                · exact hnd
                · rw [← he, hkws]
                  exact List.nodup_nil
              rw [List.nodup_iff_count] at hnd
              have := hnd name
              rw [← named_length] at this
              unfold named at this ⊢
              rw [List.filter_filter] at this
              have heq : (kw.filter fun e => e.1 == name && !takes ps e.1) =
                  kw.filter fun e => e.1 == name := by
                apply List.filter_congr
                intro e _
                by_cases he : e.1 = name
                · simp [he, ht]
                · simp [he]
              rw [heq] at this
              exact this
          · rcases v4 with ⟨h1, _⟩ | ⟨_, h1⟩
            · exact .inl h1
            · right
              rw [hargs, hua] at h1
              have := congrArg List.length h1
              simp only [List.length_nil, List.length_drop] at this
              omega
          · rcases v5 with ⟨h1, _⟩ | ⟨_, h1⟩
            · exact .inl h1
            · right
              rw [hkws, huk] at h1
              intro e he
              have := List.filter_eq_nil_iff.1 h1.symm e he
              simpa using this
          · intro i p hi hpos hkw hlt hm
            rcases k2 i p hi hkw with ⟨hnil, _⟩ | ⟨v, _, hb, _⟩
            · exact (named_nil kw p.name).1 hnil hm
            · rw [p2 i p hi, if_pos ⟨hpos, hlt⟩, List.getElem?_eq_getElem hlt] at hb
              cases hb
          · intro i p b hi hb
            have hvi := v3 i p hi
            rw [Nat.zero_add] at hvi
            rcases d2 i p b hi hb with hb2 | ⟨hb2, v, hd, rfl⟩
            · rw [hvi] at hb2
              by_cases hvp : p.kind = .varPositional
              · rw [if_pos hvp, hua] at hb2
                cases hb2
                exact .varPositional hvp
              · rw [if_neg hvp] at hb2
                by_cases hvk : p.kind = .varKeyword
                · rw [if_pos hvk, huk] at hb2
                  cases hb2
                  exact .varKeyword hvk
                · rw [if_neg hvk] at hb2
                  have hst0 : st0.bound[i]? = some (some b) → Gets c ps pos kw i p b := by
                    intro h0
                    rw [p2 i p hi] at h0
                    split at h0
                    · rename_i hp
                      rw [List.getElem?_eq_getElem hp.2] at h0
                      cases h0
                      exact .positional hp.1 (List.getElem?_eq_getElem hp.2)
                    · cases h0
                  by_cases hkw : p.keyword = true
                  · rcases k2 i p hi hkw with ⟨_, h0⟩ | ⟨v, hone, _, h0⟩
                    · rw [h0] at hb2
                      exact hst0 hb2
                    · rw [h0] at hb2
                      cases hb2
                      refine .keyword hkw ?_
                      have : (p.name, v) ∈ named kw p.name := by rw [hone]; simp
                      exact (List.mem_filter.1 this).1
                  · rw [k3 i p hi (by simpa using hkw)] at hb2
                    exact hst0 hb2
            · rw [hvi] at hb2
              by_cases hvp : p.kind = .varPositional
              · rw [if_pos hvp] at hb2; cases hb2
              · rw [if_neg hvp] at hb2
                by_cases hvk : p.kind = .varKeyword
                · rw [if_pos hvk] at hb2; cases hb2
                · rw [if_neg hvk] at hb2
                  have hst0 : st0.bound[i]? = some none → p.positional = true → pos.length ≤ i := by
                    intro h0 hp
                    rw [p2 i p hi] at h0
                    split at h0
                    · rename_i hlt
                      rw [List.getElem?_eq_getElem hlt.2] at h0
                      cases h0
                    · rename_i hlt
                      by_cases hl : i < pos.length
                      · exact absurd ⟨hp, hl⟩ hlt
                      · omega
                  by_cases hkw : p.keyword = true
                  · rcases k2 i p hi hkw with ⟨hnil, h0⟩ | ⟨v, hone, _, h0⟩
                    · rw [h0] at hb2
                      exact .default (hst0 hb2) (fun _ => (named_nil kw p.name).1 hnil) hd
                    · rw [h0] at hb2
                      cases hb2
                  · rw [k3 i p hi (by simpa using hkw)] at hb2
                    exact .default (hst0 hb2) (fun h => absurd h hkw) hd

theorem bind_error {c : Cfg V} {ps : List (Parameter V)} {s : Signature V}
    (hs : create c ps = .ok s) (pos : List V) (kw : List (String × V)) (e : BindError)
    (h : bindArguments c s (pos ++ kw.map Prod.snd) (kw.map Prod.fst) = .error e) :
    Wrong ps pos kw e := by
  obtain ⟨rfl, hv, ho⟩ := create_ok hs
  rw [bindArguments_eq] at h
  obtain ⟨p1, _, p3, p4⟩ := bindPositionals_spec ps ho pos 0
    ⟨List.replicate ps.length none, [], []⟩ (by simp)
  have p2 := slots_spec ho pos
  simp only at h
  generalize bindPositionals ps 0 pos ⟨List.replicate ps.length none, [], []⟩ = st0 at h p1 p2 p3 p4
  cases hk : bindKeywords (buildIndex 0 [] ps) kw st0 with
  | error e' =>
    rw [hk] at h
    cases h
    obtain ⟨j, p, hj, hkw, rfl, hor⟩ := bindKeywords_error ps hv.names kw st0 e p1 hk
    refine ⟨j, p, hj, rfl, hkw, ?_⟩
    rcases hor with ⟨b, hb, hne⟩ | hlen
    · left
      rw [p2 j p hj] at hb
      split at hb
      · rename_i hp
        refine ⟨hp.1, hp.2, ?_⟩
        apply Classical.byContradiction
        intro hno
        exact hne ((named_nil kw p.name).2 hno)
      · cases hb
    · right
      rw [← named_length]
      exact hlen
  | ok st1 =>
    rw [hk] at h
    simp only at h
    obtain ⟨k1, k2, k3, k4, k5⟩ := bindKeywords_ok ps hv.names kw st0 st1 p1 hk
    have hua : st1.unknownArgs = pos.drop (slots ps) := by
      rw [k4, p3]
      simp
    have huk : st1.unknownKwargs = kw.filter fun e => !takes ps e.1 := by
      rw [k5, p4]
      simp
    cases hvar : bindVariadics 0 ps st1 with
    | error e' =>
      rw [hvar] at h
      cases h
      obtain ⟨rfl, hex, hnd⟩ := bindVariadics_error ps 0 st1 e hvar
      refine ⟨hex, ?_⟩
      rw [huk, List.nodup_iff_count] at hnd
      have ⟨name, hname⟩ := Classical.not_forall.1 hnd
      rw [← named_length] at hname
      have hsub : (named (kw.filter fun e => !takes ps e.1) name).length ≤
          (named kw name).length := by
        unfold named
        exact (List.Sublist.filter _ List.filter_sublist).length_le
      refine ⟨name, ?_, by rw [← named_length]; omega⟩
      cases ht : takes ps name with
      | false => rfl
      | true =>
        exfalso
        apply hname
        have : named (kw.filter fun e => !takes ps e.1) name = [] := by
          unfold named
          rw [List.filter_filter, List.filter_eq_nil_iff]
          intro x _
          by_cases hx : x.1 = name
          · simp [hx, ht]
          · simp [hx]
        rw [this]
        simp
    | ok st2 =>
      rw [hvar] at h
      simp only at h
      obtain ⟨v1, _, v3, v4, v5⟩ := bindVariadics_ok ps 0 st1 st2 (by omega) ho hvar
      split at h
      · rename_i hargs
        have hargs : st2.unknownArgs ≠ [] := by simpa using hargs
        cases h
        rcases v4 with ⟨_, h1⟩ | ⟨h0, h1⟩
        · exact absurd h1 hargs
        · refine ⟨h0, ?_, List.length_pos_iff.2 hargs⟩
          have hl := congrArg List.length h1
          have hl0 := List.length_pos_iff.2 hargs
          rw [hua, List.length_drop] at hl
          omega
      · split at h
        · rename_i hkws
          have hkws : st2.unknownKwargs ≠ [] := by simpa using hkws
          cases h
          rcases v5 with ⟨_, _, h1⟩ | ⟨h0, h1⟩
          · exact absurd h1 hkws
          · refine ⟨h0, ?_, ?_⟩
            · rw [h1, huk]
            · simpa using hkws
        · obtain ⟨j, p, hj, hb, hd, rfl⟩ := bindDefaults_error c ps st2.bound e h
          have hvj := v3 j p hj
          rw [Nat.zero_add, hb] at hvj
          by_cases hvp : p.kind = .varPositional
          · rw [if_pos hvp] at hvj; cases hvj
          · rw [if_neg hvp] at hvj
            by_cases hvk : p.kind = .varKeyword
            · rw [if_pos hvk] at hvj; cases hvj
            · rw [if_neg hvk] at hvj
              have hst0 : st0.bound[j]? = some none → p.positional = true → pos.length ≤ j := by
                intro h0 hp
                rw [p2 j p hj] at h0
                split at h0
                · rename_i hlt
                  rw [List.getElem?_eq_getElem hlt.2] at h0
                  cases h0
                · rename_i hlt
                  by_cases hl : j < pos.length
                  · exact absurd ⟨hp, hl⟩ hlt
                  · omega
              refine ⟨j, p, hj, rfl, rfl, kinds hvp hvk, ?_, ?_, hd⟩
              · by_cases hkw : p.keyword = true
                · rcases k2 j p hj hkw with ⟨hnil, h0⟩ | ⟨v, hone, _, h0⟩
                  · rw [h0] at hvj
                    exact hst0 hvj.symm
                  · rw [h0] at hvj
                    cases hvj
                · rw [k3 j p hj (by simpa using hkw)] at hvj
                  exact hst0 hvj.symm
              · intro hkw
                rcases k2 j p hj hkw with ⟨hnil, h0⟩ | ⟨v, hone, _, h0⟩
                · exact (named_nil kw p.name).1 hnil
                · rw [h0] at hvj
                  cases hvj

/-- A wrong call is not bound by python. -/
theorem wrong_not_binds {c : Cfg V} {ps : List (Parameter V)} {pos : List V} {kw : List (String × V)} {e : BindError} {out : List (Bound V)}
    (hw : Wrong ps pos kw e) (hb : PyBinds c ps pos kw out) : False := by
  have hcount : ∀ name, (kw.map Prod.fst).count name ≤ 1 := List.nodup_iff_count.1 hb.distinct
  cases e with
  | tooFewArgs => exact hw
  | specifiedTwice name =>
    obtain ⟨i, p, hi, rfl, hk, h | h⟩ := hw
    · exact hb.once i p hi h.1 hk h.2.1 h.2.2
    · have := hcount p.name
      omega
  | duplicateField =>
    obtain ⟨_, name, _, h⟩ := hw
    have := hcount name
    omega
  | tooManyPositional extra =>
    obtain ⟨h1, h2, h3⟩ := hw
    rcases hb.fit with ⟨p, hp, hk⟩ | hle
    · exact h1 p hp hk
    · omega
  | unknownKeywords names =>
    obtain ⟨h1, rfl, h3⟩ := hw
    rcases hb.known with ⟨p, hp, hk⟩ | hall
    · exact h1 p hp hk
    · apply h3
      rw [List.map_eq_nil_iff, List.filter_eq_nil_iff]
      intro x hx
      rw [hall x hx]
      simp
  | noValue kind name =>
    obtain ⟨i, p, hi, rfl, rfl, hpk, h1, h2, h3⟩ := hw
    have hilt : i < out.length := by
      rw [hb.length]
      exact (List.getElem?_eq_some_iff.1 hi).1
    have hget := hb.values i p out[i] hi (List.getElem?_eq_getElem hilt)
    generalize out[i] = b at hget
    cases hget with
    | positional hp hpos =>
      have := (List.getElem?_eq_some_iff.1 hpos).1
      have := h1 hp
      omega
    | keyword hk hm => exact h2 hk (List.mem_map_of_mem hm)
    | default _ _ hd => rw [h3] at hd; cases hd
    | varPositional hk =>
      rcases hpk with h | h
      · exact (positional_kinds h).1 hk
      · exact (keyword_kinds h).1 hk
    | varKeyword hk =>
      rcases hpk with h | h
      · exact (positional_kinds h).2 hk
      · exact (keyword_kinds h).2 hk

theorem eq_of_mem_nodup {kw : List (String × V)} (hn : (kw.map Prod.fst).Nodup) {name : String}
    {v w : V} (hv : (name, v) ∈ kw) (hw : (name, w) ∈ kw) : v = w := by
  have h1 : (named kw name).length ≤ 1 := by
    rw [named_length]
    exact List.nodup_iff_count.1 hn name
  have h2 := mem_named hv
  have h3 := mem_named hw
  cases hl : named kw name with
  | nil => rw [hl] at h2; cases h2
  | cons a l =>
    rw [hl, List.length_cons] at h1
    have : l = [] := List.length_eq_zero_iff.1 (by omega)
    subst this
    rw [hl, List.mem_singleton] at h2 h3
    rw [← h2] at h3
    injection h3 with _ h3
    exact h3.symm

/-- The values of python are determined. -/
theorem binds_unique {c : Cfg V} {ps : List (Parameter V)} (hv : PyValid c ps)
    {pos : List V} {kw : List (String × V)} {out out' : List (Bound V)}
    (h : PyBinds c ps pos kw out) (h' : PyBinds c ps pos kw out') : out = out' := by
  apply List.ext_getElem?
  intro i
  by_cases hi : i < ps.length
  · have l1 : i < out.length := by rw [h.length]; exact hi
    have l2 : i < out'.length := by rw [h'.length]; exact hi
    have e1 := List.getElem?_eq_getElem l1
    have e2 := List.getElem?_eq_getElem l2
    have hp := List.getElem?_eq_getElem hi
    have g1 := h.values i _ _ hp e1
    have g2 := h'.values i _ _ hp e2
    rw [e1, e2]
    congr 1
    generalize out[i] = b at g1
    generalize out'[i] = b' at g2
    have honce := h.once i _ hp
    have hnd := hv.noDefault _ (List.getElem_mem hi)
    generalize ps[i] = p at *
    cases g1 with
    | positional a1 a2 =>
      have hlt := (List.getElem?_eq_some_iff.1 a2).1
      cases g2 with
      | positional b1 b2 => rw [a2] at b2; cases b2; rfl
      | keyword b1 b2 => exact absurd (List.mem_map_of_mem b2) (honce a1 b1 hlt)
      | default b1 _ _ => have := b1 a1; omega
      | varPositional b1 => exact absurd b1 (positional_kinds a1).1
      | varKeyword b1 => exact absurd b1 (positional_kinds a1).2
    | keyword a1 a2 =>
      cases g2 with
      | positional b1 b2 =>
        exact absurd (List.mem_map_of_mem a2) (honce b1 a1 (List.getElem?_eq_some_iff.1 b2).1)
      | keyword b1 b2 => rw [eq_of_mem_nodup h.distinct a2 b2]
      | default _ b1 _ => exact absurd (List.mem_map_of_mem a2) (b1 a1)
      | varPositional b1 => exact absurd b1 (keyword_kinds a1).1
      | varKeyword b1 => exact absurd b1 (keyword_kinds a1).2
    | default a1 a2 a3 =>
      cases g2 with
      | positional b1 b2 =>
        have := a1 b1
        have := (List.getElem?_eq_some_iff.1 b2).1
        omega
      | keyword b1 b2 => exact absurd (List.mem_map_of_mem b2) (a2 b1)
      | default _ _ b3 => rw [a3] at b3; cases b3; rfl
      | varPositional b1 => rw [hnd (.inl b1)] at a3; cases a3
      | varKeyword b1 => rw [hnd (.inr b1)] at a3; cases a3
    | varPositional a1 =>
      cases g2 with
      | positional b1 _ => exact absurd a1 (positional_kinds b1).1
      | keyword b1 _ => exact absurd a1 (keyword_kinds b1).1
      | default _ _ b3 => rw [hnd (.inl a1)] at b3; cases b3
      | varPositional _ => rfl
      | varKeyword b1 => rw [a1] at b1; cases b1
    | varKeyword a1 =>
      cases g2 with
      | positional b1 _ => exact absurd a1 (positional_kinds b1).2
      | keyword b1 _ => exact absurd a1 (keyword_kinds b1).2
      | default _ _ b3 => rw [hnd (.inr a1)] at b3; cases b3
      | varPositional b1 => rw [a1] at b1; cases b1
      | varKeyword _ => rfl
  · rw [List.getElem?_eq_none (by rw [h.length]; omega),
      List.getElem?_eq_none (by rw [h'.length]; omega)]

/-- A call is bound to values exactly if python binds it to these values. -/
theorem C43_bind (c : Cfg V) (ps : List (Parameter V)) (s : Signature V) (hs : create c ps = .ok s)
    (pos : List V) (kw : List (String × V)) (out : List (Bound V)) :
    bindArguments c s (pos ++ kw.map Prod.snd) (kw.map Prod.fst) = .ok out ↔
      PyBinds c ps pos kw out := by
  constructor
  · exact bind_ok hs pos kw out
  · intro h
    have hv := (create_ok hs).2.1
    cases hb : bindArguments c s (pos ++ kw.map Prod.snd) (kw.map Prod.fst) with
    | ok out' => rw [binds_unique hv h (bind_ok hs pos kw out' hb)]
    | error e => exact (wrong_not_binds (bind_error hs pos kw e hb) h).elim

/-- An error says what is wrong with the call, and python does not bind it. -/
theorem C43_errors (c : Cfg V) (ps : List (Parameter V)) (s : Signature V)
    (hs : create c ps = .ok s) (pos : List V) (kw : List (String × V)) (e : BindError)
    (h : bindArguments c s (pos ++ kw.map Prod.snd) (kw.map Prod.fst) = .error e) :
    Wrong ps pos kw e ∧ ¬ ∃ out, PyBinds c ps pos kw out := by
  have hw := bind_error hs pos kw e h
  exact ⟨hw, fun ⟨out, hb⟩ => wrong_not_binds hw hb⟩

/-- Every call has the form of the theorems above, or has too few arguments and fails. -/
theorem C43_calls (c : Cfg V) (s : Signature V) (args : List V) (kwnames : List String) :
    (args.length < kwnames.length ∧ bindArguments c s args kwnames = .error .tooFewArgs) ∨
    ∃ (pos : List V) (kw : List (String × V)),
      args = pos ++ kw.map Prod.snd ∧ kwnames = kw.map Prod.fst := by
  by_cases h : args.length < kwnames.length
  · refine .inl ⟨h, ?_⟩
    unfold bindArguments
    rw [if_pos h]
  · refine .inr ⟨args.take (args.length - kwnames.length),
      kwnames.zip (args.drop (args.length - kwnames.length)), ?_, ?_⟩
    · rw [List.map_snd_zip (by rw [List.length_drop]; omega), List.take_append_drop]
    · rw [List.map_fst_zip (by rw [List.length_drop]; omega)]

/-- The default signature of a functor with inputs: `self` can be passed by position, the other
inputs only by keyword, and all other keywords are collected. It exists if the inputs are
different from each other and from `__extra_inputs__`. -/
theorem C43_default_signature (c : Cfg V) (unspecified : V) (hr : c.rank unspecified = 0)
    (inputs : List String) :
    (PyValid c (defaultParameters unspecified inputs) ↔
      (inputs.filter (· ≠ "self")).Nodup ∧ "__extra_inputs__" ∉ inputs) ∧
    ∀ s, create c (defaultParameters unspecified inputs) = .ok s → ∀ (pos : List V) (kw : List (String × V)),
      (∃ out, bindArguments c s (pos ++ kw.map Prod.snd) (kw.map Prod.fst) = .ok out) ↔
      (pos.length ≤ 1 ∧ (kw.map Prod.fst).Nodup ∧
        ∀ input ∈ inputs, input ≠ "self" → input ∈ kw.map Prod.fst) := by
  have hparams : (inputParameters inputs : List (Parameter V)) =
      (inputs.filter (· ≠ "self")).map fun input => { name := input, kind := .keywordOnly } := by
    unfold inputParameters
    induction inputs with
    | nil => rfl
    | cons x xs ih =>
      rw [List.filterMap_cons, ih, List.filter_cons]
      by_cases hx : x = "self"
      · simp [hx]
      · simp [hx]
  generalize hks : inputs.filter (· ≠ "self") = ks at hparams
  have hmem : ∀ input, input ∈ ks ↔ input ∈ inputs ∧ input ≠ "self" := by
    intro input
    rw [← hks, List.mem_filter]
    simp
  have hps : defaultParameters unspecified inputs =
      { name := "self", kind := .positionalOnly, default := some unspecified } ::
        ((ks.map fun input => { name := input, kind := .keywordOnly }) ++
          [{ name := "__extra_inputs__", kind := .varKeyword }]) := by
    unfold defaultParameters
    rw [hparams]
  have hself : "self" ∉ ks := fun h => ((hmem "self").1 h).2 rfl
  rw [hps]
  constructor
  · rw [valid_iff, checkSingle_none, checkPairs_none]
    have hnames : (({ name := "self", kind := .positionalOnly, default := some unspecified } ::
        ((ks.map fun input => ({ name := input, kind := .keywordOnly } : Parameter V)) ++
          [{ name := "__extra_inputs__", kind := .varKeyword }])).map Parameter.name) =
        "self" :: (ks ++ ["__extra_inputs__"]) := by
      simp [Function.comp_def]
    rw [hnames]
    constructor
    · rintro ⟨⟨_, h1, _⟩, _⟩
      rw [List.nodup_cons, List.nodup_append] at h1
      refine ⟨h1.2.1, ?_⟩
      intro hm
      exact h1.2.2.2 "__extra_inputs__" ((hmem _).2 ⟨hm, by decide⟩) "__extra_inputs__"
        (by simp) rfl
    · rintro ⟨h1, h2⟩
      refine ⟨⟨by simp, ?_, ?_⟩, ?_⟩
      · rw [List.nodup_cons, List.nodup_append]
        refine ⟨?_, h1, by simp, ?_⟩
        · rw [List.mem_append, not_or]
          exact ⟨hself, by decide⟩
        · rintro a ha b hb rfl
          rw [List.mem_singleton] at hb
          subst hb
          exact h2 ((hmem _).1 ha).1
      · intro p hp
        rw [checkDefault_none]
        rcases List.mem_cons.1 hp with rfl | hp
        · simp [hr]
        · rcases List.mem_append.1 hp with hp | hp
          · obtain ⟨x, _, rfl⟩ := List.mem_map.1 hp
            simp
          · rw [List.mem_singleton] at hp
            subst hp
            simp
      · rw [List.pairwise_cons]
        constructor
        · intro q hq
          rcases List.mem_append.1 hq with hq | hq
          · obtain ⟨x, _, rfl⟩ := List.mem_map.1 hq
            simp [Ordered, Kind.toNat, Parameter.positional]
          · rw [List.mem_singleton] at hq
            subst hq
            simp [Ordered, Kind.toNat, Parameter.positional]
        · rw [List.pairwise_append]
          refine ⟨?_, by simp, ?_⟩
          · rw [List.pairwise_map]
            apply List.Pairwise.imp (R := fun _ _ => True)
            · intro a b _
              simp [Ordered, Parameter.positional]
            · exact List.pairwise_of_forall (fun _ _ => trivial)
          · intro p hp q hq
            obtain ⟨x, _, rfl⟩ := List.mem_map.1 hp
            rw [List.mem_singleton] at hq
            subst hq
            simp [Ordered, Kind.toNat, Parameter.positional]
  · intro s hs pos kw
    have hslots : slots ({ name := "self", kind := .positionalOnly, default := some unspecified } ::
        ((ks.map fun input => ({ name := input, kind := .keywordOnly } : Parameter V)) ++
          [{ name := "__extra_inputs__", kind := .varKeyword }])) = 1 := by
      unfold slots
      rw [List.filter_cons, List.filter_append]
      have : (ks.map fun input => ({ name := input, kind := .keywordOnly } : Parameter V)).filter
          Parameter.positional = [] := by
        rw [List.filter_eq_nil_iff]
        intro p hp
        obtain ⟨x, _, rfl⟩ := List.mem_map.1 hp
        simp [Parameter.positional]
      rw [this]
      simp [Parameter.positional]
    generalize hq : ({ name := "self", kind := .positionalOnly, default := some unspecified } ::
        ((ks.map fun input => ({ name := input, kind := .keywordOnly } : Parameter V)) ++
          [{ name := "__extra_inputs__", kind := .varKeyword }]) : List (Parameter V)) = ps at *
    constructor
    · rintro ⟨out, hout⟩
      have hb := bind_ok hs pos kw out hout
      refine ⟨?_, hb.distinct, ?_⟩
      · rcases hb.fit with ⟨p, hp, hk⟩ | hle
        · exfalso
          rw [← hq] at hp
          rcases List.mem_cons.1 hp with rfl | hp
          · cases hk
          · rcases List.mem_append.1 hp with hp | hp
            · obtain ⟨x, _, rfl⟩ := List.mem_map.1 hp
              cases hk
            · rw [List.mem_singleton] at hp
              subst hp
              cases hk
        · omega
      · intro input hi hne
        have hp : ({ name := input, kind := .keywordOnly } : Parameter V) ∈ ps := by
          rw [← hq]
          apply List.mem_cons_of_mem
          apply List.mem_append.2
          left
          exact List.mem_map.2 ⟨input, (hmem input).2 ⟨hi, hne⟩, rfl⟩
        obtain ⟨i, hget⟩ := List.getElem?_of_mem hp
        have hilt : i < out.length := by
          rw [hb.length]
          exact (List.getElem?_eq_some_iff.1 hget).1
        have hg := hb.values i _ out[i] hget (List.getElem?_eq_getElem hilt)
        generalize out[i] = b at hg
        cases hg with
        | positional h _ => cases h
        | keyword _ h => exact List.mem_map_of_mem h
        | default _ _ h => cases h
        | varPositional h => cases h
        | varKeyword h => cases h
    · rintro ⟨h1, h2, h3⟩
      cases hb : bindArguments c s (pos ++ kw.map Prod.snd) (kw.map Prod.fst) with
      | ok out => exact ⟨out, rfl⟩
      | error e =>
        exfalso
        have hcount : ∀ name, (kw.map Prod.fst).count name ≤ 1 := List.nodup_iff_count.1 h2
        have hw := bind_error hs pos kw e hb
        cases e with
        | tooFewArgs => exact hw
        | specifiedTwice name =>
          obtain ⟨i, p, hi, rfl, hk, h | h⟩ := hw
          · have hp := List.mem_of_getElem? hi
            rw [← hq] at hp
            rcases List.mem_cons.1 hp with rfl | hp
            · cases hk
            · rcases List.mem_append.1 hp with hp | hp
              · obtain ⟨x, _, rfl⟩ := List.mem_map.1 hp
                cases h.1
              · rw [List.mem_singleton] at hp
                subst hp
                cases hk
          · have := hcount p.name
            omega
        | duplicateField =>
          obtain ⟨_, name, _, h⟩ := hw
          have := hcount name
          omega
        | tooManyPositional extra =>
          obtain ⟨_, h4, h5⟩ := hw
          omega
        | unknownKeywords names =>
          obtain ⟨h4, _, _⟩ := hw
          refine h4 { name := "__extra_inputs__", kind := .varKeyword } ?_ rfl
          rw [← hq]
          simp
        | noValue kind name =>
          obtain ⟨i, p, hi, rfl, rfl, hpk, h4, h5, h6⟩ := hw
          have hp := List.mem_of_getElem? hi
          rw [← hq] at hp
          rcases List.mem_cons.1 hp with rfl | hp
          · cases h6
          · rcases List.mem_append.1 hp with hp | hp
            · obtain ⟨x, hx, rfl⟩ := List.mem_map.1 hp
              exact h5 rfl (h3 x ((hmem x).1 hx).1 ((hmem x).1 hx).2)
            · rw [List.mem_singleton] at hp
              subst hp
              rcases hpk with h | h <;> cases h

/-! ### C49: stored signatures -/

theorem ofKoda_toKoda (k : Kind) : Kind.ofKoda k.toKoda = some k := by
  cases k <;> decide

theorem readParameters_toKoda [DecidableEq V] (marker : V) (detach : Bool) (noBag : V → V)
    (ps : List (Parameter V)) (hm : ∀ p ∈ ps, p.default ≠ some marker) (i : Nat) :
    readParameters marker detach noBag i (ps.map fun p =>
        { kind := p.kind.toKoda, name := some p.name, default := p.default.getD marker }) =
      .ok (ps.map fun p => { p with default := p.default.map fun v => if detach then noBag v else v }) := by
  induction ps generalizing i with
  | nil => rfl
  | cons p ps ih =>
    rw [List.map_cons, readParameters]
    simp only
    rw [ofKoda_toKoda, ih (fun q hq => hm q (List.mem_cons_of_mem _ hq))]
    simp only [List.map_cons]
    congr 3
    cases hd : p.default with
    | none => simp
    | some v =>
      have : v ≠ marker := by
        rintro rfl
        exact hm p List.mem_cons_self hd
      simp [this]

/-- A signature reads back as it was stored, unless a default value is the marker that stands for
no default. With `detach` the default values lose their bags. -/
theorem C49_stored_signatures [DecidableEq V] (c : Cfg V) (marker : V) (noBag : V → V)
    (hrank : ∀ v, c.rank (noBag v) = c.rank v) (ps : List (Parameter V)) (s : Signature V)
    (hs : create c ps = .ok s) (hm : ∀ p ∈ ps, p.default ≠ some marker) :
    ofKoda c marker false noBag (toKoda marker s) = .ok s ∧
    ∃ t, ofKoda c marker true noBag (toKoda marker s) = .ok t ∧
      t.parameters = ps.map fun p => { p with default := p.default.map noBag } := by
  have hcre := create_ok hs
  have hst : s.parameters = ps := (C43_signatures c ps).2 s hs
  unfold ofKoda toKoda
  rw [hst]
  constructor
  · rw [readParameters_toKoda marker false noBag ps hm]
    have : (ps.map fun p : Parameter V =>
        ({ p with default := p.default.map fun v => if false = true then noBag v else v } :
          Parameter V)) = ps := by
      conv => rhs; rw [← List.map_id ps]
      apply List.map_congr_left
      intro p _
      cases p with
      | mk name kind default => cases default <;> rfl
    simp only [this, hs]
  · rw [readParameters_toKoda marker true noBag ps hm]
    have hv : PyValid c (ps.map fun p : Parameter V =>
        ({ p with default := p.default.map fun v => if true = true then noBag v else v } :
          Parameter V)) := by
      have hv := hcre.2.1
      have hget : ∀ (i : Nat) (q : Parameter V), (ps.map fun p : Parameter V =>
          ({ p with default := p.default.map fun v => if true = true then noBag v else v } :
            Parameter V))[i]? = some q → ∃ p, ps[i]? = some p ∧
            q = { p with default := p.default.map noBag } := by
        intro i q hq
        rw [List.getElem?_map] at hq
        cases hp : ps[i]? with
        | none => rw [hp] at hq; cases hq
        | some p =>
          rw [hp] at hq
          exact ⟨p, rfl, (Option.some.inj hq).symm⟩
      have hmem : ∀ q ∈ (ps.map fun p : Parameter V =>
          ({ p with default := p.default.map fun v => if true = true then noBag v else v } :
            Parameter V)), ∃ p ∈ ps, q = { p with default := p.default.map noBag } := by
        intro q hq
        obtain ⟨p, hp, rfl⟩ := List.mem_map.1 hq
        exact ⟨p, hp, rfl⟩
      refine ⟨?_, ?_, ?_, ?_, ?_, ?_⟩
      · have := hv.names
        rw [List.map_map]
        exact this
      · intro i j p q hi hj hij
        obtain ⟨p', hp', rfl⟩ := hget i p hi
        obtain ⟨q', hq', rfl⟩ := hget j q hj
        exact hv.order i j p' q' hp' hq' hij
      · intro i j p q hi hj
        obtain ⟨p', hp', rfl⟩ := hget i p hi
        obtain ⟨q', hq', rfl⟩ := hget j q hj
        exact hv.one i j p' q' hp' hq'
      · intro q hq hk
        obtain ⟨p, hp, rfl⟩ := hmem q hq
        simp only
        rw [hv.noDefault p hp hk]
        rfl
      · intro i j p q hi hj hij
        obtain ⟨p', hp', rfl⟩ := hget i p hi
        obtain ⟨q', hq', rfl⟩ := hget j q hj
        simp only [Option.isSome_map]
        exact hv.defaults i j p' q' hp' hq' hij
      · intro q hq v hqv
        obtain ⟨p, hp, rfl⟩ := hmem q hq
        simp only [Option.map_eq_some_iff] at hqv
        obtain ⟨w, hw, rfl⟩ := hqv
        rw [hrank]
        exact hv.items p hp w hw
    obtain ⟨t, ht⟩ := ((C43_signatures c _).1).2 hv
    refine ⟨t, ?_, ?_⟩
    · show (match create c _ with
        | .error e => Except.error (StoredError.invalid e)
        | .ok s => Except.ok s) = _
      rw [ht]
    · rw [(C43_signatures c _).2 t ht]
      rfl

theorem kind_of_koda (name : String) (kind : Kind) :
    Kind.ofKoda name = some kind ↔ kind.toKoda = name := by
  constructor
  · intro hk
    unfold Kind.ofKoda at hk
    repeat' split at hk
    all_goals first
      | (cases hk; rename_i h; exact h.symm)
      | cases hk
  · rintro rfl
    exact ofKoda_toKoda kind

theorem readParameters_ok [DecidableEq V] (marker : V) (detach : Bool) (noBag : V → V)
    (stored : List (StoredParameter V)) (i : Nat) (ps : List (Parameter V))
    (hr : readParameters marker detach noBag i stored = .ok ps) :
    ps.length = stored.length ∧ ∀ (j : Nat) (p : Parameter V) (x : StoredParameter V),
      ps[j]? = some p → stored[j]? = some x → Stands marker detach noBag x p := by
  induction stored generalizing ps i with
  | nil =>
    cases hr
    exact ⟨rfl, fun j p x hj => by cases hj⟩
  | cons x xs ih =>
    rw [readParameters] at hr
    cases hn : x.name with
    | none => rw [hn] at hr; cases hr
    | some name =>
      rw [hn] at hr
      simp only at hr
      cases hk : Kind.ofKoda x.kind with
      | none => rw [hk] at hr; cases hr
      | some kind =>
        rw [hk] at hr
        simp only at hr
        cases hrest : readParameters marker detach noBag (i + 1) xs with
        | error e => rw [hrest] at hr; cases hr
        | ok rest =>
          rw [hrest] at hr
          cases hr
          obtain ⟨h1, h2⟩ := ih (i + 1) rest hrest
          refine ⟨by simp [h1], ?_⟩
          intro j p y hj hy
          cases j with
          | succ j => exact h2 j p y hj hy
          | zero =>
            cases hj
            cases hy
            refine ⟨hn, (kind_of_koda _ _).1 hk, ?_, ?_⟩
            · intro hm
              rw [if_pos hm]
            · intro hm
              rw [if_neg hm]
              cases detach <;> rfl

/-- What is read from a store is a valid signature, with the stored names, kinds and defaults. -/
theorem C49_read_signatures [DecidableEq V] (c : Cfg V) (marker : V) (detach : Bool) (noBag : V → V)
    (stored : List (StoredParameter V)) (s : Signature V)
    (h : ofKoda c marker detach noBag stored = .ok s) :
    PyValid c s.parameters ∧ s.parameters.length = stored.length ∧
    ∀ (j : Nat) (p : Parameter V) (x : StoredParameter V),
      s.parameters[j]? = some p → stored[j]? = some x → Stands marker detach noBag x p := by
  unfold ofKoda at h
  cases hr : readParameters marker detach noBag 0 stored with
  | error e => rw [hr] at h; cases h
  | ok ps =>
    rw [hr] at h
    simp only at h
    cases hc : create c ps with
    | error e => rw [hc] at h; cases h
    | ok s' =>
      rw [hc] at h
      cases h
      rw [(C43_signatures c ps).2 s hc]
      exact ⟨(create_ok hc).2.1, readParameters_ok marker detach noBag stored 0 ps hr⟩

theorem readParameters_error [DecidableEq V] (marker : V) (detach : Bool) (noBag : V → V)
    (stored : List (StoredParameter V)) (i : Nat) (e : StoredError)
    (hr : readParameters marker detach noBag i stored = .error e) :
    (∃ (j : Nat) (x : StoredParameter V), stored[j]? = some x ∧ x.name = none ∧
      e = .noName (i + j)) ∨
    ∃ x ∈ stored, (∀ k : Kind, k.toKoda ≠ x.kind) ∧ e = .unknownKind x.kind := by
  induction stored generalizing i with
  | nil => cases hr
  | cons x xs ih =>
    rw [readParameters] at hr
    cases hn : x.name with
    | none =>
      rw [hn] at hr
      cases hr
      exact .inl ⟨0, x, rfl, hn, rfl⟩
    | some name =>
      rw [hn] at hr
      simp only at hr
      cases hk : Kind.ofKoda x.kind with
      | none =>
        rw [hk] at hr
        cases hr
        refine .inr ⟨x, by simp, ?_, rfl⟩
        intro k hkk
        rw [(kind_of_koda _ _).2 hkk] at hk
        cases hk
      | some kind =>
        rw [hk] at hr
        simp only at hr
        cases hrest : readParameters marker detach noBag (i + 1) xs with
        | ok rest => rw [hrest] at hr; cases hr
        | error e' =>
          rw [hrest] at hr
          cases hr
          rcases ih (i + 1) hrest with ⟨j, y, hj, hy, he⟩ | ⟨y, hy, hrest⟩
          · exact .inl ⟨j + 1, y, hj, hy, by rw [he]; congr 1; omega⟩
          · exact .inr ⟨y, List.mem_cons_of_mem _ hy, hrest⟩

/-- A stored signature is rejected for a parameter without a name, for an unknown kind, or because
its parameters are not a signature. -/
theorem C49_errors [DecidableEq V] (c : Cfg V) (marker : V) (detach : Bool) (noBag : V → V)
    (stored : List (StoredParameter V)) (e : StoredError)
    (h : ofKoda c marker detach noBag stored = .error e) :
    (∃ (j : Nat) (x : StoredParameter V), stored[j]? = some x ∧ x.name = none ∧ e = .noName j) ∨
    (∃ x ∈ stored, (∀ k : Kind, k.toKoda ≠ x.kind) ∧ e = .unknownKind x.kind) ∨
    ∃ (ps : List (Parameter V)) (e' : CreateError), e = .invalid e' ∧ ps.length = stored.length ∧
      (∀ (j : Nat) (p : Parameter V) (x : StoredParameter V),
        ps[j]? = some p → stored[j]? = some x → Stands marker detach noBag x p) ∧
      WrongSignature c ps e' := by
  unfold ofKoda at h
  cases hr : readParameters marker detach noBag 0 stored with
  | error e' =>
    rw [hr] at h
    cases h
    rcases readParameters_error marker detach noBag stored 0 e hr with ⟨j, y, hj, hy, he⟩ | h
    · exact .inl ⟨j, y, hj, hy, by rw [he, Nat.zero_add]⟩
    · exact .inr (.inl h)
  | ok ps =>
    rw [hr] at h
    simp only at h
    cases hc : create c ps with
    | ok s' => rw [hc] at h; cases h
    | error e' =>
      rw [hc] at h
      cases h
      obtain ⟨h1, h2⟩ := readParameters_ok marker detach noBag stored 0 ps hr
      exact .inr (.inr ⟨ps, e', rfl, h1, h2, C43_signature_errors c ps e' hc⟩)

/-! ### Concrete signatures and calls -/

/-- Values are numbers; those from 1000 on are not items; the bag of the functor adds 500. -/
def exampleCfg : Cfg Nat := { rank := fun v => v / 1000, withBag := fun v => v + 500 }

/-- `def f(a, /, b, c=7, *args, d, e=8, **kwargs)` -/
def exampleParameters : List (Parameter Nat) :=
  [{ name := "a", kind := .positionalOnly }, { name := "b", kind := .positionalOrKeyword },
    { name := "c", kind := .positionalOrKeyword, default := some 7 },
    { name := "args", kind := .varPositional }, { name := "d", kind := .keywordOnly },
    { name := "e", kind := .keywordOnly, default := some 8 },
    { name := "kwargs", kind := .varKeyword }]

def exampleSignature : Signature Nat :=
  ⟨exampleParameters, [("e", 5), ("d", 4), ("c", 2), ("b", 1)]⟩

deriving instance DecidableEq for Parameter, Bound, Signature

deriving instance DecidableEq for Except

example : create exampleCfg exampleParameters = .ok exampleSignature := by decide +kernel

example : PyValid exampleCfg exampleParameters :=
  ((C43_signatures exampleCfg exampleParameters).1).1 ⟨exampleSignature, by decide +kernel⟩

example : create exampleCfg [⟨"a", .positionalOnly, some 1⟩, ⟨"b", .positionalOnly, none⟩] =
    .error (.noDefaultAfterDefault "b" "a") := by decide +kernel

example : create exampleCfg [⟨"a", .positionalOnly, none⟩, ⟨"b", .keywordOnly, none⟩,
    ⟨"c", .varPositional, none⟩] =
    .error (.wrongOrder .varPositional "c" .keywordOnly "b") := by decide +kernel

/-- `f(1, 2, d=3, a=4)`: `a` is positional only, so the keyword goes to `kwargs`. -/
example : bindArguments exampleCfg exampleSignature [1, 2, 3, 4] ["d", "a"] =
    .ok [.value 1, .value 2, .value 507, .tuple [], .value 3, .value 508, .named [("a", 4)]] := by
  decide +kernel

/-- `f(1, 2, 3, 4, 5, d=6)` -/
example : bindArguments exampleCfg exampleSignature [1, 2, 3, 4, 5, 6] ["d"] =
    .ok [.value 1, .value 2, .value 3, .tuple [4, 5], .value 6, .value 508, .named []] := by
  decide +kernel

example : bindArguments exampleCfg exampleSignature [1, 2, 3, 4] ["d", "b"] =
    .error (.specifiedTwice "b") := by decide +kernel

example : bindArguments exampleCfg exampleSignature [1, 2, 3] ["b", "c"] =
    .error (.noValue .keywordOnly "d") := by decide +kernel

example : bindArguments exampleCfg exampleSignature [1, 2, 3, 4, 5] ["d", "x", "x"] =
    .error .duplicateField := by decide +kernel

example : create exampleCfg (defaultParameters 0 ["x", "self", "y"]) =
    .ok ⟨defaultParameters 0 ["x", "self", "y"], [("y", 2), ("x", 1)]⟩ := by decide +kernel

/-- A default value that is the marker is lost. -/
example : (ofKoda exampleCfg 9 false id (toKoda 9
    ⟨[⟨"a", .keywordOnly, some 9⟩], [("a", 0)]⟩)) =
    .ok ⟨[⟨"a", .keywordOnly, none⟩], [("a", 0)]⟩ := by
  decide +kernel

example : ofKoda exampleCfg 9 false id (toKoda 9 exampleSignature) = .ok exampleSignature := by
  decide +kernel

example : ofKoda exampleCfg 9 false id [⟨"keyword_only", some "a", 9⟩, ⟨"keyword", some "b", 9⟩] =
    .error (.unknownKind "keyword") := by decide +kernel

end Verif.Binding
