import Verif.Binding.Spec

namespace Verif.Binding

set_option linter.unusedSectionVars false

variable {V : Type}

/-! ### Creation of signatures -/

theorem place_eq (k : Kind) : k.place = k.toNat := by
  cases k <;> decide

theorem checkDefault_none (c : Cfg V) (p : Parameter V) : checkDefault c p = none ↔
    (p.kind = .varPositional ∨ p.kind = .varKeyword → p.default = none) ∧
    ∀ v, p.default = some v → c.rank v = 0 := by
  unfold checkDefault
  cases hd : p.default with
  | none => simp
  | some v =>
    simp only
    by_cases hk : p.kind = .varPositional ∨ p.kind = .varKeyword
    · rw [if_pos hk]
      simp [hk]
    · rw [if_neg hk]
      by_cases hr : c.rank v = 0
      · simp [hr, hk]
      · simp [hr]

theorem checkSingle_none (c : Cfg V) (names : List String) (ps : List (Parameter V)) :
    checkSingle c names ps = none ↔
      (∀ p ∈ ps, p.name ∉ names) ∧ (ps.map Parameter.name).Nodup ∧
      ∀ p ∈ ps, checkDefault c p = none := by
  induction ps generalizing names with
  | nil => simp [checkSingle]
  | cons p ps ih =>
    unfold checkSingle
    by_cases hn : p.name ∈ names
    · rw [if_pos hn]
      constructor
      · intro h; cases h
      · intro h
        exact absurd hn (h.1 p List.mem_cons_self)
    · rw [if_neg hn]
      cases hd : checkDefault c p with
      | some e =>
        simp only
        constructor
        · intro h; cases h
        · intro h
          have := h.2.2 p List.mem_cons_self
          rw [hd] at this
          cases this
      | none =>
        simp only
        rw [ih, List.map_cons, List.nodup_cons]
        simp only [List.mem_cons, forall_eq_or_imp, not_or]
        constructor
        · rintro ⟨h1, h2, h3⟩
          refine ⟨⟨hn, fun q hq => (h1 q hq).2⟩, ⟨?_, h2⟩, hd, h3⟩
          intro hm
          obtain ⟨q, hq, e⟩ := List.mem_map.1 hm
          exact (h1 q hq).1 e
        · rintro ⟨⟨_, h1⟩, ⟨h2, h3⟩, _, h4⟩
          refine ⟨fun q hq => ⟨?_, h1 q hq⟩, h3, h4⟩
          intro e
          exact h2 (e ▸ List.mem_map_of_mem hq)

/-- What holds for two parameters of a valid signature. -/
def Ordered (p q : Parameter V) : Prop :=
  p.kind.toNat ≤ q.kind.toNat ∧
  ¬ (p.kind = q.kind ∧ (p.kind = .varPositional ∨ p.kind = .varKeyword)) ∧
  (q.positional = true → p.default.isSome = true → q.default.isSome = true)

theorem checkPair_none (p q : Parameter V) : checkPair p q = none ↔ Ordered p q := by
  unfold checkPair Ordered
  by_cases h1 : p.kind.toNat > q.kind.toNat
  · rw [if_pos h1]
    constructor
    · intro h; cases h
    · intro h
      omega
  · rw [if_neg h1]
    by_cases h2 : p.kind = q.kind ∧ (p.kind = .varPositional ∨ p.kind = .varKeyword)
    · rw [if_pos h2]
      constructor
      · intro h; cases h
      · intro h
        exact absurd h2 h.2.1
    · rw [if_neg h2]
      have hpos : q.positional = true ↔
          (q.kind = .positionalOnly ∨ q.kind = .positionalOrKeyword) := by
        simp [Parameter.positional]
      rw [hpos]
      split
      · rename_i h3
        constructor
        · intro h; cases h
        · intro h
          have := h.2.2 h3.1 h3.2.2
          rw [← Option.not_isSome] at h3
          rw [this] at h3
          exact absurd h3.2.1 (by simp)
      · rename_i h3
        refine ⟨fun _ => ⟨by omega, h2, fun ha hb => ?_⟩, fun _ => rfl⟩
        cases hq : q.default with
        | some v => rfl
        | none => exact absurd ⟨ha, by rw [hq]; rfl, hb⟩ h3

theorem kind_toNat_inj {a b : Kind} (h : a.toNat = b.toNat) : a = b := by
  cases a <;> cases b <;> first | rfl | cases h

theorem positional_iff (p : Parameter V) : p.positional = true ↔ p.kind.toNat ≤ 1 := by
  unfold Parameter.positional
  cases p.kind <;> simp [Kind.toNat]

theorem ordered_trans {p q r : Parameter V} (h1 : Ordered p q) (h2 : Ordered q r) : Ordered p r := by
  refine ⟨Nat.le_trans h1.1 h2.1, ?_, ?_⟩
  · rintro ⟨he, hv⟩
    have hle := h2.1
    rw [← he] at hle
    have : p.kind = q.kind := kind_toNat_inj (Nat.le_antisymm h1.1 hle)
    exact h1.2.1 ⟨this, hv⟩
  · intro hr hp
    apply h2.2.2 hr
    apply h1.2.2 _ hp
    rw [positional_iff] at hr ⊢
    exact Nat.le_trans h2.1 hr

theorem checkPairs_none (ps : List (Parameter V)) :
    checkPairs ps = none ↔ ps.Pairwise Ordered := by
  induction ps with
  | nil => simp [checkPairs]
  | cons p ps ih =>
    cases ps with
    | nil => simp [checkPairs]
    | cons q ps =>
      rw [checkPairs, List.pairwise_cons, ← ih]
      cases hc : checkPair p q with
      | some e =>
        simp only
        constructor
        · intro h; cases h
        · intro h
          have := (checkPair_none p q).2 (h.1 q List.mem_cons_self)
          rw [hc] at this
          cases this
      | none =>
        simp only
        constructor
        · intro h
          refine ⟨?_, h⟩
          have hpq := (checkPair_none p q).1 hc
          intro r hr
          rcases List.mem_cons.1 hr with rfl | hr
          · exact hpq
          · rw [ih, List.pairwise_cons] at h
            exact ordered_trans hpq (h.1 r hr)
        · exact fun h => h.2

theorem pairwise_get {α : Type} {R : α → α → Prop} {l : List α} (h : l.Pairwise R) {i j : Nat}
    {a b : α} (ha : l[i]? = some a) (hb : l[j]? = some b) (hij : i < j) : R a b := by
  obtain ⟨hi, rfl⟩ := List.getElem?_eq_some_iff.1 ha
  obtain ⟨hj, rfl⟩ := List.getElem?_eq_some_iff.1 hb
  exact List.pairwise_iff_getElem.1 h i j hi hj hij

theorem pairwise_of_get {α : Type} {R : α → α → Prop} {l : List α}
    (h : ∀ (i j : Nat) (a b : α), l[i]? = some a → l[j]? = some b → i < j → R a b) :
    l.Pairwise R := by
  rw [List.pairwise_iff_getElem]
  intro i j hi hj hij
  exact h i j _ _ (List.getElem?_eq_getElem hi) (List.getElem?_eq_getElem hj) hij

theorem valid_iff (c : Cfg V) (ps : List (Parameter V)) :
    PyValid c ps ↔ checkSingle c [] ps = none ∧ checkPairs ps = none := by
  rw [checkSingle_none, checkPairs_none]
  simp only [checkDefault_none]
  constructor
  · intro h
    refine ⟨⟨by simp, h.names, fun p hp => ⟨h.noDefault p hp, h.items p hp⟩⟩, ?_⟩
    apply pairwise_of_get
    intro i j p q hi hj hij
    refine ⟨by rw [← place_eq, ← place_eq]; exact h.order i j p q hi hj hij, ?_, h.defaults i j p q hi hj hij⟩
    rintro ⟨he, hv⟩
    have := h.one i j p q hi hj he hv
    omega
  · rintro ⟨⟨_, h1, h2⟩, h3⟩
    refine ⟨h1, fun i j p q hi hj hij => by
      rw [place_eq, place_eq]; exact (pairwise_get h3 hi hj hij).1, ?_,
      fun p hp => (h2 p hp).1, fun i j p q hi hj hij => (pairwise_get h3 hi hj hij).2.2,
      fun p hp => (h2 p hp).2⟩
    intro i j p q hi hj he hv
    rcases Nat.lt_trichotomy i j with hij | hij | hij
    · exact absurd ⟨he, hv⟩ (pairwise_get h3 hi hj hij).2.1
    · exact hij
    · exact absurd ⟨he.symm, he ▸ hv⟩ (pairwise_get h3 hj hi hij).2.1

/-! ### The keyword index -/

theorem buildIndex_lookup (ps : List (Parameter V)) (i : Nat) (index : List (String × Nat))
    (name : String) (hn : (ps.map Parameter.name).Nodup) :
    (buildIndex i index ps).lookup name =
      (((ps.zipIdx i).find? fun e => e.1.keyword && e.1.name == name).map Prod.snd).or
        (index.lookup name) := by
  induction ps generalizing i index with
  | nil => simp [buildIndex]
  | cons p ps ih =>
    rw [List.map_cons, List.nodup_cons] at hn
    rw [buildIndex, ih _ _ hn.2, List.zipIdx_cons, List.find?_cons]
    have hkw : (p.kind = .keywordOnly ∨ p.kind = .positionalOrKeyword) ↔ p.keyword = true := by
      unfold Parameter.keyword
      cases p.kind <;> simp
    by_cases hk : p.keyword = true
    · rw [if_pos (hkw.2 hk)]
      by_cases he : p.name = name
      · subst he
        have hnone : ((ps.zipIdx (i + 1)).find? fun e => e.1.keyword && e.1.name == p.name) = none := by
          rw [List.find?_eq_none]
          intro e he
          have hm : e.1 ∈ ps := List.fst_mem_of_mem_zipIdx he
          have : e.1.name ≠ p.name := fun e' => hn.1 (e' ▸ List.mem_map_of_mem hm)
          simp [this]
        rw [hnone]
        simp [hk]
      · have h1 : (name == p.name) = false := by
          rw [beq_eq_false_iff_ne]
          exact fun e => he e.symm
        have h2 : (p.name == name) = false := by
          rw [beq_eq_false_iff_ne]
          exact he
        simp only [List.lookup_cons, h1, h2, Bool.and_false]
    · rw [if_neg (fun h => hk (hkw.1 h))]
      have : p.keyword = false := by simpa using hk
      simp only [this, Bool.false_and]

theorem index_some (ps : List (Parameter V)) (hn : (ps.map Parameter.name).Nodup) (name : String)
    (i : Nat) : (buildIndex 0 [] ps).lookup name = some i ↔
      ∃ p, ps[i]? = some p ∧ p.keyword = true ∧ p.name = name := by
  rw [buildIndex_lookup ps 0 [] name hn]
  simp only [List.lookup_nil, Option.or_none, Option.map_eq_some_iff]
  constructor
  · rintro ⟨⟨p, j⟩, h, rfl⟩
    have hm := List.mem_of_find?_eq_some h
    have hp := List.find?_some h
    simp only [Bool.and_eq_true, beq_iff_eq] at hp
    rw [List.mem_zipIdx_iff_getElem?] at hm
    exact ⟨p, hm, hp.1, hp.2⟩
  · rintro ⟨p, hi, hk, he⟩
    cases hf : (ps.zipIdx 0).find? fun e => e.1.keyword && e.1.name == name with
    | none =>
      rw [List.find?_eq_none] at hf
      have := hf (p, i) (by rw [List.mem_zipIdx_iff_getElem?]; exact hi)
      simp [hk, he] at this
    | some e =>
      obtain ⟨q, j⟩ := e
      have hm := List.mem_of_find?_eq_some hf
      have hp := List.find?_some hf
      simp only [Bool.and_eq_true, beq_iff_eq] at hp
      rw [List.mem_zipIdx_iff_getElem?] at hm
      refine ⟨(q, j), rfl, ?_⟩
      have hi' : i < (ps.map Parameter.name).length := by
        rw [List.length_map]
        exact (List.getElem?_eq_some_iff.1 hi).1
      have hj' : (ps.map Parameter.name)[j]? = (ps.map Parameter.name)[i]? := by
        rw [List.getElem?_map, List.getElem?_map, hi]
        simp only at hm
        rw [hm]
        simp [hp.2, he]
      exact ((List.getElem?_inj hi' hn).1 hj'.symm).symm

theorem takes_iff (ps : List (Parameter V)) (name : String) :
    takes ps name = true ↔ ∃ (i : Nat) (p : Parameter V), ps[i]? = some p ∧ p.keyword = true ∧
      p.name = name := by
  unfold takes
  rw [List.any_eq_true]
  constructor
  · rintro ⟨p, hp, h⟩
    obtain ⟨i, hi⟩ := List.getElem?_of_mem hp
    simp only [Bool.and_eq_true, beq_iff_eq] at h
    exact ⟨i, p, hi, h.1, h.2⟩
  · rintro ⟨i, p, hi, h1, h2⟩
    exact ⟨p, List.mem_of_getElem? hi, by simp [h1, h2]⟩

theorem index_none (ps : List (Parameter V)) (hn : (ps.map Parameter.name).Nodup) (name : String) :
    (buildIndex 0 [] ps).lookup name = none ↔ takes ps name = false := by
  constructor
  · intro h
    rw [← Bool.not_eq_true, takes_iff]
    rintro ⟨i, p, hi⟩
    rw [(index_some ps hn name i).2 ⟨p, hi⟩] at h
    cases h
  · intro h
    cases hl : (buildIndex 0 [] ps).lookup name with
    | none => rfl
    | some i =>
      obtain ⟨p, hp⟩ := (index_some ps hn name i).1 hl
      rw [(takes_iff ps name).2 ⟨i, p, hp⟩] at h
      cases h

/-! ### Positional arguments -/

/-- In a valid signature the parameters with slots come first. -/
theorem positional_prefix (ps : List (Parameter V)) (h : ps.Pairwise Ordered) (i : Nat)
    (p : Parameter V) (hi : ps[i]? = some p) : p.positional = true ↔ i < slots ps := by
  induction ps generalizing i with
  | nil => cases hi
  | cons q ps ih =>
    rw [List.pairwise_cons] at h
    unfold slots
    rw [List.filter_cons]
    by_cases hq : q.positional = true
    · rw [if_pos hq, List.length_cons]
      cases i with
      | zero =>
        cases hi
        simp [hq]
      | succ i =>
        rw [ih h.2 i hi]
        unfold slots
        omega
    · rw [if_neg hq]
      have hall : ∀ r ∈ ps, r.positional = false := by
        intro r hr
        rw [← Bool.not_eq_true, positional_iff]
        rw [positional_iff] at hq
        have := (h.1 r hr).1
        omega
      have hnil : (ps.filter Parameter.positional) = [] := by
        rw [List.filter_eq_nil_iff]
        intro r hr
        rw [hall r hr]
        simp
      rw [hnil]
      cases i with
      | zero =>
        cases hi
        simp [hq]
      | succ i =>
        simp [hall p (List.mem_of_getElem? hi)]

theorem slots_le (ps : List (Parameter V)) : slots ps ≤ ps.length := List.length_filter_le _ _

theorem set_get {α : Type} (l : List α) (i j : Nat) (a : α) (hi : i < l.length) :
    (l.set i a)[j]? = if j = i then some a else l[j]? := by
  rw [List.getElem?_set]
  by_cases h : i = j
  · subst h
    simp [hi]
  · rw [if_neg h, if_neg (fun e => h e.symm)]

theorem bindPositional_eq (ps : List (Parameter V)) (h : ps.Pairwise Ordered) (i : Nat) (arg : V)
    (st : State V) : bindPositional ps i arg st =
      if i < slots ps then { st with bound := st.bound.set i (some (.value arg)) }
      else { st with unknownArgs := st.unknownArgs ++ [arg] } := by
  unfold bindPositional
  cases hp : ps[i]? with
  | none =>
    have h1 := List.getElem?_eq_none_iff.1 hp
    have h2 := slots_le ps
    rw [if_neg (by omega)]
  | some p =>
    have hpos := positional_prefix ps h i p hp
    have hkind : (p.kind ≠ .positionalOnly ∧ p.kind ≠ .positionalOrKeyword) ↔ ¬ i < slots ps := by
      rw [← hpos]
      unfold Parameter.positional
      cases p.kind <;> simp
    simp only
    by_cases hlt : i < slots ps
    · rw [if_pos hlt, if_neg (fun e => (hkind.1 e) hlt)]
    · rw [if_neg hlt, if_pos (hkind.2 hlt)]

theorem bindPositionals_spec (ps : List (Parameter V)) (h : ps.Pairwise Ordered) (args : List V)
    (i : Nat) (st : State V) (hl : st.bound.length = ps.length) :
    let r := bindPositionals ps i args st
    r.bound.length = ps.length ∧
    (∀ j : Nat, r.bound[j]? =
      if i ≤ j ∧ j < i + args.length ∧ j < slots ps then (args[j - i]?).map fun v => some (.value v)
      else st.bound[j]?) ∧
    r.unknownArgs = st.unknownArgs ++ args.drop (slots ps - i) ∧
    r.unknownKwargs = st.unknownKwargs := by
  induction args generalizing i st with
  | nil =>
    refine ⟨hl, fun j => ?_, by simp [bindPositionals], rfl⟩
    rw [if_neg (by simp only [List.length_nil]; omega)]
    rfl
  | cons a args ih =>
    rw [bindPositionals, bindPositional_eq ps h]
    by_cases hlt : i < slots ps
    · rw [if_pos hlt]
      have hsl := slots_le ps
      obtain ⟨h1, h2, h3, h4⟩ := ih (i + 1)
        { st with bound := st.bound.set i (some (.value a)) } (by simp [hl])
      refine ⟨h1, ?_, ?_, h4⟩
      · intro j
        rw [h2 j]
        simp only [List.length_cons]
        by_cases hj : i + 1 ≤ j ∧ j < i + 1 + args.length ∧ j < slots ps
        · rw [if_pos hj, if_pos (by omega)]
          have : j - i = (j - (i + 1)) + 1 := by omega
          rw [this, List.getElem?_cons_succ]
        · rw [if_neg hj, set_get _ _ _ _ (by omega)]
          by_cases hji : j = i
          · subst hji
            rw [if_pos rfl, if_pos (by omega)]
            simp
          · rw [if_neg hji, if_neg (by omega)]
      · rw [h3]
        have : slots ps - i = (slots ps - (i + 1)) + 1 := by omega
        rw [this, List.drop_succ_cons]
    · rw [if_neg hlt]
      obtain ⟨h1, h2, h3, h4⟩ := ih (i + 1)
        { st with unknownArgs := st.unknownArgs ++ [a] } hl
      refine ⟨h1, ?_, ?_, h4⟩
      · intro j
        rw [h2 j, if_neg (by omega), if_neg (by omega)]
      · rw [h3]
        have e1 : slots ps - i = 0 := by omega
        have e2 : slots ps - (i + 1) = 0 := by omega
        rw [e1, e2]
        simp

/-! ### Keyword arguments -/

/-- The arguments with a name. -/
def named (kw : List (String × V)) (name : String) : List (String × V) :=
  kw.filter fun e => e.1 == name

theorem bindKeywords_ok (ps : List (Parameter V)) (hn : (ps.map Parameter.name).Nodup)
    (kw : List (String × V)) (st st' : State V) (hl : st.bound.length = ps.length)
    (h : bindKeywords (buildIndex 0 [] ps) kw st = .ok st') :
    st'.bound.length = ps.length ∧
    (∀ (j : Nat) (p : Parameter V), ps[j]? = some p → p.keyword = true →
      (named kw p.name = [] ∧ st'.bound[j]? = st.bound[j]?) ∨
      (∃ v, named kw p.name = [(p.name, v)] ∧ st.bound[j]? = some none ∧
        st'.bound[j]? = some (some (.value v)))) ∧
    (∀ (j : Nat) (p : Parameter V), ps[j]? = some p → p.keyword = false →
      st'.bound[j]? = st.bound[j]?) ∧
    st'.unknownArgs = st.unknownArgs ∧
    st'.unknownKwargs = st.unknownKwargs ++ kw.filter fun e => !takes ps e.1 := by
  induction kw generalizing st with
  | nil =>
    cases h
    exact ⟨hl, fun j p _ _ => .inl ⟨rfl, rfl⟩, fun _ _ _ _ => rfl, rfl, by simp⟩
  | cons e kw ih =>
    obtain ⟨name, value⟩ := e
    rw [bindKeywords] at h
    cases hi : (buildIndex 0 [] ps).lookup name with
    | none =>
      rw [hi] at h
      simp only at h
      have ht := (index_none ps hn name).1 hi
      obtain ⟨h1, h2, h3, h4, h5⟩ :=
        ih { st with unknownKwargs := st.unknownKwargs ++ [(name, value)] } hl h
      refine ⟨h1, ?_, h3, h4, ?_⟩
      · intro j p hj hk
        have hne : name ≠ p.name := by
          rintro rfl
          rw [(takes_iff ps p.name).2 ⟨j, p, hj, hk, rfl⟩] at ht
          cases ht
        have : named ((name, value) :: kw) p.name = named kw p.name := by
          unfold named
          rw [List.filter_cons, if_neg (by simpa using hne)]
        rw [this]
        exact h2 j p hj hk
      · rw [h5, List.filter_cons]
        simp [ht]
    | some i =>
      rw [hi] at h
      simp only at h
      obtain ⟨q, hq, hqk, hqn⟩ := (index_some ps hn name i).1 hi
      have hilt : i < st.bound.length := by
        rw [hl]
        exact (List.getElem?_eq_some_iff.1 hq).1
      cases hb : st.bound[i]? with
      | none => rw [hb] at h; cases h
      | some o =>
        rw [hb] at h
        cases o with
        | some b => cases h
        | none =>
          simp only at h
          obtain ⟨h1, h2, h3, h4, h5⟩ :=
            ih { st with bound := st.bound.set i (some (.value value)) } (by simp [hl]) h
          refine ⟨h1, ?_, ?_, h4, ?_⟩
          · intro j p hj hk
            by_cases hji : j = i
            · subst hji
              rw [hq] at hj
              cases hj
              rcases h2 j q hq hqk with ⟨g1, g2⟩ | ⟨v, _, g2, _⟩
              · right
                refine ⟨value, ?_, hb, ?_⟩
                · unfold named at g1 ⊢
                  rw [List.filter_cons, if_pos (by simp [hqn]), g1, hqn]
                · rw [g2, set_get _ _ _ _ hilt, if_pos rfl]
              · simp only [set_get _ _ _ _ hilt, if_true] at g2
                cases g2
            · have hne : name ≠ p.name := by
                intro e
                apply hji
                have := (index_some ps hn name j).2 ⟨p, hj, hk, e.symm⟩
                rw [hi] at this
                cases this
                rfl
              have : named ((name, value) :: kw) p.name = named kw p.name := by
                unfold named
                rw [List.filter_cons, if_neg (by simpa using hne)]
              rw [this]
              have hset : (st.bound.set i (some (.value value)))[j]? = st.bound[j]? := by
                rw [set_get _ _ _ _ hilt, if_neg hji]
              have := h2 j p hj hk
              simp only [hset] at this
              exact this
          · intro j p hj hk
            rw [h3 j p hj hk]
            simp only [set_get _ _ _ _ hilt]
            rw [if_neg]
            rintro rfl
            rw [hq] at hj
            cases hj
            rw [hqk] at hk
            cases hk
          · rw [h5, List.filter_cons]
            have : takes ps name = true := (takes_iff ps name).2 ⟨i, q, hq, hqk, hqn⟩
            simp [this]

theorem bindKeywords_error (ps : List (Parameter V)) (hn : (ps.map Parameter.name).Nodup)
    (kw : List (String × V)) (st : State V) (e : BindError) (hl : st.bound.length = ps.length)
    (h : bindKeywords (buildIndex 0 [] ps) kw st = .error e) :
    ∃ (j : Nat) (p : Parameter V), ps[j]? = some p ∧ p.keyword = true ∧ e = .specifiedTwice p.name ∧
      ((∃ b, st.bound[j]? = some (some b) ∧ named kw p.name ≠ []) ∨
        2 ≤ (named kw p.name).length) := by
  induction kw generalizing st with
  | nil => cases h
  | cons x kw ih =>
    obtain ⟨name, value⟩ := x
    rw [bindKeywords] at h
    have hcons : ∀ p : Parameter V, named ((name, value) :: kw) p.name =
        if name = p.name then (name, value) :: named kw p.name else named kw p.name := by
      intro p
      unfold named
      rw [List.filter_cons]
      simp
    cases hi : (buildIndex 0 [] ps).lookup name with
    | none =>
      rw [hi] at h
      simp only at h
      have ht := (index_none ps hn name).1 hi
      obtain ⟨j, p, hj, hk, he, hor⟩ :=
        ih { st with unknownKwargs := st.unknownKwargs ++ [(name, value)] } hl h
      refine ⟨j, p, hj, hk, he, ?_⟩
      have hne : name ≠ p.name := by
        rintro rfl
        rw [(takes_iff ps p.name).2 ⟨j, p, hj, hk, rfl⟩] at ht
        cases ht
      rw [hcons, if_neg hne]
      exact hor
    | some i =>
      rw [hi] at h
      simp only at h
      obtain ⟨q, hq, hqk, hqn⟩ := (index_some ps hn name i).1 hi
      have hilt : i < st.bound.length := by
        rw [hl]
        exact (List.getElem?_eq_some_iff.1 hq).1
      cases hb : st.bound[i]? with
      | none =>
        rw [List.getElem?_eq_getElem hilt] at hb
        cases hb
      | some o =>
        rw [hb] at h
        cases o with
        | some b =>
          cases h
          refine ⟨i, q, hq, hqk, by rw [hqn], .inl ⟨b, hb, ?_⟩⟩
          rw [hcons, if_pos hqn.symm]
          simp
        | none =>
          simp only at h
          obtain ⟨j, p, hj, hk, he, hor⟩ :=
            ih { st with bound := st.bound.set i (some (.value value)) } (by simp [hl]) h
          refine ⟨j, p, hj, hk, he, ?_⟩
          by_cases hji : j = i
          · subst hji
            rw [hq] at hj
            cases hj
            right
            rw [hcons, if_pos hqn.symm, List.length_cons]
            rcases hor with ⟨b, _, hne⟩ | hlen
            · have := List.length_pos_iff.2 hne
              omega
            · omega
          · have hne : name ≠ p.name := by
              intro e
              apply hji
              have := (index_some ps hn name j).2 ⟨p, hj, hk, e.symm⟩
              rw [hi] at this
              cases this
              rfl
            rw [hcons, if_neg hne]
            simp only [set_get _ _ _ _ hilt, if_neg hji] at hor
            exact hor

/-! ### Variadic parameters -/

theorem bindVariadics_ok (ps : List (Parameter V)) (i : Nat) (st st' : State V)
    (hl : i + ps.length = st.bound.length) (hp : ps.Pairwise Ordered)
    (h : bindVariadics i ps st = .ok st') :
    st'.bound.length = st.bound.length ∧
    (∀ j : Nat, j < i → st'.bound[j]? = st.bound[j]?) ∧
    (∀ (j : Nat) (p : Parameter V), ps[j]? = some p → st'.bound[i + j]? =
      if p.kind = .varPositional then some (some (.tuple st.unknownArgs))
      else if p.kind = .varKeyword then some (some (.named st.unknownKwargs))
      else st.bound[i + j]?) ∧
    ((∃ p ∈ ps, p.kind = .varPositional) ∧ st'.unknownArgs = [] ∨
      (∀ p ∈ ps, p.kind ≠ .varPositional) ∧ st'.unknownArgs = st.unknownArgs) ∧
    ((∃ p ∈ ps, p.kind = .varKeyword) ∧ (st.unknownKwargs.map Prod.fst).Nodup ∧
        st'.unknownKwargs = [] ∨
      (∀ p ∈ ps, p.kind ≠ .varKeyword) ∧ st'.unknownKwargs = st.unknownKwargs) := by
  induction ps generalizing i st with
  | nil =>
    cases h
    refine ⟨rfl, fun _ _ => rfl, ?_, .inr ⟨by simp, rfl⟩, .inr ⟨by simp, rfl⟩⟩
    intro j p hj
    simp at hj
  | cons q ps ih =>
    rw [List.pairwise_cons] at hp
    rw [List.length_cons] at hl
    have hilt : i < st.bound.length := by omega
    rw [bindVariadics] at h
    by_cases hvp : q.kind = .varPositional
    · rw [if_pos hvp] at h
      obtain ⟨h1, h2, h3, h4, h5⟩ := ih (i + 1)
        { st with bound := st.bound.set i (some (.tuple st.unknownArgs)), unknownArgs := [] }
        (by simp only [List.length_set]; omega) hp.2 h
      have hno : ∀ p ∈ ps, p.kind ≠ .varPositional := by
        intro p hpm he
        exact (hp.1 p hpm).2.1 ⟨hvp.trans he.symm, .inl hvp⟩
      have hset : ∀ j, j ≠ i → (st.bound.set i (some (.tuple st.unknownArgs)))[j]? =
          st.bound[j]? := by
        intro j hj
        rw [set_get _ _ _ _ hilt, if_neg hj]
      refine ⟨by rw [h1]; simp, ?_, ?_, .inl ⟨⟨q, by simp, hvp⟩, ?_⟩, ?_⟩
      · intro j hj
        rw [h2 j (by omega)]
        exact hset j (by omega)
      · intro j p hj
        cases j with
        | zero =>
          cases hj
          rw [if_pos hvp, Nat.add_zero, h2 i (by omega)]
          simp only [set_get _ _ _ _ hilt, if_true]
        | succ j =>
          have hj' : ps[j]? = some p := hj
          have := h3 j p hj'
          rw [show i + 1 + j = i + (j + 1) by omega] at this
          have hk := hno p (List.mem_of_getElem? hj')
          rw [this]
          simp only [hk, if_false, hset (i + (j + 1)) (by omega)]
      · rcases h4 with ⟨⟨p, hpm, hpk⟩, _⟩ | ⟨_, h4⟩
        · exact absurd hpk (hno p hpm)
        · exact h4
      · rcases h5 with ⟨⟨p, hpm, hpk⟩, h5⟩ | ⟨h5, h6⟩
        · exact .inl ⟨⟨p, List.mem_cons_of_mem _ hpm, hpk⟩, h5⟩
        · refine .inr ⟨?_, h6⟩
          intro p hpm
          rcases List.mem_cons.1 hpm with rfl | hpm
          · rw [hvp]; simp
          · exact h5 p hpm
    · rw [if_neg hvp] at h
      by_cases hvk : q.kind = .varKeyword
      · rw [if_pos hvk] at h
        split at h
        · rename_i hnd
          obtain ⟨h1, h2, h3, h4, h5⟩ := ih (i + 1)
            { st with bound := st.bound.set i (some (.named st.unknownKwargs)),
                      unknownKwargs := [] }
            (by simp only [List.length_set]; omega) hp.2 h
          have hno : ∀ p ∈ ps, p.kind ≠ .varKeyword := by
            intro p hpm he
            exact (hp.1 p hpm).2.1 ⟨hvk.trans he.symm, .inr hvk⟩
          have hset : ∀ j, j ≠ i → (st.bound.set i (some (.named st.unknownKwargs)))[j]? =
              st.bound[j]? := by
            intro j hj
            rw [set_get _ _ _ _ hilt, if_neg hj]
          refine ⟨by rw [h1]; simp, ?_, ?_, ?_, .inl ⟨⟨q, by simp, hvk⟩, hnd, ?_⟩⟩
          · intro j hj
            rw [h2 j (by omega)]
            exact hset j (by omega)
          · intro j p hj
            cases j with
            | zero =>
              cases hj
              rw [if_neg hvp, if_pos hvk, Nat.add_zero, h2 i (by omega)]
              simp only [set_get _ _ _ _ hilt, if_true]
            | succ j =>
              have hj' : ps[j]? = some p := hj
              have := h3 j p hj'
              rw [show i + 1 + j = i + (j + 1) by omega] at this
              have hk := hno p (List.mem_of_getElem? hj')
              rw [this]
              simp only [hk, if_false, hset (i + (j + 1)) (by omega)]
          · rcases h4 with ⟨⟨p, hpm, hpk⟩, h4⟩ | ⟨h4, h6⟩
            · exact .inl ⟨⟨p, List.mem_cons_of_mem _ hpm, hpk⟩, h4⟩
            · refine .inr ⟨?_, h6⟩
              intro p hpm
              rcases List.mem_cons.1 hpm with rfl | hpm
              · exact hvp
              · exact h4 p hpm
          · rcases h5 with ⟨⟨p, hpm, hpk⟩, _⟩ | ⟨_, h5⟩
            · exact absurd hpk (hno p hpm)
            · exact h5
        · cases h
      · rw [if_neg hvk] at h
        obtain ⟨h1, h2, h3, h4, h5⟩ := ih (i + 1) st (by omega) hp.2 h
        refine ⟨h1, fun j hj => h2 j (by omega), ?_, ?_, ?_⟩
        · intro j p hj
          cases j with
          | zero =>
            cases hj
            rw [if_neg hvp, if_neg hvk]
            exact h2 _ (by omega)
          | succ j =>
            have := h3 j p hj
            rw [show i + 1 + j = i + (j + 1) by omega] at this
            exact this
        · rcases h4 with ⟨⟨p, hpm, hpk⟩, h4⟩ | ⟨h4, h6⟩
          · exact .inl ⟨⟨p, List.mem_cons_of_mem _ hpm, hpk⟩, h4⟩
          · refine .inr ⟨?_, h6⟩
            intro p hpm
            rcases List.mem_cons.1 hpm with rfl | hpm
            · exact hvp
            · exact h4 p hpm
        · rcases h5 with ⟨⟨p, hpm, hpk⟩, h5⟩ | ⟨h5, h6⟩
          · exact .inl ⟨⟨p, List.mem_cons_of_mem _ hpm, hpk⟩, h5⟩
          · refine .inr ⟨?_, h6⟩
            intro p hpm
            rcases List.mem_cons.1 hpm with rfl | hpm
            · exact hvk
            · exact h5 p hpm

theorem bindVariadics_error (ps : List (Parameter V)) (i : Nat) (st : State V) (e : BindError)
    (h : bindVariadics i ps st = .error e) :
    e = .duplicateField ∧ (∃ p ∈ ps, p.kind = .varKeyword) ∧
      ¬ (st.unknownKwargs.map Prod.fst).Nodup := by
  induction ps generalizing i st with
  | nil => cases h
  | cons q ps ih =>
    rw [bindVariadics] at h
    split at h
    · obtain ⟨h1, ⟨p, hp, hk⟩, h3⟩ := ih _ _ h
      exact ⟨h1, ⟨p, List.mem_cons_of_mem _ hp, hk⟩, h3⟩
    · split at h
      · rename_i hk
        split at h
        · obtain ⟨_, _, h3⟩ := ih _ _ h
          simp at h3
        · rename_i hnd
          cases h
          exact ⟨rfl, ⟨q, by simp, hk⟩, hnd⟩
      · obtain ⟨h1, ⟨p, hp, hk⟩, h3⟩ := ih _ _ h
        exact ⟨h1, ⟨p, List.mem_cons_of_mem _ hp, hk⟩, h3⟩

/-! ### Default values -/

theorem bindDefaults_ok (c : Cfg V) (ps : List (Parameter V)) (bound : List (Option (Bound V)))
    (out : List (Bound V)) (hl : bound.length = ps.length) (h : bindDefaults c ps bound = .ok out) :
    out.length = ps.length ∧ ∀ (j : Nat) (p : Parameter V) (b : Bound V), ps[j]? = some p →
      out[j]? = some b → bound[j]? = some (some b) ∨
        (bound[j]? = some none ∧ ∃ v, p.default = some v ∧ b = .value (c.withBag v)) := by
  induction ps generalizing bound out with
  | nil =>
    cases h
    exact ⟨rfl, fun j p b hj => by cases hj⟩
  | cons q ps ih =>
    cases bound with
    | nil => cases hl
    | cons o bound =>
      rw [List.length_cons, List.length_cons] at hl
      rw [bindDefaults.eq_def] at h
      cases o with
      | some b0 =>
        simp only at h
        cases hr : bindDefaults c ps bound with
        | error e => rw [hr] at h; cases h
        | ok rest =>
          rw [hr] at h
          cases h
          obtain ⟨h1, h2⟩ := ih bound rest (by omega) hr
          refine ⟨by simp [h1], ?_⟩
          intro j p b hj hb
          cases j with
          | zero =>
            cases hb
            exact .inl rfl
          | succ j => exact h2 j p b hj hb
      | none =>
        simp only at h
        cases hd : q.default with
        | none => rw [hd] at h; cases h
        | some v =>
          rw [hd] at h
          simp only at h
          cases hr : bindDefaults c ps bound with
          | error e => rw [hr] at h; cases h
          | ok rest =>
            rw [hr] at h
            cases h
            obtain ⟨h1, h2⟩ := ih bound rest (by omega) hr
            refine ⟨by simp [h1], ?_⟩
            intro j p b hj hb
            cases j with
            | zero =>
              cases hb
              cases hj
              exact .inr ⟨rfl, v, hd, rfl⟩
            | succ j => exact h2 j p b hj hb

theorem bindDefaults_error (c : Cfg V) (ps : List (Parameter V)) (bound : List (Option (Bound V)))
    (e : BindError) (h : bindDefaults c ps bound = .error e) :
    ∃ (j : Nat) (p : Parameter V), ps[j]? = some p ∧ bound[j]? = some none ∧ p.default = none ∧
      e = .noValue p.kind p.name := by
  induction ps generalizing bound with
  | nil => cases h
  | cons q ps ih =>
    cases bound with
    | nil => cases h
    | cons o bound =>
      rw [bindDefaults.eq_def] at h
      cases o with
      | some b0 =>
        simp only at h
        cases hr : bindDefaults c ps bound with
        | ok rest => rw [hr] at h; cases h
        | error e' =>
          rw [hr] at h
          cases h
          obtain ⟨j, p, hj⟩ := ih bound hr
          exact ⟨j + 1, p, hj⟩
      | none =>
        simp only at h
        cases hd : q.default with
        | none =>
          rw [hd] at h
          cases h
          exact ⟨0, q, rfl, rfl, hd, rfl⟩
        | some v =>
          rw [hd] at h
          simp only at h
          cases hr : bindDefaults c ps bound with
          | ok rest => rw [hr] at h; cases h
          | error e' =>
            rw [hr] at h
            cases h
            obtain ⟨j, p, hj⟩ := ih bound hr
            exact ⟨j + 1, p, hj⟩

end Verif.Binding
