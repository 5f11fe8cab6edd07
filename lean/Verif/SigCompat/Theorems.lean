import Verif.SigCompat.Lemmas
/-
C93: the check before a functor is replaced in another one.
-/

namespace Verif.SigCompat

open Verif.Binding

variable {V : Type}

theorem least_accepts {c : Cfg V} {old : List (Parameter V)} (ho : PyValid c old)
    {pos : List V} {kw : List (String × V)} (h : Least old pos kw) (ps : List (Parameter V)) :
    Accepts ps pos.length (kw.map Prod.fst) ↔
      Accepts ps (minPositional old) (minKeywords old) := by
  have hn : pos.length = minPositional old := by
    have h1 := fun i => (h.positions i).trans (minPositional_iff ho i).symm
    have h2 := (h1 pos.length)
    have h3 := (h1 (minPositional old))
    omega
  rw [hn]
  exact accepts_congr fun name => (h.names name).trans (mem_minKeywords old name).symm

theorem most_accepts {c : Cfg V} {old : List (Parameter V)} (ho : PyValid c old)
    {pos : List V} {kw : List (String × V)} (h : Most old pos kw) (ps : List (Parameter V)) :
    Accepts ps pos.length (kw.map Prod.fst) ↔
      Accepts ps (maxPositional old) (maxKeywords old) := by
  have hn : pos.length = maxPositional old := by
    rw [maxPositional_eq]
    have h1 := count_le_one ho .varPositional (.inl rfl)
    have h2 := has_iff old .varPositional
    by_cases hh : Has old .varPositional
    · have := h.many hh
      have := h2.2 hh
      omega
    · have := h.few hh
      have : ¬ 0 < countKind old .varPositional := fun x => hh (h2.1 x)
      omega
  rw [hn]
  exact accepts_congr fun name => (h.names name).trans (mem_maxKeywords old name).symm

theorem names_nodup {c : Cfg V} {old : List (Parameter V)} (ho : PyValid c old)
    (f : Parameter V → Bool) : ((old.filter f).map (·.name)).Nodup :=
  ho.names.sublist (List.filter_sublist.map _)

theorem minKeywords_nodup {c : Cfg V} {old : List (Parameter V)} (ho : PyValid c old) :
    (minKeywords old).Nodup := names_nodup ho _

/-- Arguments with given names. -/
theorem fst_map (v : V) (names : List String) :
    (names.map fun n => (n, v)).map Prod.fst = names := by
  rw [List.map_map]
  exact List.map_id' _

theorem nodup_exists (l : List String) : ∃ l' : List String, l'.Nodup ∧ ∀ x, x ∈ l' ↔ x ∈ l := by
  induction l with
  | nil => exact ⟨[], List.nodup_nil, fun x => Iff.rfl⟩
  | cons a l ih =>
    obtain ⟨l', hn, hm⟩ := ih
    by_cases ha : a ∈ l'
    · refine ⟨l', hn, fun x => ?_⟩
      rw [hm, List.mem_cons]
      constructor
      · exact .inr
      · rintro (rfl | h)
        · exact (hm _).1 ha
        · exact h
    · exact ⟨a :: l', List.nodup_cons.2 ⟨ha, hn⟩, fun x => by rw [List.mem_cons, List.mem_cons, hm]⟩

theorem least_exists {c : Cfg V} {old : List (Parameter V)} (ho : PyValid c old) (v : V) :
    ∃ pos kw, Least old pos kw ∧ pos.length = minPositional old ∧
      kw.map Prod.fst = minKeywords old := by
  refine ⟨List.replicate (minPositional old) v, (minKeywords old).map fun n => (n, v), ?_,
    List.length_replicate, fst_map v _⟩
  refine ⟨?_, ?_, ?_⟩
  · rw [fst_map]; exact minKeywords_nodup ho
  · intro i
    rw [List.length_replicate]
    exact minPositional_iff ho i
  · intro name
    rw [fst_map]
    exact mem_minKeywords old name

theorem most_exists {c : Cfg V} {old : List (Parameter V)} (ho : PyValid c old) (v : V) :
    ∃ pos kw, Most old pos kw ∧ pos.length = maxPositional old := by
  obtain ⟨names, hn, hm⟩ := nodup_exists (maxKeywords old)
  have h1 := count_le_one ho .varPositional (.inl rfl)
  have h2 := has_iff old .varPositional
  refine ⟨List.replicate (maxPositional old) v, names.map fun n => (n, v), ?_,
    List.length_replicate⟩
  refine ⟨?_, ?_, ?_, ?_⟩
  · rw [fst_map]; exact hn
  · intro hh
    rw [List.length_replicate, maxPositional_eq]
    have : ¬ 0 < countKind old .varPositional := fun x => hh (h2.1 x)
    omega
  · intro hh
    rw [List.length_replicate, maxPositional_eq]
    have := h2.2 hh
    omega
  · intro name
    rw [fst_map, hm]
    exact mem_maxKeywords old name

theorem verify_ok (new : List (Parameter V)) (n : Nat) (kw : List String) :
    verify new n kw = .ok () ↔ Accepts new n kw := by
  unfold verify
  rw [← inspect_iff]
  by_cases h : inspectBind new n kw = true
  · rw [if_pos h]; exact ⟨fun _ => h, fun _ => rfl⟩
  · rw [if_neg h]; exact ⟨fun h' => (by cases h'), fun h' => (h h').elim⟩

theorem verify_error (new : List (Parameter V)) (n : Nat) (kw : List String) (e : CompatError)
    (h : verify new n kw = .error e) : e = .incompatible n kw ∧ ¬ Accepts new n kw := by
  unfold verify at h
  rw [← inspect_iff]
  by_cases hb : inspectBind new n kw = true
  · rw [if_pos hb] at h; cases h
  · rw [if_neg hb] at h; cases h; exact ⟨rfl, hb⟩

theorem assert_ok (old new : List (Parameter V)) :
    assertCompatible true old new = .ok () ↔
      Accepts new (minPositional old) (minKeywords old) ∧
      Accepts new (maxPositional old) (maxKeywords old) := by
  unfold assertCompatible
  simp only [Bool.not_true, Bool.false_eq_true, if_false]
  rw [← verify_ok new (minPositional old), ← verify_ok new (maxPositional old)]
  cases h : verify new (minPositional old) (minKeywords old) with
  | error e => simp
  | ok u => simp

/-- The check passes exactly if the new value is a functor and takes the least call of the
old one and the one with many arguments. -/
theorem C93_passes (c : Cfg V) (v : V) (old new : List (Parameter V)) (s t : Signature V)
    (hs : create c old = .ok s) (ht : create c new = .ok t) (isFn : Bool) :
    assertCompatible isFn old new = .ok () ↔
      isFn = true ∧ ∀ (pos : List V) (kw : List (String × V)),
        Least old pos kw ∨ Most old pos kw → Works c t pos kw := by
  have ho := (C43_signatures c old).1.1 ⟨s, hs⟩
  cases isFn with
  | false => simp [assertCompatible]
  | true =>
    rw [assert_ok]
    simp only [true_and]
    constructor
    · rintro ⟨h1, h2⟩ pos kw (h | h)
      · exact (works_iff ht pos kw).2 ⟨h.distinct, (least_accepts ho h new).2 h1⟩
      · exact (works_iff ht pos kw).2 ⟨h.distinct, (most_accepts ho h new).2 h2⟩
    · intro h
      constructor
      · obtain ⟨pos, kw, hl, _⟩ := least_exists ho v
        exact (least_accepts ho hl new).1 ((works_iff ht pos kw).1 (h pos kw (.inl hl))).2
      · obtain ⟨pos, kw, hl, _⟩ := most_exists ho v
        exact (most_accepts ho hl new).1 ((works_iff ht pos kw).1 (h pos kw (.inr hl))).2

/-- The least call works for the functor it is made from. -/
theorem least_works {c : Cfg V} {old : List (Parameter V)} (ho : PyValid c old) :
    Accepts old (minPositional old) (minKeywords old) := by
  refine ⟨.inr ?_, .inr ?_, ?_, ?_⟩
  · have h1 := minPositional_iff ho (slots old)
    have h2 := slots_iff ho (slots old)
    refine Nat.le_of_not_lt fun hlt => ?_
    obtain ⟨p, hp, hk, _⟩ := h1.1 hlt
    exact absurd (h2.2 ⟨p, hp, by unfold Parameter.positional; simp [hk]⟩) (by omega)
  · intro name hn
    obtain ⟨p, hp, hk, _, he⟩ := (mem_minKeywords old name).1 hn
    exact (takes_iff old name).2 ⟨p, hp, hk, he⟩
  · intro i p hp _ hk hi
    obtain ⟨q, hq, hqk, _⟩ := (minPositional_iff ho i).1 hi
    rw [hp] at hq
    cases hq
    unfold Parameter.keyword at hk
    simp [hqk] at hk
  · intro i p hp hd h1 h2
    cases hk : p.kind with
    | positionalOnly =>
      exact .inl ⟨by unfold Parameter.positional; simp [hk],
        (minPositional_iff ho i).2 ⟨p, hp, hk, hd⟩⟩
    | positionalOrKeyword =>
      have hkw : p.keyword = true := by unfold Parameter.keyword; simp [hk]
      exact .inr ⟨hkw, (mem_minKeywords _ _).2 ⟨p, List.mem_of_getElem? hp, hkw, hd, rfl⟩⟩
    | keywordOnly =>
      have hkw : p.keyword = true := by unfold Parameter.keyword; simp [hk]
      exact .inr ⟨hkw, (mem_minKeywords _ _).2 ⟨p, List.mem_of_getElem? hp, hkw, hd, rfl⟩⟩
    | varPositional => exact (h1 hk).elim
    | varKeyword => exact (h2 hk).elim

theorem same_name {c : Cfg V} {ps : List (Parameter V)} (hv : PyValid c ps) {p q : Parameter V}
    (hp : p ∈ ps) (hq : q ∈ ps) (h : p.name = q.name) : p = q := by
  obtain ⟨i, hi⟩ := List.getElem?_of_mem hp
  obtain ⟨j, hj⟩ := List.getElem?_of_mem hq
  have hil := (List.getElem?_eq_some_iff.1 hi).1
  have := (List.getElem?_inj (l := ps.map Parameter.name) (i := i) (j := j)
    (by rw [List.length_map]; exact hil) hv.names).1
    (by rw [List.getElem?_map, List.getElem?_map, hi, hj]; simp [h])
  subst this
  rw [hi] at hj
  exact Option.some.inj hj

/-- The call with many arguments works for the functor it is made from, unless it has a
parameter with the odd name. -/
theorem most_works {c : Cfg V} {old : List (Parameter V)} (ho : PyValid c old)
    (hodd : Has old .varKeyword → takes old unusualName = false) :
    Accepts old (maxPositional old) (maxKeywords old) := by
  refine ⟨?_, ?_, ?_, ?_⟩
  · by_cases h : Has old .varPositional
    · exact .inl h
    · refine .inr ?_
      have : ¬ 0 < countKind old .varPositional := fun x => h ((has_iff _ _).1 x)
      rw [maxPositional_eq]
      omega
  · by_cases h : Has old .varKeyword
    · exact .inl h
    · refine .inr fun name hn => ?_
      rcases (mem_maxKeywords old name).1 hn with ⟨p, hp, hk, he⟩ | ⟨h', _⟩
      · exact (takes_iff old name).2 ⟨p, hp, by unfold Parameter.keyword; simp [hk], he⟩
      · exact (h h').elim
  · intro i p hp h1 h2 _ hm
    rcases (mem_maxKeywords old p.name).1 hm with ⟨q, hq, hk, he⟩ | ⟨h', he⟩
    · have := same_name ho (List.mem_of_getElem? hp) hq he.symm
      subst this
      unfold Parameter.positional at h1
      simp [hk] at h1
    · have := hodd h'
      rw [← he, (takes_iff old p.name).2 ⟨p, List.mem_of_getElem? hp, h2, rfl⟩] at this
      cases this
  · intro i p hp hd h1 h2
    have hpos : p.positional = true → i < maxPositional old := by
      intro h
      have := (slots_iff ho i).2 ⟨p, hp, h⟩
      rw [maxPositional_eq]
      omega
    cases hk : p.kind with
    | positionalOnly =>
      have h : p.positional = true := by unfold Parameter.positional; simp [hk]
      exact .inl ⟨h, hpos h⟩
    | positionalOrKeyword =>
      have h : p.positional = true := by unfold Parameter.positional; simp [hk]
      exact .inl ⟨h, hpos h⟩
    | keywordOnly =>
      exact .inr ⟨by unfold Parameter.keyword; simp [hk],
        (mem_maxKeywords _ _).2 (.inl ⟨p, List.mem_of_getElem? hp, hk, rfl⟩)⟩
    | varPositional => exact (h1 hk).elim
    | varKeyword => exact (h2 hk).elim

/-- A replacement that is rejected is not a functor, or there is a call that works for the old
functor and not for the new one, and the error tells it (unless the old one has a parameter
with the odd name used for `**kwargs`). -/
theorem C93_rejects (c : Cfg V) (v : V) (old new : List (Parameter V)) (s t : Signature V)
    (hs : create c old = .ok s) (ht : create c new = .ok t)
    (hodd : Has old .varKeyword → ∀ p ∈ old, p.name ≠ "__argument_that_does_not_exist__")
    (isFn : Bool) (e : CompatError) (h : assertCompatible isFn old new = .error e) :
    (isFn = false ∧ e = .notFunctor) ∨
    (isFn = true ∧ ∃ (pos : List V) (kw : List (String × V)),
      e = .incompatible pos.length (kw.map Prod.fst) ∧ Works c s pos kw ∧ ¬ Works c t pos kw) := by
  have ho := (C43_signatures c old).1.1 ⟨s, hs⟩
  have hodd' : Has old .varKeyword → takes old unusualName = false := by
    intro hk
    cases hb : takes old unusualName with
    | false => rfl
    | true =>
      obtain ⟨p, hp, _, he⟩ := (takes_iff _ _).1 hb
      exact (hodd hk p hp he).elim
  cases isFn with
  | false =>
    simp only [assertCompatible, Bool.not_false, if_true] at h
    cases h
    exact .inl ⟨rfl, rfl⟩
  | true =>
    refine .inr ⟨rfl, ?_⟩
    have key : ∀ (n : Nat) (names : List String), e = .incompatible n names → names.Nodup →
        Accepts old n names → ¬ Accepts new n names →
        ∃ (pos : List V) (kw : List (String × V)),
          e = .incompatible pos.length (kw.map Prod.fst) ∧ Works c s pos kw ∧
            ¬ Works c t pos kw := by
      intro n names he hn ha hb
      refine ⟨List.replicate n v, names.map fun x => (x, v), ?_, ?_, ?_⟩
      · rw [fst_map, List.length_replicate]; exact he
      · rw [works_iff hs, fst_map, List.length_replicate]; exact ⟨hn, ha⟩
      · rw [works_iff ht, fst_map, List.length_replicate]; exact fun x => hb x.2
    unfold assertCompatible at h
    simp only [Bool.not_true, Bool.false_eq_true, if_false] at h
    cases hm : verify new (minPositional old) (minKeywords old) with
    | error e' =>
      rw [hm] at h
      cases h
      obtain ⟨h1, h2⟩ := verify_error _ _ _ _ hm
      exact key _ _ h1 (minKeywords_nodup ho) (least_works ho) h2
    | ok u =>
      rw [hm] at h
      obtain ⟨h1, h2⟩ := verify_error _ _ _ _ h
      refine key _ _ h1 ?_ (most_works ho hodd') h2
      unfold maxKeywords
      refine List.nodup_append.2 ⟨names_nodup ho _, ?_, ?_⟩
      · have := count_le_one ho .varKeyword (.inr rfl)
        exact List.nodup_replicate.2 this
      · intro a ha b hb hab
        rw [List.mem_replicate] at hb
        obtain ⟨p, hp, hpa⟩ := List.mem_map.1 ha
        refine hodd ((has_iff _ _).1 (Nat.pos_iff_ne_zero.2 hb.1)) p (List.mem_filter.1 hp).1 ?_
        rw [hpa, hab, hb.2]
        rfl

/-- If the check passes and the signatures are aligned, then every call that works for the old
functor works for the new one. -/
theorem C93_compatible (c : Cfg V) (old new : List (Parameter V)) (s t : Signature V)
    (hs : create c old = .ok s) (ht : create c new = .ok t)
    (h : assertCompatible true old new = .ok ()) (ha : Aligned old new) : Compatible c s t := by
  have ho := (C43_signatures c old).1.1 ⟨s, hs⟩
  have hn := (C43_signatures c new).1.1 ⟨t, ht⟩
  obtain ⟨hmin, hmax⟩ := (assert_ok old new).1 h
  intro pos kw hw
  obtain ⟨hd, hb⟩ := (works_iff hs pos kw).1 hw
  refine (works_iff ht pos kw).2 ⟨hd, ?_, ?_, ?_, ?_⟩
  · rcases hb.fit with h1 | h1
    · exact .inl (ha.args h1)
    · rcases hmax.fit with h2 | h2
      · exact .inl h2
      · rw [maxPositional_eq] at h2
        exact .inr (by omega)
  · by_cases hk : Has new .varKeyword
    · exact .inl hk
    · refine .inr fun name hm => ?_
      rcases hb.known with h1 | h1
      · exact (hk (ha.kwargs h1)).elim
      · obtain ⟨p, hp, hpk, he⟩ := (takes_iff _ _).1 (h1 name hm)
        rcases ha.names p hp hpk with h2 | h2
        · rw [← he]; exact h2
        · exact (hk h2).elim
  · intro j q hq hqp hqk hj hm
    by_cases ht' : takes old q.name = true
    · obtain ⟨p, hp, hpk, he⟩ := (takes_iff _ _).1 ht'
      obtain ⟨i, hi⟩ := List.getElem?_of_mem hp
      obtain ⟨h1, h2⟩ := ha.places i j p q hi hq hpk hqk he
      have hpp : p.positional = true := by
        unfold Parameter.positional at hqp ⊢
        rw [h1]; exact hqp
      have := h2 hpp
      subst this
      exact hb.once i p hi hpp hpk hj (by rw [he]; exact hm)
    · rcases hb.known with h1 | h1
      · have hqk' : q.kind = .positionalOrKeyword := by
          revert hqp hqk
          unfold Parameter.positional Parameter.keyword
          cases q.kind <;> simp
        refine ht' (ha.fresh h1 j q hq hqk' ?_)
        rcases hb.fit with h2 | h2
        · exact .inr h2
        · exact .inl (by omega)
      · exact ht' (h1 q.name hm)
  · intro j q hq hqd h1 h2
    have hlow : ∀ (i : Nat), i < minPositional old → i < pos.length := by
      intro i hi
      obtain ⟨p, hp, hk, hpd⟩ := (minPositional_iff ho i).1 hi
      rcases hb.required i p hp hpd (by rw [hk]; decide) (by rw [hk]; decide) with h3 | h3
      · exact h3.2
      · unfold Parameter.keyword at h3
        simp [hk] at h3
    rcases hmin.required j q hq hqd h1 h2 with h3 | h3
    · exact .inl ⟨h3.1, hlow j h3.2⟩
    · obtain ⟨p, hp, hpk, hpd, he⟩ := (mem_minKeywords _ _).1 h3.2
      obtain ⟨i, hi⟩ := List.getElem?_of_mem hp
      obtain ⟨h4, h5⟩ := ha.places i j p q hi hq hpk h3.1 he
      rcases hb.required i p hi hpd (by rw [h4]; exact h1) (by rw [h4]; exact h2) with h6 | h6
      · have := h5 h6.1
        subst this
        exact .inl ⟨by unfold Parameter.positional at h6 ⊢; rw [← h4]; exact h6.1, h6.2⟩
      · exact .inr ⟨h3.1, by rw [← he]; exact h6.2⟩

/-! ### The conditions are needed -/

/-- Values are numbers. -/
def nums : Cfg Nat := { rank := fun _ => 0, withBag := id }

/-- A parameter without a default. -/
def req (name : String) (kind : Kind) : Parameter Nat := { name := name, kind := kind }

/-- A parameter with a default. -/
def opt (name : String) (kind : Kind) : Parameter Nat :=
  { name := name, kind := kind, default := some 0 }

/-- The check passes, and yet a call works for the old functor and not for the new one. -/
def Missed (old new : List (Parameter Nat)) : Prop :=
  assertCompatible true old new = .ok () ∧
  ∃ s t, create nums old = .ok s ∧ create nums new = .ok t ∧ ¬ Compatible nums s t

/-- Whether a call binds, computed. -/
def bindsB (ps : List (Parameter Nat)) (pos : List Nat) (kw : List (String × Nat)) : Bool :=
  match create nums ps with
  | .error _ => false
  | .ok s =>
    match bindArguments nums s (pos ++ kw.map Prod.snd) (kw.map Prod.fst) with
    | .ok _ => true
    | .error _ => false

/-- Whether the check passes, computed. -/
def passesB (old new : List (Parameter Nat)) : Bool :=
  match assertCompatible true old new with
  | .ok _ => true
  | .error _ => false

theorem missed_of (old new : List (Parameter Nat)) (pos : List Nat) (kw : List (String × Nat))
    (h1 : passesB old new = true) (h2 : bindsB old pos kw = true)
    (h3 : (create nums new).toOption.isSome = true) (h4 : bindsB new pos kw = false) :
    Missed old new := by
  refine ⟨?_, ?_⟩
  · unfold passesB at h1
    cases h : assertCompatible true old new with
    | ok u => rfl
    | error e => rw [h] at h1; cases h1
  · unfold bindsB at h2 h4
    cases hs : create nums old with
    | error e => rw [hs] at h2; cases h2
    | ok s =>
      cases ht : create nums new with
      | error e => rw [ht] at h3; cases h3
      | ok t =>
        refine ⟨s, t, rfl, rfl, fun hc => ?_⟩
        have hw : Works nums s pos kw := by
          unfold Works
          rw [hs] at h2
          simp only at h2
          cases hb : bindArguments nums s (pos ++ kw.map Prod.snd) (kw.map Prod.fst) with
          | ok out => exact ⟨out, rfl⟩
          | error e => rw [hb] at h2; cases h2
        obtain ⟨out, hout⟩ := hc pos kw hw
        rw [ht] at h4
        simp only [hout] at h4
        cases h4

/-- The documentation says that the check raises whenever some call of the old functor would
crash with the new one.  It does not: `(x, y)` is replaced by `(y, x)` (then `f(1, y=2)` crashes),
`(x=0)` by `(*args)` (`f(x=1)`), `(*args)` by ten parameters with defaults (eleven arguments),
`(x, /, **kwargs)` by `(x, **kwargs)` (`f(1, x=2)`), and `**kwargs` by a parameter with the odd
name. -/
theorem C93_missed :
    Missed [req "x" .positionalOrKeyword, req "y" .positionalOrKeyword]
      [req "y" .positionalOrKeyword, req "x" .positionalOrKeyword] ∧
    Missed [opt "x" .positionalOrKeyword] [req "args" .varPositional] ∧
    Missed [req "args" .varPositional]
      ((List.range 10).map fun i => opt (toString i) .positionalOnly) ∧
    Missed [req "x" .positionalOnly, req "kwargs" .varKeyword]
      [req "x" .positionalOrKeyword, req "kwargs" .varKeyword] ∧
    Missed [req "kwargs" .varKeyword] [opt "__argument_that_does_not_exist__" .keywordOnly] := by
  refine ⟨missed_of _ _ [1] [("y", 2)] ?_ ?_ ?_ ?_, missed_of _ _ [] [("x", 1)] ?_ ?_ ?_ ?_,
    missed_of _ _ (List.replicate 11 1) [] ?_ ?_ ?_ ?_,
    missed_of _ _ [1] [("x", 2)] ?_ ?_ ?_ ?_, missed_of _ _ [] [("z", 1)] ?_ ?_ ?_ ?_⟩ <;>
    decide +kernel

/-! ### Examples -/

/-- `(a, b=0, *, k)`. -/
def oldEx : List (Parameter Nat) :=
  [req "a" .positionalOrKeyword, opt "b" .positionalOrKeyword, req "k" .keywordOnly]

/-- `(a=0, b=0, c=0, *, k, **kwargs)`. -/
def newEx : List (Parameter Nat) :=
  [opt "a" .positionalOrKeyword, opt "b" .positionalOrKeyword, opt "c" .positionalOrKeyword,
    req "k" .keywordOnly, req "kwargs" .varKeyword]

example : passesB oldEx newEx = true := by decide +kernel

/-- The way back is rejected: `f(k=1)` works only for the new one. -/
example : assertCompatible true newEx oldEx = .error (.incompatible 0 ["k"]) := rfl

example : assertCompatible false oldEx newEx = .error .notFunctor := rfl

/-- The examples of the documentation. -/
example : passesB [req "x" .positionalOrKeyword] [req "y" .positionalOrKeyword] = false ∧
    passesB [req "x" .positionalOrKeyword] [req "x" .positionalOnly] = false ∧
    passesB [req "x" .positionalOrKeyword] [req "x" .keywordOnly] = false ∧
    passesB [req "x" .positionalOnly] [req "y" .positionalOnly] = true ∧
    passesB [req "x" .positionalOrKeyword]
      [req "x" .positionalOrKeyword, opt "y" .positionalOrKeyword] = true := by decide +kernel

/-- The example is aligned, so every call carries over. -/
example : Aligned oldEx newEx := by
  have hk : ¬ Has oldEx .varKeyword := by
    rintro ⟨p, hp, h⟩
    simp only [oldEx, List.mem_cons, List.not_mem_nil, or_false] at hp
    rcases hp with rfl | rfl | rfl <;> cases h
  refine ⟨?_, fun h => (hk h).elim, ?_, ?_, fun h => (hk h).elim⟩
  · rintro ⟨p, hp, h⟩
    simp only [oldEx, List.mem_cons, List.not_mem_nil, or_false] at hp
    rcases hp with rfl | rfl | rfl <;> cases h
  · intro p hp _
    exact .inr ⟨req "kwargs" .varKeyword, by simp [newEx], rfl⟩
  · intro i j p q hp hq _ _ hn
    match i, j with
    | 0, 0 | 1, 1 | 2, 3 | 0, 1 | 0, 2 | 0, 3 | 0, 4 | 1, 0 | 1, 2 | 1, 3 | 1, 4 | 2, 0 | 2, 1
    | 2, 2 | 2, 4 =>
      simp only [oldEx, newEx, List.getElem?_cons_zero, List.getElem?_cons_succ,
        Option.some.injEq] at hp hq
      subst hp; subst hq
      first
        | exact absurd hn (by decide)
        | exact ⟨rfl, fun _ => rfl⟩
        | exact ⟨rfl, fun h => by cases h⟩
    | i + 3, j => simp [oldEx] at hp
    | 0, j + 5 | 1, j + 5 | 2, j + 5 => simp [newEx] at hq

end Verif.SigCompat
