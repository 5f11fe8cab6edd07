import Verif.SliceBuilder.Spec

/-!
C97: a builder of slices keeps the first value of each element, whatever the types are.
-/

namespace Verif.SliceBuilder

variable {T V : Type} [DecidableEq T]

set_option linter.unusedSectionVars false

theorem lookup_put {X : Type} (t t' : T) (x : X) (l : List (T × X)) :
    (put t x l).lookup t' = if t' = t then some x else l.lookup t' := by
  induction l with
  | nil =>
    rw [put, List.lookup_cons]
    by_cases h : t' = t
    · rw [if_pos h, h, beq_self_eq_true]
    · rw [if_neg h, show (t' == t) = false from by simpa using h]
  | cons p l ih =>
    obtain ⟨u, y⟩ := p
    rw [put]
    by_cases hu : u = t
    · rw [if_pos hu, List.lookup_cons, List.lookup_cons, hu]
      by_cases h : t' = t
      · rw [if_pos h, h, beq_self_eq_true]
      · rw [if_neg h, show (t' == t) = false from by simpa using h]
    · rw [if_neg hu, List.lookup_cons, List.lookup_cons, ih]
      by_cases h : t' = u
      · rw [h]
        simp only [beq_self_eq_true, hu, if_false]
      · rw [show (t' == u) = false from by simpa using h]

theorem put_put {X : Type} (t : T) (x y : X) (l : List (T × X)) : put t y (put t x l) = put t y l := by
  induction l with
  | nil => simp only [put, if_pos]
  | cons p l ih =>
    obtain ⟨u, z⟩ := p
    rw [put, put]
    by_cases hu : u = t
    · rw [if_pos hu, if_pos hu, put, if_pos hu]
    · rw [if_neg hu, if_neg hu, put, if_neg hu, ih]

theorem lookup_none {X : Type} {t : T} {l : List (T × X)} : l.lookup t = none ↔ t ∉ l.map Prod.fst := by
  induction l with
  | nil => simp
  | cons p l ih =>
    obtain ⟨u, z⟩ := p
    rw [List.lookup_cons, List.map_cons, List.mem_cons]
    by_cases hu : t = u
    · rw [hu, beq_self_eq_true]
      simp
    · rw [show (t == u) = false from by simpa using hu]
      simp only
      rw [ih]
      constructor
      · rintro h (h' | h')
        · exact hu h'
        · exact h h'
      · exact fun h h' => h (.inr h')

theorem put_keys {X : Type} (t : T) (x : X) (l : List (T × X)) :
    (put t x l).map Prod.fst =
      if t ∈ l.map Prod.fst then l.map Prod.fst else l.map Prod.fst ++ [t] := by
  induction l with
  | nil => rfl
  | cons p l ih =>
    obtain ⟨u, z⟩ := p
    rw [put]
    by_cases hu : u = t
    · rw [if_pos hu, if_pos (by rw [← hu]; exact List.mem_cons_self)]
      rfl
    · rw [if_neg hu, List.map_cons, ih, List.map_cons]
      by_cases ht : t ∈ l.map Prod.fst
      · rw [if_pos ht, if_pos (List.mem_cons_of_mem _ ht)]
      · rw [if_neg ht, if_neg]
        · rfl
        · intro h
          rcases List.mem_cons.1 h with h | h
          · exact hu h.symm
          · exact ht h

def lift (sts : List (T × Stor V)) : List (T × Option (Stor V)) := sts.map fun p => (p.1, some p.2)

theorem lookup_lift (t : T) (sts : List (T × Stor V)) :
    (lift sts).lookup t = (sts.lookup t).map some := by
  unfold lift
  induction sts with
  | nil => rfl
  | cons p sts ih =>
    rw [List.map_cons, List.lookup_cons, List.lookup_cons, ih]
    cases t == p.1 <;> rfl

theorem put_lift (t : T) (s : Stor V) (sts : List (T × Stor V)) :
    put t (some s) (lift sts) = lift (put t s sts) := by
  unfold lift
  induction sts with
  | nil => rfl
  | cons p sts ih =>
    obtain ⟨u, z⟩ := p
    rw [List.map_cons, put, put]
    by_cases hu : u = t
    · rw [if_pos hu, if_pos hu]; rfl
    · rw [if_neg hu, if_neg hu, ih]; rfl

/-- The storages of a builder. -/
def Holds (b : Bldr T V) (sts : List (T × Stor V)) : Prop :=
  match b.phase with
  | .empty => b.cur = none ∧ b.first = none ∧ b.store = [] ∧ sts = []
  | .first => ∃ t s, b.cur = some t ∧ b.first = some s ∧ b.store = [] ∧ sts = [(t, s)]
  | .map => b.store = lift sts

theorem cur_spec {b : Bldr T V} {sts : List (T × Stor V)} (h : Holds b sts) {t : T} {s : Stor V}
    (hc : b.cur = some t) (hl : sts.lookup t = some s) :
    current b = some s ∧ ∀ s', Holds (setCurrent b s') (put t s' sts) := by
  unfold Holds at h
  unfold current setCurrent
  cases hp : b.phase with
  | empty =>
    rw [hp] at h
    simp only at h
    rw [hc] at h
    cases h.1
  | first =>
    rw [hp] at h
    obtain ⟨t0, s0, h1, h2, h3, rfl⟩ := h
    rw [hc] at h1
    cases h1
    rw [List.lookup_cons, beq_self_eq_true] at hl
    cases hl
    refine ⟨h2, fun s' => ?_⟩
    unfold Holds
    simp only [hp]
    exact ⟨t, s', hc, rfl, h3, by rw [put, if_pos rfl]⟩
  | map =>
    rw [hp] at h
    simp only at h
    simp only [hc]
    refine ⟨by rw [h, lookup_lift, hl]; rfl, fun s' => ?_⟩
    unfold Holds
    simp only [hp]
    rw [h, put_lift]

theorem change_spec {b : Bldr T V} {sts : List (T × Stor V)} (h : Holds b sts) {t : T}
    (hc : b.cur ≠ some t) :
    current (changeCurrent b t) = sts.lookup t ∧
    (∀ s' tys, Holds (setCurrent { changeCurrent b t with types := tys } s') (put t s' sts)) ∧
    (∀ s, sts.lookup t = some s → Holds (changeCurrent b t) sts) := by
  unfold Holds at h
  cases hp : b.phase with
  | empty =>
    rw [hp] at h
    obtain ⟨h1, h2, h3, rfl⟩ := h
    simp only [changeCurrent, hp, current, setCurrent, Holds]
    refine ⟨h2, fun s' _ => ⟨t, s', rfl, rfl, h3, rfl⟩, fun s hs => ?_⟩
    cases hs
  | first =>
    rw [hp] at h
    obtain ⟨t0, s0, h1, h2, h3, rfl⟩ := h
    have hne : t0 ≠ t := fun he => hc (by rw [h1, he])
    have hne' : (t == t0) = false := by simpa using fun he : t = t0 => hne he.symm
    have hstore : ensure t none (moveFirst b) = [(t0, some s0), (t, none)] := by
      simp only [moveFirst, h1, h2, h3, ensure, List.lookup_nil, put, List.lookup_cons, hne', if_neg hne]
    simp only [changeCurrent, hp, current, setCurrent, Holds, hstore]
    refine ⟨?_, ?_, ?_⟩
    · simp only [List.lookup_cons, hne', beq_self_eq_true, List.lookup_nil]
      rfl
    · intro s' _
      simp only [put, if_neg hne, if_pos, lift, List.map_cons, List.map_nil]
    · intro s hs
      rw [List.lookup_cons, hne'] at hs
      cases hs
  | map =>
    rw [hp] at h
    simp only at h
    simp only [changeCurrent, hp, current, setCurrent, Holds, ensure, h, lookup_lift]
    cases hl : sts.lookup t with
    | some s =>
      simp only [Option.map_some, lookup_lift, hl]
      exact ⟨rfl, fun s' _ => put_lift t s' sts, fun _ _ => trivial⟩
    | none =>
      simp only [Option.map_none]
      refine ⟨by rw [lookup_put, if_pos rfl]; rfl, fun s' _ => ?_, fun _ hs => (by cases hs)⟩
      rw [put_put, put_lift]

theorem change_fields (b : Bldr T V) (t : T) : (changeCurrent b t).codes = b.codes ∧
    (changeCurrent b t).unset = b.unset ∧ (changeCurrent b t).types = b.types ∧
    (changeCurrent b t).cur = some t ∧ (changeCurrent b t).phase ≠ .empty := by
  unfold changeCurrent
  cases b.phase <;> exact ⟨rfl, rfl, rfl, rfl, fun h => (by cases h)⟩

theorem set_fields (b : Bldr T V) (s : Stor V) : (setCurrent b s).codes = b.codes ∧
    (setCurrent b s).unset = b.unset ∧ (setCurrent b s).types = b.types ∧
    (setCurrent b s).cur = b.cur ∧ (setCurrent b s).phase = b.phase := by
  obtain ⟨codes, unset, types, first, store, phase, cur⟩ := b
  cases phase <;> cases cur <;> exact ⟨rfl, rfl, rfl, rfl, rfl⟩

theorem unset_spec {b : Bldr T V} {sts : List (T × Stor V)} (h : Holds b sts)
    (hp : b.phase ≠ .empty) : Holds (unsetCurrent b) sts := by
  unfold Holds at h
  cases hp' : b.phase with
  | empty => exact (hp hp').elim
  | first =>
    rw [hp'] at h
    obtain ⟨t0, s0, h1, h2, h3, rfl⟩ := h
    simp only [unsetCurrent, hp', Holds, moveFirst, h1, h2, h3, ensure, List.lookup_nil, put, lift,
      List.map_cons, List.map_nil]
  | map =>
    rw [hp'] at h
    simp only [unsetCurrent, hp', Holds]
    exact h

/-- An element, its code and what it should be. -/
def CellOk (tyOf : V → T) (sts : List (T × Stor V)) (j : Nat) (c : Option Code) :
    Option (Option V) → Prop
  | none => c = some .unset
  | some none => c = some .removed
  | some (some v) => ∃ s, sts.lookup (tyOf v) = some s ∧ c = some (.ty s.index) ∧ s.data.get j = some v

/-- What holds between calls. -/
structure Good (tyOf : V → T) (size : Nat) (b : Bldr T V) (sts : List (T × Stor V))
    (a : Nat → Option (Option V)) : Prop where
  holds : Holds b sts
  len : b.codes.length = size
  unset : b.unset = b.codes.count .unset
  types : b.types = sts.map Prod.fst
  nodup : (sts.map Prod.fst).Nodup
  index : ∀ t s, sts.lookup t = some s → b.types[s.index]? = some t
  curb : ∀ t, b.cur = some t → ∃ i cells, sts.lookup t = some ⟨i, .builder cells⟩
  blen : ∀ t i cells, sts.lookup t = some ⟨i, .builder cells⟩ → cells.length = size
  cell : ∀ j, j < size → CellOk tyOf sts j b.codes[j]? (a j)

/-- Storages with the same elements in use. -/
def Ext (codes : List Code) (sts sts' : List (T × Stor V)) : Prop :=
  ∀ t s, sts.lookup t = some s → ∃ s', sts'.lookup t = some s' ∧ s'.index = s.index ∧
    ∀ j : Nat, codes[j]? = some (.ty s.index) → s'.data.get j = s.data.get j

theorem cells_step {tyOf : V → T} {codes codes' : List Code} {sts sts' : List (T × Stor V)}
    (hx : Ext codes sts sts') {j : Nat} {x x' : Option (Option V)}
    (h : CellOk tyOf sts j codes[j]? x)
    (hj : (codes'[j]? = codes[j]? ∧ x' = x) ∨ (codes'[j]? = some .removed ∧ x' = some none) ∨
      ∃ v s, x' = some (some v) ∧ sts'.lookup (tyOf v) = some s ∧ codes'[j]? = some (.ty s.index) ∧
        s.data.get j = some v) : CellOk tyOf sts' j codes'[j]? x' := by
  rcases hj with ⟨h1, rfl⟩ | ⟨h1, rfl⟩ | ⟨v, s, rfl, h2, h3, h4⟩
  · rw [h1]
    cases x' with
    | none => exact h
    | some y =>
      cases y with
      | none => exact h
      | some v =>
        obtain ⟨s, a, b, c⟩ := h
        obtain ⟨s', a', b', c'⟩ := hx _ s a
        exact ⟨s', a', by rw [b, b'], by rw [c' j b, c]⟩
  · exact h1
  · exact ⟨s, h2, h3, h4⟩

theorem ext_put {codes : List Code} {sts : List (T × Stor V)} {t : T} {s' : Stor V}
    (h : ∀ s, sts.lookup t = some s → s'.index = s.index ∧
      ∀ j : Nat, codes[j]? = some (.ty s.index) → s'.data.get j = s.data.get j) :
    Ext codes sts (put t s' sts) := by
  intro u s hs
  rw [lookup_put]
  by_cases hu : u = t
  · subst hu
    rw [if_pos rfl]
    exact ⟨s', rfl, h s hs⟩
  · rw [if_neg hu]
    exact ⟨s, hs, rfl, fun _ _ => rfl⟩

/-- A storage is replaced. -/
theorem good_put {tyOf : V → T} {size : Nat} {b b' : Bldr T V} {sts : List (T × Stor V)}
    {a a' : Nat → Option (Option V)} (h : Good tyOf size b sts a) {t : T} {s' : Stor V}
    (hh : Holds b' (put t s' sts)) (hlen : b'.codes.length = size)
    (hun : b'.unset = b'.codes.count .unset)
    (hold : ∀ s, sts.lookup t = some s → b'.types = b.types ∧ s'.index = s.index ∧
      ∀ j : Nat, b.codes[j]? = some (.ty s.index) → s'.data.get j = s.data.get j)
    (hnew : sts.lookup t = none → b'.types = b.types ++ [t] ∧ s'.index = b.types.length)
    (hcur : b'.cur = none ∨ (b'.cur = some t ∧ ∃ i cells, s' = ⟨i, .builder cells⟩))
    (hb : ∀ i cells, s' = ⟨i, .builder cells⟩ → cells.length = size)
    (hj : ∀ j, j < size → (b'.codes[j]? = b.codes[j]? ∧ a' j = a j) ∨
      (b'.codes[j]? = some .removed ∧ a' j = some none) ∨
      ∃ v, tyOf v = t ∧ a' j = some (some v) ∧ b'.codes[j]? = some (.ty s'.index) ∧
        s'.data.get j = some v) : Good tyOf size b' (put t s' sts) a' := by
  have hty : b'.types = (put t s' sts).map Prod.fst := by
    rw [put_keys]
    cases hl : sts.lookup t with
    | none => rw [if_neg (lookup_none.1 hl), (hnew hl).1, h.types]
    | some s =>
      rw [if_pos, (hold s hl).1, h.types]
      exact Classical.byContradiction fun hn => by rw [lookup_none.2 hn] at hl; cases hl
  refine ⟨hh, hlen, hun, hty, ?_, ?_, ?_, ?_, ?_⟩
  · rw [put_keys]
    by_cases ht : t ∈ sts.map Prod.fst
    · rw [if_pos ht]; exact h.nodup
    · rw [if_neg ht]
      refine List.nodup_append.2 ⟨h.nodup, by simp, ?_⟩
      intro x hx y hy hxy
      rw [List.mem_singleton] at hy
      subst hy
      subst hxy
      exact ht hx
  · intro u s hs
    rw [lookup_put] at hs
    by_cases hu : u = t
    · subst hu
      rw [if_pos rfl] at hs
      cases hs
      cases hl : sts.lookup u with
      | none =>
        rw [(hnew hl).1, (hnew hl).2]
        simp
      | some s =>
        rw [(hold s hl).1, (hold s hl).2.1]
        exact h.index u s hl
    · rw [if_neg hu] at hs
      have := h.index u s hs
      cases hl : sts.lookup t with
      | none =>
        rw [(hnew hl).1]
        rw [List.getElem?_append_left]
        · exact this
        · exact (List.getElem?_eq_some_iff.1 this).1
      | some s0 => rw [(hold s0 hl).1]; exact this
  · intro u hu
    rcases hcur with hc | ⟨hc, i, cells, hs⟩
    · rw [hc] at hu; cases hu
    · rw [hc] at hu
      cases hu
      exact ⟨i, cells, by rw [lookup_put, if_pos rfl, hs]⟩
  · intro u i cells hs
    rw [lookup_put] at hs
    by_cases hu : u = t
    · rw [if_pos hu] at hs
      cases hs
      exact hb i cells rfl
    · rw [if_neg hu] at hs
      exact h.blen u i cells hs
  · intro j hjs
    refine cells_step (ext_put fun s hs => (hold s hs).2) (h.cell j hjs) ?_
    rcases hj j hjs with h1 | h1 | ⟨v, h1, h2, h3, h4⟩
    · exact .inl h1
    · exact .inr (.inl h1)
    · exact .inr (.inr ⟨v, s', h2, by rw [lookup_put, if_pos h1], h3, h4⟩)

/-- The storages stay. -/
theorem good_codes {tyOf : V → T} {size : Nat} {b b' : Bldr T V} {sts : List (T × Stor V)}
    {a a' : Nat → Option (Option V)} (h : Good tyOf size b sts a) (hh : Holds b' sts)
    (hty : b'.types = b.types) (hlen : b'.codes.length = size)
    (hun : b'.unset = b'.codes.count .unset)
    (hcur : ∀ t, b'.cur = some t → ∃ i cells, sts.lookup t = some ⟨i, .builder cells⟩)
    (hj : ∀ j, j < size → (b'.codes[j]? = b.codes[j]? ∧ a' j = a j) ∨
      (b'.codes[j]? = some .removed ∧ a' j = some none)) : Good tyOf size b' sts a' := by
  refine ⟨hh, hlen, hun, by rw [hty, h.types], h.nodup, ?_, hcur, h.blen, ?_⟩
  · rw [hty]; exact h.index
  · intro j hjs
    refine cells_step (codes := b.codes) (sts := sts) (fun t s hs => ⟨s, hs, rfl, fun _ _ => rfl⟩) (h.cell j hjs) ?_
    rcases hj j hjs with h1 | h1
    · exact .inl h1
    · exact .inr (.inl h1)

theorem cell_unset {tyOf : V → T} {sts : List (T × Stor V)} {j : Nat} {c : Option Code}
    {x : Option (Option V)} (h : CellOk tyOf sts j c x) : c = some .unset ↔ x = none := by
  cases x with
  | none => exact ⟨fun _ => rfl, fun _ => h⟩
  | some y =>
    cases y with
    | none =>
      have h' : c = some .removed := h
      rw [h']
      exact ⟨fun h => (by cases h), fun h => (by cases h)⟩
    | some v =>
      obtain ⟨s, _, h', _⟩ := h
      rw [h']
      exact ⟨fun h => (by cases h), fun h => (by cases h)⟩

/-- A builder for the type. -/
structure Ready (tyOf : V → T) (size : Nat) (b b' : Bldr T V) (sts' : List (T × Stor V))
    (a : Nat → Option (Option V)) (t : T) (i : Nat) (cells : List (Option V)) : Prop where
  good : Good tyOf size b' sts' a
  cur : b'.cur = some t
  codes : b'.codes = b.codes
  unset : b'.unset = b.unset
  look : sts'.lookup t = some ⟨i, .builder cells⟩

theorem from_spec {tyOf : V → T} {size : Nat} {b c : Bldr T V} {sts : List (T × Stor V)}
    {a : Nat → Option (Option V)} (h : Good tyOf size b sts a) {t : T} {s : Stor V}
    (hh : Holds c sts) (hcur : c.cur = some t) (hl : sts.lookup t = some s)
    (hcodes : c.codes = b.codes) (hun : c.unset = b.unset) (hty : c.types = b.types) :
    ∃ sts' i cells, Ready tyOf size b (fromCurrent c s) sts' a t i cells := by
  obtain ⟨si, data⟩ := s
  cases data with
  | builder cells =>
    simp only [fromCurrent]
    refine ⟨sts, si, cells, ?_, hcur, hcodes, hun, hl⟩
    refine good_codes h hh hty (by rw [hcodes]; exact h.len) (by rw [hun, hcodes]; exact h.unset) ?_ ?_
    · intro u hu
      rw [hcur] at hu
      cases hu
      exact ⟨si, cells, hl⟩
    · intro j _
      exact .inl ⟨by rw [hcodes], rfl⟩
  | buffer vs =>
    have hs := (cur_spec hh hcur hl).2
    simp only [fromCurrent]
    refine ⟨put t ⟨si, .builder ((List.range c.codes.length).map fun i =>
      if c.codes[i]? = some (.ty si) then vs[i]? else none)⟩ sts, si, _, ?_, ?_, ?_, ?_,
      (lookup_put _ _ _ _).trans (if_pos rfl)⟩
    · refine good_put h (hs _) (by rw [(set_fields _ _).1, hcodes]; exact h.len)
        (by rw [(set_fields _ _).1, (set_fields _ _).2.1, hcodes, hun]; exact h.unset) ?_ ?_ ?_ ?_ ?_
      · intro s' hs'
        rw [hl] at hs'
        cases hs'
        refine ⟨by rw [(set_fields _ _).2.2.1, hty], rfl, fun j hj => ?_⟩
        have hjl : j < b.codes.length := (List.getElem?_eq_some_iff.1 hj).1
        simp only [Data.get, List.getElem?_map, List.getElem?_range hjl, Option.map_some, hcodes, hj,
          if_true, Option.join_some]
      · intro hn
        rw [hl] at hn
        cases hn
      · exact .inr ⟨by rw [(set_fields _ _).2.2.2.1, hcur], _, _, rfl⟩
      · intro i cells he
        cases he
        simp [hcodes, h.len]
      · intro j _
        exact .inl ⟨by rw [(set_fields _ _).1, hcodes], rfl⟩
    · rw [(set_fields _ _).2.2.2.1, hcur]
    · rw [(set_fields _ _).1, hcodes]
    · rw [(set_fields _ _).2.1, hun]

theorem getBuilder_spec {tyOf : V → T} {size : Nat} {b : Bldr T V} {sts : List (T × Stor V)}
    {a : Nat → Option (Option V)} (h : Good tyOf size b sts a) (t : T) :
    ∃ b' sts' i cells, getBuilder b t = some b' ∧ Ready tyOf size b b' sts' a t i cells := by
  unfold getBuilder
  by_cases hc : b.cur = some t
  · rw [if_pos hc]
    obtain ⟨i, cells, hl⟩ := h.curb t hc
    rw [(cur_spec h.holds hc hl).1]
    exact ⟨b, sts, i, cells, rfl, h, hc, rfl, rfl, hl⟩
  · rw [if_neg hc]
    obtain ⟨h1, h2, h3⟩ := change_spec h.holds hc
    obtain ⟨f1, f2, f3, f4, f5⟩ := change_fields b t
    rw [h1]
    cases hl : sts.lookup t with
    | none =>
      simp only
      refine ⟨_, put t ⟨b.types.length, .builder (List.replicate b.codes.length none)⟩ sts,
        b.types.length, List.replicate b.codes.length none, rfl, ?_, ?_, ?_, ?_,
        by rw [lookup_put, if_pos rfl]⟩
      · refine good_put h (h2 _ _) ?_ ?_ ?_ ?_ ?_ ?_ ?_
        · rw [(set_fields _ _).1]; simp only [f1]; exact h.len
        · rw [(set_fields _ _).1, (set_fields _ _).2.1]; simp only [f1, f2]; exact h.unset
        · intro s hs
          rw [hl] at hs
          cases hs
        · intro _
          exact ⟨by rw [(set_fields _ _).2.2.1], rfl⟩
        · exact .inr ⟨by rw [(set_fields _ _).2.2.2.1]; exact f4, _, _, rfl⟩
        · intro i cells he
          cases he
          rw [List.length_replicate]
          exact h.len
        · intro j _
          exact .inl ⟨by rw [(set_fields _ _).1]; simp only [f1], rfl⟩
      · rw [(set_fields _ _).2.2.2.1]; exact f4
      · rw [(set_fields _ _).1]; exact f1
      · rw [(set_fields _ _).2.1]; exact f2
    | some s =>
      obtain ⟨sts', i, cells, hr⟩ := from_spec h (h3 s hl) f4 hl f1 f2 f3
      exact ⟨_, sts', i, cells, rfl, hr⟩

theorem count_zip {M : Type} (f : Code → M → Code) (p : Code × M → Bool)
    (hp : ∀ c m, p (c, m) = true → c = .unset ∧ f c m ≠ .unset)
    (hn : ∀ c m, p (c, m) = false → f c m = c) (codes : List Code) (ms : List M)
    (hl : ms.length = codes.length) :
    (List.zipWith f codes ms).count .unset + (codes.zip ms).countP p = codes.count .unset := by
  induction codes generalizing ms with
  | nil => rfl
  | cons c codes ih =>
    cases ms with
    | nil => cases hl
    | cons m ms =>
      have := ih ms (by simpa using hl)
      rw [List.zipWith_cons_cons, List.zip_cons_cons, List.count_cons, List.countP_cons, List.count_cons]
      cases hpc : p (c, m) with
      | true =>
        obtain ⟨h1, h2⟩ := hp c m hpc
        subst h1
        rw [show (f Code.unset m == Code.unset) = false from by simpa using h2]
        simp
        omega
      | false =>
        rw [hn c m hpc]
        simp
        omega

/-- What a call does. -/
def Step (tyOf : V → T) (size : Nat) (a : Nat → Option (Option V)) (op : Op T V)
    (r : Option (Bldr T V)) : Prop :=
  ∃ b' sts', r = some b' ∧ Good tyOf size b' sts' fun j => (a j).or (offered op j)

theorem one_spec {tyOf : V → T} {size : Nat} {b : Bldr T V} {sts : List (T × Stor V)}
    {a : Nat → Option (Option V)} (h : Good tyOf size b sts a) {id : Nat} (hid : id < size)
    (v : Option V) : Step tyOf size a (.one id v) (insertIfNotSet tyOf b id v) := by
  have hcell := cell_unset (h.cell id hid)
  unfold insertIfNotSet isSet
  by_cases hu : b.codes[id]? = some .unset
  · rw [hu]
    simp only [bne_self_eq_false, Bool.false_eq_true, if_false]
    have hlt : id < b.codes.length := by rw [h.len]; exact hid
    have hget : b.codes[id] = .unset := by
      rw [List.getElem?_eq_getElem hlt] at hu
      exact Option.some.inj hu
    have hcount : ∀ c, c ≠ Code.unset → b.unset - 1 = (b.codes.set id c).count .unset := by
      intro c hc
      rw [List.count_set hlt, h.unset, hget, beq_self_eq_true,
        show (c == Code.unset) = false from by simpa using hc]
      simp
    have hoff : ∀ j, j ≠ id → (a j).or (offered (Op.one (T := T) id v) j) = a j := by
      intro j hj
      simp only [offered, if_neg hj, Option.or_none]
    cases v with
    | none =>
      refine ⟨_, sts, rfl, ?_⟩
      refine good_codes h h.holds rfl (by simp only [List.length_set]; exact h.len)
        (hcount _ (fun h => (by cases h))) h.curb ?_
      intro j _
      by_cases hj : j = id
      · subst hj
        right
        refine ⟨List.getElem?_set_self hlt, ?_⟩
        rw [hcell.1 hu]
        simp only [offered, if_pos, Option.none_or]
      · left
        exact ⟨List.getElem?_set_ne (fun he => hj he.symm), hoff j hj⟩
    | some v =>
      obtain ⟨b', sts', i, cells, hb, hr⟩ := getBuilder_spec h (tyOf v)
      obtain ⟨hc1, hc2⟩ := cur_spec hr.good.holds hr.cur hr.look
      unfold insertOne
      simp only [hb, hc1]
      have hcl := hr.good.blen _ _ _ hr.look
      refine ⟨_, put (tyOf v) ⟨i, .builder (cells.set id (some v))⟩ sts', rfl, ?_⟩
      refine good_put hr.good (hc2 _) (by simp only [List.length_set]; exact h.len)
        (hcount _ (fun h => (by cases h))) ?_ ?_ ?_ ?_ ?_
      · intro s hs
        rw [hr.look] at hs
        cases hs
        refine ⟨(set_fields _ _).2.2.1, rfl, fun j hj => ?_⟩
        have hne : id ≠ j := by
          rintro rfl
          rw [hr.codes, hu] at hj
          cases hj
        simp only [Data.get, List.getElem?_set_ne hne]
      · intro hn
        rw [hr.look] at hn
        cases hn
      · exact .inr ⟨by simp only; rw [(set_fields _ _).2.2.2.1]; exact hr.cur, _, _, rfl⟩
      · intro i' cells' he
        cases he
        rw [List.length_set]
        exact hcl
      · intro j _
        by_cases hj : j = id
        · subst hj
          right; right
          refine ⟨v, rfl, ?_, List.getElem?_set_self hlt, ?_⟩
          · rw [hcell.1 hu]
            simp only [offered, if_pos, Option.none_or]
          · simp only [Data.get]
            rw [List.getElem?_set_self (by rw [hcl]; exact hid)]
            rfl
        · left
          refine ⟨?_, hoff j hj⟩
          rw [hr.codes]
          exact List.getElem?_set_ne (fun he => hj he.symm)
  · rw [if_pos (by simpa using hu)]
    refine ⟨b, sts, rfl, ?_⟩
    have : (fun j => (a j).or (offered (Op.one (T := T) id v) j)) = a := by
      funext j
      by_cases hj : j = id
      · subst hj
        cases ha : a j with
        | none => exact (hu (hcell.2 ha)).elim
        | some x => rfl
      · simp only [offered, if_neg hj, Option.or_none]
    rw [this]
    exact h

/-- A view of the current type inserts as the builder does. -/
theorem typed_one {tyOf : V → T} {size : Nat} {b : Bldr T V} {sts : List (T × Stor V)}
    {a : Nat → Option (Option V)} (h : Good tyOf size b sts a) {t : T} {i : Nat}
    {cells : List (Option V)} (hc : b.cur = some t) (hl : sts.lookup t = some ⟨i, .builder cells⟩)
    (id : Nat) (v : Option V) (hv : ∀ w, v = some w → tyOf w = t) :
    typedIfNotSet i b id v = insertIfNotSet tyOf b id v ∧
      ∀ b', insertIfNotSet tyOf b id v = some b' → b'.cur = some t ∧ b'.types = b.types := by
  obtain ⟨h1, _⟩ := cur_spec h.holds hc hl
  unfold typedIfNotSet insertIfNotSet
  by_cases hs : isSet b id = true
  · rw [if_pos hs, if_pos hs]
    refine ⟨rfl, fun b' hb => ?_⟩
    cases hb
    exact ⟨hc, rfl⟩
  · rw [if_neg hs, if_neg hs]
    cases v with
    | none =>
      refine ⟨rfl, fun b' hb => ?_⟩
      cases hb
      exact ⟨hc, rfl⟩
    | some w =>
      have hg : getBuilder b (tyOf w) = some b := by
        unfold getBuilder
        rw [hv w rfl, if_pos hc, h1]
      unfold typedOne insertOne
      simp only [hg, h1]
      refine ⟨trivial, fun b' hb => ?_⟩
      cases hb
      exact ⟨by simp only; rw [(set_fields _ _).2.2.2.1]; exact hc, (set_fields _ _).2.2.1⟩

theorem nodup_index {X : Type} {l : List X} (hn : l.Nodup) {i k : Nat} {x : X} (hi : l[i]? = some x)
    (hk : l[k]? = some x) : i = k := by
  induction l generalizing i k with
  | nil => cases hi
  | cons y l ih =>
    rw [List.nodup_cons] at hn
    cases i with
    | zero =>
      cases k with
      | zero => rfl
      | succ k =>
        cases hi
        exact (hn.1 (List.mem_of_getElem? hk)).elim
    | succ i =>
      cases k with
      | zero =>
        cases hk
        exact (hn.1 (List.mem_of_getElem? hi)).elim
      | succ k => rw [ih hn.2 hi hk]

theorem typed_all {tyOf : V → T} {size : Nat} {t : T} {i : Nat} (items : List (Nat × Option V)) :
    ∀ {b : Bldr T V} {sts : List (T × Stor V)} {a : Nat → Option (Option V)} {cells : List (Option V)},
    Good tyOf size b sts a → b.cur = some t → sts.lookup t = some ⟨i, .builder cells⟩ →
    Fits tyOf size (.typed t items) → Step tyOf size a (.typed t items) (typedAll i items b) := by
  induction items with
  | nil =>
    intro b sts a cells h _ _ _
    refine ⟨b, sts, rfl, ?_⟩
    have : (fun j => (a j).or (offered (Op.typed (V := V) t []) j)) = a := by
      funext j
      exact Option.or_none
    rw [this]
    exact h
  | cons p items ih =>
    intro b sts a cells h hc hl hf
    obtain ⟨id, v⟩ := p
    have hp := hf (id, v) List.mem_cons_self
    obtain ⟨e1, e2⟩ := typed_one h hc hl id v hp.2
    obtain ⟨b1, sts1, hb1, h1⟩ := one_spec h hp.1 v
    obtain ⟨c1, t1⟩ := e2 b1 hb1
    obtain ⟨i', cells', hl'⟩ := h1.curb t c1
    have hi : i' = i := by
      have k1 := h1.index t _ hl'
      have k2 := h.index t _ hl
      rw [t1] at k1
      refine nodup_index ?_ k1 k2
      rw [h.types]
      exact h.nodup
    subst hi
    obtain ⟨b2, sts2, hb2, h2⟩ := ih h1 c1 hl' fun q hq => hf q (List.mem_cons_of_mem _ hq)
    refine ⟨b2, sts2, ?_, ?_⟩
    · rw [typedAll, e1, hb1]
      exact hb2
    · have : (fun j => (a j).or (offered (Op.typed t ((id, v) :: items)) j)) =
          fun j => ((a j).or (offered (Op.one (T := T) id v) j)).or (offered (Op.typed t items) j) := by
        funext j
        rw [Option.or_assoc]
        simp only [offered, List.findSome?_cons]
        by_cases hj : j = id
        · rw [if_pos hj]
          rfl
        · rw [if_neg hj]
          rfl
      rw [this]
      exact h2

theorem typed_spec {tyOf : V → T} {size : Nat} {b : Bldr T V} {sts : List (T × Stor V)}
    {a : Nat → Option (Option V)} (h : Good tyOf size b sts a) {t : T} {items : List (Nat × Option V)}
    (hf : Fits tyOf size (.typed t items)) : Step tyOf size a (.typed t items) (typed b t items) := by
  obtain ⟨b', sts', i, cells, hb, hr⟩ := getBuilder_spec h t
  unfold typed
  simp only [hb, (cur_spec hr.good.holds hr.cur hr.look).1]
  exact typed_all items hr.good hr.cur hr.look hf

theorem or_set {tyOf : V → T} {sts : List (T × Stor V)} {j : Nat} {c : Option Code}
    {x : Option (Option V)} (h : CellOk tyOf sts j c x) (hc : c ≠ some .unset)
    (y : Option (Option V)) : x.or y = x := by
  cases x with
  | none => exact (hc h).elim
  | some x => rfl

theorem mask_spec {tyOf : V → T} {size : Nat} {b : Bldr T V} {sts : List (T × Stor V)}
    {a : Nat → Option (Option V)} (h : Good tyOf size b sts a) {m : List Bool}
    (hm : m.length = size) : Step tyOf size a (.mask m) (some (applyMask b m)) := by
  have hlm : m.length = b.codes.length := by rw [hm, h.len]
  refine ⟨_, sts, rfl, ?_⟩
  refine good_codes h h.holds rfl ?_ ?_ h.curb ?_
  · simp only [applyMask, List.length_zipWith, h.len, hm, Nat.min_self]
  · have := count_zip maskCode (fun p => !p.2 && p.1 = .unset) ?_ ?_ b.codes m hlm
    · simp only [applyMask]
      rw [h.unset]
      omega
    · intro c x hp
      simp only [Bool.and_eq_true, decide_eq_true_eq] at hp
      unfold maskCode
      rw [if_pos (by simpa using hp)]
      exact ⟨hp.2, fun h => (by cases h)⟩
    · intro c x hp
      unfold maskCode
      rw [if_neg (by simpa using hp)]
  · intro j hj
    have hc := h.cell j hj
    obtain ⟨c, hcj⟩ : ∃ c, b.codes[j]? = some c := ⟨_, List.getElem?_eq_getElem (by rw [h.len]; exact hj)⟩
    obtain ⟨x, hxj⟩ : ∃ x, m[j]? = some x := ⟨_, List.getElem?_eq_getElem (by rw [hm]; exact hj)⟩
    rw [hcj] at hc
    simp only [applyMask, List.getElem?_zipWith, hcj, hxj, offered]
    by_cases hu : c = .unset
    · subst hu
      rw [(cell_unset hc).1 rfl]
      cases x
      · right
        exact ⟨rfl, by simp⟩
      · left
        exact ⟨rfl, by simp⟩
    · left
      refine ⟨?_, or_set hc (fun he => hu (Option.some.inj he)) _⟩
      unfold maskCode
      rw [if_neg (by simp [hu])]

/-- What a batch does to an element. -/
theorem batch_cell {tyOf : V → T} {sts : List (T × Stor V)} {codes : List Code} {j i size : Nat}
    {x : Option (Option V)} (h : CellOk tyOf sts j codes[j]? x) {t : T} {m : List (Bool × Bool)}
    {vs : List V} (hf : Fits tyOf size (.batch t m vs)) (hl : codes.length = size) (hj : j < size) :
    ((List.zipWith (newCode i) codes m)[j]? = codes[j]? ∧ x.or (offered (Op.batch t m vs) j) = x ∧
      ¬ (m[j]? = some (true, true) ∧ codes[j]? = some .unset)) ∨
    ((List.zipWith (newCode i) codes m)[j]? = some .removed ∧
      x.or (offered (Op.batch t m vs) j) = some none) ∨
    ∃ v, tyOf v = t ∧ x.or (offered (Op.batch t m vs) j) = some (some v) ∧
      (List.zipWith (newCode i) codes m)[j]? = some (.ty i) ∧ vs[j]? = some v ∧
      m[j]? = some (true, true) ∧ codes[j]? = some .unset := by
  obtain ⟨hm, hv, hall⟩ := hf
  obtain ⟨c, hcj⟩ : ∃ c, codes[j]? = some c := ⟨_, List.getElem?_eq_getElem (by rw [hl]; exact hj)⟩
  obtain ⟨y, hyj⟩ : ∃ y, m[j]? = some y := ⟨_, List.getElem?_eq_getElem (by rw [hm]; exact hj)⟩
  obtain ⟨v, hvj⟩ : ∃ v, vs[j]? = some v := ⟨_, List.getElem?_eq_getElem (by rw [hv]; exact hj)⟩
  rw [hcj] at h
  simp only [List.getElem?_zipWith, hcj, hyj, hvj, offered]
  by_cases hu : c = .unset
  · subst hu
    rw [(cell_unset h).1 rfl]
    obtain ⟨y1, y2⟩ := y
    cases y1
    · left
      exact ⟨rfl, rfl, fun he => (by cases he.1)⟩
    · cases y2
      · right; left
        exact ⟨rfl, rfl⟩
      · right; right
        exact ⟨v, hall v (List.mem_of_getElem? hvj), rfl, rfl, rfl, rfl, rfl⟩
  · left
    refine ⟨?_, or_set h (fun he => hu (Option.some.inj he)) _, fun he => hu (Option.some.inj he.2)⟩
    unfold newCode
    rw [if_neg (by simp [hu])]

theorem batch_count {b : Bldr T V} {m : List (Bool × Bool)} (i : Nat) (hl : m.length = b.codes.length)
    (hu : b.unset = b.codes.count .unset) :
    (updateTypes b i m).unset = (updateTypes b i m).codes.count .unset := by
  have := count_zip (newCode i) (fun p => p.2.1 && p.1 = .unset) ?_ ?_ b.codes m hl
  · simp only [updateTypes]
    rw [hu]
    omega
  · intro c x hp
    simp only [Bool.and_eq_true, decide_eq_true_eq] at hp
    unfold newCode
    rw [if_pos (by simpa using hp)]
    refine ⟨hp.2, ?_⟩
    cases x.2 <;> exact fun h => (by cases h)
  · intro c x hp
    unfold newCode
    rw [if_neg (by simpa using hp)]

theorem into_spec {tyOf : V → T} {size : Nat} {b c : Bldr T V} {sts : List (T × Stor V)}
    {a : Nat → Option (Option V)} (h : Good tyOf size b sts a) {t : T} {s : Stor V}
    (hh : Holds c sts) (hcur : c.cur = some t) (hl : sts.lookup t = some s)
    (hcodes : c.codes = b.codes) (hun : c.unset = b.unset) (hty : c.types = b.types)
    {m : List (Bool × Bool)} {vs : List V} (hf : Fits tyOf size (.batch t m vs)) :
    Step tyOf size a (.batch t m vs) (batchInto c m vs) := by
  obtain ⟨sts', i, cells, hr⟩ := from_spec h hh hcur hl hcodes hun hty
  obtain ⟨hc1, hc2⟩ := cur_spec hr.good.holds hr.cur hr.look
  unfold batchInto
  rw [(cur_spec hh hcur hl).1]
  simp only [hc1]
  have hcl := hr.good.blen _ _ _ hr.look
  have f := set_fields (fromCurrent c s) ⟨i, .builder (batchCells c.codes m vs cells)⟩
  refine ⟨_, put t ⟨i, .builder (batchCells c.codes m vs cells)⟩ sts', rfl, ?_⟩
  refine good_put hr.good (hc2 _) ?_ ?_ ?_ ?_ ?_ ?_ ?_
  · simp only [updateTypes, List.length_zipWith, f.1, hr.codes, h.len, hf.1, Nat.min_self]
  · refine batch_count i ?_ ?_
    · rw [f.1, hr.codes, h.len, hf.1]
    · rw [f.1, f.2.1]
      exact hr.good.unset
  · intro s' hs
    rw [hr.look] at hs
    cases hs
    refine ⟨f.2.2.1, rfl, fun j hj => ?_⟩
    rw [hr.codes] at hj
    have hjl : j < b.codes.length := (List.getElem?_eq_some_iff.1 hj).1
    simp only [Data.get, batchCells, List.getElem?_map, List.getElem?_range hjl, Option.map_some, hcodes,
      hj, Option.join_some]
    rw [if_neg (by simp)]
  · intro hn
    rw [hr.look] at hn
    cases hn
  · exact .inr ⟨by simp only [updateTypes]; rw [f.2.2.2.1]; exact hr.cur, _, _, rfl⟩
  · intro i' cells' he
    cases he
    simp [batchCells, hcodes, h.len]
  · intro j hj
    simp only [updateTypes, f.1, hr.codes]
    rcases batch_cell (i := i) (h.cell j hj) hf h.len hj with h1 | h1 | ⟨v, h1, h2, h3, h4, h5, h6⟩
    · exact .inl ⟨h1.1, h1.2.1⟩
    · exact .inr (.inl h1)
    · refine .inr (.inr ⟨v, h1, h2, h3, ?_⟩)
      have hjl : j < b.codes.length := by rw [h.len]; exact hj
      simp only [Data.get, batchCells, List.getElem?_map, List.getElem?_range hjl, Option.map_some,
        hcodes, h4, h5, h6, Option.join_some]
      rw [if_pos (by simp)]

theorem unset_fields (b : Bldr T V) : (unsetCurrent b).codes = b.codes ∧
    (unsetCurrent b).unset = b.unset ∧ (unsetCurrent b).types = b.types ∧
    (unsetCurrent b).cur = none := by
  obtain ⟨codes, unset, types, first, store, phase, cur⟩ := b
  cases phase <;> exact ⟨rfl, rfl, rfl, rfl⟩

theorem batch_spec {tyOf : V → T} {size : Nat} {b : Bldr T V} {sts : List (T × Stor V)}
    {a : Nat → Option (Option V)} (h : Good tyOf size b sts a) {t : T}
    {m : List (Bool × Bool)} {vs : List V} (hf : Fits tyOf size (.batch t m vs)) :
    Step tyOf size a (.batch t m vs) (insertBatch b t m vs) := by
  unfold insertBatch
  by_cases hc : b.cur = some t
  · rw [if_pos hc]
    obtain ⟨i, cells, hl⟩ := h.curb t hc
    exact into_spec h h.holds hc hl rfl rfl rfl hf
  · rw [if_neg hc]
    obtain ⟨h1, h2, h3⟩ := change_spec h.holds hc
    obtain ⟨f1, f2, f3, f4, f5⟩ := change_fields b t
    rw [h1]
    cases hl : sts.lookup t with
    | some s => exact into_spec h (h3 s hl) f4 hl f1 f2 f3 hf
    | none =>
      simp only
      have g := set_fields { changeCurrent b t with types := b.types ++ [t] }
        ⟨b.types.length, .buffer vs⟩
      have h2' := h2 ⟨b.types.length, .buffer vs⟩ (b.types ++ [t])
      generalize setCurrent { changeCurrent b t with types := b.types ++ [t] }
        ⟨b.types.length, .buffer vs⟩ = d at g h2' ⊢
      simp only [f1, f2] at g
      refine ⟨_, put t ⟨b.types.length, .buffer vs⟩ sts, rfl, ?_⟩
      have u := unset_fields (updateTypes d b.types.length m)
      have hu' : Holds (updateTypes d b.types.length m) (put t ⟨b.types.length, .buffer vs⟩ sts) := h2'
      refine good_put h (unset_spec hu' ?_) ?_ ?_ ?_ ?_ ?_ ?_ ?_
      · simp only [updateTypes]
        rw [g.2.2.2.2]
        exact f5
      · rw [u.1]
        simp only [updateTypes, List.length_zipWith, g.1, h.len, hf.1, Nat.min_self]
      · rw [u.1, u.2.1]
        refine batch_count _ ?_ ?_
        · rw [g.1, h.len, hf.1]
        · rw [g.1, g.2.1]
          exact h.unset
      · intro s hs
        rw [hl] at hs
        cases hs
      · intro _
        refine ⟨?_, rfl⟩
        rw [u.2.2.1]
        exact g.2.2.1
      · exact .inl u.2.2.2
      · intro i cells he
        cases he
      · intro j hj
        rw [u.1]
        simp only [updateTypes, g.1]
        rcases batch_cell (i := b.types.length) (h.cell j hj) hf h.len hj with
          h1 | h1 | ⟨v, h1, h2, h3, h4, _⟩
        · exact .inl ⟨h1.1, h1.2.1⟩
        · exact .inr (.inl h1)
        · exact .inr (.inr ⟨v, h1, h2, h3, h4⟩)

theorem all_spec {tyOf : V → T} {size : Nat} (ops : List (Op T V)) :
    ∀ {b : Bldr T V} {sts : List (T × Stor V)} {a : Nat → Option (Option V)},
    Good tyOf size b sts a → (∀ op ∈ ops, Fits tyOf size op) →
    ∃ b' sts', applyAll tyOf ops b = some b' ∧
      Good tyOf size b' sts' fun j => (a j).or (outcome ops j) := by
  induction ops with
  | nil =>
    intro b sts a h _
    refine ⟨b, sts, rfl, ?_⟩
    have : (fun j => (a j).or (outcome ([] : List (Op T V)) j)) = a := by
      funext j
      exact Option.or_none
    rw [this]
    exact h
  | cons op ops ih =>
    intro b sts a h hf
    have hstep : Step tyOf size a op (apply tyOf b op) := by
      have := hf op List.mem_cons_self
      cases op with
      | one id v => exact one_spec h this v
      | mask m => exact mask_spec h this
      | batch t m vs => exact batch_spec h this
      | typed t items => exact typed_spec h this
    obtain ⟨b1, sts1, hb1, h1⟩ := hstep
    obtain ⟨b2, sts2, hb2, h2⟩ := ih h1 fun o ho => hf o (List.mem_cons_of_mem _ ho)
    refine ⟨b2, sts2, by rw [applyAll, hb1]; exact hb2, ?_⟩
    have : (fun j => (a j).or (outcome (op :: ops) j)) =
        fun j => ((a j).or (offered op j)).or (outcome ops j) := by
      funext j
      unfold outcome
      rw [List.findSome?_cons, Option.or_assoc]
      cases offered op j <;> rfl
    rw [this]
    exact h2

theorem good_new (tyOf : V → T) (size : Nat) :
    Good tyOf size (new size : Bldr T V) [] fun _ => none := by
  refine ⟨⟨rfl, rfl, rfl, rfl⟩, by simp [new], by simp [new], rfl, .nil, ?_, ?_, ?_, ?_⟩
  · intro t s hs; cases hs
  · intro t ht; cases ht
  · intro t i cells hs; cases hs
  · intro j hj
    simp only [CellOk, new, List.getElem?_replicate, if_pos hj]

theorem newIndex_spec {X : Type} (l : List (Option X)) (n i : Nat) (x : X) (h : l[i]? = some (some x)) :
    ∃ k, (newIndex l n)[i]? = some (some (n + k)) ∧ (l.filterMap id)[k]? = some x := by
  induction l generalizing n i with
  | nil => cases h
  | cons y l ih =>
    cases i with
    | zero =>
      rw [List.getElem?_cons_zero] at h
      cases h
      exact ⟨0, by rw [newIndex]; rfl, rfl⟩
    | succ i =>
      rw [List.getElem?_cons_succ] at h
      cases y with
      | none =>
        obtain ⟨k, h1, h2⟩ := ih n i h
        exact ⟨k, by rw [newIndex, List.getElem?_cons_succ, h1], h2⟩
      | some y =>
        obtain ⟨k, h1, h2⟩ := ih (n + 1) i h
        refine ⟨k + 1, ?_, h2⟩
        rw [newIndex, List.getElem?_cons_succ, h1]
        congr 2
        omega

theorem all_some {X : Type} (l : List (Option X)) (h : l.all Option.isSome = true) (i : Nat) (x : X)
    (hi : l[i]? = some (some x)) : (l.filterMap id)[i]? = some x := by
  induction l generalizing i with
  | nil => cases hi
  | cons y l ih =>
    rw [List.all_cons, Bool.and_eq_true] at h
    cases y with
    | none => cases h.1
    | some y =>
      cases i with
      | zero =>
        rw [List.getElem?_cons_zero] at hi
        cases hi
        rfl
      | succ i => exact ih h.2 i hi

/-- The arrays of all storages. -/
def arrays (codes : List Code) (sts : List (T × Stor V)) : List (Option (T × List (Option V))) :=
  sts.map fun p => variant codes p.1 (some p.2)

/-- A slice with these arrays. -/
structure Built (codes : List Code) (sts : List (T × Stor V)) (s : Slice T V) : Prop where
  values : s.values = (arrays codes sts).filterMap id
  len : s.codes.length = codes.length
  keep : ∀ j : Nat, codes[j]? = some .unset ∨ codes[j]? = some .removed → s.codes[j]? = codes[j]?
  code : ∀ (j i : Nat) x, codes[j]? = some (.ty i) → (arrays codes sts)[i]? = some (some x) →
    ∃ k : Nat, s.codes[j]? = some (.ty k) ∧ s.values[k]? = some x
  dtype : ∀ t, s.dtype = some t ↔ s.values.map Prod.fst = [t]

theorem build_spec {tyOf : V → T} {size : Nat} {b : Bldr T V} {sts : List (T × Stor V)}
    {a : Nat → Option (Option V)} (h : Good tyOf size b sts a) : Built b.codes sts (build b) := by
  have hh := h.holds
  unfold Holds at hh
  unfold build
  cases hp : b.phase with
  | empty =>
    rw [hp] at hh
    obtain ⟨h1, h2, h3, rfl⟩ := hh
    refine ⟨rfl, rfl, fun _ _ => rfl, ?_, fun t => ⟨fun h => (by cases h), fun h => (by cases h)⟩⟩
    intro j i x _ hx
    cases hx
  | first =>
    rw [hp] at hh
    obtain ⟨t, s, h1, h2, h3, rfl⟩ := hh
    simp only [h1, h2]
    have hty : b.types = [t] := h.types
    cases hv : variant b.codes t (some s) with
    | none =>
      refine ⟨by simp [arrays, hv], rfl, fun _ _ => rfl, ?_,
        fun t => ⟨fun h => (by cases h), fun h => (by cases h)⟩⟩
      intro j i x _ hx
      cases i with
      | zero =>
        simp only [arrays, List.map_cons, List.getElem?_cons_zero, hv] at hx
        cases hx
      | succ i => cases hx
    | some y =>
      have hy : y.1 = t := by
        unfold variant at hv
        simp only at hv
        by_cases hc : b.codes.any (· = .ty s.index) = true
        · rw [if_pos hc] at hv
          cases hv
          rfl
        · rw [if_neg hc] at hv
          cases hv
      refine ⟨by simp [arrays, hv], rfl, fun _ _ => rfl, ?_, ?_⟩
      · intro j i x hj hx
        cases i with
        | zero =>
          simp only [arrays, List.map_cons, List.getElem?_cons_zero, hv] at hx
          cases hx
          exact ⟨0, hj, rfl⟩
        | succ i => cases hx
      · intro u
        simp only [hty, List.map_cons, List.map_nil, hy, List.getElem?_cons_zero]
        constructor
        · intro h; cases h; rfl
        · intro h; cases h; rfl
  | map =>
    rw [hp] at hh
    simp only at hh
    have ha : (b.store.map fun p => variant b.codes p.1 p.2) = arrays b.codes sts := by
      rw [hh]
      unfold lift arrays
      rw [List.map_map]
      rfl
    simp only [ha]
    have hd : ∀ (l : List (T × List (Option V))) t,
        (if l.length = 1 then l.getLast?.map Prod.fst else none) = some t ↔ l.map Prod.fst = [t] := by
      intro l t
      match l with
      | [] => exact ⟨fun h => (by cases h), fun h => (by cases h)⟩
      | [x] =>
        simp
      | x :: y :: l =>
        simp
    by_cases hall : (arrays b.codes sts).all Option.isSome = true
    · simp only [if_pos hall]
      refine ⟨rfl, rfl, fun _ _ => rfl, ?_, hd _⟩
      intro j i x hj hx
      exact ⟨i, hj, all_some _ hall i x hx⟩
    · simp only [if_neg hall]
      refine ⟨rfl, by simp, ?_, ?_, hd _⟩
      · intro j hj
        simp only [List.getElem?_map]
        rcases hj with hj | hj <;> rw [hj] <;> rfl
      · intro j i x hj hx
        obtain ⟨k, h1, h2⟩ := newIndex_spec _ 0 i x hx
        rw [Nat.zero_add] at h1
        refine ⟨k, ?_, h2⟩
        simp only [List.getElem?_map, hj, Option.map_some, remap, h1, Option.join_some]

theorem lookup_mem {X : Type} {t : T} {x : X} {l : List (T × X)} (h : l.lookup t = some x) :
    (t, x) ∈ l := by
  induction l with
  | nil => cases h
  | cons p l ih =>
    rw [List.lookup_cons] at h
    by_cases hu : t = p.1
    · rw [show (t == p.1) = true from by simpa using hu] at h
      cases h
      rw [hu]
      exact List.mem_cons_self
    · rw [show (t == p.1) = false from by simpa using hu] at h
      exact List.mem_cons_of_mem _ (ih h)

theorem mem_lookup {X : Type} {t : T} {x : X} {l : List (T × X)} (hn : (l.map Prod.fst).Nodup)
    (h : (t, x) ∈ l) : l.lookup t = some x := by
  induction l with
  | nil => cases h
  | cons p l ih =>
    rw [List.map_cons, List.nodup_cons] at hn
    rw [List.lookup_cons]
    rcases List.mem_cons.1 h with h | h
    · rw [← h, beq_self_eq_true]
    · have : t ≠ p.1 := fun he => hn.1 (he ▸ List.mem_map_of_mem (f := Prod.fst) h)
      rw [show (t == p.1) = false from by simpa using this]
      exact ih hn.2 h

theorem variant_some {codes : List Code} {t : T} {s : Stor V} {x : T × List (Option V)}
    (h : variant codes t (some s) = some x) :
    x = (t, array codes s) ∧ ∃ j : Nat, codes[j]? = some (.ty s.index) := by
  unfold variant at h
  simp only at h
  by_cases hc : codes.any (· = .ty s.index) = true
  · rw [if_pos hc] at h
    cases h
    refine ⟨rfl, ?_⟩
    obtain ⟨c, hm, hc'⟩ := List.any_eq_true.1 hc
    obtain ⟨j, hj⟩ := List.getElem?_of_mem hm
    exact ⟨j, by rw [hj, of_decide_eq_true hc']⟩
  · rw [if_neg hc] at h
    cases h

theorem arrays_sub (codes : List Code) (sts : List (T × Stor V)) :
    (((arrays codes sts).filterMap id).map Prod.fst).Sublist (sts.map Prod.fst) := by
  induction sts with
  | nil => exact .slnil
  | cons p sts ih =>
    unfold arrays at ih ⊢
    rw [List.map_cons, List.map_cons]
    cases hv : variant codes p.1 (some p.2) with
    | none => exact .cons _ ih
    | some x =>
      rw [List.filterMap_cons_some (by rfl : id (some x) = some x), List.map_cons, (variant_some hv).1]
      exact .cons₂ _ ih

theorem mem_values {codes : List Code} {sts : List (T × Stor V)} {x : T × List (Option V)}
    (h : x ∈ (arrays codes sts).filterMap id) :
    ∃ s, (x.1, s) ∈ sts ∧ x.2 = array codes s ∧ ∃ j : Nat, codes[j]? = some (.ty s.index) := by
  obtain ⟨y, hy, he⟩ := List.mem_filterMap.1 h
  obtain ⟨p, hp, rfl⟩ := List.mem_map.1 hy
  obtain ⟨h1, h2⟩ := variant_some he
  subst h1
  exact ⟨p.2, hp, rfl, h2⟩

theorem cell_ty {tyOf : V → T} {sts : List (T × Stor V)} {j i : Nat} {x : Option (Option V)}
    (h : CellOk tyOf sts j (some (.ty i)) x) :
    ∃ v s, x = some (some v) ∧ sts.lookup (tyOf v) = some s ∧ s.index = i ∧ s.data.get j = some v := by
  cases x with
  | none => cases h
  | some y =>
    cases y with
    | none => cases h
    | some v =>
      obtain ⟨s, h1, h2, h3⟩ := h
      cases h2
      exact ⟨v, s, rfl, h1, rfl, h3⟩

/-- A value has its array. -/
theorem pos_spec {tyOf : V → T} {size : Nat} {b : Bldr T V} {sts : List (T × Stor V)}
    {a : Nat → Option (Option V)} (h : Good tyOf size b sts a) {j : Nat} {v : V} (hj : j < size)
    (hv : a j = some (some v)) :
    ∃ k x, (build b).codes[j]? = some (.ty k) ∧ (build b).values[k]? = some x ∧ x.1 = tyOf v ∧
      x.2[j]? = some (some v) := by
  have hB := build_spec h
  have hc := h.cell j hj
  rw [hv] at hc
  obtain ⟨s, h1, h2, h3⟩ := hc
  have hi := h.index _ _ h1
  rw [h.types, List.getElem?_map] at hi
  obtain ⟨p, hp, hpt⟩ := Option.map_eq_some_iff.1 hi
  have hps : p.2 = s := by
    have := mem_lookup h.nodup (List.mem_of_getElem? hp : (p.1, p.2) ∈ sts)
    rw [hpt, h1] at this
    exact (Option.some.inj this).symm
  have hvar : variant b.codes p.1 (some p.2) = some (tyOf v, array b.codes s) := by
    unfold variant
    simp only
    rw [hps, hpt, if_pos]
    exact List.any_eq_true.2 ⟨_, List.mem_of_getElem? h2, decide_eq_true rfl⟩
  have harr : (arrays b.codes sts)[s.index]? = some (some (tyOf v, array b.codes s)) := by
    unfold arrays
    rw [List.getElem?_map, hp, Option.map_some, hvar]
  obtain ⟨k, hk1, hk2⟩ := hB.code j s.index _ h2 harr
  refine ⟨k, _, hk1, hk2, rfl, ?_⟩
  have hjl : j < b.codes.length := by rw [h.len]; exact hj
  simp only [array, List.getElem?_map, List.getElem?_range hjl, Option.map_some]
  rw [if_pos h2, h3]

/-- **C97**: a builder keeps the first value of each element.

However values of any types are inserted one by one, by views, in batches or masked out, in any order: no call fails.
An element is set if a call was about it, also with a missing value, and the builder is final if all are.
The slice has for each element the first value that was inserted, and nothing else. It has exactly one
array for each type with a value that counts, and it has a type if this is the only one. -/
theorem C97_build (tyOf : V → T) (size : Nat) (ops : List (Op T V))
    (hf : ∀ op ∈ ops, Fits tyOf size op) :
    ∃ b, applyAll tyOf ops (new size) = some b ∧
      (∀ j, j < size → isSet b j = (outcome ops j).isSome) ∧
      (isFinalized b = true ↔ ∀ j, j < size → (outcome ops j).isSome) ∧
      (∀ j, j < size → read (build b) j = (outcome ops j).join) ∧
      (∀ j, size ≤ j → read (build b) j = none) ∧
      ((build b).values.map Prod.fst).Nodup ∧
      (∀ t, t ∈ (build b).values.map Prod.fst ↔
        ∃ j v, j < size ∧ outcome ops j = some (some v) ∧ tyOf v = t) ∧
      (∀ t, (build b).dtype = some t ↔ (build b).values.map Prod.fst = [t]) := by
  obtain ⟨b, sts, hb, h⟩ := all_spec (size := size) (tyOf := tyOf) ops (good_new tyOf size) hf
  simp only [Option.none_or] at h
  have hB := build_spec h
  have hval := hB.values
  have hpos := fun j v => pos_spec h (j := j) (v := v)
  -- arrays have nothing else
  have harr : ∀ x ∈ (build b).values, ∀ j : Nat, (∀ i, b.codes[j]? ≠ some (.ty i)) → (x.2[j]?).join = none := by
    intro x hx j hj
    rw [hval] at hx
    obtain ⟨s, _, h2, _⟩ := mem_values hx
    rw [h2]
    unfold array
    rw [List.getElem?_map]
    by_cases hl : j < b.codes.length
    · rw [List.getElem?_range hl, Option.map_some, if_neg (hj s.index)]
      all_goals rfl
    · rw [List.getElem?_eq_none (by rw [List.length_range]; omega)]
      rfl
  have hnone : ∀ j, (∀ i, b.codes[j]? ≠ some (.ty i)) → (∀ i, (build b).codes[j]? ≠ some (.ty i)) →
      read (build b) j = none := by
    intro j h1 h2
    unfold read
    match hv : (build b).values with
    | [] => rfl
    | [x] => exact harr x (by rw [hv]; exact List.mem_cons_self) j h1
    | x :: y :: l =>
      generalize (build b).codes[j]? = c at h2
      cases c with
      | none => rfl
      | some c =>
        cases c with
        | ty i => exact (h2 i rfl).elim
        | unset => rfl
        | removed => rfl
  refine ⟨b, hb, ?_, ?_, ?_, ?_, ?_, ?_, hB.dtype⟩
  · intro j hj
    have := cell_unset (h.cell j hj)
    unfold isSet
    cases ho : outcome ops j with
    | none => rw [this.2 ho]; rfl
    | some x =>
      have hne : b.codes[j]? ≠ some .unset := fun he => by rw [this.1 he] at ho; cases ho
      simpa using hne
  · unfold isFinalized
    rw [beq_iff_eq, h.unset, List.count_eq_zero]
    constructor
    · intro hn j hj
      cases ho : outcome ops j with
      | none => exact (hn (List.mem_of_getElem? ((cell_unset (h.cell j hj)).2 ho))).elim
      | some x => rfl
    · intro hall hm
      obtain ⟨j, hj⟩ := List.getElem?_of_mem hm
      have hjs : j < size := by rw [← h.len]; exact (List.getElem?_eq_some_iff.1 hj).1
      have := hall j hjs
      rw [(cell_unset (h.cell j hjs)).1 hj] at this
      cases this
  · intro j hj
    have hc := h.cell j hj
    cases ho : outcome ops j with
    | none =>
      rw [ho] at hc
      have hc : b.codes[j]? = some .unset := hc
      refine hnone j (by rw [hc]; exact fun i h => (by cases h)) ?_
      rw [hB.keep j (.inl hc), hc]
      exact fun i h => (by cases h)
    | some y =>
      cases y with
      | none =>
        rw [ho] at hc
        have hc : b.codes[j]? = some .removed := hc
        refine hnone j (by rw [hc]; exact fun i h => (by cases h)) ?_
        rw [hB.keep j (.inr hc), hc]
        exact fun i h => (by cases h)
      | some v =>
        obtain ⟨k, x, h1, h2, _, h4⟩ := hpos j v hj ho
        unfold read
        match hv : (build b).values with
        | [] => rw [hv] at h2; cases h2
        | [y] =>
          rw [hv] at h2
          cases k with
          | zero =>
            cases h2
            simp only [h4, Option.join_some]
          | succ k => cases h2
        | y :: z :: l =>
          rw [hv] at h2
          simp only [h1, h2, h4, Option.join_some]
  · intro j hj
    have hc : b.codes[j]? = none := List.getElem?_eq_none (by rw [h.len]; exact hj)
    refine hnone j (by rw [hc]; exact fun i h => (by cases h)) ?_
    rw [List.getElem?_eq_none (by rw [hB.len, h.len]; exact hj)]
    exact fun i h => (by cases h)
  · rw [hval]
    exact (arrays_sub _ _).nodup h.nodup
  · intro t
    constructor
    · intro ht
      obtain ⟨x, hx, rfl⟩ := List.mem_map.1 ht
      rw [hval] at hx
      obtain ⟨s, h1, _, j, hj⟩ := mem_values hx
      have hjs : j < size := by rw [← h.len]; exact (List.getElem?_eq_some_iff.1 hj).1
      have hc := h.cell j hjs
      rw [hj] at hc
      obtain ⟨v, s', e1, e2, e3, _⟩ := cell_ty hc
      refine ⟨j, v, hjs, e1, ?_⟩
      have i1 := h.index _ _ e2
      have i2 := h.index _ _ (mem_lookup h.nodup h1)
      rw [e3, i2] at i1
      exact (Option.some.inj i1).symm
    · rintro ⟨j, v, hj, hv, rfl⟩
      obtain ⟨k, x, _, h2, h3, _⟩ := hpos j v hj hv
      rw [← h3]
      exact List.mem_map_of_mem (List.mem_of_getElem? h2)

/-- **C97**, the buffer of types of the slice: elements that were never set stay apart from elements that
were set to a missing value, and each value has the index of the array of its type. -/
theorem C97_codes (tyOf : V → T) (size : Nat) (ops : List (Op T V))
    (hf : ∀ op ∈ ops, Fits tyOf size op) :
    ∃ b, applyAll tyOf ops (new size) = some b ∧ (build b).codes.length = size ∧
      ∀ j, j < size →
        (outcome ops j = none → (build b).codes[j]? = some .unset) ∧
        (outcome ops j = some none → (build b).codes[j]? = some .removed) ∧
        ∀ v, outcome ops j = some (some v) →
          ∃ k x, (build b).codes[j]? = some (.ty k) ∧ (build b).values[k]? = some x ∧ x.1 = tyOf v ∧
            x.2[j]? = some (some v) := by
  obtain ⟨b, sts, hb, h⟩ := all_spec (size := size) (tyOf := tyOf) ops (good_new tyOf size) hf
  simp only [Option.none_or] at h
  have hB := build_spec h
  refine ⟨b, hb, by rw [hB.len, h.len], fun j hj => ⟨?_, ?_, fun v hv => pos_spec h hj hv⟩⟩
  · intro ho
    have hc := h.cell j hj
    rw [ho] at hc
    have hc : b.codes[j]? = some .unset := hc
    rw [hB.keep j (.inl hc), hc]
  · intro ho
    have hc := h.cell j hj
    rw [ho] at hc
    have hc : b.codes[j]? = some .removed := hc
    rw [hB.keep j (.inr hc), hc]

/-- **C97**, the arrays of the slice: they have the size of the slice, and only values that count, of their
type. -/
theorem C97_arrays (tyOf : V → T) (size : Nat) (ops : List (Op T V))
    (hf : ∀ op ∈ ops, Fits tyOf size op) :
    ∃ b, applyAll tyOf ops (new size) = some b ∧
      ∀ x ∈ (build b).values, x.2.length = size ∧
        ∀ (j : Nat) v, x.2[j]? = some (some v) → outcome ops j = some (some v) ∧ tyOf v = x.1 := by
  obtain ⟨b, sts, hb, h⟩ := all_spec (size := size) (tyOf := tyOf) ops (good_new tyOf size) hf
  simp only [Option.none_or] at h
  refine ⟨b, hb, fun x hx => ?_⟩
  rw [(build_spec h).values] at hx
  obtain ⟨s, h1, h2, _⟩ := mem_values hx
  rw [h2]
  refine ⟨by simp [array, h.len], fun j v hv => ?_⟩
  unfold array at hv
  rw [List.getElem?_map] at hv
  by_cases hl : j < b.codes.length
  · rw [List.getElem?_range hl, Option.map_some] at hv
    by_cases hc : b.codes[j]? = some (.ty s.index)
    · rw [if_pos hc] at hv
      have hcell := h.cell j (by rw [← h.len]; exact hl)
      rw [hc] at hcell
      obtain ⟨w, s', e1, e2, e3, e4⟩ := cell_ty hcell
      have hs := mem_lookup h.nodup h1
      have ht : tyOf w = x.1 := by
        have i1 := h.index _ _ e2
        rw [e3, h.index _ _ hs] at i1
        exact (Option.some.inj i1).symm
      rw [ht, hs] at e2
      cases e2
      rw [e4] at hv
      cases hv
      exact ⟨e1, ht⟩
    · rw [if_neg hc] at hv
      cases hv
  · rw [List.getElem?_eq_none (by rw [List.length_range]; omega)] at hv
    cases hv

/-! Values are strings and numbers. -/

/-- The type of an example value. -/
def exTy : Nat ⊕ String → Bool
  | .inl _ => false
  | .inr _ => true

/-- A batch of numbers, none of which count, then strings, and a number after all. -/
def exOps : List (Op Bool (Nat ⊕ String)) :=
  [.one 0 (some (.inr "a")), .mask [true, false, true, true],
   .batch false [(true, true), (true, true), (false, true), (true, false)] [.inl 1, .inl 2, .inl 3, .inl 4],
   .one 2 (some (.inr "b"))]

example : ∀ op ∈ exOps, Fits exTy 4 op := by
  intro op hop
  simp only [exOps, List.mem_cons, List.not_mem_nil, or_false] at hop
  rcases hop with rfl | rfl | rfl | rfl
  · exact Nat.zero_lt_succ 3
  · rfl
  · refine ⟨rfl, rfl, ?_⟩
    intro v hv
    simp only [List.mem_cons, List.not_mem_nil, or_false] at hv
    rcases hv with rfl | rfl | rfl | rfl <;> rfl
  · exact Nat.lt_of_sub_eq_succ (rfl : 4 - 2 = 2)

/-- The array of numbers goes away. -/
example : (applyAll exTy exOps (new 4)).map (fun b => ((build b).values, (build b).codes, (build b).dtype)) =
    some ([(true, [some (.inr "a"), none, some (.inr "b"), none])],
      [.ty 0, .removed, .ty 0, .removed], some true) := rfl

/-- The first array goes away, and the index of the other changes. -/
example : (applyAll exTy [.mask [false, true, true], .batch false [(true, true), (false, true), (false, true)]
      [.inl 1, .inl 2, .inl 3], .one 1 (some (.inr "b"))] (new 3)).map
      (fun b => ((build b).values, (build b).codes, (build b).dtype, isFinalized b)) =
    some ([(true, [none, some (.inr "b"), none])], [.removed, .ty 0, .unset], some true, false) := rfl

/-- A buffer that was passed is copied when a value is added. -/
example : (applyAll exTy [.batch false [(true, true), (true, true), (false, true)] [.inl 1, .inl 2, .inl 3],
      .one 2 (some (.inl 5)), .one 1 (some (.inl 6))] (new 3)).map
      (fun b => ((build b).values, (build b).dtype, isFinalized b)) =
    some ([(false, [some (.inl 1), some (.inl 2), some (.inl 5)])], some false, true) := rfl

/-- A view of strings after a view of numbers that inserts nothing, and a batch with a string that is late. -/
def exViews : List (Op Bool (Nat ⊕ String)) :=
  [.typed false [(1, none)], .typed true [(0, some (.inr "a")), (1, some (.inr "b")), (0, some (.inr "c"))],
   .batch true [(true, true), (true, true), (true, true)] [.inr "d", .inr "e", .inr "f"]]

example : (applyAll exTy exViews (new 3)).map
      (fun b => ((build b).values, (build b).codes, (build b).dtype, isFinalized b)) =
    some ([(true, [some (.inr "a"), none, some (.inr "f")])], [.ty 0, .removed, .ty 0], some true, true) := rfl

end Verif.SliceBuilder
