import Verif.Schema.Lemmas

/-! C28 common schemas, C29 implicit casts, C34 no-follow schemas. -/

namespace Verif.Schema

open Verif.ObjectId Verif.Uuid

/-! ### C28 -/

/-- All that `commonSchema` can do with schemas and missing items. -/
theorem commonSchema_cases (l : List (Option Schema)) :
    (l.filterMap id = [] ∧ commonSchema (l.map optItem) = .ok .missing) ∨
    (∃ s, commonSchema (l.map optItem) = .ok s.item ∧ IsSup (l.filterMap id) s ∧
      l.filterMap id ≠ []) ∨
    (∃ c d l', commonSchema (l.map optItem) = .error (.noCommonSchema c.item d.item) ∧
      l' ≠ [] ∧ (∀ a ∈ l', a ∈ l.filterMap id) ∧ IsSup l' c ∧ d ∈ l.filterMap id ∧
      ¬ ∃ u, LE c u ∧ LE d u) := by
  unfold commonSchema
  have hk := knows_fold l
  generalize (l.map optItem).foldl Aggregator.add {} = g at hk
  generalize l.filterMap id = p at hk
  unfold Aggregator.get
  -- the supremum of dtypes among all schemas
  have hup : ∀ (t : Name → Prop) (n : Name), SupN t n → ∀ u, (∀ a, t a → LE (.dtype a) u) →
      (∃ a, t a) → LE (.dtype n) u := by
    intro t n hsup u hu hex
    rw [LE_iff]
    cases u with
    | dtype u =>
      show leN n u = true
      rw [hsup u]
      intro a ha
      exact (LE_iff _ _).1 (hu a ha)
    | struct o ho =>
      show n = .none
      apply leN_none
      rw [hsup .none]
      intro a ha
      have := (LE_iff _ _).1 (hu a ha)
      simp only [leS] at this
      rw [this]
      rfl
  have hstructs : g.status = .none → ∀ x ∈ p, (∃ a, x = .dtype a) ∨
      ∃ o h, g.resObject = some o ∧ x = .struct o h := by
    intro hst x hx
    cases x with
    | dtype a => exact Or.inl ⟨a, rfl⟩
    | struct o h => exact Or.inr ⟨o, h, hk.same hst o h hx, rfl⟩
  rcases getDType_spec g.seen hk.valid with ⟨h0, e⟩ | ⟨h0, n, e, hn⟩ | ⟨h0, c, d, t, e, h1, h2, h3, h4, h5⟩
  · rw [e]
    simp only
    have hnod : ∀ a, Schema.dtype a ∉ p := by
      intro a ha
      have := (hk.bits a).2 ha
      rw [h0] at this
      simp [Bits] at this
    cases hst : g.status with
    | some er =>
      obtain ⟨a, ha, b, hb, rfl, ha2, hb2, hab⟩ := hk.err er hst
      refine Or.inr (Or.inr ⟨.struct a ha, .struct b hb, [.struct a ha], rfl, by simp, ?_, ?_, hb2, ?_⟩)
      · intro x hx
        rw [List.mem_singleton] at hx
        rw [hx]
        exact ha2
      · refine ⟨fun x hx => ?_, fun u hu => hu _ (List.mem_singleton.2 rfl)⟩
        rw [List.mem_singleton] at hx
        rw [hx]
        exact .refl _
      · rintro ⟨u, hu1, hu2⟩
        rw [LE_iff] at hu1 hu2
        cases u with
        | dtype u => exact hu1
        | struct u _ => exact hab (hu1.trans hu2.symm)
    | none =>
      simp only
      cases hr : g.resObject with
      | none =>
        refine Or.inl ⟨?_, rfl⟩
        rw [List.eq_nil_iff_forall_not_mem]
        intro x hx
        cases x with
        | dtype a => exact hnod a hx
        | struct o h => exact hk.none hr o h hx
      | some o =>
        obtain ⟨ho, hm⟩ := hk.first o hr
        refine Or.inr (Or.inl ⟨.struct o ho, rfl, ⟨?_, ?_⟩, List.ne_nil_of_mem hm⟩)
        · intro x hx
          rcases hstructs hst x hx with ⟨a, rfl⟩ | ⟨o', h', e', rfl⟩
          · exact absurd hx (hnod a)
          · rw [hr] at e'
            cases e'
            exact .refl _
        · intro u hu
          exact hu _ hm
  · rw [e]
    simp only
    obtain ⟨b, hb⟩ : ∃ b, Bits g.seen b := by
      obtain ⟨b, hb⟩ := hk.valid _ (testBit_countrZero g.seen h0)
      refine ⟨b, ?_⟩
      unfold Bits
      rw [hb]
      exact testBit_countrZero g.seen h0
    have hbp := (hk.bits b).1 hb
    cases hst : g.status with
    | some er =>
      obtain ⟨a, ha, b, hb, rfl, ha2, hb2, hab⟩ := hk.err er hst
      refine Or.inr (Or.inr ⟨.struct a ha, .struct b hb, [.struct a ha], rfl, by simp, ?_, ?_, hb2, ?_⟩)
      · intro x hx
        rw [List.mem_singleton] at hx
        rw [hx]
        exact ha2
      · refine ⟨fun x hx => ?_, fun u hu => hu _ (List.mem_singleton.2 rfl)⟩
        rw [List.mem_singleton] at hx
        rw [hx]
        exact .refl _
      · rintro ⟨u, hu1, hu2⟩
        rw [LE_iff] at hu1 hu2
        cases u with
        | dtype u => exact hu1
        | struct u _ => exact hab (hu1.trans hu2.symm)
    | none =>
      simp only
      have hle : ∀ a, Schema.dtype a ∈ p → LE (.dtype a) (.dtype n) := by
        intro a ha
        rw [LE_iff]
        exact (hn n).1 (leN_refl n) a ((hk.bits a).2 ha)
      cases hr : g.resObject with
      | none =>
        refine Or.inr (Or.inl ⟨.dtype n, ?_, ⟨?_, ?_⟩, List.ne_nil_of_mem hbp⟩)
        · show Except.ok (Item.dtype (Fin.ofNat 14 n.id.val)) = _
          rw [ofNat_id]
          rfl
        · intro x hx
          cases x with
          | dtype a => exact hle a hx
          | struct o h => exact absurd hx (hk.none hr o h)
        · intro u hu
          exact hup _ n hn u (fun a ha => hu _ ((hk.bits a).1 ha)) ⟨b, hb⟩
      | some o =>
        obtain ⟨ho, hm⟩ := hk.first o hr
        by_cases hnn : n = .none
        · refine Or.inr (Or.inl ⟨.struct o ho, ?_, ⟨?_, ?_⟩, List.ne_nil_of_mem hm⟩)
          · rw [hnn]
            rfl
          · intro x hx
            rcases hstructs hst x hx with ⟨a, rfl⟩ | ⟨o', h', e', rfl⟩
            · have := hle a hx
              rw [hnn] at this
              exact this.trans (edge_LE (.none_struct o ho))
            · rw [hr] at e'
              cases e'
              exact .refl _
          · intro u hu
            exact hu _ hm
        · refine Or.inr (Or.inr ⟨.dtype n, .struct o ho,
            (p.filter (fun x => match x with | .dtype _ => true | .struct _ _ => false)),
            ?_, ?_, ?_, ⟨?_, ?_⟩, hm, ?_⟩)
          · unfold Aggregator.combine
            have hid : n.id.val ≠ kNone.val := by
              intro e
              exact hnn (id_inj n .none e)
            simp only [hid, if_false]
            rw [ofNat_id]
            rfl
          · exact List.ne_nil_of_mem (List.mem_filter.2 ⟨hbp, rfl⟩)
          · intro x hx
            exact (List.mem_filter.1 hx).1
          · intro x hx
            obtain ⟨h1, h2⟩ := List.mem_filter.1 hx
            cases x with
            | dtype a => exact hle a h1
            | struct _ _ => cases h2
          · intro u hu
            exact hup _ n hn u (fun a ha => hu _ (List.mem_filter.2 ⟨(hk.bits a).1 ha, rfl⟩)) ⟨b, hb⟩
          · rintro ⟨u, hu1, hu2⟩
            rw [LE_iff] at hu1 hu2
            cases u with
            | dtype u => exact hu2
            | struct u _ => exact hnn hu1
  · rw [e]
    refine Or.inr (Or.inr ⟨.dtype c, .dtype d,
      p.filter (fun x => match x with
        | .dtype a => decide (leN a c = true) | .struct _ _ => false),
      rfl, ?_, ?_, ⟨?_, ?_⟩, (hk.bits d).1 h4, ?_⟩)
    · obtain ⟨a, ha⟩ := h2
      exact List.ne_nil_of_mem (List.mem_filter.2 ⟨(hk.bits a).1 (h1 a ha),
        by simpa using (h3 c).1 (leN_refl c) a ha⟩)
    · intro x hx
      exact (List.mem_filter.1 hx).1
    · intro x hx
      obtain ⟨hx1, hx2⟩ := List.mem_filter.1 hx
      cases x with
      | dtype a =>
        rw [LE_iff]
        show leN a c = true
        simpa using hx2
      | struct _ _ => cases hx2
    · intro u hu
      refine hup _ c h3 u (fun a ha => hu _ (List.mem_filter.2 ⟨(hk.bits a).1 (h1 a ha), ?_⟩)) h2
      simpa using (h3 c).1 (leN_refl c) a ha
    · rintro ⟨u, hu1, hu2⟩
      rw [LE_iff] at hu1 hu2
      cases u with
      | dtype u => exact h5 u ⟨hu1, hu2⟩
      | struct u hu =>
        have e1 : c = .none := hu1
        have e2 : d = .none := hu2
        exact h5 .none (by rw [e1, e2]; exact ⟨rfl, rfl⟩)

/-- The common schema of missing items is missing. -/
theorem C28_all_missing (l : List (Option Schema)) (h : ∀ x ∈ l, x = none) :
    commonSchema (l.map optItem) = .ok .missing := by
  rcases commonSchema_cases l with h1 | ⟨s, _, _, h1⟩ | ⟨c, d, l', _, _, _, _, h1, _⟩
  · exact h1.2
  · exfalso
    apply h1
    rw [List.filterMap_eq_nil_iff]
    exact h
  · rw [List.mem_filterMap] at h1
    obtain ⟨x, hx, e⟩ := h1
    rw [h x hx] at e
    cases e

theorem sup_unique {l : List Schema} {s t : Schema} (h1 : IsSup l s) (h2 : IsSup l t) : s = t :=
  LE_antisymm (h1.2 t h2.1) (h2.2 s h1.1)

/-- The common schema of schemas (missing items are skipped) is their supremum in the graph
of the documentation: it is found exactly if there is one. -/
theorem C28_common_schema_is_supremum (l : List (Option Schema)) (h : l.filterMap id ≠ [])
    (s : Schema) : commonSchema (l.map optItem) = .ok s.item ↔ IsSup (l.filterMap id) s := by
  rcases commonSchema_cases l with h1 | ⟨t, e, ht, _⟩ | ⟨c, d, l', e, _, h2, h3, h4, h5⟩
  · exact absurd h1.1 h
  · rw [e]
    constructor
    · intro e2
      have : t.item = s.item := by injection e2
      rw [← item_inj this]
      exact ht
    · intro hs
      rw [sup_unique ht hs]
  · constructor
    · intro e2
      rw [e] at e2
      cases e2
    · intro hs
      exact absurd ⟨s, h3.2 s (fun a ha => hs.1 a (h2 a ha)), hs.1 d h4⟩ h5

/-- The only other outcome is an error. It happens exactly if no schema is above all of the
schemas, and it names two schemas without a common schema: one of the given ones, and the
supremum of some of the given ones. -/
theorem C28_error (l : List (Option Schema)) :
    (¬ ∃ u, Above (l.filterMap id) u) ↔
    ∃ c d, commonSchema (l.map optItem) = .error (.noCommonSchema c.item d.item) ∧
      (∃ l', l' ≠ [] ∧ (∀ a ∈ l', a ∈ l.filterMap id) ∧ IsSup l' c) ∧ d ∈ l.filterMap id ∧
      ¬ ∃ u, LE c u ∧ LE d u := by
  rcases commonSchema_cases l with ⟨h1, e⟩ | ⟨t, e, ht, _⟩ | ⟨c, d, l', e, h1, h2, h3, h4, h5⟩
  · constructor
    · intro h
      exact absurd ⟨.dtype .none, fun a ha => by rw [h1] at ha; cases ha⟩ h
    · rintro ⟨c, d, e2, _⟩
      rw [e] at e2
      cases e2
  · constructor
    · intro h
      exact absurd ⟨t, ht.1⟩ h
    · rintro ⟨c, d, e2, _⟩
      rw [e] at e2
      cases e2
  · constructor
    · intro _
      exact ⟨c, d, e, ⟨l', h1, h2, h3⟩, h4, h5⟩
    · rintro - ⟨u, hu⟩
      exact h5 ⟨u, h3.2 u (fun a ha => hu a (h2 a ha)), hu d h4⟩

/-- Every set of schemas with an upper bound has a supremum (the graph is a lattice as far
as it needs to be). -/
theorem C28_supremum_exists (l : List Schema) (hne : l ≠ []) (u : Schema) (hu : Above l u) :
    ∃ s, IsSup l s := by
  have hl : (l.map some).filterMap id = l := by
    induction l with
    | nil => rfl
    | cons a l ih =>
      show a :: (l.map some).filterMap id = a :: l
      congr 1
      by_cases h : l = []
      · rw [h]; rfl
      · exact ih h (fun a ha => hu a (List.mem_cons_of_mem _ ha))
  rcases commonSchema_cases (l.map some) with ⟨h1, e⟩ | ⟨t, e, ht, _⟩ | ⟨c, d, l', e, h1, h2, h3, h4, h5⟩
  · rw [hl] at h1
    exact absurd h1 hne
  · rw [hl] at ht
    exact ⟨t, ht⟩
  · rw [hl] at h2 h4
    exact absurd ⟨u, h3.2 u (fun a ha => hu a (h2 a ha)), hu d h4⟩ h5

/-- The result does not depend on the order or the number of repetitions of the schemas. -/
theorem C28_order_independent (l l' : List (Option Schema))
    (h : ∀ s, some s ∈ l ↔ some s ∈ l') (x : Item) :
    commonSchema (l.map optItem) = .ok x ↔ commonSchema (l'.map optItem) = .ok x := by
  have key : ∀ l l' : List (Option Schema), (∀ s, some s ∈ l ↔ some s ∈ l') →
      commonSchema (l.map optItem) = .ok x → commonSchema (l'.map optItem) = .ok x := by
    intro l l' h hx
    have hm : ∀ s, s ∈ l.filterMap id ↔ s ∈ l'.filterMap id := by
      intro s
      simp only [List.mem_filterMap, id_eq, exists_eq_right]
      exact h s
    have hnil : ∀ {a b : List Schema}, (∀ s, s ∈ a ↔ s ∈ b) → a = [] → b = [] := by
      intro a b hab ha
      rw [List.eq_nil_iff_forall_not_mem]
      intro s hs
      have := (hab s).2 hs
      rw [ha] at this
      cases this
    rcases commonSchema_cases l with ⟨h1, e⟩ | ⟨t, e, ht, h1⟩ | ⟨c, d, l1, e, _⟩
    · rw [e] at hx
      cases hx
      apply C28_all_missing
      have h2 := hnil hm h1
      rw [List.filterMap_eq_nil_iff] at h2
      exact h2
    · rw [e] at hx
      cases hx
      rw [C28_common_schema_is_supremum l' (fun h2 => h1 (hnil (fun s => (hm s).symm) h2))]
      exact ⟨fun a ha => ht.1 a ((hm a).2 ha), fun u hu => ht.2 u (fun a ha => hu a ((hm a).1 ha))⟩
    · rw [e] at hx
      cases hx
  exact ⟨key l l' h, key l' l (fun s => (h s).symm)⟩

/-- Items that are not schemas never have a common schema with anything. -/
theorem C28_not_schema (items : List Item) (x : Item) (hx : x ∈ items)
    (h : x ≠ .missing) (hd : ∀ d, x ≠ .dtype d) (ho : ∀ o, x = .object o → o.isSchema = false) :
    ∃ e, commonSchema items = .error e := by
  have hstat : ∀ (items : List Item) (g : Aggregator), g.status ≠ none →
      (items.foldl Aggregator.add g).status ≠ none := by
    intro items
    induction items with
    | nil => intro g hg; exact hg
    | cons y ys ih =>
      intro g hg
      rw [List.foldl_cons]
      apply ih
      cases y <;> simp only [Aggregator.add, Aggregator.addDType] <;> first
        | exact hg
        | (intro e; cases e; done)
        | skip
      unfold Aggregator.addObject
      split
      · intro e; cases e
      · split
        · exact hg
        · split
          · intro e; cases e
          · exact hg
  have hfold : ∀ (items : List Item) (g : Aggregator), x ∈ items →
      (items.foldl Aggregator.add g).status ≠ none := by
    intro items
    induction items with
    | nil => intro g hm; cases hm
    | cons y ys ih =>
      intro g hm
      rw [List.foldl_cons]
      rcases List.mem_cons.1 hm with rfl | hm
      · apply hstat
        cases x
        case missing => exact absurd rfl h
        case dtype d => exact absurd rfl (hd d)
        case object o =>
          show (g.addObject o).status ≠ none
          unfold Aggregator.addObject
          rw [ho o rfl]
          intro e
          cases e
        all_goals (intro e; cases e)
      · exact ih _ hm
  have hs := hfold items {} hx
  unfold commonSchema Aggregator.get
  generalize items.foldl Aggregator.add {} = g at hs
  cases getDType g.seen with
  | error e => exact ⟨e, rfl⟩
  | ok d =>
    cases he : g.status with
    | none => exact absurd he hs
    | some e => exact ⟨e, rfl⟩

/-- Example: INT32, a missing schema and FLOAT32; and ITEMID with INT32. -/
example : commonSchema [.dtype kInt32, .missing, .dtype kFloat32] = .ok (.dtype kFloat32) ∧
    commonSchema [.dtype kInt32, .dtype kItemId] =
      .error (.noCommonSchema (.dtype kInt32) (.dtype kItemId)) ∧
    commonSchema [.dtype kMask, .dtype kString, .dtype kNone] = .ok (.dtype kObject) := by
  decide +kernel

/-- Example: NONE and a struct schema. -/
example (o : ObjectId) (h : o.isSchema = true) :
    commonSchema [.dtype kNone, .object o] = .ok (.object o) :=
  (C28_common_schema_is_supremum [some (.dtype .none), some (.struct o h)] (by simp)
    (.struct o h)).2 (by
    refine ⟨fun a ha => ?_, fun u hu => hu _ (by simp)⟩
    simp only [List.filterMap_cons, id_eq, List.filterMap_nil, List.mem_cons, List.not_mem_nil,
      or_false] at ha
    rcases ha with rfl | rfl
    · exact edge_LE (.none_struct o h)
    · exact .refl _)

/-! ### C28 for slices -/

/-- The items of a slice. -/
def Array.items : Array → List Item
  | .dtypes values => values.map (fun v => match v with | some d => .dtype d | none => .missing)
  | .objects values => values.map (fun v => match v with | some o => .object o | none => .missing)
  | .other => []

theorem visitArrays_spec (arrays : List Array) (h : ∀ a ∈ arrays, ∀ (_ : a = .other), False)
    (g : Aggregator) :
    visitArrays g arrays = .ok ((arrays.flatMap Array.items).foldl Aggregator.add g) := by
  induction arrays generalizing g with
  | nil => rfl
  | cons a rest ih =>
    have ih := ih (fun b hb => h b (List.mem_cons_of_mem _ hb))
    rw [List.flatMap_cons, List.foldl_append]
    unfold visitArrays
    cases a with
    | other => exact absurd rfl (h .other List.mem_cons_self)
    | dtypes values =>
      simp only [visitArray, Array.items]
      rw [ih, List.foldl_map]
      congr 3
      funext g v
      cases v <;> rfl
    | objects values =>
      simp only [visitArray, Array.items]
      rw [ih, List.foldl_map]
      congr 3
      funext g v
      cases v <;> rfl

/-- The common schema of a slice is that of its items; values of other types are refused. -/
theorem C28_slice (arrays : List Array) :
    ((∀ a ∈ arrays, ∀ (_ : a = .other), False) →
      commonSchemaSlice arrays = commonSchema (arrays.flatMap Array.items)) ∧
    (.other ∈ arrays → commonSchemaSlice arrays = .error .expectedSchema) := by
  constructor
  · intro h
    unfold commonSchemaSlice
    rw [visitArrays_spec arrays h]
    rfl
  · intro h
    have key : ∀ g, visitArrays g arrays = .error .expectedSchema := by
      induction arrays with
      | nil => cases h
      | cons a rest ih =>
        intro g
        unfold visitArrays
        cases a with
        | other => rfl
        | dtypes values =>
          exact ih ((List.mem_cons.1 h).resolve_left (fun e => by cases e)) _
        | objects values =>
          exact ih ((List.mem_cons.1 h).resolve_left (fun e => by cases e)) _
    unfold commonSchemaSlice
    rw [key]

/-! ### C29 -/

theorem castable_iff (a b : Schema) : isImplicitlyCastableTo a.item b.item = true ↔ leS a b := by
  cases a with
  | dtype a =>
    cases b with
    | dtype b =>
      show (commonDType a.id.val b.id.val == some (some b.id.val)) = true ↔ leN a b = true
      rw [matrix_eq]
      revert a b
      decide +kernel
    | struct o ho =>
      show (a.id == kNone) = true ↔ a = .none
      revert a
      decide
  | struct o ho =>
    cases b with
    | dtype b =>
      show false = true ↔ False
      simp
    | struct p hp =>
      exact eq_iff o p

/-- A schema can be cast to another implicitly exactly if there is a path to it in the graph
of the documentation. -/
theorem C29_castable_iff_path (a b : Schema) :
    isImplicitlyCastableTo a.item b.item = true ↔ LE a b := by
  rw [castable_iff, LE_iff]

/-- Implicit casts are a partial order. -/
theorem C29_partial_order (a b c : Schema) :
    isImplicitlyCastableTo a.item a.item = true ∧
    (isImplicitlyCastableTo a.item b.item = true → isImplicitlyCastableTo b.item a.item = true →
      a = b) ∧
    (isImplicitlyCastableTo a.item b.item = true → isImplicitlyCastableTo b.item c.item = true →
      isImplicitlyCastableTo a.item c.item = true) := by
  rw [C29_castable_iff_path, C29_castable_iff_path, C29_castable_iff_path, C29_castable_iff_path,
    C29_castable_iff_path]
  exact ⟨.refl a, LE_antisymm, LE.trans⟩

/-- A schema can be cast to another exactly if the other is their common schema. -/
theorem C29_castable_iff_common (a b : Schema) :
    isImplicitlyCastableTo a.item b.item = true ↔
      commonSchema [a.item, b.item] = .ok b.item := by
  rw [C29_castable_iff_path]
  have := C28_common_schema_is_supremum [some a, some b] (by simp) b
  simp only [List.map_cons, List.map_nil, optItem, List.filterMap_cons, id_eq,
    List.filterMap_nil] at this
  rw [this]
  constructor
  · intro h
    refine ⟨?_, fun u hu => hu b (by simp)⟩
    intro x hx
    simp only [List.mem_cons, List.not_mem_nil, or_false] at hx
    rcases hx with rfl | rfl
    · exact h
    · exact .refl _
  · intro h
    exact h.1 a (by simp)

/-- Example: INT32 to FLOAT64 but not back, NONE to all, nothing to NONE. -/
example : isImplicitlyCastableTo (.dtype kInt32) (.dtype kFloat64) = true ∧
    isImplicitlyCastableTo (.dtype kFloat64) (.dtype kInt32) = false ∧
    isImplicitlyCastableTo (.dtype kItemId) (.dtype kObject) = false := by decide +kernel

/-! ### C34 -/

/-- The id that `nofollow` would take to the no-follow id of OBJECT. No creating call gives
such an id (C46). -/
def reservedSchemaId : ObjectId := ⟨0, 0, 0b111000, 0⟩

/-- What may be wrapped: OBJECT and the ids of schemas that are not wrapped already. -/
def CanNoFollow (x : Item) : Prop :=
  x = .dtype kObject ∨ ∃ o, x = .object o ∧ o.isSchema = true ∧ o.isNoFollowSchema = false

/-- `nofollow` succeeds exactly on what may be wrapped, and gives a no-follow schema. -/
theorem C34_nofollow_success (x : Item) :
    (CanNoFollow x → ∃ o, noFollowSchemaItem x = .ok (.object o) ∧ o.isNoFollowSchema = true ∧
      o.isSchema = true) ∧
    (¬ CanNoFollow x → noFollowSchemaItem x = .error .nofollowNotAllowed) := by
  have hmeta : ∀ m : BitVec 6, ((m ||| kNoFollowSchemaFlag) &&& kNoFollowSchemaFlag) =
      kNoFollowSchemaFlag ∧ kStartSchemaFlag.toNat ≤ (m ||| kNoFollowSchemaFlag).toNat := by
    decide
  constructor
  · rintro (rfl | ⟨o, rfl, h1, h2⟩)
    · exact ⟨_, rfl, by decide, by decide⟩
    · refine ⟨createNoFollowWithMainObject o, ?_, ?_, ?_⟩
      · unfold noFollowSchemaItem
        simp [h1, h2]
      · show ((_ &&& _) == _) = true
        rw [beq_iff_eq]
        exact (hmeta o.metadata).1
      · show decide _ = true
        rw [decide_eq_true_eq]
        exact (hmeta o.metadata).2
  · intro h
    cases x
    case dtype d =>
      have : d ≠ kObject := fun e => h (Or.inl (by rw [e]))
      simp only [noFollowSchemaItem]
      rw [if_pos this]
    case object o =>
      unfold noFollowSchemaItem
      by_cases h1 : o.isSchema = true
      · by_cases h2 : o.isNoFollowSchema = true
        · simp [h1, h2]
        · exact absurd (Or.inr ⟨o, rfl, h1, by simpa using h2⟩) h
      · simp [h1]
    all_goals rfl

theorem metaFacts : ∀ m : BitVec 6, kStartSchemaFlag.toNat ≤ m.toNat →
    ¬ (m &&& kNoFollowSchemaFlag) = kNoFollowSchemaFlag →
    (m ||| kNoFollowSchemaFlag) &&& ~~~(kNoFollowSchemaFlag &&& ~~~kStartSchemaFlag) = m := by
  decide

theorem metaFacts2 : ∀ m : BitVec 6, (m &&& kNoFollowSchemaFlag) = kNoFollowSchemaFlag →
    (m &&& ~~~(kNoFollowSchemaFlag &&& ~~~kStartSchemaFlag)) ||| kNoFollowSchemaFlag = m ∧
    kStartSchemaFlag.toNat ≤ (m &&& ~~~(kNoFollowSchemaFlag &&& ~~~kStartSchemaFlag)).toNat ∧
    ¬ (m &&& ~~~(kNoFollowSchemaFlag &&& ~~~kStartSchemaFlag)) &&& kNoFollowSchemaFlag =
      kNoFollowSchemaFlag := by
  decide

/-- `get_nofollowed_schema` gives back what was wrapped. -/
theorem C34_get_nofollowed_of_nofollow (x y : Item) (hx : x ≠ .object reservedSchemaId)
    (h : noFollowSchemaItem x = .ok y) : getNoFollowedSchemaItem y = some (.ok x) := by
  have hc : CanNoFollow x := by
    apply Classical.byContradiction
    intro hc
    rw [(C34_nofollow_success x).2 hc] at h
    cases h
  rcases hc with rfl | ⟨o, rfl, h1, h2⟩
  · have h : (Except.ok (.object ObjectId.noFollowObjectSchemaId) : Except Err Item) = .ok y := h
    cases h
    rfl
  · obtain ⟨p, hp, hp1, hp2⟩ := (C34_nofollow_success (.object o)).1 (Or.inr ⟨o, rfl, h1, h2⟩)
    have e : noFollowSchemaItem (.object o) = .ok (.object (createNoFollowWithMainObject o)) := by
      unfold noFollowSchemaItem
      simp [h1, h2]
    rw [e] at hp h
    cases hp
    cases h
    have hm := metaFacts o.metadata (by simpa [ObjectId.isSchema] using h1)
      (by simpa [ObjectId.isNoFollowSchema] using h2)
    unfold getNoFollowedSchemaItem
    simp only [hp1, Bool.not_true, Bool.false_eq_true, if_false]
    have hne : (createNoFollowWithMainObject o).eq ObjectId.noFollowObjectSchemaId = false := by
      rw [← Bool.not_eq_true, eq_iff]
      intro e
      apply hx
      unfold createNoFollowWithMainObject ObjectId.noFollowObjectSchemaId at e
      simp only [ObjectId.mk.injEq] at e
      have e3 : o.metadata = 0b111000 := by
        have h3 : ∀ m : BitVec 6, kStartSchemaFlag.toNat ≤ m.toNat →
          m ||| kNoFollowSchemaFlag = kNoFollowObjectSchemaFlag →
          ¬ (m &&& kNoFollowSchemaFlag) = kNoFollowSchemaFlag → m = 0b111000 := by decide
        exact h3 _ (by simpa [ObjectId.isSchema] using h1) e.2.2.1
          (by simpa [ObjectId.isNoFollowSchema] using h2)
      unfold reservedSchemaId
      cases o
      simp only at e e3
      rw [e.1, e.2.1, e.2.2.2, e3]
    rw [hne]
    simp only [Bool.false_eq_true, if_false]
    unfold getOriginalFromNoFollow createNoFollowWithMainObject
    simp only [hm]

/-- The reserved id is really an exception. -/
theorem C34_reserved_id :
    noFollowSchemaItem (.object reservedSchemaId) = noFollowSchemaItem (.dtype kObject) :=
  rfl

/-- Different schemas have different no-follow schemas. -/
theorem C34_nofollow_injective (x x' y : Item) (hx : x ≠ .object reservedSchemaId)
    (hx' : x' ≠ .object reservedSchemaId) (h : noFollowSchemaItem x = .ok y)
    (h' : noFollowSchemaItem x' = .ok y) : x = x' := by
  have h1 := C34_get_nofollowed_of_nofollow x y hx h
  have h2 := C34_get_nofollowed_of_nofollow x' y hx' h'
  rw [h1] at h2
  injection h2 with h2
  injection h2

/-- `get_nofollowed_schema` of an id succeeds exactly on no-follow schemas, and wrapping its
result gives the id back. On dtypes it is an error. -/
theorem C34_nofollow_of_get_nofollowed (o : ObjectId) :
    (o.isNoFollowSchema = true → ∃ x, getNoFollowedSchemaItem (.object o) = some (.ok x) ∧
      noFollowSchemaItem x = .ok (.object o)) ∧
    (o.isNoFollowSchema = false →
      getNoFollowedSchemaItem (.object o) = some (.error .nofollowRequired)) ∧
    (∀ d, getNoFollowedSchemaItem (.dtype d) = some (.error .nofollowRequired)) := by
  refine ⟨?_, ?_, fun _ => rfl⟩
  · intro h
    unfold getNoFollowedSchemaItem
    simp only [h, Bool.not_true, Bool.false_eq_true, if_false]
    by_cases he : o.eq ObjectId.noFollowObjectSchemaId = true
    · rw [if_pos he, (eq_iff _ _).1 he]
      exact ⟨_, rfl, rfl⟩
    · rw [if_neg he]
      refine ⟨_, rfl, ?_⟩
      have hm := metaFacts2 o.metadata (by simpa [ObjectId.isNoFollowSchema] using h)
      have hs : (getOriginalFromNoFollow o).isSchema = true := by
        simpa [ObjectId.isSchema, getOriginalFromNoFollow] using hm.2.1
      have hn : (getOriginalFromNoFollow o).isNoFollowSchema = false := by
        simpa [ObjectId.isNoFollowSchema, getOriginalFromNoFollow] using hm.2.2
      unfold noFollowSchemaItem
      simp only [hs, hn, Bool.not_true, Bool.false_eq_true, if_false]
      unfold createNoFollowWithMainObject getOriginalFromNoFollow
      simp only [hm.1]
  · intro h
    unfold getNoFollowedSchemaItem
    simp [h]

/-- Example: an explicit schema, and OBJECT. -/
example : noFollowSchemaItem (.object ⟨7, 3, kExplicitSchemaFlag, 9⟩) =
      .ok (.object ⟨7, 3, 0b111110, 9⟩) ∧
    getNoFollowedSchemaItem (.object ⟨7, 3, 0b111110, 9⟩) =
      some (.ok (.object ⟨7, 3, kExplicitSchemaFlag, 9⟩)) := ⟨rfl, rfl⟩

end Verif.Schema
