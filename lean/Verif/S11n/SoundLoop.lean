import Verif.S11n.Sound

/-! What the decoder accepts stands for the items it returns: the loop over the types. -/

namespace Verif.S11n

variable {P Q : Type}

theorem kindOf_special : kindOf kUnset = none ∧ kindOf kRemoved = none := ⟨rfl, rfl⟩

theorem kind_of_typeByte {x : Cell P Q} {k : Kind} (h : kindOf (typeByte x) = some k) : x.kind = some k := by
  cases hx : x.kind with
  | some k' =>
    rw [(kindOf_typeByte hx).1] at h
    exact h
  | none =>
    cases x with
    | unset => cases h
    | removed => cases h
    | objectId => cases hx
    | unit => cases hx
    | exprQuote => cases hx
    | plain => cases hx

theorem toStore_congr {k : Kind} (a b : List (Cell P Q)) (hl : a.length = b.length)
    (h : ∀ (j : Nat) x y, a[j]? = some x → b[j]? = some y → x = y ∨ (x.kind ≠ some k ∧ y.kind ≠ some k))
    (hi lo : BitVec 64) : toStore k hi lo a = toStore k hi lo b := by
  induction a generalizing b hi lo with
  | nil => rw [List.length_eq_zero_iff.1 hl.symm]
  | cons x a ih =>
    cases b with
    | nil => simp at hl
    | cons y b =>
      have ih' := ih b (by simpa using hl) fun j u v hu hv =>
        h (j + 1) u v (by simpa using hu) (by simpa using hv)
      by_cases hx : x.kind = some k
      · have hxy : x = y := (h 0 x y rfl rfl).resolve_right fun hh => hh.1 hx
        subst hxy
        have h1 := (toStore_cons k hi lo x a).resolve_right (by simp [hx])
        have h2 := (toStore_cons k hi lo x b).resolve_right (by simp [hx])
        rw [h1, h2, ih']
      · have hy : y.kind ≠ some k := by
          rcases h 0 x y rfl rfl with hxy | hxy
          · rwa [← hxy]
          · exact hxy.2
        rw [toStore_skip hx, toStore_skip hy, ih']

theorem exprsOf_congr (a b : List (Cell P Q)) (hl : a.length = b.length)
    (h : ∀ (j : Nat) x y, a[j]? = some x → b[j]? = some y →
      x = y ∨ (x.kind ≠ some .exprQuote ∧ y.kind ≠ some .exprQuote)) : exprsOf a = exprsOf b := by
  induction a generalizing b with
  | nil => rw [List.length_eq_zero_iff.1 hl.symm]
  | cons x a ih =>
    cases b with
    | nil => simp at hl
    | cons y b =>
      have ih' := ih b (by simpa using hl) fun j u v hu hv =>
        h (j + 1) u v (by simpa using hu) (by simpa using hv)
      rcases h 0 x y rfl rfl with rfl | ⟨hx, hy⟩
      · rw [exprsOf_cons, ih', ← exprsOf_cons]
      · rw [exprsOf_skip hx, exprsOf_skip hy, ih']

/-- What is known of a type that was processed: `ys` are the items read, at their positions. -/
def Known (types : List Nat) (main : Part P) (extras : List (Part P)) (inputs : List (Input P Q))
    (cells : List (Cell P Q)) (k : Kind) : Prop :=
  (∀ p ∈ main :: extras, Sized k p) ∧
  ∃ ys : List (Cell P Q), ys.length = types.length ∧
    (∀ (j : Nat) x, ys[j]? = some x → x.kind = some k → cells[j]? = some x) ∧
    (∀ (j : Nat) x b, ys[j]? = some x → types[j]? = some b → kindOf b = some k → x.kind = some k) ∧
    (main :: extras).flatMap (Part.stored k) = toStore k 0 0 ys ∧
    (k = .exprQuote → inputs = (exprsOf ys).map .exprQuote)

/-- The state of the loop over the types. -/
structure Run (K : Kit P) (types : List Nat) (main : Part P) (extras : List (Part P))
    (inputs : List (Input P Q)) (i : Nat) (ks : List Kind) (d : Dec P Q) : Prop where
  len : d.cells.length = types.length
  cell : ∀ (j : Nat) b, types[j]? = some b → ∃ y, d.cells[j]? = some y ∧ (y = .unset ∨ typeByte y = b) ∧
    (b = kRemoved → j < i → y = .removed) ∧ (∀ k, kindOf b = some k → k ∈ ks → y ≠ .unset) ∧
    (∀ k, kindOf b = some k → k ∉ ks → y = .unset)
  seen : ∀ (j : Nat) b, types[j]? = some b → j < i →
    b = kUnset ∨ b = kRemoved ∨ ∃ k ∈ ks, kindOf b = some k
  known : ∀ k ∈ ks, Known types main extras inputs d.cells k
  occurs : ∀ k ∈ ks, ∃ (j : Nat) (b : Nat), types[j]? = some b ∧ kindOf b = some k
  dtype : ∀ (j : Nat) v, d.cells[j]? = some (.plain .dtype v) → K.isDType v = true
  last : .objectId ∉ ks → d.lastHi = 0 ∧ d.lastLo = 0
  exprs : .exprQuote ∉ ks → d.inputs = inputs
  done : .exprQuote ∈ ks → d.inputs = []

theorem processType_inv {K : Kit P} {types : List Nat} {main : Part P} {extras : List (Part P)}
    {inputs : List (Input P Q)} {i : Nat} {ks : List Kind} {d : Dec P Q}
    (hr : Run K types main extras inputs i ks d) {b : Nat} {k : Kind} (hb : types[i]? = some b)
    (hk : kindOf b = some k) (hks : k ∉ ks) {next : Nat} {d' : Dec P Q}
    (h : processType K types main extras k i d = .ok (next, d')) :
    Run K types main extras inputs next (k :: ks) d' ∧ i < next := by
  unfold processType at h
  cases hv : valuesSize k main with
  | error e => rw [hv] at h; cases h
  | ok n =>
    rw [hv] at h
    simp only at h
    obtain ⟨hmain, rfl⟩ := valuesSize_inv hv
    cases hl : processLoop K k (types.drop i) i types.length
        ⟨main, (main.stored k).length, 0, 0, extras⟩ d with
    | error e => rw [hl] at h; cases h
    | ok r =>
      obtain ⟨next1, c1, d1⟩ := r
      rw [hl] at h
      simp only at h
      cases hs : skipParts k c1.rest.length c1 with
      | error e => rw [hs] at h; cases h
      | ok c2 =>
        rw [hs] at h
        simp only at h
        by_cases hbad : c2.lastId ≠ c2.offset + c2.size ∨ (k = .exprQuote ∧ d1.inputs.isEmpty = false)
        · rw [if_pos hbad] at h
          cases h
        · rw [if_neg hbad] at h
          simp only [Except.ok.injEq, Prod.mk.injEq] at h
          obtain ⟨rfl, rfl⟩ := h
          have hend : c2.lastId = c2.offset + c2.size := by
            refine Classical.byContradiction fun hne => hbad (.inl hne)
          have hexp : k = .exprQuote → d1.inputs = [] := by
            intro hke
            cases hi : d1.inputs with
            | nil => rfl
            | cons a l => exact absurd (.inr ⟨hke, by rw [hi]; rfl⟩) hbad
          obtain ⟨xs, e1, e2, e3, e4, e5, e6, e7, e8, e9, e10, e11, e12⟩ := processLoop_inv (types.drop i) i
            types.length (c := ⟨main, (main.stored k).length, 0, 0, extras⟩)
            ⟨rfl, Nat.le_refl _, Nat.zero_le _⟩ hl
          obtain ⟨s1, s2⟩ := skipParts_inv _ rfl e4.le hs hend
          have hrem : c1.rem k = [] := by
            unfold Cursor.rem
            rw [List.drop_eq_nil_of_le (by have := e4.size; omega), List.nil_append, List.flatMap_eq_nil_iff]
            exact fun p hp => (s2 p hp).2
          have hi : i < types.length := (List.getElem?_eq_some_iff.1 hb).1
          have hxlen : xs.length = types.length - i := by rw [e1]; simp
          have hnext : i < next1 := by
            refine e12 (i + 1) hi fun j b' hb' hlt => ?_
            have : j = 0 := by omega
            subst this
            rw [List.getElem?_drop] at hb'
            have : i + 0 = i := rfl
            rw [this, hb] at hb'
            cases hb'
            exact hk
          -- the items at the positions of the loop
          have hat : ∀ (j : Nat) b' , types[i + j]? = some b' → ∃ x, xs[j]? = some x ∧ Goes k b' x := by
            intro j b' hb'
            have hj := (List.getElem?_eq_some_iff.1 hb').1
            have hjx : j < xs.length := by omega
            exact ⟨xs[j], List.getElem?_eq_getElem hjx,
              e2 j b' _ (by rw [List.getElem?_drop]; exact hb') (List.getElem?_eq_getElem hjx)⟩
          have hbefore : ∀ (j : Nat) b', types[j]? = some b' → j < i → kindOf b' ≠ some k := by
            intro j b' hb' hlt hk'
            rcases hr.seen j b' hb' hlt with rfl | rfl | ⟨k', hk1, hk2⟩
            · cases hk'
            · cases hk'
            · rw [hk'] at hk2
              cases hk2
              exact hks hk1
          have hkeep : ∀ (j : Nat) y, d.cells[j]? = some y → y ≠ .unset → d1.cells[j]? = some y := by
            intro j y hy hne
            rw [e3]
            by_cases hji : j < i
            · exact paint_lt _ _ _ _ _ _ hy hji
            · obtain ⟨j', rfl⟩ : ∃ j', j = i + j' := ⟨j - i, by omega⟩
              have hlt : i + j' < types.length := by
                rw [← hr.len]; exact (List.getElem?_eq_some_iff.1 hy).1
              obtain ⟨x, hx, _⟩ := hat j' _ (List.getElem?_eq_getElem hlt)
              rw [paint_set xs i d.cells j' x y hy hx, if_neg fun hh => hne hh.2]
          refine ⟨⟨?_, ?_, ?_, ?_, ?_, ?_, ?_, ?_, ?_⟩, hnext⟩
          · rw [e3, paint_length, hr.len]
          · intro j b' hb'
            obtain ⟨y, y1, y2, y3, y4, y5⟩ := hr.cell j b' hb'
            by_cases hji : j < i
            · refine ⟨y, by rw [e3]; exact paint_lt _ _ _ _ _ _ y1 hji, y2, fun hrm _ => y3 hrm hji, ?_, ?_⟩
              · intro k' hk' hm
                rcases List.mem_cons.1 hm with rfl | hm
                · exact absurd hk' (hbefore j b' hb' hji)
                · exact y4 k' hk' hm
              · intro k' hk' hm
                exact y5 k' hk' fun hh => hm (List.mem_cons_of_mem _ hh)
            · obtain ⟨j', rfl⟩ : ∃ j', j = i + j' := ⟨j - i, by omega⟩
              obtain ⟨x, hx, hg⟩ := hat j' b' hb'
              have hp := paint_set (k := k) xs i d.cells j' x y y1 hx
              rw [← e3] at hp
              rcases hg with ⟨rfl, hg⟩ | ⟨rfl, rfl⟩ | ⟨hg1, hg2⟩
              · rw [if_neg (by rintro ⟨hh | hh, _⟩ <;> cases hh)] at hp
                refine ⟨y, hp, y2, ?_, ?_, ?_⟩
                · rintro rfl
                  rcases hg with hg | ⟨k', _, hg⟩
                  · cases hg
                  · cases hg
                · intro k' hk' hm
                  rcases List.mem_cons.1 hm with rfl | hm
                  · rcases hg with rfl | ⟨k'', hne, hg⟩
                    · cases hk'
                    · rw [hk'] at hg
                      cases hg
                      exact absurd rfl hne
                  · exact y4 k' hk' hm
                · intro k' hk' hm
                  exact y5 k' hk' fun hh => hm (List.mem_cons_of_mem _ hh)
              · have hp' : d1.cells[i + j']? = some .removed := by
                  by_cases hyu : y = .unset
                  · rw [if_pos ⟨.inl rfl, hyu⟩] at hp
                    exact hp
                  · rw [if_neg fun hh => hyu hh.2] at hp
                    rw [hp]
                    have hty := y2.resolve_left hyu
                    cases y with
                    | removed => rfl
                    | unset => exact absurd rfl hyu
                    | plain t v => cases t <;> cases hty
                    | _ => cases hty
                exact ⟨.removed, hp', .inr rfl, fun _ _ => rfl, (by intro k' hk'; cases hk'),
                  (by intro k' hk'; cases hk')⟩
              · have hyu : y = .unset := y5 k hg2 hks
                rw [if_pos ⟨.inr hg1, hyu⟩] at hp
                refine ⟨x, hp, .inr (typeByte_kindOf hg2 hg1), ?_, ?_, ?_⟩
                · rintro rfl
                  cases hg2
                · rintro k' hk' hm rfl
                  cases hg1
                · intro k' hk' hm
                  rw [hg2] at hk'
                  cases hk'
                  exact absurd (by simp) hm
          · intro j b' hb' hlt
            by_cases hji : j < i
            · rcases hr.seen j b' hb' hji with hh | hh | ⟨k', hk1, hk2⟩
              · exact .inl hh
              · exact .inr (.inl hh)
              · exact .inr (.inr ⟨k', List.mem_cons_of_mem _ hk1, hk2⟩)
            · rcases e11 (j - i) b' (by rw [List.getElem?_drop, Nat.add_sub_cancel' (by omega)]; exact hb')
                (by omega) with hh | hh | hh
              · exact .inl hh
              · exact .inr (.inl hh)
              · exact .inr (.inr ⟨k, by simp, hh⟩)
          · intro k' hk'
            rcases List.mem_cons.1 hk' with rfl | hk'
            · refine ⟨?_, List.replicate i .unset ++ xs, by simp [hxlen]; omega, ?_, ?_, ?_, ?_⟩
              · intro p hp
                rcases List.mem_cons.1 hp with rfl | hp
                · exact hmain
                · rcases e9 p hp with hq | hq
                  · exact (s2 p hq).1
                  · exact hq
              · intro j x hx hxk
                by_cases hji : j < i
                · rw [List.getElem?_append_left (by simpa using hji)] at hx
                  simp only [List.getElem?_replicate, hji, if_true, Option.some.injEq] at hx
                  subst hx
                  cases hxk
                · rw [List.getElem?_append_right (by simpa using hji)] at hx
                  simp only [List.length_replicate] at hx
                  obtain ⟨j', rfl⟩ : ∃ j', j = i + j' := ⟨j - i, by omega⟩
                  rw [Nat.add_sub_cancel_left] at hx
                  have hjlt := (List.getElem?_eq_some_iff.1 hx).1
                  have hlt : i + j' < types.length := by omega
                  obtain ⟨y, y1, y2, y3, y4, y5⟩ := hr.cell (i + j') _ (List.getElem?_eq_getElem hlt)
                  obtain ⟨x', hx', hg⟩ := hat j' _ (List.getElem?_eq_getElem hlt)
                  rw [hx] at hx'
                  cases hx'
                  have hg2 : kindOf types[i + j'] = some k' := by
                    rcases hg with ⟨rfl, _⟩ | ⟨rfl, _⟩ | ⟨_, hg⟩
                    · cases hxk
                    · cases hxk
                    · exact hg
                  rw [e3, paint_set xs i d.cells j' x y y1 hx, if_pos ⟨.inr hxk, y5 _ hg2 hks⟩]
              · intro j x b' hx hb' hkb
                by_cases hji : j < i
                · exact absurd hkb (hbefore j b' hb' hji)
                · rw [List.getElem?_append_right (by simpa using hji)] at hx
                  simp only [List.length_replicate] at hx
                  obtain ⟨j', rfl⟩ : ∃ j', j = i + j' := ⟨j - i, by omega⟩
                  rw [Nat.add_sub_cancel_left] at hx
                  obtain ⟨x', hx', hg⟩ := hat j' _ hb'
                  rw [hx] at hx'
                  cases hx'
                  rcases hg with ⟨_, hg | ⟨k'', hne, hg⟩⟩ | ⟨_, hg⟩ | ⟨hg, _⟩
                  · rw [hg] at hkb
                    cases hkb
                  · rw [hkb] at hg
                    cases hg
                    exact absurd rfl hne
                  · rw [hg] at hkb
                    cases hkb
                  · exact hg
              · rw [toStore_append _ _ (by
                  intro x hx
                  rw [(List.mem_replicate.1 hx).2]
                  simp [Cell.kind])]
                have h5 := e5
                rw [hrem, List.append_nil] at h5
                have h6 : toStore k' d.lastHi d.lastLo xs = toStore k' 0 0 xs := by
                  by_cases hko : k' = .objectId
                  · subst hko
                    obtain ⟨g1, g2⟩ := hr.last hks
                    rw [g1, g2]
                  · exact toStore_last hko _ _ _ _ _
                rw [← h6, ← h5]
                simp [Cursor.rem]
              · rintro rfl
                rw [exprsOf_append _ _ (by
                  intro x hx
                  rw [(List.mem_replicate.1 hx).2]
                  simp [Cell.kind])]
                rw [← hr.exprs hks, e6, hexp rfl, List.append_nil]
            · obtain ⟨q1, ys, q2, q3, q4, q5, q6⟩ := hr.known k' hk'
              refine ⟨q1, ys, q2, fun j x hx hxk => hkeep j x (q3 j x hx hxk) ?_, q4, q5, q6⟩
              rintro rfl
              cases hxk
          · intro k' hk'
            rcases List.mem_cons.1 hk' with rfl | hk'
            · exact ⟨i, b, hb, hk⟩
            · exact hr.occurs k' hk'
          · intro j v hj
            have hlt : j < types.length := by
              rw [← hr.len, ← paint_length k i xs d.cells, ← e3]
              exact (List.getElem?_eq_some_iff.1 hj).1
            obtain ⟨y, y1, _⟩ := hr.cell j _ (List.getElem?_eq_getElem hlt)
            by_cases hji : j < i
            · rw [e3, paint_lt _ _ _ _ _ _ y1 hji] at hj
              cases hj
              exact hr.dtype j v y1
            · obtain ⟨j', rfl⟩ : ∃ j', j = i + j' := ⟨j - i, by omega⟩
              obtain ⟨x, hx, _⟩ := hat j' _ (List.getElem?_eq_getElem hlt)
              rw [e3, paint_set xs i d.cells j' x y y1 hx] at hj
              by_cases hc : Sets k x ∧ y = .unset
              · rw [if_pos hc] at hj
                cases hj
                exact e8 v (List.mem_of_getElem? hx)
              · rw [if_neg hc] at hj
                cases hj
                exact hr.dtype _ v y1
          · intro hn
            simp only [List.mem_cons, not_or] at hn
            obtain ⟨f1, f2⟩ := e7 fun hh => hn.1 hh.symm
            rw [f1, f2]
            exact hr.last hn.2
          · intro hn
            simp only [List.mem_cons, not_or] at hn
            have hxe : exprsOf xs = [] := by
              have := exprsOf_append xs [] fun x hx hxk => by
                obtain ⟨j, hj⟩ := List.getElem?_of_mem hx
                have hjlt := (List.getElem?_eq_some_iff.1 hj).1
                have hlt : i + j < types.length := by omega
                obtain ⟨x', hx', hg⟩ := hat j _ (List.getElem?_eq_getElem hlt)
                rw [hj] at hx'
                cases hx'
                rcases hg with ⟨rfl, _⟩ | ⟨rfl, _⟩ | ⟨hg, _⟩
                · cases hxk
                · cases hxk
                · rw [hxk] at hg
                  cases hg
                  exact hn.1 rfl
              simpa [exprsOf] using this
            rw [hxe] at e6
            rw [← hr.exprs hn.2, e6]
            simp
          · intro hm
            by_cases hke : k = .exprQuote
            · exact hexp hke
            · have hm := (List.mem_cons.1 hm).resolve_left fun hh => hke hh.symm
              have := hr.done hm
              rw [this] at e6
              exact (List.append_eq_nil_iff.1 e6.symm).2

theorem decodeLoop_inv {K : Kit P} {types : List Nat} {main : Part P} {extras : List (Part P)}
    {inputs : List (Input P Q)} (n : Nat) {i : Nat} {ks : List Kind} {d : Dec P Q}
    (hn : types.length ≤ i + n) (hr : Run K types main extras inputs i ks d) {ks' : List Kind}
    {d' : Dec P Q} (h : decodeLoop K types main extras n i ks d = .ok (ks', d')) :
    ∃ i', types.length ≤ i' ∧ Run K types main extras inputs i' ks' d' := by
  induction n generalizing i ks d with
  | zero =>
    simp only [decodeLoop, Except.ok.injEq, Prod.mk.injEq] at h
    obtain ⟨rfl, rfl⟩ := h
    exact ⟨i, by omega, hr⟩
  | succ n ih =>
    unfold decodeLoop at h
    cases hb : types[i]? with
    | none =>
      rw [hb] at h
      simp only [Except.ok.injEq, Prod.mk.injEq] at h
      obtain ⟨rfl, rfl⟩ := h
      exact ⟨i, by simpa using hb, hr⟩
    | some b =>
      rw [hb] at h
      simp only at h
      have hget : ∀ (j : Nat) b', types[j]? = some b' → j < i + 1 → j < i ∨ b' = b := by
        intro j b' hb' hlt
        by_cases hji : j = i
        · subst hji
          rw [hb] at hb'
          exact .inr (by simpa using hb'.symm)
        · exact .inl (by omega)
      -- a step that only moves on
      have move : b ≠ kRemoved → (b = kUnset ∨ ∃ k ∈ ks, kindOf b = some k) →
          Run K types main extras inputs (i + 1) ks d := by
        intro hb1 hb2
        refine ⟨hr.len, ?_, ?_, hr.known, hr.occurs, hr.dtype, hr.last, hr.exprs, hr.done⟩
        · intro j b' hb'
          obtain ⟨y, y1, y2, y3, y4, y5⟩ := hr.cell j b' hb'
          refine ⟨y, y1, y2, fun hrm hlt => ?_, y4, y5⟩
          rcases hget j b' hb' hlt with hj | rfl
          · exact y3 hrm hj
          · exact absurd hrm hb1
        · intro j b' hb' hlt
          rcases hget j b' hb' hlt with hj | rfl
          · exact hr.seen j b' hb' hj
          · rcases hb2 with hb2 | hb2
            · exact .inl hb2
            · exact .inr (.inr hb2)
      by_cases hu : b = kUnset
      · rw [if_pos hu] at h
        exact ih (by omega) (move (by rw [hu]; intro hh; cases hh) (.inl hu)) h
      · rw [if_neg hu] at h
        by_cases hrm : b = kRemoved
        · rw [if_pos hrm] at h
          subst hrm
          refine ih (i := i + 1) (d := { d with cells := insertIfNotSet d.cells i .removed }) (by omega)
            ⟨?_, ?_, ?_, ?_, hr.occurs, ?_, hr.last, hr.exprs, hr.done⟩ h
          · simp only
            rw [insertIfNotSet_length, hr.len]
          · intro j b' hb'
            obtain ⟨y, y1, y2, y3, y4, y5⟩ := hr.cell j b' hb'
            have hp := insertIfNotSet_get (i := i) (x := .removed) y1
            by_cases hij : i = j ∧ y = .unset
            · rw [if_pos hij] at hp
              obtain ⟨rfl, _⟩ := hij
              rw [hb] at hb'
              cases hb'
              exact ⟨.removed, hp, .inr rfl, fun _ _ => rfl, (by intro k hk; cases hk),
                (by intro k hk; cases hk)⟩
            · rw [if_neg hij] at hp
              refine ⟨y, hp, y2, fun hrm hlt => ?_, y4, y5⟩
              by_cases hji : j < i
              · exact y3 hrm hji
              · have hyu : y ≠ .unset := fun hh => hij ⟨by omega, hh⟩
                have hty := y2.resolve_left hyu
                rw [hrm] at hty
                cases y with
                | removed => rfl
                | unset => exact absurd rfl hyu
                | plain t v => cases t <;> cases hty
                | _ => cases hty
          · intro j b' hb' hlt
            rcases hget j b' hb' hlt with hj | rfl
            · exact hr.seen j b' hb' hj
            · exact .inr (.inl rfl)
          · intro k hk
            obtain ⟨q1, ys, q2, q3, q4, q5, q6⟩ := hr.known k hk
            refine ⟨q1, ys, q2, fun j x hx hxk => ?_, q4, q5, q6⟩
            simp only
            rw [insertIfNotSet_get (q3 j x hx hxk), if_neg]
            rintro ⟨_, rfl⟩
            cases hxk
          · intro j v hj
            simp only at hj
            have hlt : j < types.length := by
              rw [← hr.len, ← insertIfNotSet_length d.cells i .removed]
              exact (List.getElem?_eq_some_iff.1 hj).1
            obtain ⟨y, y1, _⟩ := hr.cell j _ (List.getElem?_eq_getElem hlt)
            rw [insertIfNotSet_get y1] at hj
            by_cases hij : i = j ∧ y = .unset
            · rw [if_pos hij] at hj
              cases hj
            · rw [if_neg hij] at hj
              cases hj
              exact hr.dtype j v y1
        · rw [if_neg hrm] at h
          cases hk : kindOf b with
          | none => rw [hk] at h; cases h
          | some k =>
            rw [hk] at h
            simp only at h
            by_cases hks : k ∈ ks
            · rw [if_pos (by simpa using hks)] at h
              exact ih (by omega) (move hrm (.inr ⟨k, hks, hk⟩)) h
            · rw [if_neg (by simpa using hks)] at h
              cases hp : processType K types main extras k i d with
              | error e => rw [hp] at h; cases h
              | ok r =>
                obtain ⟨next, d1⟩ := r
                rw [hp] at h
                simp only at h
                obtain ⟨g1, g2⟩ := processType_inv hr hb hk hks hp
                exact ih (by omega) g1 h

theorem checkUnused_inv {main : Part P} {inputs : List (Input P Q)} {ks : List Kind} (l : List Kind)
    (status : Option Err) (h : checkUnused main inputs ks l status = none) :
    status = none ∧ ∀ k ∈ l, k ∉ ks → valuesSize k main = .ok 0 := by
  induction l generalizing status with
  | nil => exact ⟨h, by simp⟩
  | cons k l ih =>
    unfold checkUnused at h
    by_cases hk : k ∈ ks
    · rw [if_pos (by simpa using hk)] at h
      obtain ⟨h1, h2⟩ := ih status h
      refine ⟨h1, fun k' hk' hn => ?_⟩
      rcases List.mem_cons.1 hk' with rfl | hk'
      · exact absurd hk hn
      · exact h2 k' hk' hn
    · rw [if_neg (by simpa using hk)] at h
      cases hv : valuesSize k main with
      | error e =>
        rw [hv] at h
        exact absurd (ih _ h).1 (by simp)
      | ok n =>
        rw [hv] at h
        simp only at h
        by_cases hc : (k = .exprQuote ∧ inputs.isEmpty = false) ∨ n ≠ 0
        · rw [if_pos hc] at h
          exact absurd (ih _ h).1 (by simp)
        · rw [if_neg hc] at h
          obtain ⟨h1, h2⟩ := ih status h
          refine ⟨h1, fun k' hk' hn => ?_⟩
          rcases List.mem_cons.1 hk' with rfl | hk'
          · have : n = 0 := Classical.byContradiction fun hh => hc (.inr hh)
            rw [hv, this]
          · exact h2 k' hk' hn

theorem extraParts_inv {l : List (Input P Q)} {ps : List (Part P)} (h : extraParts l = .ok ps) :
    l = ps.map .bytes := by
  induction l generalizing ps with
  | nil =>
    simp only [extraParts, Except.ok.injEq] at h
    subst h
    rfl
  | cons a l ih =>
    cases a with
    | exprQuote q => cases h
    | bytes p =>
      unfold extraParts at h
      cases hr : extraParts l with
      | error e => rw [hr] at h; cases h
      | ok qs =>
        rw [hr] at h
        simp only [Except.ok.injEq] at h
        subst h
        rw [ih hr]
        rfl

theorem mem_allKinds (k : Kind) : k ∈ allKinds := by
  cases k with
  | plain t => cases t <;> simp [allKinds]
  | _ => simp [allKinds]

theorem decode_inv {K : Kit P} {m : Compact P} {inputs : List (Input P Q)} {T : List (Cell P Q)}
    (h : decode K m inputs = .ok T) : Encodes K m inputs T := by
  unfold decode at h
  by_cases hlt : inputs.length < m.extraPartCount
  · rw [if_pos hlt] at h
    cases h
  · rw [if_neg hlt] at h
    cases hx : extraParts (inputs.drop (inputs.length - m.extraPartCount)) with
    | error e => rw [hx] at h; cases h
    | ok extras =>
      rw [hx] at h
      simp only at h
      have hextras := extraParts_inv hx
      generalize hin0 : inputs.take (inputs.length - m.extraPartCount) = inputs0 at h
      have hinputs : inputs = inputs0 ++ extras.map .bytes := by
        rw [← hin0, ← hextras, List.take_append_drop]
      have hcount : extras.length = m.extraPartCount := by
        have := congrArg List.length hextras
        simp only [List.length_drop, List.length_map] at this
        omega
      cases hl : decodeLoop K m.types m.part extras m.types.length 0 []
          ⟨List.replicate m.types.length .unset, inputs0, 0, 0⟩ with
      | error e => rw [hl] at h; cases h
      | ok r =>
        obtain ⟨ks, d⟩ := r
        rw [hl] at h
        simp only at h
        cases hc : checkUnused m.part d.inputs ks allKinds none with
        | some e => rw [hc] at h; cases h
        | none =>
          rw [hc] at h
          simp only at h
          cases hin : d.inputs with
          | cons a l => rw [hin] at h; cases h
          | nil =>
            rw [hin] at h
            simp only [List.isEmpty_nil, if_true, Except.ok.injEq] at h
            subst h
            have h0 : Run K m.types m.part extras inputs0 0 []
                ⟨List.replicate m.types.length .unset, inputs0, 0, 0⟩ := by
              refine ⟨by simp, ?_, ?_, by simp, by simp, ?_, fun _ => ⟨rfl, rfl⟩, fun _ => rfl,
                fun h => by cases h⟩
              · intro j b hb
                have hj := (List.getElem?_eq_some_iff.1 hb).1
                exact ⟨.unset, by simp [hj], .inl rfl, by omega, by simp, fun _ _ _ => rfl⟩
              · intro j b hb hj
                omega
              · intro j v hj
                simp only [List.getElem?_replicate] at hj
                split at hj <;> cases hj
            obtain ⟨i', hi', hr⟩ := decodeLoop_inv m.types.length (by omega) h0 hl
            obtain ⟨_, hun⟩ := checkUnused_inv _ _ hc
            have htype : ∀ (j : Nat) b y, m.types[j]? = some b → d.cells[j]? = some y → typeByte y = b := by
              intro j b y hb hy
              have hj := (List.getElem?_eq_some_iff.1 hb).1
              obtain ⟨y', y1, y2, y3, y4, y5⟩ := hr.cell j b hb
              rw [hy] at y1
              cases y1
              rcases y2 with rfl | y2
              · rcases hr.seen j b hb (by omega) with rfl | rfl | ⟨k, hk1, hk2⟩
                · rfl
                · cases y3 rfl (by omega)
                · exact absurd rfl (y4 k hk2 hk1)
              · exact y2
            have htypes : m.types = d.cells.map typeByte := by
              refine List.ext_getElem? fun j => ?_
              rw [List.getElem?_map]
              cases hb : m.types[j]? with
              | none =>
                rw [List.getElem?_eq_none_iff] at hb
                rw [List.getElem?_eq_none (by rw [hr.len]; exact hb)]
                rfl
              | some b =>
                obtain ⟨y, y1, _⟩ := hr.cell j b hb
                rw [y1, Option.map_some, htype j b y hb y1]
            have hocc : ∀ k, (∃ c ∈ d.cells, c.kind = some k) ↔ k ∈ ks := by
              intro k
              constructor
              · rintro ⟨x, hxm, hxk⟩
                obtain ⟨j, hj⟩ := List.getElem?_of_mem hxm
                have hjl : j < m.types.length := by rw [← hr.len]; exact (List.getElem?_eq_some_iff.1 hj).1
                have hty := htype j _ x (List.getElem?_eq_getElem hjl) hj
                have hkb := (kindOf_typeByte hxk).1
                rw [hty] at hkb
                rcases hr.seen j _ (List.getElem?_eq_getElem hjl) (by omega) with hs | hs | ⟨k', hk1, hk2⟩
                · rw [hs] at hkb
                  cases hkb
                · rw [hs] at hkb
                  cases hkb
                · rw [hkb] at hk2
                  cases hk2
                  exact hk1
              · intro hk
                obtain ⟨j, b, hb, hkb⟩ := hr.occurs k hk
                obtain ⟨y, y1, _⟩ := hr.cell j b hb
                have hty := htype j b y hb y1
                exact ⟨y, List.mem_of_getElem? y1, kind_of_typeByte (by rw [hty]; exact hkb)⟩
            have hagree : ∀ k (ys : List (Cell P Q)), ys.length = m.types.length →
                (∀ (j : Nat) x, ys[j]? = some x → x.kind = some k → d.cells[j]? = some x) →
                (∀ (j : Nat) x b, ys[j]? = some x → m.types[j]? = some b → kindOf b = some k →
                  x.kind = some k) →
                ∀ (j : Nat) x y, ys[j]? = some x → d.cells[j]? = some y →
                  x = y ∨ (x.kind ≠ some k ∧ y.kind ≠ some k) := by
              intro k ys hlen q3 q4 j x y hx hy
              by_cases hxk : x.kind = some k
              · have := q3 j x hx hxk
                rw [hy] at this
                exact .inl (by simpa using this.symm)
              · refine .inr ⟨hxk, fun hyk => hxk ?_⟩
                have hjl : j < m.types.length := by rw [← hr.len]; exact (List.getElem?_eq_some_iff.1 hy).1
                have hty := htype j _ y (List.getElem?_eq_getElem hjl) hy
                exact q4 j x _ hx (List.getElem?_eq_getElem hjl) (by rw [← hty]; exact (kindOf_typeByte hyk).1)
            refine ⟨htypes, ?_, extras, hcount, ?_, fun k => ⟨fun hex => ?_, fun hno => ?_⟩⟩
            · intro v hv
              obtain ⟨j, hj⟩ := List.getElem?_of_mem hv
              exact hr.dtype j v hj
            · rw [hinputs]
              congr 1
              by_cases hk : .exprQuote ∈ ks
              · obtain ⟨_, ys, q2, q3, q4, _, q6⟩ := hr.known _ hk
                rw [q6 rfl, exprsOf_congr ys d.cells (by rw [q2, hr.len]) (hagree _ ys q2 q3 q4)]
              · have h1 := hr.exprs hk
                rw [hin] at h1
                have h2 := exprsOf_append d.cells [] fun x hxm hxk => hk ((hocc _).1 ⟨x, hxm, hxk⟩)
                simp only [List.append_nil, exprsOf] at h2
                rw [← h1, h2]
                rfl
            · obtain ⟨q1, ys, q2, q3, q4, q5, _⟩ := hr.known k ((hocc k).1 hex)
              refine ⟨fun hk p hp => q1 p hp hk, ?_⟩
              rw [q5]
              exact toStore_congr ys d.cells (by rw [q2, hr.len]) (hagree _ ys q2 q3 q4) 0 0
            · have hv := hun k (mem_allKinds k) fun hk => hno ((hocc k).2 hk)
              obtain ⟨g1, g2⟩ := valuesSize_inv hv
              exact ⟨g1, List.length_eq_zero_iff.1 g2.symm⟩

end Verif.S11n
