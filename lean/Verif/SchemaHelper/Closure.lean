import Verif.SchemaHelper.Model

/-! Lemmas on dicts, sets and `_get_transitive_closure_image`. -/

namespace Verif.SchemaHelper

/-! ### Dicts -/

section
variable {K V : Type} [BEq K] [LawfulBEq K]

theorem lookup_append (d e : List (K × V)) (k : K) :
    (d ++ e).lookup k = (d.lookup k).or (e.lookup k) := by
  induction d with
  | nil => simp
  | cons x d ih =>
    rw [List.cons_append, List.lookup_cons, List.lookup_cons]
    by_cases h : k == x.1
    · simp [h]
    · simp [h, ih]

theorem lookup_none_of_not_any (d : List (K × V)) (k : K) (h : ¬ d.any (fun e => e.1 == k) = true) :
    d.lookup k = .none := by
  induction d with
  | nil => rfl
  | cons x d ih =>
    simp only [List.any_cons, Bool.or_eq_true, not_or] at h
    rw [List.lookup_cons]
    have : (k == x.1) = false := by
      rw [Bool.eq_false_iff]; intro he; exact h.1 (by rw [eq_of_beq he]; simp)
    rw [this]; exact ih h.2

theorem lookup_set_eq (d : List (K × V)) (k : K) (v : V) : (dictSet d k v).lookup k = some v := by
  unfold dictSet
  by_cases h : d.any (fun e => e.1 == k) = true
  · rw [if_pos h]
    induction d with
    | nil => simp at h
    | cons x d ih =>
      rw [List.map_cons, List.lookup_cons]
      by_cases hx : x.1 == k
      · simp [hx]
      · have h2 : (k == x.1) = false := by
          rw [Bool.eq_false_iff]; intro he; exact hx (by rw [eq_of_beq he]; simp)
        simp only [List.any_cons, hx, Bool.false_or] at h
        simp only [hx, Bool.false_eq_true, if_false, h2]
        exact ih h
  · rw [if_neg h, lookup_append, lookup_none_of_not_any d k h]
    simp

theorem lookup_set_ne (d : List (K × V)) (k : K) (v : V) {k' : K} (hk : k' ≠ k) :
    (dictSet d k v).lookup k' = d.lookup k' := by
  unfold dictSet
  split
  · induction d with
    | nil => rfl
    | cons x d ih =>
      rw [List.map_cons, List.lookup_cons, List.lookup_cons]
      have ih' : (List.map (fun e => if (e.1 == k) = true then (k, v) else e) d).lookup k' =
          d.lookup k' := by
        by_cases hany : d.any (fun e => e.1 == k) = true
        · exact ih hany
        · congr 1
          conv => rhs; rw [← List.map_id d]
          apply List.map_congr_left
          intro e he
          rw [if_neg]; rfl
          intro h; exact hany (List.any_eq_true.2 ⟨e, he, h⟩)
      by_cases hx : x.1 == k
      · have h1 : (k' == k) = false := by
          rw [Bool.eq_false_iff]; intro he; exact hk (eq_of_beq he)
        have h2 : (k' == x.1) = false := by rw [eq_of_beq hx]; exact h1
        simp only [hx, if_true, h1, h2, ih']
      · simp only [hx, Bool.false_eq_true, if_false, ih']
  · rw [lookup_append]
    have h1 : (k' == k) = false := by
      rw [Bool.eq_false_iff]; intro he; exact hk (eq_of_beq he)
    simp [List.lookup_cons, h1]

theorem lookup_set [DecidableEq K] (d : List (K × V)) (k : K) (v : V) (k' : K) :
    (dictSet d k v).lookup k' = if k' = k then some v else d.lookup k' := by
  by_cases h : k' = k
  · subst h; rw [if_pos rfl, lookup_set_eq]
  · rw [if_neg h, lookup_set_ne d k v h]

theorem lookup_mem {d : List (K × V)} {k : K} {v : V} (h : d.lookup k = some v) : (k, v) ∈ d := by
  induction d with
  | nil => simp at h
  | cons x d ih =>
    rw [List.lookup_cons] at h
    by_cases hx : k == x.1
    · simp only [hx] at h
      rw [eq_of_beq hx, ← Option.some.inj h]; simp
    · have : (k == x.1) = false := by simpa using hx
      simp only [this] at h
      exact List.mem_cons_of_mem _ (ih h)

theorem lookup_isSome_iff (d : List (K × V)) (k : K) :
    (d.lookup k).isSome = true ↔ k ∈ d.map (·.1) := by
  induction d with
  | nil => simp
  | cons x d ih =>
    rw [List.lookup_cons, List.map_cons, List.mem_cons]
    by_cases hx : k == x.1
    · simp [hx, eq_of_beq hx]
    · have h2 : k ≠ x.1 := fun h => hx (by rw [h]; simp)
      have : (k == x.1) = false := by simpa using hx
      simp only [this, h2, false_or]; exact ih

theorem mem_lookup {d : List (K × V)} (hd : (d.map (·.1)).Nodup) {k : K} {v : V} (h : (k, v) ∈ d) :
    d.lookup k = some v := by
  induction d with
  | nil => simp at h
  | cons x d ih =>
    rw [List.map_cons, List.nodup_cons] at hd
    rw [List.lookup_cons]
    rcases List.mem_cons.1 h with rfl | h
    · simp
    · have : (k == x.1) = false := by
        rw [Bool.eq_false_iff]; intro he
        exact hd.1 (by rw [← eq_of_beq he]; exact List.mem_map_of_mem (f := (·.1)) h)
      simp only [this]
      exact ih hd.2 h

theorem set_keys (d : List (K × V)) (k : K) (v : V) :
    (dictSet d k v).map (·.1) = if d.any (fun e => e.1 == k) then d.map (·.1) else d.map (·.1) ++ [k] := by
  unfold dictSet
  split
  · rw [List.map_map]
    apply List.map_congr_left
    intro e _
    simp only [Function.comp]
    split
    · rename_i h; exact (eq_of_beq h).symm
    · rfl
  · simp

theorem set_keys_nodup (d : List (K × V)) (k : K) (v : V) (hd : (d.map (·.1)).Nodup) :
    ((dictSet d k v).map (·.1)).Nodup := by
  rw [set_keys]
  split
  · exact hd
  · rename_i h
    rw [List.nodup_append]
    refine ⟨hd, by simp, ?_⟩
    intro a ha c hc he
    simp only [List.mem_singleton] at hc
    subst hc; subst he
    obtain ⟨e, he, rfl⟩ := List.mem_map.1 ha
    exact h (List.any_eq_true.2 ⟨e, he, by simp⟩)

end

/-! ### Sets -/

theorem mem_setAdd (s : List Name) (x y : Name) : y ∈ setAdd s x ↔ y ∈ s ∨ y = x := by
  unfold setAdd
  split
  · rename_i h
    constructor
    · exact .inl
    · rintro (h1 | rfl)
      · exact h1
      · exact List.contains_iff_mem.1 h
  · simp

theorem nodup_setAdd {s : List Name} (hs : s.Nodup) (x : Name) : (setAdd s x).Nodup := by
  unfold setAdd
  split
  · exact hs
  · rename_i h
    rw [List.nodup_append]
    refine ⟨hs, by simp, ?_⟩
    intro a ha c hc he
    simp only [List.mem_singleton] at hc
    subst hc; subst he
    exact h (List.contains_iff_mem.2 ha)

theorem mem_setUpdate (s ys : List Name) (y : Name) : y ∈ setUpdate s ys ↔ y ∈ s ∨ y ∈ ys := by
  unfold setUpdate
  induction ys generalizing s with
  | nil => simp
  | cons z ys ih => rw [List.foldl_cons, ih, mem_setAdd, List.mem_cons, or_assoc]

theorem nodup_setUpdate {s : List Name} (hs : s.Nodup) (ys : List Name) : (setUpdate s ys).Nodup := by
  unfold setUpdate
  induction ys generalizing s with
  | nil => exact hs
  | cons z ys ih => rw [List.foldl_cons]; exact ih (nodup_setAdd hs z)

theorem nodup_length_le {l t : List Name} (hl : l.Nodup) (h : ∀ x ∈ l, x ∈ t) : l.length ≤ t.length := by
  induction l generalizing t with
  | nil => simp
  | cons x l ih =>
    rw [List.nodup_cons] at hl
    have hx := h x (by simp)
    have h1 : l.length ≤ (t.erase x).length := ih hl.2 (fun y hy => by
      have hne : y ≠ x := fun he => hl.1 (he ▸ hy)
      exact (List.mem_erase_of_ne hne).2 (h y (by simp [hy])))
    rw [List.length_erase_of_mem hx] at h1
    have : 0 < t.length := List.length_pos_of_mem hx
    simp only [List.length_cons]; omega

/-! ### The closure -/

/-- `y in relation[x]`. -/
def Edge (r : Relation) (x y : Name) : Prop := ∃ ys, r.entries.lookup x = some ys ∧ y ∈ ys

/-- One or more edges. -/
inductive Plus (R : Name → Name → Prop) : Name → Name → Prop
  | one {x y} : R x y → Plus R x y
  | more {x y z} : Plus R x y → R y z → Plus R x z

theorem Plus.head {R : Name → Name → Prop} {x y z : Name} (h : R x y) (h2 : Plus R y z) : Plus R x z := by
  induction h2 with
  | one h1 => exact .more (.one h) h1
  | more _ h1 ih => exact .more ih h1

/-- All names that are the second of a pair. -/
def targets (r : Relation) : List Name := (r.entries.map (·.2)).flatten

theorem edge_target {r : Relation} {x y : Name} (h : Edge r x y) : y ∈ targets r := by
  obtain ⟨ys, h1, h2⟩ := h
  exact List.mem_flatten.2 ⟨ys, List.mem_map.2 ⟨_, lookup_mem h1, rfl⟩, h2⟩

theorem targets_length (r : Relation) :
    (targets r).length = (r.entries.map fun e => e.2.length).foldl (· + ·) 0 := by
  unfold targets
  rw [List.length_flatten, List.map_map]
  have : ∀ (l : List Nat) (k : Nat), l.foldl (· + ·) k = k + l.sum := by
    intro l
    induction l with
    | nil => intro k; simp
    | cons a l ih => intro k; rw [List.foldl_cons, ih, List.sum_cons]; omega
  rw [this, Nat.zero_add]
  rfl

/-- `relation[x]` does not fail. -/
def Total (r : Relation) (x : Name) : Prop := r.isDefault = true ∨ (r.entries.lookup x).isSome = true

theorem get_total {r : Relation} {x : Name} (h : Total r x) :
    ∃ ys, r.get x = .ok ys ∧ ∀ y, y ∈ ys ↔ Edge r x y := by
  unfold Relation.get
  cases hl : r.entries.lookup x with
  | some ys =>
    refine ⟨ys, rfl, fun y => ⟨fun hy => ⟨ys, hl, hy⟩, ?_⟩⟩
    rintro ⟨zs, h1, h2⟩
    rw [hl] at h1; cases h1; exact h2
  | none =>
    rcases h with h | h
    · refine ⟨[], by simp [h], fun y => ⟨fun hy => by simp at hy, ?_⟩⟩
      rintro ⟨zs, h1, _⟩
      rw [hl] at h1; cases h1
    · rw [hl] at h; cases h

theorem pop_mem {u : Name} {us : List Name} {i : Nat} (hi : i < us.length + 1) (x : Name) :
    x ∈ u :: us ↔ x = (u :: us).getD i u ∨ x ∈ (u :: us).eraseIdx i := by
  have hi' : i < (u :: us).length := by simpa using hi
  have hg : (u :: us).getD i u = (u :: us)[i] := by
    rw [List.getD_eq_getElem?_getD, List.getElem?_eq_getElem hi', Option.getD_some]
  rw [hg]
  generalize hw : (u :: us) = w at hi'
  clear hg hw hi u us
  induction w generalizing i with
  | nil => simp at hi'
  | cons c w ih =>
    cases i with
    | zero => simp
    | succ i =>
      simp only [List.length_cons] at hi'
      simp only [List.mem_cons, List.getElem_cons_succ, List.eraseIdx_cons_succ]
      have ih' := ih (i := i) (by omega)
      constructor
      · rintro (h | h)
        · exact .inr (.inl h)
        · rcases ih'.1 h with h | h
          · exact .inl h
          · exact .inr (.inr h)
      · rintro (h | h | h)
        · exact .inr (ih'.2 (.inl h))
        · exact .inl h
        · exact .inr (ih'.2 (.inr h))

theorem nodup_eraseIdx {l : List Name} (h : l.Nodup) (i : Nat) : (l.eraseIdx i).Nodup :=
  List.Sublist.nodup (List.eraseIdx_sublist l i) h

theorem closureLoop_spec (r : Relation) (pick : List Name → Nat) (P : Name → Prop)
    (hP : ∀ y z, P y → Edge r y z → P z) (hT : ∀ y, P y → Total r y) (hM : ∀ y, P y → y ∈ targets r)
    (n : Nat) (unvisited result : List Name) (hu : ∀ y ∈ unvisited, P y) (hr : ∀ y ∈ result, P y)
    (hun : unvisited.Nodup) (hrn : result.Nodup)
    (hc : ∀ y ∈ result, ∀ z, Edge r y z → z ∈ result ∨ z ∈ unvisited)
    (hn : ((targets r).length - result.length) * ((targets r).length + 1) + unvisited.length ≤ n) :
    ∃ R, closureLoop r pick n unvisited result = .ok (some R) ∧ R.Nodup ∧ (∀ y ∈ R, P y) ∧
      (∀ y ∈ R, ∀ z, Edge r y z → z ∈ R) ∧ (∀ y ∈ result, y ∈ R) ∧ ∀ y ∈ unvisited, y ∈ R := by
  induction n generalizing unvisited result with
  | zero =>
    cases unvisited with
    | nil =>
      refine ⟨result, rfl, hrn, hr, ?_, fun y h => h, fun y h => by simp at h⟩
      intro y hy z hz
      rcases hc y hy z hz with h | h
      · exact h
      · simp at h
    | cons u us => simp at hn
  | succ n ih =>
    cases unvisited with
    | nil =>
      refine ⟨result, rfl, hrn, hr, ?_, fun y h => h, fun y h => by simp at h⟩
      intro y hy z hz
      rcases hc y hy z hz with h | h
      · exact h
      · simp at h
    | cons u us =>
      simp only [closureLoop]
      have hi : pick (u :: us) % (us.length + 1) < us.length + 1 := Nat.mod_lt _ (by omega)
      generalize hcur : (u :: us).getD (pick (u :: us) % (us.length + 1)) u = cur
      have hpop := fun x => pop_mem (u := u) (us := us) hi x
      rw [hcur] at hpop
      have hlen : ((u :: us).eraseIdx (pick (u :: us) % (us.length + 1))).length = us.length := by
        rw [List.length_eraseIdx_of_lt (by simpa using hi)]; simp
      have hnd := nodup_eraseIdx hun (pick (u :: us) % (us.length + 1))
      generalize (u :: us).eraseIdx (pick (u :: us) % (us.length + 1)) = rest at hpop hlen hnd
      have hPc : P cur := hu cur ((hpop cur).2 (.inl rfl))
      simp only [List.length_cons] at hn
      by_cases hin : result.contains cur = true
      · rw [if_pos hin]
        have hin' := List.contains_iff_mem.1 hin
        obtain ⟨R, h1, h2, h3, h4, h5, h6⟩ := ih rest result
          (fun y hy => hu y ((hpop y).2 (.inr hy))) hr hnd hrn
          (fun y hy z hz => by
            rcases hc y hy z hz with h | h
            · exact .inl h
            · rcases (hpop z).1 h with rfl | h
              · exact .inl hin'
              · exact .inr h)
          (by omega)
        refine ⟨R, h1, h2, h3, h4, h5, ?_⟩
        intro y hy
        rcases (hpop y).1 hy with rfl | h
        · exact h5 _ hin'
        · exact h6 y h
      · rw [if_neg hin]
        obtain ⟨ys, hg, hys⟩ := get_total (hT cur hPc)
        rw [hg]
        simp only
        have hnotin : cur ∉ result := fun h => hin (List.contains_iff_mem.2 h)
        have hadd : setAdd result cur = result ++ [cur] := by
          unfold setAdd; rw [if_neg hin]
        have hsub : ∀ y ∈ setUpdate rest ys, P y := by
          intro y hy
          rcases (mem_setUpdate _ _ _).1 hy with h | h
          · exact hu y ((hpop y).2 (.inr h))
          · exact hP cur y hPc ((hys y).1 h)
        have hl1 : (setUpdate rest ys).length ≤ (targets r).length :=
          nodup_length_le (nodup_setUpdate hnd ys) (fun y hy => hM y (hsub y hy))
        have hl2 : result.length + 1 ≤ (targets r).length := by
          have := nodup_length_le (nodup_setAdd hrn cur) (t := targets r) (fun y hy => by
            rcases (mem_setAdd _ _ _).1 hy with h | rfl
            · exact hM y (hr y h)
            · exact hM _ hPc)
          rw [hadd] at this; simpa using this
        obtain ⟨R, h1, h2, h3, h4, h5, h6⟩ := ih (setUpdate rest ys) (setAdd result cur) hsub
          (fun y hy => by
            rcases (mem_setAdd _ _ _).1 hy with h | rfl
            · exact hr y h
            · exact hPc)
          (nodup_setUpdate hnd ys) (nodup_setAdd hrn cur)
          (fun y hy z hz => by
            rcases (mem_setAdd _ _ _).1 hy with h | rfl
            · rcases hc y h z hz with h' | h'
              · exact .inl ((mem_setAdd _ _ _).2 (.inl h'))
              · rcases (hpop z).1 h' with rfl | h''
                · exact .inl ((mem_setAdd _ _ _).2 (.inr rfl))
                · exact .inr ((mem_setUpdate _ _ _).2 (.inl h''))
            · exact .inr ((mem_setUpdate _ _ _).2 (.inr ((hys z).2 hz))))
          (by
            rw [hadd, List.length_append, List.length_singleton]
            have hk : (targets r).length - result.length =
                ((targets r).length - (result.length + 1)) + 1 := by omega
            rw [hk, Nat.add_mul, Nat.one_mul] at hn
            omega)
        refine ⟨R, h1, h2, h3, h4, fun y hy => h5 y ((mem_setAdd _ _ _).2 (.inl hy)), ?_⟩
        intro y hy
        rcases (hpop y).1 hy with rfl | h
        · exact h5 _ ((mem_setAdd _ _ _).2 (.inr rfl))
        · exact h6 y ((mem_setUpdate _ _ _).2 (.inl h))

theorem initialUnvisited_spec (r : Relation) (xs acc : List Name) (hx : ∀ x ∈ xs, Total r x)
    (ha : acc.Nodup) :
    ∃ us, initialUnvisited r xs acc = .ok us ∧ us.Nodup ∧
      ∀ y, y ∈ us ↔ y ∈ acc ∨ ∃ x ∈ xs, Edge r x y := by
  induction xs generalizing acc with
  | nil => exact ⟨acc, rfl, ha, by simp⟩
  | cons x xs ih =>
    obtain ⟨ys, hg, hys⟩ := get_total (hx x (by simp))
    obtain ⟨us, h1, h2, h3⟩ := ih (setUpdate acc ys) (fun y hy => hx y (by simp [hy]))
      (nodup_setUpdate ha ys)
    refine ⟨us, by simp only [initialUnvisited, hg, h1], h2, ?_⟩
    intro y
    rw [h3, mem_setUpdate, or_assoc, hys]
    simp

theorem closureImage_spec (r : Relation) (pick : List Name → Nat) (s : List Name)
    (hs : ∀ x ∈ s, Total r x) (ht : ∀ x y, Edge r x y → Total r y) :
    ∃ R, closureImage r pick s = .ok (some R) ∧ R.Nodup ∧
      ∀ y, y ∈ R ↔ ∃ x ∈ s, Plus (Edge r) x y := by
  obtain ⟨us, h1, h2, h3⟩ := initialUnvisited_spec r s [] hs (by simp)
  have hplus : ∀ x y, Plus (Edge r) x y → ∃ z, Edge r z y := by
    intro x y h
    cases h with
    | one h => exact ⟨_, h⟩
    | more _ h => exact ⟨_, h⟩
  have husP : ∀ y ∈ us, ∃ x ∈ s, Plus (Edge r) x y := by
    intro y hy
    rcases (h3 y).1 hy with h | ⟨x, hx, he⟩
    · simp at h
    · exact ⟨x, hx, .one he⟩
  have hM : ∀ y, (∃ x ∈ s, Plus (Edge r) x y) → y ∈ targets r := by
    rintro y ⟨x, _, h⟩
    obtain ⟨z, hz⟩ := hplus x y h
    exact edge_target hz
  obtain ⟨R, g1, g2, g3, g4, _, g6⟩ := closureLoop_spec r pick (fun y => ∃ x ∈ s, Plus (Edge r) x y)
    (fun y z ⟨x, hx, h⟩ he => ⟨x, hx, .more h he⟩)
    (fun y ⟨x, _, h⟩ => by obtain ⟨z, hz⟩ := hplus x y h; exact ht z y hz)
    hM (closureBound r) us [] husP (by simp) h2 (by simp) (by simp)
    (by
      have hl := nodup_length_le h2 (t := targets r) (fun y hy => hM y (husP y hy))
      unfold closureBound
      rw [← targets_length]
      simp only [List.length_nil, Nat.sub_zero, Nat.add_mul, Nat.mul_add, Nat.one_mul, Nat.mul_one]
      omega)
  refine ⟨R, by simp only [closureImage, h1, g1], g2, fun y => ⟨g3 y, ?_⟩⟩
  rintro ⟨x, hx, h⟩
  induction h with
  | one h => exact g6 _ ((h3 _).2 (.inr ⟨x, hx, h⟩))
  | more _ he ih => exact g4 _ ih _ he

/-! ### The converse -/

theorem edge_defaultAdd (d : List (Name × List Name)) (dflt : Bool) (y x a c : Name) :
    Edge ⟨defaultAdd d y x, dflt⟩ a c ↔ Edge ⟨d, dflt⟩ a c ∨ (a = y ∧ c = x) := by
  unfold Edge defaultAdd
  simp only [lookup_set]
  by_cases h : a = y
  · subst h
    simp only [if_true, Option.some.injEq]
    constructor
    · rintro ⟨ys, rfl, h⟩
      rcases (mem_setAdd _ _ _).1 h with h | rfl
      · cases hl : d.lookup a with
        | none => rw [hl] at h; simp at h
        | some zs => rw [hl] at h; exact .inl ⟨zs, rfl, h⟩
      · exact .inr ⟨trivial, rfl⟩
    · rintro (⟨ys, h1, h2⟩ | ⟨_, rfl⟩)
      · exact ⟨_, rfl, (mem_setAdd _ _ _).2 (.inl (by rw [h1]; exact h2))⟩
      · exact ⟨_, rfl, (mem_setAdd _ _ _).2 (.inr rfl)⟩
  · simp only [h, if_false, false_and, or_false]

theorem edge_converse (g : List (Name × List Name)) (hg : (g.map (·.1)).Nodup) (x y : Name) :
    Edge (converse g) y x ↔ Edge ⟨g, false⟩ x y := by
  have inner : ∀ (ys : List Name) (k : Name) (acc : List (Name × List Name)),
      Edge ⟨ys.foldl (fun acc y => defaultAdd acc y k) acc, true⟩ y x ↔
        Edge ⟨acc, true⟩ y x ∨ (x = k ∧ y ∈ ys) := by
    intro ys k
    induction ys with
    | nil => intro acc; simp
    | cons z ys ih =>
      intro acc
      rw [List.foldl_cons, ih, edge_defaultAdd, List.mem_cons, or_assoc]
      constructor
      · rintro (h | ⟨h1, h2⟩ | ⟨h1, h2⟩)
        · exact .inl h
        · exact .inr ⟨h2, .inl h1⟩
        · exact .inr ⟨h1, .inr h2⟩
      · rintro (h | ⟨h1, h2 | h2⟩)
        · exact .inl h
        · exact .inr (.inl ⟨h2, h1⟩)
        · exact .inr (.inr ⟨h1, h2⟩)
  have outer : ∀ (l : List (Name × List Name)) (acc : List (Name × List Name)),
      Edge ⟨l.foldl (fun acc e => e.2.foldl (fun acc y => defaultAdd acc y e.1) acc) acc, true⟩ y x ↔
        Edge ⟨acc, true⟩ y x ∨ ∃ e ∈ l, x = e.1 ∧ y ∈ e.2 := by
    intro l
    induction l with
    | nil => intro acc; simp
    | cons e l ih =>
      intro acc
      rw [List.foldl_cons, ih, inner, or_assoc]
      simp
  unfold converse
  rw [outer]
  constructor
  · rintro (⟨ys, h, _⟩ | ⟨e, he, rfl, hy⟩)
    · simp at h
    · exact ⟨e.2, mem_lookup hg he, hy⟩
  · rintro ⟨ys, h1, h2⟩
    exact .inr ⟨_, lookup_mem h1, rfl, h2⟩

end Verif.SchemaHelper
