import Verif.SliceManager.Spec

/-
Lemmas about selections of bags and about the state of one bag manager.
-/

namespace Verif.SliceManager

variable {I Sch Snn B SB U : Type} {α : Type}

/-- The bags with the given names. -/
def pick (ns : List Name) (bags : List (Name × α)) : List (Name × α) :=
  bags.filter fun e => ns.contains e.1

/-- The names in a list of bags. -/
abbrev namesIn (bags : List (Name × α)) : List Name := bags.map Prod.fst

theorem mem_namesIn {bags : List (Name × α)} {n : Name} :
    n ∈ namesIn bags ↔ ∃ x, (n, x) ∈ bags := by
  simp [namesIn]

theorem pick_append (ns : List Name) (a b : List (Name × α)) :
    pick ns (a ++ b) = pick ns a ++ pick ns b := List.filter_append ..

theorem pick_congr {ns ms : List Name} {bags : List (Name × α)}
    (h : ∀ n ∈ namesIn bags, (n ∈ ns ↔ n ∈ ms)) : pick ns bags = pick ms bags := by
  unfold pick
  apply List.filter_congr
  intro e he
  have := h e.1 (List.mem_map_of_mem he)
  simp [this]

theorem pick_eq_nil {ns : List Name} {bags : List (Name × α)}
    (h : ∀ n ∈ namesIn bags, n ∉ ns) : pick ns bags = [] := by
  unfold pick
  rw [List.filter_eq_nil_iff]
  intro e he
  have := h e.1 (List.mem_map_of_mem he)
  simp [this]

theorem pick_eq_self {ns : List Name} {bags : List (Name × α)}
    (h : ∀ n ∈ namesIn bags, n ∈ ns) : pick ns bags = bags := by
  unfold pick
  rw [List.filter_eq_self]
  intro e he
  have := h e.1 (List.mem_map_of_mem he)
  simp [this]

theorem pick_pick {ns ms : List Name} {bags : List (Name × α)} (h : ∀ n ∈ ns, n ∈ ms) :
    pick ns (pick ms bags) = pick ns bags := by
  unfold pick
  rw [List.filter_filter]
  apply List.filter_congr
  intro e _
  by_cases h1 : e.1 ∈ ns
  · simp [h1, h _ h1]
  · simp [h1]

theorem namesIn_pick {ns : List Name} {bags : List (Name × α)} {n : Name} :
    n ∈ namesIn (pick ns bags) ↔ n ∈ namesIn bags ∧ n ∈ ns := by
  simp only [mem_namesIn, pick, List.mem_filter, List.contains_iff_mem]
  constructor
  · rintro ⟨x, h1, h2⟩; exact ⟨⟨x, h1⟩, h2⟩
  · rintro ⟨⟨x, h1⟩, h2⟩; exact ⟨x, h1, h2⟩

/-- A selection does not change when bags with other names are added. -/
theorem pick_prefix {ns : List Name} {a b : List (Name × α)} (hp : a <+: b)
    (hn : (namesIn b).Nodup) (hs : ∀ n ∈ ns, n ∈ namesIn a) : pick ns b = pick ns a := by
  obtain ⟨r, rfl⟩ := hp
  rw [pick_append, pick_eq_nil (bags := r), List.append_nil]
  intro n hr hns
  rw [namesIn, List.map_append, List.nodup_append] at hn
  exact hn.2.2 n (hs n hns) n hr rfl

theorem namesIn_prefix {a b : List (Name × α)} (hp : a <+: b) {n : Name} (h : n ∈ namesIn a) :
    n ∈ namesIn b := by
  obtain ⟨r, rfl⟩ := hp
  simp only [namesIn, List.map_append, List.mem_append]
  exact .inl h

theorem minimal_some {m : BagDir α} {ns : List Name} (h : ∀ n ∈ ns, n ∈ namesIn m.bags) :
    m.minimal ns = some (pick ns m.bags) := by
  unfold BagDir.minimal
  rw [if_pos]
  · rfl
  · simp only [List.all_eq_true, List.contains_iff_mem]
    exact h

theorem branch_some {m : BagDir α} {ns : List Name} (h : ∀ n ∈ ns, n ∈ namesIn m.bags) :
    m.branch ns = some ⟨0, pick ns m.bags⟩ := by
  unfold BagDir.branch
  rw [minimal_some h]
  rfl

theorem branch_eq {m b : BagDir α} {ns : List Name} (h : m.branch ns = some b) :
    b = ⟨0, pick ns m.bags⟩ ∧ ∀ n ∈ ns, n ∈ namesIn m.bags := by
  unfold BagDir.branch BagDir.minimal at h
  by_cases hc : ns.all (fun n => (m.bags.map Prod.fst).contains n) = true
  · rw [if_pos hc] at h
    simp only [Option.map_some, Option.some.injEq] at h
    refine ⟨h ▸ rfl, ?_⟩
    simpa only [List.all_eq_true, List.contains_iff_mem] using hc
  · rw [if_neg hc] at h
    simp at h

/-- What an instance has seen of a bag manager is a beginning of what there is, and all of it if the
number is the same. -/
def Behind (m : BagDir α) (bd : BagDir α) : Prop :=
  m.bags <+: bd.bags ∧ m.num ≤ bd.num ∧ (m.num = bd.num → m.bags = bd.bags)

theorem Behind.refl (m : BagDir α) : Behind m m := ⟨List.prefix_refl _, Nat.le_refl _, fun _ => rfl⟩

theorem Behind.trans {a b c : BagDir α} (h1 : Behind a b) (h2 : Behind b c) : Behind a c := by
  refine ⟨h1.1.trans h2.1, Nat.le_trans h1.2.1 h2.2.1, fun h => ?_⟩
  have hb : a.num = b.num := Nat.le_antisymm h1.2.1 (h ▸ h2.2.1)
  rw [h1.2.2 hb, h2.2.2 (hb ▸ h)]

/-- An instance has seen a bag manager, and all of the named bags. -/
def Sees (disk : Option (BagDir α)) (ns : List Name) (b : BagDir α) : Prop :=
  (∃ bd, disk = some bd ∧ Behind b bd) ∧ ∀ n ∈ ns, n ∈ namesIn b.bags

/-- The state of a bag manager only moves forward. -/
def Later (disk disk' : Option (BagDir α)) : Prop :=
  ∀ bd, disk = some bd → ∃ bd', disk' = some bd' ∧ Behind bd bd'

theorem Later.refl (disk : Option (BagDir α)) : Later disk disk := fun bd h => ⟨bd, h, Behind.refl _⟩

theorem Later.of_none (disk : Option (BagDir α)) : Later none disk := fun bd h => by simp at h

theorem Sees.later {disk disk' : Option (BagDir α)} {ns : List Name} {b : BagDir α}
    (h : Sees disk ns b) (hl : Later disk disk') : Sees disk' ns b := by
  obtain ⟨⟨bd, h1, h2⟩, h3⟩ := h
  obtain ⟨bd', h4, h5⟩ := hl bd h1
  exact ⟨⟨bd', h4, h2.trans h5⟩, h3⟩

theorem Sees.mono {disk : Option (BagDir α)} {ns ms : List Name} {b : BagDir α}
    (h : Sees disk ns b) (hs : ∀ n ∈ ms, n ∈ ns) : Sees disk ms b :=
  ⟨h.1, fun n hn => h.2 n (hs n hn)⟩

/-- The bags in a bag manager directory. -/
def bagsIn (disk : Option (BagDir α)) : List (Name × α) :=
  match disk with
  | none => []
  | some bd => bd.bags

theorem Sees.pick {disk : Option (BagDir α)} {ns : List Name} {b : BagDir α}
    (h : Sees disk ns b) (hn : (namesIn (bagsIn disk)).Nodup) :
    pick ns b.bags = pick ns (bagsIn disk) := by
  obtain ⟨⟨bd, h1, h2⟩, h3⟩ := h
  subst h1
  exact (pick_prefix h2.1 hn h3).symm

theorem Sees.mem {disk : Option (BagDir α)} {ns : List Name} {b : BagDir α}
    (h : Sees disk ns b) {n : Name} (hn : n ∈ ns) : n ∈ namesIn (bagsIn disk) := by
  obtain ⟨⟨bd, h1, h2⟩, h3⟩ := h
  subst h1
  exact namesIn_prefix h2.1 (h3 n hn)

theorem add_eq {m b : BagDir α} {disk : Option (BagDir α)} {new : List (Name × α)}
    (h : m.add disk new = some b) :
    ∃ bd, disk = some bd ∧ bd.num = m.num ∧ b = ⟨m.num + 1, m.bags ++ new⟩ := by
  unfold BagDir.add at h
  cases disk with
  | none => simp at h
  | some bd =>
    simp only at h
    by_cases hc : bd.num = m.num
    · rw [if_pos hc] at h
      exact ⟨bd, rfl, hc, by simpa using h.symm⟩
    · rw [if_neg hc] at h
      simp at h

/-! ### Dependent components -/

theorem setKind_same {β : Kind → Type} (f : (k : Kind) → β k) (k : Kind) (x : β k) :
    setKind f k x k = x := by simp [setKind]

theorem setKind_other {β : Kind → Type} (f : (k : Kind) → β k) (k k' : Kind) (x : β k)
    (h : k ≠ k') : setKind f k x k' = f k' := by simp [setKind, h]

end Verif.SliceManager
