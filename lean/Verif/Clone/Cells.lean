import Verif.Clone.Ids

/-!
The content of the new bag after a sequence of visits.
-/

namespace Verif.Clone

open Verif.ObjectId
open Verif.Uuid
open Verif.Traverse

/-! ### Cells -/

section
variable {κ ν : Type}

/-- What a visit does to the cells: `W p k v` means that the visit of `p` puts `v` into the cell
`k`, but it may leave a cell that is not in its initial state. -/
def CellStep (W : Pair → κ → ν → Prop) (init : ν) (p : Pair) (f f' : κ → ν) : Prop :=
  ∀ k, (∃ v, W p k v ∧ (f' k = v ∨ (f k ≠ init ∧ f' k = f k))) ∨ (f' k = f k ∧ ∀ v, ¬ W p k v)

/-- What is in the cells after some visits. -/
def CellInv (W : Pair → κ → ν → Prop) (init : ν) (l : List Pair) (f : κ → ν) : Prop :=
  ∀ k, (∃ p ∈ l, W p k (f k)) ∨ (f k = init ∧ ∀ p ∈ l, ∀ v, ¬ W p k v)

theorem CellInv.step {W : Pair → κ → ν → Prop} {init : ν} {l : List Pair} {p : Pair}
    {f f' : κ → ν} (hc : ∀ p1 p2 k v1 v2, p1 ∈ l ++ [p] → p2 ∈ l ++ [p] → W p1 k v1 → W p2 k v2 →
      v1 = v2) (h : CellInv W init l f) (hs : CellStep W init p f f') :
    CellInv W init (l ++ [p]) f' := by
  intro k
  rcases hs k with ⟨v, h1, h2⟩ | ⟨h1, h2⟩
  · left
    refine ⟨p, by simp, ?_⟩
    rcases h2 with h2 | ⟨h2, h3⟩
    · rw [h2]; exact h1
    · rcases h k with ⟨p', h4, h5⟩ | ⟨h4, _⟩
      · have := hc p p' k v (f k) (by simp) (by simp [h4]) h1 h5
        rw [h3, ← this]
        exact h1
      · exact absurd h4 h2
  · rw [h1]
    rcases h k with ⟨p', h4, h5⟩ | ⟨h4, h5⟩
    · exact .inl ⟨p', by simp [h4], h5⟩
    · right
      refine ⟨h4, ?_⟩
      intro q hq v
      rcases List.mem_append.mp hq with hq | hq
      · exact h5 q hq v
      · simp only [List.mem_singleton] at hq
        rw [hq]
        exact h2 v

end

/-! ### What is written -/

/-- The attributes that the visit of a pair writes. -/
def WAttr (b : Bag) (c : ObjectId → ObjectId) (p : Pair) (k : ObjectId × Name) (v : Item) : Prop :=
  ∃ x, p.1 = .object x ∧ k.1 = c x ∧
    ((p.2 = .dtype 11 ∧ k.2 = named "__schema__" ∧
        ∃ e, Own b x (.dtype 11) e ∧ v = copied c e (.dtype 12)) ∨
      ∃ T t, Own b x p.2 (.object T) ∧ T.isNoFollowSchema = false ∧ PlainSchema b T ∧
        (k.2, t) ∈ b.schemaAttrs T ∧ ¬ AboutSchema k.2 ∧ v = copied c (b.attr x k.2) t)

/-- The lists. -/
def WList (b : Bag) (c : ObjectId → ObjectId) (p : Pair) (o : ObjectId) (l : List Item) : Prop :=
  ∃ x T t, p.1 = .object x ∧ o = c x ∧ Own b x p.2 (.object T) ∧ T.isNoFollowSchema = false ∧
    ListSchema b T t ∧ l = (b.list x).map (fun y => copied c y t)

/-- The keys of dicts. -/
def WDict (b : Bag) (c : ObjectId → ObjectId) (p : Pair) (k : ObjectId × Item) (v : Option Item) :
    Prop :=
  ∃ x T kt vt y z, p.1 = .object x ∧ k.1 = c x ∧ Own b x p.2 (.object T) ∧
    T.isNoFollowSchema = false ∧ DictSchema b T kt vt ∧ (y, z) ∈ b.dict x ∧
    k.2 = copied c y kt ∧ v = some (copied c z vt)

/-- The attributes of schemas. -/
def WSchema (b : Bag) (c : ObjectId → ObjectId) (p : Pair) (k : ObjectId × Name) (v : Item) : Prop :=
  ∃ x y t, p.1 = .object x ∧ k.1 = c x ∧ p.2 = .dtype 12 ∧ (k.2, y) ∈ b.schemaAttrs x ∧
    AttrKind k.2 t ∧ k.2 ≠ named "__schema_name__" ∧ v = copied c y t

/-- What the visit of a pair does to the new bag. -/
structure Step (b : Bag) (c : ObjectId → ObjectId) (p : Pair) (g g' : NewBag) : Prop where
  attr : CellStep (WAttr b c) .missing p (fun k => g.attr k.1 k.2) (fun k => g'.attr k.1 k.2)
  list : CellStep (WList b c) [] p g.list g'.list
  dict : CellStep (WDict b c) none p (fun k => g.dict k.1 k.2) (fun k => g'.dict k.1 k.2)
  schema : CellStep (WSchema b c) .missing p (fun k => g.schemaAttr k.1 k.2)
    (fun k => g'.schemaAttr k.1 k.2)

/-- What is in the new bag after the visits. -/
structure Inv (b : Bag) (c : ObjectId → ObjectId) (l : List Pair) (g : NewBag) : Prop where
  attr : CellInv (WAttr b c) .missing l (fun k => g.attr k.1 k.2)
  list : CellInv (WList b c) [] l g.list
  dict : CellInv (WDict b c) none l (fun k => g.dict k.1 k.2)
  schema : CellInv (WSchema b c) .missing l (fun k => g.schemaAttr k.1 k.2)

theorem inv_empty (b : Bag) (c : ObjectId → ObjectId) : Inv b c [] .empty := by
  constructor <;> (intro k; exact .inr ⟨rfl, by simp⟩)

/-- The visits of a sequence of pairs. -/
inductive Run (b : Bag) (c : ObjectId → ObjectId) : NewBag → List Pair → NewBag → Prop where
  | nil {g : NewBag} : Run b c g [] g
  | cons {g g' g'' : NewBag} {p : Pair} {l : List Pair} : Step b c p g g' → Run b c g' l g'' →
      Run b c g (p :: l) g''

/-- The kinds of schemas for which there is something to copy. -/
def Kind (t : Item) : Prop := t = .dtype 11 ∨ t = .dtype 12 ∨ ∃ T, t = .object T

/-- What has to hold of the data and of the new ids. -/
structure Facts (b : Bag) (c : ObjectId → ObjectId) (R : Pair → Prop) : Prop where
  ok : b.Ok
  inj : ∀ x y s1 s2, R (.object x, s1) → R (.object y, s2) → Kind s1 → Kind s2 → c x = c y → x = y
  one : ∀ x s1 s2 T1 T2, R (.object x, s1) → R (.object x, s2) →
    Own b x s1 (.object T1) → Own b x s2 (.object T2) → T1 = T2
  names : ∀ U t, (named "__schema__", t) ∉ b.schemaAttrs U
  keys : ∀ x, ((b.dict x).map (·.1)).Nodup
  keyInj : ∀ x s T k v, R (.object x, s) → Own b x s (.object T) → T.isNoFollowSchema = false →
    DictSchema b T k v → ∀ y z y' z', (y, z) ∈ b.dict x → (y', z') ∈ b.dict x →
    copied c y k = copied c y' k → y = y'

theorem own_kind {b : Bag} {x : ObjectId} {s : Item} {T : ObjectId} (h : Own b x s (.object T)) :
    Kind s := by
  cases h with
  | object _ _ => exact .inl rfl
  | other _ => exact .inr (.inr ⟨T, rfl⟩)

theorem mem_unique {α β : Type} {l : List (α × β)} (h : (l.map (·.1)).Nodup) {a : α} {x y : β}
    (hx : (a, x) ∈ l) (hy : (a, y) ∈ l) : x = y := by
  induction l with
  | nil => cases hx
  | cons p l ih =>
    simp only [List.map_cons, List.nodup_cons, List.mem_map, not_exists, not_and] at h
    rcases List.mem_cons.mp hx with h1 | h1 <;> rcases List.mem_cons.mp hy with h2 | h2
    · rw [← h1] at h2; cases h2; rfl
    · exact absurd (by rw [← h1]) (h.1 _ h2)
    · exact absurd (by rw [← h2]) (h.1 _ h1)
    · exact ih h.2 h1 h2

theorem attrKind_unique {n : Name} {k k' : Item} (h : AttrKind n k) (h' : AttrKind n k') : k = k' := by
  have hne : named "__schema_name__" ≠ named "__schema_metadata__" := by
    rw [named_name, named_metadata]; decide
  generalize hn : n = m at h'
  cases h <;> cases h'
  · rfl
  · exact absurd hn hne
  · rename_i h1; exact absurd (.inl hn.symm) h1
  · exact absurd hn.symm hne
  · rfl
  · rename_i h1; exact absurd (.inr hn.symm) h1
  · rename_i h1; exact absurd (.inl hn) h1
  · rename_i h1; exact absurd (.inr hn) h1
  · rfl

section
variable {b : Bag} {c : ObjectId → ObjectId} {R : Pair → Prop}

theorem wattr_unique (hF : Facts b c R) {p1 p2 : Pair} {k : ObjectId × Name} {v1 v2 : Item}
    (h1 : R p1) (h2 : R p2) (w1 : WAttr b c p1 k v1) (w2 : WAttr b c p2 k v2) : v1 = v2 := by
  obtain ⟨p1, s1⟩ := p1
  obtain ⟨p2, s2⟩ := p2
  obtain ⟨x, hx, kx, w1⟩ := w1
  obtain ⟨y, hy, ky, w2⟩ := w2
  simp only at hx hy w1 w2
  subst hx hy
  have k1 : Kind s1 := by
    rcases w1 with ⟨h, _⟩ | ⟨T, t, h, _⟩
    · exact .inl h
    · exact own_kind h
  have k2 : Kind s2 := by
    rcases w2 with ⟨h, _⟩ | ⟨T, t, h, _⟩
    · exact .inl h
    · exact own_kind h
  have hxy := hF.inj x y s1 s2 h1 h2 k1 k2 (by rw [← kx, ← ky])
  subst hxy
  rcases w1 with ⟨a1, a2, e1, a3, a4⟩ | ⟨T1, t1, a1, a2, a3, a4, a5, a6⟩ <;>
    rcases w2 with ⟨b1, b2, e2, b3, b4⟩ | ⟨T2, t2, b1, b2, b3, b4, b5, b6⟩
  · rw [a4, b4, Own.unique a3 b3]
  · rw [a2] at b4; exact absurd b4 (hF.names _ _)
  · rw [b2] at a4; exact absurd a4 (hF.names _ _)
  · have := hF.one x s1 s2 T1 T2 h1 h2 a1 b1
    subst this
    rw [a6, b6, mem_unique (hF.ok T1) a4 b4]

theorem wlist_unique (hF : Facts b c R) {p1 p2 : Pair} {o : ObjectId} {l1 l2 : List Item}
    (h1 : R p1) (h2 : R p2) (w1 : WList b c p1 o l1) (w2 : WList b c p2 o l2) : l1 = l2 := by
  obtain ⟨p1, s1⟩ := p1
  obtain ⟨p2, s2⟩ := p2
  obtain ⟨x, T1, t1, hx, kx, a1, a2, a3, a4⟩ := w1
  obtain ⟨y, T2, t2, hy, ky, b1, b2, b3, b4⟩ := w2
  simp only at hx hy a1 b1
  subst hx hy
  have hxy := hF.inj x y s1 s2 h1 h2 (own_kind a1) (own_kind b1) (by rw [← kx, ← ky])
  subst hxy
  have := hF.one x s1 s2 T1 T2 h1 h2 a1 b1
  subst this
  rw [a4, b4, listSchema_unique a3 b3]

theorem wdict_unique (hF : Facts b c R) {p1 p2 : Pair} {k : ObjectId × Item} {v1 v2 : Option Item}
    (h1 : R p1) (h2 : R p2) (w1 : WDict b c p1 k v1) (w2 : WDict b c p2 k v2) : v1 = v2 := by
  obtain ⟨p1, s1⟩ := p1
  obtain ⟨p2, s2⟩ := p2
  obtain ⟨x, T1, k1, t1, y1, z1, hx, kx, a1, a2, a3, a4, a5, a6⟩ := w1
  obtain ⟨y, T2, k2, t2, y2, z2, hy, ky, b1, b2, b3, b4, b5, b6⟩ := w2
  simp only at hx hy a1 b1
  subst hx hy
  have hxy := hF.inj x y s1 s2 h1 h2 (own_kind a1) (own_kind b1) (by rw [← kx, ← ky])
  subst hxy
  have := hF.one x s1 s2 T1 T2 h1 h2 a1 b1
  subst this
  obtain ⟨hk, ht⟩ := dictSchema_unique a3 b3
  subst hk ht
  have hy := hF.keyInj x s1 T1 k1 t1 h1 a1 a2 a3 y1 z1 y2 z2 a4 b4 (by rw [← a5, ← b5])
  subst hy
  rw [a6, b6, mem_unique (hF.keys x) a4 b4]

theorem wschema_unique (hF : Facts b c R) {p1 p2 : Pair} {k : ObjectId × Name} {v1 v2 : Item}
    (h1 : R p1) (h2 : R p2) (w1 : WSchema b c p1 k v1) (w2 : WSchema b c p2 k v2) : v1 = v2 := by
  obtain ⟨p1, s1⟩ := p1
  obtain ⟨p2, s2⟩ := p2
  obtain ⟨x, y1, t1, hx, kx, a1, a2, a3, a4, a5⟩ := w1
  obtain ⟨y, y2, t2, hy, ky, b1, b2, b3, b4, b5⟩ := w2
  simp only at hx hy a1 b1
  subst hx hy
  have hxy := hF.inj x y s1 s2 h1 h2 (.inr (.inl a1)) (.inr (.inl b1)) (by rw [← kx, ← ky])
  subst hxy
  rw [a5, b5, attrKind_unique a3 b3, mem_unique (hF.ok x) a2 b2]

theorem Inv.step (hF : Facts b c R) {l : List Pair} {p : Pair} {g g' : NewBag}
    (hR : ∀ q ∈ l ++ [p], R q) (h : Inv b c l g) (hs : Step b c p g g') : Inv b c (l ++ [p]) g' :=
  ⟨h.attr.step (fun _ _ _ _ _ m1 m2 => wattr_unique hF (hR _ m1) (hR _ m2)) hs.attr,
   h.list.step (fun _ _ _ _ _ m1 m2 => wlist_unique hF (hR _ m1) (hR _ m2)) hs.list,
   h.dict.step (fun _ _ _ _ _ m1 m2 => wdict_unique hF (hR _ m1) (hR _ m2)) hs.dict,
   h.schema.step (fun _ _ _ _ _ m1 m2 => wschema_unique hF (hR _ m1) (hR _ m2)) hs.schema⟩

theorem Run.inv (hF : Facts b c R) {g g' : NewBag} {r : List Pair} (h : Run b c g r g') :
    ∀ l, (∀ q ∈ l ++ r, R q) → Inv b c l g → Inv b c (l ++ r) g' := by
  induction h with
  | nil => intro l _ hi; simpa using hi
  | @cons g g1 g2 p r hs _ ih =>
    intro l hR hi
    have := ih (l ++ [p]) (by simpa using hR)
      (Inv.step hF (fun q hq => hR q (by simp at hq ⊢; rcases hq with hq | hq <;> simp [hq])) hi hs)
    simpa using this

/-- The content of the bag at the end. -/
theorem Inv.content (hF : Facts b c R) {l : List Pair} {g : NewBag} (hR : ∀ q, q ∈ l ↔ R q)
    (h : Inv b c l g) : Content b R c g := by
  constructor
  · intro x e hr ho
    have w : WAttr b c (.object x, .dtype 11) (c x, named "__schema__") (copied c e (.dtype 12)) :=
      ⟨x, rfl, rfl, .inl ⟨rfl, rfl, e, ho, rfl⟩⟩
    rcases h.attr (c x, named "__schema__") with ⟨p, h1, h2⟩ | ⟨_, h2⟩
    · exact wattr_unique hF ((hR p).mp h1) hr h2 w
    · exact absurd w (h2 _ ((hR _).mpr hr) _)
  · intro x s T t hr ho hn hl
    have w : WList b c (.object x, s) (c x) ((b.list x).map (fun y => copied c y t)) :=
      ⟨x, T, t, rfl, rfl, ho, hn, hl, rfl⟩
    rcases h.list (c x) with ⟨p, h1, h2⟩ | ⟨_, h2⟩
    · exact wlist_unique hF ((hR p).mp h1) hr h2 w
    · exact absurd w (h2 _ ((hR _).mpr hr) _)
  · intro x s T k v hr ho hn hd y' z'
    constructor
    · intro he
      rcases h.dict (c x, y') with ⟨p, h1, h2⟩ | ⟨h1, _⟩
      · obtain ⟨p1, s2⟩ := p
        simp only at h2
        rw [he] at h2
        obtain ⟨x2, T2, k2, t2, y, z, hx, kx, a1, a2, a3, a4, a5, a6⟩ := h2
        simp only at hx kx a1 a5 a6
        subst hx
        have h1' := (hR _).mp h1
        have hxy := hF.inj x x2 s s2 hr h1' (own_kind ho) (own_kind a1) kx
        subst hxy
        have := hF.one x s s2 T T2 hr h1' ho a1
        subst this
        obtain ⟨hk, ht⟩ := dictSchema_unique a3 hd
        subst hk ht
        simp only [Option.some.injEq] at a6
        exact ⟨y, z, a4, a5, a6⟩
      · simp only at h1
        rw [he] at h1
        cases h1
    · rintro ⟨y, z, hm, rfl, rfl⟩
      have w : WDict b c (.object x, s) (c x, copied c y k) (some (copied c z v)) :=
        ⟨x, T, k, v, y, z, rfl, rfl, ho, hn, hd, hm, rfl, rfl⟩
      rcases h.dict (c x, copied c y k) with ⟨p, h1, h2⟩ | ⟨_, h2⟩
      · exact wdict_unique hF ((hR p).mp h1) hr h2 w
      · exact absurd w (h2 _ ((hR _).mpr hr) _)
  · intro x s T n t hr ho hn hp hm ha
    have w : WAttr b c (.object x, s) (c x, n) (copied c (b.attr x n) t) :=
      ⟨x, rfl, rfl, .inr ⟨T, t, ho, hn, hp, hm, ha, rfl⟩⟩
    rcases h.attr (c x, n) with ⟨p, h1, h2⟩ | ⟨_, h2⟩
    · exact wattr_unique hF ((hR p).mp h1) hr h2 w
    · exact absurd w (h2 _ ((hR _).mpr hr) _)
  · intro x n y k hr hm hk hn
    have w : WSchema b c (.object x, .dtype 12) (c x, n) (copied c y k) :=
      ⟨x, y, k, rfl, rfl, rfl, hm, hk, hn, rfl⟩
    rcases h.schema (c x, n) with ⟨p, h1, h2⟩ | ⟨_, h2⟩
    · exact wschema_unique hF ((hR p).mp h1) hr h2 w
    · exact absurd w (h2 _ ((hR _).mpr hr) _)
  · intro o n hne
    rcases h.attr (o, n) with ⟨p, h1, x, hx, kx, h2⟩ | ⟨h1, _⟩
    · obtain ⟨p1, s⟩ := p
      simp only at hx kx h2
      subst hx
      refine ⟨x, s, (hR _).mp h1, kx, ?_⟩
      rcases h2 with ⟨a1, a2, _⟩ | ⟨T, t, a1, a2, a3, a4, a5, _⟩
      · exact .inl ⟨a2, a1⟩
      · exact .inr ⟨T, t, a1, a2, a3, a4, a5⟩
    · exact absurd h1 hne
  · intro o hne
    rcases h.list o with ⟨p, h1, x, T, t, hx, kx, a1, a2, a3, _⟩ | ⟨h1, _⟩
    · obtain ⟨p1, s⟩ := p
      simp only at hx a1
      subst hx
      exact ⟨x, s, T, t, (hR _).mp h1, a1, kx, a2, a3⟩
    · exact absurd h1 hne
  · intro o k' hne
    rcases h.dict (o, k') with ⟨p, h1, x, T, k, v, y, z, hx, kx, a1, a2, a3, _⟩ | ⟨h1, _⟩
    · obtain ⟨p1, s⟩ := p
      simp only at hx a1 kx
      subst hx
      exact ⟨x, s, T, k, v, (hR _).mp h1, a1, kx, a2, a3⟩
    · exact absurd h1 hne
  · intro o n hne
    rcases h.schema (o, n) with ⟨p, h1, x, y, t, hx, kx, a1, a2, _, a4, _⟩ | ⟨h1, _⟩
    · obtain ⟨p1, s⟩ := p
      simp only at hx a1 kx a2 a4
      subst hx a1
      exact ⟨x, y, (hR _).mp h1, kx, a2, a4⟩
    · exact absurd h1 hne

end

end Verif.Clone
