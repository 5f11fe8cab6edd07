import Verif.BagFork.StoreLemmas
import Verif.BagFork.Spec

namespace Verif.BagFork

set_option linter.unusedSectionVars false

variable {A L : Type} [DecidableEq A]

/-! ### Lists of an implementation -/

theorem getConstLists_eq {impls : List (Impl A)} {b : Nat} {impl : Impl A}
    (hb : impls[b]? = some impl) (hp : ∀ p, impl.parent = some p → p < b) (alloc : A) :
    getConstLists impls b alloc =
      (impl.lists.lookup alloc).or (parentLists impls impl.parent alloc) := by
  rw [getConstLists, hb]
  simp only
  cases hl : impl.lists.lookup alloc with
  | some v => rfl
  | none =>
    simp only [Option.none_or]
    unfold parentLists
    cases h : impl.parent with
    | none => rfl
    | some p =>
      simp only
      rw [dif_pos (hp p h)]

theorem getConstLists_none {impls : List (Impl A)} {b : Nat} (hb : impls[b]? = none) (alloc : A) :
    getConstLists impls b alloc = none := by
  rw [getConstLists, hb]

/-- The parent and the lists of an implementation. -/
def Impl.core (impl : Impl A) : Option Nat × List (A × Nat) := (impl.parent, impl.lists)

theorem getConstLists_congr (impls impls' : List (Impl A)) (P : Nat → Prop)
    (hP : ∀ (u : Nat) (impl : Impl A) p, P u → impls[u]? = some impl → impl.parent = some p → P p)
    (he : ∀ (u : Nat), P u → (impls'[u]?).map Impl.core = (impls[u]?).map Impl.core)
    (u : Nat) (hu : P u) (alloc : A) : getConstLists impls' u alloc = getConstLists impls u alloc := by
  induction u using Nat.strongRecOn with
  | ind u ih =>
    have he := he u hu
    rw [getConstLists, getConstLists]
    cases hv : impls[u]? with
    | none =>
      cases hv' : impls'[u]? with
      | none => rfl
      | some x => rw [hv, hv'] at he; cases he
    | some impl =>
      cases hv' : impls'[u]? with
      | none => rw [hv, hv'] at he; cases he
      | some x =>
        rw [hv, hv'] at he
        simp only [Option.map_some, Option.some.injEq, Impl.core, Prod.mk.injEq] at he
        simp only
        rw [he.1, he.2]
        cases hl : impl.lists.lookup alloc with
        | some a => rfl
        | none =>
          simp only
          cases hp : impl.parent with
          | none => rfl
          | some p =>
            simp only
            split
            · rename_i hlt
              exact ih p hlt (hP u impl p hu hv hp)
            · rfl

/-- The invariant of the implementations. -/
structure IInv (c : Cfg A L) (s : Store L) (impls : List (Impl A)) : Prop where
  store : VInv c s
  par : ∀ (b : Nat) (impl : Impl A) p, impls[b]? = some impl → impl.parent = some p →
    p < b ∧ ∃ ip, impls[p]? = some ip ∧ ip.frozen = true
  vecs : ∀ (b : Nat) (impl : Impl A) alloc v, impls[b]? = some impl → (alloc, v) ∈ impl.lists →
    ∃ vec, s.vecs[v]? = some vec ∧ vec.size = c.capacity alloc
  inj : ∀ (b : Nat) (impl : Impl A) alloc (b' : Nat) (impl' : Impl A) alloc' v,
    impls[b]? = some impl → (alloc, v) ∈ impl.lists → impls[b']? = some impl' →
    (alloc', v) ∈ impl'.lists → b = b' ∧ alloc = alloc'
  child : ∀ v, HasChild s.vecs v → ∃ (b : Nat) (impl : Impl A) (alloc : A),
    impls[b]? = some impl ∧ (alloc, v) ∈ impl.lists ∧ impl.frozen = true

/-- The list of an implementation. -/
def implRead (s : Store L) (impls : List (Impl A)) (b : Nat) (alloc : A) (offset : Nat) :
    Option L :=
  (getConstLists impls b alloc).bind fun v => vecRead s v offset

theorem getConstLists_mem {c : Cfg A L} {s : Store L} {impls : List (Impl A)} (h : IInv c s impls)
    (b : Nat) (alloc : A) (v : Nat) (hg : getConstLists impls b alloc = some v) :
    ∃ (b' : Nat) (impl : Impl A), impls[b']? = some impl ∧ (alloc, v) ∈ impl.lists ∧
      (b' = b ∨ impl.frozen = true) := by
  induction b using Nat.strongRecOn with
  | ind b ih =>
    cases hb : impls[b]? with
    | none =>
      rw [getConstLists_none hb] at hg
      cases hg
    | some impl =>
      rw [getConstLists_eq hb (fun p hp => (h.par b impl p hb hp).1)] at hg
      cases hl : impl.lists.lookup alloc with
      | some v' =>
        rw [hl, Option.some_or] at hg
        cases hg
        exact ⟨b, impl, hb, lookup_mem hl, .inl rfl⟩
      | none =>
        rw [hl, Option.none_or] at hg
        unfold parentLists at hg
        cases hp : impl.parent with
        | none => rw [hp] at hg; cases hg
        | some p =>
          rw [hp] at hg
          obtain ⟨hlt, ip, hip, hfr⟩ := h.par b impl p hb hp
          obtain ⟨b', impl', h1, h2, h3⟩ := ih p hlt hg
          refine ⟨b', impl', h1, h2, .inr ?_⟩
          rcases h3 with rfl | h3
          · rw [h1] at hip
            cases hip
            exact hfr
          · exact h3

/-! ### New implementations, freezing -/

theorem parentLists_append {c : Cfg A L} {s : Store L} {impls : List (Impl A)} (h : IInv c s impls)
    (x : Impl A) (b : Nat) (hb : b < impls.length) (alloc : A) :
    getConstLists (impls ++ [x]) b alloc = getConstLists impls b alloc := by
  refine getConstLists_congr impls _ (fun u => u < impls.length) ?_ ?_ b hb alloc
  · intro u impl p hu hi hp
    have := (h.par u impl p hi hp).1
    omega
  · intro u hu
    rw [List.getElem?_append_left hu]

theorem iinv_append {c : Cfg A L} {s : Store L} {impls : List (Impl A)} (h : IInv c s impls)
    (parent : Option Nat) (frozen : Bool)
    (hp : ∀ p, parent = some p → ∃ ip, impls[p]? = some ip ∧ ip.frozen = true) :
    IInv c s (impls ++ [⟨parent, [], frozen⟩]) ∧
    (∀ b, b < impls.length → ∀ alloc offset,
      implRead s (impls ++ [⟨parent, [], frozen⟩]) b alloc offset = implRead s impls b alloc offset) ∧
    (∀ alloc offset, implRead s (impls ++ [⟨parent, [], frozen⟩]) impls.length alloc offset =
      (parentLists impls parent alloc).bind fun v => vecRead s v offset) := by
  have hlift : ∀ (b : Nat) (impl : Impl A), impls[b]? = some impl →
      (impls ++ [⟨parent, [], frozen⟩])[b]? = some impl := by
    intro b impl hb
    rw [List.getElem?_append_left (List.getElem?_eq_some_iff.1 hb).1, hb]
  have hpl : ∀ p, parent = some p → p < impls.length := by
    intro p e
    obtain ⟨ip, hip, _⟩ := hp p e
    exact (List.getElem?_eq_some_iff.1 hip).1
  refine ⟨⟨h.store, ?_, ?_, ?_, ?_⟩, ?_, ?_⟩
  · intro b impl p hb hpar
    rcases getElem?_concat_eq _ _ _ _ hb with ⟨_, hb⟩ | ⟨rfl, rfl⟩
    · obtain ⟨h1, ip, h2, h3⟩ := h.par b impl p hb hpar
      exact ⟨h1, ip, hlift p ip h2, h3⟩
    · obtain ⟨ip, h2, h3⟩ := hp p hpar
      exact ⟨hpl p hpar, ip, hlift p ip h2, h3⟩
  · intro b impl alloc v hb hm
    rcases getElem?_concat_eq _ _ _ _ hb with ⟨_, hb⟩ | ⟨rfl, rfl⟩
    · exact h.vecs b impl alloc v hb hm
    · cases hm
  · intro b impl alloc b' impl' alloc' v hb hm hb' hm'
    rcases getElem?_concat_eq _ _ _ _ hb with ⟨_, hb⟩ | ⟨rfl, rfl⟩
    · rcases getElem?_concat_eq _ _ _ _ hb' with ⟨_, hb'⟩ | ⟨rfl, rfl⟩
      · exact h.inj b impl alloc b' impl' alloc' v hb hm hb' hm'
      · cases hm'
    · cases hm
  · intro v hv
    obtain ⟨b, impl, alloc, h1, h2, h3⟩ := h.child v hv
    exact ⟨b, impl, alloc, hlift b impl h1, h2, h3⟩
  · intro b hb alloc offset
    unfold implRead
    rw [parentLists_append h _ b hb]
  · intro alloc offset
    unfold implRead
    rw [getConstLists_eq (impl := ⟨parent, [], frozen⟩) List.getElem?_concat_length hpl]
    simp only [List.lookup_nil, Option.none_or]
    unfold parentLists
    cases hpar : parent with
    | none => rfl
    | some p =>
      simp only
      rw [← hpar, parentLists_append h _ p (hpl p hpar)]

theorem freezeImpl_get (impls : List (Impl A)) (b u : Nat) :
    (freezeImpl impls b)[u]? = (impls[u]?).map fun impl =>
      if b = u then { impl with frozen := true } else impl := by
  unfold freezeImpl
  rw [List.getElem?_modify]
  cases impls[u]? with
  | none => rfl
  | some x => rfl

theorem freezeImpl_cases {impls : List (Impl A)} {b u : Nat} {impl : Impl A}
    (h : (freezeImpl impls b)[u]? = some impl) :
    ∃ old, impls[u]? = some old ∧ impl.parent = old.parent ∧ impl.lists = old.lists ∧
      (old.frozen = true → impl.frozen = true) ∧ (u = b → impl.frozen = true) ∧
      (u ≠ b → impl = old) := by
  rw [freezeImpl_get] at h
  cases ho : impls[u]? with
  | none => rw [ho] at h; cases h
  | some old =>
    rw [ho] at h
    simp only [Option.map_some, Option.some.injEq] at h
    refine ⟨old, rfl, ?_⟩
    split at h
    · rename_i e
      subst h
      exact ⟨rfl, rfl, fun _ => rfl, fun _ => rfl, fun hne => absurd e.symm hne⟩
    · rename_i e
      subst h
      exact ⟨rfl, rfl, id, fun e' => absurd e'.symm e, fun _ => rfl⟩

theorem freezeImpl_lift {impls : List (Impl A)} {u : Nat} {old : Impl A} (b : Nat)
    (h : impls[u]? = some old) :
    ∃ impl, (freezeImpl impls b)[u]? = some impl ∧ impl.parent = old.parent ∧
      impl.lists = old.lists ∧ (old.frozen = true → impl.frozen = true) ∧
      (u = b → impl.frozen = true) := by
  rw [freezeImpl_get, h]
  refine ⟨_, rfl, ?_⟩
  split
  · exact ⟨rfl, rfl, fun _ => rfl, fun _ => rfl⟩
  · rename_i e
    exact ⟨rfl, rfl, id, fun e' => absurd e'.symm e⟩

theorem freezeImpl_lists (impls : List (Impl A)) (b u : Nat) (alloc : A) :
    getConstLists (freezeImpl impls b) u alloc = getConstLists impls u alloc := by
  refine getConstLists_congr impls _ (fun _ => True) (fun _ _ _ _ _ _ => trivial) ?_ u trivial alloc
  intro u _
  rw [freezeImpl_get]
  cases impls[u]? with
  | none => rfl
  | some x =>
    simp only [Option.map_some]
    split <;> rfl

theorem freezeImpl_length (impls : List (Impl A)) (b : Nat) :
    (freezeImpl impls b).length = impls.length := by
  unfold freezeImpl
  rw [List.length_modify]

theorem freezeImpl_read (s : Store L) (impls : List (Impl A)) (b u : Nat) (alloc : A)
    (offset : Nat) :
    implRead s (freezeImpl impls b) u alloc offset = implRead s impls u alloc offset := by
  unfold implRead
  rw [freezeImpl_lists]

theorem iinv_freeze {c : Cfg A L} {s : Store L} {impls : List (Impl A)} (h : IInv c s impls)
    (b : Nat) : IInv c s (freezeImpl impls b) := by
  refine ⟨h.store, ?_, ?_, ?_, ?_⟩
  · intro u impl p hu hp
    obtain ⟨old, ho, h1, h2, h3, h4, h5⟩ := freezeImpl_cases hu
    obtain ⟨h6, ip, h7, h8⟩ := h.par u old p ho (h1 ▸ hp)
    obtain ⟨ip', h9, _, _, h10, _⟩ := freezeImpl_lift b h7
    exact ⟨h6, ip', h9, h10 h8⟩
  · intro u impl alloc v hu hm
    obtain ⟨old, ho, h1, h2, h3, h4, h5⟩ := freezeImpl_cases hu
    exact h.vecs u old alloc v ho (h2 ▸ hm)
  · intro u impl alloc u' impl' alloc' v hu hm hu' hm'
    obtain ⟨old, ho, h1, h2, h3, h4, h5⟩ := freezeImpl_cases hu
    obtain ⟨old', ho', h1', h2', h3', h4', h5'⟩ := freezeImpl_cases hu'
    exact h.inj u old alloc u' old' alloc' v ho (h2 ▸ hm) ho' (h2' ▸ hm')
  · intro v hv
    obtain ⟨u, old, alloc, h1, h2, h3⟩ := h.child v hv
    obtain ⟨ip', h9, _, h11, h10, _⟩ := freezeImpl_lift b h1
    exact ⟨u, ip', alloc, h9, h11 ▸ h2, h10 h3⟩

/-- A fork of a frozen implementation has the same lists. -/
theorem fork_spec {c : Cfg A L} {s : Store L} {impls : List (Impl A)} (h : IInv c s impls)
    (b : Nat) (impl : Impl A) (hb : impls[b]? = some impl) (hf : impl.frozen = true)
    (frozen : Bool) :
    ∃ parent, (partiallyPersistentFork impls b).parent = parent ∧
      IInv c s (impls ++ [⟨parent, [], frozen⟩]) ∧
      (∀ u, u < impls.length → ∀ alloc offset,
        implRead s (impls ++ [⟨parent, [], frozen⟩]) u alloc offset = implRead s impls u alloc offset) ∧
      (∀ alloc offset, implRead s (impls ++ [⟨parent, [], frozen⟩]) impls.length alloc offset =
        implRead s impls b alloc offset) := by
  refine ⟨_, rfl, ?_⟩
  unfold partiallyPersistentFork
  rw [hb]
  simp only
  have hpar := fun p hp => (h.par b impl p hb hp)
  by_cases hpr : impl.isPristine = true
  · rw [if_pos hpr]
    obtain ⟨h1, h2, h3⟩ := iinv_append h impl.parent frozen (fun p hp => (hpar p hp).2)
    refine ⟨h1, h2, ?_⟩
    intro alloc offset
    rw [h3]
    unfold implRead
    rw [getConstLists_eq hb (fun p hp => (hpar p hp).1)]
    have : impl.lists = [] := by
      unfold Impl.isPristine at hpr
      exact List.isEmpty_iff.1 hpr
    rw [this, List.lookup_nil, Option.none_or]
  · rw [if_neg hpr]
    obtain ⟨h1, h2, h3⟩ := iinv_append h (some b) frozen
      (fun p hp => by cases hp; exact ⟨impl, hb, hf⟩)
    exact ⟨h1, h2, h3⟩

/-! ### Changes -/

structure Created (c : Cfg A L) (s : Store L) (impls : List (Impl A)) (s' : Store L)
    (impls' : List (Impl A)) (b : Nat) (alloc : A) (v : Nat) : Prop where
  inv : IInv c s' impls'
  length : impls'.length = impls.length
  frozen : ∀ u : Nat, (impls'[u]?).map Impl.frozen = (impls[u]?).map Impl.frozen
  read : ∀ u : Nat, ∀ (alloc' : A) offset, offset < c.capacity alloc' →
    implRead s' impls' u alloc' offset = implRead s impls u alloc' offset
  vec : getConstLists impls' b alloc = some v
  mem : ∃ impl, impls'[b]? = some impl ∧ (alloc, v) ∈ impl.lists

theorem getOrCreate_spec (c : Cfg A L) (w : World A L) (h : IInv c w.store w.impls) (b : Nat)
    (impl : Impl A) (hb : w.impls[b]? = some impl) (hf : impl.frozen = false) (alloc : A)
    (updateSize : Nat) :
    let r := getOrCreateMutableLists c w b alloc updateSize
    Created c w.store w.impls r.1.store r.1.impls b alloc r.2 ∧ r.1.bags = w.bags := by
  intro r
  have hpar := fun p hp => (h.par b impl p hb hp)
  unfold r getOrCreateMutableLists
  rw [hb]
  simp only
  cases hl : impl.lists.lookup alloc with
  | some v =>
    simp only
    refine ⟨⟨h, rfl, fun _ => rfl, fun _ _ _ _ => rfl, ?_, impl, hb, lookup_mem hl⟩, trivial⟩
    rw [getConstLists_eq hb (fun p hp => (hpar p hp).1), hl, Option.some_or]
  | none =>
    simp only
    have hbl := (List.getElem?_eq_some_iff.1 hb).1
    generalize hsz : newSize c w.store (parentLists w.impls impl.parent alloc) alloc = size
    -- the parent vector belongs to a frozen implementation
    have hpv : ∀ p, parentLists w.impls impl.parent alloc = some p →
        ∃ (b' : Nat) (impl' : Impl A), w.impls[b']? = some impl' ∧ (alloc, p) ∈ impl'.lists ∧
          impl'.frozen = true := by
      intro p hp
      unfold parentLists at hp
      cases hip : impl.parent with
      | none => rw [hip] at hp; cases hp
      | some q =>
        rw [hip] at hp
        obtain ⟨_, ip, hq, hqf⟩ := hpar q hip
        obtain ⟨b', impl', h1, h2, h3⟩ := getConstLists_mem h q alloc p hp
        refine ⟨b', impl', h1, h2, ?_⟩
        rcases h3 with rfl | h3
        · rw [h1] at hq
          cases hq
          exact hqf
        · exact h3
    have hsize : size = c.capacity alloc := by
      rw [← hsz]
      unfold newSize
      cases hp : parentLists w.impls impl.parent alloc with
      | none => rfl
      | some p =>
        obtain ⟨b', impl', h1, h2, _⟩ := hpv p hp
        obtain ⟨vec, hv, hvs⟩ := h.vecs b' impl' alloc p h1 h2
        simp only
        rw [hv]
        exact hvs
    have hplt : ∀ p, parentLists w.impls impl.parent alloc = some p → p < w.store.vecs.length := by
      intro p hp
      obtain ⟨b', impl', h1, h2, _⟩ := hpv p hp
      obtain ⟨vec, hv, _⟩ := h.vecs b' impl' alloc p h1 h2
      exact (List.getElem?_eq_some_iff.1 hv).1
    have hn := newVec_spec c w.store h.store size updateSize _ hplt
    generalize hs' : newVec c w.store size updateSize (parentLists w.impls impl.parent alloc) = s' at hn ⊢
    have hvlt : ∀ (b : Nat) (impl : Impl A) alloc v, w.impls[b]? = some impl →
        (alloc, v) ∈ impl.lists → v < w.store.vecs.length := by
      intro b impl alloc v hb hm
      obtain ⟨vec, hv, _⟩ := h.vecs b impl alloc v hb hm
      exact (List.getElem?_eq_some_iff.1 hv).1
    have hset : ∀ (u : Nat) (x : Impl A),
        (w.impls.set b { impl with lists := (alloc, w.store.vecs.length) :: impl.lists })[u]? = some x →
        ∃ old, w.impls[u]? = some old ∧ x.parent = old.parent ∧ x.frozen = old.frozen ∧
          ∀ a v, (a, v) ∈ x.lists → (u = b ∧ a = alloc ∧ v = w.store.vecs.length) ∨ (a, v) ∈ old.lists := by
      intro u x hx
      rcases getElem?_set_cases hx with ⟨_, hu⟩ | ⟨rfl, rfl, _⟩
      · exact ⟨x, hu, rfl, rfl, fun _ _ hm => .inr hm⟩
      · refine ⟨impl, hb, rfl, rfl, ?_⟩
        intro a v hm
        rcases List.mem_cons.1 hm with e | hm
        · injection e with e1 e2
          exact .inl ⟨rfl, e1, e2⟩
        · exact .inr hm
    have hlift : ∀ (u : Nat) (old : Impl A), w.impls[u]? = some old →
        ∃ x, (w.impls.set b { impl with lists := (alloc, w.store.vecs.length) :: impl.lists })[u]? = some x ∧
          x.parent = old.parent ∧ x.frozen = old.frozen ∧ ∀ e ∈ old.lists, e ∈ x.lists := by
      intro u old hu
      rw [getElem?_set_some hbl]
      split
      · rename_i e
        subst e
        rw [hb] at hu
        cases hu
        exact ⟨_, rfl, rfl, rfl, fun e he => List.mem_cons_of_mem _ he⟩
      · exact ⟨old, hu, rfl, rfl, fun e he => he⟩
    have hself : (w.impls.set b { impl with lists := (alloc, w.store.vecs.length) :: impl.lists })[b]? =
        some { impl with lists := (alloc, w.store.vecs.length) :: impl.lists } :=
      List.getElem?_set_self hbl
    have hinv : IInv c s' (w.impls.set b { impl with lists := (alloc, w.store.vecs.length) :: impl.lists }) := by
      refine ⟨hn.inv, ?_, ?_, ?_, ?_⟩
      · intro u x p hu hp
        obtain ⟨old, ho, h1, h2, _⟩ := hset u x hu
        obtain ⟨h3, ip, h4, h5⟩ := h.par u old p ho (h1 ▸ hp)
        obtain ⟨y, h6, h7, h8, _⟩ := hlift p ip h4
        exact ⟨h3, y, h6, h8.trans h5⟩
      · intro u x a v hu hm
        obtain ⟨old, ho, h1, h2, h3⟩ := hset u x hu
        rcases h3 a v hm with ⟨_, rfl, rfl⟩ | hm
        · obtain ⟨vec, h4, h5, _⟩ := hn.new
          exact ⟨vec, h4, h5.trans hsize⟩
        · rw [hn.same v (hvlt u old a v ho hm)]
          exact h.vecs u old a v ho hm
      · intro u x a u' x' a' v hu hm hu' hm'
        obtain ⟨old, ho, h1, h2, h3⟩ := hset u x hu
        obtain ⟨old', ho', h1', h2', h3'⟩ := hset u' x' hu'
        rcases h3 a v hm with ⟨rfl, rfl, e⟩ | hm <;> rcases h3' a' v hm' with ⟨rfl, rfl, e'⟩ | hm'
        · exact ⟨rfl, rfl⟩
        · have := hvlt u' old' a' v ho' hm'
          omega
        · have := hvlt u old a v ho hm
          omega
        · exact h.inj u old a u' old' a' v ho hm ho' hm'
      · rintro v ⟨u, vec, hu, hpv'⟩
        by_cases hul : u < w.store.vecs.length
        · rw [hn.same u hul] at hu
          obtain ⟨b', impl', alloc', h1, h2, h3⟩ := h.child v ⟨u, vec, hu, hpv'⟩
          obtain ⟨y, h6, _, h8, h9⟩ := hlift b' impl' h1
          exact ⟨b', y, alloc', h6, h9 _ h2, h8.trans h3⟩
        · have hlt := (List.getElem?_eq_some_iff.1 hu).1
          rw [hn.length] at hlt
          have : u = w.store.vecs.length := by omega
          subst this
          obtain ⟨vec', h4, _, h6⟩ := hn.new
          rw [h4] at hu
          cases hu
          rw [h6] at hpv'
          obtain ⟨b', impl', h1, h2, h3⟩ := hpv v hpv'
          obtain ⟨y, h6, _, h8, h9⟩ := hlift b' impl' h1
          exact ⟨b', y, alloc, h6, h9 _ h2, h8.trans h3⟩
    -- the lists of the implementations that `b` is not an ancestor of
    have hother : ∀ u, u ≠ b → ∀ a,
        getConstLists (w.impls.set b { impl with lists := (alloc, w.store.vecs.length) :: impl.lists }) u a =
          getConstLists w.impls u a := by
      intro u hu a
      refine getConstLists_congr w.impls _ (fun u => u ≠ b) ?_ ?_ u hu a
      · rintro u x p _ hx hp rfl
        obtain ⟨_, ip, h1, h2⟩ := h.par u x p hx hp
        rw [hb] at h1
        cases h1
        rw [hf] at h2
        cases h2
      · intro u hu
        rw [List.getElem?_set_ne (fun e => hu e.symm)]
    have hpl : ∀ a, parentLists (w.impls.set b { impl with lists := (alloc, w.store.vecs.length) :: impl.lists })
        impl.parent a = parentLists w.impls impl.parent a := by
      intro a
      unfold parentLists
      cases hp : impl.parent with
      | none => rfl
      | some p =>
        have := (hpar p hp).1
        simp only
        rw [← hp]
        exact hother p (by omega) a
    have hthis : ∀ a, getConstLists
        (w.impls.set b { impl with lists := (alloc, w.store.vecs.length) :: impl.lists }) b a =
          if a = alloc then some w.store.vecs.length else getConstLists w.impls b a := by
      intro a
      rw [getConstLists_eq hself (fun p hp => (hpar p hp).1),
        getConstLists_eq hb (fun p hp => (hpar p hp).1)]
      simp only
      rw [hpl, List.lookup_cons]
      by_cases ha : a = alloc
      · subst ha
        rw [if_pos rfl]
        simp only [BEq.rfl, Option.some_or]
      · have : (a == alloc) = false := by simpa using ha
        rw [if_neg ha, this]
    have hold : ∀ u a v, getConstLists w.impls u a = some v → v < w.store.vecs.length := by
      intro u a v hg
      obtain ⟨b', impl', h1, h2, _⟩ := getConstLists_mem h u a v hg
      exact hvlt b' impl' a v h1 h2
    have hreads : ∀ u a offset, (getConstLists w.impls u a).bind (fun v => vecRead s' v offset) =
        (getConstLists w.impls u a).bind (fun v => vecRead w.store v offset) := by
      intro u a offset
      cases hg : getConstLists w.impls u a with
      | none => rfl
      | some v => exact hn.old v (hold u a v hg) offset
    refine ⟨⟨hinv, List.length_set, ?_, ?_, ?_, _, hself, List.mem_cons_self⟩, trivial⟩
    · intro u
      rw [getElem?_set_some hbl]
      split
      · rename_i e
        rw [e, hb]
        rfl
      · rfl
    · intro u a offset hoff
      unfold implRead
      by_cases hu : u = b
      · subst hu
        rw [hthis]
        split
        · rename_i e
          subst e
          simp only [Option.bind_some]
          rw [hn.read offset (hsize ▸ hoff),
            getConstLists_eq hb (fun p hp => (hpar p hp).1), hl, Option.none_or]
          unfold parentRead parentGet
          cases hp : parentLists w.impls impl.parent a with
          | none => rfl
          | some p => rfl
        · exact hreads u a offset
      · rw [hother u hu]
        exact hreads u a offset
    · rw [hthis, if_pos rfl]

theorem shapes_get {s s' : Store L} (h : shapes s'.vecs = shapes s.vecs) (v : Nat) :
    (s'.vecs[v]?).map (fun x => (x.size, x.parent)) = (s.vecs[v]?).map (fun x => (x.size, x.parent)) := by
  have := congrArg (fun l => l[v]?) h
  simp only [shapes, List.getElem?_map] at this
  exact this

/-- A change of a list through an implementation that is not frozen. -/
theorem change_spec (c : Cfg A L) (s : Store L) (impls : List (Impl A)) (h : IInv c s impls)
    (b : Nat) (impl : Impl A) (hb : impls[b]? = some impl) (hf : impl.frozen = false) (alloc : A)
    (v : Nat) (hv : getConstLists impls b alloc = some v) (hm : (alloc, v) ∈ impl.lists)
    (offset : Nat) (hoff : offset < c.capacity alloc) (f : L → L) :
    IInv c (modifyVec c s v offset f) impls ∧
    ∀ u alloc' offset', offset' < c.capacity alloc' →
      implRead (modifyVec c s v offset f) impls u alloc' offset' =
        if u = b ∧ alloc' = alloc ∧ offset' = offset then
          some (f ((implRead s impls b alloc offset).getD c.emptyList))
        else implRead s impls u alloc' offset' := by
  obtain ⟨vec, hvec, hsize⟩ := h.vecs b impl alloc v hb hm
  have hnc : ¬ HasChild s.vecs v := by
    intro hch
    obtain ⟨b', impl', alloc', h1, h2, h3⟩ := h.child v hch
    have := (h.inj b impl alloc b' impl' alloc' v hb hm h1 h2).1
    subst this
    rw [hb] at h1
    cases h1
    rw [hf] at h3
    cases h3
  have hch := modifyVec_spec c s h.store v offset vec hvec (hsize ▸ hoff) hnc f
  refine ⟨⟨hch.inv, h.par, ?_, h.inj, ?_⟩, ?_⟩
  · intro u x a v' hu hm'
    obtain ⟨y, h1, h2⟩ := h.vecs u x a v' hu hm'
    have := shapes_get hch.shape v'
    rw [h1] at this
    cases hy : (modifyVec c s v offset f).vecs[v']? with
    | none => rw [hy] at this; cases this
    | some z =>
      rw [hy] at this
      simp only [Option.map_some, Option.some.injEq, Prod.mk.injEq] at this
      exact ⟨z, rfl, this.1.trans h2⟩
  · rintro p ⟨u, x, hu, hp⟩
    have := shapes_get hch.shape u
    rw [hu] at this
    cases hy : s.vecs[u]? with
    | none => rw [hy] at this; cases this
    | some z =>
      rw [hy] at this
      simp only [Option.map_some, Option.some.injEq, Prod.mk.injEq] at this
      exact h.child p ⟨u, z, hy, this.2 ▸ hp⟩
  · intro u alloc' offset' hoff'
    unfold implRead
    split
    · rename_i e
      obtain ⟨rfl, rfl, rfl⟩ := e
      rw [hv]
      exact hch.this (hsize ▸ hoff)
    · rename_i hne
      cases hg : getConstLists impls u alloc' with
      | none => rfl
      | some v' =>
        simp only [Option.bind_some]
        apply hch.other
        by_cases hvv : v' = v
        · subst hvv
          obtain ⟨b', impl', h1, h2, h3⟩ := getConstLists_mem h u alloc' v' hg
          obtain ⟨rfl, rfl⟩ := h.inj b impl alloc b' impl' alloc' v' hb hm h1 h2
          rw [hb] at h1
          cases h1
          have hub : u = b := by
            rcases h3 with e | e
            · exact e.symm
            · rw [hf] at e; cases e
          refine .inr ⟨fun e => hne ⟨hub, rfl, e⟩, ?_⟩
          rw [hsize]
          exact hoff'
        · exact .inl hvv

/-! ### Bags -/

/-- The bags are those of the specification. -/
structure R (c : Cfg A L) (w : World A L) (sp : List (SpecBag A L)) : Prop where
  inv : IInv c w.store w.impls
  len : w.bags.length = sp.length
  bags : ∀ (k : Nat) (bag : Bag), w.bags[k]? = some bag → ∃ impl sb,
    w.impls[bag.impl]? = some impl ∧ impl.frozen = (!bag.isMutable || bag.forked) ∧
    sp[k]? = some sb ∧ sb.isMutable = bag.isMutable ∧
    ∀ alloc offset, offset < c.capacity alloc →
      implRead w.store w.impls bag.impl alloc offset = sb.lists alloc offset
  inj : ∀ (k k' : Nat) (bag bag' : Bag), w.bags[k]? = some bag → w.bags[k']? = some bag' →
    bag.impl = bag'.impl → k = k'

theorem read_eq (w : World A L) (b : Nat) (alloc : A) (offset : Nat) :
    read w b alloc offset =
      (w.bags[b]?).bind fun bag => implRead w.store w.impls bag.impl alloc offset := by
  unfold read implRead vecRead
  cases w.bags[b]? with
  | none => rfl
  | some bag =>
    simp only [Option.bind_some]
    cases getConstLists w.impls bag.impl alloc with
    | none => rfl
    | some v =>
      simp only [Option.bind_some]
      cases vecGet w.store.vecs v offset <;> rfl

theorem r_init (c : Cfg A L) : R c (World.init : World A L) [] := by
  refine ⟨⟨⟨?_, ?_, ?_, ?_, ?_, ?_⟩, ?_, ?_, ?_, ?_⟩, rfl, ?_, ?_⟩
  · intro _ _ _ h; cases h
  · intro _ _ _ _ h; cases h
  · intro _ _ _ h; cases h
  · intro _ _ _ _ h; cases h
  · intro _ _ _ _ _ _ _ h; cases h
  · intro _ _ _ _ _ _ h; cases h
  · intro _ _ _ h; cases h
  · intro _ _ _ _ h; cases h
  · intro _ _ _ _ _ _ _ h; cases h
  · rintro _ ⟨_, _, h, _⟩; cases h
  · intro _ _ h; cases h
  · intro _ _ _ _ h; cases h

theorem implsOf {c : Cfg A L} {w : World A L} {sp : List (SpecBag A L)} (h : R c w sp) (k : Nat)
    (bag : Bag) (hk : w.bags[k]? = some bag) : bag.impl < w.impls.length := by
  obtain ⟨impl, _, h1, _⟩ := h.bags k bag hk
  exact (List.getElem?_eq_some_iff.1 h1).1

/-- A new bag with a new implementation. -/
theorem r_append {c : Cfg A L} {w : World A L} {sp : List (SpecBag A L)} (h : R c w sp)
    (parent : Option Nat) (isMutable : Bool) (lists : A → Nat → Option L)
    (hi : IInv c w.store (w.impls ++ [⟨parent, [], !isMutable⟩]))
    (hold : ∀ u, u < w.impls.length → ∀ alloc offset,
      implRead w.store (w.impls ++ [⟨parent, [], !isMutable⟩]) u alloc offset =
        implRead w.store w.impls u alloc offset)
    (hnew : ∀ alloc offset, offset < c.capacity alloc →
      implRead w.store (w.impls ++ [⟨parent, [], !isMutable⟩]) w.impls.length alloc offset =
        lists alloc offset) :
    R c { w with
        impls := w.impls ++ [⟨parent, [], !isMutable⟩]
        bags := w.bags ++ [⟨w.impls.length, isMutable, false⟩] }
      (sp ++ [⟨isMutable, lists⟩]) := by
  refine ⟨hi, by simp [h.len], ?_, ?_⟩
  · intro k bag hk
    rcases getElem?_concat_eq _ _ _ _ hk with ⟨hkl, hk⟩ | ⟨rfl, rfl⟩
    · obtain ⟨impl, sb, h1, h2, h3, h4, h5⟩ := h.bags k bag hk
      refine ⟨impl, sb, ?_, h2, ?_, h4, ?_⟩
      · show (w.impls ++ [_])[bag.impl]? = _
        rw [List.getElem?_append_left (implsOf h k bag hk), h1]
      · rw [List.getElem?_append_left (h.len ▸ hkl), h3]
      · intro alloc offset ho
        show implRead w.store (w.impls ++ [_]) _ _ _ = _
        rw [hold _ (implsOf h k bag hk), h5 alloc offset ho]
    · refine ⟨_, ⟨isMutable, lists⟩, List.getElem?_concat_length, ?_, ?_, rfl, ?_⟩
      · simp
      · rw [h.len, List.getElem?_concat_length]
      · exact hnew
  · intro k k' bag bag' hk hk' e
    rcases getElem?_concat_eq _ _ _ _ hk with ⟨hkl, hk⟩ | ⟨rfl, rfl⟩ <;>
      rcases getElem?_concat_eq _ _ _ _ hk' with ⟨hkl', hk'⟩ | ⟨rfl, rfl⟩
    · exact h.inj k k' bag bag' hk hk' e
    · have := implsOf h k bag hk
      simp only at e
      omega
    · have := implsOf h k' bag' hk'
      simp only at e
      omega
    · rfl

theorem r_newBag {c : Cfg A L} {w : World A L} {sp : List (SpecBag A L)} (h : R c w sp)
    (m : Bool) : R c (newBag w m) (sp ++ [⟨m, fun _ _ => none⟩]) := by
  obtain ⟨h1, h2, h3⟩ := iinv_append h.inv none (!m) (fun p hp => by cases hp)
  exact r_append h none m _ h1 h2 (fun alloc offset _ => (h3 alloc offset).trans rfl)

theorem ppf_freeze (impls : List (Impl A)) (b b' : Nat) :
    partiallyPersistentFork (freezeImpl impls b') b = partiallyPersistentFork impls b := by
  unfold partiallyPersistentFork
  rw [freezeImpl_get]
  cases impls[b]? with
  | none => rfl
  | some impl =>
    simp only [Option.map_some]
    split <;> rfl

theorem ppf_shape (impls : List (Impl A)) (b : Nat) (frozen : Bool) :
    { partiallyPersistentFork impls b with frozen := frozen } =
      ⟨(partiallyPersistentFork impls b).parent, [], frozen⟩ ∧
    partiallyPersistentFork impls b = ⟨(partiallyPersistentFork impls b).parent, [], false⟩ := by
  unfold partiallyPersistentFork
  cases impls[b]? <;> exact ⟨rfl, rfl⟩

/-- Freezing the implementation of a bag that is then forked or immutable. -/
theorem r_freeze {c : Cfg A L} {w : World A L} {sp : List (SpecBag A L)} (h : R c w sp) (b : Nat)
    (bag : Bag) (hb : w.bags[b]? = some bag) (isMutable forked : Bool)
    (hm : (!isMutable || forked) = true) (sb : SpecBag A L) (hsb : sp[b]? = some sb) :
    R c { w with
        impls := freezeImpl w.impls bag.impl
        bags := w.bags.set b { bag with isMutable := isMutable, forked := forked } }
      (sp.set b { sb with isMutable := isMutable }) := by
  have hbl := (List.getElem?_eq_some_iff.1 hb).1
  refine ⟨iinv_freeze h.inv _, by simp [h.len], ?_, ?_⟩
  · intro k bag' hk
    rcases getElem?_set_cases hk with ⟨hne, hk⟩ | ⟨rfl, rfl, _⟩
    · obtain ⟨impl, sb', h1, h2, h3, h4, h5⟩ := h.bags k bag' hk
      have hni : bag'.impl ≠ bag.impl := fun e => hne (h.inj k b bag' bag hk hb e)
      refine ⟨impl, sb', ?_, h2, ?_, h4, ?_⟩
      · show (freezeImpl w.impls bag.impl)[bag'.impl]? = _
        rw [freezeImpl_get, h1, Option.map_some, if_neg (fun e => hni e.symm)]
      · rw [List.getElem?_set_ne (fun e => hne e.symm), h3]
      · intro alloc offset ho
        show implRead w.store (freezeImpl w.impls bag.impl) _ _ _ = _
        rw [freezeImpl_read, h5 alloc offset ho]
    · obtain ⟨impl, sb', h1, h2, h3, h4, h5⟩ := h.bags _ bag hb
      rw [h3] at hsb
      cases hsb
      refine ⟨{ impl with frozen := true }, { sb with isMutable := isMutable }, ?_, ?_, ?_, rfl, ?_⟩
      · show (freezeImpl w.impls bag.impl)[bag.impl]? = _
        rw [freezeImpl_get, h1, Option.map_some, if_pos rfl]
      · exact hm.symm
      · rw [List.getElem?_set_self (h.len ▸ hbl)]
      · intro alloc offset ho
        show implRead w.store (freezeImpl w.impls bag.impl) _ _ _ = _
        rw [freezeImpl_read, h5 alloc offset ho]
  · have himpl : ∀ (k : Nat) bag', (w.bags.set b { bag with isMutable := isMutable, forked := forked })[k]? = some bag' →
        ∃ old, w.bags[k]? = some old ∧ old.impl = bag'.impl := by
      intro k bag' hk
      rcases getElem?_set_cases hk with ⟨hne, hk⟩ | ⟨rfl, rfl, _⟩
      · exact ⟨bag', hk, rfl⟩
      · exact ⟨bag, hb, rfl⟩
    intro k k' x x' hk hk' e
    obtain ⟨y, hy, ey⟩ := himpl k x hk
    obtain ⟨y', hy', ey'⟩ := himpl k' x' hk'
    exact h.inj k k' y y' hy hy' (ey.trans (e.trans ey'.symm))

theorem spec_of_bag {c : Cfg A L} {w : World A L} {sp : List (SpecBag A L)} (h : R c w sp)
    {b : Nat} {bag : Bag} (hb : w.bags[b]? = some bag) :
    ∃ sb, sp[b]? = some sb ∧ sb.isMutable = bag.isMutable := by
  obtain ⟨_, sb, _, _, h3, h4, _⟩ := h.bags b bag hb
  exact ⟨sb, h3, h4⟩

theorem spec_none {c : Cfg A L} {w : World A L} {sp : List (SpecBag A L)} (h : R c w sp)
    {b : Nat} (hb : w.bags[b]? = none) : sp[b]? = none := by
  rw [List.getElem?_eq_none_iff] at hb ⊢
  rw [← h.len]
  exact hb

theorem set_same {α : Type} {l : List α} {b : Nat} {x : α} (h : l[b]? = some x) : l.set b x = l := by
  apply List.ext_getElem?
  intro i
  rw [getElem?_set_some (List.getElem?_eq_some_iff.1 h).1]
  split
  · rename_i e; rw [e, h]
  · rfl

theorem r_fork {c : Cfg A L} {w : World A L} {sp : List (SpecBag A L)} (h : R c w sp) (b : Nat)
    (bag : Bag) (hb : w.bags[b]? = some bag) (immutable : Bool) (sb : SpecBag A L)
    (hsb : sp[b]? = some sb) :
    R c (fork w b immutable) (sp ++ [{ sb with isMutable := !immutable }]) := by
  have hbl := (List.getElem?_eq_some_iff.1 hb).1
  obtain ⟨impl, sb', h1, h2, h3, h4, h5⟩ := h.bags b bag hb
  rw [h3] at hsb
  cases hsb
  have hfr := r_freeze h b bag hb bag.isMutable (bag.forked || bag.isMutable)
    (by cases bag.isMutable <;> simp) sb h3
  have hsame : sp.set b { sb with isMutable := bag.isMutable } = sp := by
    rw [← h4]
    exact set_same h3
  rw [hsame] at hfr
  obtain ⟨parent, hpar, hi, hold, hnew⟩ := fork_spec hfr.inv bag.impl { impl with frozen := true }
    (by
      show (freezeImpl w.impls bag.impl)[bag.impl]? = _
      rw [freezeImpl_get, h1, Option.map_some, if_pos rfl]) rfl (!(!immutable))
  have := r_append hfr parent (!immutable) sb.lists hi hold
    (by
      intro alloc offset ho
      rw [hnew, freezeImpl_read, h5 alloc offset ho])
  unfold fork
  rw [hb]
  simp only
  rw [(ppf_shape w.impls bag.impl immutable).1, ← ppf_freeze w.impls bag.impl bag.impl, hpar]
  rw [Bool.not_not] at this
  simp only [freezeImpl_length] at this
  exact this

/-- Making a bag immutable. -/
theorem r_makeImmutable {c : Cfg A L} {w : World A L} {sp : List (SpecBag A L)} (h : R c w sp)
    (b : Nat) (bag : Bag) (hb : w.bags[b]? = some bag) (sb : SpecBag A L) (hsb : sp[b]? = some sb) :
    R c (makeImmutable w b) (sp.set b { sb with isMutable := false }) := by
  have := r_freeze h b bag hb false bag.forked rfl sb hsb
  unfold makeImmutable
  rw [hb]
  exact this

/-- `GetMutableImpl` of a mutable bag. -/
theorem r_mutable {c : Cfg A L} {w : World A L} {sp : List (SpecBag A L)} (h : R c w sp)
    (b : Nat) (bag : Bag) (hb : w.bags[b]? = some bag) (hm : bag.isMutable = true) :
    ∃ w' n impl, getMutableImpl w b = .ok (w', n) ∧ R c w' sp ∧
      w'.bags[b]? = some ⟨n, true, false⟩ ∧ w'.impls[n]? = some impl ∧ impl.frozen = false := by
  have hbl := (List.getElem?_eq_some_iff.1 hb).1
  obtain ⟨impl, sb, h1, h2, h3, h4, h5⟩ := h.bags b bag hb
  unfold getMutableImpl
  rw [hb]
  simp only [hm, Bool.not_true, Bool.false_eq_true, if_false]
  by_cases hf : bag.forked = true
  · simp only [hf, if_true]
    have hfrz : (freezeImpl w.impls bag.impl)[bag.impl]? = some { impl with frozen := true } := by
      rw [freezeImpl_get, h1, Option.map_some, if_pos rfl]
    have hself : freezeImpl w.impls bag.impl = w.impls := by
      apply List.ext_getElem?
      intro i
      rw [freezeImpl_get]
      cases hi : w.impls[i]? with
      | none => rfl
      | some x =>
        simp only [Option.map_some]
        split
        · rename_i e
          subst e
          rw [h1] at hi
          cases hi
          rw [hf, Bool.or_true] at h2
          rw [← h2]
        · rfl
    rw [hself] at hfrz ⊢
    obtain ⟨parent, hpar, hi, hold, hnew⟩ := fork_spec h.inv bag.impl _ hfrz rfl false
    rw [(ppf_shape w.impls bag.impl false).2, hpar]
    refine ⟨_, _, _, rfl, ⟨hi, by simp [h.len], ?_, ?_⟩, ?_, List.getElem?_concat_length, rfl⟩
    · intro k bag' hk
      rcases getElem?_set_cases hk with ⟨hne, hk⟩ | ⟨rfl, rfl, _⟩
      · obtain ⟨impl', sb', g1, g2, g3, g4, g5⟩ := h.bags k bag' hk
        refine ⟨impl', sb', ?_, g2, g3, g4, ?_⟩
        · show (w.impls ++ [_])[bag'.impl]? = _
          rw [List.getElem?_append_left (implsOf h k bag' hk), g1]
        · intro alloc offset ho
          show implRead w.store (w.impls ++ [_]) _ _ _ = _
          rw [hold _ (implsOf h k bag' hk), g5 alloc offset ho]
      · refine ⟨_, sb, List.getElem?_concat_length, ?_, h3, h4.trans hm, ?_⟩
        · simp
        · intro alloc offset ho
          show implRead w.store (w.impls ++ [_]) _ _ _ = _
          rw [hnew, h5 alloc offset ho]
    · intro k k' x x' hk hk' e
      rcases getElem?_set_cases hk with ⟨hne, hk2⟩ | ⟨rfl, rfl, _⟩ <;>
        rcases getElem?_set_cases hk' with ⟨hne', hk2'⟩ | ⟨rfl, rfl, _⟩
      · exact h.inj k k' x x' hk2 hk2' e
      · have := implsOf h k x hk2
        simp only at e
        omega
      · have := implsOf h k' x' hk2'
        simp only at e
        omega
      · rfl
    · show (w.bags.set b _)[b]? = _
      rw [List.getElem?_set_self hbl]
  · have hf : bag.forked = false := by simpa using hf
    simp only [hf, Bool.false_eq_true, if_false]
    refine ⟨w, bag.impl, impl, rfl, h, ?_, h1, ?_⟩
    · rw [hb]
      cases bag
      simp only at hm hf
      rw [hm, hf]
    · rw [h2, hm, hf]
      rfl

theorem r_modify {c : Cfg A L} {w : World A L} {sp : List (SpecBag A L)} (h : R c w sp)
    (b : Nat) (bag : Bag) (hb : w.bags[b]? = some bag) (hm : bag.isMutable = true) (sb : SpecBag A L)
    (hsb : sp[b]? = some sb) (alloc : A) (offset updateSize : Nat)
    (hoff : offset < c.capacity alloc) (f : L → L) :
    ∃ w', modify c w b alloc offset updateSize f = .ok w' ∧
      R c w' (sp.set b (sb.change c.emptyList alloc offset f)) := by
  obtain ⟨w1, n, impl, hok, hR, hb1, hi1, hf1⟩ := r_mutable h b bag hb hm
  unfold modify
  rw [hok]
  simp only
  obtain ⟨hcr, hbags⟩ := getOrCreate_spec c w1 hR.inv n impl hi1 hf1 alloc updateSize
  generalize getOrCreateMutableLists c w1 n alloc updateSize = r at hcr hbags
  obtain ⟨w2, v⟩ := r
  simp only at hcr hbags ⊢
  refine ⟨_, rfl, ?_⟩
  obtain ⟨impl2, hi2, hmem⟩ := hcr.mem
  have hf2 : impl2.frozen = false := by
    have := hcr.frozen n
    rw [hi2, hi1] at this
    simp only [Option.map_some, Option.some.injEq] at this
    exact this.trans hf1
  obtain ⟨hinv, hread⟩ := change_spec c w2.store w2.impls hcr.inv n impl2 hi2 hf2 alloc v hcr.vec
    hmem offset hoff f
  have hbl1 := (List.getElem?_eq_some_iff.1 hb1).1
  refine ⟨hinv, by simp [hbags, hR.len], ?_, ?_⟩
  · intro k bag' hk
    have hk1 : w1.bags[k]? = some bag' := by rw [← hbags]; exact hk
    obtain ⟨impl', sb', g1, g2, g3, g4, g5⟩ := hR.bags k bag' hk1
    have hfz := hcr.frozen bag'.impl
    rw [g1] at hfz
    cases hi' : w2.impls[bag'.impl]? with
    | none => rw [hi'] at hfz; cases hfz
    | some impl'' =>
      rw [hi'] at hfz
      simp only [Option.map_some, Option.some.injEq] at hfz
      by_cases hkb : k = b
      · subst hkb
        rw [hsb] at g3
        cases g3
        have hbag : bag' = ⟨n, true, false⟩ := Option.some.inj (hk1.symm.trans hb1)
        refine ⟨impl'', sb.change c.emptyList alloc offset f, rfl, hfz.trans g2, ?_, g4, ?_⟩
        · rw [List.getElem?_set_self (hR.len ▸ hbl1)]
        · intro a o ho
          show implRead (modifyVec c w2.store v offset f) w2.impls bag'.impl a o = _
          rw [hread _ a o ho]
          unfold SpecBag.change
          simp only
          subst hbag
          simp only [true_and]
          rw [hcr.read n a o ho, g5 a o ho]
          split
          · rename_i e
            obtain ⟨rfl, rfl⟩ := e
            rw [hcr.read n a o ho, g5 a o ho]
          · rfl
      · refine ⟨impl'', sb', rfl, hfz.trans g2, ?_, g4, ?_⟩
        · rw [List.getElem?_set_ne (fun e => hkb e.symm), g3]
        · intro a o ho
          show implRead (modifyVec c w2.store v offset f) w2.impls bag'.impl a o = _
          rw [hread _ a o ho, if_neg, hcr.read _ a o ho, g5 a o ho]
          rintro ⟨e, _⟩
          exact hkb (hR.inj k b bag' _ hk1 hb1 e)
  · intro k k' x x' hk hk' e
    exact hR.inj k k' x x' (by rw [← hbags]; exact hk) (by rw [← hbags]; exact hk') e

theorem r_step {c : Cfg A L} {w : World A L} {sp : List (SpecBag A L)} (h : R c w sp)
    (call : Call A L) (hv : call.Valid c) :
    R c (step c w call) (specStep c.emptyList sp call) := by
  cases call with
  | newBag m => exact r_newBag h m
  | fork b immutable =>
    show R c (fork w b immutable) (specStep _ _ _)
    simp only [specStep]
    cases hb : w.bags[b]? with
    | none =>
      rw [spec_none h hb]
      unfold fork
      rw [hb]
      exact h
    | some bag =>
      obtain ⟨sb, hsb, _⟩ := spec_of_bag h hb
      rw [hsb]
      exact r_fork h b bag hb immutable sb hsb
  | freeze b =>
    show R c (freeze w b).1 (specStep _ _ _)
    simp only [specStep, freeze]
    cases hb : w.bags[b]? with
    | none =>
      rw [spec_none h hb]
      exact h
    | some bag =>
      obtain ⟨sb, hsb, hm⟩ := spec_of_bag h hb
      rw [hsb]
      simp only
      rw [hm]
      cases bag.isMutable with
      | true => exact r_fork h b bag hb true sb hsb
      | false => exact h
  | makeImmutable b =>
    show R c (makeImmutable w b) (specStep _ _ _)
    simp only [specStep]
    cases hb : w.bags[b]? with
    | none =>
      rw [spec_none h hb]
      unfold makeImmutable
      rw [hb]
      exact h
    | some bag =>
      obtain ⟨sb, hsb, hm⟩ := spec_of_bag h hb
      rw [hsb]
      exact r_makeImmutable h b bag hb sb hsb
  | modify b alloc offset updateSize f =>
    show R c (match modify c w b alloc offset updateSize f with | .ok w => w | .error _ => w)
      (specStep _ _ _)
    simp only [specStep]
    cases hb : w.bags[b]? with
    | none =>
      rw [spec_none h hb]
      unfold modify getMutableImpl
      rw [hb]
      exact h
    | some bag =>
      obtain ⟨sb, hsb, hm⟩ := spec_of_bag h hb
      rw [hsb]
      simp only
      rw [hm]
      cases hmut : bag.isMutable with
      | true =>
        obtain ⟨w', h1, h2⟩ := r_modify h b bag hb hmut sb hsb alloc offset updateSize hv f
        rw [h1]
        exact h2
      | false =>
        unfold modify getMutableImpl
        rw [hb]
        simp only [hmut]
        exact h

theorem r_run (c : Cfg A L) (calls : List (Call A L)) (hv : ∀ call ∈ calls, call.Valid c)
    (w : World A L) (sp : List (SpecBag A L)) (h : R c w sp) :
    R c (calls.foldl (step c) w) (calls.foldl (specStep c.emptyList) sp) := by
  induction calls generalizing w sp with
  | nil => exact h
  | cons call calls ih =>
    exact ih (fun x hx => hv x (List.mem_cons_of_mem _ hx)) _ _
      (r_step h call (hv call List.mem_cons_self))

end Verif.BagFork
