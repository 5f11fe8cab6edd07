import Verif.BagFork.Model

namespace Verif.BagFork

set_option linter.unusedSectionVars false

variable {A L : Type} [DecidableEq A]

theorem lookup_mem {α β : Type} [BEq α] [LawfulBEq α] {m : List (α × β)} {i : α} {a : β}
    (h : m.lookup i = some a) : (i, a) ∈ m := by
  induction m with
  | nil => simp at h
  | cons e m ih =>
    obtain ⟨j, b⟩ := e
    rw [List.lookup_cons] at h
    split at h
    · rename_i hj
      have hj := eq_of_beq hj
      cases h
      rw [hj]
      exact List.mem_cons_self
    · exact List.mem_cons_of_mem _ (ih h)

/-! ### Get -/

theorem vecGet_eq {vecs : List Vec} {v : Nat} {vec : Vec} (hv : vecs[v]? = some vec)
    (hp : ∀ p, vec.parent = some p → p < v) (i : Nat) :
    vecGet vecs v i =
      match vec.data with
      | .array a => (a[i]?).bind Prod.snd
      | .map m => (m.lookup i).or (parentGet vecs vec.parent i) := by
  rw [vecGet, hv]
  simp only
  cases hd : vec.data with
  | array a =>
    simp only
    cases a[i]? <;> rfl
  | map m =>
    simp only
    cases hl : m.lookup i with
    | some a => rfl
    | none =>
      simp only [Option.none_or]
      unfold parentGet
      cases h2 : vec.parent with
      | none => rfl
      | some p =>
        simp only
        rw [dif_pos (hp p h2)]

theorem vecGet_none {vecs : List Vec} {v : Nat} (hv : vecs[v]? = none) (i : Nat) :
    vecGet vecs v i = none := by
  rw [vecGet, hv]

/-- A vector owns a list. -/
def Vec.Owns (vec : Vec) (i a : Nat) : Prop :=
  match vec.data with
  | .map m => (i, a) ∈ m
  | .array arr => ∃ ptr, arr[i]? = some (a, ptr)

/-- Some vector has the parent `v`. -/
def HasChild (vecs : List Vec) (v : Nat) : Prop :=
  ∃ (u : Nat) (vec : Vec), vecs[u]? = some vec ∧ vec.parent = some v

/-- The invariant of the storage. -/
structure VInv (c : Cfg A L) (s : Store L) : Prop where
  par : ∀ (v : Nat) (vec : Vec) p, s.vecs[v]? = some vec → vec.parent = some p → p < v
  keys : ∀ (v : Nat) (vec : Vec) i a, s.vecs[v]? = some vec → vec.Owns i a → i < vec.size
  full : ∀ (v : Nat) (vec : Vec) arr, s.vecs[v]? = some vec → vec.data = .array arr → arr.length = vec.size
  live : ∀ (v : Nat) (vec : Vec) i a, s.vecs[v]? = some vec → vec.Owns i a → ∃ l, s.heap[a]? = some (some l)
  inj : ∀ (v : Nat) (vec : Vec) i (v' : Nat) (vec' : Vec) i' a, s.vecs[v]? = some vec → vec.Owns i a →
    s.vecs[v']? = some vec' → vec'.Owns i' a → v = v' ∧ i = i'
  slot : ∀ (v : Nat) (vec : Vec) (arr : List (Nat × Option Nat)) (i : Nat) own ptr, s.vecs[v]? = some vec → vec.data = .array arr →
    arr[i]? = some (own, ptr) → ptr = some own ∨
      (ptr = parentGet s.vecs vec.parent i ∧ s.heap[own]? = some (some c.emptyList))

/-- The list at a position of a vector. -/
def vecRead (s : Store L) (v i : Nat) : Option L := (vecGet s.vecs v i).bind (deref s.heap)

/-- The list at a position of the parent. -/
def parentRead (s : Store L) (parent : Option Nat) (i : Nat) : Option L :=
  (parentGet s.vecs parent i).bind (deref s.heap)

theorem resolve {c : Cfg A L} {s : Store L} (h : VInv c s) (u i a : Nat)
    (hg : vecGet s.vecs u i = some a) :
    ∃ (w : Nat) (vec : Vec), s.vecs[w]? = some vec ∧ vec.Owns i a ∧ (w = u ∨ HasChild s.vecs w) := by
  induction u using Nat.strongRecOn with
  | ind u ih =>
    cases hv : s.vecs[u]? with
    | none =>
      rw [vecGet_none hv] at hg
      cases hg
    | some vec =>
      have hp : ∀ p, vec.parent = some p → p < u := fun p => h.par u vec p hv
      have viaParent : parentGet s.vecs vec.parent i = some a →
          ∃ (w : Nat) (vec : Vec), s.vecs[w]? = some vec ∧ vec.Owns i a ∧ (w = u ∨ HasChild s.vecs w) := by
        intro hpg
        unfold parentGet at hpg
        cases hpar : vec.parent with
        | none => rw [hpar] at hpg; cases hpg
        | some p =>
          rw [hpar] at hpg
          obtain ⟨w, vec', h1, h2, h3⟩ := ih p (hp p hpar) hpg
          refine ⟨w, vec', h1, h2, .inr ?_⟩
          rcases h3 with rfl | h3
          · exact ⟨u, vec, hv, hpar⟩
          · exact h3
      rw [vecGet_eq hv hp] at hg
      cases hd : vec.data with
      | array arr =>
        rw [hd] at hg
        simp only at hg
        cases hs : arr[i]? with
        | none => rw [hs] at hg; cases hg
        | some slot =>
          obtain ⟨own, ptr⟩ := slot
          rw [hs] at hg
          simp only [Option.bind_some] at hg
          rcases h.slot u vec arr i own ptr hv hd hs with e | ⟨e, _⟩
          · rw [e] at hg
            cases hg
            refine ⟨u, vec, hv, ?_, .inl rfl⟩
            unfold Vec.Owns
            rw [hd]
            exact ⟨ptr, hs⟩
          · exact viaParent (e ▸ hg)
      | map m =>
        rw [hd] at hg
        simp only at hg
        cases hl : m.lookup i with
        | none =>
          rw [hl, Option.none_or] at hg
          exact viaParent hg
        | some b =>
          rw [hl, Option.some_or] at hg
          cases hg
          refine ⟨u, vec, hv, ?_, .inl rfl⟩
          unfold Vec.Owns
          rw [hd]
          exact lookup_mem hl

theorem resolve_live {c : Cfg A L} {s : Store L} (h : VInv c s) (u i a : Nat)
    (hg : vecGet s.vecs u i = some a) : ∃ l, s.heap[a]? = some (some l) := by
  obtain ⟨w, vec, h1, h2, _⟩ := resolve h u i a hg
  exact h.live w vec i a h1 h2

theorem resolve_parent_live {c : Cfg A L} {s : Store L} (h : VInv c s) (p : Option Nat) (i a : Nat)
    (hg : parentGet s.vecs p i = some a) : ∃ l, s.heap[a]? = some (some l) := by
  cases p with
  | none => cases hg
  | some p => exact resolve_live h p i a hg

theorem vecGet_congr (vecs vecs' : List Vec) (P : Nat → Prop)
    (hP : ∀ (u : Nat) (vec : Vec) p, P u → vecs[u]? = some vec → vec.parent = some p → P p)
    (he : ∀ u, P u → vecs'[u]? = vecs[u]?)
    (u : Nat) (hu : P u) (i : Nat) : vecGet vecs' u i = vecGet vecs u i := by
  induction u using Nat.strongRecOn with
  | ind u ih =>
    rw [vecGet, vecGet, he u hu]
    cases hv : vecs[u]? with
    | none => rfl
    | some vec =>
      simp only
      cases hd : vec.data with
      | array arr => rfl
      | map m =>
        simp only
        cases hl : m.lookup i with
        | some a => rfl
        | none =>
          simp only
          cases hp : vec.parent with
          | none => rfl
          | some p =>
            simp only
            split
            · rename_i hlt
              exact ih p hlt (hP u vec p hu hv hp)
            · rfl

/-- Changing a vector without children does not change what others find. -/
theorem vecGet_set_ne (vecs : List Vec) (v : Nat) (x : Vec) (hc : ¬ HasChild vecs v) (u : Nat)
    (hu : u ≠ v) (i : Nat) : vecGet (vecs.set v x) u i = vecGet vecs u i := by
  refine vecGet_congr vecs _ (fun u => u ≠ v) ?_ ?_ u hu i
  · rintro u vec p _ hv hp rfl
    exact hc ⟨u, vec, hv, hp⟩
  · intro u hu
    rw [List.getElem?_set_ne (fun e => hu e.symm)]

theorem parentGet_set {vecs : List Vec} (v : Nat) (x : Vec) (hc : ¬ HasChild vecs v) (u : Nat)
    (vec : Vec) (hu : vecs[u]? = some vec) (i : Nat) :
    parentGet (vecs.set v x) vec.parent i = parentGet vecs vec.parent i := by
  unfold parentGet
  cases hp : vec.parent with
  | none => rfl
  | some p =>
    exact vecGet_set_ne vecs v x hc p (fun e => hc ⟨u, vec, hu, e ▸ hp⟩) i

theorem vecGet_append (vecs : List Vec) (x : Vec)
    (par : ∀ (v : Nat) (vec : Vec) p, vecs[v]? = some vec → vec.parent = some p → p < v) (u : Nat)
    (hu : u < vecs.length) (i : Nat) : vecGet (vecs ++ [x]) u i = vecGet vecs u i := by
  refine vecGet_congr vecs _ (fun u => u < vecs.length) ?_ ?_ u hu i
  · intro u vec p hu hv hp
    have := par u vec p hv hp
    omega
  · intro u hu
    rw [List.getElem?_append_left hu]

/-! ### New vectors -/

theorem getElem?_concat_eq {α : Type} (l : List α) (x y : α) (i : Nat)
    (h : (l ++ [x])[i]? = some y) : (i < l.length ∧ l[i]? = some y) ∨ (i = l.length ∧ y = x) := by
  by_cases hi : i < l.length
  · rw [List.getElem?_append_left hi] at h
    exact .inl ⟨hi, h⟩
  · have hlt := (List.getElem?_eq_some_iff.1 h).1
    rw [List.length_append, List.length_singleton] at hlt
    have : i = l.length := by omega
    subst this
    rw [List.getElem?_concat_length] at h
    exact .inr ⟨rfl, (Option.some.inj h).symm⟩

structure NewVec (c : Cfg A L) (s s' : Store L) (size : Nat) (parent : Option Nat) : Prop where
  inv : VInv c s'
  length : s'.vecs.length = s.vecs.length + 1
  old : ∀ u, u < s.vecs.length → ∀ i, vecRead s' u i = vecRead s u i
  same : ∀ u, u < s.vecs.length → s'.vecs[u]? = s.vecs[u]?
  new : ∃ vec, s'.vecs[s.vecs.length]? = some vec ∧ vec.size = size ∧ vec.parent = parent
  read : ∀ i, i < size → vecRead s' s.vecs.length i = parentRead s parent i

theorem deref_append_left (heap ext : List (Option L)) (a : Nat) (ha : a < heap.length) :
    deref (heap ++ ext) a = deref heap a := by
  unfold deref
  rw [List.getElem?_append_left ha]

theorem newVec_spec (c : Cfg A L) (s : Store L) (h : VInv c s) (size updateSize : Nat)
    (parent : Option Nat) (hp : ∀ p, parent = some p → p < s.vecs.length) :
    NewVec c s (newVec c s size updateSize parent) size parent := by
  have key : ∀ (ext : List (Option L)) (data : VecData),
      (∀ i a, Vec.Owns ⟨size, data, parent⟩ i a → i < size ∧ s.heap.length ≤ a ∧
        a = s.heap.length + i ∧ ∃ l, (s.heap ++ ext)[a]? = some (some l)) →
      (∀ arr, data = .array arr → arr.length = size) →
      (∀ arr i own ptr, data = .array arr → arr[i]? = some (own, ptr) →
        ptr = parentGet s.vecs parent i ∧ (s.heap ++ ext)[own]? = some (some c.emptyList)) →
      (∀ i, i < size → (match data with
        | .array a => (a[i]?).bind Prod.snd
        | .map m => (m.lookup i).or (parentGet s.vecs parent i)) = parentGet s.vecs parent i) →
      NewVec c s ⟨s.heap ++ ext, s.vecs ++ [⟨size, data, parent⟩]⟩ size parent := by
    intro ext data h1 h2 h3 h4
    have hlt : ∀ (v : Nat) (vec : Vec) i a, s.vecs[v]? = some vec → vec.Owns i a → a < s.heap.length := by
      intro v vec i a hv ho
      obtain ⟨l, hl⟩ := h.live v vec i a hv ho
      exact (List.getElem?_eq_some_iff.1 hl).1
    have hglt : ∀ u i a, vecGet s.vecs u i = some a → a < s.heap.length := by
      intro u i a hg
      obtain ⟨l, hl⟩ := resolve_live h u i a hg
      exact (List.getElem?_eq_some_iff.1 hl).1
    have hpg : ∀ p : Option Nat, (∀ q, p = some q → q < s.vecs.length) → ∀ i,
        parentGet (s.vecs ++ [⟨size, data, parent⟩]) p i = parentGet s.vecs p i := by
      intro p hq i
      cases p with
      | none => rfl
      | some p => exact vecGet_append s.vecs _ h.par p (hq p rfl) i
    have hparlt : ∀ (v : Nat) (vec : Vec) p, s.vecs[v]? = some vec → vec.parent = some p → p < s.vecs.length := by
      intro v vec p hv hpar
      have := h.par v vec p hv hpar
      have := (List.getElem?_eq_some_iff.1 hv).1
      omega
    have hinv : VInv c ⟨s.heap ++ ext, s.vecs ++ [⟨size, data, parent⟩]⟩ := by
      refine ⟨?_, ?_, ?_, ?_, ?_, ?_⟩
      · intro v vec p hv hpar
        rcases getElem?_concat_eq _ _ _ _ hv with ⟨_, hv⟩ | ⟨rfl, rfl⟩
        · exact h.par v vec p hv hpar
        · exact hp p hpar
      · intro v vec i a hv ho
        rcases getElem?_concat_eq _ _ _ _ hv with ⟨_, hv⟩ | ⟨rfl, rfl⟩
        · exact h.keys v vec i a hv ho
        · exact (h1 i a ho).1
      · intro v vec arr hv hd
        rcases getElem?_concat_eq _ _ _ _ hv with ⟨_, hv⟩ | ⟨rfl, rfl⟩
        · exact h.full v vec arr hv hd
        · exact h2 arr hd
      · intro v vec i a hv ho
        rcases getElem?_concat_eq _ _ _ _ hv with ⟨_, hv⟩ | ⟨rfl, rfl⟩
        · obtain ⟨l, hl⟩ := h.live v vec i a hv ho
          refine ⟨l, ?_⟩
          show (s.heap ++ ext)[a]? = _
          rw [List.getElem?_append_left (hlt v vec i a hv ho), hl]
        · exact (h1 i a ho).2.2.2
      · intro v vec i v' vec' i' a hv ho hv' ho'
        rcases getElem?_concat_eq _ _ _ _ hv with ⟨_, hv⟩ | ⟨rfl, rfl⟩ <;>
          rcases getElem?_concat_eq _ _ _ _ hv' with ⟨_, hv'⟩ | ⟨rfl, rfl⟩
        · exact h.inj v vec i v' vec' i' a hv ho hv' ho'
        · have := hlt v vec i a hv ho
          have := (h1 i' a ho').2.1
          omega
        · have := hlt v' vec' i' a hv' ho'
          have := (h1 i a ho).2.1
          omega
        · have := (h1 i' a ho').2.2.1
          have := (h1 i a ho).2.2.1
          refine ⟨rfl, by omega⟩
      · intro v vec arr i own ptr hv hd hs
        rcases getElem?_concat_eq _ _ _ _ hv with ⟨_, hv⟩ | ⟨rfl, rfl⟩
        · rcases h.slot v vec arr i own ptr hv hd hs with e | ⟨e, e2⟩
          · exact .inl e
          · refine .inr ⟨?_, ?_⟩
            · rw [e]
              exact (hpg _ (fun q hq => hparlt v vec q hv hq) i).symm
            · show (s.heap ++ ext)[own]? = _
              rw [List.getElem?_append_left (List.getElem?_eq_some_iff.1 e2).1, e2]
        · obtain ⟨e, e2⟩ := h3 arr i own ptr hd hs
          exact .inr ⟨e.trans (hpg _ hp i).symm, e2⟩
    refine ⟨hinv, by simp, ?_, ?_, ⟨_, List.getElem?_concat_length, rfl, rfl⟩, ?_⟩
    · intro u hu i
      unfold vecRead
      simp only
      rw [vecGet_append s.vecs _ h.par u hu i]
      cases hg : vecGet s.vecs u i with
      | none => rfl
      | some a => exact deref_append_left _ _ _ (hglt u i a hg)
    · intro u hu
      exact List.getElem?_append_left hu
    · intro i hi
      unfold vecRead parentRead
      rw [vecGet_eq (vec := ⟨size, data, parent⟩) List.getElem?_concat_length hp i]
      have h4 := h4 i hi
      simp only
      have e : (match data with
        | .array a => (a[i]?).bind Prod.snd
        | .map m => (m.lookup i).or
          (parentGet (s.vecs ++ [⟨size, data, parent⟩]) parent i)) = parentGet s.vecs parent i := by
        rw [hpg _ hp i]
        exact h4
      rw [e]
      cases hg : parentGet s.vecs parent i with
      | none => rfl
      | some a =>
        obtain ⟨l, hl⟩ := resolve_parent_live h parent i a hg
        exact deref_append_left _ _ _ (List.getElem?_eq_some_iff.1 hl).1
  unfold newVec
  have hslot : ∀ i, i < size → ((List.range size).map fun i =>
      (s.heap.length + i, parentGet s.vecs parent i))[i]? =
        some (s.heap.length + i, parentGet s.vecs parent i) := by
    intro i hi
    rw [List.getElem?_map, List.getElem?_range hi]
    rfl
  have hslot2 : ∀ i e, ((List.range size).map fun i =>
      (s.heap.length + i, parentGet s.vecs parent i))[i]? = some e →
        i < size ∧ e = (s.heap.length + i, parentGet s.vecs parent i) := by
    intro i e he
    have hi : i < size := by
      have := (List.getElem?_eq_some_iff.1 he).1
      simpa using this
    rw [hslot i hi] at he
    exact ⟨hi, (Option.some.inj he).symm⟩
  have hcell : ∀ i, i < size → (s.heap ++ List.replicate size (some c.emptyList))[s.heap.length + i]?
      = some (some c.emptyList) := by
    intro i hi
    rw [List.getElem?_append_right (by omega), Nat.add_sub_cancel_left, List.getElem?_replicate,
      if_pos hi]
  split
  · apply key
    · rintro i a ⟨ptr, ho⟩
      obtain ⟨hi, e⟩ := hslot2 i _ ho
      injection e with e1 e2
      exact ⟨hi, by omega, e1, _, e1 ▸ hcell i hi⟩
    · intro arr e
      cases e
      simp
    · intro arr i own ptr e ho
      cases e
      obtain ⟨hi, e⟩ := hslot2 i _ ho
      injection e with e1 e2
      exact ⟨e2, e1 ▸ hcell i hi⟩
    · intro i hi
      simp only
      rw [hslot i hi]
      rfl
  · have := key [] (.map []) (by intro i a ho; cases ho) (by intro _ e; cases e)
      (by intro _ _ _ _ e; cases e) (by intro i hi; simp)
    rw [List.append_nil] at this
    exact this

/-! ### Changes -/

/-- The parents and sizes of the vectors. -/
def shapes (vecs : List Vec) : List (Nat × Option Nat) := vecs.map fun x => (x.size, x.parent)

structure Changed (c : Cfg A L) (s s' : Store L) (v i n : Nat) (new : Option L) : Prop where
  inv : VInv c s'
  shape : shapes s'.vecs = shapes s.vecs
  other : ∀ u j, (u ≠ v ∨ (j ≠ i ∧ j < n)) → vecRead s' u j = vecRead s u j
  this : i < n → vecRead s' v i = new

theorem shapes_set (vecs : List Vec) (v : Nat) (vec : Vec) (hv : vecs[v]? = some vec)
    (data : VecData) : shapes (vecs.set v { vec with data := data }) = shapes vecs := by
  unfold shapes
  rw [List.map_set]
  apply List.ext_getElem?
  intro i
  rw [List.getElem?_set]
  split
  · rename_i e
    subst e
    have hlt := (List.getElem?_eq_some_iff.1 hv).1
    rw [if_pos (by simpa using hlt), List.getElem?_map, hv]
    rfl
  · rfl

theorem getElem?_set_cases {α : Type} {l : List α} {v u : Nat} {x y : α} (h : (l.set v x)[u]? = some y) :
    (u ≠ v ∧ l[u]? = some y) ∨ (u = v ∧ y = x ∧ v < l.length) := by
  rw [List.getElem?_set] at h
  split at h
  · rename_i e
    split at h
    · rename_i hl
      exact .inr ⟨e.symm, (Option.some.inj h).symm, hl⟩
    · cases h
  · rename_i e
    exact .inl ⟨fun e' => e e'.symm, h⟩

theorem hasChild_set (vecs : List Vec) (v : Nat) (vec : Vec) (hv : vecs[v]? = some vec)
    (data : VecData) (u : Nat) :
    HasChild (vecs.set v { vec with data := data }) u ↔ HasChild vecs u := by
  constructor
  · rintro ⟨w, x, hw, hp⟩
    rcases getElem?_set_cases hw with ⟨_, hw⟩ | ⟨rfl, rfl, _⟩
    · exact ⟨w, x, hw, hp⟩
    · exact ⟨_, vec, hv, hp⟩
  · rintro ⟨w, x, hw, hp⟩
    by_cases e : w = v
    · subst e
      have : x = vec := Option.some.inj (hw.symm.trans hv)
      subst this
      exact ⟨w, { x with data := data }, List.getElem?_set_self (List.getElem?_eq_some_iff.1 hw).1, hp⟩
    · exact ⟨w, x, by rw [List.getElem?_set_ne (fun e' => e e'.symm), hw], hp⟩

/-- The general form of a change: vector `v` gets new data, the cell `a` that only it owns gets a
new list, other cells that it does not own keep theirs. -/
theorem changed_of (c : Cfg A L) (s : Store L) (h : VInv c s) (v i : Nat) (vec : Vec)
    (hv : s.vecs[v]? = some vec) (hc : ¬ HasChild s.vecs v) (data : VecData)
    (heap : List (Option L)) (new : Option L)
    (hkeep : ∀ a l, s.heap[a]? = some (some l) → (¬ ∃ j, vec.Owns j a) →
      heap[a]? = some (some l))
    (hown : ∀ j a, Vec.Owns { vec with data := data } j a →
      j < vec.size ∧ (∃ l, heap[a]? = some (some l)) ∧
        (vec.Owns j a ∨ s.heap.length ≤ a))
    (hinj : ∀ j j' a, Vec.Owns { vec with data := data } j a →
      Vec.Owns { vec with data := data } j' a → j = j')
    (hfull : ∀ arr, data = .array arr → arr.length = vec.size)
    (hslot : ∀ arr j own ptr, data = .array arr → arr[j]? = some (own, ptr) →
      ptr = some own ∨ (ptr = parentGet s.vecs vec.parent j ∧ heap[own]? = some (some c.emptyList)))
    (hread : ∀ j, j < vec.size → ((match data with
        | .array a => (a[j]?).bind Prod.snd
        | .map m => (m.lookup j).or (parentGet s.vecs vec.parent j)).bind (deref heap)) =
      if j = i then new else vecRead s v j) :
    Changed c s ⟨heap, s.vecs.set v { vec with data := data }⟩ v i vec.size new := by
  have hvl := (List.getElem?_eq_some_iff.1 hv).1
  have hp : ∀ p, vec.parent = some p → p < v := fun p => h.par v vec p hv
  have hdisj : ∀ (u : Nat) (x : Vec) j a, u ≠ v → s.vecs[u]? = some x → x.Owns j a → ¬ ∃ j, vec.Owns j a := by
    rintro u x j a hu hx ho ⟨j', ho'⟩
    exact hu (h.inj u x j v vec j' a hx ho hv ho').1
  have hinv : VInv c ⟨heap, s.vecs.set v { vec with data := data }⟩ := by
    refine ⟨?_, ?_, ?_, ?_, ?_, ?_⟩
    · intro u x p hu hpar
      rcases getElem?_set_cases hu with ⟨_, hu⟩ | ⟨rfl, rfl, _⟩
      · exact h.par u x p hu hpar
      · exact hp p hpar
    · intro u x j a hu ho
      rcases getElem?_set_cases hu with ⟨_, hu⟩ | ⟨rfl, rfl, _⟩
      · exact h.keys u x j a hu ho
      · exact (hown j a ho).1
    · intro u x arr hu hd
      rcases getElem?_set_cases hu with ⟨_, hu⟩ | ⟨rfl, rfl, _⟩
      · exact h.full u x arr hu hd
      · exact hfull arr hd
    · intro u x j a hu ho
      rcases getElem?_set_cases hu with ⟨hne, hu⟩ | ⟨rfl, rfl, _⟩
      · obtain ⟨l, hl⟩ := h.live u x j a hu ho
        exact ⟨l, hkeep a l hl (hdisj u x j a hne hu ho)⟩
      · exact (hown j a ho).2.1
    · intro u x j u' x' j' a hu ho hu' ho'
      have hlt : ∀ (u : Nat) (x : Vec) j a, s.vecs[u]? = some x → x.Owns j a → a < s.heap.length := by
        intro v vec i a hv ho
        obtain ⟨l, hl⟩ := h.live v vec i a hv ho
        exact (List.getElem?_eq_some_iff.1 hl).1
      rcases getElem?_set_cases hu with ⟨hne, hu2⟩ | ⟨rfl, rfl, _⟩ <;>
        rcases getElem?_set_cases hu' with ⟨hne', hu2'⟩ | ⟨rfl, rfl, _⟩
      · exact h.inj u x j u' x' j' a hu2 ho hu2' ho'
      · rcases (hown j' a ho').2.2 with ho'' | hge
        · exact absurd ⟨j', ho''⟩ (hdisj u x j a hne hu2 ho)
        · have := hlt u x j a hu2 ho
          omega
      · rcases (hown j a ho).2.2 with ho'' | hge
        · exact absurd ⟨j, ho''⟩ (hdisj u' x' j' a hne' hu2' ho')
        · have := hlt u' x' j' a hu2' ho'
          omega
      · exact ⟨rfl, hinj j j' a ho ho'⟩
    · intro u x arr j own ptr hu hd hs
      rcases getElem?_set_cases hu with ⟨hne, hu⟩ | ⟨rfl, rfl, _⟩
      · rcases h.slot u x arr j own ptr hu hd hs with e | ⟨e, e2⟩
        · exact .inl e
        · refine .inr ⟨e.trans (parentGet_set v _ hc u x hu j).symm, ?_⟩
          refine hkeep own _ e2 (hdisj u x j own hne hu ?_)
          unfold Vec.Owns
          rw [hd]
          exact ⟨ptr, hs⟩
      · rcases hslot arr j own ptr hd hs with e | ⟨e, e2⟩
        · exact .inl e
        · exact .inr ⟨e.trans (parentGet_set _ _ hc _ vec hv j).symm, e2⟩
  have hthis : ∀ j, j < vec.size → vecRead ⟨heap, s.vecs.set v { vec with data := data }⟩ v j =
      if j = i then new else vecRead s v j := by
    intro j hj
    rw [← hread j hj]
    unfold vecRead
    rw [vecGet_eq (vec := { vec with data := data }) (List.getElem?_set_self hvl) hp j]
    simp only
    rw [parentGet_set v _ hc v vec hv j]
  refine ⟨hinv, shapes_set _ _ _ hv _, ?_, ?_⟩
  · intro u j hne
    by_cases hu : u = v
    · subst hu
      have hne := hne.resolve_left (fun h => h rfl)
      rw [hthis j hne.2, if_neg hne.1]
    · unfold vecRead
      simp only
      rw [vecGet_set_ne s.vecs v _ hc u hu j]
      cases hg : vecGet s.vecs u j with
      | none => rfl
      | some a =>
        obtain ⟨w, x, h1, h2, h3⟩ := resolve h u j a hg
        have hw : w ≠ v := by
          rintro rfl
          rcases h3 with rfl | h3
          · exact hu rfl
          · exact hc h3
        obtain ⟨l, hl⟩ := h.live w x j a h1 h2
        have := hkeep a l hl (hdisj w x j a hw h1 h2)
        simp only [Option.bind_some]
        unfold deref
        rw [hl, this]
  · intro hi
    rw [hthis i hi, if_pos rfl]

theorem deref_some {heap : List (Option L)} {a : Nat} {l : L} (h : heap[a]? = some (some l)) :
    deref heap a = some l := by
  unfold deref
  rw [h]
  rfl

theorem getElem?_set_some {α : Type} {l : List α} {a b : Nat} {x : α} (hb : b < l.length) :
    (l.set b x)[a]? = if a = b then some x else l[a]? := by
  rw [List.getElem?_set]
  split
  · rename_i e
    rw [if_pos e.symm]
  · rename_i e
    rw [if_neg (fun e' => e e'.symm)]

/-- A change of a list of a vector in array mode. -/
theorem array_spec (c : Cfg A L) (s : Store L) (h : VInv c s) (v i : Nat) (vec : Vec)
    (arr : List (Nat × Option Nat)) (hv : s.vecs[v]? = some vec) (hd : vec.data = .array arr)
    (hi : i < vec.size) (hc : ¬ HasChild s.vecs v) (f : L → L) :
    let r := getMutableFromArray s v vec arr i
    Changed c s { r.1 with heap := r.1.heap.set r.2 ((deref r.1.heap r.2).map f) } v i vec.size
      (some (f ((vecRead s v i).getD c.emptyList))) := by
  intro r
  have hp : ∀ p, vec.parent = some p → p < v := fun p => h.par v vec p hv
  have hlen := h.full v vec arr hv hd
  obtain ⟨⟨own, ptr⟩, hs⟩ : ∃ e, arr[i]? = some e := ⟨_, List.getElem?_eq_getElem (by omega)⟩
  have hown : vec.Owns i own := by
    unfold Vec.Owns
    rw [hd]
    exact ⟨ptr, hs⟩
  obtain ⟨lo, hlo⟩ := h.live v vec i own hv hown
  have holt := (List.getElem?_eq_some_iff.1 hlo).1
  have hvr : vecRead s v i = ptr.bind (deref s.heap) := by
    unfold vecRead
    rw [vecGet_eq hv hp, hd]
    simp only
    rw [hs]
    rfl
  have hdata : vec = { vec with data := .array arr } := by rw [← hd]
  -- the new state
  have hr : ∃ l, vecRead s v i = some l ∨ (vecRead s v i = none ∧ l = c.emptyList) := by
    cases vecRead s v i with
    | none => exact ⟨_, .inr ⟨rfl, rfl⟩⟩
    | some l => exact ⟨l, .inl rfl⟩
  have hstate : ({ r.1 with heap := r.1.heap.set r.2 ((deref r.1.heap r.2).map f) } : Store L) =
      ⟨s.heap.set own (some (f ((vecRead s v i).getD c.emptyList))),
        s.vecs.set v { vec with data := .array (arr.set i (own, some own)) }⟩ := by
    have hslot := h.slot v vec arr i own ptr hv hd hs
    show ({ (getMutableFromArray s v vec arr i).1 with heap := _ } : Store L) = _
    unfold r getMutableFromArray
    rw [hs]
    simp only
    cases ptr with
    | none =>
      rcases hslot with e | ⟨_, e2⟩
      · cases e
      · rw [hvr]
        simp only [Option.bind_none, Option.getD_none]
        rw [deref_some e2]
        rfl
    | some p =>
      simp only
      by_cases hpo : p = own
      · subst hpo
        rw [if_pos rfl]
        simp only
        rw [hvr, Option.bind_some, deref_some hlo]
        have e1 : arr.set i (p, some p) = arr := by
          apply List.ext_getElem?
          intro j
          rw [getElem?_set_some (by omega)]
          split
          · rename_i e; rw [e, hs]
          · rfl
        have e2 : s.vecs.set v { vec with data := .array arr } = s.vecs := by
          rw [← hdata]
          apply List.ext_getElem?
          intro j
          rw [getElem?_set_some (List.getElem?_eq_some_iff.1 hv).1]
          split
          · rename_i e; rw [e, hv]
          · rfl
        rw [e1, e2]
        rfl
      · rw [if_neg hpo]
        simp only
        rw [List.set_set, hvr, Option.bind_some]
        rcases hslot with e | ⟨e, _⟩
        · exact absurd (Option.some.inj e) hpo
        · obtain ⟨l, hl⟩ := resolve_parent_live h _ i p e.symm
          rw [deref_some hl]
          unfold deref
          rw [List.getElem?_set_self holt]
          rfl
  rw [hstate]
  have hkeepcell : ∀ a, a ≠ own →
      (s.heap.set own (some (f ((vecRead s v i).getD c.emptyList))))[a]? = s.heap[a]? := by
    intro a ha
    rw [List.getElem?_set_ne (fun e => ha e.symm)]
  have hget : ∀ j, (arr.set i (own, some own))[j]? =
      if j = i then some (own, some own) else arr[j]? := by
    intro j
    rw [getElem?_set_some (by omega)]
  have hownseq : ∀ j a, Vec.Owns { vec with data := .array (arr.set i (own, some own)) } j a →
      vec.Owns j a := by
    rintro j a ⟨p, hj⟩
    rw [hget] at hj
    split at hj
    · rename_i e
      subst e
      cases hj
      exact hown
    · unfold Vec.Owns
      rw [hd]
      exact ⟨p, hj⟩
  apply changed_of c s h v i vec hv hc
  · intro a l ha hno
    rw [hkeepcell a (fun e => hno ⟨i, e ▸ hown⟩), ha]
  · intro j a hj
    have hj := hownseq j a hj
    refine ⟨h.keys v vec j a hv hj, ?_, .inl hj⟩
    by_cases ha : a = own
    · subst ha
      exact ⟨_, by rw [List.getElem?_set_self holt]⟩
    · rw [hkeepcell a ha]
      exact h.live v vec j a hv hj
  · intro j j' a hj hj'
    exact (h.inj v vec j v vec j' a hv (hownseq j a hj) hv (hownseq j' a hj')).2
  · intro arr' e
    cases e
    rw [List.length_set, hlen]
  · intro arr' j o p e hj
    cases e
    rw [hget] at hj
    split at hj
    · cases hj
      exact .inl rfl
    · rename_i hji
      rcases h.slot v vec arr j o p hv hd hj with e | ⟨e, e2⟩
      · exact .inl e
      · refine .inr ⟨e, ?_⟩
        rw [hkeepcell o, e2]
        rintro rfl
        have : vec.Owns j o := by
          unfold Vec.Owns
          rw [hd]
          exact ⟨p, hj⟩
        exact hji (h.inj v vec j v vec i o hv this hv hown).2
  · intro j _
    simp only
    rw [hget]
    split
    · simp only [Option.bind_some]
      unfold deref
      rw [List.getElem?_set_self holt]
      rfl
    · rename_i hji
      have hvj : vecRead s v j = ((arr[j]?).bind Prod.snd).bind (deref s.heap) := by
        unfold vecRead
        rw [vecGet_eq hv hp, hd]
      rw [hvj]
      cases hj : arr[j]? with
      | none => rfl
      | some e =>
        obtain ⟨o, p⟩ := e
        simp only [Option.bind_some]
        cases p with
        | none => rfl
        | some q =>
          simp only [Option.bind_some]
          have hqo : q ≠ own := by
            intro e
            subst e
            have hoj : vec.Owns j o := by
              unfold Vec.Owns
              rw [hd]
              exact ⟨_, hj⟩
            rcases h.slot v vec arr j o _ hv hd hj with e | ⟨e, _⟩
            · have hqo : q = o := Option.some.inj e
              subst hqo
              exact hji (h.inj v vec j v vec i q hv hoj hv hown).2
            · unfold parentGet at e
              cases hpar : vec.parent with
              | none => rw [hpar] at e; cases e
              | some par =>
                rw [hpar] at e
                obtain ⟨w, x, h1, h2, h3⟩ := resolve h par j q e.symm
                have hwv := (h.inj w x j v vec i q h1 h2 hv hown).1
                subst hwv
                rcases h3 with rfl | h3
                · have := hp _ hpar
                  omega
                · exact hc h3
          unfold deref
          rw [hkeepcell q hqo]

/-- The change from map mode to array mode cannot be seen. -/
theorem convert_spec (c : Cfg A L) (s : Store L) (h : VInv c s) (v : Nat) (vec : Vec)
    (m : List (Nat × Nat)) (hv : s.vecs[v]? = some vec) (hd : vec.data = .map m)
    (hc : ¬ HasChild s.vecs v) :
    let r := convertToArray c s vec m
    VInv c ⟨r.1, s.vecs.set v { vec with data := .array r.2 }⟩ ∧
    ∀ u j, (u ≠ v ∨ j < vec.size) →
      vecRead ⟨r.1, s.vecs.set v { vec with data := .array r.2 }⟩ u j = vecRead s u j := by
  intro r
  have hp : ∀ p, vec.parent = some p → p < v := fun p => h.par v vec p hv
  have howns : ∀ j a, vec.Owns j a ↔ (j, a) ∈ m := by
    intro j a
    unfold Vec.Owns
    rw [hd]
  have hslots : ∀ j, r.2[j]? = if j < vec.size then
      some (s.heap.length + j, match m.lookup j with
        | some _ => some (s.heap.length + j)
        | none => parentGet s.vecs vec.parent j) else none := by
    intro j
    show (convertToArray c s vec m).2[j]? = _
    unfold convertToArray
    simp only
    rw [List.getElem?_map]
    split
    · rename_i hj
      rw [List.getElem?_range hj]
      rfl
    · rename_i hj
      rw [List.getElem?_eq_none (by simpa using hj)]
      rfl
  have hold : ∀ a, a < s.heap.length → (¬ ∃ j, vec.Owns j a) → r.1[a]? = s.heap[a]? := by
    intro a ha ho
    show (convertToArray c s vec m).1[a]? = _
    unfold convertToArray
    simp only
    rw [List.getElem?_append_left (by simpa using ha), List.getElem?_mapIdx,
      List.getElem?_eq_getElem ha]
    simp only [Option.map_some]
    rw [if_neg]
    intro hany
    rw [List.any_eq_true] at hany
    obtain ⟨⟨j, b⟩, he, heq⟩ := hany
    have := eq_of_beq heq
    simp only at this
    subst this
    exact ho ⟨j, (howns j b).2 he⟩
  have hnew : ∀ j, j < vec.size → r.1[s.heap.length + j]? = some (match m.lookup j with
      | some a => deref s.heap a
      | none => some c.emptyList) := by
    intro j hj
    show (convertToArray c s vec m).1[s.heap.length + j]? = _
    unfold convertToArray
    simp only
    rw [List.getElem?_append_right (by simp), List.length_mapIdx, Nat.add_sub_cancel_left,
      List.getElem?_map, List.getElem?_range hj]
    rfl
  have hlook : ∀ j a, m.lookup j = some a → ∃ l, s.heap[a]? = some (some l) := by
    intro j a hl
    exact h.live v vec j a hv ((howns j a).2 (lookup_mem hl))
  have hownsnew : ∀ j a, Vec.Owns { vec with data := .array r.2 } j a ↔
      j < vec.size ∧ a = s.heap.length + j := by
    intro j a
    show (∃ ptr, r.2[j]? = some (a, ptr)) ↔ _
    rw [hslots]
    constructor
    · rintro ⟨ptr, he⟩
      split at he
      · rename_i hj
        injection he with he
        injection he with he _
        exact ⟨hj, he.symm⟩
      · cases he
    · rintro ⟨hj, rfl⟩
      rw [if_pos hj]
      exact ⟨_, rfl⟩
  have hread : ∀ j, j < vec.size →
      ((r.2[j]?).bind Prod.snd).bind (deref r.1) = vecRead s v j := by
    intro j hj
    rw [hslots, if_pos hj]
    unfold vecRead
    rw [vecGet_eq hv hp, hd]
    simp only [Option.bind_some]
    cases hl : m.lookup j with
    | some a =>
      simp only [Option.some_or, Option.bind_some]
      obtain ⟨l, hl'⟩ := hlook j a hl
      rw [deref_some hl']
      apply deref_some
      rw [hnew j hj, hl]
      simp only
      rw [deref_some hl']
    | none =>
      simp only [Option.none_or]
      cases hg : parentGet s.vecs vec.parent j with
      | none => rfl
      | some a =>
        simp only [Option.bind_some]
        unfold parentGet at hg
        cases hpar : vec.parent with
        | none => rw [hpar] at hg; cases hg
        | some par =>
          rw [hpar] at hg
          obtain ⟨w, x, h1, h2, h3⟩ := resolve h par j a hg
          obtain ⟨l, hl'⟩ := h.live w x j a h1 h2
          have hno : ¬ ∃ j, vec.Owns j a := by
            rintro ⟨j', hj'⟩
            have := (h.inj w x j v vec j' a h1 h2 hv hj').1
            subst this
            rcases h3 with rfl | h3
            · have := hp _ hpar
              omega
            · exact hc h3
          unfold deref
          rw [hold a (List.getElem?_eq_some_iff.1 hl').1 hno]
  -- only positions below the size matter, so the change at position `vec.size` is arbitrary
  have key := changed_of c s h v vec.size vec hv hc (.array r.2) r.1
    (((r.2[vec.size]?).bind Prod.snd).bind (deref r.1))
    (by
      intro a l ha hno
      rw [hold a (List.getElem?_eq_some_iff.1 ha).1 hno, ha])
    (by
      intro j a hj
      obtain ⟨hjs, rfl⟩ := (hownsnew j a).1 hj
      refine ⟨hjs, ?_, .inr (by omega)⟩
      rw [hnew j hjs]
      cases hl : m.lookup j with
      | none => exact ⟨_, rfl⟩
      | some a =>
        obtain ⟨l, hl'⟩ := hlook j a hl
        exact ⟨l, by simp only; rw [deref_some hl']⟩)
    (by
      intro j j' a hj hj'
      have := ((hownsnew j a).1 hj).2
      have := ((hownsnew j' a).1 hj').2
      omega)
    (by
      intro arr e
      cases e
      show (convertToArray c s vec m).2.length = _
      unfold convertToArray
      simp)
    (by
      intro arr j own ptr e hj
      cases e
      rw [hslots] at hj
      split at hj
      · rename_i hjs
        injection hj with hj
        injection hj with e1 e2
        subst e1
        cases hl : m.lookup j with
        | some a =>
          rw [hl] at e2
          exact .inl e2.symm
        | none =>
          rw [hl] at e2
          refine .inr ⟨e2.symm, ?_⟩
          rw [hnew j hjs, hl]
      · cases hj)
    (by
      intro j hj
      rw [if_neg (by omega)]
      exact hread j hj)
  exact ⟨key.inv, fun u j hu => key.other u j (hu.imp id fun hj => ⟨by omega, hj⟩)⟩

theorem modifyVec_spec (c : Cfg A L) (s : Store L) (h : VInv c s) (v i : Nat) (vec : Vec)
    (hv : s.vecs[v]? = some vec) (hi : i < vec.size) (hc : ¬ HasChild s.vecs v) (f : L → L) :
    Changed c s (modifyVec c s v i f) v i vec.size
      (some (f ((vecRead s v i).getD c.emptyList))) := by
  have hp : ∀ p, vec.parent = some p → p < v := fun p => h.par v vec p hv
  have hvl := (List.getElem?_eq_some_iff.1 hv).1
  unfold modifyVec getMutable
  rw [hv]
  simp only
  cases hd : vec.data with
  | array arr => exact array_spec c s h v i vec arr hv hd hi hc f
  | map m =>
    simp only
    have howns : ∀ j a, vec.Owns j a ↔ (j, a) ∈ m := by
      intro j a
      unfold Vec.Owns
      rw [hd]
    have hvr : ∀ j, vecRead s v j =
        ((m.lookup j).or (parentGet s.vecs vec.parent j)).bind (deref s.heap) := by
      intro j
      unfold vecRead
      rw [vecGet_eq hv hp, hd]
    -- a cell that the parent's list lives in is not owned by this vector
    have hparno : ∀ j a, parentGet s.vecs vec.parent j = some a →
        (∃ l, s.heap[a]? = some (some l)) ∧ ¬ ∃ j, vec.Owns j a := by
      intro j a hg
      refine ⟨resolve_parent_live h _ j a hg, ?_⟩
      rintro ⟨j', hj'⟩
      unfold parentGet at hg
      cases hpar : vec.parent with
      | none => rw [hpar] at hg; cases hg
      | some par =>
        rw [hpar] at hg
        obtain ⟨w, x, h1, h2, h3⟩ := resolve h par j a hg
        have := (h.inj w x j v vec j' a h1 h2 hv hj').1
        subst this
        rcases h3 with rfl | h3
        · have := hp _ hpar
          omega
        · exact hc h3
    unfold getMutableFromMap
    cases hl : m.lookup i with
    | some a =>
      simp only
      have hown : vec.Owns i a := (howns i a).2 (lookup_mem hl)
      obtain ⟨l, hla⟩ := h.live v vec i a hv hown
      have halt := (List.getElem?_eq_some_iff.1 hla).1
      have hstate : s.vecs = s.vecs.set v { vec with data := .map m } := by
        rw [← hd]
        apply List.ext_getElem?
        intro j
        rw [getElem?_set_some hvl]
        split
        · rename_i e; rw [e, hv]
        · rfl
      have hvi : vecRead s v i = some l := by
        rw [hvr, hl, Option.some_or, Option.bind_some, deref_some hla]
      rw [hvi, deref_some hla]
      have hcell : ∀ b, (s.heap.set a (some (f l)))[b]? =
          if b = a then some (some (f l)) else s.heap[b]? := fun b => getElem?_set_some halt
      have goal := changed_of c s h v i vec hv hc (.map m) (s.heap.set a (some (f l))) (some (f l))
        (by
          intro b x hb hno
          rw [hcell, if_neg, hb]
          rintro rfl
          exact hno ⟨i, hown⟩)
        (by
          intro j b hj
          have hj : vec.Owns j b := (howns j b).2 hj
          refine ⟨h.keys v vec j b hv hj, ?_, .inl hj⟩
          rw [hcell]
          split
          · exact ⟨_, rfl⟩
          · exact h.live v vec j b hv hj)
        (by
          intro j j' b hj hj'
          exact (h.inj v vec j v vec j' b hv ((howns j b).2 hj) hv ((howns j' b).2 hj')).2)
        (by intro _ e; cases e)
        (by intro _ _ _ _ e; cases e)
        (by
          intro j _
          simp only
          split
          · rename_i e
            subst e
            rw [hl, Option.some_or, Option.bind_some]
            apply deref_some
            rw [hcell, if_pos rfl]
          · rename_i hji
            rw [hvr]
            cases hlj : m.lookup j with
            | some b =>
              simp only [Option.some_or, Option.bind_some]
              unfold deref
              rw [hcell, if_neg]
              rintro rfl
              exact hji (h.inj v vec j v vec i b hv ((howns j b).2 (lookup_mem hlj)) hv hown).2
            | none =>
              simp only [Option.none_or]
              cases hg : parentGet s.vecs vec.parent j with
              | none => rfl
              | some b =>
                simp only [Option.bind_some]
                unfold deref
                rw [hcell, if_neg]
                rintro rfl
                exact (hparno j b hg).2 ⟨i, hown⟩)
      rw [← hstate] at goal
      exact goal
    | none =>
      simp only
      by_cases hu : c.useArray vec.size (m.length + 1)
      · rw [if_pos hu]
        obtain ⟨hinv, hsame⟩ := convert_spec c s h v vec m hv hd hc
        have hgoal := array_spec c _ hinv v i
          { vec with data := .array (convertToArray c s vec m).2 } (convertToArray c s vec m).2
          (List.getElem?_set_self hvl) rfl hi
          (fun hch => hc ((hasChild_set s.vecs v vec hv _ v).1 hch)) f
        refine ⟨hgoal.inv, ?_, ?_, ?_⟩
        · exact hgoal.shape.trans (shapes_set _ _ _ hv _)
        · intro u j huj
          refine (hgoal.other u j huj).trans (hsame u j (huj.imp id And.right))
        · intro _
          refine (hgoal.this hi).trans ?_
          rw [hsame v i (.inr hi)]
      · rw [if_neg hu]
        have hvi : vecRead s v i = (parentGet s.vecs vec.parent i).bind (deref s.heap) := by
          rw [hvr, hl, Option.none_or]
        simp only
        have hnl2 : initialList c s vec i = some ((vecRead s v i).getD c.emptyList) := by
          rw [hvi]
          unfold initialList
          cases hg : parentGet s.vecs vec.parent i with
          | none => rfl
          | some b =>
            obtain ⟨⟨x, hx⟩, _⟩ := hparno i b hg
            simp only [Option.bind_some]
            rw [deref_some hx]
            rfl
        rw [hnl2]
        generalize (vecRead s v i).getD c.emptyList = old
        have hheap : (s.heap ++ [some old]).set s.heap.length
            (Option.map f (deref (s.heap ++ [some old]) s.heap.length)) = s.heap ++ [some (f old)] := by
          rw [deref_some (l := old) List.getElem?_concat_length]
          simp
        rw [hheap]
        have hlt : ∀ j b, vec.Owns j b → b < s.heap.length := by
          intro j b ho
          obtain ⟨l, hl⟩ := h.live v vec j b hv ho
          exact (List.getElem?_eq_some_iff.1 hl).1
        have hmem : ∀ j b, Vec.Owns { vec with data := .map ((i, s.heap.length) :: m) } j b →
            (j = i ∧ b = s.heap.length) ∨ vec.Owns j b := by
          intro j b hj
          rcases List.mem_cons.1 hj with e | hj
          · injection e with e1 e2
            exact .inl ⟨e1, e2⟩
          · exact .inr ((howns j b).2 hj)
        exact changed_of c s h v i vec hv hc (.map ((i, s.heap.length) :: m))
          (s.heap ++ [some (f old)]) (some (f old))
          (by
            intro b x hb hno
            rw [List.getElem?_append_left (List.getElem?_eq_some_iff.1 hb).1, hb])
          (by
            intro j b hj
            rcases hmem j b hj with ⟨rfl, rfl⟩ | ho
            · exact ⟨hi, ⟨_, List.getElem?_concat_length⟩, .inr (Nat.le_refl _)⟩
            · obtain ⟨x, hx⟩ := h.live v vec j b hv ho
              refine ⟨h.keys v vec j b hv ho, ⟨x, ?_⟩, .inl ho⟩
              rw [List.getElem?_append_left (hlt j b ho), hx])
          (by
            intro j j' b hj hj'
            rcases hmem j b hj with ⟨rfl, rfl⟩ | ho <;> rcases hmem j' _ hj' with ⟨rfl, e⟩ | ho'
            · rfl
            · have := hlt _ _ ho'
              omega
            · have := hlt _ _ ho
              omega
            · exact (h.inj v vec j v vec j' b hv ho hv ho').2)
          (by intro _ e; cases e)
          (by intro _ _ _ _ e; cases e)
          (by
            intro j _
            simp only
            rw [List.lookup_cons]
            by_cases hji : j = i
            · subst hji
              rw [if_pos rfl]
              simp only [BEq.rfl, Option.some_or, Option.bind_some]
              exact deref_some List.getElem?_concat_length
            · have : (j == i) = false := by simpa using hji
              rw [if_neg hji, this, hvr]
              simp only
              cases hlj : m.lookup j with
              | some b =>
                simp only [Option.some_or, Option.bind_some]
                exact deref_append_left _ _ _ (hlt j b ((howns j b).2 (lookup_mem hlj)))
              | none =>
                simp only [Option.none_or]
                cases hg : parentGet s.vecs vec.parent j with
                | none => rfl
                | some b =>
                  obtain ⟨⟨x, hx⟩, _⟩ := hparno j b hg
                  simp only [Option.bind_some]
                  exact deref_append_left _ _ _ (List.getElem?_eq_some_iff.1 hx).1)

end Verif.BagFork
