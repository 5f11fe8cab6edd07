import Verif.S11n.Decode

/-! What the encoder writes stands for the items. -/

namespace Verif.S11n

variable {P Q : Type}

/-- The values of a type in the parts written so far. -/
def Enc.flat (e : Enc P Q) (k : Kind) : List (Raw P) :=
  e.main.stored k ++ (e.extras.flatMap (Part.stored k) ++ e.extra.stored k)

/-- The shape of the parts written so far. -/
structure Shape (e : Enc P Q) : Prop where
  main : e.main.hi.length = e.main.lo.length
  extra : e.extra.hi.length = e.extra.lo.length
  extras : ∀ p ∈ e.extras, p.hi.length = p.lo.length
  noExtra : e.inExtra = false → e.extras = [] ∧ e.extra = .empty
  size : e.inExtra = true → e.size = 0 → ∀ k, e.extra.stored k = []

theorem stored_empty (k : Kind) : (Part.empty : Part P).stored k = [] := by
  cases k <;> rfl

theorem stored_addId (p : Part P) (hp : p.hi.length = p.lo.length) (hi lo : BitVec 64) (k : Kind) :
    (p.addId hi lo).stored k = p.stored k ++ (if k = .objectId then [.id hi lo] else []) := by
  cases k with
  | objectId =>
    simp only [Part.stored, Part.addId, if_true]
    rw [List.zipWith_append hp]
    rfl
  | _ => simp [Part.stored, Part.addId]

theorem stored_add (p : Part P) (t : Plain) (v : P) (k : Kind) :
    (p.add t v).stored k = p.stored k ++ (if k = .plain t then [.value v] else []) := by
  cases k with
  | plain u =>
    simp only [Part.stored, Part.add]
    by_cases h : u = t
    · subst h
      simp
    · simp [h]
  | _ => simp [Part.stored, Part.add]

theorem size_pos (K : Kit P) (t : Plain) (v : P) : 0 < K.size t v := by
  cases t <;> simp [Kit.size]

/-- What is added to the values of a type for an item. -/
def rawOf (k : Kind) (hi lo : BitVec 64) : Cell P Q → List (Raw P)
  | .objectId hi' lo' => if k = .objectId then [.id (hi' - hi) (lo' - lo)] else []
  | .plain t v => if k = .plain t then [.value v] else []
  | _ => []

theorem addElement_ok (K : Kit P) {e : Enc P Q} (h : Shape e) (c : Cell P Q) :
    Shape (addElement K e c) ∧
    (∀ k, (addElement K e c).flat k = e.flat k ++ rawOf k e.lastHi e.lastLo c) ∧
    (addElement K e c).types = e.types ∧ (addElement K e c).exprs = e.exprs ++ exprsOf [c] := by
  cases c with
  | unset => exact ⟨h, fun k => by simp [addElement, rawOf], rfl, by simp [addElement, exprsOf]⟩
  | removed => exact ⟨h, fun k => by simp [addElement, rawOf], rfl, by simp [addElement, exprsOf]⟩
  | unit => exact ⟨h, fun k => by simp [addElement, rawOf], rfl, by simp [addElement, exprsOf]⟩
  | exprQuote q =>
    exact ⟨⟨h.main, h.extra, h.extras, h.noExtra, h.size⟩, fun k => by simp [addElement, rawOf, Enc.flat],
      rfl, by simp [addElement, exprsOf]⟩
  | objectId hi lo =>
    cases hin : e.inExtra with
    | true =>
      simp only [addElement, Enc.modifyCurrent, hin, if_true]
      refine ⟨⟨h.main, ?_, h.extras, ?_, ?_⟩, fun k => ?_, by trivial, by simp [exprsOf]⟩
      · have := h.extra
        simp [Part.addId, this]
      · intro hf; simp [hin] at hf
      · intro _ h0; simp at h0
      · simp only [Enc.flat, rawOf, stored_addId _ h.extra, List.append_assoc]
    | false =>
      obtain ⟨n1, n2⟩ := h.noExtra hin
      simp only [addElement, Enc.modifyCurrent, hin, Bool.false_eq_true, if_false]
      refine ⟨⟨?_, h.extra, h.extras, fun _ => ⟨n1, n2⟩, ?_⟩, fun k => ?_, by trivial, by simp [exprsOf]⟩
      · have := h.main
        simp [Part.addId, this]
      · intro hf; simp [hin] at hf
      · simp only [Enc.flat, rawOf, stored_addId _ h.main, n1, n2, stored_empty, List.flatMap_nil,
          List.append_nil]
  | plain t v =>
    have hs := size_pos K t v
    cases hin : e.inExtra with
    | true =>
      simp only [addElement, Enc.modifyCurrent, hin, if_true]
      refine ⟨⟨h.main, h.extra, h.extras, ?_, ?_⟩, fun k => ?_, by trivial, by simp [exprsOf]⟩
      · intro hf; simp [hin] at hf
      · intro _ h0; simp only at h0; omega
      · simp only [Enc.flat, rawOf, stored_add, List.append_assoc]
    | false =>
      obtain ⟨n1, n2⟩ := h.noExtra hin
      simp only [addElement, Enc.modifyCurrent, hin, Bool.false_eq_true, if_false]
      refine ⟨⟨h.main, h.extra, h.extras, fun _ => ⟨n1, n2⟩, ?_⟩, fun k => ?_, by trivial, by simp [exprsOf]⟩
      · intro hf; simp [hin] at hf
      · simp only [Enc.flat, rawOf, stored_add, n1, n2, stored_empty, List.flatMap_nil, List.append_nil]

/-- The last id after an item. -/
def Cell.idHi (h : BitVec 64) : Cell P Q → BitVec 64
  | .objectId a _ => a
  | _ => h

/-- The last id after an item. -/
def Cell.idLo (h : BitVec 64) : Cell P Q → BitVec 64
  | .objectId _ a => a
  | _ => h

theorem addElement_last (K : Kit P) (e : Enc P Q) (c : Cell P Q) :
    (addElement K e c).lastHi = c.idHi e.lastHi ∧ (addElement K e c).lastLo = c.idLo e.lastLo := by
  cases c with
  | plain t v =>
    unfold addElement Enc.modifyCurrent
    by_cases h : e.inExtra <;> simp [h, Cell.idHi, Cell.idLo]
  | _ => exact ⟨rfl, rfl⟩

theorem finalizeBlock_ok {e : Enc P Q} (h : Shape e) :
    Shape (finalizeBlock e) ∧ (∀ k, (finalizeBlock e).flat k = e.flat k) ∧
    (finalizeBlock e).types = e.types ∧ (finalizeBlock e).exprs = e.exprs ∧
    (finalizeBlock e).lastHi = e.lastHi ∧ (finalizeBlock e).lastLo = e.lastLo ∧
    (finalizeBlock e).extra.stored = fun _ => [] := by
  unfold finalizeBlock
  cases hin : e.inExtra with
  | true =>
    simp only [if_true]
    refine ⟨⟨h.main, rfl, ?_, ?_, fun _ _ k => stored_empty k⟩, fun k => ?_, by trivial, by trivial, by trivial,
      by trivial, funext stored_empty⟩
    · intro p hp
      rcases List.mem_append.1 hp with hp | hp
      · exact h.extras p hp
      · simp only [List.mem_singleton] at hp
        subst hp
        exact h.extra
    · intro hf; simp [hin] at hf
    · simp [Enc.flat, stored_empty]
  | false =>
    obtain ⟨n1, n2⟩ := h.noExtra hin
    simp only [Bool.false_eq_true, if_false]
    refine ⟨⟨h.main, h.extra, h.extras, fun hf => (by cases hf), fun _ _ k => ?_⟩, fun k => (by rfl), by trivial,
      by trivial, by trivial, by trivial, ?_⟩
    · simp only [n2]; exact stored_empty k
    · funext k
      simp only [n2]; exact stored_empty k

theorem toStore_cons (k : Kind) (hi lo : BitVec 64) (c : Cell P Q) (cs : List (Cell P Q)) :
    toStore k hi lo (c :: cs) = rawOf k hi lo c ++
      toStore k (c.idHi hi) (c.idLo lo) cs
    ∨ c.kind ≠ some k := by
  cases c with
  | unset => exact .inr (by simp [Cell.kind])
  | removed => exact .inr (by simp [Cell.kind])
  | unit => exact .inl (by simp [toStore, rawOf, Cell.idHi, Cell.idLo])
  | exprQuote q => exact .inl (by simp [toStore, rawOf, Cell.idHi, Cell.idLo])
  | objectId a b =>
    by_cases h : k = .objectId
    · exact .inl (by simp [toStore, rawOf, Cell.idHi, Cell.idLo, h])
    · exact .inr (by simp only [Cell.kind, ne_eq, Option.some.injEq]; exact fun hh => h hh.symm)
  | plain t v =>
    by_cases h : k = .plain t
    · exact .inl (by simp [toStore, rawOf, Cell.idHi, Cell.idLo, h])
    · exact .inr (by simp only [Cell.kind, ne_eq, Option.some.injEq]; exact fun hh => h hh.symm)

theorem rawOf_other {k k' : Kind} (hi lo : BitVec 64) {c : Cell P Q} (hc : c.kind = some k)
    (h : k' ≠ k) : rawOf k' hi lo c = [] := by
  cases c with
  | objectId a b => cases hc; simp [rawOf, h]
  | plain t v => cases hc; simp [rawOf, h]
  | _ => rfl

theorem exprsOf_cons (c : Cell P Q) (cs : List (Cell P Q)) : exprsOf (c :: cs) = exprsOf [c] ++ exprsOf cs := by
  cases c <;> simp [exprsOf]

/-- `kSoftSizeLimitPerBlock` does not matter for what is written. -/
theorem addCell_ok (K : Kit P) (limit : Nat) (k : Kind) {e : Enc P Q} (h : Shape e) (i : Nat) (c : Cell P Q) :
    Shape (addCell K limit k e i c) ∧
    (∀ k', (addCell K limit k e i c).flat k' = e.flat k' ++ rawOf k' e.lastHi e.lastLo c) ∧
    (addCell K limit k e i c).types = e.types.set i k.id ∧
    (addCell K limit k e i c).exprs = e.exprs ++ exprsOf [c] ∧
    (addCell K limit k e i c).lastHi = c.idHi e.lastHi ∧
    (addCell K limit k e i c).lastLo = c.idLo e.lastLo := by
  have h0 : Shape { e with types := e.types.set i k.id } := ⟨h.main, h.extra, h.extras, h.noExtra, h.size⟩
  obtain ⟨a1, a2, a3, a4⟩ := addElement_ok K h0 c
  have a6 := addElement_last K { e with types := e.types.set i k.id } c
  unfold addCell
  simp only
  by_cases hl : (addElement K { e with types := e.types.set i k.id } c).size > limit
  · rw [if_pos hl]
    obtain ⟨b1, b2, b3, b4, b5, b6, _⟩ := finalizeBlock_ok a1
    exact ⟨b1, fun k' => (b2 k').trans (a2 k'), b3.trans a3, b4.trans a4, b5.trans a6.1, b6.trans a6.2⟩
  · rw [if_neg hl]
    exact ⟨a1, a2, a3, a4, a6⟩

theorem visitKind_ok (K : Kit P) (limit : Nat) (k : Kind) (cells : List (Cell P Q)) (i : Nat) {e : Enc P Q}
    (h : Shape e) :
    Shape (visitKind K limit k i cells e) ∧
    (visitKind K limit k i cells e).flat k = e.flat k ++ toStore k e.lastHi e.lastLo cells ∧
    (∀ k', k' ≠ k → (visitKind K limit k i cells e).flat k' = e.flat k') ∧
    (visitKind K limit k i cells e).exprs = e.exprs ++ (if k = .exprQuote then exprsOf cells else []) ∧
    (k ≠ .objectId → (visitKind K limit k i cells e).lastHi = e.lastHi ∧
      (visitKind K limit k i cells e).lastLo = e.lastLo) ∧
    (visitKind K limit k i cells e).types.length = e.types.length ∧
    (∀ (j : Nat), (visitKind K limit k i cells e).types[j]? = e.types[j]? ∨
      ∃ c, cells[j - i]? = some c ∧ i ≤ j ∧ c.kind = some k) ∧
    (∀ (j : Nat) c, cells[j]? = some c → c.kind = some k → i + j < e.types.length →
      (visitKind K limit k i cells e).types[i + j]? = some k.id) := by
  induction cells generalizing i e with
  | nil =>
    exact ⟨h, by simp [visitKind, toStore], fun _ _ => rfl, by simp [visitKind, exprsOf], fun _ => ⟨rfl, rfl⟩,
      rfl, fun _ => .inl rfl, by simp⟩
  | cons c cs ih =>
    unfold visitKind
    by_cases hc : c.kind = some k
    · rw [if_pos hc]
      obtain ⟨a1, a2, a3, a4, a5, a6⟩ := addCell_ok K limit k h i c
      obtain ⟨b1, b2, b3, b4, b5, b6, b7, b8⟩ := ih (i + 1) a1
      refine ⟨b1, ?_, ?_, ?_, ?_, ?_, ?_, ?_⟩
      · rw [b2, a2, a5, a6, List.append_assoc]
        rcases toStore_cons k e.lastHi e.lastLo c cs with hs | hs
        · rw [hs]
        · exact absurd hc hs
      · intro k' hk'
        rw [b3 k' hk', a2, rawOf_other _ _ hc hk', List.append_nil]
      · rw [b4, a4, List.append_assoc]
        congr 1
        by_cases hk : k = .exprQuote
        · rw [if_pos hk, if_pos hk, ← exprsOf_cons]
        · rw [if_neg hk, if_neg hk, List.append_nil]
          have := exprsOf_skip (x := c) (by rw [hc]; simpa using hk) []
          simpa [exprsOf] using this
      · intro hk
        obtain ⟨f1, f2⟩ := b5 hk
        rw [f1, f2, a5, a6]
        cases c with
        | objectId a b => cases hc; exact absurd rfl hk
        | _ => exact ⟨rfl, rfl⟩
      · rw [b6, a3, List.length_set]
      · intro j
        rcases b7 j with hj | ⟨c', h1, h2, h3⟩
        · rw [hj, a3]
          by_cases hij : i = j
          · subst hij
            exact .inr ⟨c, by simp, Nat.le_refl _, hc⟩
          · exact .inl (List.getElem?_set_ne hij)
        · refine .inr ⟨c', ?_, by omega, h3⟩
          have : j - i = j - (i + 1) + 1 := by omega
          rw [this]
          simpa using h1
      · intro j c' hj hk hlt
        cases j with
        | zero =>
          rcases b7 i with hj' | ⟨c'', _, h2, _⟩
          · have hlt' : i < e.types.length := by simpa using hlt
            simp only [Nat.add_zero]
            rw [hj', a3, List.getElem?_set_self hlt']
          · omega
        | succ j =>
          have := b8 j c' (by simpa using hj) hk (by rw [a3, List.length_set]; omega)
          have he : i + (j + 1) = i + 1 + j := by omega
          rw [he]
          exact this
    · rw [if_neg hc]
      obtain ⟨b1, b2, b3, b4, b5, b6, b7, b8⟩ := ih (i + 1) h
      refine ⟨b1, ?_, b3, ?_, b5, b6, ?_, ?_⟩
      · rw [b2, toStore_skip hc]
      · rw [b4]
        by_cases hk : k = .exprQuote
        · subst hk
          rw [exprsOf_skip hc]
        · rw [if_neg hk, if_neg hk]
      · intro j
        rcases b7 j with hj | ⟨c', h1, h2, h3⟩
        · exact .inl hj
        · refine .inr ⟨c', ?_, by omega, h3⟩
          have : j - i = j - (i + 1) + 1 := by omega
          rw [this]
          simpa using h1
      · intro j c' hj hk hlt
        cases j with
        | zero =>
          simp only [List.getElem?_cons_zero, Option.some.injEq] at hj
          subst hj
          exact absurd hk hc
        | succ j =>
          have := b8 j c' (by simpa using hj) hk (by omega)
          have he : i + (j + 1) = i + 1 + j := by omega
          rw [he]
          exact this

theorem visitValues_ok (K : Kit P) (limit : Nat) (cells : List (Cell P Q)) (order : List Kind) {e : Enc P Q}
    (h : Shape e) (hnd : order.Nodup) (hlast : .objectId ∈ order → e.lastHi = 0 ∧ e.lastLo = 0)
    (hlen : e.types.length = cells.length) :
    Shape (visitValues K limit cells order e) ∧
    (∀ k, (visitValues K limit cells order e).flat k =
      e.flat k ++ (if k ∈ order then toStore k 0 0 cells else [])) ∧
    (visitValues K limit cells order e).exprs =
      e.exprs ++ (if .exprQuote ∈ order then exprsOf cells else []) ∧
    (visitValues K limit cells order e).types.length = cells.length ∧
    (∀ (j : Nat) c, cells[j]? = some c → (visitValues K limit cells order e).types[j]? =
      match c.kind with
      | none => e.types[j]?
      | some k => if k ∈ order then some k.id else e.types[j]?) := by
  induction order generalizing e with
  | nil =>
    refine ⟨h, by simp [visitValues], by simp [visitValues], hlen, fun j c _ => ?_⟩
    cases c.kind <;> simp [visitValues]
  | cons k ks ih =>
    unfold visitValues
    obtain ⟨hk, hnd⟩ := List.nodup_cons.1 hnd
    obtain ⟨a1, a2, a3, a4, a5, a6, a7, a8⟩ := visitKind_ok K limit k cells 0 h
    have hl : .objectId ∈ ks → (visitKind K limit k 0 cells e).lastHi = 0 ∧
        (visitKind K limit k 0 cells e).lastLo = 0 := by
      intro hm
      obtain ⟨f1, f2⟩ := a5 (by rintro rfl; exact hk hm)
      rw [f1, f2]
      exact hlast (by simp [hm])
    obtain ⟨b1, b2, b3, b4, b5⟩ := ih a1 hnd hl (a6.trans hlen)
    have hstore : toStore k e.lastHi e.lastLo cells = toStore k 0 0 cells := by
      by_cases hko : k = .objectId
      · subst hko
        obtain ⟨f1, f2⟩ := hlast (by simp)
        rw [f1, f2]
      · exact toStore_last hko _ _ _ _ _
    refine ⟨b1, fun k' => ?_, ?_, b4, fun j c hj => ?_⟩
    · rw [b2]
      by_cases hkk : k' = k
      · subst hkk
        rw [a2, if_neg hk, if_pos (by simp), hstore, List.append_nil]
      · rw [a3 k' hkk]
        simp [hkk]
    · rw [b3, a4]
      by_cases hkk : k = .exprQuote
      · subst hkk
        simp [hk]
      · have : Kind.exprQuote ≠ k := fun hh => hkk hh.symm
        simp [hkk, this]
    · rw [b5 j c hj]
      have hlt : j < e.types.length := by rw [hlen]; exact (List.getElem?_eq_some_iff.1 hj).1
      have same : c.kind ≠ some k → (visitKind K limit k 0 cells e).types[j]? = e.types[j]? := by
        intro hne
        rcases a7 j with h1 | ⟨c', h1, _, h3⟩
        · exact h1
        · simp only [Nat.sub_zero] at h1
          rw [hj] at h1
          cases h1
          exact absurd h3 hne
      cases hck : c.kind with
      | none => exact same (by rw [hck]; simp)
      | some k' =>
        simp only
        by_cases hkk : k' = k
        · subst hkk
          rw [if_neg hk, if_pos (by simp)]
          have := a8 j c hj hck (by omega)
          simpa using this
        · rw [same (by rw [hck]; simpa using hkk)]
          simp [hkk]

theorem typeByte_of_kind {c : Cell P Q} {k : Kind} (h : c.kind = some k) : typeByte c = k.id := by
  cases c with
  | plain t v => cases h; cases t <;> rfl
  | unset => cases h
  | removed => cases h
  | _ => cases h; rfl

theorem encode_ok (K : Kit P) (limit : Nat) (order : List Kind) (cells : List (Cell P Q))
    (hnd : order.Nodup) (hall : ∀ c ∈ cells, ∀ k, c.kind = some k → k ∈ order)
    (hd : ∀ v, .plain .dtype v ∈ cells → K.isDType v = true) :
    Encodes K (encode K limit order cells).1 (encode K limit order cells).2 cells := by
  have h0 : Shape (⟨initialTypes cells, .empty, .empty, false, [], [], 0, 0, 0⟩ : Enc P Q) :=
    ⟨rfl, rfl, by simp, fun _ => ⟨rfl, rfl⟩, by simp⟩
  obtain ⟨a1, a2, a3, a4, a5⟩ := visitValues_ok K limit cells order h0 hnd (fun _ => ⟨rfl, rfl⟩)
    (by simp [initialTypes])
  unfold encode
  simp only
  generalize visitValues K limit cells order ⟨initialTypes cells, .empty, .empty, false, [], [], 0, 0, 0⟩ = e
    at a1 a2 a3 a4 a5 ⊢
  -- the last block
  have key : ∃ e' : Enc P Q, (if (e.inExtra && decide (e.size > 0)) = true then finalizeBlock e else e) = e' ∧
      Shape e' ∧ (∀ k, e'.flat k = e.flat k) ∧ e'.types = e.types ∧ e'.exprs = e.exprs ∧
      ∀ k, e'.extra.stored k = [] := by
    refine ⟨_, rfl, ?_⟩
    by_cases hs : (e.inExtra && decide (e.size > 0)) = true
    · rw [if_pos hs]
      obtain ⟨b1, b2, b3, b4, _, _, b7⟩ := finalizeBlock_ok a1
      exact ⟨b1, b2, b3, b4, fun k => congrFun b7 k⟩
    · rw [if_neg hs]
      refine ⟨a1, fun _ => rfl, rfl, rfl, fun k => ?_⟩
      cases hin : e.inExtra with
      | true =>
        refine a1.size hin ?_ k
        simp only [hin, Bool.true_and, decide_eq_true_eq] at hs
        omega
      | false =>
        rw [(a1.noExtra hin).2]
        exact stored_empty k
  obtain ⟨e', he, b1, b2, b3, b4, b5⟩ := key
  rw [he]
  have hflat : ∀ k, (e'.main :: e'.extras).flatMap (Part.stored k) = toStore k 0 0 cells := by
    intro k
    have h1 := (b2 k).trans (a2 k)
    have h2 : (⟨initialTypes cells, .empty, .empty, false, [], [], 0, 0, 0⟩ : Enc P Q).flat k = [] := by
      simp [Enc.flat, stored_empty]
    rw [h2, List.nil_append] at h1
    simp only [Enc.flat, b5 k, List.append_nil] at h1
    rw [List.flatMap_cons, h1]
    by_cases hk : k ∈ order
    · rw [if_pos hk]
    · rw [if_neg hk]
      have := toStore_append (k := k) cells [] (fun x hx hxk => hk (hall x hx k hxk)) 0 0
      simp only [List.append_nil, toStore] at this
      exact this.symm
  refine ⟨?_, hd, e'.extras, rfl, ?_, fun k => ⟨fun _ => ⟨fun _ p hp => ?_, hflat k⟩, fun hno => ⟨fun _ => b1.main, ?_⟩⟩⟩
  · simp only
    rw [b3]
    refine List.ext_getElem? fun j => ?_
    rw [List.getElem?_map]
    cases hj : cells[j]? with
    | none =>
      rw [List.getElem?_eq_none_iff] at hj
      simp [a4, hj]
    | some c =>
      rw [a5 j c hj]
      cases hck : c.kind with
      | some k =>
        simp only [Option.map_some]
        rw [if_pos (hall c (List.mem_of_getElem? hj) k hck), typeByte_of_kind hck]
      | none =>
        simp only [initialTypes, List.getElem?_map, hj, Option.map_some]
        cases c with
        | unset => rfl
        | removed => rfl
        | objectId => cases hck
        | unit => cases hck
        | exprQuote => cases hck
        | plain => cases hck
  · rw [b4, a3]
    simp only [List.nil_append]
    by_cases hk : .exprQuote ∈ order
    · rw [if_pos hk]
    · rw [if_neg hk]
      have := exprsOf_append cells [] (fun x hx hxk => hk (hall x hx _ hxk))
      simp only [List.append_nil, exprsOf] at this
      rw [this]
  · rcases List.mem_cons.1 hp with rfl | hp
    · exact b1.main
    · exact b1.extras p hp
  · have h1 := hflat k
    have h2 := toStore_append (k := k) cells [] (fun x hx hxk => hno ⟨x, hx, hxk⟩) 0 0
    simp only [List.append_nil, toStore] at h2
    rw [h2, List.flatMap_cons] at h1
    exact (List.append_eq_nil_iff.1 h1).1

end Verif.S11n
