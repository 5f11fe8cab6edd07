import Verif.Stream.Spec

namespace Verif.Stream

set_option linter.unusedSectionVars false

variable {V S : Type}

/-! ### Chunks -/

theorem defaultChunkCapacity_pos (bytesize : Nat) : 0 < defaultChunkCapacity bytesize := by
  unfold defaultChunkCapacity
  split
  · rename_i h
    exact Nat.div_pos (by omega) (by omega)
  · omega

theorem updateBack_concat {α : Type} (f : α → α) (init : List α) (x : α) :
    updateBack f (init ++ [x]) = init ++ [f x] := by
  induction init with
  | nil => rfl
  | cons y ys ih =>
    cases ys with
    | nil => rfl
    | cons z zs =>
      show y :: updateBack f (z :: zs ++ [x]) = _
      rw [ih]
      rfl

/-- All slots, in order. -/
def flat (chunks : List (Chunk V)) : List (Option V) := chunks.flatMap Chunk.slots

theorem flat_append (a b : List (Chunk V)) : flat (a ++ b) = flat a ++ flat b := by
  simp [flat]

theorem flat_single (c : Chunk V) : flat [c] = c.slots := by simp [flat]

theorem flat_get (chunks : List (Chunk V)) (i o : Nat) (c : Chunk V) (hc : chunks[i]? = some c)
    (ho : o < c.capacity) :
    (flat chunks)[(flat (chunks.take i)).length + o]? = c.slots[o]? := by
  have hi := (List.getElem?_eq_some_iff.1 hc).1
  have hsplit : chunks = chunks.take i ++ (c :: chunks.drop (i + 1)) := by
    have : chunks.drop i = c :: chunks.drop (i + 1) := by
      rw [List.drop_eq_getElem_cons hi]
      congr 1
      exact (List.getElem?_eq_some_iff.1 hc).2
    rw [← this, List.take_append_drop]
  have hf : flat chunks = flat (chunks.take i) ++ (c.slots ++ flat (chunks.drop (i + 1))) := by
    conv => lhs; rw [hsplit]
    rw [flat_append]
    rfl
  rw [hf, List.getElem?_append_right (by omega), Nat.add_sub_cancel_left,
    List.getElem?_append_left ho]

theorem flat_take_succ (chunks : List (Chunk V)) (i : Nat) (c : Chunk V)
    (hc : chunks[i]? = some c) :
    (flat (chunks.take (i + 1))).length = (flat (chunks.take i)).length + c.capacity := by
  rw [List.take_add_one, hc]
  show (flat (chunks.take i ++ [c])).length = _
  rw [flat_append, List.length_append, flat_single]
  rfl

theorem flat_take_le (chunks : List (Chunk V)) (i : Nat) :
    (flat (chunks.take i)).length ≤ (flat chunks).length := by
  conv => rhs; rw [← List.take_append_drop i chunks, flat_append, List.length_append]
  omega

/-- The slots hold the items `ws`. -/
structure Holds (s : StreamImpl V S) (ws : List V) : Prop where
  positive : ∀ c ∈ s.chunks, 0 < c.capacity
  default : 0 < s.defaultCapacity
  fits : ∀ back, s.chunks.getLast? = some back → s.lastChunkSize ≤ back.capacity
  none : s.chunks = [] → s.lastChunkSize = 0
  first : s.lastChunkSize = 0 → s.chunks.length ≤ 1
  length : ws.length = (flat s.chunks.dropLast).length + s.lastChunkSize
  values : ∀ (k : Nat) (v : V), ws[k]? = some v → (flat s.chunks)[k]? = some (some v)

theorem holds_new (bytesize initialCapacity : Nat) :
    Holds (StreamImpl.new bytesize initialCapacity : StreamImpl V S) [] := by
  unfold StreamImpl.new
  constructor
  · intro c hc
    simp only at hc
    split at hc
    · rename_i h
      rw [List.mem_singleton] at hc
      subst hc
      simpa [Chunk.capacity, Chunk.new] using h
    · cases hc
  · exact defaultChunkCapacity_pos _
  · intro back _
    exact Nat.zero_le _
  · intro _
    rfl
  · intro _
    simp only
    split <;> simp
  · simp only
    split <;> rfl
  · intro k v h
    cases h

theorem setRef_capacity (c : Chunk V) (i : Nat) (v : V) : (c.setRef i v).capacity = c.capacity := by
  simp [Chunk.setRef, Chunk.capacity]

theorem new_capacity (n : Nat) : (Chunk.new n : Chunk V).capacity = n := by
  simp [Chunk.new, Chunk.capacity]

/-- Writing into the last chunk. -/
theorem holds_set (d : Nat) (st : Option S) (cbs : List Nat) (init : List (Chunk V)) (c : Chunk V)
    (size : Nat) (ws : List V) (v : V)
    (hpos : ∀ c' ∈ init ++ [c], 0 < c'.capacity) (hd : 0 < d) (hlt : size < c.capacity)
    (hlen : ws.length = (flat init).length + size)
    (hval : ∀ (k : Nat) (v : V), ws[k]? = some v → (flat (init ++ [c]))[k]? = some (some v)) :
    Holds (⟨d, init ++ [c.setRef size v], size + 1, st, cbs⟩ : StreamImpl V S) (ws ++ [v]) := by
  constructor
  · intro c' hc'
    simp only [List.mem_append, List.mem_singleton] at hc'
    rcases hc' with h | rfl
    · exact hpos c' (by simp [h])
    · rw [setRef_capacity]
      exact hpos c (by simp)
  · exact hd
  · intro back hb
    simp only [List.getLast?_append, List.getLast?_singleton, Option.some_or,
      Option.some.injEq] at hb
    subst hb
    rw [setRef_capacity]
    show size + 1 ≤ _
    omega
  · intro h
    simp at h
  · intro h
    cases h
  · show _ = (flat (init ++ [c.setRef size v]).dropLast).length + (size + 1)
    rw [List.dropLast_concat, List.length_append, hlen]
    simp only [List.length_singleton]
    omega
  · intro k u hk
    show (flat (init ++ [c.setRef size v]))[k]? = _
    rw [flat_append, flat_single]
    by_cases hkl : k < ws.length
    · rw [List.getElem?_append_left hkl] at hk
      have := hval k u hk
      rw [flat_append, flat_single] at this
      by_cases hki : k < (flat init).length
      · rw [List.getElem?_append_left hki] at this ⊢
        exact this
      · rw [List.getElem?_append_right (by omega)] at this ⊢
        show (c.slots.set size (some v))[_]? = _
        rw [List.getElem?_set_ne (by omega)]
        exact this
    · have hkeq : k = ws.length := by
        have := (List.getElem?_eq_some_iff.1 hk).1
        simp only [List.length_append, List.length_singleton] at this
        omega
      subst hkeq
      rw [List.getElem?_append_right (by omega), Nat.sub_self] at hk
      cases hk
      rw [List.getElem?_append_right (by omega)]
      show (c.slots.set size (some v))[_]? = _
      have : ws.length - (flat init).length = size := by omega
      rw [this, List.getElem?_set_self (by exact hlt)]

theorem holds_append (s : StreamImpl V S) (ws : List V) (v : V) (h : Holds s ws) :
    Holds (s.append v) (ws ++ [v]) := by
  obtain ⟨d, chunks, size, st, cbs⟩ := s
  have hnew : ∀ chunks' : List (Chunk V), (∀ c' ∈ chunks', 0 < c'.capacity) → 0 < d →
      ws.length = (flat chunks').length →
      (∀ (k : Nat) (v : V), ws[k]? = some v → (flat chunks')[k]? = some (some v)) →
      Holds (⟨d, updateBack (fun back => back.setRef 0 v) (chunks' ++ [Chunk.new d]), 0 + 1, st,
        cbs⟩ : StreamImpl V S) (ws ++ [v]) := by
    intro chunks' hpos hd hlen hval
    rw [updateBack_concat]
    refine holds_set d st cbs chunks' (Chunk.new d) 0 ws v ?_ hd ?_ (by omega) ?_
    · intro c' hc'
      simp only [List.mem_append, List.mem_singleton] at hc'
      rcases hc' with h | rfl
      · exact hpos c' h
      · rw [new_capacity]; exact hd
    · rw [new_capacity]; exact hd
    · intro k u hk
      rw [flat_append, List.getElem?_append_left]
      · exact hval k u hk
      · rw [← hlen]
        exact (List.getElem?_eq_some_iff.1 hk).1
  unfold StreamImpl.append
  rcases List.eq_nil_or_concat chunks with rfl | ⟨init, back, rfl⟩
  · have h0 := h.none rfl
    have hl := h.length
    simp only at h0
    subst h0
    have hws : ws = [] := List.length_eq_zero_iff.1 (by rw [hl]; rfl)
    subst hws
    exact hnew [] (by simp) h.default rfl (by simp)
  · rw [List.concat_eq_append] at h ⊢
    have hfit := h.fits back (by simp)
    have hlen := h.length
    simp only [List.dropLast_concat] at hlen hfit
    simp only [List.getLast?_append, List.getLast?_singleton, Option.some_or]
    by_cases hf : back.capacity = size
    · simp only [hf, beq_self_eq_true, if_true]
      refine hnew (init ++ [back]) h.positive h.default ?_ h.values
      rw [flat_append, flat_single, List.length_append, hlen, ← hf]
      rfl
    · have hbf : (back.capacity == size) = false := by simpa using hf
      simp only [hbf, Bool.false_eq_true, if_false]
      rw [updateBack_concat]
      exact holds_set d st cbs init back size ws v h.positive h.default (by omega) hlen h.values

/-! ### Readers -/

/-- A reader at position `n`. -/
def Place (s : StreamImpl V S) (r : Reader) (n : Nat) : Prop :=
  (r.chunk = none ∧ r.nextChunkIndex = 0 ∧ r.offset = 0 ∧ n = 0) ∨
  ∃ (i : Nat) (c : Chunk V), r.chunk = some i ∧ s.chunks[i]? = some c ∧ r.nextChunkIndex = i + 1 ∧
    r.offset ≤ c.capacity ∧ (i + 1 = s.chunks.length → r.offset ≤ s.lastChunkSize) ∧
    n = (flat (s.chunks.take i)).length + r.offset

/-- What a reader knows is true. -/
def Knows (s : StreamImpl V S) (r : Reader) : Prop :=
  (r.chunk = none → r.knownSize = 0) ∧
  ∀ (i : Nat) (c : Chunk V), r.chunk = some i → s.chunks[i]? = some c → r.offset ≤ r.knownSize ∧
    r.knownSize ≤ c.capacity ∧ (i + 1 = s.chunks.length → r.knownSize ≤ s.lastChunkSize)

/-- A reader at position `n` with what it knows. -/
def At (s : StreamImpl V S) (r : Reader) (n : Nat) : Prop := Place s r n ∧ Knows s r

theorem at_new (s : StreamImpl V S) : At s {} 0 :=
  ⟨.inl ⟨rfl, rfl, rfl, rfl⟩, fun _ => rfl, fun i c h => by cases h⟩

/-- The items of a chunk that is not the last one are all there. -/
theorem known_le (s : StreamImpl V S) (ws : List V) (h : Holds s ws) (i : Nat) (c : Chunk V)
    (hc : s.chunks[i]? = some c) (k : Nat) (hk : k ≤ c.capacity)
    (hl : i + 1 = s.chunks.length → k ≤ s.lastChunkSize) :
    (flat (s.chunks.take i)).length + k ≤ ws.length := by
  have hi := (List.getElem?_eq_some_iff.1 hc).1
  rw [h.length, List.dropLast_eq_take]
  by_cases he : i + 1 = s.chunks.length
  · have : s.chunks.length - 1 = i := by omega
    rw [this]
    have := hl he
    omega
  · have hs := flat_take_succ s.chunks i c hc
    have hle := flat_take_le (s.chunks.take (s.chunks.length - 1)) (i + 1)
    rw [List.take_take, Nat.min_eq_left (by omega)] at hle
    omega

theorem place_le (s : StreamImpl V S) (ws : List V) (h : Holds s ws) (r : Reader) (n : Nat)
    (hr : Place s r n) : n ≤ ws.length := by
  rcases hr with ⟨_, _, _, h4⟩ | ⟨i, c, _, h2, _, h4, h5, h6⟩
  · omega
  · have := known_le s ws h i c h2 r.offset h4 h5
    omega

theorem current_some (s : StreamImpl V S) (r : Reader) (i : Nat) (c : Chunk V)
    (hr : r.chunk = some i) (hc : s.chunks[i]? = some c) : r.current s = c := by
  unfold Reader.current
  rw [hr]
  simp only
  rw [hc]
  rfl

theorem current_none (s : StreamImpl V S) (r : Reader) (hr : r.chunk = none) :
    (r.current s).capacity = 0 := by
  unfold Reader.current
  rw [hr]
  exact new_capacity 0

theorem next_item (s : StreamImpl V S) (ws : List V) (h : Holds s ws) (r : Reader) (n : Nat)
    (hr : At s r n) (hlt : r.offset < r.knownSize) :
    ∃ v, ws[n]? = some v ∧ r.next s = ({ r with offset := r.offset + 1 }, .item v) ∧
      At s { r with offset := r.offset + 1 } (n + 1) := by
  obtain ⟨hp, hk⟩ := hr
  rcases hp with ⟨h1, _, h3, _⟩ | ⟨i, c, h1, h2, h3, h4, h5, h6⟩
  · have := hk.1 h1
    omega
  · obtain ⟨k1, k2, k3⟩ := hk.2 i c h1 h2
    have hle := known_le s ws h i c h2 r.knownSize k2 k3
    have hn : n < ws.length := by omega
    have hg := List.getElem?_eq_getElem hn
    refine ⟨ws[n], hg, ?_, ?_⟩
    · have hv := h.values n ws[n] hg
      have hf := flat_get s.chunks i r.offset c h2 (by omega)
      rw [← h6, hv] at hf
      have hget : c.getRef r.offset = some ws[n] := by
        unfold Chunk.getRef
        rw [← hf]
        rfl
      unfold Reader.next
      rw [current_some s r i c h1 h2, hget]
    · refine ⟨.inr ⟨i, c, h1, h2, h3, ?_, ?_, ?_⟩, ?_, ?_⟩
      · show r.offset + 1 ≤ _
        omega
      · intro he
        have := k3 he
        show r.offset + 1 ≤ _
        omega
      · show n + 1 = _ + (r.offset + 1)
        omega
      · intro hn
        have : r.chunk = none := hn
        rw [h1] at this
        cases this
      · intro j c' hj hc'
        have hj : r.chunk = some j := hj
        rw [h1] at hj
        cases hj
        rw [h2] at hc'
        cases hc'
        exact ⟨hlt, k2, k3⟩

/-- The first half of an update: the reader is at a chunk with more room, or at the last one. -/
theorem advance_place (s : StreamImpl V S) (ws : List V) (h : Holds s ws) (r : Reader) (n : Nat)
    (hr : Place s r n) :
    Place s (r.advance s) n ∧ ((r.advance s).chunk = none → s.chunks = []) ∧
    ∀ (i : Nat) (c : Chunk V), (r.advance s).chunk = some i → s.chunks[i]? = some c →
      i + 1 ≠ s.chunks.length → (r.advance s).offset < c.capacity := by
  unfold Reader.advance
  rcases hr with ⟨h1, h2, h3, h4⟩ | ⟨i, c, h1, h2, h3, h4, h5, h6⟩
  · rw [current_none s r h1, h2, h3]
    by_cases hl : 0 < s.chunks.length
    · rw [if_pos ⟨rfl, hl⟩]
      refine ⟨.inr ⟨0, s.chunks[0], rfl, List.getElem?_eq_getElem hl, rfl, Nat.zero_le _,
        fun _ => Nat.zero_le _, by rw [h4]; rfl⟩, (fun hn => by cases hn), ?_⟩
      intro i c _ hc _
      exact h.positive c (List.mem_of_getElem? hc)
    · rw [if_neg (fun hh => hl hh.2)]
      refine ⟨.inl ⟨h1, h2, h3, h4⟩, fun _ => List.length_eq_zero_iff.1 (by omega), ?_⟩
      intro i c hi
      rw [h1] at hi
      cases hi
  · rw [current_some s r i c h1 h2]
    by_cases hcond : r.offset = c.capacity ∧ r.nextChunkIndex < s.chunks.length
    · rw [if_pos hcond]
      have hlt : i + 1 < s.chunks.length := by omega
      have hsucc := flat_take_succ s.chunks i c h2
      refine ⟨.inr ⟨i + 1, s.chunks[i + 1], by rw [h3], List.getElem?_eq_getElem hlt,
        by rw [h3], Nat.zero_le _, fun _ => Nat.zero_le _, ?_⟩, (fun hn => by cases hn), ?_⟩
      · show n = _ + 0
        omega
      · intro i c _ hc _
        exact h.positive c (List.mem_of_getElem? hc)
    · rw [if_neg hcond]
      refine ⟨.inr ⟨i, c, h1, h2, h3, h4, h5, h6⟩, ?_, ?_⟩
      · intro hn
        rw [h1] at hn
        cases hn
      · intro j c' hj hc' hne
        rw [h1] at hj
        cases hj
        rw [h2] at hc'
        cases hc'
        have := (List.getElem?_eq_some_iff.1 h2).1
        omega

/-- After an update the reader knows if there is an item. -/
theorem update_at (s : StreamImpl V S) (ws : List V) (h : Holds s ws) (r : Reader) (n : Nat)
    (hr : Place s r n) :
    At s (r.update s) n ∧ ((r.update s).offset < (r.update s).knownSize ↔ n < ws.length) ∧
      (r.update s).offset ≤ (r.update s).knownSize := by
  obtain ⟨hp, hn, ho⟩ := advance_place s ws h r n hr
  unfold Reader.update Reader.learn
  generalize r.advance s = q at hp hn ho
  rcases hp with ⟨h1, h2, h3, h4⟩ | ⟨i, c, h1, h2, h3, h4, h5, h6⟩
  · have hc := hn h1
    have hz := h.none hc
    rw [if_pos (by rw [h2, hc]; rfl)]
    refine ⟨⟨.inl ⟨h1, h2, h3, h4⟩, fun _ => hz, ?_⟩, ?_, ?_⟩
    · intro i c hi
      have : q.chunk = some i := hi
      rw [h1] at this
      cases this
    · have hlen := h.length
      rw [hc, hz] at hlen
      show q.offset < s.lastChunkSize ↔ _
      rw [h3, hz, h4, hlen]
      rfl
    · show q.offset ≤ _
      rw [h3]
      exact Nat.zero_le _
  · have hi := (List.getElem?_eq_some_iff.1 h2).1
    have hlen := h.length
    rw [List.dropLast_eq_take] at hlen
    by_cases he : i + 1 = s.chunks.length
    · rw [if_pos (by rw [h3]; exact he)]
      have hback : s.chunks.getLast? = some c := by
        rw [List.getLast?_eq_getElem?, ← h2]
        congr 1
        omega
      have hfit := h.fits c hback
      have hi' : s.chunks.length - 1 = i := by omega
      rw [hi'] at hlen
      refine ⟨⟨.inr ⟨i, c, h1, h2, h3, h4, h5, h6⟩, ?_, ?_⟩, ?_, h5 he⟩
      · intro hn'
        have : q.chunk = none := hn'
        rw [h1] at this
        cases this
      · intro j c' hj hc'
        have hj : q.chunk = some j := hj
        rw [h1] at hj
        cases hj
        rw [h2] at hc'
        cases hc'
        exact ⟨h5 he, hfit, fun _ => Nat.le_refl _⟩
      · show q.offset < s.lastChunkSize ↔ _
        omega
    · rw [if_neg (by rw [h3]; exact he), current_some s q i c h1 h2]
      have hlt := ho i c h1 h2 he
      refine ⟨⟨.inr ⟨i, c, h1, h2, h3, h4, h5, h6⟩, ?_, ?_⟩, ?_, h4⟩
      · intro hn'
        have : q.chunk = none := hn'
        rw [h1] at this
        cases this
      · intro j c' hj hc'
        have hj : q.chunk = some j := hj
        rw [h1] at hj
        cases hj
        rw [h2] at hc'
        cases hc'
        exact ⟨h4, Nat.le_refl _, fun he' => absurd he' he⟩
      · show q.offset < c.capacity ↔ _
        have := known_le s ws h i c h2 c.capacity (Nat.le_refl _) (fun he' => absurd he' he)
        omega

theorem tryRead_spec (s : StreamImpl V S) (ws : List V) (h : Holds s ws) (r : Reader) (n : Nat)
    (hr : At s r n) :
    (r.tryRead s).2 = (match ws[n]? with
      | some v => .item v
      | none => match s.status with
        | some status => .closed status
        | none => .empty) ∧
    At s (r.tryRead s).1 (if n < ws.length then n + 1 else n) := by
  unfold Reader.tryRead
  split
  · rename_i hlt
    obtain ⟨v, hv, hnext, hat⟩ := next_item s ws h r n hr hlt
    rw [hnext, hv]
    refine ⟨rfl, ?_⟩
    rw [if_pos (List.getElem?_eq_some_iff.1 hv).1]
    exact hat
  · obtain ⟨hat, hiff, _⟩ := update_at s ws h r n hr.1
    simp only
    split
    · rename_i hlt
      obtain ⟨v, hv, hnext, hat'⟩ := next_item s ws h _ n hat hlt
      rw [hnext, hv]
      refine ⟨rfl, ?_⟩
      rw [if_pos (List.getElem?_eq_some_iff.1 hv).1]
      exact (update_at s ws h _ (n + 1) hat'.1).1
    · rename_i hlt
      have hge : ¬ n < ws.length := fun hh => hlt (hiff.2 hh)
      rw [List.getElem?_eq_none (by omega), if_neg hge]
      cases s.status with
      | none => exact ⟨rfl, hat⟩
      | some status => exact ⟨rfl, hat⟩

theorem subscribe_spec (s : StreamImpl V S) (ws : List V) (h : Holds s ws) (r : Reader) (n : Nat)
    (hr : At s r n) (cb : Nat) :
    (r.subscribe s cb).1 =
      (if s.status = none ∧ n = ws.length then { s with callbacks := s.callbacks ++ [cb] } else s) ∧
    At s (r.subscribe s cb).2.1 n ∧
    ((r.subscribe s cb).2.2 = true ↔ ¬ (s.status = none ∧ n = ws.length)) := by
  unfold Reader.subscribe
  cases hs : s.status with
  | some status =>
    refine ⟨?_, hr, ?_⟩
    · simp
    · simp
  | none =>
    obtain ⟨hat, hiff, hle⟩ := update_at s ws h r n hr.1
    have hn := place_le s ws h r n hr.1
    simp only [Option.isSome_none, Bool.false_eq_true, if_false, true_and]
    split
    · rename_i he
      have hnl : n = ws.length := by
        apply Classical.byContradiction
        intro hne
        have := hiff.2 (by omega)
        omega
      rw [if_pos hnl]
      exact ⟨rfl, hat, by simp [hnl]⟩
    · rename_i he
      have hnl : n ≠ ws.length := by
        intro hnl
        have := hiff.1 (by omega)
        omega
      rw [if_neg hnl]
      exact ⟨rfl, hat, by simp [hnl]⟩

/-! ### Changes of the stream keep readers -/

/-- The stream grows: chunks keep their place and capacity. -/
theorem place_grow (s s' : StreamImpl V S) (r : Reader) (n : Nat) (hr : At s r n)
    (hchunks : ∀ (i : Nat) (c : Chunk V), s.chunks[i]? = some c →
      ∃ c', s'.chunks[i]? = some c' ∧ c'.capacity = c.capacity)
    (hflat : ∀ i : Nat, i < s.chunks.length →
      (flat (s'.chunks.take i)).length = (flat (s.chunks.take i)).length)
    (hlast : ∀ i : Nat, i + 1 = s'.chunks.length → i + 1 ≠ s.chunks.length →
      ¬ i < s.chunks.length)
    (hsize : s'.chunks.length = s.chunks.length → s.lastChunkSize ≤ s'.lastChunkSize) :
    At s' r n := by
  obtain ⟨hp, hk⟩ := hr
  rcases hp with ⟨h1, h2, h3, h4⟩ | ⟨i, c, h1, h2, h3, h4, h5, h6⟩
  · refine ⟨.inl ⟨h1, h2, h3, h4⟩, hk.1, ?_⟩
    intro i c hi
    rw [h1] at hi
    cases hi
  · obtain ⟨c', hc', hcap⟩ := hchunks i c h2
    have hi := (List.getElem?_eq_some_iff.1 h2).1
    obtain ⟨k1, k2, k3⟩ := hk.2 i c h1 h2
    have hl : i + 1 = s'.chunks.length → r.knownSize ≤ s'.lastChunkSize := by
      intro he
      by_cases he' : i + 1 = s.chunks.length
      · have := hsize (by omega)
        have := k3 he'
        omega
      · exact absurd hi (hlast i he he')
    refine ⟨.inr ⟨i, c', h1, hc', h3, by omega, ?_, ?_⟩, hk.1, ?_⟩
    · intro he
      have := hl he
      omega
    · rw [hflat i hi]
      exact h6
    · intro j c'' hj hc''
      rw [h1] at hj
      cases hj
      rw [hc'] at hc''
      cases hc''
      exact ⟨k1, by omega, hl⟩

theorem append_at (s : StreamImpl V S) (v : V) (r : Reader) (n : Nat)
    (hr : At s r n) : At (s.append v) r n := by
  have hshape : ∃ rest : List (Chunk V), ∃ init back size, s.chunks ++ rest = init ++ [back] ∧
      (s.append v).chunks = init ++ [back.setRef size v] ∧
      (rest = [] → s.lastChunkSize ≤ (s.append v).lastChunkSize) ∧
      (rest = [] ∨ (∃ x, rest = [x])) := by
    unfold StreamImpl.append
    rcases List.eq_nil_or_concat s.chunks with hc | ⟨init, back, hc⟩
    · rw [hc]
      exact ⟨[Chunk.new s.defaultCapacity], [], Chunk.new s.defaultCapacity, 0, rfl, rfl,
        fun hh => by simp at hh, .inr ⟨_, rfl⟩⟩
    · rw [List.concat_eq_append] at hc
      rw [hc]
      simp only [List.getLast?_append, List.getLast?_singleton, Option.some_or]
      by_cases hf : back.capacity = s.lastChunkSize
      · simp only [hf, beq_self_eq_true, if_true]
        rw [updateBack_concat]
        exact ⟨[Chunk.new s.defaultCapacity], init ++ [back], Chunk.new s.defaultCapacity, 0, rfl,
          rfl, fun hh => by simp at hh, .inr ⟨_, rfl⟩⟩
      · have hbf : (back.capacity == s.lastChunkSize) = false := by simpa using hf
        simp only [hbf, Bool.false_eq_true, if_false]
        rw [updateBack_concat]
        exact ⟨[], init, back, s.lastChunkSize, by simp, rfl, fun _ => Nat.le_succ _, .inl rfl⟩
  obtain ⟨rest, init, back, size, hs, hs', hlast, hrest⟩ := hshape
  have hlen : (s.append v).chunks.length = s.chunks.length + rest.length := by
    have := congrArg List.length hs
    simp only [List.length_append, List.length_singleton] at this
    rw [hs']
    simp only [List.length_append, List.length_singleton]
    omega
  have hget : ∀ (i : Nat) (c : Chunk V), s.chunks[i]? = some c →
      ∃ c', (s.append v).chunks[i]? = some c' ∧ c'.capacity = c.capacity := by
    intro i c hc
    have hi := (List.getElem?_eq_some_iff.1 hc).1
    have : (init ++ [back])[i]? = some c := by
      rw [← hs, List.getElem?_append_left hi]
      exact hc
    rw [hs']
    by_cases hin : i < init.length
    · rw [List.getElem?_append_left hin] at this ⊢
      exact ⟨c, this, rfl⟩
    · have hie : i = init.length := by
        have := (List.getElem?_eq_some_iff.1 this).1
        simp only [List.length_append, List.length_singleton] at this
        omega
      subst hie
      simp only [List.getElem?_concat_length, Option.some.injEq] at this ⊢
      subst this
      exact ⟨_, rfl, setRef_capacity back size v⟩
  apply place_grow s (s.append v) r n hr hget
  · intro i hi
    have h1 : (s.append v).chunks.take i = init.take i := by
      have := congrArg List.length hs
      simp only [List.length_append, List.length_singleton] at this
      rw [hs', List.take_append_of_le_length (by omega)]
    have h2 : s.chunks.take i = init.take i := by
      have := congrArg List.length hs
      simp only [List.length_append, List.length_singleton] at this
      have h3 := congrArg (List.take i) hs
      rw [List.take_append_of_le_length (by omega), List.take_append_of_le_length (by omega)] at h3
      exact h3
    rw [h1, h2]
  · intro i h1 h2 h3
    rcases hrest with rfl | ⟨x, rfl⟩
    · rw [List.length_nil] at hlen
      omega
    · rw [List.length_singleton] at hlen
      omega
  · intro he
    apply hlast
    apply List.length_eq_zero_iff.1
    omega

end Verif.Stream
