/-
Beginnings of texts: what has been written while containers are open.
-/
import Verif.JsonSalvage.Model
import Verif.JsonSalvage.Strict

namespace Verif.JsonSalvage

open Verif.JsonStream

variable {D : Defects}

/-- Members of an object and the key of the next one. -/
def OpenKey (D : Defects) (r : List Nat) : Prop :=
  ∀ t, Loose D .value t → Loose D .members (r ++ ch ':' :: t)

/-- A text after which a value, or a key, may be written at once. -/
def Ready (D : Defects) : List Container → Bool → List Nat → Prop
  | [], key, x => key = false ∧ (x = [] ∨ ∃ r, LooseDoc D r ∧ x = r ++ [nl])
  | .array :: st, key, x => key = false ∧ ∃ p, Ready D st false p ∧
      (x = p ++ [ch '['] ∨ ∃ r, Loose D .elems r ∧ x = p ++ ch '[' :: (r ++ [ch ',']))
  | .object :: st, true, x => ∃ p, Ready D st false p ∧
      (x = p ++ [ch '{'] ∨ ∃ r, Loose D .members r ∧ x = p ++ ch '{' :: (r ++ [ch ',']))
  | .object :: st, false, x => ∃ p, Ready D st false p ∧ ∃ r, OpenKey D r ∧ x = p ++ ch '{' :: (r ++ [ch ':'])

/-- A text between values. -/
def Between (D : Defects) : List Container → Bool → Bool → List Nat → Prop
  | [], sep, key, x => key = false ∧ (sep = false → x = []) ∧ LooseDoc D x
  | .array :: st, true, key, x => key = false ∧ ∃ p, Ready D st false p ∧
      ∃ r, Loose D .elems r ∧ x = p ++ ch '[' :: r
  | .array :: st, false, key, x => key = false ∧ ∃ p, Ready D st false p ∧ x = p ++ [ch '[']
  | .object :: st, true, true, x => ∃ p, Ready D st false p ∧ ∃ r, Loose D .members r ∧ x = p ++ ch '{' :: r
  | .object :: st, false, true, x => ∃ p, Ready D st false p ∧ x = p ++ [ch '{']
  | .object :: st, true, false, x => ∃ p, Ready D st false p ∧ ∃ r, OpenKey D r ∧ x = p ++ ch '{' :: r
  | .object :: _, false, false, _ => False

/-- `is_object_key_` after the end of a value. -/
def nextKey (st : List Container) (key : Bool) : Bool :=
  match st with
  | .object :: _ => !key
  | _ => key

def sepText (st : List Container) (sep key : Bool) : List Nat := if sep then [separator st key] else []

theorem between_start {st : List Container} {sep key : Bool} {x : List Nat} (h : Between D st sep key x) :
    Ready D st key (x ++ sepText st sep key) := by
  rcases st with _ | ⟨c, st⟩
  · obtain ⟨rfl, h1, h2⟩ := h
    refine ⟨rfl, ?_⟩
    rcases sep with _ | _
    · left; simp [sepText, h1 rfl]
    · right; exact ⟨x, h2, rfl⟩
  · rcases c with _ | _ <;> rcases sep with _ | _
    · obtain ⟨rfl, p, hp, rfl⟩ := h
      exact ⟨rfl, p, hp, Or.inl (by simp [sepText])⟩
    · obtain ⟨rfl, p, hp, r, hr, rfl⟩ := h
      exact ⟨rfl, p, hp, Or.inr ⟨r, hr, by simp [sepText, separator]⟩⟩
    · rcases key with _ | _
      · exact h.elim
      · obtain ⟨p, hp, rfl⟩ := h
        exact ⟨p, hp, Or.inl (by simp [sepText])⟩
    · rcases key with _ | _
      · obtain ⟨p, hp, r, hr, rfl⟩ := h
        exact ⟨p, hp, r, hr, by simp [sepText, separator]⟩
      · obtain ⟨p, hp, r, hr, rfl⟩ := h
        exact ⟨p, hp, Or.inr ⟨r, hr, by simp [sepText, separator]⟩⟩

theorem ready_value {st : List Container} {x t : List Nat} (h : Ready D st false x) (ht : Loose D .value t) :
    Between D st true (nextKey st false) (x ++ t) := by
  rcases st with _ | ⟨c, st⟩
  · obtain ⟨_, rfl | ⟨r, hr, rfl⟩⟩ := h
    · exact ⟨rfl, by simp, by simpa using LooseDoc.one ht⟩
    · exact ⟨rfl, by simp, by simpa using LooseDoc.next hr ht⟩
  · rcases c with _ | _
    · obtain ⟨_, p, hp, rfl | ⟨r, hr, rfl⟩⟩ := h
      · exact ⟨rfl, p, hp, t, .elem ht, by simp⟩
      · exact ⟨rfl, p, hp, _, .elems hr ht, by simp⟩
    · obtain ⟨p, hp, r, hr, rfl⟩ := h
      exact ⟨p, hp, _, hr t ht, by simp⟩

theorem openKey_first {k : List Nat} (h : Loose D .key k) : OpenKey D k :=
  fun _ ht => .one (.member h ht)

theorem openKey_next {r k : List Nat} (hr : Loose D .members r) (h : Loose D .key k) :
    OpenKey D (r ++ ch ',' :: k) := by
  intro t ht
  simpa using Loose.members hr (.member h ht)

theorem openKey_number {r k : List Nat} (hd : D.numberKey) (hr : Loose D .members r) (h : Loose D .key k) :
    OpenKey D (r ++ k) := by
  intro t ht
  simpa using Loose.noComma hd hr (.member h ht)

theorem ready_key {st : List Container} {x k : List Nat} (h : Ready D st true x) (hk : Loose D .key k) :
    Between D st true (nextKey st true) (x ++ k) := by
  rcases st with _ | ⟨c, st⟩
  · exact absurd h.1 (by simp)
  · rcases c with _ | _
    · exact absurd h.1 (by simp)
    · obtain ⟨p, hp, rfl | ⟨r, hr, rfl⟩⟩ := h
      · exact ⟨p, hp, k, openKey_first hk, by simp⟩
      · exact ⟨p, hp, _, openKey_next hr hk, by simp⟩

theorem ready_string {st : List Container} {key : Bool} {x b : List Nat} (h : Ready D st key x)
    (hb : LooseBody D.control b) : Between D st true (nextKey st key) (x ++ quoted b) := by
  rcases key with _ | _
  · exact ready_value h (.str hb)
  · exact ready_key h (.key hb)

theorem between_number_key {st : List Container} {sep : Bool} {x k : List Nat} (h : Between D st sep true x)
    (hd : D.numberKey) (hk : IsNumber k) : Between D st true (nextKey st true) (x ++ k) := by
  rcases st with _ | ⟨c, st⟩
  · exact absurd h.1 (by simp)
  · rcases c with _ | _
    · rcases sep with _ | _ <;> exact absurd h.1 (by simp)
    · rcases sep with _ | _
      · obtain ⟨p, hp, rfl⟩ := h
        exact ⟨p, hp, k, openKey_first (.numberKey hd hk), by simp⟩
      · obtain ⟨p, hp, r, hr, rfl⟩ := h
        exact ⟨p, hp, _, openKey_number hd hr (.numberKey hd hk), by simp⟩

theorem ready_nonKey {st : List Container} {x : List Nat} (h : Ready D st true x) :
    Ready D st false (x ++ [ch '"', ch '"', ch ':']) := by
  have hk : Loose D .key (quoted []) := .key .nil
  rcases st with _ | ⟨c, st⟩
  · exact absurd h.1 (by simp)
  · rcases c with _ | _
    · exact absurd h.1 (by simp)
    · obtain ⟨p, hp, rfl | ⟨r, hr, rfl⟩⟩ := h
      · exact ⟨p, hp, _, openKey_first hk, by simp [quoted]⟩
      · exact ⟨p, hp, _, openKey_next hr hk, by simp [quoted]⟩

/-- The end of a container is the end of a value in the container around it. -/
theorem between_array_end {st : List Container} {sep key : Bool} {x : List Nat}
    (h : Between D (.array :: st) sep key x) : Between D st true (nextKey st false) (x ++ [ch ']']) := by
  rcases sep with _ | _
  · obtain ⟨_, p, hp, rfl⟩ := h
    simpa using ready_value hp (D := D) .arrNil
  · obtain ⟨_, p, hp, r, hr, rfl⟩ := h
    simpa using ready_value hp (D := D) (.arr hr)

theorem between_object_end {st : List Container} {sep : Bool} {x : List Nat}
    (h : Between D (.object :: st) sep true x) : Between D st true (nextKey st false) (x ++ [ch '}']) := by
  rcases sep with _ | _
  · obtain ⟨p, hp, rfl⟩ := h
    simpa using ready_value hp (D := D) .objNil
  · obtain ⟨p, hp, r, hr, rfl⟩ := h
    simpa using ready_value hp (D := D) (.obj hr)

theorem between_object_value {st : List Container} {sep : Bool} {x : List Nat}
    (h : Between D (.object :: st) sep false x) :
    sep = true ∧ Between D (.object :: st) true true (x ++ ch ':' :: nullText) := by
  rcases sep with _ | _
  · exact h.elim
  · obtain ⟨p, hp, r, hr, rfl⟩ := h
    exact ⟨rfl, p, hp, _, hr _ .null, by simp⟩

/-- A separator is the same for the first flag in all containers. -/
theorem between_head {st : List Container} {sep key : Bool} {x : List Nat} (h : Between D st sep key x) :
    key = true → ∃ st', st = .object :: st' := by
  intro e
  rcases st with _ | ⟨c, st⟩
  · exact absurd (h.1.symm.trans e) (by simp)
  · rcases c with _ | _
    · rcases sep with _ | _ <;> exact absurd (h.1.symm.trans e) (by simp)
    · exact ⟨st, rfl⟩

theorem ready_head {st : List Container} {key : Bool} {x : List Nat} (h : Ready D st key x) :
    key = true → ∃ st', st = .object :: st' := by
  intro e
  rcases st with _ | ⟨c, st⟩
  · exact absurd (h.1.symm.trans e) (by simp)
  · rcases c with _ | _
    · exact absurd (h.1.symm.trans e) (by simp)
    · exact ⟨st, rfl⟩

/-- After the end of a value, all containers can be closed. -/
theorem close_after {st : List Container} {x : List Nat} (h : Between D st true (nextKey st false) x)
    (sep key : Bool) : LooseDoc D (x ++ closeAll st sep (if st.head? = some .object then true else key)) := by
  induction st generalizing x sep key with
  | nil => simpa [closeAll] using h.2.2
  | cons c st ih =>
    rcases c with _ | _
    · have := ih (between_array_end h) sep key
      simpa [closeAll] using this
    · have := ih (between_object_end h) sep true
      simpa [closeAll] using this

/-- All open containers can be closed. -/
theorem between_close {st : List Container} {sep key : Bool} {x : List Nat} (h : Between D st sep key x) :
    LooseDoc D (x ++ closeAll st sep key) := by
  rcases st with _ | ⟨c, st⟩
  · simpa [closeAll] using h.2.2
  · rcases c with _ | _
    · have := close_after (between_array_end h) sep key
      simpa [closeAll] using this
    · rcases key with _ | _
      · obtain ⟨rfl, h2⟩ := between_object_value h
        have := close_after (between_object_end h2) false false
        simpa [closeAll, nullText] using this
      · have := close_after (between_object_end h) sep true
        simpa [closeAll] using this

/-- The same after an empty string whose value was not ended. -/
theorem ready_close {st : List Container} {key : Bool} {x : List Nat} (h : Ready D st key x)
    (hd : D.unfinished) : LooseDoc D (x ++ [ch '"', ch '"'] ++ closeAll st false key) := by
  have hs : Loose D .value [ch '"', ch '"'] := .str .nil
  rcases st with _ | ⟨c, st⟩
  · obtain ⟨rfl, _⟩ := id h
    have := (ready_value h hs).2.2
    simpa [closeAll] using this
  · rcases c with _ | _
    · obtain ⟨rfl, _⟩ := id h
      have := close_after (between_array_end (ready_value h hs)) false false
      simpa [closeAll] using this
    · rcases key with _ | _
      · have := close_after (between_object_end (ready_value h (.nullAfterString hd))) false false
        simpa [closeAll, nullText, quoted] using this
      · obtain ⟨p, hp, rfl | ⟨r, hr, rfl⟩⟩ := h
        · have h2 : Between D (.object :: st) true true (p ++ ch '{' :: [ch '"', ch '"']) :=
            ⟨p, hp, _, .one (.keyOnly hd), rfl⟩
          have := close_after (between_object_end h2) false true
          simpa [closeAll] using this
        · have h2 : Between D (.object :: st) true true (p ++ ch '{' :: (r ++ ch ',' :: [ch '"', ch '"'])) :=
            ⟨p, hp, _, .members hr (.keyOnly hd), rfl⟩
          have := close_after (between_object_end h2) false true
          simpa [closeAll] using this

end Verif.JsonSalvage
