/-
The rules between leafs keep the invariant.
-/
import Verif.JsonSalvage.Invariant

namespace Verif.JsonSalvage

open Verif.JsonStream

variable {D : Defects} {raw : Prop} {o : Options}

theorem good_step {x z : List Nat} (h : AllGood o raw x) (hz : ∀ c ∈ z, c < 0x80) : AllGood o raw (x ++ z) :=
  allGood_append.mpr ⟨h, allGood_ascii hz⟩

/-- The start of a container. -/
theorem startNonKey_eq (s : Salvage) :
    s.startNonKey = { s with
      sep := false, key := false,
      output := s.output ++ (sepText s.stack s.sep s.key ++ if s.key then [ch '"', ch '"', ch ':'] else []) } := by
  unfold Salvage.startNonKey
  rw [startValue_eq]
  rcases h : s.key with _ | _ <;> simp [h, Salvage.emit]

theorem startNonKey_ready {s : Salvage} {x : List Nat} (h : Between D s.stack s.sep s.key x) :
    Ready D s.stack false (x ++ (sepText s.stack s.sep s.key ++ if s.key then [ch '"', ch '"', ch ':'] else [])) := by
  have := between_start h
  rcases hk : s.key with _ | _
  · rw [hk] at this
    simpa using this
  · rw [hk] at this
    simpa using ready_nonKey this

theorem nonKey_ascii (s : Salvage) :
    ∀ c ∈ sepText s.stack s.sep s.key ++ (if s.key then [ch '"', ch '"', ch ':'] else []), c < 0x80 := by
  intro c hc
  rcases List.mem_append.mp hc with h | h
  · exact sepText_ascii _ _ _ c h
  · split at h
    · simp at h; omega
    · simp at h

theorem endContainer_inv {s : Salvage} {pre : List Nat} (hg : AllGood o raw (pre ++ s.output))
    (hs : s.surrogate = none) (h : Between D s.stack s.sep s.key (pre ++ s.output)) (l : Option Nat) :
    Inv D raw o s.endContainer (pre ++ s.endContainer.output) l := by
  unfold Salvage.endContainer
  rcases hst : s.stack with _ | ⟨c, st⟩
  · rw [hst] at h
    refine inv_between (by exact hg) rfl rfl (by exact hs) ?_ l
    obtain ⟨_, _, h3⟩ := h
    simp only [Salvage.endValue, Salvage.set, hst]
    exact ⟨rfl, by simp, h3⟩
  · rw [hst] at h
    rcases c with _ | _
    · have hb := between_array_end h
      have hg' := good_step hg (z := [ch ']']) (by simp)
      simp only [endValue_eq, Salvage.emit]
      refine inv_between ?_ rfl rfl (by exact hs) ?_ l
      · simpa using hg'
      · simpa using hb
    · rcases hk : s.key with _ | _
      · rw [hk] at h
        obtain ⟨_, h⟩ := between_object_value h
        have hb := between_object_end h
        have hg' := good_step hg (z := ch ':' :: nullText ++ [ch '}']) (by simp [nullText])
        simp only [endValue_eq, Salvage.emit]
        refine inv_between ?_ rfl rfl (by exact hs) ?_ l
        · simpa [nullText] using hg'
        · simpa [nullText] using hb
      · rw [hk] at h
        have hb := between_object_end h
        have hg' := good_step hg (z := [ch '}']) (by simp)
        simp only [endValue_eq, Salvage.emit]
        refine inv_between ?_ rfl rfl (by exact hs) ?_ l
        · simpa using hg'
        · simpa using hb

theorem baseEmpty_inv {s : Salvage} {pre : List Nat} (hg : AllGood o raw (pre ++ s.output))
    (hst : s.state = .base) (hb : s.buffer = []) (hs : s.surrogate = none)
    (h : Between D s.stack s.sep s.key (pre ++ s.output)) (c : Option Nat) :
    Inv D raw o (baseEmpty o c s) (pre ++ (baseEmpty o c s).output) c := by
  have hstart := between_start h
  have hsep := sepText_ascii s.stack s.sep s.key
  rcases c with _ | c
  · exact inv_between hg hst hb hs h _
  simp only [baseEmpty]
  by_cases h1 : isWhitespace c = true ∨ c = ch ',' ∨ c = ch ':'
  · rw [if_pos h1]
    exact inv_between hg hst hb hs h _
  rw [if_neg h1]
  by_cases h2 : c = ch '#'
  · rw [if_pos h2]
    refine ⟨hg, ?_⟩
    simp only [StateInv, Salvage.set]
    exact ⟨hs, h⟩
  rw [if_neg h2]
  by_cases h3 : c = ch '/'
  · rw [if_pos h3]
    refine ⟨hg, ?_⟩
    subst h3
    simp only [StateInv, Salvage.push, hst, hb]
    exact ⟨hs, .plain (by simp [isSpecial]) h⟩
  rw [if_neg h3]
  by_cases h4 : c = ch ']' ∨ c = ch '}' ∨ c = ch ')'
  · rw [if_pos h4]
    exact endContainer_inv hg hs h _
  rw [if_neg h4]
  by_cases h5 : c = ch '{' ∧ s.mayNest o = true
  · rw [if_pos h5]
    simp only [Salvage.startObject, startNonKey_eq, Salvage.emit, Salvage.set]
    have hr := startNonKey_ready h
    refine inv_between ?_ rfl rfl (by exact hs) ?_ _
    · have := good_step (good_step hg (nonKey_ascii s)) (z := [ch '{']) (by simp)
      simpa using this
    · exact ⟨_, hr, by simp⟩
  rw [if_neg h5]
  by_cases h6 : (c = ch '[' ∨ c = ch '(') ∧ s.mayNest o = true
  · rw [if_pos h6]
    simp only [Salvage.startArray, startNonKey_eq, Salvage.emit, Salvage.set]
    have hr := startNonKey_ready h
    refine inv_between ?_ rfl rfl (by exact hs) ?_ _
    · have := good_step (good_step hg (nonKey_ascii s)) (z := [ch '[']) (by simp)
      simpa using this
    · exact ⟨rfl, _, hr, by simp⟩
  rw [if_neg h6]
  by_cases h7 : c = ch '"' ∨ c = ch '\''
  · rw [if_pos h7]
    simp only [startString_eq, Salvage.push]
    refine ⟨?_, ?_⟩
    · have := good_step (good_step hg hsep) (z := [ch '"']) (by simp)
      simpa using this
    · simp only [StateInv, hst]
      refine ⟨hs, .quote (y := pre ++ s.output ++ sepText s.stack s.sep s.key) ?_ rfl hstart ?_⟩
      · rcases h7 with rfl | rfl <;> simp [hb]
      · simp
  rw [if_neg h7]
  by_cases h8 : c = ch '`'
  · rw [if_pos h8]
    simp only [startValue_eq, Salvage.push]
    refine ⟨?_, ?_⟩
    · have := good_step hg hsep
      simpa using this
    · simp only [StateInv, hst]
      refine ⟨hs, .tick ?_ rfl ?_⟩
      · left; simp [hb, h8]
      · simpa using hstart
  rw [if_neg h8]
  by_cases h9 : s.key = false ∧ (c = ch '-' ∨ c = ch '+')
  · rw [if_pos h9]
    simp only [startValue_eq, Salvage.push]
    refine ⟨?_, ?_⟩
    · have := good_step hg hsep
      simpa using this
    · simp only [StateInv, hst]
      refine ⟨hs, .sign (c := c) (bs := []) (by simp [hb]) h9.2 (by simp) (.inl ⟨h9.1, rfl, ?_⟩)⟩
      rw [h9.1] at hstart ⊢
      simpa using hstart
  rw [if_neg h9]
  have hnum : s.key = false → ∀ z, (∀ d ∈ z, d < 0x80) → AllGood o raw (pre ++ (s.output ++ sepText s.stack s.sep s.key ++ z)) := by
    intro _ z hz
    have := good_step (good_step hg hsep) hz
    simpa using this
  by_cases h10 : s.key = false ∧ c = ch '0'
  · rw [if_pos h10]
    simp only [startValue_eq, Salvage.set]
    refine ⟨?_, ?_⟩
    · simpa using hnum h10.1 [] (by simp)
    · simp only [StateInv]
      refine ⟨hs, .inl rfl, pre ++ (s.output ++ sepText s.stack s.sep s.key), [], .inl ⟨h10.1, rfl, ?_⟩, .inl rfl, by simp⟩
      rw [h10.1] at hstart ⊢
      simpa using hstart
  rw [if_neg h10]
  by_cases h11 : s.key = false ∧ c = ch '.'
  · rw [if_pos h11]
    simp only [startValue_eq, Salvage.set, Salvage.emit]
    refine ⟨?_, ?_⟩
    · simpa using hnum h11.1 [ch '0', ch '.'] (by simp)
    · simp only [StateInv]
      refine ⟨hs, pre ++ (s.output ++ sepText s.stack s.sep s.key), [ch '0', ch '.'], .inl ⟨h11.1, rfl, ?_⟩,
        .dot (sg := []) (i := [ch '0']) (.inl rfl) (.inl rfl), by simp⟩
      rw [h11.1] at hstart ⊢
      simpa using hstart
  rw [if_neg h11]
  by_cases h12 : s.key = false ∧ isDigit19 (some c) = true
  · rw [if_pos h12]
    have hd : 49 ≤ c ∧ c ≤ 57 := by simpa [isDigit19] using h12.2
    simp only [startValue_eq, Salvage.set, Salvage.emit]
    refine ⟨?_, ?_⟩
    · simpa using hnum h12.1 [c] (by simp; omega)
    · simp only [StateInv]
      refine ⟨hs, pre ++ (s.output ++ sepText s.stack s.sep s.key), [c], .inl ⟨h12.1, rfl, ?_⟩,
        .int (sg := []) (.inl rfl) (digits_one (by omega)) (by simp; omega), by simp⟩
      rw [h12.1] at hstart ⊢
      simpa using hstart
  rw [if_neg h12]
  refine ⟨hg, ?_⟩
  simp only [StateInv, Salvage.push, hst]
  refine ⟨hs, ?_⟩
  by_cases h13 : c = ch '-' ∨ c = ch '+'
  · have hk : s.key = true := by
      rcases hk : s.key with _ | _
      · exact absurd ⟨hk, h13⟩ h9
      · rfl
    exact .sign (c := c) (bs := []) (by simp [hb]) h13 (by simp) (.inr ⟨hk, rfl, by rw [hk] at h; exact h⟩)
  · refine .plain ?_ h
    intro d hd
    simp [hb] at hd
    subst hd
    unfold isSpecial
    omega

/-- Where a leaf starts, or has started already. -/
theorem base_startable {s : Salvage} {x : List Nat} {last : Option Nat} (h : BaseInv D s x last) :
    (∃ y, x = y ++ [ch '"'] ∧ (s.buffer = [ch '"'] ∨ s.buffer = [ch '"', ch '"'] ∨ s.buffer = [ch '\''] ∨
      s.buffer = [ch '\'', ch '\''])) ∨ Ready D s.stack s.key (x ++ sepText s.stack s.sep s.key) := by
  cases h with
  | plain _ h => exact .inr (between_start h)
  | quote hb _ _ hx => exact .inl ⟨_, hx, hb⟩
  | tick _ hs h => right; simpa [sepText, hs] using h
  | sign _ _ _ h =>
    right
    rcases h with ⟨hk, hs, h⟩ | ⟨hk, _, h⟩
    · rw [hk]; simpa [sepText, hs] using h
    · rw [hk]; exact between_start h

/-- A string without quotes, which is or becomes complete. -/
theorem unquoted_text {s : Salvage} {pre : List Nat} (hg : AllGood o raw (pre ++ s.output))
    (hs : s.surrogate = none) (l : List Nat)
    (h : Ready D s.stack s.key (pre ++ s.output ++ sepText s.stack s.sep s.key)) :
    ∃ g z, s.startString.emitCodePoints o l =
        { s with sep := false, surrogate := g,
                 output := s.output ++ (sepText s.stack s.sep s.key ++ ch '"' :: z) } ∧
      SurrOk g ∧ LooseBody D.control z ∧
      AllGood o raw (pre ++ (s.output ++ (sepText s.stack s.sep s.key ++ ch '"' :: z))) := by
  obtain ⟨g, z, h1, h2, h3, h4⟩ := emitCodePoints_spec o raw D.control l s.startString
    (by rw [startString_eq]; simp [SurrOk, hs])
  refine ⟨g, z, ?_, h2, h3, ?_⟩
  · rw [h1, startString_eq]
    simp
  · have := allGood_append.mpr ⟨good_step (good_step hg (sepText_ascii s.stack s.sep s.key)) (z := [ch '"']) (by simp), h4⟩
    simpa using this

theorem endString_inv {s : Salvage} {pre y b : List Nat} (hg : AllGood o raw (pre ++ s.output))
    (hr : Ready D s.stack s.key y) (hb : LooseBody D.control b) (hx : pre ++ s.output = y ++ ch '"' :: b)
    (l : Option Nat) : Inv D raw o (s.endString o) (pre ++ (s.endString o).output) l := by
  obtain ⟨z, h1, h2, h3⟩ := endString_spec o raw D.control s
  rw [h1]
  refine inv_between ?_ rfl rfl rfl ?_ l
  · have := good_step (allGood_append.mpr ⟨hg, h3⟩) (z := [ch '"']) (by simp)
    simpa using this
  · have := ready_string hr (body_append hb h2)
    have e : pre ++ (s.output ++ (z ++ [ch '"'])) = y ++ quoted (b ++ z) := by
      rw [← List.append_assoc, hx]
      simp [quoted]
    simp only [e]
    exact this

theorem matchAtoms_mem {b : List Nat} {l : List (List Nat × List Nat)} {out : List Nat}
    (h : (matchAtoms b l).1 = some out) : ∃ a, (a, out) ∈ l := by
  induction l with
  | nil => simp [matchAtoms] at h
  | cons p l ih =>
    obtain ⟨a, out'⟩ := p
    simp only [matchAtoms] at h
    split at h
    · split at h
      · simp at h
        subst h
        exact ⟨a, by simp⟩
      · obtain ⟨a', ha⟩ := ih h
        exact ⟨a', by simp [ha]⟩
    · obtain ⟨a', ha⟩ := ih h
      exact ⟨a', by simp [ha]⟩

theorem atoms_loose {a out : List Nat} (h : (a, out) ∈ atoms o.allowNan) (hd : o.allowNan = true → D.nan) :
    Loose D .value out ∧ ∀ c ∈ out, c < 0x80 := by
  have nn : Loose D .value [ch 'n', ch 'u', ch 'l', ch 'l'] := .null
  have tt : Loose D .value [ch 't', ch 'r', ch 'u', ch 'e'] := .bool true
  have ff : Loose D .value [ch 'f', ch 'a', ch 'l', ch 's', ch 'e'] := .bool false
  unfold atoms at h
  rcases List.mem_append.mp h with h | h
  · simp at h
    rcases h with ⟨_, rfl⟩ | ⟨_, rfl⟩ | ⟨_, rfl⟩ | ⟨_, rfl⟩ <;> simp_all
  · rcases ha : o.allowNan with _ | _
    · simp [ha] at h
    · simp [ha] at h
      have hn := hd ha
      have h1 : Loose D .value [ch 'N', ch 'a', ch 'N'] := .nan hn
      have h2 : Loose D .value [ch 'I', ch 'n', ch 'f', ch 'i', ch 'n', ch 'i', ch 't', ch 'y'] := .infinity hn
      have h3 : Loose D .value [ch '-', ch 'I', ch 'n', ch 'f', ch 'i', ch 'n', ch 'i', ch 't', ch 'y'] :=
        .minusInfinity hn
      rcases h with ⟨_, rfl⟩ | ⟨_, rfl⟩ | ⟨_, rfl⟩ | ⟨_, rfl⟩ | ⟨_, rfl⟩ | ⟨_, rfl⟩ <;> simp_all

end Verif.JsonSalvage
