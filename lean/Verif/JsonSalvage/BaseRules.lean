/-
The rules between leafs keep the invariant, continued.
-/
import Verif.JsonSalvage.Base

namespace Verif.JsonSalvage

open Verif.JsonStream

variable {D : Defects} {raw : Prop} {o : Options}

/-- A buffer that begins with a backtick is not the beginning of an atom. -/
theorem tick_no_atom (bs : List Nat) (n : Bool) : matchAtoms (ch '`' :: bs) (atoms n) = (none, false) := by
  cases n <;> simp [matchAtoms, atoms, anycasePrefix, toLower]

/-- A string state after the code points of the buffer. -/
theorem unquoted_inv {s : Salvage} {pre : List Nat} {last : Option Nat} (hg : AllGood o raw (pre ++ s.output))
    (hs : s.surrogate = none) (l : List Nat)
    (h : Ready D s.stack s.key (pre ++ s.output ++ sepText s.stack s.sep s.key)) :
    Inv D raw o ((s.startString.emitCodePoints o l).set .unquoted [])
      (pre ++ ((s.startString.emitCodePoints o l).set .unquoted []).output) last := by
  obtain ⟨g, z, h1, h2, h3, h4⟩ := unquoted_text hg hs l h
  rw [h1]
  refine ⟨h4, ?_⟩
  simp only [StateInv, Salvage.set]
  exact ⟨h2, rfl, by simp, by simp, _, z, h, h3, by simp⟩

/-- Atoms, prefixes and strings without quotes. -/
theorem baseAtom_inv {s : Salvage} {pre : List Nat} {last : Option Nat} {d : Nat}
    (hd : o.allowNan = true → D.nan)
    (hg : AllGood o raw (pre ++ s.output)) (hst : s.state = .base) (hs : s.surrogate = none)
    (hi : BaseInv D s (pre ++ s.output) last) (hne : s.buffer ≠ [])
    (hr : Ready D s.stack s.key (pre ++ s.output ++ sepText s.stack s.sep s.key)) :
    Post D raw o pre (some d) (baseAtom o (s.push d)) := by
  unfold baseAtom
  have hk : (s.push d).key = s.key := rfl
  have hr' : Ready D (s.push d).stack (s.push d).key (pre ++ (s.push d).output ++
    sepText (s.push d).stack (s.push d).sep (s.push d).key) := hr
  rcases hm : (if (s.push d).key = true then ((none, false) : Option (List Nat) × Bool)
      else matchAtoms (s.push d).buffer (atoms o.allowNan)) with ⟨m1, m2⟩
  rcases m1 with _ | out
  · simp only
    by_cases hm2 : m2 = true
    · -- the beginning of an atom
      simp only [hm2, if_true]
      have hkf : s.key = false := by
        rcases hk' : s.key with _ | _
        · rfl
        · simp [hk, hk', hm2] at hm
      refine post_one ⟨hg, ?_⟩
      simp only [StateInv, Salvage.push, hst]
      refine ⟨hs, ?_⟩
      cases hi with
      | plain h1 h2 =>
        refine .plain ?_ h2
        intro c hc
        rcases hb : s.buffer with _ | ⟨b, bs⟩
        · exact absurd hb hne
        · simp [hb] at hc
          subst hc
          exact h1 b (by simp [hb])
      | quote h1 h2 h3 h4 =>
        exfalso
        simp only [hkf, Salvage.push] at hm
        rcases h1 with h1 | h1 | h1 | h1 <;> rw [h1] at hm <;> revert hm <;>
          cases o.allowNan <;> simp [matchAtoms, atoms, anycasePrefix, toLower, hm2]
      | tick h1 h2 h3 =>
        exfalso
        simp only [hkf, Salvage.push] at hm
        rcases h1 with ⟨h1, _⟩ | ⟨h1, _⟩ <;> rw [h1] at hm <;>
          simp [tick_no_atom, hm2] at hm
      | sign h1 h2 h3 h4 =>
        rename_i c bs
        refine .sign (c := c) (bs := bs ++ [d]) (by simp [h1]) h2 (by simp) ?_
        rcases h4 with h4 | h4
        · exact .inl h4
        · exact absurd (h4.1.symm.trans hkf) (by simp)
    · simp only [hm2]
      by_cases hp : (s.push d).buffer = [ch 'b', ch '"'] ∨ (s.push d).buffer = [ch 'b', ch '\''] ∨
          (s.push d).buffer = [ch 'u', ch '"'] ∨ (s.push d).buffer = [ch 'u', ch '\'']
      · simp only [hp, if_true]
        refine post_all fun l => inv_between hg rfl rfl (by exact hs) ?_ l
        have hbuf : s.buffer = [ch 'b'] ∨ s.buffer = [ch 'u'] := by
          simp only [Salvage.push] at hp
          rcases hb : s.buffer with _ | ⟨b, _ | ⟨b', bs⟩⟩
          · exact absurd hb hne
          · rw [hb] at hp
            simp at hp
            rcases hp with h | h | h | h <;> simp [h.1]
          · rw [hb] at hp
            simp at hp
        cases hi with
        | plain _ h => exact h
        | quote h => exfalso; rcases hbuf with h' | h' <;> rw [h'] at h <;> simp at h
        | tick h => exfalso; rcases hbuf with h' | h' <;> rw [h'] at h <;> simp at h
        | sign h h2 =>
          exfalso
          rcases hbuf with h' | h' <;> rw [h'] at h <;> simp at h <;> omega
      · simp only [hp, if_false]
        exact post_one (unquoted_inv (s := s.push d) hg hs _ hr')
  · simp only
    have hkf : s.key = false := by
      rcases hk' : s.key with _ | _
      · rfl
      · simp [hk, hk'] at hm
    simp only [hk, hkf] at hm
    obtain ⟨a, ha⟩ := matchAtoms_mem (b := (s.push d).buffer) (out := out) (l := atoms o.allowNan)
      (by rw [show matchAtoms (s.push d).buffer (atoms o.allowNan) = (some out, m2) from by simpa using hm])
    obtain ⟨hl, hc⟩ := atoms_loose ha hd
    simp only [Salvage.emitAtom, startValue_eq, Salvage.emit, endValue_eq, Salvage.set, Salvage.push]
    refine post_all fun l => inv_between ?_ rfl rfl (by exact hs) ?_ l
    · have := good_step (good_step hg (sepText_ascii s.stack s.sep s.key)) hc
      simpa using this
    · rw [hkf] at hr
      have := ready_value hr hl
      simp only [hkf]
      simpa using this

/-- A sign and what follows it: a number starts. -/
theorem sign_numReady {s : Salvage} {x : List Nat} {last c : Option Nat} {b : Nat}
    (hi : BaseInv D s x last) (hb : s.buffer = [b]) (hsg : b = ch '-' ∨ b = ch '+') (hp : Pair D raw last c)
    (hc : isDigit09 c = true ∨ c = some (ch '.')) : NumReady D s x := by
  cases hi with
  | plain h _ =>
    exfalso
    exact h b (by simp [hb]) (by unfold isSpecial; omega)
  | quote h => exfalso; rw [hb] at h; simp at h; omega
  | tick h => exfalso; rw [hb] at h; simp at h; omega
  | sign h1 h2 h3 h4 =>
    rename_i c' bs
    rw [hb] at h1
    simp at h1
    obtain ⟨rfl, rfl⟩ := h1
    rcases h4 with h4 | ⟨hk, _, h4⟩
    · exact .inl h4
    · refine .inr ⟨hk, hp.number ?_ hc, h4⟩
      rw [h3 rfl]
      simpa using hsg

theorem digit19_09 {c : Option Nat} (h : isDigit19 c = true) : isDigit09 c = true := by
  rcases c with _ | c
  · simp [isDigit19] at h
  · simp [isDigit19, isDigit09] at h ⊢
    omega

theorem digit19_some {c : Option Nat} (h : isDigit19 c = true) : ∃ d, c = some d ∧ 49 ≤ d ∧ d ≤ 57 := by
  rcases c with _ | c
  · simp [isDigit19] at h
  · exact ⟨c, rfl, by simpa [isDigit19] using h⟩

theorem baseRules_inv {s : Salvage} {pre : List Nat} {last c : Option Nat}
    (hd : o.allowNan = true → D.nan) (hst : s.state = .base)
    (h : Inv D raw o s (pre ++ s.output) last) (hp : Pair D raw last c)
    (hn : ¬ (s.buffer = [ch '`', ch '`'] ∧ c = none)) : Post D raw o pre c (baseRules o c s) := by
  obtain ⟨hg, hi⟩ := h
  simp only [StateInv, hst] at hi
  obtain ⟨hs, hi⟩ := hi
  unfold baseRules
  by_cases h0 : s.buffer = []
  · rw [if_pos h0]
    refine post_one (baseEmpty_inv hg hst h0 hs ?_ c)
    cases hi with
    | plain _ h => exact h
    | quote h => rw [h0] at h; simp at h
    | tick h => rw [h0] at h; simp at h
    | sign h => rw [h0] at h; simp at h
  rw [if_neg h0]
  by_cases h1 : s.buffer = [ch '/'] ∧ c = some (ch '/')
  · rw [if_pos h1]
    refine post_one ⟨hg, ?_⟩
    simp only [StateInv, Salvage.set]
    refine ⟨hs, ?_⟩
    cases hi with
    | plain _ h => exact h
    | quote h => rw [h1.1] at h; simp at h
    | tick h => rw [h1.1] at h; simp at h
    | sign h h' => rw [h1.1] at h; simp at h; omega
  rw [if_neg h1]
  by_cases h2 : s.buffer = [ch '/'] ∧ c = some (ch '*')
  · rw [if_pos h2]
    refine post_one ⟨hg, ?_⟩
    simp only [StateInv, Salvage.set]
    refine ⟨hs, ?_⟩
    cases hi with
    | plain _ h => exact h
    | quote h => rw [h2.1] at h; simp at h
    | tick h => rw [h2.1] at h; simp at h
    | sign h h' => rw [h2.1] at h; simp at h; omega
  rw [if_neg h2]
  -- one or two quotes
  have quotes : ∀ b bs, s.buffer = b :: bs → (b = ch '"' ∨ b = ch '\'') →
      s.sep = false ∧ ∃ y, Ready D s.stack s.key y ∧ pre ++ s.output = y ++ [ch '"'] := by
    intro b bs hb hq
    cases hi with
    | plain h _ => exact absurd (by unfold isSpecial; omega) (h b (by simp [hb]))
    | quote _ h2 h3 h4 => exact ⟨h2, _, h3, h4⟩
    | tick h => rw [hb] at h; simp at h; omega
    | sign h h' => rw [hb] at h; simp at h; omega
  have string : ∀ st, isQuoteState st = true → (∃ b bs, s.buffer = b :: bs ∧ (b = ch '"' ∨ b = ch '\'')) →
      ∀ l, Inv D raw o (s.set st []) (pre ++ (s.set st []).output) l := by
    rintro st hq ⟨b, bs, hb, hb'⟩ l
    obtain ⟨h5, y, h6, h7⟩ := quotes b bs hb hb'
    refine ⟨hg, (stateInv_string (.inl hq)).mpr ?_⟩
    exact ⟨by simp [SurrOk, Salvage.set, hs], h5, by simp [StrBuf, Salvage.set], by simp [Salvage.set], y, [], h6, .nil, h7⟩
  have empty : (∃ b bs, s.buffer = b :: bs ∧ (b = ch '"' ∨ b = ch '\'')) →
      ∀ l, Inv D raw o (s.emit [ch '"']).endValue (pre ++ (s.emit [ch '"']).endValue.output) l := by
    rintro ⟨b, bs, hb, hb'⟩ l
    obtain ⟨h5, y, h6, h7⟩ := quotes b bs hb hb'
    simp only [Salvage.emit, endValue_eq]
    refine inv_between ?_ rfl rfl (by exact hs) ?_ l
    · have := good_step hg (z := [ch '"']) (by simp)
      simpa using this
    · have := ready_string (D := D) h6 .nil
      have e : pre ++ (s.output ++ [ch '"']) = y ++ quoted [] := by
        rw [← List.append_assoc, h7]; simp [quoted]
      simp only [e]
      exact this
  by_cases h3 : s.buffer = [ch '"']
  · rw [if_pos h3]
    split
    · refine post_one ⟨hg, ?_⟩
      obtain ⟨h5, y, h6, h7⟩ := quotes _ _ h3 (.inl rfl)
      simp only [StateInv, Salvage.push, hst]
      exact ⟨hs, .quote (by simp [h3]) h5 h6 h7⟩
    · exact post_all (string _ rfl ⟨_, _, h3, .inl rfl⟩)
  rw [if_neg h3]
  by_cases h4 : s.buffer = [ch '\'']
  · rw [if_pos h4]
    split
    · refine post_one ⟨hg, ?_⟩
      obtain ⟨h5, y, h6, h7⟩ := quotes _ _ h4 (.inr rfl)
      simp only [StateInv, Salvage.push, hst]
      exact ⟨hs, .quote (by simp [h4]) h5 h6 h7⟩
    · exact post_all (string _ rfl ⟨_, _, h4, .inr rfl⟩)
  rw [if_neg h4]
  by_cases h5 : s.buffer = [ch '`']
  · rw [if_pos h5]
    have ht : last = some (ch '`') ∧ s.sep = false ∧ Ready D s.stack s.key (pre ++ s.output) := by
      cases hi with
      | plain h _ => exact absurd (by unfold isSpecial; omega) (h (ch '`') (by simp [h5]))
      | quote h => rw [h5] at h; simp at h
      | tick h h' h'' =>
        rw [h5] at h
        simp at h
        exact ⟨h, h', h''⟩
      | sign h h' => rw [h5] at h; simp at h; omega
    split
    · rename_i hc
      refine post_one ⟨hg, ?_⟩
      simp only [StateInv, Salvage.push, hst]
      exact ⟨hs, .tick (.inr ⟨by simp [h5], hp.tick ht.1 hc⟩) ht.2.1 ht.2.2⟩
    · refine post_all fun l => ⟨?_, (stateInv_string (.inl rfl)).mpr ?_⟩
      · have := good_step hg (z := [ch '"']) (by simp)
        simpa [Salvage.set, Salvage.emit] using this
      · exact ⟨by simp [SurrOk, Salvage.set, Salvage.emit, hs], ht.2.1, by simp [StrBuf, Salvage.set],
          by simp [Salvage.set], _, [], ht.2.2, .nil, by simp [Salvage.set, Salvage.emit]⟩
  rw [if_neg h5]
  by_cases h6 : s.buffer = [ch '"', ch '"']
  · rw [if_pos h6]
    split
    · exact ⟨string _ rfl ⟨_, _, h6, .inl rfl⟩ c, by simp⟩
    · exact post_all (empty ⟨_, _, h6, .inl rfl⟩)
  rw [if_neg h6]
  by_cases h7 : s.buffer = [ch '\'', ch '\'']
  · rw [if_pos h7]
    split
    · exact ⟨string _ rfl ⟨_, _, h7, .inr rfl⟩ c, by simp⟩
    · exact post_all (empty ⟨_, _, h7, .inr rfl⟩)
  rw [if_neg h7, if_neg hn]
  have zero : isDigit09 (some (ch '0')) = true := rfl
  by_cases h8 : s.buffer = [ch '-'] ∧ c = some (ch '0')
  · rw [if_pos h8]
    have hN := sign_numReady hi h8.1 (.inl rfl) hp (.inl (by rw [h8.2]; exact zero))
    refine post_one ⟨?_, ?_⟩
    · have := good_step hg (z := [ch '-']) (by simp)
      simpa [Salvage.set, Salvage.emit] using this
    · simp only [StateInv, Salvage.set, Salvage.emit]
      exact ⟨hs, .inl rfl, _, [ch '-'], hN, .inr rfl, by simp⟩
  rw [if_neg h8]
  by_cases h9 : s.buffer = [ch '-'] ∧ isDigit19 c = true
  · rw [if_pos h9]
    have hN := sign_numReady hi h9.1 (.inl rfl) hp (.inl (digit19_09 h9.2))
    obtain ⟨d, rfl, hd1, hd2⟩ := digit19_some h9.2
    refine post_one ⟨?_, ?_⟩
    · have := good_step hg (z := [ch '-', d]) (by simp; omega)
      simpa [Salvage.set, Salvage.emit] using this
    · simp only [StateInv, Salvage.set, Salvage.emit]
      exact ⟨hs, _, [ch '-', d], hN,
        .int (sg := [ch '-']) (i := [d]) (.inr rfl) (digits_one (by omega)) (by simp; omega), by simp⟩
  rw [if_neg h9]
  by_cases h10 : s.buffer = [ch '-'] ∧ c = some (ch '.')
  · rw [if_pos h10]
    have hN := sign_numReady hi h10.1 (.inl rfl) hp (.inr h10.2)
    refine post_one ⟨?_, ?_⟩
    · have := good_step hg (z := [ch '-', ch '0', ch '.']) (by simp)
      simpa [Salvage.set, Salvage.emit] using this
    · simp only [StateInv, Salvage.set, Salvage.emit]
      exact ⟨hs, _, [ch '-', ch '0', ch '.'], hN, .dot (sg := [ch '-']) (i := [ch '0']) (.inr rfl) (.inl rfl), by simp⟩
  rw [if_neg h10]
  by_cases h11 : s.buffer = [ch '+'] ∧ c = some (ch '0')
  · rw [if_pos h11]
    have hN := sign_numReady hi h11.1 (.inr rfl) hp (.inl (by rw [h11.2]; exact zero))
    refine post_one ⟨hg, ?_⟩
    simp only [StateInv, Salvage.set]
    exact ⟨hs, .inl rfl, _, [], hN, .inl rfl, by simp⟩
  rw [if_neg h11]
  by_cases h12 : s.buffer = [ch '+'] ∧ isDigit19 c = true
  · rw [if_pos h12]
    have hN := sign_numReady hi h12.1 (.inr rfl) hp (.inl (digit19_09 h12.2))
    obtain ⟨d, rfl, hd1, hd2⟩ := digit19_some h12.2
    refine post_one ⟨?_, ?_⟩
    · have := good_step hg (z := [d]) (by simp; omega)
      simpa [Salvage.set, Salvage.emit] using this
    · simp only [StateInv, Salvage.set, Salvage.emit]
      exact ⟨hs, _, [d], hN,
        .int (sg := []) (i := [d]) (.inl rfl) (digits_one (by omega)) (by simp; omega), by simp⟩
  rw [if_neg h12]
  by_cases h13 : s.buffer = [ch '+'] ∧ c = some (ch '.')
  · rw [if_pos h13]
    have hN := sign_numReady hi h13.1 (.inr rfl) hp (.inr h13.2)
    refine post_one ⟨?_, ?_⟩
    · have := good_step hg (z := [ch '0', ch '.']) (by simp)
      simpa [Salvage.set, Salvage.emit] using this
    · simp only [StateInv, Salvage.set, Salvage.emit]
      exact ⟨hs, _, [ch '0', ch '.'], hN, .dot (sg := []) (i := [ch '0']) (.inl rfl) (.inl rfl), by simp⟩
  rw [if_neg h13]
  have hr : Ready D s.stack s.key (pre ++ s.output ++ sepText s.stack s.sep s.key) := by
    rcases base_startable hi with ⟨y, _, h⟩ | h
    · exfalso
      rcases h with h | h | h | h <;> contradiction
    · exact h
  by_cases h14 : s.unquotedNext o c = false
  · rw [if_pos h14]
    obtain ⟨g, z, e1, e2, e3, e4⟩ := unquoted_text hg hs s.buffer hr
    refine post_all fun l => ?_
    refine endString_inv (y := pre ++ s.output ++ sepText s.stack s.sep s.key) (b := z) ?_ ?_ e3 ?_ l
    · rw [e1]; exact e4
    · rw [e1]; exact hr
    · rw [e1]; simp
  rw [if_neg h14]
  rcases c with _ | d
  · simp [Salvage.unquotedNext] at h14
  · exact baseAtom_inv hd hg hst hs hi h0 hr

end Verif.JsonSalvage
