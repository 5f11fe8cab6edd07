/-
The rules inside of strings, comments and numbers keep the invariant.
-/
import Verif.JsonSalvage.BaseRules

namespace Verif.JsonSalvage

open Verif.JsonStream

variable {D : Defects} {raw : Prop} {o : Options}

/-! ### Strings -/

/-- Code points are added to a string, and the buffer is changed. -/
theorem str_extend {s s' : Salvage} {pre z : List Nat} {last : Option Nat} (hg : AllGood o raw (pre ++ s.output))
    (hq : isQuoteState s.state = true ∨ s.state = .unquoted) (h : StrInv D s (pre ++ s.output) last)
    (hst : s'.state = s.state) (hstack : s'.stack = s.stack) (hkey : s'.key = s.key) (hsep : s'.sep = s.sep)
    (hout : s'.output = s.output ++ z) (hz : LooseBody D.control z) (hgz : AllGood o raw z)
    (hsu : SurrOk s'.surrogate) (hb : StrBuf s'.buffer) {l : Option Nat}
    (hl : s'.buffer = [ch '\\'] → l = some (ch '\\')) : Inv D raw o s' (pre ++ s'.output) l := by
  obtain ⟨y, b, h1, h2, h3⟩ := h.text
  refine ⟨?_, (stateInv_string (by rw [hst]; exact hq)).mpr ?_⟩
  · rw [hout, ← List.append_assoc]
    exact allGood_append.mpr ⟨hg, hgz⟩
  · refine ⟨hsu, by rw [hsep]; exact h.sep, fun _ => hb, fun _ => hl, y, b ++ z, ?_, body_append h2 hz, ?_⟩
    · rw [hstack, hkey]; exact h1
    · rw [hout, ← List.append_assoc, h3]; simp

theorem str_end {s : Salvage} {pre : List Nat} {last : Option Nat} (hg : AllGood o raw (pre ++ s.output))
    (h : StrInv D s (pre ++ s.output) last) (l : Option Nat) :
    Inv D raw o (s.endString o) (pre ++ (s.endString o).output) l := by
  obtain ⟨y, b, h1, h2, h3⟩ := h.text
  exact endString_inv hg h1 h2 h3 l

theorem good_nil : AllGood o raw [] := by simp [AllGood]

theorem strBuf_nil : StrBuf [] := .inl rfl

/-- One code point is written, and the buffer is empty after it. -/
theorem str_code {s s' : Salvage} {pre : List Nat} {last : Option Nat} (hg : AllGood o raw (pre ++ s.output))
    (hq : isQuoteState s.state = true ∨ s.state = .unquoted) (h : StrInv D s (pre ++ s.output) last) (cs : List Nat)
    (e : s' = (s.emitCodePoints o cs).clear) (l : Option Nat) : Inv D raw o s' (pre ++ s'.output) l := by
  obtain ⟨g, z, h1, h2, h3, h4⟩ := emitCodePoints_spec o raw D.control cs s h.surrogate
  subst e
  rw [h1]
  exact str_extend (z := z) hg hq h (by exact rfl) (by exact rfl) (by exact rfl) (by exact rfl) (by exact rfl) h3 h4 (by exact h2) (by exact strBuf_nil) (by simp [Salvage.clear])

theorem emitBuffer_eq (s : Salvage) (base : Nat) :
    s.emitBuffer o base = (s.emitCodePoints o [s.bufferCodePoint base]).clear := rfl

theorem stringEmpty_inv {s : Salvage} {pre : List Nat} {last c : Option Nat}
    (hg : AllGood o raw (pre ++ s.output)) (hq : isQuoteState s.state = true)
    (h : StrInv D s (pre ++ s.output) last) (hb : s.buffer = []) :
    Inv D raw o (stringEmpty o c s) (pre ++ (stringEmpty o c s).output) c := by
  rcases c with _ | c
  · exact str_end hg h _
  simp only [stringEmpty]
  by_cases h1 : c = ch '\\'
  · rw [if_pos h1]
    exact str_extend (z := []) hg (.inl hq) h (by exact rfl) (by exact rfl) (by exact rfl) (by exact rfl) (by simp [Salvage.push]) .nil good_nil (by exact h.surrogate)
      (by simp [StrBuf, Salvage.push, hb]) (by simp [h1])
  rw [if_neg h1]
  split
  · exact str_end hg h _
  split
  · rename_i h3
    have h3 : c = ch '"' ∨ c = ch '\'' := by rcases h3 with h3 | h3 <;> simp [h3.2]
    refine str_extend (z := []) hg (.inl hq) h (by exact rfl) (by exact rfl) (by exact rfl) (by exact rfl) (by simp [Salvage.push]) .nil good_nil (by exact h.surrogate)
      ?_ ?_
    · rcases h3 with rfl | rfl <;> simp [StrBuf, Salvage.push, hb]
    · simp [Salvage.push, hb]
  · refine str_code hg (.inl hq) h [c] ?_ _
    obtain ⟨g, z, e, _⟩ := emitCodePoint_spec o raw True c s h.surrogate
    simp only [Salvage.emitCodePoints, e, Salvage.clear, hb]

theorem kept_simple {c : Nat} (h : c ∈ keptEscapes) : ∃ r, (c, r) ∈ simpleEscapes := by
  simp [keptEscapes] at h
  rcases h with rfl | rfl | rfl | rfl | rfl | rfl | rfl | rfl
  all_goals first
    | exact ⟨34, by decide⟩
    | exact ⟨92, by decide⟩
    | exact ⟨47, by decide⟩
    | exact ⟨8, by decide⟩
    | exact ⟨12, by decide⟩
    | exact ⟨10, by decide⟩
    | exact ⟨13, by decide⟩
    | exact ⟨9, by decide⟩

theorem kept_ascii {c : Nat} (h : c ∈ keptEscapes) : c < 0x80 := by
  simp [keptEscapes] at h
  omega

theorem stringEscape_inv {s : Salvage} {pre : List Nat} {last c : Option Nat}
    (hg : AllGood o raw (pre ++ s.output)) (hq : isQuoteState s.state = true)
    (h : StrInv D s (pre ++ s.output) last) (hb : s.buffer = [ch '\\']) (hp : Pair D raw last c)
    (hc : ∀ d, c = some d → Scalar d) :
    Inv D raw o (stringEscape o c s) (pre ++ (stringEscape o c s).output) c := by
  rcases c with _ | c
  · exact str_end hg h _
  have hlast := h.last (by intro e; simp [e, isQuoteState] at hq) hb
  simp only [stringEscape]
  by_cases h1 : c ∈ keptEscapes
  · rw [if_pos h1]
    obtain ⟨r, hr⟩ := kept_simple h1
    exact str_extend (z := [ch '\\', c]) hg (.inl hq) h (by exact rfl) (by exact rfl) (by exact rfl) (by exact rfl) (by exact rfl) (.simple hr .nil)
      (allGood_ascii (by simp; exact kept_ascii h1)) (by exact h.surrogate) (by exact strBuf_nil) (by simp [Salvage.clear])
  rw [if_neg h1]
  split
  · exact str_code hg (.inl hq) h [7] rfl _
  split
  · exact str_code hg (.inl hq) h [11] rfl _
  split
  · rename_i h4
    refine str_extend (z := [c]) hg (.inl hq) h (by exact rfl) (by exact rfl) (by exact rfl) (by exact rfl) (by exact rfl) ?_
      (allGood_ascii (by simp; omega)) (by exact h.surrogate) (by exact strBuf_nil) (by simp [Salvage.clear])
    exact .plain (by unfold Plain; omega) .nil
  split
  · rename_i h5
    refine str_extend (z := []) hg (.inl hq) h (by exact rfl) (by exact rfl) (by exact rfl) (by exact rfl) (by simp [Salvage.push]) .nil good_nil (by exact h.surrogate)
      ?_ (by simp [Salvage.push, hb])
    simp only [StrBuf, Salvage.push, hb]
    iterate 7 right
    exact ⟨c, [], rfl, by omega⟩
  split
  · refine str_extend (z := []) hg (.inl hq) h (by exact rfl) (by exact rfl) (by exact rfl) (by exact rfl) (by simp [Salvage.push]) .nil good_nil (by exact h.surrogate)
      ?_ (by simp [Salvage.push, hb])
    simp only [StrBuf, Salvage.push, hb]
    iterate 7 right
    exact ⟨ch 'x', [], rfl, by omega⟩
  split
  · refine str_extend (z := []) hg (.inl hq) h (by exact rfl) (by exact rfl) (by exact rfl) (by exact rfl) (by simp [Salvage.push]) .nil good_nil (by exact h.surrogate)
      ?_ (by simp [Salvage.push, hb])
    simp only [StrBuf, Salvage.push, hb]
    iterate 7 right
    exact ⟨ch 'o', [c], rfl, by omega⟩
  split
  · exact str_code hg (.inl hq) h [] rfl _
  split
  · refine str_extend (z := []) hg (.inl hq) h (by exact rfl) (by exact rfl) (by exact rfl) (by exact rfl) (by simp [Salvage.push]) .nil good_nil (by exact h.surrogate)
      ?_ (by simp [Salvage.push, hb])
    simp [StrBuf, Salvage.push, hb]
  · -- an unknown escape
    have hesc : LooseBody D.control [ch '\\', ch '\\'] := .simple (r := ch '\\') (by decide) .nil
    refine str_extend (z := [ch '\\', ch '\\', c]) hg (.inl hq) h (by exact rfl) (by exact rfl) (by exact rfl) (by exact rfl) (by exact rfl) ?_ ?_ (by exact h.surrogate) (by exact strBuf_nil)
      (by simp [Salvage.clear])
    · by_cases hlt : c < 0x20
      · exact .control (hp.control hlast c rfl hlt) hlt .nil
      · refine body_append hesc (.plain ⟨by omega, ?_, ?_⟩ .nil)
        · rintro rfl; exact h1 (by decide)
        · rintro rfl; exact h1 (by decide)
    · intro d hd
      have hd : d = ch '\\' ∨ d = c := by simpa using hd
      rcases hd with rfl | rfl
      · exact good_ascii (by omega)
      · refine ⟨hc d rfl, fun _ => ?_⟩
        by_cases hlt : d < 0x80
        · exact .inl hlt
        · exact .inr (hp.raw hlast d rfl (by omega))

theorem stringQuotes_inv {s : Salvage} {pre : List Nat} {last c : Option Nat} {q : Nat}
    (hg : AllGood o raw (pre ++ s.output)) (hq : isQuoteState s.state = true)
    (h : StrInv D s (pre ++ s.output) last) (hq' : q = ch '"' ∨ q = ch '\'') :
    Inv D raw o (stringQuotes o q c s) (pre ++ (stringQuotes o q c s).output) c := by
  rcases c with _ | c
  · exact str_end hg h _
  simp only [stringQuotes]
  split
  · rename_i hb
    split
    · refine str_extend (z := []) hg (.inl hq) h (by exact rfl) (by exact rfl) (by exact rfl) (by exact rfl) (by simp [Salvage.push]) .nil good_nil (by exact h.surrogate)
        ?_ (by simp [Salvage.push, hb])
      rcases hq' with rfl | rfl <;> simp [StrBuf, Salvage.push, hb]
    · exact str_code hg (.inl hq) h [q, c] rfl _
  · split
    · exact str_end hg h _
    · exact str_code hg (.inl hq) h [q, q, c] rfl _

theorem stringDigits_inv {s : Salvage} {pre : List Nat} {last c : Option Nat} {base n k : Nat} {ds : List Nat}
    {dig : Option Nat → Bool} (hdig : dig none = false)
    (hg : AllGood o raw (pre ++ s.output)) (hq : isQuoteState s.state = true)
    (h : StrInv D s (pre ++ s.output) last) (hb : s.buffer = ch '\\' :: k :: ds)
    (hk : k = ch 'u' ∨ k = ch 'o' ∨ k = ch 'x' ∨ k = ch 'U' ∨ k = ch '{') :
    Post D raw o pre c (stringDigits o base n dig c s) := by
  unfold stringDigits
  split
  · rename_i hc
    rcases c with _ | d
    · rw [hdig] at hc; simp at hc
    have hpush : ∀ l, Inv D raw o (s.push d) (pre ++ (s.push d).output) l := by
      intro l
      refine str_extend (z := []) hg (.inl hq) h (by exact rfl) (by exact rfl) (by exact rfl) (by exact rfl) (by simp [Salvage.push]) .nil good_nil (by exact h.surrogate)
        ?_ (by simp [Salvage.push, hb])
      simp only [StrBuf, Salvage.push, hb]
      iterate 7 right
      exact ⟨k, ds ++ [d], by simp, hk⟩
    refine post_one ?_
    change Inv D raw o (if (s.push d).buffer.length = n + 2 then (s.push d).emitBuffer o base else s.push d)
      (pre ++ (if (s.push d).buffer.length = n + 2 then (s.push d).emitBuffer o base else s.push d).output) _
    by_cases hlen : (s.push d).buffer.length = n + 2
    · rw [if_pos hlen]
      have h' := hpush last
      have hs : StrInv D (s.push d) (pre ++ (s.push d).output) last := (stateInv_string (by exact .inl hq)).mp h'.2
      exact str_code (s := s.push d) hg (.inl hq) hs [(s.push d).bufferCodePoint base] rfl _
    · rw [if_neg hlen]
      exact hpush _
  · exact post_all fun l => str_code hg (.inl hq) h [s.bufferCodePoint base] rfl l

theorem stringRules_inv {s : Salvage} {pre : List Nat} {last c : Option Nat}
    (hst : isQuoteState s.state = true ∨ s.state = .unquoted)
    (h : Inv D raw o s (pre ++ s.output) last) (hp : Pair D raw last c) (hc : ∀ d, c = some d → Scalar d) :
    Post D raw o pre c (stringRules o c s) := by
  obtain ⟨hg, hi⟩ := h
  have hi := (stateInv_string hst).mp hi
  unfold stringRules
  by_cases hu : s.state = .unquoted
  · rw [if_pos hu]
    rcases c with _ | d
    · exact post_all fun l => str_end hg hi l
    · simp only
      split
      · exact post_all fun l => str_end hg hi l
      · refine post_one ?_
        obtain ⟨g, z, h1, h2, h3, h4⟩ := emitCodePoint_spec o raw D.control d s hi.surrogate
        obtain ⟨y, b, e1, e2, e3⟩ := hi.text
        rw [h1]
        refine ⟨?_, (stateInv_string (by exact .inr hu)).mpr ⟨by exact h2, by exact hi.sep, by simp [hu], by simp [hu], y, b ++ z, e1, body_append e2 h3, ?_⟩⟩
        · simpa using allGood_append.mpr ⟨hg, h4⟩
        · simp only
          rw [← List.append_assoc, e3]; simp
  rw [if_neg hu]
  have hq : isQuoteState s.state = true := by
    rcases hst with h | h
    · exact h
    · exact absurd h hu
  have hbuf := hi.buffer hu
  by_cases h1 : s.buffer = []
  · rw [if_pos h1]
    exact post_one (stringEmpty_inv hg hq hi h1)
  rw [if_neg h1]
  by_cases h2 : s.buffer = [ch '\\']
  · rw [if_pos h2]
    exact post_one (stringEscape_inv hg hq hi h2 hp hc)
  rw [if_neg h2]
  by_cases h3 : s.buffer = [ch '\\', 13]
  · rw [if_pos h3]
    split
    · exact post_one (str_code hg (.inl hq) hi [] rfl _)
    · exact post_all fun l => str_code hg (.inl hq) hi [] rfl l
  rw [if_neg h3]
  by_cases h4 : s.buffer = [ch '"'] ∨ s.buffer = [ch '"', ch '"']
  · rw [if_pos h4]
    exact post_one (stringQuotes_inv hg hq hi (.inl rfl))
  rw [if_neg h4]
  by_cases h5 : s.buffer = [ch '\''] ∨ s.buffer = [ch '\'', ch '\'']
  · rw [if_pos h5]
    exact post_one (stringQuotes_inv hg hq hi (.inr rfl))
  rw [if_neg h5]
  obtain ⟨k, ds, hb, hk⟩ : ∃ k ds, s.buffer = ch '\\' :: k :: ds ∧
      (k = ch 'u' ∨ k = ch 'o' ∨ k = ch 'x' ∨ k = ch 'U' ∨ k = ch '{') := by
    rcases hbuf with h | h | h | h | h | h | h | h
    · exact absurd h h1
    · exact absurd h h2
    · exact absurd h h3
    · exact absurd (.inl h) h4
    · exact absurd (.inr h) h4
    · exact absurd (.inl h) h5
    · exact absurd (.inr h) h5
    · exact h
  have htake : s.buffer.take 2 = [ch '\\', k] := by simp [hb]
  have brace : ∀ l, Inv D raw o ((s.clear.push (ch '\\')).push (ch '{'))
      (pre ++ ((s.clear.push (ch '\\')).push (ch '{')).output) l := by
    intro l
    refine str_extend (z := []) hg (.inl hq) hi (by exact rfl) (by exact rfl) (by exact rfl) (by exact rfl) (by simp [Salvage.push, Salvage.clear]) .nil good_nil
      (by exact hi.surrogate) ?_ (by simp [Salvage.push, Salvage.clear])
    simp only [StrBuf, Salvage.push, Salvage.clear]
    iterate 7 right
    exact ⟨ch '{', [], rfl, by omega⟩
  rw [htake]
  rcases hk with rfl | rfl | rfl | rfl | rfl
  · rw [if_pos rfl]
    split
    · exact post_one (brace _)
    · exact stringDigits_inv rfl hg hq hi hb (by omega)
  · rw [if_neg (by decide), if_pos rfl]
    exact stringDigits_inv rfl hg hq hi hb (by omega)
  · rw [if_neg (by decide), if_neg (by decide), if_pos rfl]
    exact stringDigits_inv rfl hg hq hi hb (by omega)
  · rw [if_neg (by decide), if_neg (by decide), if_neg (by decide), if_pos rfl]
    split
    · exact post_one (brace _)
    · exact stringDigits_inv rfl hg hq hi hb (by omega)
  · rw [if_neg (by decide), if_neg (by decide), if_neg (by decide), if_neg (by decide), if_pos rfl]
    split
    · rename_i hx
      rcases c with _ | d
      · simp [isHexIn] at hx
      refine post_one ?_
      refine str_extend (z := []) hg (.inl hq) hi (by exact rfl) (by exact rfl) (by exact rfl) (by exact rfl) (by simp [Salvage.push, Salvage.pushIn]) .nil good_nil
        (by exact hi.surrogate) ?_ (by simp [Salvage.push, Salvage.pushIn, hb])
      simp only [StrBuf, Salvage.push, Salvage.pushIn, hb]
      iterate 7 right
      exact ⟨ch '{', ds ++ [d], by simp, by omega⟩
    · exact post_all fun l => str_code hg (.inl hq) hi [s.bufferCodePoint 16] rfl l

/-! ### Comments -/

theorem commentRules_inv {s : Salvage} {pre : List Nat} {last c : Option Nat}
    (hst : s.state = .lineComment ∨ s.state = .blockComment) (h : Inv D raw o s (pre ++ s.output) last) :
    Inv D raw o (commentRules c s) (pre ++ (commentRules c s).output) c := by
  obtain ⟨hg, hi⟩ := h
  have hi : s.surrogate = none ∧ Between D s.stack s.sep s.key (pre ++ s.output) := by
    rcases hst with h | h <;> simpa [StateInv, h] using hi
  have stay : ∀ s' : Salvage, s'.state = s.state → s'.stack = s.stack → s'.sep = s.sep → s'.key = s.key →
      s'.output = s.output → s'.surrogate = s.surrogate → Inv D raw o s' (pre ++ s'.output) c := by
    intro s' e1 e2 e3 e4 e5 e6
    refine ⟨by rw [e5]; exact hg, ?_⟩
    rcases hst with h | h <;> simp only [StateInv, e1, e2, e3, e4, e5, e6, h] <;> exact hi
  have leave : Inv D raw o (s.set .base []) (pre ++ (s.set .base []).output) c :=
    inv_between (by exact hg) (by exact rfl) (by exact rfl) (by exact hi.1) (by exact hi.2) _
  unfold commentRules
  split
  · split
    · split
      · exact leave
      · exact stay _ rfl rfl rfl rfl rfl rfl
    · exact stay _ rfl rfl rfl rfl rfl rfl
  · split
    · split
      · exact stay _ rfl rfl rfl rfl rfl rfl
      · exact stay _ rfl rfl rfl rfl rfl rfl
    · split
      · exact leave
      · exact stay _ rfl rfl rfl rfl rfl rfl

/-! ### Numbers -/

theorem number_end {s : Salvage} {pre y t : List Nat} (hg : AllGood o raw (pre ++ s.output))
    (hs : s.surrogate = none) (h : NumReady D s y) (ht : IsNumber t) (hx : pre ++ s.output = y ++ t) (l : Option Nat) :
    Inv D raw o s.endValue (pre ++ s.endValue.output) l := by
  rw [endValue_eq]
  refine inv_between hg rfl rfl (by exact hs) ?_ l
  simp only
  rw [hx]
  exact numReady_end h ht

theorem intPart_number {sg i : List Nat} (h1 : Sign sg) (h2 : IntPart i) : IsNumber (sg ++ i) :=
  ⟨sg, i, [], [], by simp, h1, h2, .inl rfl, .inl rfl⟩

theorem intPart_ascii {i : List Nat} (h : IntPart i) : ∀ c ∈ i, c < 0x80 := by
  rcases h with rfl | ⟨h, _⟩
  · simp
  · intro c hc
    have := h.2 c hc
    omega

theorem isE_some {c : Option Nat} (h : isE c = true) : ∃ e, c = some e ∧ (e = ch 'e' ∨ e = ch 'E') := by
  simp [isE] at h
  rcases h with rfl | rfl
  · exact ⟨_, rfl, .inl rfl⟩
  · exact ⟨_, rfl, .inr rfl⟩

theorem bufferedRules_inv {s : Salvage} {pre : List Nat} {last c : Option Nat}
    (hst : s.state = .numberBuffered) (h : Inv D raw o s (pre ++ s.output) last) :
    Post D raw o pre c (bufferedRules c s) := by
  obtain ⟨hg, hi⟩ := h
  simp only [StateInv, hst] at hi
  obtain ⟨hs, hbuf, y, sg, hn, hsg, hx⟩ := hi
  -- the state stays, with another buffer
  have stay : ∀ b, BufInt b → Inv D raw o { s with buffer := b } (pre ++ s.output) c := by
    intro b hb
    refine ⟨hg, ?_⟩
    simp only [StateInv, hst]
    exact ⟨hs, hb, y, sg, hn, hsg, hx⟩
  have push : ∀ d, (∃ k ds, s.buffer = ch '0' :: k :: ds ∧ (k = ch 'x' ∨ k = ch 'o' ∨ k = ch 'b')) →
      Inv D raw o (if s.buffer.length < 100 then s.pushIn (some d) else s)
        (pre ++ (if s.buffer.length < 100 then s.pushIn (some d) else s).output) c := by
    rintro d ⟨k, ds, hb, hk⟩
    split
    · exact stay _ (.inr ⟨k, ds ++ [d], by simp [hb], hk⟩)
    · exact stay _ hbuf
  have prefix2 : ∀ k, s.buffer.take 2 = [ch '0', k] → (k = ch 'x' ∨ k = ch 'o' ∨ k = ch 'b') →
      ∃ k ds, s.buffer = ch '0' :: k :: ds ∧ (k = ch 'x' ∨ k = ch 'o' ∨ k = ch 'b') := by
    intro k hk hk'
    rcases hbuf with h | h
    · rw [h] at hk; simp at hk
    · exact h
  unfold bufferedRules
  by_cases h1 : s.buffer = [ch '0'] ∧ isDigit19 c = true
  · rw [if_pos h1]
    obtain ⟨d, rfl, hd1, hd2⟩ := digit19_some h1.2
    refine post_one ⟨?_, ?_⟩
    · simpa [Salvage.emit, Salvage.set] using good_step hg (z := [d]) (by simp; omega)
    · simp only [StateInv, Salvage.set, Salvage.emit]
      refine ⟨hs, y, sg ++ [d], hn, .int hsg (digits_one (by omega)) (by simp; omega), ?_⟩
      simp only [Option.toList]
      rw [← List.append_assoc, hx]; simp
  rw [if_neg h1]
  by_cases h2 : s.buffer = [ch '0'] ∧ c = some (ch '0')
  · rw [if_pos h2]
    exact post_one (stay _ hbuf)
  rw [if_neg h2]
  by_cases h3 : (s.buffer = [] ∨ s.buffer = [ch '0']) ∧ c = some (ch '.')
  · rw [if_pos h3]
    refine post_one ⟨?_, ?_⟩
    · simpa [Salvage.emit, Salvage.set] using good_step hg (z := [ch '0', ch '.']) (by simp)
    · simp only [StateInv, Salvage.set, Salvage.emit]
      refine ⟨hs, y, sg ++ [ch '0'] ++ [ch '.'], hn, .dot hsg (.inl rfl), ?_⟩
      rw [← List.append_assoc, hx]; simp
  rw [if_neg h3]
  by_cases h4 : s.buffer = [ch '0'] ∧ (c = some (ch 'x') ∨ c = some (ch 'X'))
  · rw [if_pos h4]
    exact post_one (stay _ (.inr ⟨ch 'x', [], by simp [h4.1], by omega⟩))
  rw [if_neg h4]
  by_cases h5 : s.buffer = [ch '0'] ∧ (c = some (ch 'o') ∨ c = some (ch 'O'))
  · rw [if_pos h5]
    exact post_one (stay _ (.inr ⟨ch 'o', [], by simp [h5.1], by omega⟩))
  rw [if_neg h5]
  by_cases h6 : s.buffer = [ch '0'] ∧ (c = some (ch 'b') ∨ c = some (ch 'B'))
  · rw [if_pos h6]
    exact post_one (stay _ (.inr ⟨ch 'b', [], by simp [h6.1], by omega⟩))
  rw [if_neg h6]
  by_cases h7 : s.buffer.take 2 = [ch '0', ch 'x'] ∧ isHexIn c = true
  · rw [if_pos h7]
    rcases c with _ | d
    · simp [isHexIn] at h7
    exact post_one (push d (prefix2 _ h7.1 (by omega)))
  rw [if_neg h7]
  by_cases h8 : s.buffer.take 2 = [ch '0', ch 'o'] ∧ isOctal c = true
  · rw [if_pos h8]
    rcases c with _ | d
    · simp [isOctal] at h8
    exact post_one (push d (prefix2 _ h8.1 (by omega)))
  rw [if_neg h8]
  by_cases h9 : s.buffer.take 2 = [ch '0', ch 'b'] ∧ isBinary c = true
  · rw [if_pos h9]
    rcases c with _ | d
    · simp [isBinary] at h9
    exact post_one (push d (prefix2 _ h9.1 (by omega)))
  rw [if_neg h9]
  have hint := bufInt_number hbuf
  have hg' := good_step hg (intPart_ascii hint)
  split
  · refine post_one ⟨?_, ?_⟩
    · simpa [Salvage.emit, Salvage.set] using good_step hg' (z := [ch 'e']) (by simp)
    · simp only [StateInv, Salvage.set, Salvage.emit]
      refine ⟨hs, y, sg ++ bufferedNumber s.buffer ++ [] ++ [ch 'e'], hn, .e hsg hint (.inl rfl), ?_⟩
      simp only [← List.append_assoc]
      rw [hx]; simp
  · refine post_all fun l => number_end (y := y) (t := sg ++ bufferedNumber s.buffer) ?_ (by exact hs) (by exact hn)
      (intPart_number hsg hint) ?_ l
    · simpa [Salvage.emit] using hg'
    · simp only [Salvage.emit]
      rw [← List.append_assoc, hx]; simp

theorem decimalRules_inv {s : Salvage} {pre : List Nat} {last c : Option Nat}
    (hst : s.state = .numberDecimal) (h : Inv D raw o s (pre ++ s.output) last) :
    Post D raw o pre c (decimalRules c s) := by
  obtain ⟨hg, hi⟩ := h
  simp only [StateInv, hst] at hi
  obtain ⟨hs, y, t, hn, hd, hx⟩ := hi
  -- another buffer and more output
  have step : ∀ b z, Decimal b (t ++ z) → (∀ c ∈ z, c < 0x80) →
      Inv D raw o { s with buffer := b, output := s.output ++ z } (pre ++ (s.output ++ z)) c := by
    intro b z hb hz
    refine ⟨by simpa using good_step hg hz, ?_⟩
    simp only [StateInv, hst]
    exact ⟨hs, y, t ++ z, hn, hb, by rw [← List.append_assoc, hx]; simp⟩
  unfold decimalRules
  split
  · rename_i hc
    obtain ⟨d, rfl, hd1⟩ : ∃ d, c = some d ∧ 48 ≤ d ∧ d ≤ 57 := by
      rcases c with _ | d
      · simp [isDigit09] at hc
      · exact ⟨d, rfl, by simpa [isDigit09] using hc⟩
    have ha : ∀ c ∈ [d], c < 0x80 := by simp; omega
    refine post_one ?_
    rcases hb : s.buffer with _ | ⟨b, bs⟩
    · rw [hb] at hd
      have := step [] [d] (by
        cases hd with
        | int h1 h2 h3 =>
          rw [List.append_assoc]
          exact .int h1 (digits_snoc h2 hd1) (by rw [head_snoc h2]; exact h3)) ha
      simpa [hb, Salvage.emit, Salvage.push] using this
    · rw [hb] at hd
      cases hd with
      | dot h1 h2 =>
        have := step [ch '.', ch '0'] [d] (by
          simpa using Decimal.frac h1 h2 (digits_one hd1)) ha
        simpa [hb, Salvage.emit, Salvage.push] using this
      | frac h1 h2 h3 =>
        have := step [ch '.', ch '0'] [d] (by
          simpa using Decimal.frac h1 h2 (digits_snoc h3 hd1)) ha
        simpa [hb, Salvage.emit, Salvage.push] using this
      | e h1 h2 h3 =>
        have := step [ch '.', ch '0', ch 'e', ch '+', ch '0'] [d] (by
          simpa using Decimal.exp h1 h2 h3 (.inl rfl) (digits_one hd1)) ha
        simpa [hb, Salvage.emit, Salvage.push] using this
      | sign h1 h2 h3 h4 =>
        rename_i g
        have := step [ch '.', ch '0', ch 'e', ch '+', ch '0'] [d] (by
          simpa using Decimal.exp h1 h2 h3 (g := [g]) (.inr (by rcases h4 with rfl | rfl <;> simp)) (digits_one hd1)) ha
        simpa [hb, Salvage.emit, Salvage.push] using this
      | exp h1 h2 h3 h4 h5 =>
        have := step [ch '.', ch '0', ch 'e', ch '+', ch '0'] [d] (by
          simpa using Decimal.exp h1 h2 h3 h4 (digits_snoc h5 hd1)) ha
        simpa [hb, Salvage.emit, Salvage.push] using this
  by_cases h1 : s.buffer = [] ∧ c = some (ch '.')
  · rw [if_pos h1]
    refine post_one ?_
    have hb := h1.1
    rw [hb] at hd
    cases hd with
    | int e1 e2 e3 =>
      have := step [ch '.'] [ch '.'] (.dot e1 (.inr ⟨e2, e3⟩)) (by simp)
      simpa [hb, Salvage.emit, Salvage.push] using this
  rw [if_neg h1]
  by_cases h2 : s.buffer = [] ∧ isE c = true
  · rw [if_pos h2]
    refine post_one ?_
    have hb := h2.1
    rw [hb] at hd
    cases hd with
    | int e1 e2 e3 =>
      have := step [ch '.', ch '0', ch 'e'] [ch 'e'] (by
        simpa using Decimal.e (f := []) e1 (.inr ⟨e2, e3⟩) (.inl rfl)) (by simp)
      simpa [hb, Salvage.emit, Salvage.push] using this
  rw [if_neg h2]
  by_cases h3 : s.buffer = [ch '.'] ∧ isE c = true
  · rw [if_pos h3]
    refine post_one ?_
    have hb := h3.1
    rw [hb] at hd
    cases hd with
    | dot e1 e2 =>
      have := step [ch '.', ch '0', ch 'e'] [ch '0', ch 'e'] (by
        simpa using Decimal.e (f := [ch '.', ch '0']) e1 e2 (.inr ⟨[ch '0'], digits_one (by omega), rfl⟩)) (by simp)
      simpa [hb, Salvage.emit, Salvage.push] using this
  rw [if_neg h3]
  by_cases h4 : s.buffer = [ch '.', ch '0'] ∧ isE c = true
  · rw [if_pos h4]
    refine post_one ?_
    have hb := h4.1
    rw [hb] at hd
    cases hd with
    | frac e1 e2 e3 =>
      have := step [ch '.', ch '0', ch 'e'] [ch 'e'] (by
        simpa using Decimal.e e1 e2 (.inr ⟨_, e3, rfl⟩)) (by simp)
      simpa [hb, Salvage.emit, Salvage.push] using this
  rw [if_neg h4]
  by_cases h5 : s.buffer = [ch '.', ch '0', ch 'e'] ∧ (c = some (ch '+') ∨ c = some (ch '-'))
  · rw [if_pos h5]
    refine post_one ?_
    have hb := h5.1
    rw [hb] at hd
    cases hd with
    | e e1 e2 e3 =>
      obtain ⟨g, hg1, hg2⟩ : ∃ g, c = some g ∧ (g = ch '+' ∨ g = ch '-') := by
        rcases h5.2 with h | h
        · exact ⟨_, h, .inl rfl⟩
        · exact ⟨_, h, .inr rfl⟩
      have := step [ch '.', ch '0', ch 'e', ch '+'] [g] (by
        simpa using Decimal.sign e1 e2 e3 hg2) (by simp; omega)
      rw [hg1] at this ⊢
      simpa [hb, Salvage.emit, Salvage.push] using this
  rw [if_neg h5]
  have hnum := decimal_number hd
  have e : (if s.buffer = [ch '.'] ∨ s.buffer = [ch '.', ch '0', ch 'e'] ∨
        s.buffer = [ch '.', ch '0', ch 'e', ch '+'] then s.emit [ch '0'] else s) = s.emit (decimalEnd s.buffer) := by
    unfold decimalEnd
    split <;> simp [Salvage.emit]
  simp only [e]
  refine post_all fun l => number_end (y := y) (t := t ++ decimalEnd s.buffer) ?_ (by exact hs) (by exact hn) hnum ?_ l
  · have : ∀ c ∈ decimalEnd s.buffer, c < 0x80 := by
      unfold decimalEnd
      split <;> simp
    simpa [Salvage.emit] using good_step hg this
  · simp only [Salvage.emit]
    rw [← List.append_assoc, hx]; simp

theorem numberRules_inv {s : Salvage} {pre : List Nat} {last c : Option Nat}
    (hst : s.state = .numberBuffered ∨ s.state = .numberDecimal) (h : Inv D raw o s (pre ++ s.output) last) :
    Post D raw o pre c (numberRules c s) := by
  unfold numberRules
  split
  · refine post_one ⟨h.1, ?_⟩
    rcases hst with hst | hst <;> simpa [StateInv, hst] using h.2
  · rcases hst with hst | hst
    · rw [if_pos hst]
      exact bufferedRules_inv hst h
    · rw [if_neg (by simp [hst])]
      exact decimalRules_inv hst h

end Verif.JsonSalvage
