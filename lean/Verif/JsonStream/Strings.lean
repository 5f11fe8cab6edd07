/-
The processors that quote and unquote.
-/
import Verif.JsonStream.Arrays

namespace Verif.JsonStream

/-! ### Code points -/

theorem utf8_char (c : Char) : utf8 c.toNat = charBytes c := by
  have hv : c.toNat < 0xD800 ∨ (0xDFFF < c.toNat ∧ c.toNat < 0x110000) := c.valid
  have e : c.val.toNat = c.toNat := rfl
  unfold utf8 charBytes String.utf8EncodeChar
  simp only [e]
  generalize c.toNat = v at *
  by_cases h1 : v < 0x80
  · have : v ≤ 127 := by omega
    simp [h1, this]
    omega
  · have : ¬ v ≤ 127 := by omega
    by_cases h2 : v < 0x800
    · have h2' : v ≤ 2047 := by omega
      simp [h1, this, h2, h2']
      omega
    · have h2' : ¬ v ≤ 2047 := by omega
      have h3 : ¬ (0xD800 ≤ v ∧ v < 0xE000) := by omega
      by_cases h4 : v < 0x10000
      · have h4' : v ≤ 65535 := by omega
        simp only [h1, this, h2, h2', h3, h4, h4', if_true, if_false, List.map_cons, List.map_nil,
          UInt8.toNat_ofNat]
        simp
        omega
      · have h4' : ¬ v ≤ 65535 := by omega
        simp only [h1, this, h2, h2', h3, h4, h4', if_true, if_false, List.map_cons, List.map_nil,
          UInt8.toNat_ofNat]
        simp
        omega

theorem digitValue_hex {d v : Nat} (h : HexDigit d v) : digitValue d = v := by
  unfold HexDigit at h
  unfold digitValue
  rcases h with ⟨h1, rfl⟩ | ⟨h1, h2, rfl | rfl⟩
  · rw [if_pos (by omega)]
    omega
  · rw [if_neg (by omega), if_pos (by omega)]
    omega
  · rw [if_neg (by omega), if_neg (by omega), if_pos (by omega)]
    omega

theorem hexDigit_lt {d v : Nat} (h : HexDigit d v) : v < 16 := by
  unfold HexDigit at h
  omega

theorem isHex_hex {d v : Nat} (h : HexDigit d v) : isHex d = true := by
  unfold HexDigit at h
  unfold isHex
  simp only [Bool.or_eq_true, Bool.and_eq_true, decide_eq_true_eq]
  omega

theorem hex_ne_quote {d v : Nat} (h : HexDigit d v) : d ≠ ch '"' := (hexDigit_plain h).2.1

theorem convert_hex {a b c d va vb vc vd : Nat} (ha : HexDigit a va) (hb : HexDigit b vb)
    (hc : HexDigit c vc) (hd : HexDigit d vd) :
    convertDigits 16 [a, b, c, d] = va * 4096 + vb * 256 + vc * 16 + vd := by
  have := hexDigit_lt ha
  have := hexDigit_lt hb
  have := hexDigit_lt hc
  have := hexDigit_lt hd
  unfold convertDigits
  simp only [List.foldl_cons, List.foldl_nil, digitValue_hex ha, digitValue_hex hb, digitValue_hex hc,
    digitValue_hex hd]
  omega

theorem Hex4.lt {h : Bytes} {v : Nat} (hh : Hex4 h v) : v < 65536 := by
  obtain ⟨a, b, c, d, va, vb, vc, vd, rfl, ha, hb, hc, hd, rfl⟩ := hh
  have := hexDigit_lt ha
  have := hexDigit_lt hb
  have := hexDigit_lt hc
  have := hexDigit_lt hd
  omega

/-! ### Unquote -/

/-- The state in a string, after a part of an escape. -/
def ust (e : Bytes) : Unquote := { inString := true, escape := e }

theorem unquote_plain {c : Nat} (h : Plain c) : unquoteStep (ust []) c = (ust [], [c]) := by
  simp [unquoteStep, ust, h.2.1, h.2.2]

theorem unquote_backslash : unquoteStep (ust []) (ch '\\') = (ust [ch '\\'], []) := by
  simp [unquoteStep, ust]

theorem unquote_u : unquoteStep (ust [ch '\\']) (ch 'u') = (ust [ch '\\', ch 'u'], []) := by
  simp [unquoteStep, ust]

theorem unquote_simple {c r : Nat} (h : (c, r) ∈ simpleEscapes) :
    unquoteStep (ust [ch '\\']) c = (ust [], [r]) := by
  simp [simpleEscapes] at h
  rcases h with ⟨rfl, rfl⟩ | ⟨rfl, rfl⟩ | ⟨rfl, rfl⟩ | ⟨rfl, rfl⟩ | ⟨rfl, rfl⟩ | ⟨rfl, rfl⟩ | ⟨rfl, rfl⟩ |
    ⟨rfl, rfl⟩ <;> simp [unquoteStep, ust]

/-- A hexadecimal digit that is not the fourth of an escape. -/
theorem unquote_digit {d v : Nat} (h : HexDigit d v) (x y : Nat) (e : Bytes)
    (hl : (x :: y :: e).length ∈ [2, 3, 4, 8, 9, 10]) :
    unquoteStep (ust (x :: y :: e)) d = (ust (x :: y :: e ++ [d]), []) := by
  have h1 := isHex_hex h
  have h2 := hex_ne_quote h
  simp only [List.length_cons, List.mem_cons, List.not_mem_nil, or_false] at hl
  have hn : ∀ k, k ∈ [5, 11, 6, 7] → ¬ e.length + 1 + 1 = k := by
    intro k hk
    simp only [List.mem_cons, List.not_mem_nil, or_false] at hk
    omega
  have n5 := hn 5 (by simp)
  have n11 := hn 11 (by simp)
  have n6 := hn 6 (by simp)
  have n7 := hn 7 (by simp)
  have hm : e.length + 1 + 1 ∈ [2, 3, 4, 8, 9, 10] := by
    simp only [List.mem_cons, List.not_mem_nil, or_false]
    exact hl
  simp only [unquoteStep, ust, if_true, List.length_cons, h2, if_false, reduceCtorEq, List.cons.injEq,
    and_false, n5, n11, n6, n7, false_and, h1, and_true, hm]

theorem unquote_hex4 {h : Bytes} {v : Nat} (hh : Hex4 h v) :
    feed unquoteStep (ust [ch '\\', ch 'u']) h =
      if isLead v then (ust (ch '\\' :: ch 'u' :: h), []) else (ust [], utf8 v) := by
  obtain ⟨a, b, c, d, va, vb, vc, vd, rfl, ha, hb, hc, hd, rfl⟩ := hh
  have h4 : unquoteStep (ust [ch '\\', ch 'u', a, b, c]) d =
      if isLead (va * 4096 + vb * 256 + vc * 16 + vd) then (ust [ch '\\', ch 'u', a, b, c, d], [])
      else (ust [], utf8 (va * 4096 + vb * 256 + vc * 16 + vd)) := by
    have h1 := isHex_hex hd
    have h2 := hex_ne_quote hd
    simp only [unquoteStep, ust, if_true, h2, if_false, reduceCtorEq, List.cons.injEq,
      List.length_cons, List.length_nil, h1, and_true, List.cons_append, List.nil_append, List.drop_succ_cons,
      List.drop_zero, List.take_succ_cons, List.take_zero, convert_hex ha hb hc hd, and_false]
  cases e : isLead (va * 4096 + vb * 256 + vc * 16 + vd)
  · rw [e] at h4
    exact feed_cons (unquote_digit ha _ _ [] (by simp)) (feed_cons (unquote_digit hb _ _ [a] (by simp))
      (feed_cons (unquote_digit hc _ _ [a, b] (by simp)) (feed_one h4)))
  · rw [e] at h4
    exact feed_cons (unquote_digit ha _ _ [] (by simp)) (feed_cons (unquote_digit hb _ _ [a] (by simp))
      (feed_cons (unquote_digit hc _ _ [a, b] (by simp)) (feed_one h4)))

theorem unquote_last {a b c d a' b' c' d' v v' w : Nat} (hv : convertDigits 16 [a, b, c, d] = v)
    (hv' : convertDigits 16 [a', b', c', d'] = v') (hd : HexDigit d' w) (ht : isTrail v' = true) :
    unquoteStep (ust [ch '\\', ch 'u', a, b, c, d, ch '\\', ch 'u', a', b', c']) d' =
      (ust [], utf8 (supplementary v v')) := by
  have h1 := isHex_hex hd
  have h2 := hex_ne_quote hd
  simp only [unquoteStep, ust, if_true, h2, if_false, reduceCtorEq, List.cons.injEq,
    List.length_cons, List.length_nil, h1, and_true, List.cons_append, List.nil_append,
    List.drop_succ_cons, List.drop_zero, List.take_succ_cons, List.take_zero, hv, hv', ht, and_false]
  simp

theorem feed_six {σ : Type} {step : σ → Nat → σ × Bytes} {s s1 s2 s3 s4 s5 s6 : σ}
    {a b c d e f : Nat} {z : Bytes} (h1 : step s a = (s1, [])) (h2 : step s1 b = (s2, []))
    (h3 : step s2 c = (s3, [])) (h4 : step s3 d = (s4, [])) (h5 : step s4 e = (s5, []))
    (h6 : step s5 f = (s6, z)) : feed step s [a, b, c, d, e, f] = (s6, z) :=
  feed_cons h1 (feed_cons h2 (feed_cons h3 (feed_cons h4 (feed_cons h5 (feed_one h6)))))

theorem unquote_second {h h' : Bytes} {v v' : Nat} (hh : Hex4 h v) (hh' : Hex4 h' v')
    (ht : isTrail v' = true) :
    feed unquoteStep (ust (ch '\\' :: ch 'u' :: h)) (ch '\\' :: ch 'u' :: h') =
      (ust [], utf8 (supplementary v v')) := by
  obtain ⟨a, b, c, d, va, vb, vc, vd, rfl, ha, hb, hc, hd, hv⟩ := hh
  obtain ⟨a', b', c', d', va', vb', vc', vd', rfl, ha', hb', hc', hd', hv'⟩ := hh'
  have e := convert_hex ha hb hc hd
  have e' := convert_hex ha' hb' hc' hd'
  rw [← hv] at e
  rw [← hv'] at e'
  have h4 := unquote_last e e' hd' ht
  have s1 : unquoteStep (ust [ch '\\', ch 'u', a, b, c, d, ch '\\', ch 'u']) a' =
    (ust [ch '\\', ch 'u', a, b, c, d, ch '\\', ch 'u', a'], []) :=
    unquote_digit ha' _ _ _ (by simp)
  have s2 : unquoteStep (ust [ch '\\', ch 'u', a, b, c, d, ch '\\', ch 'u', a']) b' =
    (ust [ch '\\', ch 'u', a, b, c, d, ch '\\', ch 'u', a', b'], []) :=
    unquote_digit hb' _ _ _ (by simp)
  have s3 : unquoteStep (ust [ch '\\', ch 'u', a, b, c, d, ch '\\', ch 'u', a', b']) c' =
    (ust [ch '\\', ch 'u', a, b, c, d, ch '\\', ch 'u', a', b', c'], []) :=
    unquote_digit hc' _ _ _ (by simp)
  have h1 : unquoteStep (ust [ch '\\', ch 'u', a, b, c, d]) (ch '\\') =
      (ust [ch '\\', ch 'u', a, b, c, d, ch '\\'], []) := by
    simp [unquoteStep, ust, isHex]
  have h2 : unquoteStep (ust [ch '\\', ch 'u', a, b, c, d, ch '\\']) (ch 'u') =
      (ust [ch '\\', ch 'u', a, b, c, d, ch '\\', ch 'u'], []) := by
    simp [unquoteStep, ust, isHex]
  exact feed_six h1 h2 s1 s2 s3 h4

theorem unquote_body {b o : Bytes} (h : Decodes b o) : feed unquoteStep (ust []) b = (ust [], o) := by
  induction h with
  | nil => rfl
  | plain hc _ ih => exact feed_cons (unquote_plain hc) ih
  | simple hc _ ih => exact feed_cons unquote_backslash (feed_cons (unquote_simple hc) ih)
  | @unicode h t o c hh _ ih =>
    have h1 := unquote_hex4 hh
    have hl : isLead c.toNat = false := by
      have hv : c.toNat < 0xD800 ∨ (0xDFFF < c.toNat ∧ c.toNat < 0x110000) := c.valid
      unfold isLead
      simp only [Bool.and_eq_false_iff, decide_eq_false_iff_not]
      omega
    rw [hl, utf8_char] at h1
    have := feed_cons unquote_backslash (feed_cons unquote_u (feed_seq h1 ih))
    simpa using this
  | @pair h h' v v' t o c hh hh' h1 h2 h3 h4 hc _ ih =>
    have e1 := unquote_hex4 hh
    have hl : isLead v = true := by simp [isLead, h1, h2]
    have ht : isTrail v' = true := by simp [isTrail, h3, h4]
    rw [hl] at e1
    have e2 := unquote_second hh hh' ht
    have hs : supplementary v v' = c.toNat := by
      rw [hc]
      unfold supplementary
      omega
    rw [hs, utf8_char] at e2
    have := feed_cons unquote_backslash (feed_cons unquote_u (feed_seq e1 (feed_seq e2 ih)))
    simpa using this

def uout : Unquote := { inString := false, escape := [] }

theorem unquote_quoted {b o : Bytes} (h : Decodes b o) :
    feed unquoteStep uout (quoted b) = (uout, o) := by
  have h1 : unquoteStep uout (ch '"') = (ust [], []) := by simp [unquoteStep, uout, ust]
  have h2 : unquoteStep (ust []) (ch '"') = (uout, []) := by simp [unquoteStep, uout, ust]
  have := feed_cons h1 (feed_seq (unquote_body h) (feed_one h2))
  simpa [quoted] using this

theorem unquote_silent {t : Bytes} (h : ∀ c ∈ t, c ≠ ch '"') : feed unquoteStep uout t = (uout, []) := by
  induction t with
  | nil => rfl
  | cons c t ih =>
    have hc := h c List.mem_cons_self
    have h1 : unquoteStep uout c = (uout, []) := by simp [unquoteStep, uout, hc]
    exact feed_cons h1 (ih fun x hx => h x (List.mem_cons_of_mem _ hx))

theorem unquote_spaces {w : Bytes} (h : Spaces w) : feed unquoteStep uout w = (uout, []) :=
  unquote_silent fun c hc => (space_ne (h c hc)).2.2.2.2.2.1

theorem unquote_one (c : Nat) (h : c ≠ ch '"') : unquoteStep uout c = (uout, []) := by
  simp [unquoteStep, uout, h]

def bodiesNode : Node → List Bytes
  | .value v => bodies v
  | .elems l => bodiesElems l
  | .members l => bodiesMembers l

theorem decodesAll_append {a b : List Bytes} {o : Bytes} (h : DecodesAll (a ++ b) o) :
    ∃ o1 o2, o = o1 ++ o2 ∧ DecodesAll a o1 ∧ DecodesAll b o2 := by
  induction a generalizing o with
  | nil => exact ⟨[], o, rfl, .nil, h⟩
  | cons x a ih =>
    cases h with
    | cons h1 h2 =>
      obtain ⟨o1, o2, rfl, h3, h4⟩ := ih h2
      exact ⟨_, o2, by simp, .cons h1 h3, h4⟩

theorem unquote_node {n : Node} {t : Bytes} (h : Text Spaces n t) :
    ∀ o, DecodesAll (bodiesNode n) o → feed unquoteStep uout t = (uout, o) := by
  have sc : ∀ {t}, Scalar t → ∀ o, DecodesAll [] o → feed unquoteStep uout t = (uout, o) := by
    intro t h o ho
    cases ho
    exact unquote_silent fun c hc => (h.2 c hc).2.1
  induction h with
  | null => exact sc scalar_null
  | bool b => exact sc (scalar_bool b)
  | num h => exact sc h.scalar
  | str h =>
    intro o ho
    cases ho with
    | cons h1 h2 =>
      cases h2
      rw [List.append_nil]
      exact unquote_quoted h1
  | arrNil hw =>
    intro o ho
    cases ho
    exact feed_cons (unquote_one _ (by decide)) (feed_seq (unquote_spaces hw)
      (feed_one (unquote_one _ (by decide))))
  | arr _ ih =>
    intro o ho
    have := feed_cons (unquote_one (ch '[') (by decide)) (feed_seq (ih o ho)
      (feed_one (unquote_one (ch ']') (by decide))))
    simpa using this
  | objNil hw =>
    intro o ho
    cases ho
    exact feed_cons (unquote_one _ (by decide)) (feed_seq (unquote_spaces hw)
      (feed_one (unquote_one _ (by decide))))
  | obj _ ih =>
    intro o ho
    have := feed_cons (unquote_one (ch '{') (by decide)) (feed_seq (ih o ho)
      (feed_one (unquote_one (ch '}') (by decide))))
    simpa using this
  | elem hw _ hw' ih =>
    intro o ho
    have := feed_seq (unquote_spaces hw) (feed_seq (ih o (by
      simpa [bodiesNode, bodiesElems] using ho)) (unquote_spaces hw'))
    simpa using this
  | elems hw _ hw' hr ih ih' =>
    intro o ho
    obtain ⟨o1, o2, rfl, h1, h2⟩ := decodesAll_append ho
    have := feed_seq (unquote_spaces hw) (feed_seq (ih o1 h1) (feed_seq (unquote_spaces hw')
      (feed_cons (unquote_one (ch ',') (by decide)) (ih' o2 h2))))
    simpa using this
  | member hw hk hw1 hw2 _ hw' ih =>
    intro o ho
    cases ho with
    | cons h1 h2 =>
      have := feed_seq (unquote_spaces hw) (feed_seq (unquote_quoted h1) (feed_seq (unquote_spaces hw1)
        (feed_cons (unquote_one (ch ':') (by decide)) (feed_seq (unquote_spaces hw2)
          (feed_seq (ih _ (by simpa [bodiesMembers, bodiesNode] using h2)) (unquote_spaces hw'))))))
      simpa using this
  | members hw hk hw1 hw2 _ hw' hr ih ih' =>
    intro o ho
    cases ho with
    | cons h1 h2 =>
      obtain ⟨o1, o2, rfl, h3, h4⟩ := decodesAll_append h2
      have := feed_seq (unquote_spaces hw) (feed_seq (unquote_quoted h1) (feed_seq (unquote_spaces hw1)
        (feed_cons (unquote_one (ch ':') (by decide)) (feed_seq (unquote_spaces hw2)
          (feed_seq (ih _ h3) (feed_seq (unquote_spaces hw')
            (feed_cons (unquote_one (ch ',') (by decide)) (ih' _ h4))))))))
      simpa using this

theorem unquote_doc {l : List Json} {t : Bytes} (h : Doc l t) :
    ∀ o, DecodesAll (l.flatMap bodies) o → (feed unquoteStep uout t).2 = o := by
  induction h with
  | nil hw =>
    intro o ho
    cases ho
    rw [unquote_spaces hw]
  | last hw hv =>
    intro o ho
    rw [feed_seq (unquote_spaces hw) (unquote_node hv o (by simpa [bodiesNode] using ho))]
    simp
  | @cons w v t c l r hw hv hc hr ih =>
    intro o ho
    obtain ⟨o1, o2, rfl, h1, h2⟩ := decodesAll_append (a := bodies v) (b := l.flatMap bodies) (by simpa using ho)
    have h3 := ih o2 h2
    rcases hf : feed unquoteStep uout r with ⟨s', x⟩
    rw [hf] at h3
    simp only at h3
    subst h3
    rw [feed_seq (unquote_spaces hw) (feed_seq (unquote_node hv o1 h1)
      (feed_cons (unquote_one c (space_ne hc).2.2.2.2.2.1) hf))]
    simp

theorem unquote_follows :
    Follows unquoteProcessor (fun (s : Unquote) x => (feed unquoteStep s x).2) := by
  have := loop_follows (σ := Unquote) unquoteInit unquoteStep (fun _ => [])
  simp only [List.append_nil] at this
  exact this

theorem unquoteAll_quoted {b o : Bytes} (h : Decodes b o) : unquoteAll (quoted b) = o := by
  have : unquoteAll (quoted b) = (single ((feed unquoteStep unquoteInit (quoted b)).2 ++ []) true).chunks.flatten := rfl
  rw [this, flatten_single, List.append_nil]
  exact congrArg Prod.snd (unquote_quoted h)

/-! ### Quote -/

theorem hexDigit_small (d : Nat) (h : d < 16) : HexDigit (hexDigit d) d := by
  unfold HexDigit hexDigit
  by_cases hd : d < 10
  · rw [if_pos hd]
    exact .inl ⟨hd, rfl⟩
  · rw [if_neg hd]
    exact .inr ⟨by omega, h, .inl rfl⟩

theorem decodes_quoteByte (c : Nat) {t o : Bytes} (h : Decodes t o) :
    Decodes (quoteByte c ++ t) (c :: o) := by
  have es : ∀ {x r}, (x, r) ∈ simpleEscapes → Decodes ([ch '\\', x] ++ t) (r :: o) := fun h' => .simple h' h
  unfold quoteByte
  by_cases h1 : c = ch '\\'
  · rw [if_pos h1]; subst h1; exact es (by simp [simpleEscapes])
  rw [if_neg h1]
  by_cases h2 : c = ch '"'
  · rw [if_pos h2]; subst h2; exact es (by simp [simpleEscapes])
  rw [if_neg h2]
  by_cases h3 : c = 8
  · rw [if_pos h3]; subst h3; exact es (by simp [simpleEscapes])
  rw [if_neg h3]
  by_cases h4 : c = 12
  · rw [if_pos h4]; subst h4; exact es (by simp [simpleEscapes])
  rw [if_neg h4]
  by_cases h5 : c = 10
  · rw [if_pos h5]; subst h5; exact es (by simp [simpleEscapes])
  rw [if_neg h5]
  by_cases h6 : c = 13
  · rw [if_pos h6]; subst h6; exact es (by simp [simpleEscapes])
  rw [if_neg h6]
  by_cases h7 : c = 9
  · rw [if_pos h7]; subst h7; exact es (by simp [simpleEscapes])
  rw [if_neg h7]
  by_cases h8 : c < 0x20
  · rw [if_pos h8]
    have hc : (Char.ofNat c).toNat = c := by
      have hv : c.isValidChar := by unfold Nat.isValidChar; omega
      unfold Char.ofNat
      rw [dif_pos hv]
      rfl
    have hh : Hex4 [ch '0', ch '0', hexDigit (c / 16), hexDigit (c % 16)] (Char.ofNat c).toNat :=
      ⟨_, _, _, _, 0, 0, c / 16, c % 16, rfl, .inl ⟨by omega, rfl⟩, .inl ⟨by omega, rfl⟩,
        hexDigit_small _ (by omega), hexDigit_small _ (by omega), by rw [hc]; omega⟩
    have := Decodes.unicode hh h
    rw [← utf8_char, hc] at this
    unfold utf8 at this
    rw [if_pos (by omega)] at this
    exact this
  · rw [if_neg h8]
    exact .plain ⟨by omega, h2, h1⟩ h

theorem decodes_quote (x : Bytes) : Decodes (x.flatMap quoteByte) x := by
  induction x with
  | nil => exact .nil
  | cons c x ih =>
    rw [List.flatMap_cons]
    exact decodes_quoteByte c ih

theorem Decodes.isBody {b o : Bytes} (h : Decodes b o) : IsBody b := by
  induction h with
  | nil => exact .nil
  | plain hc _ ih => exact .plain hc ih
  | simple hc _ ih => exact .simple hc ih
  | unicode hh _ ih => exact .unicode hh ih
  | pair hh hh' _ _ _ _ _ _ ih => exact .unicode hh (.unicode hh' ih)

end Verif.JsonStream
