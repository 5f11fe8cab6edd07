/-
Properties of the operators of `kd.json_stream`.
-/
import Verif.JsonStream.Operators

namespace Verif.JsonStream

def ascii (s : String) : Bytes := s.toList.map Char.toNat

/-- What an operator writes for a stream that ends well. -/
abbrev output (p : Processor) (items : List StreamItem) : Bytes := (drive p p.init items true).1.flatten

theorem output_ok {p : Processor} {R : p.St → Bytes → Bytes} (h : Follows p R) {items : List StreamItem}
    {t : Bytes} (hi : Delivers items t) : output p items = R p.init t := (drive_ok h p.init hi).1

/-! ### C59: the input may be cut anywhere -/

/-- **C59.** What an operator writes depends on the text that the stream delivers only, not on
the items of the stream, for valid and for invalid JSON; the output is closed well. -/
theorem C59_chunks {p : Processor} (h : IsOperator p) {a b : List StreamItem} {t : Bytes}
    (ha : Delivers a t) (hb : Delivers b t) :
    output p a = output p b ∧ (drive p p.init a true).2 = .ok := by
  obtain ⟨R, hR⟩ := operator_follows h
  exact ⟨(drive_ok hR _ ha).1.trans (drive_ok hR _ hb).1.symm, (drive_ok hR _ ha).2⟩

example : Delivers [.text (ascii "[1, "), .missing, .text (ascii "2]")] (ascii "[1, 2]") ∧
    Delivers [.text (ascii "[1, 2]")] (ascii "[1, 2]") ∧
    output explodeOp [.text (ascii "[1, "), .missing, .text (ascii "2]")] = ascii "1\n2\n" :=
  ⟨.text (.missing (.text .nil)), .text .nil, by decide +kernel⟩

/-- Items that are written are not empty. -/
theorem C59_no_empty_items {p : Processor} (h : IsOperator p) (items : List StreamItem) (ok : Bool) :
    [] ∉ (drive p p.init items ok).1 := drive_noEmpty (operator_noEmpty h) items ok p.init

/-- What is written before the end of the input stays: more input adds items. -/
theorem C59_prefix {p : Processor} (h : IsOperator p) {a : List StreamItem} {t : Bytes}
    (ha : Delivers a t) (more : List StreamItem) (ok : Bool) :
    (drive p p.init a false).1 <+: (drive p p.init (a ++ more) ok).1 := by
  obtain ⟨R, hR⟩ := operator_follows h
  rcases drive_append hR p.init ha more ok with ⟨h1, _⟩ | ⟨_, s', h1, _⟩
  · rw [h1]
    exact List.prefix_refl _
  · rw [h1]
    exact List.prefix_append _ _

/-! ### C60: errors -/

/-- **C60.** An error of the input stream becomes the error of the output stream; only `head`
may have closed its output before. -/
theorem C60_input_error {p : Processor} (h : IsOperator p) {a : List StreamItem} {t : Bytes}
    (ha : Delivers a t) : (drive p p.init a false).2 = .error ∨
      ((∃ n, p = headOp n) ∧ (drive p p.init a false).2 = .ok ∧
        ∀ more ok, drive p p.init (a ++ more) ok = drive p p.init a false) := by
  obtain ⟨R, hR⟩ := operator_follows h
  by_cases hn : ∃ n, p = headOp n
  · rcases drive_append hR p.init ha [] false with ⟨_, h2, _⟩ | ⟨h1, _⟩
    · refine .inr ⟨hn, h2, fun more ok => ?_⟩
      rcases drive_append hR p.init ha more ok with ⟨h3, _⟩ | ⟨h3, _⟩
      · exact h3
      · rw [h2] at h3
        exact absurd h3 (by simp)
    · exact .inl h1
  · exact .inl (drive_noEnd (operator_noEnd h fun n e => hn ⟨n, e⟩) ha _)

/-- An item that is not a string makes the operator fail; what was written before is what
is written when the input fails there, and nothing after it is read. -/
theorem C60_not_string {p : Processor} (h : IsOperator p) {a : List StreamItem} {t : Bytes}
    (ha : Delivers a t) (more : List StreamItem) (ok : Bool) (he : (drive p p.init a false).2 = .error) :
    drive p p.init (a ++ .other :: more) ok = ((drive p p.init a false).1, .notString) := by
  obtain ⟨R, hR⟩ := operator_follows h
  rcases drive_append hR p.init ha (.other :: more) ok with ⟨_, h2, _⟩ | ⟨_, s', h1, _⟩
  · rw [he] at h2
    exact absurd h2 (by simp)
  · rw [h1]
    simp [drive]

example : drive implodeOp implodeOp.init [.text (ascii "1 2 "), .other, .text (ascii "3")] true =
    ([ascii "[1,2"], .notString) ∧
  drive implodeOp implodeOp.init [.text (ascii "1 2 ")] false = ([ascii "[1,2"], .error) := by
  decide +kernel

/-! ### C61: texts of the same values -/

theorem delivers_texts {items : List StreamItem} {t : Bytes} (h : Delivers items t) :
    ∃ chunks : List Bytes, chunks.flatten = t ∧
      ∀ (p : Processor) s ok, drive p s items ok = drive p s (chunks.map .text) ok := by
  induction h with
  | nil => exact ⟨[], rfl, fun _ _ _ => rfl⟩
  | @text c l t _ ih =>
    obtain ⟨chunks, e, h⟩ := ih
    refine ⟨c :: chunks, by simp [e], fun p s ok => ?_⟩
    simp only [List.map_cons, drive]
    split
    · rfl
    · rw [h]
  | missing _ ih =>
    obtain ⟨chunks, e, h⟩ := ih
    exact ⟨chunks, e, fun p s ok => h p s ok⟩

/-- **C61.** `chunk_values` writes one item for each value: its text without whitespace, and
a newline.  Whitespace between the values may be left out where a value ends by itself or a bracket begins the next. -/
theorem C61_chunk_row {l : List Json} {t : Bytes} (h : Row l t) {items : List StreamItem}
    (hi : Delivers items t) :
    drive chunkValuesOp chunkValuesOp.init items true = (l.map fun v => compact v ++ [nl], .ok) := by
  obtain ⟨chunks, e, he⟩ := delivers_texts hi
  have h1 : (drive chunkValuesOp chunkValuesOp.init items true).1 = l.map fun v => compact v ++ [nl] := by
    rw [he]
    have := drive_chunkValues compactInit [] chunks
    rw [e] at this
    have h2 : (feed compactStep compactInit t).2 ++ compactFinish (feed compactStep compactInit t).1 = lines l :=
      compactify_row h
    rw [h2, chunk_lines l h.valid] at this
    exact this
  exact Prod.ext h1 (C59_chunks .chunkValues hi hi).2

/-- `chunk_values` on values separated by whitespace. -/
theorem C61_chunk_values {l : List Json} {t : Bytes} (h : Doc l t) {items : List StreamItem} (hi : Delivers items t) :
    drive chunkValuesOp chunkValuesOp.init items true = (l.map fun v => compact v ++ [nl], .ok) :=
  C61_chunk_row h.row hi

example : drive chunkValuesOp chunkValuesOp.init [.text (ascii "1[2]3{}\"a\"4")] true =
    ([ascii "1\n", ascii "[2]\n", ascii "3\n", ascii "{}\n", ascii "\"a\"\n", ascii "4\n"], .ok) := by decide +kernel

/-- The texts without whitespace are texts of the same values. -/
theorem C61_compact_doc {l : List Json} {t : Bytes} (h : Doc l t) : Doc l (lines l) := doc_lines h.valid

example : drive chunkValuesOp chunkValuesOp.init
    [.text (ascii " {\"a b\" : [1, "), .text (ascii "{}]} "), .text (ascii " null")] true =
    ([ascii "{\"a b\":[1,{}]}\n", ascii "null\n"], .ok) := by decide +kernel

/-- `prettify` writes the values as `json.dumps` does with an indent, separated by newlines. -/
theorem C61_prettify (indent : Bytes) {l : List Json} {t : Bytes} (h : Doc l t)
    (ht : ∀ c, t.head? = some c → ¬ Space c) {items : List StreamItem}
    (hi : Delivers items t) : output (prettifyOp indent) items = prettyDoc indent l := by
  have h1 := output_ok (prettify_follows indent) hi
  have h2 := prettify_doc indent h false false
  refine h1.trans (h2.trans ?_)
  have e : leadingSpace t = false := by
    cases t with
    | nil => rfl
    | cons c t =>
      have := ht c rfl
      simpa [leadingSpace, ← isSpace_iff] using this
  cases l <;> simp [prettyDocText, prettyDoc, e]

/-- If the text begins with whitespace, so does the output. -/
theorem C61_prettify_leading (indent : Bytes) {l : List Json} {t : Bytes} {c : Nat} (h : Doc l (c :: t))
    (hc : Space c) (hl : l ≠ []) {items : List StreamItem} (hi : Delivers items (c :: t)) :
    output (prettifyOp indent) items = nl :: prettyDoc indent l := by
  have h1 := output_ok (prettify_follows indent) hi
  have h2 := prettify_doc indent h false false
  refine h1.trans (h2.trans ?_)
  cases l with
  | nil => exact absurd rfl hl
  | cons v l => simp [prettyDocText, prettyDoc, leadingSpace, hc.isSpace]

/-- If the indent is whitespace, it is a text of the same values. -/
theorem C61_pretty_doc {indent : Bytes} (hi : Spaces indent) {l : List Json} {t : Bytes} (h : Doc l t) :
    Doc l (prettyDoc indent l) := doc_pretty hi h.valid

example : output (prettifyOp (ascii "  ")) [.text (ascii "{\"a\":[1,{}]"), .text (ascii ",\"b\":[]} null")] =
    ascii "{\n  \"a\": [\n    1,\n    {}\n  ],\n  \"b\": []\n}\nnull" := by decide +kernel

/-! ### C62: choosing values -/

/-- **C62.** `head` writes the first `n` values, one per line. -/
theorem C62_head (n : Int) {l : List Json} {t : Bytes} (h : Doc l t) {items : List StreamItem}
    (hi : Delivers items t) : output (headOp n) items = lines (l.take n.toNat) := by
  have h1 := output_ok (after_compact (head_follows n)) hi
  refine h1.trans ?_
  change headRest n 0 (compactRest compactInit t) = _
  rw [compactify_doc h, head_lines n 0 l h.valid]
  simp

/-- `head` closes its output once it has seen `n` values and the whitespace after them, whatever
comes next in the stream. -/
theorem C62_head_ends (n : Int) {l : List Json} {t : Bytes} (h : Doc l t) {c : Nat} (hc : Space c)
    {items : List StreamItem} (hi : Delivers items (t ++ [c])) (hn : n ≤ l.length) (hl : l ≠ [])
    (more : List StreamItem) (ok : Bool) :
    drive (headOp n) (headOp n).init (items ++ more) ok = drive (headOp n) (headOp n).init items true ∧
      (drive (headOp n) (headOp n).init (items ++ more) ok).2 = .ok := by
  have hd := doc_space h hc
  have hlen := lineCount_lines h.valid
  have h0 : 0 < l.length := List.length_pos_iff.2 hl
  have hok : (drive (headOp n) (headOp n).init items false).2 = .ok := by
    apply head_done n hi (cst 0 false) 0
    · rw [hd]
      simp only [hlen]
      omega
    · rw [hd]
      simp only [hlen]
      omega
  have hF := after_compact (head_follows n)
  have go : ∀ more ok, drive (headOp n) (headOp n).init (items ++ more) ok =
      drive (headOp n) (headOp n).init items false := by
    intro more ok
    rcases drive_append hF (headOp n).init hi more ok with ⟨h1, _⟩ | ⟨h1, _⟩
    · exact h1
    · have h2 : (drive (headOp n) (headOp n).init items false).2 = .error := h1
      rw [hok] at h2
      exact absurd h2 (by simp)
  have g := go [] true
  rw [List.append_nil] at g
  rw [g, go]
  exact ⟨rfl, hok⟩

example : drive (headOp 2) (headOp 2).init [.text (ascii "[ 1 ] 2 3"), .other] false =
    ([ascii "[1]\n2\n"], .ok) := by decide +kernel

/-- The selecting operators keep the values of their kind, one per line. -/
theorem C62_select_objects {l : List Json} {t : Bytes} (h : Doc l t) {items : List StreamItem}
    (hi : Delivers items t) : output selectObjectsOp items = lines (l.filter isNonemptyObject) := by
  have h1 := output_ok (after_compact objects_follows) hi
  refine h1.trans ?_
  change (feed (selectStep (ch '{') (ch '}')) .start (compactRest compactInit t)).2 = _
  rw [compactify_doc h, select_lines _ isNonemptyObject (fun v hv => objects_line hv) l h.valid]

theorem C62_select_arrays {l : List Json} {t : Bytes} (h : Doc l t) {items : List StreamItem}
    (hi : Delivers items t) : output selectArraysOp items = lines (l.filter isNonemptyArray) := by
  have h1 := output_ok (after_compact arrays_follows) hi
  refine h1.trans ?_
  change (feed (selectStep (ch '[') (ch ']')) .start (compactRest compactInit t)).2 = _
  rw [compactify_doc h, select_lines _ isNonemptyArray (fun v hv => arrays_line hv) l h.valid]

theorem C62_select_nonnull {l : List Json} {t : Bytes} (h : Doc l t) {items : List StreamItem}
    (hi : Delivers items t) : output selectNonnullOp items = lines (l.filter fun v => !isNull v) := by
  have h1 := output_ok (after_compact nonnull_follows) hi
  refine h1.trans ?_
  change (feed nonnullStep .start (compactRest compactInit t)).2 = _
  rw [compactify_doc h, select_lines _ (fun v => !isNull v) (fun v hv => ?_) l h.valid]
  rw [nonnull_line hv]
  cases isNull v <;> simp

example : output selectObjectsOp [.text (ascii "{} {\"a\": 1} [1] null")] = ascii "{\"a\":1}\n" ∧
    output selectArraysOp [.text (ascii "{} {\"a\": 1} [1] [ ]")] = ascii "[1]\n" ∧
    output selectNonnullOp [.text (ascii "{} null [ ] \"null\"")] = ascii "{}\n[]\n\"null\"\n" := by
  decide +kernel

/-! ### C63: arrays -/

/-- **C63.** `implode_array` writes the array of all values. -/
theorem C63_implode {l : List Json} {t : Bytes} (h : Doc l t) {items : List StreamItem}
    (hi : Delivers items t) : output implodeOp items = compact (.arr l) ++ [nl] := by
  have h1 := output_ok (after_compact implode_follows) hi
  refine h1.trans ?_
  change implodeRest ⟨false, false⟩ (compactRest compactInit t) = _
  rw [compactify_doc h, implode_doc l h.valid]

/-- `explode_array` writes the elements of the arrays, one per line. -/
theorem C63_explode {l : List Json} {t : Bytes} (h : Doc l t) {items : List StreamItem}
    (hi : Delivers items t) : output explodeOp items = lines (l.flatMap elements) :=
  (output_ok explode_follows hi).trans (explode_doc h false)

/-- Exploding what was imploded gives the values back. -/
theorem C63_round_trip {l : List Json} {t : Bytes} (h : Doc l t) {items items' : List StreamItem}
    (hi : Delivers items t) (hi' : Delivers items' (output implodeOp items)) :
    output explodeOp items' = lines l := by
  rw [C63_implode h hi] at hi'
  have hd : Doc [.arr l] (compact (.arr l) ++ [nl]) := by
    have := doc_lines (l := [.arr l]) (by simpa using valid_arr h.valid)
    simpa [lines] using this
  rw [C63_explode hd hi']
  simp [elements]

/-- `get_array_nth_value` writes, for each value, its `k`-th element or `null`.  After a value that
is no container, this is so only if the next one is an array with a `k`-th element. -/
theorem C63_nth (k : Nat) {l : List Json} {t : Bytes} (h : Doc l t) (hc : NthOk k l) {items : List StreamItem}
    (hi : Delivers items t) : output (nthOp k) items = lines (l.map (nthValue k)) :=
  (output_ok (nth_follows k) hi).trans (nth_doc h k hc false false (.inl ⟨rfl, rfl⟩))

/-- In particular for arrays and objects. -/
theorem C63_nth_containers (k : Nat) {l : List Json} {t : Bytes} (h : Doc l t)
    (hc : ∀ v ∈ l, isContainer v = true) {items : List StreamItem} (hi : Delivers items t) :
    output (nthOp k) items = lines (l.map (nthValue k)) := by
  refine C63_nth k h ?_ hi
  clear h hi
  induction l with
  | nil => trivial
  | cons v l ih =>
    refine ⟨fun e => ?_, ih fun w hw => hc w (List.mem_cons_of_mem _ hw)⟩
    rw [hc v List.mem_cons_self] at e
    exact absurd e (by simp)

/-- With a negative index nothing is written for arrays. -/
theorem C63_nth_negative {n : Int} (hn : n < 0) {l : List Json} {t : Bytes} (h : Doc l t)
    (hc : ∀ v ∈ l, isContainer v = true) {items : List StreamItem} (hi : Delivers items t) :
    output (nthOp n) items = l.flatMap fun v => match v with
      | .arr _ => []
      | _ => compact .null ++ [nl] := by
  refine ((output_ok (nth_follows n) hi).trans (nth_doc_negative n hn h hc)).trans ?_
  congr 1

example : output (nthOp 1) [.text (ascii "[1, {\"a\" : 2}, 3] [1] {\"a\":[1,2]}")] =
    ascii "{\"a\":2}\nnull\nnull\n" := by decide +kernel

/-- Values that are no containers are not ended: the second of two numbers has no output, and the
`null` of an array after a string is lost. -/
theorem C63_nth_scalars : output (nthOp 0) [.text (ascii "1\n2\n")] = ascii "null\n" ∧
    output (nthOp 0) [.text (ascii "\"a\"\n[]\n")] = ascii "null\n\n" ∧
    output (nthOp 1) [.text (ascii "1 [2]")] = ascii "null\n" := by decide +kernel

/-! ### C64: strings -/

/-- **C64.** `quote` writes one JSON string with the text as its content. -/
theorem C64_quote {items : List StreamItem} {t : Bytes} (hi : Delivers items t) :
    ∃ b, output quoteOp items = quoted b ∧ Decodes b t := by
  refine ⟨t.flatMap quoteByte, ?_, decodes_quote t⟩
  refine (output_ok quote_follows hi).trans ?_
  change quoteRest false t = _
  simp [quoteRest, quoted]

/-- `unquote` writes the contents of all strings, keys included, one after the other. -/
theorem C64_unquote {l : List Json} {t o : Bytes} (h : Doc l t) (ho : DecodesAll (l.flatMap bodies) o)
    {items : List StreamItem} (hi : Delivers items t) : output unquoteOp items = o :=
  (output_ok unquote_follows hi).trans (unquote_doc h o ho)

/-- Unquoting what was quoted gives the text back. -/
theorem C64_round_trip {items items' : List StreamItem} {t : Bytes} (hi : Delivers items t)
    (hi' : Delivers items' (output quoteOp items)) : output unquoteOp items' = t := by
  obtain ⟨b, hb, hd⟩ := C64_quote hi
  rw [hb] at hi'
  have hdoc : Doc [.str b] (quoted b) := by
    have := Doc.last spaces_nil (Text.str hd.isBody)
    simpa using this
  refine C64_unquote hdoc ?_ hi'
  have := DecodesAll.cons hd .nil
  simpa [bodies] using this

example : output quoteOp [.text (ascii "a\"b\\c\n"), .text [1, 233]] =
    ascii "\"a\\\"b\\\\c\\n\\u0001" ++ [233] ++ ascii "\"" := by decide +kernel

example : output unquoteOp [.text (ascii "{\"a\": \"\\u00e9\\n\"} \"\\ud83d\\u"), .text (ascii "de00!\"")] =
    ascii "a" ++ [0xc3, 0xa9, 10, 0xf0, 0x9f, 0x98, 0x80] ++ ascii "!" := by decide +kernel

/-- The character after half of a surrogate pair is lost. -/
theorem C64_lone_surrogate : output unquoteOp [.text (ascii "\"\\ud83dxyz\"")] =
    [0xef, 0xbf, 0xbd] ++ ascii "yz" := by decide +kernel

/-! ### C65: values of a key -/

/-- **C65.** `get_object_key_values` writes, for each value, the array of the values of the members with the key,
provided that no object in the input is empty, or that no value and no element of an array
is a string. -/
theorem C65_key_values (key : Bytes) {l : List Json} {t : Bytes} (h : Doc l t) {r : List (List Json)}
    (hr : AllKeyValues key l r) (hf : noEmptyObject (.arr l) = true ∨ noListedString (.arr l) = true)
    {items : List StreamItem} (hi : Delivers items t) :
    output (getKeyValuesOp key) items = lines (r.map .arr) := by
  have h1 := output_ok (after_compact (extract_follows (o := { match_ := keyMatch key, withPath := false }))) hi
  refine h1.trans ?_
  change (feed (extractStep _) (xst [] false false) (compactRest compactInit t)).2 = _
  rw [compactify_doc h, ← keyValues_lines hr]
  rcases hf with hf | hf
  · exact extract_lines (e := false) l h.valid (by simpa [FineNode, noEmptyObject] using hf) false (fun _ => rfl)
  · exact extract_lines (e := true) l h.valid (by simpa [FineNode, noListedString] using hf) false (fun _ => rfl)

/-- `get_object_key_value` writes the first of them, or `null`. -/
theorem C65_key_value (key : Bytes) {l : List Json} {t : Bytes} (h : Doc l t) {r : List (List Json)}
    (hr : AllKeyValues key l r) (hf : noEmptyObject (.arr l) = true ∨ noListedString (.arr l) = true)
    {items : List StreamItem} (hi : Delivers items t) :
    output (getKeyValueOp key) items = lines (r.map fun vs => vs.head?.getD .null) := by
  have h1 := output_ok (processor_follows (comp_follows (comp_follows compact_stage
    (stage_follows (extract_follows (o := { match_ := keyMatch key, withPath := false }))))
      (stage_follows (nth_follows 0)))) hi
  refine h1.trans ?_
  change (feed (nthStep ((0 : Nat) : Int)) (nst 0 false 0 false false)
    (feed (extractStep _) (xst [] false false) (compactRest compactInit t)).2).2 = _
  have h2 : (feed (extractStep { match_ := keyMatch key, withPath := false }) (xst [] false false)
      (compactRest compactInit t)).2 = lines (r.map .arr) := by
    rw [compactify_doc h, ← keyValues_lines hr]
    rcases hf with hf | hf
    · exact extract_lines (e := false) l h.valid (by simpa [FineNode, noEmptyObject] using hf) false (fun _ => rfl)
    · exact extract_lines (e := true) l h.valid (by simpa [FineNode, noListedString] using hf) false (fun _ => rfl)
  rw [h2]
  have hd : Doc (r.map .arr) (lines (r.map .arr)) := doc_lines fun v hv => by
    obtain ⟨vs, hm, rfl⟩ := List.mem_map.1 hv
    exact keyValues_valid hr h.valid vs hm
  rw [nth_doc hd 0 (nthOk_arrays 0 r) false false (.inl ⟨rfl, rfl⟩)]
  congr 1
  rw [List.map_map]
  apply List.map_congr_left
  intro vs _
  cases vs <;> simp [nthValue, elements]

example : output (getKeyValuesOp (ascii "a")) [.text (ascii "{\"a\": 1, \"b\": {\"a\": 2}, \"\\u0061\": [3]} [{\"a\":4}] 5")] =
    ascii "[1,[3]]\n[]\n[]\n" ∧
    output (getKeyValueOp (ascii "a")) [.text (ascii "{\"a\": 1, \"b\": {\"a\": 2}, \"\\u0061\": [3]} [{\"a\":4}] 5")] =
    ascii "1\nnull\nnull\n" := by decide +kernel

/-- After an empty object, a string that is not a key is taken for a part of the next key. -/
theorem C65_empty_object : output (getKeyValuesOp (ascii "b")) [.text (ascii "{\"a\":[{},\"x\"],\"b\":1}")] =
    ascii "[]\n" ∧
    output (getKeyValueOp (ascii "b")) [.text (ascii "{} \"x\" {\"b\":1}")] = ascii "null\nnull\nnull\n" := by
  decide +kernel

/-- The class behind them in general: for each value the array of the values whose paths are chosen, or of the
pairs of paths and values.  `dec` is the content of keys. -/
theorem C65_extract (o : ExtractOptions) {l : List Json} {t : Bytes} (h : Doc l t)
    (hf : noEmptyObject (.arr l) = true ∨ noListedString (.arr l) = true) :
    (apply (extractProcessor o) [lines l]).flatten =
      lines (l.map fun v => .arr ((found o.match_ dec [] v).map (itemJson o))) := by
  rw [apply_follows extract_follows]
  simp only [List.flatten_singleton]
  change (feed (extractStep _) (xst [] false false) (lines l)).2 = _
  rcases hf with hf | hf
  · exact extract_lines (e := false) l h.valid (by simpa [FineNode, noEmptyObject] using hf) false (fun _ => rfl)
  · exact extract_lines (e := true) l h.valid (by simpa [FineNode, noListedString] using hf) false (fun _ => rfl)

/-- The number that decimal digits stand for. -/
def digitsValue (ds : Bytes) : Nat := ds.foldl (fun a d => 10 * a + (d - 48)) 0

theorem decimal_spec (n : Nat) : Digits (decimal n) ∧ digitsValue (decimal n) = n ∧
    (n ≠ 0 → (decimal n).head? ≠ some 48) := by
  induction n using Nat.strongRecOn with
  | ind n ih =>
    unfold decimal
    by_cases h : n < 10
    · rw [dif_pos h]
      refine ⟨⟨by simp, by simp; omega⟩, ?_, ?_⟩
      · simp [digitsValue]
      · simp
    · rw [dif_neg h]
      obtain ⟨⟨h1, h2⟩, h3, h4⟩ := ih (n / 10) (by omega)
      refine ⟨⟨by simp, ?_⟩, ?_, ?_⟩
      · intro c hc
        rcases List.mem_append.1 hc with hc | hc
        · exact h2 c hc
        · simp only [List.mem_singleton] at hc
          omega
      · unfold digitsValue at h3 ⊢
        rw [List.foldl_append, h3]
        simp
        omega
      · intro _
        have := h4 (by omega)
        cases e : decimal (n / 10) with
        | nil => exact absurd e h1
        | cons c t =>
          rw [e] at this
          simpa using this

/-- The parts of a path as they are written: keys as strings with them as their content, indices as
numbers in decimal notation. -/
theorem C65_path_parts :
    (∀ k, ∃ b, partJson (.key k) = .str b ∧ Decodes b k) ∧
    (∀ i : Nat, ∃ ds, partJson (.index i) = .num ds ∧ IsNumber ds ∧ digitsValue ds = i) ∧
    (∀ k o, Decodes k o → dec k = o) := by
  refine ⟨fun k => ⟨_, rfl, decodes_quote k⟩, fun i => ⟨decimal i, ?_, ?_, (decimal_spec i).2.1⟩,
    fun k o h => unquoteAll_quoted h⟩
  · have : ¬ ((i : Int) < 0) := by omega
    simp [partJson, decimalInt, this]
  · refine ⟨[], decimal i, [], [], by simp, .inl rfl, ?_, .inl rfl, .inl rfl⟩
    by_cases h : i = 0
    · subst h
      left
      simp [decimal]
    · exact .inr ⟨(decimal_spec i).1, (decimal_spec i).2.2 h⟩

example : (apply (extractProcessor { match_ := fun p => p.getLast? == some (.index 1), withPath := true })
    [ascii "{\"a\":[1,[2,3]],\"b\":[[4,5]]}\n"]).flatten =
    ascii "[[[\"a\",1],[2,3]],[[\"b\",0,1],5]]\n" := by decide +kernel

end Verif.JsonStream
