/-
Properties of `kd.json_stream.salvage`.
-/
import Verif.JsonSalvage.Valid
import Verif.JsonSalvage.Frame
import Verif.JsonSalvage.Standard
import Verif.JsonSalvage.CutTexts
import Verif.JsonSalvage.Malformed
import Verif.JsonStream.Theorems

namespace Verif.JsonSalvage

open Verif.JsonStream

theorem salvage_output (o : Options) {items : List StreamItem} {t : Bytes} (hi : Delivers items t) :
    output (salvageOp o) items =
      (feed (salvageStep o) initial t).2 ++ encode (finalOutput o (feed (salvageStep o) initial t).1) :=
  output_ok (p := loop initial (salvageStep o) (fun s => encode (finalOutput o s)))
    (loop_follows initial (salvageStep o) (fun s => encode (finalOutput o s))) hi

theorem LooseDoc.congr {D D' : Defects} {t : List Nat} (h : LooseDoc D t) (e : D = D') : LooseDoc D' t := e ▸ h

/-! ### C66: the output is JSON -/

/-- **C66.** Whatever the input is, the output is the UTF-8 of JSON values on lines of their own, with the
defects that some pairs of bytes in the input cause, and with `NaN` and the infinities if these
are allowed. -/
theorem C66_valid (o : Options) {items : List StreamItem} {t : Bytes} (hi : Delivers items t) :
    ∃ cs : List Char, output (salvageOp o) items = bytesOf cs ∧ LooseDoc (defectsOf o.allowNan t) (codes cs) := by
  obtain ⟨cs, h1, h2, _⟩ := salvage_valid (o := o) (t := t) (D := defectsOf o.allowNan t) (raw := True)
    ⟨id, id, id, fun _ => trivial, id⟩
  exact ⟨cs, (salvage_output o hi).trans h1, h2⟩

/-- Without these pairs the output is JSON. -/
theorem C66_json (o : Options) {items : List StreamItem} {t : Bytes} (hi : Delivers items t)
    (h1 : o.allowNan = false)
    (h2 : ¬ HasPair (fun x y => (x = ch '-' ∨ x = ch '+') ∧ ((48 ≤ y ∧ y ≤ 57) ∨ y = ch '.')) t)
    (h3 : ¬ HasPair (fun x y => x = ch '\\' ∧ y < 0x20) t) (h4 : ¬ HasPair (fun x y => x = ch '`' ∧ y = ch '`') t) :
    ∃ (cs : List Char) (l : List Json), output (salvageOp o) items = bytesOf cs ∧ Doc l (codes cs) := by
  obtain ⟨cs, e, h⟩ := C66_valid o hi
  obtain ⟨l, hl⟩ := doc_strict (h.congr (D' := noDefects) (by simp [defectsOf, noDefects, h1, h2, h3, h4]))
  exact ⟨cs, l, e, hl⟩

/-- With `ensure_ascii` the output has ASCII characters only, unless a backslash comes before
another character in the input. -/
theorem C66_ascii (o : Options) {items : List StreamItem} {t : Bytes} (hi : Delivers items t)
    (h1 : o.ensureAscii = true) (h2 : ¬ HasPair (fun x y => x = ch '\\' ∧ 0x80 ≤ y) t) :
    ∀ c ∈ output (salvageOp o) items, c < 0x80 := by
  obtain ⟨cs, e, _, h⟩ := salvage_valid (o := o) (t := t) (D := defectsOf o.allowNan t)
    (raw := HasPair (fun x y => x = ch '\\' ∧ 0x80 ≤ y) t) ⟨id, id, id, id, id⟩
  replace h := h h1 h2
  rw [salvage_output o hi, e]
  intro c hc
  simp only [bytesOf, List.mem_flatMap] at hc
  obtain ⟨d, hd, hc⟩ := hc
  have := h d.toNat (by simp only [codes, List.mem_map]; exact ⟨d, hd, rfl⟩)
  rw [← utf8_char] at hc
  unfold utf8 at hc
  rw [if_pos this] at hc
  simp at hc
  omega

def defaults : Options := { allowNan := false, ensureAscii := true, maxDepth := 100 }

example : output (salvageOp defaults) [.text (ascii "{a: 'it\\'s', /* x */ b:[1,"), .text (ascii "0x1F, .5, Tru")] =
    ascii "{\"a\":\"it's\",\"b\":[1,31,0.5,\"Tru\"]}" := by decide +kernel

/-- In a JSON text that begins with `{` a space, a quote or the end of the object follows. -/
theorem doc_object {l : List Json} {c : Nat} {t : Bytes} (h : Doc l (ch '{' :: c :: t)) :
    Space c ∨ c = ch '"' ∨ c = ch '}' := by
  have value : ∀ n t', Text Spaces n t' → ∀ v, n = .value v → ∀ r, t' ++ r = ch '{' :: c :: t →
      Space c ∨ c = ch '"' ∨ c = ch '}' := by
    intro n t' h v hn r e
    have mem : ∀ l t', Text Spaces (.members l) t' → ∀ r, t' ++ r = c :: t → Space c ∨ c = ch '"' := by
      intro l t' h r e
      generalize hm : Node.members l = m at h
      have key : ∀ (w k q : Bytes), Spaces w → w ++ (quoted k ++ q) = c :: t → Space c ∨ c = ch '"' := by
        intro w k q hw e
        rcases w with _ | ⟨a, w⟩
        · simp [quoted] at e
          exact .inr e.1.symm
        · simp at e
          exact .inl (e.1 ▸ hw a (by simp))
      cases h with
      | member hw => exact key _ _ _ hw (by simpa using e)
      | members hw => exact key _ _ _ hw (by simpa using e)
      | _ => simp at hm
    cases h with
    | null => simp [nullText] at e
    | bool b => cases b <;> simp [boolText] at e
    | num h =>
      obtain ⟨sign, int, frac, exp, rfl, h1, h2, _⟩ := h
      exfalso
      rcases h1 with rfl | rfl
      · rcases h2 with rfl | ⟨h2, _⟩
        · simp at e
        · rcases int with _ | ⟨d, int⟩
          · exact h2.1 rfl
          · simp at e
            have := h2.2 d (by simp)
            omega
      · simp at e
    | str h => simp [quoted] at e
    | arrNil h => simp at e
    | arr h => simp at e
    | objNil h =>
      rename_i w
      rcases w with _ | ⟨a, w⟩
      · simp at e
        exact .inr (.inr e.1.symm)
      · simp at e
        exact .inl (e.1 ▸ h a (by simp))
    | obj h =>
      simp at e
      rcases mem _ _ h _ e with h | h
      · exact .inl h
      · exact .inr (.inl h)
    | _ => simp at hn
  have noSpace : ∀ (w r : Bytes), Spaces w → w ++ r = ch '{' :: c :: t → w = [] := by
    intro w r hw e
    rcases w with _ | ⟨a, w⟩
    · rfl
    · simp at e
      have := hw a (by simp)
      unfold Space at this
      omega
  generalize ht : ch '{' :: c :: t = x at h
  cases h with
  | nil h => exact absurd (noSpace _ [] h (by simpa using ht.symm)) (by rintro rfl; simp at ht)
  | last h h' =>
    have e := noSpace _ _ h ht.symm
    subst e
    exact value _ _ h' _ rfl [] (by simpa using ht.symm)
  | cons h h' =>
    have e := noSpace _ _ h ht.symm
    subst e
    exact value _ _ h' _ rfl _ ht.symm

/-- The pairs do cause defects: a number with a sign where a key is expected. -/
theorem C66_number_key_witness : output (salvageOp defaults) [.text (ascii "{-5: 1}")] = ascii "{-5:1}" ∧
    ¬ ∃ l, Doc l (ascii "{-5:1}") := by
  refine ⟨by decide +kernel, ?_⟩
  rintro ⟨l, h⟩
  have := doc_object (c := 45) (t := ascii "5:1}") h
  unfold Space at this
  omega

example : output (salvageOp defaults) [.text (ascii "{``")] = ascii "{\"\"}" ∧
    output (salvageOp defaults) [.text (ascii "{'a':``")] = ascii "{\"a\":\"\"null}" ∧
    output (salvageOp defaults) [.text (ascii "{'c':[1,2],-5:3}")] = ascii "{\"c\":[1,2]-5:3}" ∧
    output (salvageOp defaults) [.text (ascii "\"" ++ [ch '\\', 1] ++ ascii "\"")] =
      ascii "\"\\\\" ++ [1] ++ ascii "\"" ∧
    output (salvageOp { defaults with allowNan := true }) [.text (ascii "[nan, -INFINITY]")] =
      ascii "[NaN,-Infinity]" ∧
    output (salvageOp defaults) [.text (ascii "'" ++ [ch '\\', 0xC3, 0xA9] ++ ascii "'")] =
      ascii "\"\\\\" ++ [0xC3, 0xA9] ++ ascii "\"" := by
  decide +kernel

/-! ### C59 and C60: streams -/

theorem salvage_follows (o : Options) : ∃ R, Follows (salvageOp o) R := 
  ⟨_, loop_follows initial (salvageStep o) (fun s => encode (finalOutput o s))⟩

/-- **C59.** (salvage) The output does not depend on how the input is cut, is closed well, has no empty items, and
is written without being taken back. -/
theorem C59_salvage (o : Options) {a b : List StreamItem} {t : Bytes} (ha : Delivers a t) (hb : Delivers b t) :
    output (salvageOp o) a = output (salvageOp o) b ∧ (drive (salvageOp o) (salvageOp o).init a true).2 = .ok := by
  obtain ⟨R, hR⟩ := salvage_follows o
  exact ⟨(salvage_output o ha).trans (salvage_output o hb).symm, (drive_ok hR _ ha).2⟩

theorem C59_salvage_no_empty_items (o : Options) (items : List StreamItem) (ok : Bool) :
    [] ∉ (drive (salvageOp o) (salvageOp o).init items ok).1 :=
  drive_noEmpty (p := salvageOp o) (loop_noEmpty initial (salvageStep o) (fun s => encode (finalOutput o s))) items ok _

theorem C59_salvage_prefix (o : Options) {a : List StreamItem} {t : Bytes} (ha : Delivers a t) (more : List StreamItem) (ok : Bool) :
    (drive (salvageOp o) (salvageOp o).init a false).1 <+: (drive (salvageOp o) (salvageOp o).init (a ++ more) ok).1 := by
  obtain ⟨R, hR⟩ := salvage_follows o
  rcases drive_append hR (salvageOp o).init ha more ok with ⟨h1, _⟩ | ⟨_, s', h1, _⟩
  · rw [h1]
    exact List.prefix_refl _
  · rw [h1]
    exact List.prefix_append _ _

/-- **C60.** (salvage) Errors of the input are errors of the output, and so are items that are no strings. -/
theorem C60_salvage (o : Options) {a : List StreamItem} {t : Bytes} (ha : Delivers a t) (more : List StreamItem) (ok : Bool) :
    (drive (salvageOp o) (salvageOp o).init a false).2 = .error ∧
    drive (salvageOp o) (salvageOp o).init (a ++ .other :: more) ok =
      ((drive (salvageOp o) (salvageOp o).init a false).1, .notString) := by
  have he := drive_noEnd (p := salvageOp o) (loop_noEnd initial (salvageStep o) (fun s => encode (finalOutput o s))) ha (salvageOp o).init
  refine ⟨he, ?_⟩
  obtain ⟨R, hR⟩ := salvage_follows o
  rcases drive_append hR (salvageOp o).init ha (.other :: more) ok with ⟨_, h2, _⟩ | ⟨_, s', h1, _⟩
  · rw [he] at h2
    exact absurd h2 (by simp)
  · rw [h1]
    simp [drive]

example : drive (salvageOp defaults) (salvageOp defaults).init [.text (ascii "[1,"), .text (ascii "2,"), .other] true =
    ([ascii "[1", ascii ",2"], .notString) := by decide +kernel

/-! ### C67: texts like JSON are understood -/

/-- What is written is always text. -/
theorem final_chars (o : Options) {t : List Nat} (ht : ∀ c ∈ t, Scalar c) :
    ∃ out : List Char, encode (finalOutput o (run o initial t)) = bytesOf out ∧ codes out = finalOutput o (run o initial t) := by
  let D : Defects := { nan := True, numberKey := True, control := True, unfinished := True }
  have pair : ∀ l c, Pair D True l c :=
    fun l c => ⟨fun _ _ => trivial, fun _ _ _ _ => trivial, fun _ _ _ _ => trivial, fun _ _ => trivial⟩
  have h : ∀ (t : List Nat) (s : Salvage) (l : Option Nat), (∀ c ∈ t, Scalar c) → Inv D True o s ([] ++ s.output) l →
      ∃ l, Inv D True o (run o s t) ([] ++ (run o s t).output) l := by
    intro t
    induction t with
    | nil => intro s l _ h; exact ⟨l, h⟩
    | cons c t ih =>
      intro s l ht h
      exact ih _ _ (fun d hd => ht d (by simp [hd])) (processCodePoint_inv (fun _ => trivial) h (pair _ _) (ht c (by simp)))
  obtain ⟨l, hl⟩ := h t initial none ht (by
    refine ⟨by simp [AllGood, initial], ?_⟩
    simp only [StateInv, initial]
    exact ⟨trivial, .plain (by simp) ⟨rfl, fun _ => rfl, .nil⟩⟩)
  have := (finalOutput_spec (fun _ => trivial) hl).2
  exact encode_good (by simpa using this)

theorem codes_scalar (cs : List Char) : ∀ c ∈ codes cs, Scalar c := by
  intro c hc
  simp only [codes, List.mem_map] at hc
  obtain ⟨d, _, rfl⟩ := hc
  exact scalar_char d

/-- **C67.** Whatever a text like JSON means is written as JSON: the values of the text, on lines of their own. -/
theorem C67_values (o : Options) {cs : List Char} {l : List Value}
    (h : Reads o.allowNan (fun d => o.maxDepth < 0 ∨ (d : Int) < o.maxDepth) 0 (.elems l) (codes cs))
    {items : List StreamItem} (hi : Delivers items (bytesOf cs)) :
    ∃ out : List Char, output (salvageOp o) items = bytesOf out ∧ WritesDoc l (codes out) := by
  obtain ⟨out, h1, h2⟩ := final_chars o (codes_scalar cs)
  refine ⟨out, ?_, ?_⟩
  · rw [salvage_output o hi, salvage_text, h1]
  · rw [h2]
    exact read_text h

/-- A text and what it means: an object with a word as a key, an array without commas in it. -/
theorem lenient_example : Reads false (fun d => (100 : Int) < 0 ∨ (d : Int) < 100) 0
    (.elems [.obj [([ch 'k'], .arr [.num (ascii "31"), .bool true, .str (ascii "it's")])]])
    (ascii "{k:[0x1F TRUE\"it\\'s\"]}# end\n") := by
  have e : Filler (ascii "# end\n") :=
    Filler.hash (b := ascii " end") (e := 10) (t := []) (by decide) (by decide) .nil
  have hnum : NumberText (ascii "31") (ascii "0x1F") .number := by
    have hu : Unsigned (ascii "31") (ascii "0x1F") := by
      have := Unsigned.hex (x := ch 'x') (ds := ascii "1F") (.inl rfl) (by
        intro c hc
        have : c = 49 ∨ c = 70 := by simpa [ascii] using hc
        unfold IsHex IsDigit
        omega) (by decide)
      have e : decimalDigits (number 16 (ascii "1F")) = ascii "31" := by
        rw [decimalDigits, decimalDigits]
        rfl
      rw [e] at this
      exact this
    exact NumberText.plain (sg := []) (c := ch '0') (r := ascii "x1F") (.inl rfl) (by decide) hu rfl
  have hstr : QuotedText (ascii "it's") (ascii "\"it\\'s\"") .closed :=
    .single (.inl rfl) (.raw (by decide) (by decide) (.raw (by decide) (by decide) (.quote (.inl rfl)
      (.raw (by decide) (by decide) .close)))) (by decide)
      (.scalar (.inl (by decide)) (.scalar (.inl (by decide)) (.kept (.scalar (.inl (by decide)) .nil))))
  have helems : Reads false (fun d => (100 : Int) < 0 ∨ (d : Int) < 100) 2
      (.elems [.num (ascii "31"), .bool true, .str (ascii "it's")]) (ascii "0x1F TRUE\"it\\'s\"") :=
    .elems (w := []) (t := ascii "0x1F") (r := ascii " TRUE\"it\\'s\"") .nil (.num hnum)
      (by simp [ascii, Ends, IsDigit, IsLetter])
      (.elems (w := [32]) (t := ascii "TRUE") (r := ascii "\"it\\'s\"") (.space (.inl (by decide)) .nil)
        (.atom (a := ascii "true") (.head _) (by decide)) trivial
        (.elems (w := []) (t := ascii "\"it\\'s\"") (r := []) .nil (.str hstr) trivial (.elemsNil .nil)))
  refine .elems (e := .closed) (w := []) (t := ascii "{k:[0x1F TRUE\"it\\'s\"]}") (r := ascii "# end\n") .nil ?_ trivial (.elemsNil e)
  refine .object (t := ascii "k:[0x1F TRUE\"it\\'s\"]") (.inr (by decide)) ?_ (.inr (.inl rfl))
  refine .members (w := []) (tk := [ch 'k']) (w' := [ch ':']) (tv := ascii "[0x1F TRUE\"it\\'s\"]") (r := []) .nil
    (.keyWord ⟨⟨ch 'k', rfl, .inl ⟨.inl (by simp [IsLetter]), by decide⟩⟩, ?_, ?_⟩) ?_ (.space (.inr (.inr rfl)) .nil)
    (.array (.inl rfl) (.inr (by decide)) helems (.inl rfl)) trivial (.membersNil .nil)
  · intro c hc
    simp at hc
    subst hc
    exact ⟨.inl (by decide), by decide, by decide, by decide, by decide, by decide, by decide, by decide, by decide, by decide⟩
  · intro c d h1 h2
    simp at h2
  · exact .inr (.inr (.inl rfl))

example : output (salvageOp defaults) [.text (ascii "{k:[0x1F TRUE\"it\\'s\"]}# end\n")] =
    ascii "{\"k\":[31,true,\"it's\"]}" := by decide +kernel

/-- Texts outside of the language: a comment that is not seen as closed, a number that does not fit in 64 bits, a backslash after a
quote in triple quotes, halves of surrogate pairs that are not adjacent, empty backticks, a closing bracket before all values. -/
example : output (salvageOp defaults) [.text (ascii "1 /***/ 2")] = ascii "1" ∧
    output (salvageOp defaults) [.text (ascii "0x10000000000000001")] = ascii "1" ∧
    output (salvageOp defaults) [.text (ascii "'''a'\\n'''")] = ascii "\"a'\\\\n\"" ∧
    output (salvageOp defaults) [.text (ascii "\"\\ud83d\\n\\ude00\"")] = ascii "\"\\n\\ud83d\\ude00\"" ∧
    output (salvageOp defaults) [.text (ascii "`` 1")] = ascii "\"``\"\n1" ∧
    output (salvageOp defaults) [.text (ascii "] 1")] = ascii "\n1" := by
  decide +kernel

/-! ### C68: JSON stays what it is -/

/-- **C68.** The output for JSON is JSON of the same values, if `max_depth` allows them. -/
theorem C68_json_kept (o : Options) {cs : List Char} {l : List Json} {l' : List Value} {n : Nat} (h : Doc l (codes cs))
    (hm : Denotes n (.elems l) (.elems l')) (hn : o.maxDepth < 0 ∨ (n : Int) ≤ o.maxDepth)
    {items : List StreamItem} (hi : Delivers items (bytesOf cs)) :
    ∃ out : List Char, output (salvageOp o) items = bytesOf out ∧ WritesDoc l' (codes out) := by
  refine C67_values o (json_doc h hm (fun k hk => ?_) ?_) hi
  · rcases hn with hn | hn
    · exact .inl hn
    · exact .inr (by omega)
  · intro c hc
    have := codes_scalar cs c hc
    unfold Scalar at this
    unfold IsScalar
    omega

example : Denotes 1 (.elems [.arr [.num (ascii "1E5"), .str (ascii "a\\u0041")]])
    (.elems [.arr [.num (ascii "1e5"), .str (ascii "aA")]]) := by
  refine .elems (.arr (.elems .num (.elems (.str (.plain (by unfold Plain; decide) ?_)) .elemsNil))) .elemsNil
  exact Content.unicode (h := ascii "0041") (v := 65) (t := [])
    ⟨48, 48, 52, 49, 0, 0, 4, 1, rfl, .inl (by decide), .inl (by decide), .inl (by decide), .inl (by decide), rfl⟩
    (.inl (by decide)) .nil

example : output (salvageOp defaults) [.text (ascii "[1E5, \"a\\u0041\"]")] = ascii "[1e5,\"aA\"]" := by decide +kernel

/-- Where containers must not begin, their text is read as something else. -/
example : output (salvageOp { defaults with maxDepth := 1 }) [.text (ascii "[[1]]")] = ascii "[\"[1\"]" := by decide +kernel

/-! ### C69: texts that are cut off -/

/-- **C69.** What is open at the end of the input is closed there: strings, arrays, objects and comments.  A key
without a value gets `null`. -/
theorem C69_cut_off (o : Options) {cs : List Char} {l : List Value}
    (h : Cut o.allowNan (fun d => o.maxDepth < 0 ∨ (d : Int) < o.maxDepth) 0 (.elems l) (codes cs))
    {items : List StreamItem} (hi : Delivers items (bytesOf cs)) :
    ∃ out : List Char, output (salvageOp o) items = bytesOf out ∧ WritesDoc l (codes out) := by
  obtain ⟨out, h1, h2⟩ := final_chars o (codes_scalar cs)
  refine ⟨out, ?_, ?_⟩
  · rw [salvage_output o hi, salvage_text, h1]
  · rw [h2]
    exact cut_whole h

/-- An array with an object that ends in a key, behind a number. -/
theorem cut_example : Cut false (fun d => (100 : Int) < 0 ∨ (d : Int) < 100) 0
    (.elems [.arr [.num (ascii "7"), .obj [(ascii "it", .null)]]]) (ascii "[7,{\"it\\") := by
  have hnum : NumberText (ascii "7") (ascii "7") .number := by
    refine NumberText.plain (sg := []) (n := ascii "7") (c := ch '7') (r := []) (.inl rfl) (by decide) ?_ rfl
    exact Unsigned.int (ds := ascii "7") ⟨by decide, by decide⟩
  have hstr : CutText (ascii "it") (ascii "\"it\\") :=
    .single (.inl rfl) (.raw (by decide) (by decide) (.raw (by decide) (by decide) (.cutEscape rfl))) (by decide)
      (.scalar (.inl (by decide)) (.scalar (.inl (by decide)) .nil))
  refine .elemsLast (w := []) .nil (.array (t := ascii "7,{\"it\\") (.inl rfl) (.inr (by decide)) ?_)
  refine .elems (w := []) (t := ascii "7") (r := ascii ",{\"it\\") .nil (.num hnum) (by simp [ascii, Ends, IsDigit, IsLetter]) ?_
  refine .elemsLast (w := [ch ',']) (.space (.inr (.inl rfl)) .nil) (.object (t := ascii "\"it\\") (.inr (by decide)) ?_)
  exact .membersKey (w := []) .nil (.keyStr hstr)

example : output (salvageOp defaults) [.text (ascii "[7,{\"it\\")] = ascii "[7,{\"it\":null}]" ∧
    output (salvageOp defaults) [.text (ascii "{'a': [(1, '''x''")] = ascii "{\"a\":[[1,\"x\"]]}" ∧
    output (salvageOp defaults) [.text (ascii "[\"\\u{41")] = ascii "[\"A\"]" ∧
    output (salvageOp defaults) [.text (ascii "{a: 1 /* b: 2")] = ascii "{\"a\":1}" := by decide +kernel

/-! ### C70: bytes that are not UTF-8 -/

/-- **C70.** Bytes are read as the text they stand for, in which U+FFFD replaces what is not UTF-8. -/
theorem C70_replaced (o : Options) {t : Bytes} {cs : List Char} (h : Decodes t cs) {items items' : List StreamItem}
    (hi : Delivers items t) (hi' : Delivers items' (bytesOf cs)) :
    output (salvageOp o) items = output (salvageOp o) items' := by
  rw [salvage_output o hi, salvage_output o hi', salvage_text, salvage_decoded h]

/-- All bytes stand for a text. -/
theorem C70_total (t : Bytes) : ∃ cs, Decodes t cs := decodes_total t

/-- UTF-8 stands for what it is. -/
theorem C70_utf8 (cs : List Char) : Decodes (bytesOf cs) cs := by
  induction cs with
  | nil => exact .nil
  | cons c cs ih => exact .char ih

example : Decodes [0x80, 0x41, 0xE2, 0x82, 0x42, 0xF0, 0x9F] ['�', 'A', '�', 'B'] :=
  .alone (.inl (by simp [IsTrailByte])) (.char (c := 'A') (.short (a := 0xE2) (n := 2) (l := [0x82]) (by simp [Needs])
    (by simp [IsTrailByte]) (by simp) (by simp [IsTrailByte]) (.char (c := 'B') (.cut (n := 3) (by simp [Needs]) (by simp [IsTrailByte])
    (by simp)))))

example : output (salvageOp { defaults with ensureAscii := false }) [.text ([ch '"', 0x80, 0x41, 0xE2, 0x82, 0x42, 0xF0, 0x9F])] =
    [ch '"', 0xEF, 0xBF, 0xBD, 0x41, 0xEF, 0xBF, 0xBD, 0x42, ch '"'] := by decide +kernel

end Verif.JsonSalvage
