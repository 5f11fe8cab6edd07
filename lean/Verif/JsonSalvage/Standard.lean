/-
JSON is read as what it means.
-/
import Verif.JsonSalvage.ReadTexts

namespace Verif.JsonSalvage

open Verif.JsonStream

theorem hexDigit_is {d v : Nat} (h : HexDigit d v) : IsHex d ∧ digit d = v := by
  unfold HexDigit at h
  unfold IsHex IsDigit digit
  constructor
  · omega
  · repeat' split
    all_goals omega

theorem hex4_is {h : List Nat} {v : Nat} (hh : Hex4 h v) : (∀ c ∈ h, IsHex c) ∧ h.length = 4 ∧ number 16 h = v := by
  obtain ⟨a, b, c, d, va, vb, vc, vd, rfl, h1, h2, h3, h4, rfl⟩ := hh
  obtain ⟨h1, e1⟩ := hexDigit_is h1
  obtain ⟨h2, e2⟩ := hexDigit_is h2
  obtain ⟨h3, e3⟩ := hexDigit_is h3
  obtain ⟨h4, e4⟩ := hexDigit_is h4
  refine ⟨by simp [h1, h2, h3, h4], rfl, ?_⟩
  simp [number, e1, e2, e3, e4]
  omega

/-- The body of a JSON string. -/
theorem content_body {b u : List Nat} (h : Content b u) (hb : ∀ c ∈ b, IsScalar c) :
    ∃ ts, Body (ch '"') false [ch '"'] ts (b ++ [ch '"']) ∧ Means ts u := by
  induction h with
  | nil => exact ⟨[], .close, .nil⟩
  | @plain c t u hc _ ih =>
    obtain ⟨ts, h1, h2⟩ := ih fun d hd => hb d (by simp [hd])
    exact ⟨_, .raw hc.2.2 hc.2.1 h1, .scalar (hb c (by simp)) h2⟩
  | @simple c r t u hc _ ih =>
    obtain ⟨ts, h1, h2⟩ := ih fun d hd => hb d (by simp [hd])
    exact ⟨_, .simple hc h1, .kept h2⟩
  | @unicode h v t u hh hv _ ih =>
    obtain ⟨ts, h1, h2⟩ := ih fun d hd => hb d (by simp [hd])
    obtain ⟨g1, g2, g3⟩ := hex4_is hh
    refine ⟨.unit v :: ts, ?_, .scalar hv h2⟩
    have := Body.hex4 (q := ch '"') (triple := false) (close := [ch '"']) (ds := h) ⟨g1, .inl g2⟩ (by rintro rfl; simp at g2) h1
    rw [g3] at this
    simpa using this
  | @pair h h' v v' t u hh hh' hv hv' _ ih =>
    obtain ⟨ts, h1, h2⟩ := ih fun d hd => hb d (by simp [hd])
    obtain ⟨g1, g2, g3⟩ := hex4_is hh
    obtain ⟨g1', g2', g3'⟩ := hex4_is hh'
    refine ⟨.unit v :: .unit v' :: ts, ?_, .pair hv hv' h2⟩
    have := Body.hex4 (q := ch '"') (triple := false) (close := [ch '"']) (ds := h') ⟨g1', .inl g2'⟩ (by rintro rfl; simp at g2') h1
    have := Body.hex4 (q := ch '"') (triple := false) (close := [ch '"']) (ds := h) ⟨g1, .inl g2⟩ (by rintro rfl; simp at g2) this
    rw [g3, g3'] at this
    simpa using this

theorem content_head {b u : List Nat} (h : Content b u) : b = [] ∨ ∃ c t, b = c :: t ∧ c ≠ ch '"' := by
  cases h with
  | nil => exact .inl rfl
  | plain h => exact .inr ⟨_, _, rfl, h.2.1⟩
  | simple => exact .inr ⟨_, _, rfl, by simp⟩
  | unicode => exact .inr ⟨_, _, rfl, by simp⟩
  | pair => exact .inr ⟨_, _, rfl, by simp⟩

/-- What may follow a string or a number in JSON. -/
def JsonEnds (c : Option Nat) : Prop :=
  c = none ∨ ∃ d, c = some d ∧ (Space d ∨ d = ch ',' ∨ d = ch ':' ∨ d = ch ']' ∨ d = ch '}')

theorem json_quoted {b u : List Nat} (h : Content b u) (hb : ∀ c ∈ b, IsScalar c) :
    ∃ e, QuotedText u (quoted b) e ∧ ∀ c, JsonEnds c → Ends e c := by
  obtain ⟨ts, h1, h2⟩ := content_body h hb
  rcases content_head h with rfl | ⟨c, t, rfl, hc⟩
  · cases h
    refine ⟨_, .empty (.inl rfl), ?_⟩
    rintro c (rfl | ⟨d, rfl, hd⟩)
    · trivial
    · simp only [Ends]
      unfold Space at hd
      omega
  · refine ⟨_, .single (.inl rfl) h1 ?_ h2, fun _ _ => trivial⟩
    simpa using hc

theorem dropZeros_int {ds : List Nat} (h : ds = [ch '0'] ∨ (Digits ds ∧ ds.head? ≠ some (ch '0'))) : dropZeros ds = ds := by
  rcases h with rfl | ⟨h1, h2⟩
  · rfl
  · rcases ds with _ | ⟨c, _ | ⟨d, t⟩⟩
    · exact absurd rfl h1.1
    · rfl
    · simp only [dropZeros]
      rw [if_neg (by simpa using h2)]

theorem json_number {t : List Nat} (h : IsNumber t) : NumberText (smallE t) t .number := by
  obtain ⟨sign, int, frac, exp, rfl, hs, hi, hf, he⟩ := h
  have hint : Digits int := by
    rcases hi with rfl | h
    · exact ⟨by simp, by simp⟩
    · exact h.1
  have hz := dropZeros_int hi
  have se : ∀ ds : List Nat, (∀ c ∈ ds, 48 ≤ c ∧ c ≤ 57) → smallE ds = ds := by
    intro ds h
    have : ∀ c ∈ ds, (if c = ch 'E' then ch 'e' else c) = c := by
      intro c hc
      have := h c hc
      rw [if_neg (by omega)]
    calc smallE ds = ds.map id := List.map_congr_left this
      _ = ds := by simp
  have sapp : ∀ a b : List Nat, smallE (a ++ b) = smallE a ++ smallE b := fun a b => by simp [smallE]
  have hun : Unsigned (smallE (int ++ frac ++ exp)) (int ++ frac ++ exp) ∧ ∀ c ∈ int ++ frac ++ exp, c ∉ separators := by
    have nosep : ∀ c : Nat, (48 ≤ c ∧ c ≤ 57) ∨ c = ch '.' ∨ c = ch 'e' ∨ c = ch 'E' ∨ c = ch '+' ∨ c = ch '-' → c ∉ separators := by
      intro c hc
      simp only [separators, List.mem_cons, List.not_mem_nil, or_false]
      omega
    have or0 : ∀ ds : List Nat, Digits ds → orZero ds = ds := fun ds h => by simp [orZero, h.1]
    rcases hf with rfl | ⟨fs, hfs, rfl⟩ <;> rcases he with rfl | ⟨e, g, xs, he, hg, hx, rfl⟩
    · refine ⟨?_, ?_⟩
      · have := Unsigned.int hint
        rw [hz] at this
        simpa [se int hint.2] using this
      · intro c hc
        simp at hc
        exact nosep c (.inl (hint.2 c hc))
    · refine ⟨?_, ?_⟩
      · have := Unsigned.intExp hint he hg hx.2
        rw [hz, or0 xs hx] at this
        have e1 : smallE (e :: (g ++ xs)) = ch 'e' :: (g ++ xs) := by
          have : smallE (e :: (g ++ xs)) = smallE [e] ++ (smallE g ++ smallE xs) := by simp [smallE]
          rw [this, se xs hx.2]
          rcases he with rfl | rfl <;> rcases hg with rfl | rfl | rfl <;> rfl
        have e2 : int ++ [] ++ (e :: g ++ xs) = int ++ e :: (g ++ xs) := by simp
        rw [e2, sapp, se int hint.2, e1]
        exact this
      · intro c hc
        simp at hc
        rcases hc with hc | hc | hc | hc
        · exact nosep c (.inl (hint.2 c hc))
        · exact nosep c (by omega)
        · rcases hg with rfl | rfl | rfl <;> simp at hc <;> exact nosep c (by omega)
        · exact nosep c (.inl (hx.2 c hc))
    · refine ⟨?_, ?_⟩
      · have := Unsigned.frac (ds := int) (fs := fs) (by
          intro c hc
          rcases List.mem_append.mp hc with hc | hc
          · exact hint.2 c hc
          · exact hfs.2 c hc)
        rw [hz, or0 fs hfs] at this
        have e1 : smallE (ch '.' :: fs) = ch '.' :: fs := by
          have : smallE (ch '.' :: fs) = ch '.' :: smallE fs := rfl
          rw [this, se fs hfs.2]
        have e2 : int ++ ch '.' :: fs ++ [] = int ++ ch '.' :: fs := by simp
        rw [e2, sapp, se int hint.2, e1]
        exact this
      · intro c hc
        simp at hc
        rcases hc with hc | hc | hc
        · exact nosep c (.inl (hint.2 c hc))
        · exact nosep c (by omega)
        · exact nosep c (.inl (hfs.2 c hc))
    · refine ⟨?_, ?_⟩
      · have := Unsigned.fracExp (ds := int) (fs := fs) (by
          intro c hc
          rcases List.mem_append.mp hc with hc | hc
          · exact hint.2 c hc
          · exact hfs.2 c hc) he hg hx.2
        rw [hz, or0 fs hfs, or0 xs hx] at this
        have e1 : smallE (e :: (g ++ xs)) = ch 'e' :: (g ++ xs) := by
          have : smallE (e :: (g ++ xs)) = smallE [e] ++ (smallE g ++ smallE xs) := by simp [smallE]
          rw [this, se xs hx.2]
          rcases he with rfl | rfl <;> rcases hg with rfl | rfl | rfl <;> rfl
        have e2 : int ++ ch '.' :: fs ++ (e :: g ++ xs) = int ++ (ch '.' :: (fs ++ e :: (g ++ xs))) := by simp
        have e3 : smallE (ch '.' :: (fs ++ e :: (g ++ xs))) = ch '.' :: (smallE fs ++ smallE (e :: (g ++ xs))) := by
          have : smallE (ch '.' :: (fs ++ e :: (g ++ xs))) = ch '.' :: smallE (fs ++ e :: (g ++ xs)) := rfl
          rw [this, sapp]
        rw [e2, sapp, se int hint.2, e3, se fs hfs.2, e1]
        exact this
      · intro c hc
        simp at hc
        rcases hc with hc | hc | hc | hc | hc | hc
        · exact nosep c (.inl (hint.2 c hc))
        · exact nosep c (by omega)
        · exact nosep c (.inl (hfs.2 c hc))
        · exact nosep c (by omega)
        · rcases hg with rfl | rfl | rfl <;> simp at hc <;> exact nosep c (by omega)
        · exact nosep c (.inl (hx.2 c hc))
  obtain ⟨hun, hsep⟩ := hun
  have e : sign ++ int ++ frac ++ exp = sign ++ (int ++ frac ++ exp) := by simp
  rw [e, sapp]
  have hne : int ++ frac ++ exp ≠ [] := by simp [hint.1]
  generalize int ++ frac ++ exp = r at *
  rcases r with _ | ⟨c, r⟩
  · exact absurd rfl hne
  · have hfil : r.filter (· ∉ separators) = r := by
      rw [List.filter_eq_self]
      intro d hd
      simpa using hsep d (by simp [hd])
    have hss : smallE sign = sign := by rcases hs with rfl | rfl <;> rfl
    refine .plain (n := smallE (c :: r)) ?_ (hsep c (by simp)) (by rw [hfil]; exact hun) ?_
    · rcases hs with rfl | rfl <;> simp
    · rcases hs with rfl | rfl
      · rfl
      · rfl

theorem spaces_filler {w : List Nat} (h : Spaces w) : Filler w := by
  induction w with
  | nil => exact .nil
  | cons c w ih =>
    refine .space (.inl ?_) (ih fun d hd => h d (by simp [hd]))
    have := h c (by simp)
    unfold Space at this
    simp only [spaces, List.mem_cons]
    omega

theorem Filler.append {a b : List Nat} (ha : Filler a) (hb : Filler b) : Filler (a ++ b) := by
  induction ha with
  | nil => exact hb
  | space h _ ih => exact .space h ih
  | hash h1 h2 _ ih => simpa using Filler.hash h1 h2 ih
  | line h1 h2 _ ih => simpa using Filler.line h1 h2 ih
  | block h1 _ ih => simpa using Filler.block h1 ih

variable {nan : Bool} {nest : Nat → Prop}

/-- More between the values. -/
theorem Reads.before {d : Nat} {l : List Value} {w t : List Nat} (hw : Filler w) (h : Reads nan nest d (.elems l) t) :
    Reads nan nest d (.elems l) (w ++ t) := by
  cases h with
  | elemsNil h => exact .elemsNil (hw.append h)
  | elems h1 h2 h3 h4 =>
    rw [← List.append_assoc]
    exact .elems (hw.append h1) h2 h3 h4

theorem Reads.beforeMembers {d : Nat} {l : List (List Nat × Value)} {w t : List Nat} (hw : Filler w)
    (h : Reads nan nest d (.members l) t) : Reads nan nest d (.members l) (w ++ t) := by
  cases h with
  | membersNil h => exact .membersNil (hw.append h)
  | members h1 h2 h3 h4 h5 h6 h7 =>
    rw [← List.append_assoc]
    exact .members (hw.append h1) h2 h3 h4 h5 h6 h7
  | keyOnly h1 h2 h3 h4 =>
    rw [← List.append_assoc]
    exact .keyOnly (hw.append h1) h2 h3 h4
  | noKeyArray h1 h2 h3 =>
    rw [← List.append_assoc]
    exact .noKeyArray (hw.append h1) h2 h3
  | noKeyObject h1 h2 h3 =>
    rw [← List.append_assoc]
    exact .noKeyObject (hw.append h1) h2 h3

/-- How JSON is read. -/
def JsonRead (nan : Bool) (nest : Nat → Prop) (d : Nat) : Item → List Nat → Prop
  | .value v, t => ∃ e, Reads nan nest d (.value v e) t ∧ ∀ c, JsonEnds c → Ends e c
  | .elems l, t => Reads nan nest d (.elems l) t
  | .members l, t => Reads nan nest d (.members l) t

theorem ends_spaces {w : List Nat} (h : Spaces w) {r : List Nat} (hr : JsonEnds r.head?) : JsonEnds (w ++ r).head? := by
  rcases w with _ | ⟨c, w⟩
  · exact hr
  · exact .inr ⟨c, rfl, .inl (h c (by simp))⟩

theorem comma_filler {w : List Nat} (h : Spaces w) {c : Nat} (hc : c = ch ',' ∨ c = ch ':') : Filler (w ++ [c]) :=
  (spaces_filler h).append (.space (.inr hc) .nil)

theorem json_read {n d : Nat} {x : Node} {i : Item} {t : List Nat} (h : Text Spaces x t) (hd : Denotes n x i)
    (hn : ∀ k, d ≤ k → k < d + n → nest k) (ht : ∀ c ∈ t, IsScalar c) : JsonRead nan nest d i t := by
  induction h generalizing n d i with
  | null =>
    cases hd
    refine ⟨_, .atom (a := nullText) ?_ rfl, fun _ _ => trivial⟩
    cases nan <;> simp [meanings, nullText]
  | bool b =>
    cases hd
    refine ⟨_, .atom (a := boolText b) ?_ (by cases b <;> rfl), fun _ _ => trivial⟩
    cases nan <;> cases b <;> simp [meanings, boolText]
  | num h =>
    cases hd
    refine ⟨_, .num (json_number h), ?_⟩
    rintro c (rfl | ⟨e, rfl, he⟩)
    · trivial
    · simp only [Ends]
      unfold Space at he
      unfold IsDigit IsLetter
      omega
  | str h =>
    cases hd with
    | str hc =>
      obtain ⟨e, h1, h2⟩ := json_quoted hc (fun c hc => ht c (by simp [quoted, hc]))
      exact ⟨e, .str h1, h2⟩
  | @arrNil w hw =>
    cases hd with
    | @arr n l l' h =>
      cases h
      exact ⟨_, .array (.inl rfl) (hn d (by omega) (by omega)) (.elemsNil (spaces_filler hw)) (.inl rfl), fun _ _ => trivial⟩
  | @arr l t _ ih =>
    cases hd with
    | @arr n l l' h =>
      have := ih (d := d + 1) h (fun k h1 h2 => hn k (by omega) (by omega)) (fun c hc => ht c (by simp [hc]))
      exact ⟨_, .array (.inl rfl) (hn d (by omega) (by omega)) this (.inl rfl), fun _ _ => trivial⟩
  | @objNil w hw =>
    cases hd with
    | @obj n l l' h =>
      cases h
      exact ⟨_, .object (hn d (by omega) (by omega)) (.membersNil (spaces_filler hw)) (.inr (.inl rfl)), fun _ _ => trivial⟩
  | @obj l t _ ih =>
    cases hd with
    | @obj n l l' h =>
      have := ih (d := d + 1) h (fun k h1 h2 => hn k (by omega) (by omega)) (fun c hc => ht c (by simp [hc]))
      exact ⟨_, .object (hn d (by omega) (by omega)) this (.inr (.inl rfl)), fun _ _ => trivial⟩
  | @elem v w t w' hw _ hw' ih =>
    cases hd with
    | @elems _ _ v' _ l' h1 h2 =>
      cases h2
      obtain ⟨e, h3, h4⟩ := ih h1 hn (fun c hc => ht c (by simp [hc]))
      refine .elems (spaces_filler hw) h3 (h4 _ ?_) (.elemsNil (spaces_filler hw'))
      have := ends_spaces hw' (r := []) (.inl rfl)
      simpa using this
  | @elems v w t w' l r hw _ hw' _ ih1 ih2 =>
    cases hd with
    | @elems _ _ v' _ l' h1 h2 =>
      obtain ⟨e, h3, h4⟩ := ih1 h1 hn (fun c hc => ht c (by simp [hc]))
      have h5 : Reads nan nest d (.elems l') r := ih2 h2 hn (fun c hc => ht c (by simp [hc]))
      have h6 := Reads.before (comma_filler hw' (.inl rfl)) h5
      rw [List.append_assoc] at h6
      exact .elems (spaces_filler hw) h3 (h4 _ (ends_spaces hw' (.inr ⟨_, rfl, .inr (.inl rfl)⟩))) h6
  | @member k v w w1 w2 t w' hw _ hw1 hw2 _ hw' ih =>
    cases hd with
    | @members _ _ k' _ v' _ l' hk h1 h2 =>
      cases h2
      obtain ⟨e, h3, h4⟩ := ih h1 hn (fun c hc => ht c (by simp [hc]))
      obtain ⟨e', h5, h6⟩ := json_quoted hk (fun c hc => ht c (by simp [quoted, hc]))
      have e0 : w ++ (quoted k ++ (w1 ++ ch ':' :: (w2 ++ (t ++ w')))) =
          w ++ (quoted k ++ ((w1 ++ ch ':' :: w2) ++ (t ++ w'))) := by simp
      rw [e0]
      refine .members (spaces_filler hw) (.keyStr h5) (h6 _ ?_) ?_ h3 (h4 _ ?_) (.membersNil (spaces_filler hw'))
      · rw [List.append_assoc]
        exact ends_spaces hw1 (.inr ⟨_, rfl, .inr (.inr (.inl rfl))⟩)
      · have := (comma_filler hw1 (.inr rfl)).append (spaces_filler hw2)
        simpa using this
      · have := ends_spaces hw' (r := []) (.inl rfl)
        simpa using this
  | @members k v w w1 w2 t w' l r hw _ hw1 hw2 _ hw' _ ih1 ih2 =>
    cases hd with
    | @members _ _ k' _ v' _ l' hk h1 h2 =>
      obtain ⟨e, h3, h4⟩ := ih1 h1 hn (fun c hc => ht c (by simp [hc]))
      obtain ⟨e', h5, h6⟩ := json_quoted hk (fun c hc => ht c (by simp [quoted, hc]))
      have h7 : Reads nan nest d (.members l') r := ih2 h2 hn (fun c hc => ht c (by simp [hc]))
      have h8 := Reads.beforeMembers (comma_filler hw' (.inl rfl)) h7
      rw [List.append_assoc] at h8
      have e0 : w ++ (quoted k ++ (w1 ++ ch ':' :: (w2 ++ (t ++ (w' ++ ch ',' :: r))))) =
          w ++ (quoted k ++ ((w1 ++ ch ':' :: w2) ++ (t ++ (w' ++ ch ',' :: r)))) := by simp
      rw [e0]
      refine .members (spaces_filler hw) (.keyStr h5) (h6 _ ?_) ?_ h3 (h4 _ (ends_spaces hw' (.inr ⟨_, rfl, .inr (.inl rfl)⟩))) h8
      · rw [List.append_assoc]
        exact ends_spaces hw1 (.inr ⟨_, rfl, .inr (.inr (.inl rfl))⟩)
      · have := (comma_filler hw1 (.inr rfl)).append (spaces_filler hw2)
        simpa using this

/-- Documents. -/
theorem json_doc {n : Nat} {l : List Json} {l' : List Value} {t : List Nat} (h : Doc l t) (hd : Denotes n (.elems l) (.elems l'))
    (hn : ∀ k < n, nest k) (ht : ∀ c ∈ t, IsScalar c) : Reads nan nest 0 (.elems l') t := by
  induction h generalizing l' with
  | nil hw => cases hd; exact .elemsNil (spaces_filler hw)
  | @last w v t hw hv =>
    cases hd with
    | @elems _ _ v' _ l' h1 h2 =>
      cases h2
      obtain ⟨e, h3, h4⟩ := json_read (nan := nan) (nest := nest) (d := 0) hv h1 (fun k _ hk => hn k (by omega))
        (fun c hc => ht c (by simp [hc]))
      have := Reads.elems (spaces_filler hw) h3 (r := []) (h4 _ (.inl rfl)) (.elemsNil .nil)
      simpa using this
  | @cons w v t c l r hw hv hc _ ih =>
    cases hd with
    | @elems _ _ v' _ l' h1 h2 =>
      obtain ⟨e, h3, h4⟩ := json_read (nan := nan) (nest := nest) (d := 0) hv h1 (fun k _ hk => hn k (by omega))
        (fun c hc => ht c (by simp [hc]))
      have h5 := ih h2 (fun c hc => ht c (by simp [hc]))
      have h6 := Reads.before (w := [c]) (spaces_filler (by simpa [Spaces] using hc)) h5
      exact .elems (spaces_filler hw) h3 (h4 _ (.inr ⟨c, rfl, .inl hc⟩)) h6

end Verif.JsonSalvage
