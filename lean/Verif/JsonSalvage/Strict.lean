/-
Texts without defects are JSON.
-/
import Verif.JsonSalvage.Spec

namespace Verif.JsonSalvage

open Verif.JsonStream

theorem body_strict {t : List Nat} (h : LooseBody False t) : IsBody t := by
  induction h with
  | nil => exact .nil
  | plain h _ ih => exact .plain h ih
  | simple h _ ih => exact .simple h ih
  | unicode h _ ih => exact .unicode h ih
  | control h => exact h.elim

theorem spaces_nil : Spaces [] := by simp [Spaces]

theorem text_elems_snoc {l : List Json} {r : List Nat} {n : Node} (h : Text Spaces n r) :
    n = .elems l → ∀ {v t}, Text Spaces (.value v) t → Text Spaces (.elems (l ++ [v])) (r ++ ch ',' :: t) := by
  induction h generalizing l with
  | elem hw ht hw' _ =>
    intro e v t hv
    cases e
    have h2 : Text Spaces (.elems [v]) ([] ++ (t ++ [])) := .elem spaces_nil hv spaces_nil
    have := Text.elems hw ht hw' h2
    simpa using this
  | elems hw ht hw' _ _ ih =>
    intro e v t hv
    cases e
    have := Text.elems hw ht hw' (ih rfl hv)
    simpa using this
  | _ => intro e; cases e

theorem text_members_snoc {l : List (Bytes × Json)} {r : List Nat} {n : Node} (h : Text Spaces n r) :
    n = .members l → ∀ {k v t}, IsBody k → Text Spaces (.value v) t →
      Text Spaces (.members (l ++ [(k, v)])) (r ++ ch ',' :: (quoted k ++ ch ':' :: t)) := by
  induction h generalizing l with
  | member hw hb hw1 hw2 ht hw' _ =>
    intro e k v t hk hv
    cases e
    have h2 : Text Spaces (.members [(k, v)]) ([] ++ (quoted k ++ ([] ++ ch ':' :: ([] ++ (t ++ []))))) :=
      .member spaces_nil hk spaces_nil spaces_nil hv spaces_nil
    have := Text.members hw hb hw1 hw2 ht hw' h2
    simpa using this
  | members hw hb hw1 hw2 ht hw' _ _ ih =>
    intro e k v t hk hv
    cases e
    have := Text.members hw hb hw1 hw2 ht hw' (ih rfl hk hv)
    simpa using this
  | _ => intro e; cases e

/-- What a text without defects is. -/
def Strict : Kind → List Nat → Prop
  | .value, t => ∃ v, Text Spaces (.value v) t
  | .elems, t => ∃ l, Text Spaces (.elems l) t
  | .key, t => ∃ k, IsBody k ∧ t = quoted k
  | .member, t => ∃ k v u, IsBody k ∧ Text Spaces (.value v) u ∧ t = quoted k ++ ch ':' :: u
  | .members, t => ∃ l, Text Spaces (.members l) t

theorem loose_strict {k : Kind} {t : List Nat} (h : Loose noDefects k t) : Strict k t := by
  induction h with
  | null => exact ⟨_, .null⟩
  | bool b => exact ⟨_, .bool b⟩
  | num h => exact ⟨_, .num h⟩
  | str h => exact ⟨_, .str (body_strict h)⟩
  | nan h => exact h.elim
  | infinity h => exact h.elim
  | minusInfinity h => exact h.elim
  | nullAfterString h => exact h.elim
  | arrNil => exact ⟨_, .arrNil spaces_nil⟩
  | arr _ ih => obtain ⟨l, h⟩ := ih; exact ⟨_, .arr h⟩
  | objNil => exact ⟨_, .objNil spaces_nil⟩
  | obj _ ih => obtain ⟨l, h⟩ := ih; exact ⟨_, .obj h⟩
  | elem _ ih =>
    obtain ⟨v, h⟩ := ih
    have := Text.elem spaces_nil h spaces_nil
    exact ⟨_, by simpa using this⟩
  | elems _ _ ih ih' =>
    obtain ⟨l, h⟩ := ih
    obtain ⟨v, h'⟩ := ih'
    exact ⟨_, text_elems_snoc h rfl h'⟩
  | key h => exact ⟨_, body_strict h, rfl⟩
  | numberKey h => exact h.elim
  | member _ _ ih ih' =>
    obtain ⟨k, hk, rfl⟩ := ih
    obtain ⟨v, h'⟩ := ih'
    exact ⟨k, v, _, hk, h', rfl⟩
  | keyOnly h => exact h.elim
  | one _ ih =>
    obtain ⟨k, v, u, hk, hv, rfl⟩ := ih
    have := Text.member spaces_nil hk spaces_nil spaces_nil hv spaces_nil
    exact ⟨_, by simpa using this⟩
  | members _ _ ih ih' =>
    obtain ⟨l, h⟩ := ih
    obtain ⟨k, v, u, hk, hv, rfl⟩ := ih'
    exact ⟨_, text_members_snoc h rfl hk hv⟩
  | noComma h => exact h.elim

theorem doc_snoc {l : List Json} {r : List Nat} (h : Doc l r) {v : Json} {t : List Nat}
    (hv : Text Spaces (.value v) t) : Doc (l ++ [v]) (r ++ nl :: t) := by
  have hn : Space nl := by simp [Space, nl]
  induction h with
  | nil hw =>
    rename_i w
    have : Doc [v] ((w ++ [nl]) ++ t) := .last (by
      intro c hc
      rcases List.mem_append.mp hc with h | h
      · exact hw c h
      · simp at h; subst h; exact hn) hv
    simpa using this
  | last hw ht =>
    have := Doc.cons hw ht hn (Doc.last spaces_nil hv)
    simpa using this
  | cons hw ht hc _ ih =>
    have := Doc.cons hw ht hc ih
    simpa using this

/-- Without defects, the text is a sequence of JSON values. -/
theorem doc_strict {t : List Nat} (h : LooseDoc noDefects t) : ∃ l, Doc l t := by
  induction h with
  | nil => exact ⟨_, .nil spaces_nil⟩
  | one h =>
    obtain ⟨v, h⟩ := loose_strict h
    exact ⟨_, by simpa using Doc.last spaces_nil h⟩
  | next _ h ih =>
    obtain ⟨l, ih⟩ := ih
    obtain ⟨v, h⟩ := loose_strict h
    exact ⟨_, doc_snoc ih h⟩

end Verif.JsonSalvage
