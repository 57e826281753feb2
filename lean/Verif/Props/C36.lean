import Verif.Proof.MediaType
/-!
# C36 Media types are recognised and printed consistently
-/
namespace Verif.Props
open Verif Verif.Text Verif.MediaType Verif.Spec

/-- Every text of a media type whose quoted values need no escapes is split into its type, subtype and suffix and its first
    parameter.  Partial: further parameters are lost and escapes are kept (refuted below). -/
theorem C36_split_partial (t : MediaType) (text : Bytes) (h : MediaTypeText Unescaped t text) :
    parseMediaType text = { t with parameters := t.parameters.take 1 } := parse_spec h

/-- With at most one parameter the text is split exactly into its parts. -/
theorem C36_split_one (t : MediaType) (text : Bytes) (h : MediaTypeText Unescaped t text) (hp : t.parameters.length ≤ 1) :
    parseMediaType text = t := by
  rw [parse_spec h, List.take_of_length_le hp]

/-- `application/vnd.a+b+json; charset=utf-8`, split. -/
def vendor : MediaType :=
  { type := str "application", subtype := str "vnd.a+b", suffix := str "json", parameters := [(str "charset", str "utf-8")] }

theorem restrictedName_of {s : Bytes} (h : ((match s with | [] => false | c :: _ => alnum c) && decide (s.length ≤ 127) &&
    s.all fun c => alnum c || restricted c) = true) : RestrictedName s := by
  simp only [Bool.and_eq_true, decide_eq_true_eq, List.all_eq_true] at h
  obtain ⟨⟨h1, h2⟩, h3⟩ := h
  refine ⟨?_, h2, fun c hc => nameChar_iff.1 (h3 c hc)⟩
  cases s with
  | nil => cases h1
  | cons c s => exact ⟨c, rfl, alnum_iff.1 h1⟩

theorem vendor_sub : SubtypeText vendor.subtype vendor.suffix (str "vnd.a+b+json") :=
  .inr ⟨restrictedName_of (by decide +kernel), ⟨[str "vnd.a", str "b"], by simp, by
    intro n hn
    simp at hn
    rcases hn with rfl | rfl <;> exact restrictedName_of (by decide +kernel), by decide +kernel⟩, by decide +kernel⟩

example : MediaTypeText Unescaped vendor (str " application/vnd.a+b+json ;charset=\"utf-8\"") :=
  ⟨[asc ' '], [], _, str " ;charset=\"utf-8\"", by simp [Ows], by simp [Ows], restrictedName_of (by decide +kernel), vendor_sub,
    .cons (a := [asc ' ']) (b := []) (x := str "charset=\"utf-8\"") (y := []) (by simp [Ows]) (by simp [Ows])
      ⟨restrictedName_of (by decide +kernel), .inr ⟨str "utf-8", ⟨rfl, by decide +kernel, by decide +kernel⟩, by decide +kernel⟩⟩ .nil,
    by decide +kernel⟩

example : parseMediaType (str " application/vnd.a+b+json ;charset=\"utf-8\"") = vendor := by decide +kernel

/-- Two parameters: `c=d` is part of the text, and lost. -/
theorem C36_split_refuted :
    let t : MediaType := { type := str "text", subtype := str "html", parameters := [(str "a", str "b"), (str "c", str "d")] }
    MediaTypeText Unescaped t (str "text/html; a=b; c=d") ∧ parseMediaType (str "text/html; a=b; c=d") ≠ t := by
  refine ⟨⟨[], [], str "html", str "; a=b; c=d", by simp [Ows], by simp [Ows], restrictedName_of (by decide +kernel),
    .inl ⟨rfl, restrictedName_of (by decide +kernel), rfl⟩,
    .cons (a := []) (b := [asc ' ']) (x := str "a=b") (y := str "; c=d") (by simp [Ows]) (by simp [Ows])
      ⟨restrictedName_of (by decide +kernel), .inl ⟨restrictedName_of (by decide +kernel), by decide +kernel⟩⟩
      (.cons (a := []) (b := [asc ' ']) (x := str "c=d") (y := []) (by simp [Ows]) (by simp [Ows])
      ⟨restrictedName_of (by decide +kernel), .inl ⟨restrictedName_of (by decide +kernel), by decide +kernel⟩⟩ .nil), by decide +kernel⟩, by decide +kernel⟩

/-- A quoted value with an escape: the backslash is kept. -/
theorem C36_escape_refuted :
    let t : MediaType := { type := str "text", subtype := str "html", parameters := [(str "a", str "x\"y")] }
    MediaTypeText Escaped t (str "text/html;a=\"x\\\"y\"") ∧ parseMediaType (str "text/html;a=\"x\\\"y\"") ≠ t := by
  refine ⟨⟨[], [], str "html", str ";a=\"x\\\"y\"", by simp [Ows], by simp [Ows], restrictedName_of (by decide +kernel),
    .inl ⟨rfl, restrictedName_of (by decide +kernel), rfl⟩,
    .cons (a := []) (b := []) (x := str "a=\"x\\\"y\"") (y := []) (by simp [Ows]) (by simp [Ows])
      ⟨restrictedName_of (by decide +kernel), .inr ⟨str "x\\\"y",
        .plain (by decide) (by decide) (.pair (.plain (by decide) (by decide) .nil)), by decide +kernel⟩⟩ .nil, by decide +kernel⟩, by decide +kernel⟩

/-- A media type is JSON exactly if it is `application` with the suffix `json`, or the subtype `json` and no suffix, ignoring case. -/
theorem C36_json (t : MediaType) : isJSON t = true ↔
    CaseEq t.type (str "application") ∧ ((t.suffix ≠ [] ∧ CaseEq t.suffix (str "json")) ∨ (t.suffix = [] ∧ CaseEq t.subtype (str "json"))) := by
  unfold isJSON
  rw [Bool.and_eq_true, Headers.iEqual_iff, Headers.iEqual_iff]
  cases h : t.suffix <;> simp

example : isJSON { type := str "Application", subtype := str "vnd.a", suffix := str "JSON" } = true := by decide +kernel
example : isJSON { type := str "application", subtype := str "json", suffix := str "xml" } = false := by decide +kernel

/-- Only `application/schema+json` is a schema, ignoring case; it is JSON as well. -/
theorem C36_schema (t : MediaType) : isJSONSchema t = true ↔
    CaseEq t.type (str "application") ∧ CaseEq t.subtype (str "schema") ∧ CaseEq t.suffix (str "json") := by
  unfold isJSONSchema
  rw [Bool.and_eq_true, Bool.and_eq_true, Headers.iEqual_iff, Headers.iEqual_iff, Headers.iEqual_iff, and_assoc]

/-- A well-formed media type with at most one parameter, whose value is a name or must be quoted and needs no escape, is printed as a
    text of it, and printing and parsing gives it back.  Partial: see the refutation. -/
theorem C36_roundtrip_partial (t : MediaType) (sub : Bytes) (h1 : RestrictedName t.type) (h2 : SubtypeText t.subtype t.suffix sub)
    (h3 : ∀ p ∈ t.parameters, Printable p) :
    MediaTypeText Unescaped t (print t) ∧ parseMediaType (print t) = { t with parameters := t.parameters.take 1 } :=
  ⟨print_spec h1 h2 h3, parse_spec (print_spec h1 h2 h3)⟩

example : RestrictedName vendor.type ∧ SubtypeText vendor.subtype vendor.suffix (str "vnd.a+b+json") ∧
    (∀ p ∈ vendor.parameters, Printable p) ∧ print vendor = str "application/vnd.a+b+json; charset=utf-8" :=
  ⟨restrictedName_of (by decide +kernel), vendor_sub, by
    intro p hp
    have : p = (str "charset", str "utf-8") := by revert hp; simp [vendor]
    subst this
    exact ⟨restrictedName_of (by decide +kernel), .inl (restrictedName_of (by decide +kernel))⟩, by decide +kernel⟩

/-- Printing and parsing loses a second parameter, an empty value, and a value with a star, and doubles an escape. -/
theorem C36_roundtrip_refuted :
    (∀ ps ∈ [[(str "a", str "b"), (str "c", str "d")], [(str "a", [])], [(str "a", str "b*c")], [(str "a", str "b\"c")]],
      parseMediaType (print { type := str "text", subtype := str "html", parameters := ps }) ≠
        { type := str "text", subtype := str "html", parameters := ps }) := by
  decide +kernel

/-- A text that is not a media type can still be taken as one: what was read before the error is kept. -/
theorem C36_garbage : parseMediaType (str "application/json garbage") = { type := str "application", subtype := str "json" } ∧
    isJSON (parseMediaType (str "application/json garbage")) = true := by decide +kernel

end Verif.Props
