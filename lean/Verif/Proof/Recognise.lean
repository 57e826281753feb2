import Verif.Proof.Regex
import Verif.Proof.Text
import Verif.Proof.Signature
import Verif.Model.Recognise
import Verif.Spec.Recognise

namespace Verif.Recognition
open Verif Verif.Text Verif.Regex Verif.Spec Verif.Spec.Regex Verif.Spec.Recognition

/-! ## The compiled expressions -/

def rBlank : Rx := .cls false [(32, 32), (9, 9)]
def rBlanks : Rx := .star rBlank
def rGap : Rx := .plus rBlank
def rAny : Rx := .cls true []
def rSymbol : Rx := .plus (.cls true [(93, 93), (91, 91), (40, 40), (41, 41)])
def rUri : Rx := .seq (.cls false [(47, 47)]) (.star rAny)
def rOpt (r : Rx) : Rx := .alt r .eps
def rChar (c : UInt8) : Rx := .cls false [(c, c)]
/-- A character and then something. -/
def rCons (c : UInt8) (r : Rx) : Rx := .seq (rChar c) r
def rMethod : Rx :=
  match methods.map lit with
  | [] => .eps
  | r :: rs => (r :: rs).dropLast.foldr .alt ((r :: rs).getLast (by simp))
/-- A word and then something. -/
def word (w : Bytes) (r : Rx) : Rx := w.foldr (fun c r => .seq (.cls false [(c, c)]) r) r
/-- A word whose first letter may be a capital and then something. -/
def kw (a b : Char) (w : String) (r : Rx) : Rx := .seq (.cls false [(asc a, asc a), (asc b, asc b)]) (word (str w) r)
def rMedia (n : Nat) : Rx :=
  rOpt (.group n (.seq rBlanks (rCons 40
    (.seq (.group (n + 1) (.star (.cls true [(92, 92), (41, 41)]))) (rChar 41)))))

def xAction : Rx := .seq rBlanks (.seq (.group 1 rMethod) (.seq rBlanks (rOpt (.group 2 rUri))))
def xNamedAction : Rx :=
  .seq rBlanks (.seq (.group 1 (.plus rAny)) (rCons 91 (.seq (.group 2 rMethod)
    (.seq rBlanks (.seq (rOpt (.group 3 rUri)) (rChar 93))))))
def xRelative : Rx :=
  .seq rBlanks (.seq (.group 1 (.plus rAny)) (rCons 91 (.seq (.group 2 rMethod)
    (.seq rGap (.seq (.plus (.cls true [(47, 47)])) (rChar 93))))))
def xResource : Rx :=
  .seq rBlanks (.seq (rOpt (.group 1 (.seq (.group 2 rMethod) rGap))) (.group 3 rUri))
def xNamedResource : Rx :=
  .seq rBlanks (.seq (.group 1 rSymbol) (.seq rGap (rCons 91 (.seq (.group 2 rUri) (rChar 93)))))
def xNamedEndpoint : Rx :=
  .seq rBlanks (.seq (.group 1 rSymbol) (.seq rGap (rCons 91 (.seq (.group 2 rMethod)
    (.seq rGap (.seq (.group 3 rUri) (rChar 93)))))))
def xGroup : Rx := .seq rBlanks (kw 'G' 'g' "roup" (.seq rGap (.seq (.group 1 rSymbol) rBlanks)))
def xData : Rx :=
  .seq rBlanks (kw 'D' 'd' "ata" (.seq rGap (kw 'S' 's' "tructure" (.seq (rOpt (rChar 115)) rBlanks))))
def xRequest : Rx :=
  .seq rBlanks (kw 'R' 'r' "equest" (.seq (rOpt (.group 1 (.seq rBlank (.group 2 rSymbol))))
    (.seq (rMedia 3) rBlanks)))
def rStatus : Rx := .plus (.cls false [(32, 32), (9, 9), (48, 57)])
def xResponse : Rx :=
  .seq rBlanks (kw 'R' 'r' "esponse" (.seq (rOpt (.group 1 rStatus)) (.seq (rMedia 2) rBlanks)))
def xModel : Rx :=
  .seq rBlanks (.seq (rOpt (.group 1 (.seq (.group 2 rSymbol) rGap)))
    (kw 'M' 'm' "odel" (.seq (rMedia 3) rBlanks)))
def xHeaders : Rx := .seq rBlanks (kw 'H' 'h' "eader" (.seq (rOpt (rChar 115)) rBlanks))
def xParameters : Rx := .seq rBlanks (kw 'P' 'p' "arameter" (.seq (rOpt (rChar 115)) rBlanks))
def xAttributes : Rx :=
  .seq rBlanks (kw 'A' 'a' "ttribute" (.seq (rOpt (rChar 115)) (.seq rBlanks
    (rOpt (.group 1 (rCons 40 (.seq (.star rAny) (rChar 41))))))))
def xBody : Rx := .seq rBlanks (kw 'B' 'b' "ody" rBlanks)
def xSchema : Rx := .seq rBlanks (kw 'S' 's' "chema" rBlanks)
def xValues : Rx := .seq rBlanks (kw 'V' 'v' "alues" rBlanks)
def xRelation : Rx := .seq rBlanks (kw 'R' 'r' "elation" (.seq rBlanks (rChar 58)))
def rIdentifier : Rx :=
  .seq (.cls false [(97, 122)]) (.star (.cls false [(97, 122), (48, 57), (46, 46), (45, 45)]))
def xRelationIdentifier : Rx :=
  .seq rBlanks (kw 'R' 'r' "elation" (.seq rBlanks (rCons 58 (.seq rBlanks
    (.seq (rOpt (.group 1 rIdentifier)) rBlanks)))))
def xMixin : Rx := .seq rBlanks (.group 1 (kw 'I' 'i' "nclude" rGap))
def xOneOf : Rx := .seq rBlanks (kw 'O' 'o' "ne" (.seq rGap (kw 'O' 'o' "f" rBlanks)))
def rColon : Rx := rOpt (.group 1 (rCons 58 (.star rAny)))
def xDefault : Rx := .seq rBlanks (kw 'D' 'd' "efault" (.seq rBlanks rColon))
def xSample : Rx := .seq rBlanks (kw 'S' 's' "ample" (.seq rBlanks rColon))
def xValueMembers : Rx :=
  .seq rBlanks (.seq (.group 1 (.alt (kw 'I' 'i' "tem" (rChar 115)) (kw 'M' 'm' "ember" (rChar 115)))) rBlanks)
def xPropertyMembers : Rx := .seq rBlanks (.seq (.group 1 (kw 'P' 'p' "ropertie" (rChar 115))) rBlanks)

set_option maxRecDepth 8000

theorem c_action : compile actionHeaderRegex = some ⟨true, xAction, true⟩ := by decide +kernel
theorem c_namedAction : compile namedActionHeaderRegex = some ⟨true, xNamedAction, true⟩ := by decide +kernel
theorem c_relative : compile namedActionNonAbsoluteURIRegex = some ⟨true, xRelative, true⟩ := by decide +kernel
theorem c_resource : compile resourceHeaderRegex = some ⟨true, xResource, true⟩ := by decide +kernel
theorem c_namedResource : compile namedResourceHeaderRegex = some ⟨true, xNamedResource, true⟩ := by decide +kernel
theorem c_namedEndpoint : compile namedEndpointHeaderRegex = some ⟨true, xNamedEndpoint, true⟩ := by decide +kernel
theorem c_group : compile groupHeaderRegex = some ⟨true, xGroup, true⟩ := by decide +kernel
theorem c_data : compile dataStructureGroupRegex = some ⟨true, xData, true⟩ := by decide +kernel
theorem c_request : compile requestRegex = some ⟨true, xRequest, false⟩ := by decide +kernel
theorem c_response : compile responseRegex = some ⟨true, xResponse, false⟩ := by decide +kernel
theorem c_model : compile modelRegex = some ⟨true, xModel, true⟩ := by decide +kernel
theorem c_headers : compile headersRegex = some ⟨true, xHeaders, true⟩ := by decide +kernel
theorem c_parameters : compile parametersRegex = some ⟨true, xParameters, true⟩ := by decide +kernel
theorem c_attributes : compile attributesRegex = some ⟨true, xAttributes, true⟩ := by decide +kernel
theorem c_body : compile bodyRegex = some ⟨true, xBody, true⟩ := by decide +kernel
theorem c_schema : compile schemaRegex = some ⟨true, xSchema, true⟩ := by decide +kernel
theorem c_values : compile valuesRegex = some ⟨true, xValues, true⟩ := by decide +kernel
theorem c_relation : compile relationRegex = some ⟨true, xRelation, false⟩ := by decide +kernel
theorem c_relationIdentifier : compile relationIdentifierRegex = some ⟨true, xRelationIdentifier, true⟩ := by
  decide +kernel
theorem c_mixin : compile mixinRegex = some ⟨true, xMixin, false⟩ := by decide +kernel
theorem c_oneOf : compile oneOfRegex = some ⟨true, xOneOf, true⟩ := by decide +kernel
theorem c_default : compile defaultRegex = some ⟨true, xDefault, true⟩ := by decide +kernel
theorem c_sample : compile sampleRegex = some ⟨true, xSample, true⟩ := by decide +kernel
theorem c_valueMembers : compile valueMembersRegex = some ⟨true, xValueMembers, true⟩ := by decide +kernel
theorem c_propertyMembers : compile propertyMembersRegex = some ⟨true, xPropertyMembers, true⟩ := by decide +kernel

/-! ## Their languages -/

theorem oneOf_blank {c : UInt8} : OneOf false [(32, 32), (9, 9)] c ↔ c = 32 ∨ c = 9 :=
  forallU8 (P := fun c => OneOf false [(32, 32), (9, 9)] c ↔ c = 32 ∨ c = 9) (by
    unfold OneOf; decide +kernel) c
theorem oneOf_any {c : UInt8} : OneOf true [] c := by simp [OneOf]
theorem oneOf_symbol {c : UInt8} : OneOf true [(93, 93), (91, 91), (40, 40), (41, 41)] c ↔
    c ≠ asc '[' ∧ c ≠ asc ']' ∧ c ≠ asc '(' ∧ c ≠ asc ')' :=
  forallU8 (P := fun c => OneOf true [(93, 93), (91, 91), (40, 40), (41, 41)] c ↔
    c ≠ asc '[' ∧ c ≠ asc ']' ∧ c ≠ asc '(' ∧ c ≠ asc ')') (by unfold OneOf; decide +kernel) c

theorem l_blank {s} : Lang rBlank s ↔ ∃ c, s = [c] ∧ (c = 32 ∨ c = 9) := by
  rw [rBlank, lang_cls]; simp only [oneOf_blank]
theorem l_blanks {s} : Lang rBlanks s ↔ Blanks s := by
  rw [rBlanks, rBlank, lang_star_cls]; simp only [oneOf_blank]; rfl
theorem l_gap {s} : Lang rGap s ↔ Gap s := by
  rw [rGap, rBlank, lang_plus_cls]; simp only [oneOf_blank]; rfl
theorem l_any {s} : Lang (.star rAny) s ↔ True := by
  rw [rAny, lang_star_cls]; simp only [oneOf_any, implies_true]
theorem l_anyPlus {s} : Lang (.plus rAny) s ↔ s ≠ [] := by
  rw [rAny, lang_plus_cls]; simp only [oneOf_any, implies_true, and_true]
theorem l_symbol {s} : Lang rSymbol s ↔ Name s := by
  rw [rSymbol, lang_plus_cls]; simp only [oneOf_symbol]; rfl
theorem l_char {c s} : Lang (rChar c) s ↔ s = [c] := by
  rw [rChar, lang_cls]; simp only [oneOf_single]
  exact ⟨by rintro ⟨d, rfl, rfl⟩; rfl, fun h => ⟨c, h, rfl⟩⟩
theorem l_cons {c r s} : Lang (rCons c r) s ↔ ∃ t, s = c :: t ∧ Lang r t := by
  rw [rCons, lang_seq]; simp only [l_char]
  exact ⟨by rintro ⟨x, y, rfl, rfl, h⟩; exact ⟨y, rfl, h⟩, by rintro ⟨t, rfl, h⟩; exact ⟨[c], t, rfl, rfl, h⟩⟩
theorem l_uri {s} : Lang rUri s ↔ Path s := by
  have : rUri = rCons 47 (.star rAny) := rfl
  rw [this, l_cons]; simp only [l_any, and_true]; rfl
theorem l_opt {r s} : Lang (rOpt r) s ↔ s = [] ∨ Lang r s := by
  rw [rOpt, lang_alt, lang_eps]; exact or_comm
theorem l_method {s} : Lang rMethod s ↔ s ∈ methods := by
  have : rMethod = .alt (lit (str "GET")) (.alt (lit (str "POST")) (.alt (lit (str "PUT"))
    (.alt (lit (str "DELETE")) (.alt (lit (str "OPTIONS")) (.alt (lit (str "PATCH"))
    (.alt (lit (str "PROPPATCH")) (.alt (lit (str "LOCK")) (.alt (lit (str "UNLOCK"))
    (.alt (lit (str "COPY")) (.alt (lit (str "MOVE")) (.alt (lit (str "MKCOL"))
    (.alt (lit (str "HEAD")) (.alt (lit (str "LINK")) (.alt (lit (str "UNLINK"))
    (lit (str "CONNECT")))))))))))))))) := rfl
  rw [this]
  simp only [lang_alt, lang_lit, methods, List.map_cons, List.map_nil, List.mem_cons, List.not_mem_nil, or_false]
theorem l_word {r} : ∀ {w s : Bytes}, Lang (word w r) s ↔ ∃ t, s = w ++ t ∧ Lang r t
  | [], s => by simp only [word, List.foldr_nil, List.nil_append, exists_eq_left']
  | c :: w, s => by
    have : word (c :: w) r = rCons c (word w r) := rfl
    rw [this, l_cons]; simp only [l_word]
    exact ⟨by rintro ⟨t, rfl, t', rfl, h⟩; exact ⟨t', rfl, h⟩, by rintro ⟨t, rfl, h⟩; exact ⟨_, rfl, t, rfl, h⟩⟩
theorem oneOf_two {a b c : UInt8} : OneOf false [(a, a), (b, b)] c ↔ c = a ∨ c = b := by
  simp only [OneOf, List.mem_cons, List.not_mem_nil, or_false, Bool.false_eq_true, if_false,
    exists_eq_or_imp, exists_eq_left]
  constructor
  · rintro (⟨h1, h2⟩ | ⟨h1, h2⟩)
    · exact .inl (UInt8.le_antisymm h2 h1)
    · exact .inr (UInt8.le_antisymm h2 h1)
  · rintro (rfl | rfl)
    · exact .inl ⟨UInt8.le_refl _, UInt8.le_refl _⟩
    · exact .inr ⟨UInt8.le_refl _, UInt8.le_refl _⟩
theorem l_kw {a b : Char} {w : String} {r s} : Lang (kw a b w r) s ↔ ∃ k t, s = k ++ t ∧ Word a b w k ∧ Lang r t := by
  rw [kw, lang_seq]; simp only [lang_cls, l_word, oneOf_two]
  constructor
  · rintro ⟨x, y, rfl, ⟨c, rfl, rfl | rfl⟩, t, rfl, h⟩
    · exact ⟨asc a :: str w, t, rfl, .inl rfl, h⟩
    · exact ⟨asc b :: str w, t, rfl, .inr rfl, h⟩
  · rintro ⟨k, t, rfl, rfl | rfl, h⟩
    · exact ⟨[asc a], _, rfl, ⟨_, rfl, .inl rfl⟩, t, rfl, h⟩
    · exact ⟨[asc b], _, rfl, ⟨_, rfl, .inr rfl⟩, t, rfl, h⟩
theorem oneOf_media {c : UInt8} : OneOf true [(92, 92), (41, 41)] c ↔ c ≠ asc ')' ∧ c ≠ asc '\\' :=
  forallU8 (P := fun c => OneOf true [(92, 92), (41, 41)] c ↔ c ≠ asc ')' ∧ c ≠ asc '\\') (by
    unfold OneOf; decide +kernel) c

/-- The text of a media type in parentheses. -/
def Parens (s m : Bytes) : Prop :=
  ∃ b, s = b ++ asc '(' :: m ++ [asc ')'] ∧ Blanks b ∧ ∀ c ∈ m, c ≠ asc ')' ∧ c ≠ asc '\\'

theorem l_parens {n k s} : Lang (.group n (.seq rBlanks (rCons 40
    (.seq (.group k (.star (.cls true [(92, 92), (41, 41)]))) (rChar 41))))) s ↔ ∃ m, Parens s m := by
  rw [lang_group, lang_seq]; simp only [l_blanks, l_cons, lang_seq, lang_group, lang_star_cls, oneOf_media, l_char]
  constructor
  · rintro ⟨b, y, rfl, hb, t, rfl, m, z, rfl, hm, rfl⟩
    exact ⟨m, b, by simp; decide, hb, hm⟩
  · rintro ⟨m, b, rfl, hb, hm⟩
    exact ⟨b, _, by simp only [List.append_assoc, List.cons_append]; rfl, hb, _, rfl, m, _, rfl, hm, rfl⟩
theorem media_iff {s m} : Media s m ↔ (s = [] ∧ m = []) ∨ Parens s m := Iff.rfl
theorem l_media {n s} : Lang (rMedia n) s ↔ ∃ m, Media s m := by
  rw [rMedia, l_opt, l_parens]
  constructor
  · rintro (rfl | ⟨m, h⟩)
    · exact ⟨[], .inl ⟨rfl, rfl⟩⟩
    · exact ⟨m, .inr h⟩
  · rintro ⟨m, ⟨rfl, rfl⟩ | h⟩
    · exact .inl rfl
    · exact .inr ⟨m, h⟩

theorem L_action {s} : Lang xAction s ↔ ∃ m u, ActionLine s m u := by
  rw [xAction, lang_seq]; simp only [l_blanks, lang_seq, lang_group, l_method, l_opt, l_uri]
  constructor
  · rintro ⟨a, y, rfl, ha, m, z, rfl, hm, b, u, rfl, hb, hu⟩
    exact ⟨m, u, a, b, by simp, ha, hm, hb, hu⟩
  · rintro ⟨m, u, a, b, rfl, ha, hm, hb, hu⟩
    exact ⟨a, _, by simp only [List.append_assoc], ha, m, _, rfl, hm, b, u, rfl, hb, hu⟩
theorem L_namedAction {s} : Lang xNamedAction s ↔ ∃ n m u, NamedActionLine s n m u := by
  rw [xNamedAction, lang_seq]
  simp only [l_blanks, lang_seq, lang_group, l_method, l_opt, l_uri, l_anyPlus, l_cons, l_char]
  constructor
  · rintro ⟨a, y, rfl, ha, n, z, rfl, hn, t, rfl, m, w, rfl, hm, b, v, rfl, hb, u, x, rfl, hu, rfl⟩
    exact ⟨n, m, u, a, b, by simp; decide, ha, hn, hm, hb, hu⟩
  · rintro ⟨n, m, u, a, b, rfl, ha, hn, hm, hb, hu⟩
    exact ⟨a, _, by simp only [List.append_assoc, List.cons_append]; rfl, ha, n, _, rfl, hn, _, rfl, m, _, rfl, hm,
      b, _, rfl, hb, u, _, rfl, hu, rfl⟩
theorem oneOf_noSlash {c : UInt8} : OneOf true [(47, 47)] c ↔ c ≠ asc '/' :=
  forallU8 (P := fun c => OneOf true [(47, 47)] c ↔ c ≠ asc '/') (by unfold OneOf; decide +kernel) c
theorem L_relative {s} : Lang xRelative s ↔ RelativeLine s := by
  rw [xRelative, lang_seq]
  simp only [l_blanks, lang_seq, lang_group, l_method, l_anyPlus, l_cons, l_char, l_gap, lang_plus_cls,
    oneOf_noSlash]
  constructor
  · rintro ⟨a, y, rfl, ha, n, z, rfl, hn, t, rfl, m, w, rfl, hm, b, v, rfl, hb, u, x, rfl, ⟨hu, hu'⟩, rfl⟩
    exact ⟨a, n, m, b, u, by simp; decide, ha, hn, hm, hb, hu, fun h => hu' _ h rfl⟩
  · rintro ⟨a, n, m, b, u, rfl, ha, hn, hm, hb, hu, hu'⟩
    exact ⟨a, _, by simp only [List.append_assoc, List.cons_append]; rfl, ha, n, _, rfl, hn, _, rfl, m, _, rfl, hm,
      b, _, rfl, hb, u, _, rfl, ⟨hu, fun c hc he => hu' (he ▸ hc)⟩, rfl⟩
theorem L_resource {s} : Lang xResource s ↔ (∃ u, UriLine s u) ∨ ∃ m u, EndpointLine s m u := by
  rw [xResource, lang_seq]
  simp only [l_blanks, lang_seq, lang_group, l_method, l_opt, l_uri, l_gap]
  constructor
  · rintro ⟨a, y, rfl, ha, e, u, rfl, rfl | ⟨m, b, rfl, hm, hb⟩, hu⟩
    · exact .inl ⟨u, a, by simp, ha, hu⟩
    · exact .inr ⟨m, u, a, b, by simp, ha, hm, hb, hu⟩
  · rintro (⟨u, a, rfl, ha, hu⟩ | ⟨m, u, a, b, rfl, ha, hm, hb, hu⟩)
    · exact ⟨a, u, rfl, ha, [], u, rfl, .inl rfl, hu⟩
    · exact ⟨a, m ++ b ++ u, by simp only [List.append_assoc], ha, m ++ b, u, rfl, .inr ⟨m, b, rfl, hm, hb⟩, hu⟩
theorem L_namedResource {s} : Lang xNamedResource s ↔ ∃ n u, NamedResourceLine s n u := by
  rw [xNamedResource, lang_seq]
  simp only [l_blanks, lang_seq, lang_group, l_uri, l_gap, l_symbol, l_cons, l_char]
  constructor
  · rintro ⟨a, y, rfl, ha, n, z, rfl, hn, b, w, rfl, hb, t, rfl, u, v, rfl, hu, rfl⟩
    exact ⟨n, u, a, b, by simp; decide, ha, hn, hb, hu⟩
  · rintro ⟨n, u, a, b, rfl, ha, hn, hb, hu⟩
    exact ⟨a, _, by simp only [List.append_assoc, List.cons_append]; rfl, ha, n, _, rfl, hn, b, _, rfl, hb, _, rfl,
      u, _, rfl, hu, rfl⟩
theorem L_namedEndpoint {s} : Lang xNamedEndpoint s ↔ ∃ n m u, NamedEndpointLine s n m u := by
  rw [xNamedEndpoint, lang_seq]
  simp only [l_blanks, lang_seq, lang_group, l_uri, l_gap, l_symbol, l_cons, l_char, l_method]
  constructor
  · rintro ⟨a, y, rfl, ha, n, z, rfl, hn, b, w, rfl, hb, t, rfl, m, x, rfl, hm, c, v, rfl, hc, u, q, rfl, hu, rfl⟩
    exact ⟨n, m, u, a, b, c, by simp; decide, ha, hn, hb, hm, hc, hu⟩
  · rintro ⟨n, m, u, a, b, c, rfl, ha, hn, hb, hm, hc, hu⟩
    exact ⟨a, _, by simp only [List.append_assoc, List.cons_append]; rfl, ha, n, _, rfl, hn, b, _, rfl, hb, _, rfl,
      m, _, rfl, hm, c, _, rfl, hc, u, _, rfl, hu, rfl⟩
theorem L_group {s} : Lang xGroup s ↔ ∃ n, GroupLine s n := by
  rw [xGroup, lang_seq]
  simp only [l_blanks, lang_seq, lang_group, l_gap, l_symbol, l_kw]
  constructor
  · rintro ⟨a, y, rfl, ha, w, t, rfl, hw, b, z, rfl, hb, n, c, rfl, hn, hc⟩
    exact ⟨n, a, w, b, c, by simp, ha, hw, hb, hn, hc⟩
  · rintro ⟨n, a, w, b, c, rfl, ha, hw, hb, hn, hc⟩
    exact ⟨a, _, by simp only [List.append_assoc], ha, w, _, rfl, hw, b, _, rfl, hb, n, c, rfl, hn, hc⟩

/-- A word with an optional `s`. -/
theorem word_s {a b : Char} {w w' : String} {k x : Bytes} (hw : str w' = str w ++ [115]) :
    (∃ y, k = x ++ y ∧ Word a b w x ∧ (y = [] ∨ y = [115])) → Word a b w k ∨ Word a b w' k := by
  rintro ⟨y, rfl, h, rfl | rfl⟩
  · left; simpa using h
  · right; rcases h with rfl | rfl
    · left; rw [hw]; rfl
    · right; rw [hw]; rfl
theorem word_s' {a b : Char} {w w' : String} {k : Bytes} (hw : str w' = str w ++ [115])
    (h : Word a b w k ∨ Word a b w' k) : ∃ x y, k = x ++ y ∧ Word a b w x ∧ (y = [] ∨ y = [115]) := by
  rcases h with h | h | h
  · exact ⟨k, [], by simp, h, .inl rfl⟩
  · exact ⟨asc a :: str w, [115], by rw [h, hw]; rfl, .inl rfl, .inr rfl⟩
  · exact ⟨asc b :: str w, [115], by rw [h, hw]; rfl, .inr rfl, .inr rfl⟩

theorem L_data {s} : Lang xData s ↔ DataLine s := by
  rw [xData, lang_seq]
  simp only [l_blanks, lang_seq, l_gap, l_kw, l_opt, l_char]
  constructor
  · rintro ⟨a, y, rfl, ha, v, t, rfl, hv, b, z, rfl, hb, x, q, rfl, hx, p, c, rfl, hp, hc⟩
    exact ⟨a, v, b, x ++ p, c, by simp, ha, hv, hb, word_s (by decide) ⟨p, rfl, hx, hp⟩, hc⟩
  · rintro ⟨a, v, b, w, c, rfl, ha, hv, hb, hw, hc⟩
    obtain ⟨x, p, rfl, hx, hp⟩ := word_s' (by decide) hw
    exact ⟨a, _, by simp only [List.append_assoc], ha, v, _, rfl, hv, b, _, rfl, hb, x, _, rfl, hx, p, c, rfl, hp, hc⟩

theorem L_keyword {a b : Char} {w : String} {s} : Lang (.seq rBlanks (kw a b w rBlanks)) s ↔ Keyword (Word a b w) s := by
  rw [lang_seq]; simp only [l_blanks, l_kw]
  constructor
  · rintro ⟨x, y, rfl, hx, k, t, rfl, hk, ht⟩; exact ⟨x, k, t, by simp, hx, hk, ht⟩
  · rintro ⟨x, k, t, rfl, hx, hk, ht⟩; exact ⟨x, _, by simp only [List.append_assoc], hx, k, t, rfl, hk, ht⟩
theorem L_keyword_s {a b : Char} {w w' : String} {s} (hw : str w' = str w ++ [115]) :
    Lang (.seq rBlanks (kw a b w (.seq (rOpt (rChar 115)) rBlanks))) s ↔
      Keyword (fun k => Word a b w k ∨ Word a b w' k) s := by
  rw [lang_seq]; simp only [l_blanks, l_kw, lang_seq, l_opt, l_char]
  constructor
  · rintro ⟨x, y, rfl, hx, k, t, rfl, hk, p, c, rfl, hp, hc⟩
    exact ⟨x, k ++ p, c, by simp, hx, word_s hw ⟨p, rfl, hk, hp⟩, hc⟩
  · rintro ⟨x, k, t, rfl, hx, hk, ht⟩
    obtain ⟨k, p, rfl, hk, hp⟩ := word_s' hw hk
    exact ⟨x, _, by simp only [List.append_assoc], hx, k, _, rfl, hk, p, t, rfl, hp, ht⟩
theorem L_headers {s} : Lang xHeaders s ↔ HeadersLine s := L_keyword_s (by decide)
theorem L_parameters {s} : Lang xParameters s ↔ ParametersLine s := L_keyword_s (by decide)
theorem L_body {s} : Lang xBody s ↔ BodyLine s := L_keyword
theorem L_schema {s} : Lang xSchema s ↔ SchemaLine s := L_keyword
theorem L_values {s} : Lang xValues s ↔ ValuesLine s := L_keyword
theorem L_attributes {s} : Lang xAttributes s ↔ AttributesLine s := by
  rw [xAttributes, lang_seq]
  simp only [l_blanks, lang_seq, l_kw, l_opt, l_char, lang_group, l_cons, l_any]
  constructor
  · rintro ⟨a, y, rfl, ha, w, t, rfl, hw, p, z, rfl, hp, b, r, rfl, hb, hr⟩
    refine ⟨a, w ++ p, b, r, by simp, ha, word_s (by decide) ⟨p, rfl, hw, hp⟩, hb, ?_⟩
    rcases hr with rfl | ⟨t, rfl, u, v, rfl, _, rfl⟩
    · exact .inl rfl
    · exact .inr ⟨u, rfl⟩
  · rintro ⟨a, w, b, r, rfl, ha, hw, hb, hr⟩
    obtain ⟨w, p, rfl, hw, hp⟩ := word_s' (by decide) hw
    refine ⟨a, _, by simp only [List.append_assoc], ha, w, _, rfl, hw, p, _, rfl, hp, b, r, rfl, hb, ?_⟩
    rcases hr with rfl | ⟨t, rfl⟩
    · exact .inl rfl
    · exact .inr ⟨_, rfl, t, _, rfl, trivial, rfl⟩
theorem L_relation {s} : Lang xRelation s ↔ RelationLine s [] := by
  rw [xRelation, lang_seq]
  simp only [l_blanks, lang_seq, l_kw, l_char]
  constructor
  · rintro ⟨a, y, rfl, ha, w, t, rfl, hw, b, z, rfl, hb, rfl⟩
    exact ⟨a, w, b, by simp; decide, ha, hw, hb⟩
  · rintro ⟨a, w, b, rfl, ha, hw, hb⟩
    exact ⟨a, _, by simp only [List.append_assoc]; rfl, ha, w, _, rfl, hw, b, _, rfl, hb, rfl⟩
theorem L_mixin {s} : Lang xMixin s ↔ ∃ a w b, s = a ++ w ++ b ∧ Blanks a ∧ Word 'I' 'i' "nclude" w ∧ Gap b := by
  rw [xMixin, lang_seq]
  simp only [l_blanks, lang_group, l_kw, l_gap]
  constructor
  · rintro ⟨a, y, rfl, ha, w, t, rfl, hw, hb⟩; exact ⟨a, w, t, by simp, ha, hw, hb⟩
  · rintro ⟨a, w, t, rfl, ha, hw, hb⟩; exact ⟨a, _, by simp only [List.append_assoc], ha, w, t, rfl, hw, hb⟩
theorem L_oneOf {s} : Lang xOneOf s ↔ OneOfLine s := by
  rw [xOneOf, lang_seq]
  simp only [l_blanks, lang_seq, l_kw, l_gap]
  constructor
  · rintro ⟨a, y, rfl, ha, v, t, rfl, hv, b, z, rfl, hb, w, c, rfl, hw, hc⟩
    exact ⟨a, v, b, w, c, by simp, ha, hv, hb, hw, hc⟩
  · rintro ⟨a, v, b, w, c, rfl, ha, hv, hb, hw, hc⟩
    exact ⟨a, _, by simp only [List.append_assoc], ha, v, _, rfl, hv, b, _, rfl, hb, w, c, rfl, hw, hc⟩
theorem L_colon {a b : Char} {w : String} {s} :
    Lang (.seq rBlanks (kw a b w (.seq rBlanks rColon))) s ↔ ColonLine (Word a b w) s := by
  rw [lang_seq]
  simp only [l_blanks, lang_seq, l_kw, rColon, l_opt, lang_group, l_cons, l_any, and_true]
  constructor
  · rintro ⟨x, y, rfl, hx, k, t, rfl, hk, c, r, rfl, hc, hr⟩
    refine ⟨x, k, c, r, by simp, hx, hk, hc, ?_⟩
    rcases hr with rfl | ⟨t, rfl⟩
    · exact .inl rfl
    · exact .inr rfl
  · rintro ⟨x, k, c, r, rfl, hx, hk, hc, hr⟩
    refine ⟨x, _, by simp only [List.append_assoc], hx, k, _, rfl, hk, c, r, rfl, hc, ?_⟩
    rcases hr with rfl | hr
    · exact .inl rfl
    · cases r with
      | nil => exact .inl rfl
      | cons d r => simp only [List.head?_cons, Option.some.injEq] at hr; subst hr; exact .inr ⟨r, rfl⟩
theorem L_default {s} : Lang xDefault s ↔ DefaultLine s := L_colon
theorem L_sample {s} : Lang xSample s ↔ SampleLine s := L_colon
theorem l_kwEnd {a b : Char} {w w' : String} {s} (hw : str w' = str w ++ [115]) :
    Lang (kw a b w (rChar 115)) s ↔ Word a b w' s := by
  rw [l_kw]; simp only [l_char]
  constructor
  · rintro ⟨k, t, rfl, rfl | rfl, rfl⟩
    · left; rw [hw]; rfl
    · right; rw [hw]; rfl
  · rintro (rfl | rfl)
    · exact ⟨asc a :: str w, [115], by rw [hw]; rfl, .inl rfl, rfl⟩
    · exact ⟨asc b :: str w, [115], by rw [hw]; rfl, .inr rfl, rfl⟩
theorem L_valueMembers {s} : Lang xValueMembers s ↔ ItemsLine s := by
  rw [xValueMembers, lang_seq]
  simp only [l_blanks, lang_seq, lang_group, lang_alt]
  simp only [l_kwEnd (a := 'I') (b := 'i') (w := "tem") (w' := "tems") (by decide),
    l_kwEnd (a := 'M') (b := 'm') (w := "ember") (w' := "embers") (by decide)]
  constructor
  · rintro ⟨a, y, rfl, ha, w, b, rfl, hw, hb⟩; exact ⟨a, w, b, by simp, ha, hw, hb⟩
  · rintro ⟨a, w, b, rfl, ha, hw, hb⟩; exact ⟨a, _, by simp only [List.append_assoc], ha, w, b, rfl, hw, hb⟩
theorem L_propertyMembers {s} : Lang xPropertyMembers s ↔ PropertiesLine s := by
  rw [xPropertyMembers, lang_seq]
  simp only [l_blanks, lang_seq, lang_group]
  simp only [l_kwEnd (a := 'P') (b := 'p') (w := "ropertie") (w' := "roperties") (by decide)]
  constructor
  · rintro ⟨a, y, rfl, ha, w, b, rfl, hw, hb⟩; exact ⟨a, w, b, by simp, ha, hw, hb⟩
  · rintro ⟨a, w, b, rfl, ha, hw, hb⟩; exact ⟨a, _, by simp only [List.append_assoc], ha, w, b, rfl, hw, hb⟩

theorem oneOf_status {c : UInt8} : OneOf false [(32, 32), (9, 9), (48, 57)] c ↔
    c = 32 ∨ c = 9 ∨ (asc '0' ≤ c ∧ c ≤ asc '9') :=
  forallU8 (P := fun c => OneOf false [(32, 32), (9, 9), (48, 57)] c ↔
    c = 32 ∨ c = 9 ∨ (asc '0' ≤ c ∧ c ≤ asc '9')) (by unfold OneOf; decide +kernel) c
theorem L_response {s} : Lang xResponse s ↔ ∃ c m, ResponseLine s c m := by
  rw [xResponse, lang_seq]
  simp only [l_blanks, lang_seq, l_kw, l_opt, lang_group, l_media, rStatus, lang_plus_cls, oneOf_status]
  constructor
  · rintro ⟨a, y, rfl, ha, w, t, rfl, hw, c, z, rfl, hc, p, b, rfl, ⟨m, hm⟩, hb⟩
    refine ⟨c, m, a, w, p, b, by simp, ha, hw, ?_, hm, hb⟩
    rcases hc with rfl | hc
    · simp
    · exact hc.2
  · rintro ⟨c, m, a, w, p, b, rfl, ha, hw, hc, hm, hb⟩
    refine ⟨a, _, by simp only [List.append_assoc], ha, w, _, rfl, hw, c, _, rfl, ?_, p, b, rfl, ⟨m, hm⟩, hb⟩
    by_cases h : c = []
    · exact .inl h
    · exact .inr ⟨h, hc⟩
theorem L_request {s} : Lang xRequest s ↔ ∃ n m, RequestLine s n m := by
  rw [xRequest, lang_seq]
  simp only [l_blanks, lang_seq, l_kw, l_opt, lang_group, l_media, l_blank, l_symbol]
  constructor
  · rintro ⟨a, y, rfl, ha, w, t, rfl, hw, n, z, rfl, hn, p, b, rfl, ⟨m, hm⟩, hb⟩
    refine ⟨n, m, a, w, p, b, by simp, ha, hw, ?_, hm, hb⟩
    rcases hn with rfl | ⟨x, t, rfl, ⟨c, rfl, hc⟩, ht⟩
    · exact .inl rfl
    · exact .inr ⟨c, t, rfl, hc, ht⟩
  · rintro ⟨n, m, a, w, p, b, rfl, ha, hw, hn, hm, hb⟩
    refine ⟨a, _, by simp only [List.append_assoc], ha, w, _, rfl, hw, n, _, rfl, ?_, p, b, rfl, ⟨m, hm⟩, hb⟩
    rcases hn with rfl | ⟨c, t, rfl, hc, ht⟩
    · exact .inl rfl
    · exact .inr ⟨[c], t, rfl, ⟨c, rfl, hc⟩, ht⟩
theorem L_model {s} : Lang xModel s ↔ ∃ n m, ModelLine s n m := by
  rw [xModel, lang_seq]
  simp only [l_blanks, lang_seq, l_kw, l_opt, lang_group, l_media, l_gap, l_symbol]
  constructor
  · rintro ⟨a, y, rfl, ha, i, z, rfl, hi, w, t, rfl, hw, p, b, rfl, ⟨m, hm⟩, hb⟩
    rcases hi with rfl | ⟨n, g, rfl, hn, hg⟩
    · exact ⟨[], m, a, [], w, p, b, by simp, ha, .inl ⟨rfl, rfl⟩, hw, hm, hb⟩
    · exact ⟨n, m, a, n ++ g, w, p, b, by simp, ha, .inr ⟨g, rfl, hn, hg⟩, hw, hm, hb⟩
  · rintro ⟨n, m, a, i, w, p, b, rfl, ha, hi, hw, hm, hb⟩
    refine ⟨a, _, by simp only [List.append_assoc], ha, i, _, rfl, ?_, w, _, rfl, hw, p, b, rfl, ⟨m, hm⟩, hb⟩
    rcases hi with ⟨rfl, rfl⟩ | ⟨g, rfl, hn, hg⟩
    · exact .inl rfl
    · exact .inr ⟨n, g, rfl, hn, hg⟩
theorem oneOf_lower {c : UInt8} : OneOf false [(97, 122)] c ↔ asc 'a' ≤ c ∧ c ≤ asc 'z' :=
  forallU8 (P := fun c => OneOf false [(97, 122)] c ↔ asc 'a' ≤ c ∧ c ≤ asc 'z') (by
    unfold OneOf; decide +kernel) c
theorem oneOf_ident {c : UInt8} : OneOf false [(97, 122), (48, 57), (46, 46), (45, 45)] c ↔
    (asc 'a' ≤ c ∧ c ≤ asc 'z') ∨ (asc '0' ≤ c ∧ c ≤ asc '9') ∨ c = asc '.' ∨ c = asc '-' :=
  forallU8 (P := fun c => OneOf false [(97, 122), (48, 57), (46, 46), (45, 45)] c ↔
    (asc 'a' ≤ c ∧ c ≤ asc 'z') ∨ (asc '0' ≤ c ∧ c ≤ asc '9') ∨ c = asc '.' ∨ c = asc '-') (by
    unfold OneOf; decide +kernel) c
theorem l_identifier {s} : Lang rIdentifier s ↔ Identifier s := by
  rw [rIdentifier, lang_seq]; simp only [lang_cls, lang_star_cls, oneOf_lower, oneOf_ident]
  constructor
  · rintro ⟨x, y, rfl, ⟨c, rfl, hc⟩, hy⟩; exact ⟨c, y, rfl, hc, hy⟩
  · rintro ⟨c, y, rfl, hc, hy⟩; exact ⟨[c], y, rfl, ⟨c, rfl, hc⟩, hy⟩
theorem L_relationIdentifier {s} : Lang xRelationIdentifier s ↔
    ∃ b i c, RelationLine s (b ++ i ++ c) ∧ Blanks b ∧ (i = [] ∨ Identifier i) ∧ Blanks c := by
  rw [xRelationIdentifier, lang_seq]
  simp only [l_blanks, lang_seq, l_kw, l_cons, l_opt, lang_group, l_identifier]
  constructor
  · rintro ⟨a, y, rfl, ha, w, t, rfl, hw, b, z, rfl, hb, v, rfl, c, x, rfl, hc, i, d, rfl, hi, hd⟩
    exact ⟨c, i, d, ⟨a, w, b, by simp; decide, ha, hw, hb⟩, hc, hi, hd⟩
  · rintro ⟨c, i, d, ⟨a, w, b, rfl, ha, hw, hb⟩, hc, hi, hd⟩
    exact ⟨a, _, by simp only [List.append_assoc]; rfl, ha, w, _, rfl, hw, b, _, rfl, hb, _, rfl, c, _, rfl, hc, i, d,
      rfl, hi, hd⟩

end Verif.Recognition
