import Verif.Model.Text
/-!
# Signatures of sections: packages/apib-parser/src/snowcrash/SignatureSectionProcessor.h

`S` below is packages/apib-parser/src/snowcrash.
-/
namespace Verif.Signature
open Verif Verif.Text

/-- `SignatureTraits` and its `Delimiters`, S/Signature.h:55-104. -/
structure Traits where
  identifier : Bool
  values : Bool
  attributes : Bool
  content : Bool
  valuesDelimiter : UInt8 := asc ':'
  contentDelimiter : Bytes := str "-"

/-- `Signature`, S/Signature.h:40-50. -/
structure Signature where
  identifier : Bytes := []
  value : Bytes := []
  values : List Bytes := []
  attributes : List Bytes := []
  content : Bytes := []
  remainingContent : Bytes := []
deriving DecidableEq

/-- `subject.substr(i, delimiter.length()) == delimiter`. -/
def contentAt (t : Traits) (subject : Bytes) (i : Nat) : Bool :=
  t.content && (subject.drop i).take t.contentDelimiter.length == t.contentDelimiter

theorem retrieveEscaped_lt {subject : Bytes} {i : Nat} {c : UInt8} (hc : subject[i]? = some c)
    (h : (retrieveEscaped subject i).1 ≠ []) : (retrieveEscaped subject i).2.length < subject.length - i := by
  unfold retrieveEscaped at h ⊢
  dsimp only at h ⊢
  have hi : i < subject.length := (List.getElem?_eq_some_iff.1 hc).1
  generalize findSub _ _ = f at h ⊢
  cases f with
  | none => simp at h
  | some e =>
    have hd : subject.drop i = c :: subject.drop (i + 1) := by
      rw [List.drop_eq_getElem_cons hi]; congr 1; exact (List.getElem?_eq_some_iff.1 hc).2
    have hl : 1 ≤ ((subject.drop i).takeWhile (· = (subject.drop i).headD 0)).length := by
      rw [hd]; simp
    simp only [Bool.false_eq_true, ↓reduceIte, List.length_drop]
    omega

/-- The loop of `parseSignatureIdentifier`, S/SignatureSectionProcessor.h:186-218: the subject, the position in it and the
    identifier. -/
def identifierLoop (t : Traits) (subject : Bytes) (i : Nat) (id : Bytes) : Bytes × Nat × Bytes :=
  match h : subject[i]? with
  | none => (subject, i, id)
  | some c =>
    if c ∈ str "*_`" then
      if he : (retrieveEscaped subject i).1 = [] then identifierLoop t subject (i + 1) (id ++ [c])
      else identifierLoop t (retrieveEscaped subject i).2 0 (id ++ (retrieveEscaped subject i).1)
    else if (t.values && c == t.valuesDelimiter) || (t.attributes && c == asc '(') || contentAt t subject i then (subject.drop i, 0, id)
    else identifierLoop t subject (i + 1) (id ++ [c])
termination_by subject.length - i
decreasing_by
  all_goals have hi : i < subject.length := (List.getElem?_eq_some_iff.1 h).1
  · omega
  · have := retrieveEscaped_lt h he; omega
  · omega

/-- `parseSignatureIdentifier`, S/SignatureSectionProcessor.h:175-233: the identifier and the new subject. -/
def parseIdentifier (t : Traits) (subject : Bytes) : Bytes × Bytes :=
  let r := identifierLoop t (trim subject) 0 []
  (trim r.2.2, trim (if r.2.1 = r.1.length then [] else r.1))

theorem trim_length (s : Bytes) : (trim s).length ≤ s.length := by
  unfold trim trimStart trimEnd
  refine Nat.le_trans (List.dropWhile_sublist _).length_le ?_
  rw [List.length_reverse]
  refine Nat.le_trans (List.dropWhile_sublist _).length_le ?_
  simp

/-- The loop of `parseSignatureValues`, S/SignatureSectionProcessor.h:257-298: the subject, the position in it, the value and the
    values. -/
def valuesLoop (t : Traits) (subject : Bytes) (i : Nat) (value : Bytes) (values : List Bytes) : Bytes × Nat × Bytes × List Bytes :=
  match h : subject[i]? with
  | none => (subject, i, value, values)
  | some c =>
    if c = asc '`' then
      if he : (retrieveEscaped subject i).1 = [] then valuesLoop t subject (i + 1) (value ++ [c]) values
      else valuesLoop t (retrieveEscaped subject i).2 0 (value ++ (retrieveEscaped subject i).1) values
    else if c = asc ',' then valuesLoop t (trim (subject.drop (i + 1))) 0 [] (values ++ [stripBackticks (trim value)])
    else if (t.attributes && c == asc '(') || contentAt t subject i then (subject.drop i, 0, value, values)
    else valuesLoop t subject (i + 1) (value ++ [c]) values
termination_by subject.length - i
decreasing_by
  all_goals have hi : i < subject.length := (List.getElem?_eq_some_iff.1 h).1
  · omega
  · have := retrieveEscaped_lt h he; omega
  · have := trim_length (subject.drop (i + 1)); simp only [List.length_drop] at this; omega
  · omega

/-- `parseSignatureValues`, S/SignatureSectionProcessor.h:244-317: the value, the values and the new subject. -/
def parseValues (t : Traits) (subject : Bytes) : Bytes × List Bytes × Bytes :=
  let s := trim (subject.drop 1)
  let r := valuesLoop t s 0 [] []
  let values := if (trim r.2.2.1).isEmpty then r.2.2.2 else r.2.2.2 ++ [trim r.2.2.1]
  let rest := trim (if r.2.1 = r.1.length then [] else r.1)
  (stripBackticks (trim (s.take (s.length - rest.length))), values, rest)

/-- What can go wrong while attributes are parsed. -/
inductive Fault where
  /-- the bound on the depth of calls is exceeded -/
  | fuel
  /-- a character outside the string is read -/
  | outOfBounds
deriving DecidableEq, Repr

/-- The loop of `matchBrackets`, S/SignatureSectionProcessor.h:389-440: the returned string and the new subject, with a bound on the
    number of calls and steps. -/
def matchLoop : Nat → Bytes → Nat → UInt8 → Bool → Bool → Bytes → Except Fault (Bytes × Bytes)
  | 0, _, _, _, _, _, _ => .error .fuel
  | n + 1, subject, i, close, split, clear, ret =>
    match subject[i]? with
    | none => .ok (ret, if i = subject.length ∧ clear then [] else subject)
    | some c =>
      if c = asc '`' then
        let e := retrieveEscaped subject i
        if e.1 = [] then matchLoop n subject (i + 1) close split clear (ret ++ [c])
        else matchLoop n e.2 0 close split clear (ret ++ e.1)
      else if c = asc '[' then
        (matchLoop n subject (i + 1) (asc ']') false true [c]).bind fun r => matchLoop n r.2 0 close split clear (ret ++ r.1)
      else if c = asc '(' then
        (matchLoop n subject (i + 1) (asc ')') false true [c]).bind fun r => matchLoop n r.2 0 close split clear (ret ++ r.1)
      else if c = close then
        -- the loop ends with `i` = 0, so that the subject is cleared if nothing follows, which changes nothing
        .ok (if split then ret else ret ++ [c], subject.drop (i + 1))
      else if split && c = asc ',' then .ok (ret ++ [c], subject.drop (i + 1))
      else matchLoop n subject (i + 1) close split clear (ret ++ [c])

/-- The calls `matchBrackets(subject, 0, ')', true)`, S/SignatureSectionProcessor.h:376-440. -/
def matchBrackets (subject : Bytes) : Except Fault (Bytes × Bytes) := matchLoop (subject.length + 1) subject 1 (asc ')') true false []

/-- The loop of `parseSignatureAttributes`, S/SignatureSectionProcessor.h:337-359, with a bound on the number of steps. -/
def attributesLoop : Nat → Bytes → List Bytes → Except Fault (List Bytes × Bytes)
  | 0, _, _ => .error .fuel
  | n + 1, subject, attributes =>
    (matchBrackets subject).bind fun r =>
      match r.1.getLast? with
      | none => .error .outOfBounds
      | some c =>
        if c ≠ asc ',' then .ok (if (trim r.1).isEmpty then attributes else attributes ++ [trim r.1], r.2)
        else
          let a := trim r.1.dropLast
          attributesLoop n (asc '(' :: r.2) (if a.isEmpty then attributes else attributes ++ [a])

/-- `parseSignatureAttributes`, S/SignatureSectionProcessor.h:327-362: the attributes and the new subject. -/
def parseAttributes (subject : Bytes) : Except Fault (List Bytes × Bytes) :=
  if subject.head? ≠ some (asc '(') then .ok ([], subject)
  else (attributesLoop (subject.length + 1) subject []).map fun r => (r.1, trim r.2)

/-- `parseSignature`, S/SignatureSectionProcessor.h:72-139, for a subject that is not empty; the warnings are not modelled. -/
def parseSignature (t : Traits) (subject : Bytes) : Except Fault Signature :=
  let p := if t.identifier && !subject.isEmpty then parseIdentifier t subject else ([], subject)
  let s := p.2
  let q : Bytes × List Bytes × Bytes :=
    if t.values && !s.isEmpty && s.head? ≠ some (asc '(') then
      let s := if t.identifier then s else t.valuesDelimiter :: s
      if s.head? = some t.valuesDelimiter then parseValues t s else ([], [], s)
    else ([], [], s)
  let s := q.2.2
  let startsContent (s : Bytes) : Bool := s.take t.contentDelimiter.length == t.contentDelimiter
  (if t.attributes && !s.isEmpty && !startsContent s then parseAttributes s else .ok ([], s)).bind fun r =>
    let content := if t.content && !r.2.isEmpty && startsContent r.2 then trim (r.2.drop t.contentDelimiter.length) else []
    .ok { identifier := p.1, value := q.1, values := q.2.1, attributes := r.1, content := content }

end Verif.Signature
