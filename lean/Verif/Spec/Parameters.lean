import Verif.Model.Parameters
import Verif.Spec.UriTemplate
import Mathlib.Data.List.Forall2
/-!
# Parameters (specification)

Only the data types `Parameter`, `Use` and `Traits` are taken from the model.
-/
namespace Verif.Spec
open Verif Verif.Parameters

/-- The last definition of each name, in the order of these definitions. -/
def keepLast {M} : List (Parameter × M) → List (Parameter × M)
  | [] => []
  | x :: xs => if x.1.name ∈ xs.map (·.1.name) then keepLast xs else x :: keepLast xs

/-- The names given again, in the order of the definitions that do so; `seen` are the names before the list. -/
def redefined {M} (seen : List Bytes) : List (Parameter × M) → List Bytes
  | [] => []
  | x :: xs => (if x.1.name ∈ seen then [x.1.name] else []) ++ redefined (x.1.name :: seen) xs

/-- The template has a variable of that name in one of its expressions. -/
def HasVariable (uri n : Bytes) : Prop :=
  ∃ parts e v, PartsText 0 uri parts ∧ UriTemplate.Part.expression e ∈ parts ∧ UriTemplate.Item.variable v ∈ e.variables ∧ v.name = n

/-! ## Traits -/

/-- What an attribute of a parameter says. -/
inductive Trait where
  | use (u : Use)
  | sample (v : Bytes)
  | type (t : Bytes)
deriving DecidableEq

/-- The word, with blanks around it. -/
def Word (w a : Bytes) : Prop := ∃ l r, (∀ c ∈ l ++ r, c = asc ' ' ∨ c = asc '\t') ∧ a = l ++ w ++ r

def SaysOptional (a : Bytes) : Prop := Word (str "optional") a ∨ Word (str "Optional") a
def SaysRequired (a : Bytes) : Prop := Word (str "required") a ∨ Word (str "Required") a

/-- `v` stands between the first two backticks. -/
def Quoted (v a : Bytes) : Prop := ∃ x y, a = x ++ asc '`' :: v ++ asc '`' :: y ∧ asc '`' ∉ x ∧ asc '`' ∉ v

/-- What the attribute says, in the old syntax and in the new one (which has no sample values among its attributes). -/
inductive Says (oldSyntax : Bool) (a : Bytes) : Trait → Prop
  | optional : SaysOptional a → Says oldSyntax a (.use .optional)
  | required : SaysRequired a → Says oldSyntax a (.use .required)
  | sample {v} : ¬ SaysOptional a → ¬ SaysRequired a → oldSyntax = true → Quoted v a → Says oldSyntax a (.sample v)
  | type : ¬ SaysOptional a → ¬ SaysRequired a → (oldSyntax = true → ∀ v, ¬ Quoted v a) → Says oldSyntax a (.type a)

def isUse : Trait → Bool | .use _ => true | _ => false
def isSample : Trait → Bool | .sample _ => true | _ => false
def isType : Trait → Bool | .type _ => true | _ => false

/-- The number of attributes a parameter may have. -/
def maxAttributes (oldSyntax : Bool) : Nat := if oldSyntax then 3 else 2

end Verif.Spec
