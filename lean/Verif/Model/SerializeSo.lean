import Verif.Model.Element
import Verif.Model.Value
/-!
# Serialisation of API Elements: packages/drafter/src/refract/SerializeSo.cc
-/
namespace Verif.Refract
open Verif Verif.So

mutual
/-- `serializeAny`, SerializeSo.cc:47-77. -/
def serAny : Elem → Bool → Value
  | .mk n m a h d, maps =>
    .obj ([(str "element", .str n)]
      ++ (if (serInfos m maps).isEmpty then [] else [(str "meta", .obj (serInfos m maps))])
      ++ (if (serInfos a (maps || n == str "annotation")).isEmpty then []
          else [(str "attributes", .obj (serInfos a (maps || n == str "annotation")))])
      ++ (if h then [(str "content", serData d maps)] else []))
termination_by structural e => e
/-- `serialize(const InfoElements&, bool)`, SerializeSo.cc:82-91. -/
def serInfos : List (Bytes × Elem) → Bool → List (Bytes × Value)
  | [], _ => []
  | p :: r, maps => if maps || p.1 != str "sourceMap" then serInfo p maps :: serInfos r maps else serInfos r maps
termination_by structural l => l
def serInfo : Bytes × Elem → Bool → Bytes × Value
  | (k, e), maps => (k, serAny e maps)
termination_by structural p => p
/-- `serializeContent`, SerializeSo.cc:110-197. The asserted pointers of enumerations, holders and member keys are
    given as `null` in the model when they are null (undefined behaviour in the code). -/
def serData : Data → Bool → Value
  | .null, _ => .null
  | .string s, _ => .str s
  | .number s, _ => .num s
  | .boolean b, _ => if b then .tru else .fls
  | .ref s, _ => .str s
  | .array es, maps => .arr (serList es maps)
  | .object es, maps => .arr (serList es maps)
  | .extend es, maps => .arr (serList es maps)
  | .option es, maps => .arr (serList es maps)
  | .select es, maps => .arr (serList es maps)
  | .enum e, maps => serDeref e maps
  | .holder e, maps => serDeref e maps
  | .member k v, maps => .obj ((str "key", serDeref k maps) :: serValue v maps)
termination_by structural d => d
/-- `serializeListContent`, SerializeSo.cc:93-104. -/
def serList : List Elem → Bool → List Value
  | [], _ => []
  | e :: r, maps => serAny e maps :: serList r maps
termination_by structural l => l
def serDeref : Option Elem → Bool → Value
  | none, _ => .null
  | some e, maps => serAny e maps
termination_by structural o => o
/-- SerializeSo.cc:188-189. -/
def serValue : Option Elem → Bool → List (Bytes × Value)
  | none, _ => []
  | some e, maps => [(str "value", serAny e maps)]
termination_by structural o => o
end

/-- `renderSo`, SerializeSo.cc:201-205. -/
def renderSo (e : Elem) (maps : Bool) : Value := serAny e maps

end Verif.Refract
