import Verif.Model.Value
/-!
# Equality of value trees up to the order of object members (specification)
-/
namespace Verif.Spec
open Verif Verif.So

mutual
/-- The two trees are the same except for the order of object members: an object is the same as another one if its
    members, changed only inside, are a permutation of the members of the other. -/
def Same : Value → Value → Prop
  | .null, w => w = .null
  | .tru, w => w = .tru
  | .fls, w => w = .fls
  | .str s, w => w = .str s
  | .num s, w => w = .num s
  | .obj ms, w => ∃ ns ms', w = .obj ns ∧ SameM ms ms' ∧ ms'.Perm ns
  | .arr es, w => ∃ fs, w = .arr fs ∧ SameE es fs
termination_by structural v => v
/-- Pointwise the same members. -/
def SameM : List (Bytes × Value) → List (Bytes × Value) → Prop
  | [], l => l = []
  | p :: r, l => ∃ q s, l = q :: s ∧ SameP p q ∧ SameM r s
termination_by structural v => v
/-- Same key and same value. -/
def SameP : Bytes × Value → Bytes × Value → Prop
  | (k, v), q => q.1 = k ∧ Same v q.2
termination_by structural v => v
/-- Pointwise the same elements. -/
def SameE : List Value → List Value → Prop
  | [], l => l = []
  | v :: r, l => ∃ w s, l = w :: s ∧ Same v w ∧ SameE r s
termination_by structural v => v
end

mutual
/-- No object in the tree has two members with the same key. -/
def UniqueKeys : Value → Prop
  | .obj ms => (ms.map (·.1)).Nodup ∧ UniqueKeysM ms
  | .arr es => UniqueKeysE es
  | _ => True
termination_by structural v => v
/-- `UniqueKeys` in all members. -/
def UniqueKeysM : List (Bytes × Value) → Prop
  | [] => True
  | p :: r => UniqueKeysP p ∧ UniqueKeysM r
termination_by structural v => v
/-- `UniqueKeys` in one member. -/
def UniqueKeysP : Bytes × Value → Prop
  | (_, v) => UniqueKeys v
termination_by structural v => v
/-- `UniqueKeys` in all elements. -/
def UniqueKeysE : List Value → Prop
  | [] => True
  | v :: r => UniqueKeys v ∧ UniqueKeysE r
termination_by structural v => v
end

end Verif.Spec
