import Verif.Model.SerializeSo
import Verif.Spec.Elements
namespace Verif.Refract
open Verif Verif.So Verif.Spec

/-! ## Flag off = flag on without the source maps -/
mutual
theorem ser_off : (e : Elem) → serAny e false = serAny (withoutMaps e) true
  | .mk n m a h d => by
      have h1 := serI_off m
      have h2 := serI_off a
      have h3 := serD_off d
      simp only [withoutMaps, serAny, h1, h3, Bool.false_or, Bool.true_or]
      by_cases hn : n = str "annotation"
      · simp [hn]
      · have : (n == str "annotation") = false := by simpa using hn
        simp only [this, h2, if_neg hn]
termination_by structural e => e
theorem serI_off : (l : List (Bytes × Elem)) → serInfos l false = serInfos (withoutMapsI l) true
  | [] => rfl
  | p :: r => by
      have h1 := serP_off p
      have h2 := serI_off r
      by_cases hk : p.1 = str "sourceMap"
      · simp [serInfos, withoutMapsI, hk, h2]
      · simp [serInfos, withoutMapsI, hk, h2, h1]
termination_by structural l => l
theorem serP_off : (p : Bytes × Elem) → serInfo p false = serInfo (withoutMapsP p) true
  | (k, e) => by have h1 := ser_off e; simp [serInfo, withoutMapsP, h1]
termination_by structural p => p
theorem serD_off : (d : Data) → serData d false = serData (withoutMapsD d) true
  | .null => rfl | .string _ => rfl | .number _ => rfl | .boolean _ => rfl | .ref _ => rfl
  | .array es => by have h := serL_off es; simp [serData, withoutMapsD, h]
  | .object es => by have h := serL_off es; simp [serData, withoutMapsD, h]
  | .extend es => by have h := serL_off es; simp [serData, withoutMapsD, h]
  | .option es => by have h := serL_off es; simp [serData, withoutMapsD, h]
  | .select es => by have h := serL_off es; simp [serData, withoutMapsD, h]
  | .enum v => by have h := serO_off v; simp [serData, withoutMapsD, h]
  | .holder v => by have h := serO_off v; simp [serData, withoutMapsD, h]
  | .member k v => by have h := serO_off k; have h' := serV_off v; simp [serData, withoutMapsD, h, h']
termination_by structural d => d
theorem serL_off : (l : List Elem) → serList l false = serList (withoutMapsL l) true
  | [] => rfl
  | e :: r => by have h1 := ser_off e; have h2 := serL_off r; simp [serList, withoutMapsL, h1, h2]
termination_by structural l => l
theorem serO_off : (o : Option Elem) → serDeref o false = serDeref (withoutMapsO o) true
  | none => rfl
  | some e => by have h1 := ser_off e; simp [serDeref, withoutMapsO, h1]
termination_by structural o => o
theorem serV_off : (o : Option Elem) → serValue o false = serValue (withoutMapsO o) true
  | none => rfl
  | some e => by have h1 := ser_off e; simp [serValue, withoutMapsO, h1]
termination_by structural o => o
end

/-! ## Reading back -/

theorem readMembers_append (a b : List (Bytes × Value)) : readMembers (a ++ b) = readMembers a ++ readMembers b := by
  induction a with
  | nil => rfl
  | cons p r ih => simp [readMembers, ih]

theorem lookup_append {α} (k : Bytes) (a b : List (Bytes × α)) : lookup k (a ++ b) = (lookup k a).or (lookup k b) := by
  induction a with
  | nil => simp [lookup]
  | cons p r ih =>
    obtain ⟨k', v⟩ := p
    simp only [List.cons_append, lookup]
    split
    · simp
    · exact ih

theorem readNamed_nil : readNamed (.obj []) = [] := rfl

mutual
theorem read_ser : (e : Elem) → readTree (serAny e true) = treeOf e
  | .mk n m a h d => by
      have h1 := readI_ser m
      have h2 := readI_ser a
      have h3 := readD_ser d
      simp only [serAny, Bool.true_or, readTree, readMembers_append, treeOf]
      have hm : ∀ (l : List (Bytes × Elem)), readNamed (.obj (serInfos l true)) = treeOfI l → (serInfos l true).isEmpty = true →
          treeOfI l = [] := by
        intro l hl he
        rw [List.isEmpty_iff.1 he] at hl; exact hl.symm
      have k1 : str "meta" ≠ str "element" := by decide
      have k2 : str "attributes" ≠ str "element" := by decide
      have k3 : str "content" ≠ str "element" := by decide
      have k4 : str "attributes" ≠ str "meta" := by decide
      have k5 : str "content" ≠ str "meta" := by decide
      have k6 : str "content" ≠ str "attributes" := by decide
      have e1 := hm m h1
      have e2 := hm a h2
      by_cases c1 : (serInfos m true).isEmpty = true <;> by_cases c2 : (serInfos a true).isEmpty = true <;> cases h <;>
        simp [c1, c2, readMembers, readMember, lookup, readTree, k1, k2, k3, k4, k5, k6, k1.symm, k2.symm, k3.symm, k4.symm,
          k5.symm, k6.symm, h1, h2, h3, e1, e2]
termination_by structural e => e
theorem readI_ser : (l : List (Bytes × Elem)) → readNamed (.obj (serInfos l true)) = treeOfI l
  | [] => rfl
  | p :: r => by
      have h1 := readP_ser p
      have h2 := readI_ser r
      simp only [serInfos, Bool.true_or, if_pos, readNamed, readMembers, List.map_cons, treeOfI] at h2 ⊢
      rw [h2, ← h1]
termination_by structural l => l
theorem readP_ser : (p : Bytes × Elem) → ((readMember (serInfo p true)).1, (readMember (serInfo p true)).2.1) = treeOfP p
  | (k, e) => by have h1 := read_ser e; simp [serInfo, readMember, treeOfP, h1]
termination_by structural p => p
theorem readD_ser : (d : Data) → readTree (serData d true) = treeOfD d
  | .null => rfl | .string _ => rfl | .number _ => rfl | .ref _ => rfl
  | .boolean b => by cases b <;> rfl
  | .array es => by have h := readL_ser es; simp [serData, treeOfD, readTree, h]
  | .object es => by have h := readL_ser es; simp [serData, treeOfD, readTree, h]
  | .extend es => by have h := readL_ser es; simp [serData, treeOfD, readTree, h]
  | .option es => by have h := readL_ser es; simp [serData, treeOfD, readTree, h]
  | .select es => by have h := readL_ser es; simp [serData, treeOfD, readTree, h]
  | .enum v => by have h := readO_ser v; simp [serData, treeOfD, h]
  | .holder v => by have h := readO_ser v; simp [serData, treeOfD, h]
  | .member k v => by
      have h := readO_ser k
      have h' := readQ_ser v
      have k1 : str "key" ≠ str "element" := by decide
      have k2 : str "value" ≠ str "element" := by decide
      have k3 : str "value" ≠ str "key" := by decide
      simp only [serData, treeOfD, readTree, readMembers, readMember, lookup, if_neg k1, if_neg k3.symm, h']
      cases v with
      | none => simp [serValue, readMembers, lookup, h, treeOfQ]
      | some w => simp [serValue, readMembers, readMember, lookup, h, k2, treeOfQ] at h' ⊢
termination_by structural d => d
theorem readL_ser : (l : List Elem) → readList (serList l true) = treeOfL l
  | [] => rfl
  | e :: r => by have h1 := read_ser e; have h2 := readL_ser r; simp [serList, readList, treeOfL, h1, h2]
termination_by structural l => l
theorem readO_ser : (o : Option Elem) → readTree (serDeref o true) = treeOfO o
  | none => rfl
  | some e => by have h1 := read_ser e; simp [serDeref, treeOfO, h1]
termination_by structural o => o
theorem readQ_ser : (o : Option Elem) → (lookup (str "value") (readMembers (serValue o true))).map (·.1) = treeOfQ o
  | none => rfl
  | some e => by have h1 := read_ser e; simp [serValue, readMembers, readMember, lookup, treeOfQ, h1]
termination_by structural o => o
end

/-! ## No source maps -/

theorem noMapsMembers_append (ann : Bool) (a b : List (Bytes × Value)) :
    noMapsMembers ann (a ++ b) = (noMapsMembers ann a && noMapsMembers ann b) := by
  induction a with
  | nil => simp [noMapsMembers]
  | cons p r ih => simp [noMapsMembers, ih, Bool.and_assoc]

theorem noMaps_infos (l : List (Bytes × Elem)) (b : Bool) (h : noMapsMembers false (serInfos l b) = true) : noMaps (.obj (serInfos l b)) = true := by
  have : ∀ n, lookup (str "element") (serInfos l b) ≠ some (.str n) := by
    intro n
    clear h
    induction l with
    | nil => simp [serInfos, lookup]
    | cons p r ih =>
      obtain ⟨k, e⟩ := p
      cases e
      simp only [serInfos, serInfo]
      split
      · simp only [lookup]
        split
        · simp [serAny]
        · exact ih
      · exact ih
  rw [noMaps]
  split
  · rename_i n hn; exact absurd hn (this n)
  · exact h

mutual
theorem nm_ser : (e : Elem) → noMaps (serAny e false) = true
  | .mk n m a h d => by
      have h1 := noMaps_infos m false (nmI_ser m)
      have h2 := noMaps_infos a false (nmI_ser a)
      have h3 := nmD_ser d
      have k1 : str "element" ≠ str "sourceMap" := by decide
      have k2 : str "meta" ≠ str "sourceMap" := by decide
      have k3 : str "attributes" ≠ str "sourceMap" := by decide
      have k4 : str "content" ≠ str "sourceMap" := by decide
      have k5 : str "element" ≠ str "attributes" := by decide
      have k6 : str "meta" ≠ str "attributes" := by decide
      have k7 : str "content" ≠ str "attributes" := by decide
      simp only [serAny, Bool.false_or, noMaps]
      rw [List.append_assoc, List.append_assoc, lookup_append]
      simp only [lookup, if_pos, Option.some_or]
      have hs : noMaps (.str n) = true := rfl
      by_cases hn : n = str "annotation"
      · have hb : (n == str "annotation") = true := by simpa using hn
        by_cases c1 : (serInfos m false).isEmpty = true <;> by_cases c2 : (serInfos a true).isEmpty = true <;> cases h <;>
          simp [hb, c1, c2, noMapsMembers, noMapsMember, h1, h3, hs, k1, k2, k4, k5, k6, k7]
      · have hb : (n == str "annotation") = false := by simpa using hn
        by_cases c1 : (serInfos m false).isEmpty = true <;> by_cases c2 : (serInfos a false).isEmpty = true <;> cases h <;>
          simp [hb, c1, c2, noMapsMembers, noMapsMember, h1, h2, h3, hs, k1, k2, k3, k4]
termination_by structural e => e
theorem nmI_ser : (l : List (Bytes × Elem)) → noMapsMembers false (serInfos l false) = true
  | [] => rfl
  | p :: r => by
      have h1 := nmP_ser p
      have h2 := nmI_ser r
      by_cases hk : p.1 = str "sourceMap"
      · simp [serInfos, hk, h2]
      · simp [serInfos, hk, noMapsMembers, h2, h1 hk]
termination_by structural l => l
theorem nmP_ser : (p : Bytes × Elem) → p.1 ≠ str "sourceMap" → noMapsMember false (serInfo p false) = true
  | (k, e), hk => by have h1 := nm_ser e; simp at hk; simp [serInfo, noMapsMember, h1, hk]
termination_by structural p => p
theorem nmD_ser : (d : Data) → noMaps (serData d false) = true
  | .null => rfl | .string _ => rfl | .number _ => rfl | .ref _ => rfl
  | .boolean b => by cases b <;> rfl
  | .array es => by have h := nmL_ser es; simp [serData, noMaps, h]
  | .object es => by have h := nmL_ser es; simp [serData, noMaps, h]
  | .extend es => by have h := nmL_ser es; simp [serData, noMaps, h]
  | .option es => by have h := nmL_ser es; simp [serData, noMaps, h]
  | .select es => by have h := nmL_ser es; simp [serData, noMaps, h]
  | .enum v => by have h := nmO_ser v; simp [serData, h]
  | .holder v => by have h := nmO_ser v; simp [serData, h]
  | .member k v => by
      have h := nmO_ser k
      have h' := nmV_ser v
      have k1 : str "key" ≠ str "element" := by decide
      have k2 : str "value" ≠ str "element" := by decide
      have k3 : str "key" ≠ str "sourceMap" := by decide
      have hl : lookup (str "element") (serValue v false) = none := by cases v <;> simp [serValue, lookup, k2]
      simp only [serData, noMaps, lookup, if_neg k1, hl]
      simp [noMapsMembers, noMapsMember, h, h', k3]
termination_by structural d => d
theorem nmL_ser : (l : List Elem) → noMapsList (serList l false) = true
  | [] => rfl
  | e :: r => by have h1 := nm_ser e; have h2 := nmL_ser r; simp [serList, noMapsList, h1, h2]
termination_by structural l => l
theorem nmO_ser : (o : Option Elem) → noMaps (serDeref o false) = true
  | none => rfl
  | some e => by have h1 := nm_ser e; simp [serDeref, h1]
termination_by structural o => o
theorem nmV_ser : (o : Option Elem) → noMapsMembers false (serValue o false) = true
  | none => rfl
  | some e => by
      have h1 := nm_ser e
      have k : str "value" ≠ str "sourceMap" := by decide
      simp [serValue, noMapsMembers, noMapsMember, h1, k]
termination_by structural o => o
end

end Verif.Refract
