import Verif.Props.C96

/-! # C96: concrete cases -/

namespace Verif.Props
open Verif Verif.Refract Verif.ByteBuffer Verif.Lines Verif.Api Verif.Spec.CommandLine
open Verif.CommandLine (Config Outcome processRefract stoi)

/-- A parser that warns twice. -/
def commandEnv : Env :=
  { parser := fun _ _ => ⟨⟨.ok, [⟨[⟨0, 1⟩, ⟨4, 2⟩], 5, str "w"⟩, ⟨[], 7, str "v"⟩]⟩, none⟩
    converter := fun _ _ _ => ⟨[], .ok ((makeElement (.array [])).setName (str "category"))⟩ }

/-- The outcome, or none. -/
def outcomeOf (r : Run Outcome) : Option Outcome := match r with | .ok o => some o | _ => none

/-- Warnings, in characters. -/
example : outcomeOf (processRefract commandEnv { validate := true } (str "# A\nbcd\n")) =
    some ⟨[], str "\nOK.\nwarning: (5)  w :0:1;4:2\nwarning: (7)  v\n", 0⟩ := by decide +kernel

/-- Warnings, in lines and columns. -/
example : outcomeOf (processRefract commandEnv { validate := true, lineNumbers := true } (str "# A\nbcd\n")) =
    some ⟨[], str "\nOK.\nwarning: (5)  w; line 1, column 1 - line 1, column 1; line 2, column 1 - line 2, column 2\nwarning: (7)  v\n", 0⟩ := by
  decide +kernel

/-- A text with a tab is refused; its code is the exit status. -/
example : outcomeOf (processRefract commandEnv { validate := true, lineNumbers := true } (str "# A\n\tbcd\n")) =
    some ⟨[], str "\nerror: (2)  the use of tab(s) '\\t' in source data isn't currently supported, please contact makers; line 2, column 1 - line 2, column 1\n",
      2⟩ := by decide +kernel

/-- What follows a NUL is not parsed: the tab goes unnoticed. -/
example : (outcomeOf (processRefract commandEnv { validate := true } (str "# A\n" ++ [0] ++ str "\t"))).map (·.status) = some 0 := by decide +kernel

/-- The elements of the example are no annotations, and its places are small. -/
example : ∀ x, (commandEnv.converter (str "# A") false (some initParse)).result = .ok x → x.name ≠ str "annotation" := by
  intro x h
  have h := Except.ok.inj h
  subst h
  decide +kernel

example : Small ⟨[⟨0, 1⟩, ⟨4, 2⟩], 5, str "w"⟩ := by intro r h; revert r; decide

/-- The largest place that is reported, and the first that is not. -/
example : stoi (str "2147483647") = some 2147483647 ∧ stoi (str "2147483648") = none := by decide +kernel

/-- A parser that warns of a place far behind. -/
def farEnv : Env := { commandEnv with parser := fun _ _ => ⟨⟨.ok, [⟨[⟨2147483648, 1⟩], 5, str "w"⟩]⟩, none⟩ }

/-- The hypotheses of `C96_long` are met, and the program does not end. -/
example : processRefract farEnv { lineNumbers := true, validate := true } (str "# A\n") = .undefined := by
  have hs : scParse farEnv ((str "# A\n").takeWhile (· ≠ 0)) false = some ⟨.ok, [⟨[⟨2147483648, 1⟩], 5, str "w"⟩]⟩ := by decide +kernel
  have hp : (match wrapRefract (linesEndIndex ((str "# A\n").takeWhile (· ≠ 0))) ⟨.ok, [⟨[⟨2147483648, 1⟩], 5, str "w"⟩]⟩
      (farEnv.converter ((str "# A\n").takeWhile (· ≠ 0)) false (some initParse)) with
      | .ok p => p.2 == ⟨.ok, [⟨[⟨2147483648, 1⟩], 5, str "w"⟩]⟩
      | _ => false) = true := by decide +kernel
  split at hp
  · rename_i p hw
    obtain ⟨e, r⟩ := p
    have hr : r = ⟨.ok, [⟨[⟨2147483648, 1⟩], 5, str "w"⟩]⟩ := by simpa using hp
    subst hr
    exact C96_long farEnv _ _ _ _ e hs hw ⟨[⟨2147483648, 1⟩], 5, str "w"⟩ (.inl (by simp)) ⟨2147483648, 1⟩ (by simp) (.inl (by decide)) rfl
  · cases hp

end Verif.Props
