import Verif.Props.C94

/-! # C94: lines -/

namespace Verif.Props
open Verif Verif.Text Verif.Section Verif.ParametersParser Verif.Spec.ParameterLine

theorem old_line {l : Bytes} (h : getParameterType l = .old) : LineTells l .old := (C94_line l .old (by simp)).mp h
theorem new_line {l : Bytes} (h : getParameterType l = .new) : LineTells l .new := (C94_line l .new (by simp)).mp h

example : LineTells (str "id") .new := new_line (by decide +kernel)
example : LineTells (str "id: `1`") .new := new_line (by decide +kernel)
example : LineTells (str "id = `1`") .old := old_line (by decide +kernel)
example : LineTells (str "a (b) - c") .new := new_line (by decide +kernel)
example : LineTells (str "a (`b`)") .old := old_line (by decide +kernel)
example : LineTells (str "a ... b") .old := old_line (by decide +kernel)
/-- Traits that are not closed are read nevertheless if a bracket is opened in them. -/
example : LineTells (str "a (b(c") .new := new_line (by decide +kernel)
/-- What counts as the text behind them is what is behind the last bracket in them. -/
example : LineTells (str "a ([x]- y") .new := new_line (by decide +kernel)
/-- These are no parameters. -/
example : ∀ x, ¬ LineTells (str "a b") x := (C94_none _).mp (by decide +kernel)
example : ∀ x, ¬ LineTells (str "a:") x := (C94_none _).mp (by decide +kernel)
example : ∀ x, ¬ LineTells (str "a (b") x := (C94_none _).mp (by decide +kernel)
example : ∀ x, ¬ LineTells (str "a () - b") x := (C94_none _).mp (by decide +kernel)
/-- The traits are the same as the text behind them. -/
example : ∀ x, ¬ LineTells (str "a (b)(b)") x := (C94_none _).mp (by decide +kernel)

end Verif.Props
