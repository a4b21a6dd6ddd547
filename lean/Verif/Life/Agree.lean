import Verif.Ctl.Case
import Verif.Life.Props

/-! # The two models of a case agree -/

namespace FVENS.Life

/-- The end of a solve in the words of the model of the error flow. -/
def End.out : End → Ctl.SolveEnd
  | .nothing => .out .nothing
  | .conv => .out .ok
  | .tol => .out .tolErr
  | .diverged | .blew => .out .numErr

/-- What the caller sees, in the words of the model of the error flow. -/
def seen : Option Exc → Ctl.Seen
  | none => .normal
  | some .tol => .tolErr
  | some .num => .numErr
  | some .other => .other

/-- C115: for valid settings the caller of `run` and `run_output` sees the same in the model of the objects as in the model of the error flow of a case (`Ctl.runCase`,
`Ctl.runOutput`). -/
theorem C115_agrees (c : Cfg) (hc : c.Valid) (s m : Course) (walls : ℕ) (hw : walls ≠ 0) :
    seen (run c s m).2 = Ctl.runCase c.use s.fin.out m.fin.out ∧ seen (runOutput c s m true).2 = Ctl.runOutput c.use s.fin.out m.fin.out walls := by
  rw [(run_exc hc s m true).1, (run_exc hc s m true).2]
  rcases s with ⟨e, n⟩
  rcases m with ⟨e', n'⟩
  cases hu : c.use <;> cases e <;> cases e' <;> simp [End.Breaks, seen, End.out, Ctl.runCase, Ctl.runOutput, Ctl.execute, Ctl.starter, Ctl.mainSolve, hw]

/-- The theorem applied. -/
example : seen (run repeated ⟨.conv, 5⟩ ⟨.blew, 7⟩).2 = .tolErr :=
  (C115_agrees repeated ⟨by simp [repeated, Cfg.BcsOk], by simp [repeated]⟩ ⟨.conv, 5⟩ ⟨.blew, 7⟩ 1 (by simp)).1

end FVENS.Life
