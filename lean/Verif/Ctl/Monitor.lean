import Verif.Ctl.Case
import Mathlib.Analysis.SpecialFunctions.Log.Base

/-!
# The residual history of a steady flow case (C105)

Times and counts of linear iterations, which every line of the file also holds, are not modelled, nor is rounding to `float` and to the digits printed.
-/

namespace FVENS
namespace Ctl

open Ode

/-- A printed logarithm. -/
inductive Num10
  | num (x : ℝ)
  | minusInf
  | inf
  | nan

open Classical in
/-- `std::log10` of a quotient of finite non-negative numbers. -/
noncomputable def log10 : FDiv → Num10
  | .num x => if x = 0 then .minusInf else .num (Real.logb 10 x)
  | .inf => .inf
  | .nan => .nan

/-- `SteadyStepMonitor`, src/ode/aodesolver.hpp:35-43. -/
structure Step where
  step : ℕ
  rel : FDiv
  abs : ℝ
  cfl : ℝ

/-- The part of `TimingData` used for output, src/ode/aodesolver.hpp:46-66; initial values src/ode/aodesolver.cpp:69-73. -/
structure Timing where
  his : List Step
  steps : ℕ
  converged : Bool

/-- A line of the file, src/spatial/aoutput.cpp:626-636. -/
structure Line where
  step : ℕ
  logRel : Num10
  logAbs : Num10
  cfl : ℝ

/-- `writeStepToConvergenceHistory`, src/spatial/aoutput.cpp:626-636. -/
noncomputable def lineOf (s : Step) : Line := ⟨s.step, log10 s.rel, log10 (.num s.abs), s.cfl⟩

section
variable {S : Type}

/-- Loop body with the record of the iteration, kept if `config.lognres` is set: src/ode/aodesolver.cpp:234-241, 537-548. -/
noncomputable def bodyLog (log : Bool) (k : Kind) (P : Prob S) (c : Conf) (s : Mem S × List Step) : Option (Mem S × List Step) :=
  (body k P c s.1).map fun t => (t, if log then s.2 ++ [⟨t.step, fdiv t.resi t.initres, t.resi, t.cfl⟩] else s.2)

/-- `solve` and the timing data it leaves: src/ode/aodesolver.cpp:143-147, 253-268, 367-371, 560-566, 617-632. `num_timesteps` is set only behind the loop. -/
def SolveTd (log : Bool) (k : Kind) (P : Prob S) (c : Conf) (u : S) (n : ℕ) (out : Out) (td : Timing) : Prop :=
  if c.maxiter ≤ 0 then n = 0 ∧ out = .nothing ∧ td = ⟨[], 0, false⟩
  else ∃ o, Loop (fun s => cond c s.1) (bodyLog log k P c) (init k c u, []) n o ∧
    match o with
    | none => out = .numErr ∧ td.steps = 0 ∧ td.converged = false
    | some s => out = k.finish c s.1 ((fdiv s.1.resi s.1.initres).le c.tol) ∧ td.his = s.2 ∧ td.steps = s.1.step ∧ (td.converged = true ↔ out = .ok)

/-- `SteadyFlowCase::execute` with the file it writes, src/utilities/casesolvers.cpp:388-422: `convhis[istp]` is read without a test of its length. -/
noncomputable def executeFile (rank : ℕ) (use outhist : Bool) (s m : SolveEnd) (td : Timing) : Seen × Option (List Line) :=
  match execute use s m with
  | .normal =>
    if outhist = true ∧ rank = 0 then
      match (List.range td.steps).mapM fun i => td.his[i]? with
      | some f => (.normal, some (f.map lineOf))
      | none => (.ub, none)
    else (.normal, none)
  | e => (e, none)

/-- `FlowCase::run` asks for no file (src/utilities/casesolvers.cpp:80). -/
noncomputable def runFile (rank : ℕ) (use : Bool) (s m : SolveEnd) (td : Timing) : Seen × Option (List Line) := executeFile rank use false s m td

/-- `FlowCase::run_output` asks for the file exactly if residuals are recorded (src/utilities/casesolvers.cpp:99). -/
noncomputable def runOutputFile (rank : ℕ) (use log : Bool) (s m : SolveEnd) (td : Timing) : Seen × Option (List Line) := executeFile rank use log s m td

/-! ### Lemmas -/

theorem loop_log {log : Bool} {k : Kind} {P : Prob S} {c : Conf} {s : Mem S × List Step} {n : ℕ} {o : Option (Mem S × List Step)}
    (h : Loop (fun s => cond c s.1) (bodyLog log k P c) s n o) : Loop (cond c) (body k P c) s.1 n (o.map (·.1)) := by
  induction h with
  | done h => exact .done h
  | @step s s' n o h1 h2 h3 ih =>
    obtain ⟨t, ht, rfl⟩ := Option.map_eq_some_iff.1 h2
    exact .step h1 ht ih
  | throws h1 h2 => exact .throws h1 (Option.map_eq_none_iff.1 h2)

/-- The instrumented solver is the solver. -/
theorem solve_of_td {log : Bool} {k : Kind} {P : Prob S} {c : Conf} {u : S} {n : ℕ} {out : Out} {td : Timing} (h : SolveTd log k P c u n out td) : Solve k P c u n out := by
  unfold SolveTd at h; unfold Solve
  split_ifs with hm
  · rw [if_pos hm] at h; exact ⟨h.1, h.2.1⟩
  · rw [if_neg hm] at h
    obtain ⟨o, h1, h2⟩ := h
    refine ⟨_, loop_log h1, ?_⟩
    cases o with
    | none => exact h2.1
    | some s => exact h2.1

/-- What is recorded of the iterations so far. -/
def Recorded (k : Kind) (P : Prob S) (c : Conf) (u : S) (n : ℕ) (l : List Step) : Prop :=
  l.length = n ∧ ∀ i, i < n → ∃ t, traj k P c u (i + 1) = some t ∧ l[i]? = some ⟨i + 1, fdiv t.resi t.initres, t.resi, t.cfl⟩

theorem loop_recorded {log : Bool} {k : Kind} {P : Prob S} {c : Conf} {u : S} {s : Mem S × List Step} {m : ℕ} {o : Option (Mem S × List Step)}
    (h : Loop (fun s => cond c s.1) (bodyLog log k P c) s m o) : ∀ n, traj k P c u n = some s.1 → (if log then Recorded k P c u n s.2 else s.2 = []) →
      ∀ t, o = some t → traj k P c u (n + m) = some t.1 ∧ if log then Recorded k P c u (n + m) t.2 else t.2 = [] := by
  induction h with
  | done h => rintro n hn hl t ht; cases ht; exact ⟨hn, hl⟩
  | @step s s' m o h1 h2 h3 ih =>
    intro n hn hl t ht
    obtain ⟨q, hq, rfl⟩ := Option.map_eq_some_iff.1 h2
    have hn' : traj k P c u (n + 1) = some q := by simp [traj, hn, hq]
    rw [show n + (m + 1) = n + 1 + m by omega]
    refine ih (n + 1) hn' ?_ t ht
    cases log with
    | false => simpa using hl
    | true =>
      simp only [if_true] at hl ⊢
      refine ⟨by simp [hl.1], fun i hi => ?_⟩
      rcases Nat.lt_succ_iff_lt_or_eq.1 hi with h | rfl
      · obtain ⟨t, h4, h5⟩ := hl.2 i h
        exact ⟨t, h4, by rw [List.getElem?_append_left (by rw [hl.1]; exact h)]; exact h5⟩
      · refine ⟨q, hn', ?_⟩
        rw [List.getElem?_append_right (by rw [hl.1]), hl.1, (traj_step hn').1]
        simp
  | throws => rintro n - - t ht; cases ht

/-- Timing data after success. -/
theorem td_ok {log : Bool} {k : Kind} {P : Prob S} {c : Conf} {u : S} {n : ℕ} {td : Timing} (h : SolveTd log k P c u n .ok td) :
    td.steps = n ∧ td.converged = true ∧ if log then Recorded k P c u n td.his else td.his = [] := by
  unfold SolveTd at h
  split_ifs at h with hm
  · cases h.2.1
  · obtain ⟨o, h1, h2⟩ := h
    cases o with
    | none => cases h2.1
    | some s =>
      have h3 := loop_recorded (u := u) h1 0 rfl (by cases log <;> simp [Recorded]) s rfl
      rw [Nat.zero_add] at h3
      refine ⟨by rw [h2.2.2.1, (traj_step h3.1).1], h2.2.2.2.2 rfl, ?_⟩
      rw [h2.2.1]; exact h3.2

theorem mapM_get {α : Type} (l : List α) (n : ℕ) : ((List.range n).mapM fun i => l[i]?) = if n ≤ l.length then some (l.take n) else none := by
  induction n with
  | zero => simp
  | succ n ih =>
    rw [List.range_succ, List.mapM_append, ih]
    split_ifs with h1 h2 h2
    · simp only [List.mapM_cons, List.mapM_nil, List.getElem?_eq_getElem (show n < l.length by omega)]
      rw [List.take_add_one, List.getElem?_eq_getElem (show n < l.length by omega)]
      rfl
    · simp [List.getElem?_eq_none (show l.length ≤ n by omega)]
    · omega
    · rfl

/-! ### Properties -/

variable {k : Kind} {P : Prob S} {c : Conf} {u : S} {n : ℕ} {td : Timing} {use : Bool} {s : SolveEnd}

/-- C105: after a main solve that converged in `n` iterations with residuals recorded, the file has one line per iteration, in order, with the number of the iteration, the logarithms of
its residual norm relative to the first and as such, and the CFL number reported. -/
theorem C105_lines (h : SolveTd true k P c u n .ok td) (hs : starter use s = .normal) : ∃ f, runOutputFile 0 use true s (.out .ok) td = (.normal, some f) ∧ f.length = n ∧
    ∀ i, i < n → ∃ r0 r a b, hist k P c u 0 = some r0 ∧ hist k P c u i = some r ∧ LogEntry k P c u i a b ∧
      f[i]? = some ⟨i + 1, log10 (fdiv r r0), log10 (.num r), a⟩ := by
  obtain ⟨h1, -, h3⟩ := td_ok h
  simp only [if_true] at h3
  have he : execute use s (.out .ok) = .normal := by simp [execute, hs, mainSolve]
  refine ⟨td.his.map lineOf, ?_, by simp [h3.1], fun i hi => ?_⟩
  · simp only [runOutputFile, executeFile, he, mapM_get, h1, h3.1, le_refl, if_true, and_self]
    rw [List.take_of_length_le (by rw [h3.1])]
  · obtain ⟨t, h4, h5⟩ := h3.2 i hi
    obtain ⟨h6, h7⟩ := traj_succ h4
    exact ⟨t.initres, t.resi, t.cfl, k.used c t.cfl, h7, h6, ⟨t, h4, log_last h4, rfl⟩, by rw [List.getElem?_map, h5]; rfl⟩

/-- C105: unless the first residual vanished, the first line shows the relative residual norm 1, and the last one shows that the tolerance was met. -/
theorem C105_ends (ht : 0 < c.tol) (ht1 : c.tol < 1) (hk : k = forwardEuler ∨ k = backwardEuler) (h : SolveTd true k P c u n .ok td) (hs : starter use s = .normal)
    (h0 : hist k P c u 0 ≠ some 0) : ∃ f l0 l1, runOutputFile 0 use true s (.out .ok) td = (.normal, some f) ∧ f[0]? = some l0 ∧ f[n - 1]? = some l1 ∧ l0.step = 1 ∧ l0.logRel = .num 0 ∧
      l1.step = n ∧ (l1.logRel = .minusInf ∨ ∃ x, l1.logRel = .num x ∧ x ≤ Real.logb 10 c.tol) := by
  have hm : 0 < c.maxiter := by
    by_contra hm
    have := h
    unfold SolveTd at this
    rw [if_pos (not_lt.1 hm)] at this
    cases this.2.1
  obtain ⟨hn, -, r0, r, g0, g1, hmet⟩ := C56_success P ht.le ht1 hm hk (solve_of_td h)
  obtain ⟨f, hf, -, hl⟩ := C105_lines h hs
  obtain ⟨a0, a1, a, b, e1, e2, -, e4⟩ := hl 0 (by omega)
  obtain ⟨b0, b1, a', b', e1', e2', -, e4'⟩ := hl (n - 1) (by omega)
  rw [g0] at e1 e2 e1'
  rw [g1] at e2'
  cases e1; cases e2; cases e1'; cases e2'
  have hr0 : 0 < r0 := lt_of_le_of_ne (hist_nonneg g0) fun e => h0 (by rw [g0, ← e])
  refine ⟨f, _, _, hf, e4, e4', rfl, ?_, by show n - 1 + 1 = n; omega, ?_⟩
  · simp [fdiv, hr0.ne', log10]
  · simp only [fdiv, if_neg hr0.ne', log10]
    split_ifs with hz
    · exact .inl rfl
    · refine .inr ⟨_, rfl, ?_⟩
      have : r / r0 ≤ c.tol := by rw [div_le_iff₀ hr0]; exact hmet
      exact Real.logb_le_logb_of_le (by norm_num) (lt_of_le_of_ne (div_nonneg (hist_nonneg g1) hr0.le) (Ne.symm hz)) this

/-- C105: reading the recorded history stays within it in `run` and in `run_output`, whatever the solves do. -/
theorem C105_safe {log : Bool} {out : Out} (h : SolveTd log k P c u n out td) (rank : ℕ) (hex : execute use s (.out out) ≠ .ub) :
    (runFile rank use s (.out out) td).1 ≠ .ub ∧ (runOutputFile rank use log s (.out out) td).1 ≠ .ub := by
  have key : ∀ oh, (oh = true → log = true) → (executeFile rank use oh s (.out out) td).1 ≠ .ub := fun oh hoh => by
    unfold executeFile
    split
    · rename_i e
      have ho : out = .ok := by have := ((C66_run_partial use s (.out out)).1 e).1; injection this
      subst ho
      split_ifs with hc
      · have hlog := hoh hc.1
        subst hlog
        obtain ⟨h1, -, h3⟩ := td_ok h
        rw [mapM_get, h1, h3.1, if_pos le_rfl]
        simp
      · simp
    · rename_i e
      exact hex
  exact ⟨key false (by simp), key log id⟩

/-- C105: called with a request for the file though residuals are not recorded, `execute` reads outside the empty history after every success. -/
theorem C105_unsafe_iff {log outhist : Bool} (h : SolveTd log k P c u n .ok td) (hn : 0 < n) (hs : starter use s = .normal) (rank : ℕ) :
    (executeFile rank use outhist s (.out .ok) td).1 = .ub ↔ outhist = true ∧ rank = 0 ∧ log = false := by
  obtain ⟨h1, -, h3⟩ := td_ok h
  have he : execute use s (.out .ok) = .normal := by simp [execute, hs, mainSolve]
  simp only [executeFile, he, mapM_get]
  by_cases hc : outhist = true ∧ rank = 0
  · rw [if_pos hc]
    cases log with
    | true =>
      simp only [if_true] at h3
      simp [h1, h3.1]
    | false =>
      simp only [Bool.false_eq_true, if_false] at h3
      rw [h3, h1, if_neg (by simp only [List.length_nil]; omega)]
      simp [hc]
  · rw [if_neg hc]
    simp only [reduceCtorEq, false_iff]
    rintro ⟨g1, g2, -⟩
    exact hc ⟨g1, g2⟩

/-- C105 (partial): exactly which runs leave a file: those that converge, on the first process, with residuals recorded. Missing for the full claim: the others, see `C105_lost_refuted`. -/
theorem C105_written_partial {log : Bool} {out : Out} (h : SolveTd log k P c u n out td) (rank : ℕ) :
    (runOutputFile rank use log s (.out out) td).2.isSome = true ↔ log = true ∧ rank = 0 ∧ out = .ok ∧ starter use s = .normal := by
  unfold runOutputFile executeFile
  split
  · rename_i e
    have ho := (C66_run_partial use s (.out out)).1 e
    have ho1 : out = .ok := by have := ho.1; injection this
    subst ho1
    have hs : starter use s = .normal := by
      by_contra hs
      unfold execute at e
      revert e
      cases hq : starter use s <;> simp_all
    split_ifs with hc
    · obtain ⟨h1, -, h3⟩ := td_ok h
      have hlog := hc.1
      subst hlog
      rw [mapM_get, h1, h3.1, if_pos le_rfl]
      simp [hc, hs]
    · simp only [Option.isSome_none, Bool.false_eq_true, false_iff]
      rintro ⟨g1, g2, -⟩
      exact hc ⟨g1, g2⟩
  · rename_i e
    simp only [Option.isSome_none, Bool.false_eq_true, false_iff]
    rintro ⟨-, -, rfl, hs⟩
    exact e (by simp [execute, hs, mainSolve])

end

/-- Every solve leaves timing data. -/
theorem td_exists {S : Type} (log : Bool) {k : Kind} {P : Prob S} {c : Conf} {u : S} {n : ℕ} {out : Out} (h : Solve k P c u n out) : ∃ td, SolveTd log k P c u n out td := by
  unfold Solve at h
  unfold SolveTd
  split_ifs at h ⊢ with hm
  · exact ⟨_, h.1, h.2, rfl⟩
  · obtain ⟨o, h1, rfl⟩ := h
    have lift : ∀ {s : Mem S} {n : ℕ} {o : Option (Mem S)}, Loop (cond c) (body k P c) s n o → ∀ l, ∃ o', Loop (fun s : Mem S × List Step => cond c s.1) (bodyLog log k P c) (s, l) n o' ∧ o'.map (·.1) = o := by
      intro s n o h
      induction h with
      | done h => exact fun l => ⟨_, .done h, rfl⟩
      | @step s t n o h1 h2 _ ih =>
        intro l
        obtain ⟨o', h4, h5⟩ := ih (if log then l ++ [⟨t.step, fdiv t.resi t.initres, t.resi, t.cfl⟩] else l)
        exact ⟨o', .step h1 (by simp only [bodyLog, h2, Option.map_some]) h4, h5⟩
      | throws h1 h2 => exact fun l => ⟨none, .throws h1 (by simp [bodyLog, h2]), rfl⟩
    obtain ⟨o', h2, rfl⟩ := lift h1 []
    cases o' with
    | none => exact ⟨⟨[], 0, false⟩, none, h2, rfl, rfl, rfl⟩
    | some s => exact ⟨⟨s.2, s.1.step, decide (k.finish c s.1 ((fdiv s.1.resi s.1.initres).le c.tol) = .ok)⟩, some s, h2, rfl, rfl, rfl, by simp⟩

/-- C105 fails: a run that ends for want of iterations writes no history although residuals are recorded, while `run_output` returns normally; the exception of
`SteadyFlowCase::execute` (src/utilities/casesolvers.cpp:394-395) comes before the file is written. -/
theorem C105_lost_refuted (k : Kind) (hk : k = forwardEuler ∨ k = backwardEuler) : ∃ (P : Prob ℝ) (c : Conf) (u : ℝ) (td : Timing), SolveTd true k P c u 3 .tolErr td ∧ td.his.length = 3 ∧
    (runOutputFile 0 false true (.out .nothing) (.out .tolErr) td).2 = none ∧ runOutput false (.out .nothing) (.out .tolErr) 1 = .normal := by
  obtain ⟨P, c, u, r0, r, -, -, -, h, -⟩ := C56_last_iteration_refuted k hk
  obtain ⟨td, htd⟩ := td_exists true h
  refine ⟨P, c, u, td, htd, ?_, rfl, by decide⟩
  unfold SolveTd at htd
  split_ifs at htd with hm
  · cases htd.2.1
  · obtain ⟨o, h1, h2⟩ := htd
    cases o with
    | none => cases h2.1
    | some s =>
      have h3 := (loop_recorded (u := u) h1 0 rfl (by simp [Recorded]) s rfl).2
      simp only [if_true, Nat.zero_add] at h3
      rw [h2.2.1, h3.1]

/-- Concrete case: three iterations to the tolerance 0.3, residual norms 1, 1/2, 1/4. -/
example (k : Kind) (hk : k = forwardEuler ∨ k = backwardEuler) : ∃ td, SolveTd true k halving ⟨0.3, 10, 1, 10⟩ 1 3 .ok td ∧ ∃ f, runOutputFile 0 false true (.out .nothing) (.out .ok) td = (.normal, some f) ∧
    f.length = 3 ∧ ∃ l, f[2]? = some l ∧ l.step = 3 ∧ l.logRel = .num (Real.logb 10 (1 / 4)) := by
  have h : ∀ z, Ends k halving ⟨0.3, 10, 1, 10⟩ 1 z 3 .ok := fun z => by
    refine .met (n := 2) (r := fun n => (1 / 2) ^ n) (by norm_num) (fun j _ => halving_hist k _ j) (fun j hj => ?_) (by norm_num [Met]) (by norm_num)
    rcases (by omega : j = 0 ∨ j = 1) with rfl | rfl <;> norm_num [Met]
  have hsol : Solve k halving ⟨0.3, 10, 1, 10⟩ 1 3 .ok := by
    rcases hk with rfl | rfl
    · exact (C56_outcome halving (by norm_num) (by norm_num) (by norm_num) 1 3 .ok).1.2 (h _)
    · exact (C56_outcome halving (by norm_num) (by norm_num) (by norm_num) 1 3 .ok).2.2 (h _)
  obtain ⟨td, htd⟩ := td_exists true hsol
  obtain ⟨f, hf, hn, hl⟩ := C105_lines (use := false) (s := .out .nothing) htd rfl
  obtain ⟨r0, r, a, b, h0, h2, -, h4⟩ := hl 2 (by norm_num)
  rw [halving_hist] at h0 h2
  cases h0; cases h2
  refine ⟨td, htd, f, hf, hn, _, h4, rfl, ?_⟩
  simp only [fdiv, log10]
  norm_num

end Ctl
end FVENS
