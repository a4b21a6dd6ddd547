import Verif.Ctl.Bcs
import Verif.Ode.Steady

/-!
# Factories (C65) and error flow of a flow case (C66)
-/

namespace FVENS
namespace Ctl

/-! ## Factories -/

/-- Classes of numerical fluxes. -/
inductive FluxK | vanLeer | roe | hll | hllc | llf | ausm | ausmPlus
  deriving DecidableEq

/-- Classes of gradient schemes. -/
inductive GradK | leastSquares | greenGauss | zero
  deriving DecidableEq

/-- Classes of reconstructions. -/
inductive RecK | unlimited | weno | vanAlbada | barthJespersen | venkatakrishnan
  deriving DecidableEq

/-- Classes of nonlinear updates. -/
inductive NlK | full | flowSimple
  deriving DecidableEq

/-- `create_mutable_inviscidflux`, src/utilities/afactory.cpp:30-84; `none` is a null pointer. -/
def createFlux (s : String) : Option FluxK :=
  if s = "VANLEER" then some .vanLeer
  else if s = "ROE" then some .roe
  else if s = "HLL" then some .hll
  else if s = "HLLC" then some .hllc
  else if s = "LLF" then some .llf
  else if s = "AUSM" then some .ausm
  else if s = "AUSMPLUS" then some .ausmPlus
  else none

/-- `create_mutable_gradientscheme`, src/utilities/afactory.cpp:102-130. -/
def createGrad (s : String) : GradK :=
  if s = "LEASTSQUARES" then .leastSquares
  else if s = "GREENGAUSS" then .greenGauss
  else .zero

/-- `create_mutable_reconstruction`, src/utilities/afactory.cpp:167-214; `none` is a null pointer. -/
def createRec (s : String) : Option RecK :=
  if s = "NONE" then some .unlimited
  else if s = "WENO" then some .weno
  else if s = "VANALBADA" then some .vanAlbada
  else if s = "BARTHJESPERSEN" then some .barthJespersen
  else if s = "VENKATAKRISHNAN" then some .venkatakrishnan
  else none

/-- `create_const_nonlinearUpdateScheme`, src/utilities/afactory.cpp:284-294. -/
def createNl (s : String) : BC.Res NlK :=
  if s = "FULL" then .ok .full
  else if s = "ROBUST_FLOW" then .ok .flowSimple
  else .throws

/-- Evaluating the residual with the discretisation made from the names: `FlowFV_base::FlowFV_base` stores the pointers without a test (src/spatial/flow_spatial.cpp:34-61),
and `compute_residual` calls through the flux always, through the reconstruction for second order only (src/spatial/flow_spatial.cpp:527, 722). -/
def residualOutcome (order2 : Bool) (flux rec : String) : BC.Res Unit :=
  match createFlux flux with
  | none => .ub
  | some _ => if order2 then (match createRec rec with | none => .ub | some _ => .ok ()) else .ok ()

/-- Names in doc/example-control-file.ctrl and in the messages of the factories, in upper case. -/
def fluxName : FluxK → String
  | .vanLeer => "VANLEER" | .roe => "ROE" | .hll => "HLL" | .hllc => "HLLC" | .llf => "LLF" | .ausm => "AUSM" | .ausmPlus => "AUSMPLUS"

def gradName : GradK → String
  | .leastSquares => "LEASTSQUARES" | .greenGauss => "GREENGAUSS" | .zero => "NONE"

def recName : RecK → String
  | .unlimited => "NONE" | .weno => "WENO" | .vanAlbada => "VANALBADA" | .barthJespersen => "BARTHJESPERSEN" | .venkatakrishnan => "VENKATAKRISHNAN"

def nlName : NlK → String
  | .full => "FULL" | .flowSimple => "ROBUST_FLOW"

/-- C65 (partial): for every string, the flux made is the one of that name, and there is one iff the name is supported. Missing for the full claim: an unsupported name
gives a null pointer, see `C65_flux_refuted`. -/
theorem C65_flux_partial (s : String) (k : FluxK) : createFlux s = some k ↔ s = fluxName k := by
  constructor
  · intro h
    unfold createFlux at h
    split_ifs at h <;> (cases h; assumption)
  · rintro rfl
    cases k <;> decide

/-- C65 (partial): the same for reconstructions. -/
theorem C65_reconstruction_partial (s : String) (k : RecK) : createRec s = some k ↔ s = recName k := by
  constructor
  · intro h
    unfold createRec at h
    split_ifs at h <;> (cases h; assumption)
  · rintro rfl
    cases k <;> decide

/-- C65: nonlinear updates are selected by name, and any other name is refused with an exception. -/
theorem C65_update (s : String) : (∀ k, createNl s = .ok k ↔ s = nlName k) ∧ (createNl s = .throws ↔ ∀ k, s ≠ nlName k) := by
  unfold createNl
  constructor
  · intro k
    constructor
    · intro h
      split_ifs at h <;> (cases h; assumption)
    · rintro rfl
      cases k <;> decide
  · constructor
    · intro h k
      split_ifs at h with h1 h2
      cases k
      · exact h1
      · exact h2
    · intro h
      rw [if_neg (show s ≠ "FULL" from h .full), if_neg (show s ≠ "ROBUST_FLOW" from h .flowSimple)]

/-- C65: boundary condition types are selected by name, and any other name is refused with an exception. -/
theorem C65_boundary (s : String) : (∀ k, BC.kindOfName s = some k ↔ s = bcName k) ∧ (BC.kindOfName s = none ↔ ∀ k, s ≠ bcName k) := by
  refine ⟨fun k => kindOfName_iff s k, ?_⟩
  rw [Option.eq_none_iff_forall_not_mem]
  exact forall_congr' fun k => not_congr (by rw [Option.mem_def, kindOfName_iff])

/-- C65 (partial): the gradient scheme for a supported name is the one of that name. -/
theorem C65_gradient_partial (k : GradK) : createGrad (gradName k) = k := by cases k <;> decide

/-- C65 fails for fluxes and reconstructions: every unsupported name gives a null pointer, through which the residual calls. -/
theorem C65_flux_refuted : (∀ flux, (∀ k, flux ≠ fluxName k) → createFlux flux = none ∧ ∀ o r, residualOutcome o flux r = .ub) ∧
    (∀ rec, (∀ k, rec ≠ recName k) → createRec rec = none ∧ ∀ k, residualOutcome true (fluxName k) rec = .ub) ∧
    (∀ k, "RUSANOV" ≠ fluxName k) ∧ (∀ k, "MINMOD" ≠ recName k) := by
  refine ⟨fun flux h => ?_, fun rec h => ?_, fun k => by cases k <;> decide, fun k => by cases k <;> decide⟩
  · have hn : createFlux flux = none := by
      rw [Option.eq_none_iff_forall_not_mem]
      intro k hk
      exact h k ((C65_flux_partial flux k).1 hk)
    exact ⟨hn, fun o r => by simp [residualOutcome, hn]⟩
  · have hn : createRec rec = none := by
      rw [Option.eq_none_iff_forall_not_mem]
      intro k hk
      exact h k ((C65_reconstruction_partial rec k).1 hk)
    exact ⟨hn, fun k => by simp [residualOutcome, hn, (C65_flux_partial (fluxName k) k).2 rfl]⟩

/-- C65 fails for gradients: every unsupported name is taken to mean no gradients. -/
theorem C65_gradient_refuted : (∀ s, (∀ k, s ≠ gradName k) → createGrad s = .zero) ∧ ∀ k, "LEASTSQUARE" ≠ gradName k := by
  refine ⟨fun s h => ?_, fun k => by cases k <;> decide⟩
  unfold createGrad
  rw [if_neg (show s ≠ "LEASTSQUARES" from h .leastSquares), if_neg (show s ≠ "GREENGAUSS" from h .greenGauss)]

/-- C65: exactly when the residual can be evaluated. -/
theorem C65_usable_iff (order2 : Bool) (flux rec : String) :
    residualOutcome order2 flux rec = .ok () ↔ (∃ k, flux = fluxName k) ∧ (order2 = true → ∃ k, rec = recName k) := by
  unfold residualOutcome
  rcases hf : createFlux flux with _ | k
  · simp only [reduceCtorEq, false_iff]
    rintro ⟨⟨k, rfl⟩, -⟩
    rw [(C65_flux_partial _ k).2 rfl] at hf
    cases hf
  · have hk := (C65_flux_partial flux k).1 hf
    cases order2
    · simpa using ⟨k, hk⟩
    · rcases hr : createRec rec with _ | r
      · simp only [if_true, reduceCtorEq, false_iff]
        rintro ⟨-, h⟩
        obtain ⟨r, rfl⟩ := h trivial
        rw [(C65_reconstruction_partial _ r).2 rfl] at hr
        cases hr
      · simp only [if_true, true_iff]
        exact ⟨⟨k, hk⟩, fun _ => ⟨r, (C65_reconstruction_partial rec r).1 hr⟩⟩

example : residualOutcome true "ROE" "WENO" = .ok () := by decide

/-! ## Error flow of a steady flow case -/

/-- How a call of a pseudo-time solver ends: as in `Ode.Out`, with a nonzero PETSc code, or with another exception. -/
inductive SolveEnd
  | out (o : Ode.Out)
  | code
  | other
  deriving DecidableEq

/-- What a caller of the case sees: normal return, nonzero code, `Tolerance_error`, another `Numerical_error`, another exception, undefined behaviour. -/
inductive Seen
  | normal
  | code
  | tolErr
  | numErr
  | other
  | ub
  deriving DecidableEq

/-- `SteadyFlowCase::execute_starter`, src/utilities/casesolvers.cpp:225-314. A `Tolerance_error` is caught; other exceptions pass. Setting up and destroying the linear solver
is taken to succeed. -/
def starter (use : Bool) (e : SolveEnd) : Seen :=
  if use then
    match e with
    | .out .nothing | .out .ok | .out .tolErr => .normal
    | .out .numErr => .numErr
    | .out .ub => .ub
    | .code => .code
    | .other => .other
  else .normal

/-- `SteadyFlowCase::execute_main`, src/utilities/casesolvers.cpp:316-386: the flag `converged`, or how it fails. `Tolerance_error` is a `Numerical_error`, so both are caught.
The flag is false from the construction of the timing data (src/ode/aodesolver.cpp:71), also when there is nothing to do. -/
def mainSolve : SolveEnd → Seen ⊕ Bool
  | .out .ok => .inr true
  | .out .nothing | .out .tolErr | .out .numErr => .inr false
  | .out .ub => .inl .ub
  | .code => .inl .other
  | .other => .inl .other

/-- `SteadyFlowCase::execute`, src/utilities/casesolvers.cpp:388-422. -/
def execute (use : Bool) (s m : SolveEnd) : Seen :=
  match starter use s with
  | .normal =>
    match mainSolve m with
    | .inr true => .normal
    | .inr false => .tolErr
    | .inl e => e
  | .code => .other
  | e => e

/-- `FlowCase::run`, src/utilities/casesolvers.cpp:75-84. -/
def runCase (use : Bool) (s m : SolveEnd) : Seen := execute use s m

/-- `FlowCase::run_output`, src/utilities/casesolvers.cpp:86-164; `walls` is the number of output walls. `Tolerance_error` is caught (:101-103), and the first output wall is
read without a test (:158). Output and PETSc calls are taken to succeed. -/
def runOutput (use : Bool) (s m : SolveEnd) (walls : ℕ) : Seen :=
  match execute use s m with
  | .normal | .tolErr => if walls = 0 then .ub else .normal
  | e => e

/-- C66 (partial), `run`: a normal return means that the main solve met its tolerance and the starting solve did not fail other than by not reaching its tolerance, and
the other way round. Missing for the full claim: `run_output`, see `C66_refuted`. -/
theorem C66_run_partial (use : Bool) (s m : SolveEnd) :
    runCase use s m = .normal ↔ m = .out .ok ∧ (use = true → s ∈ [SolveEnd.out .nothing, .out .ok, .out .tolErr]) := by
  rcases s with o | _ | _ <;> rcases m with o' | _ | _ <;> cases use <;> (try cases o) <;> (try cases o') <;> decide

/-- C66: a main solve that does not converge, or blows up, makes `run` throw `Tolerance_error` whatever the starting solve did, unless that failed before. -/
theorem C66_run_failure (use : Bool) (s : SolveEnd) (o : Ode.Out) (ho : o = .nothing ∨ o = .tolErr ∨ o = .numErr) (hs : starter use s = .normal) :
    runCase use s (.out o) = .tolErr := by
  rcases ho with rfl | rfl | rfl <;> simp [runCase, execute, hs, mainSolve]

/-- C66: with the solvers of `Ode.Steady`, a normal return of `run` means that the residual norm of the main solve dropped to the required fraction of its first value. -/
theorem C66_run_converged {S : Type} (P : Ode.Prob S) {c : Ode.Conf} (ht : 0 ≤ c.tol) (ht1 : c.tol < 1) {k : Ode.Kind} (hk : k = Ode.forwardEuler ∨ k = Ode.backwardEuler) {u : S} {n : ℕ}
    {o : Ode.Out} (h : Ode.Solve k P c u n o) {use : Bool} {s : SolveEnd} (hr : runCase use s (.out o) = .normal) :
    ∃ r0 r, Ode.hist k P c u 0 = some r0 ∧ Ode.hist k P c u (n - 1) = some r ∧ Ode.Met c r0 r := by
  have ho := ((C66_run_partial use s _).1 hr).1
  simp only [SolveEnd.out.injEq] at ho
  subst ho
  by_cases hm : 0 < c.maxiter
  · exact (Ode.C56_success P ht ht1 hm hk h).2.2
  · exfalso
    unfold Ode.Solve at h
    rw [if_pos (not_lt.1 hm)] at h
    cases h.2

/-- C66: exactly what `run_output` reports when there is an output wall. -/
theorem C66_run_output_iff (use : Bool) (s m : SolveEnd) (w : ℕ) :
    runOutput use s m (w + 1) = .normal ↔ m ∈ [SolveEnd.out .ok, .out .nothing, .out .tolErr, .out .numErr] ∧
      (use = true → s ∈ [SolveEnd.out .nothing, .out .ok, .out .tolErr]) := by
  have hw : ¬ (w + 1 = 0) := by omega
  rcases s with o | _ | _ <;> rcases m with o' | _ | _ <;> cases use <;> (try cases o) <;> (try cases o') <;> simp [runOutput, execute, starter, mainSolve]

/-- C66 fails: the driver of src/fvens_steady.cpp (:49) calls `run_output`, which returns normally when the main solve blew up or did not converge. Without an output wall it
is undefined even after success. -/
theorem C66_refuted (use : Bool) (w : ℕ) : runOutput use (.out .ok) (.out .numErr) (w + 1) = .normal ∧ runOutput use (.out .ok) (.out .tolErr) (w + 1) = .normal ∧
    runOutput use (.out .ok) (.out .ok) 0 = .ub := by
  cases use <;> simp [runOutput, execute, starter, mainSolve]

/-- C66 fails, with a concrete solve: the iteration of `Ode.halving` stopped by too few iterations. -/
theorem C66_concrete_refuted : ∃ (P : Ode.Prob ℝ) (c : Ode.Conf) (u : ℝ) (o : Ode.Out), Ode.Solve Ode.backwardEuler P c u 3 o ∧ o ≠ .ok ∧
    runOutput false (.out .nothing) (.out o) 1 = .normal ∧ runCase false (.out .nothing) (.out o) = .tolErr := by
  obtain ⟨P, c, u, r0, r, -, -, -, h, -⟩ := Ode.C56_last_iteration_refuted Ode.backwardEuler (Or.inr rfl)
  exact ⟨P, c, u, .tolErr, h, by decide, by decide, by decide⟩

end Ctl
end FVENS
