import Mathlib.Data.List.Basic
import Mathlib.Data.Int.Notation
import Mathlib.Tactic.Common

/-!
# Objects created and destroyed by a steady flow case

A steady flow case (src/utilities/casesolvers.cpp) creates spatial discretisations, matrices, a linear solver, nonlinear update and pseudo-time solver objects and work
vectors with `new` and with PETSc's create functions, and gives them back with `delete` and the destroy functions. This file is that bookkeeping: each function
of the code becomes the list of its creations, uses and destructions in order, together with the exception it ends with, if any.

Simplified: memory can always be allocated and PETSc's, MPI's and BLASTed's functions succeed, so the early returns of `CHKERRQ` are not taken; numerical flux, gradient and
reconstruction are known names, so that their factories do not return a null pointer; what lives on the stack or is owned by a member with a destructor (arrays, vector
handlers, the output class) is not listed.
-/

namespace FVENS.Life

/-- The two solves of a steady case: the starting solve and the main solve, src/utilities/casesolvers.cpp:225-386. -/
inductive Phase
  | starter
  | main
  deriving DecidableEq

/-- The kinds of objects which the code creates explicitly.

* Of a discretisation (src/spatial/aspatial.cpp:35-88, src/spatial/flow_spatial.cpp:34-72, :311-347): the object itself, the vector of cell centres, the numerical flux with its
  gas model (src/spatial/anumericalflux.cpp:21-32), the gradient scheme, the reconstruction, one object for each boundary condition, the flux used for the Jacobian with its
  gas model, the vector of gradients.
* Of a linear problem (src/utilities/casesolvers.cpp:166-198, src/linalg/alinalg.cpp:259-285): the matrix, the matrix-free matrix with its context, the linear solver.
* Of the nonlinear solver: the update scheme, the pseudo-time solver, its vectors `rvec`, `duvec`, `dtmvec` and the three viewers of the final linear system
  (src/ode/aodesolver.cpp:148-150, :377-380, :590-609). -/
inductive Kind
  | space | centres | flux | fluxGas | grads | lim | bc (i : ℕ) | jflux | jfluxGas | gradvec
  | M | A | ctx | ksp
  | upd | time | r | du | dt | matv | rhsv | solnv
  deriving DecidableEq

/-- An object: of which solve and of which kind. In one run of a case each is created at one place only. -/
structure Obj where
  phase : Phase
  kind : Kind
  deriving DecidableEq

/-- What happens to objects. -/
inductive Ev
  | make (o : Obj)
  | use (o : Obj)
  | free (o : Obj)
  deriving DecidableEq

/-! ## What is asked of a list of events -/

/-- The object exists after the events: it was created, and not destroyed since. -/
def Live (t : List Ev) (o : Obj) : Prop := ∃ a b, t = a ++ Ev.make o :: b ∧ Ev.free o ∉ b

/-- Objects are used and destroyed only while they exist, and no object is created while an object of that name exists (whose only pointer would then be lost). -/
def Safe (t : List Ev) : Prop :=
  (∀ a b o, t = a ++ Ev.use o :: b → Live a o) ∧ (∀ a b o, t = a ++ Ev.free o :: b → Live a o) ∧ (∀ a b o, t = a ++ Ev.make o :: b → ¬ Live a o)

/-! ## Programs -/

/-- Exceptions: `Tolerance_error`, a `Numerical_error` which is none (src/utilities/aerrorhandling.hpp), another exception. -/
inductive Exc
  | tol
  | num
  | other
  deriving DecidableEq

/-- What a piece of code does: its events, and the exception which leaves it, if any. -/
abbrev Prog := List Ev × Option Exc

/-- Code without exceptions. -/
def tell (t : List Ev) : Prog := (t, none)

/-- `throw`. -/
def raise (x : Exc) : Prog := ([], some x)

/-- One piece of code after the other: the second is not reached if the first throws. -/
def andThen (p q : Prog) : Prog :=
  match p.2 with
  | none => (p.1 ++ q.1, q.2)
  | some x => (p.1, some x)

@[inherit_doc] infixl:65 " ;; " => andThen

/-- `try { p } catch (Tolerance_error&) { print }`. -/
def catchTol (p : Prog) : Prog :=
  match p.2 with
  | some .tol => (p.1, none)
  | _ => p

/-- The settings which decide what is created: implicit pseudo-time stepping, matrix-free Jacobian, second order, writing the final linear system, use of the starting solve,
whether the nonlinear update scheme is a valid one (src/utilities/afactory.cpp:285-294, src/ode/nonlinearrelaxation.cpp:17-22), and for each configured boundary condition
its tag and whether its type is implemented (src/spatial/abc.cpp:461-500). -/
structure Cfg where
  implicit : Bool
  mf : Bool
  order2 : Bool
  write : Bool
  use : Bool
  updOk : Bool
  bcs : List (ℤ × Bool)

/-- How the loop of a pseudo-time solver ends: it has no iterations to do; it converges; it reaches its maximal number of iterations; the residual stops being finite
inside the loop; (backward Euler) it ends early without meeting its tolerance. -/
inductive End
  | nothing
  | conv
  | tol
  | diverged
  | blew
  deriving DecidableEq

/-- How a solve goes: its end and the number of iterations it does before. -/
structure Course where
  fin : End
  iters : ℕ

section
variable (p : Phase)

/-- The loop of `create_const_flowBCs`, src/spatial/abc.cpp:468-500, from configuration entry `i` on. -/
def bcMake : ℕ → List (ℤ × Bool) → Prog
  | _, [] => tell []
  | i, b :: l => if b.2 then tell [.make ⟨p, .bc i⟩] ;; bcMake (i + 1) l else raise .other

/-- `bcmap[tag] = bc` of a `std::map`, src/spatial/abc.cpp:499: an earlier entry of that tag is replaced. The order of the entries is not modelled. -/
def put (m : List (ℤ × ℕ)) (tag : ℤ) (i : ℕ) : List (ℤ × ℕ) := m.filter (fun e => e.1 ≠ tag) ++ [(tag, i)]

/-- The map of boundary conditions which the loop of src/spatial/abc.cpp:468-500 returns, from entry `i` on. -/
def bcMap : ℕ → List (ℤ × Bool) → List (ℤ × ℕ) → List (ℤ × ℕ)
  | _, [], m => m
  | i, b :: l, m => bcMap (i + 1) l (put m b.1 i)

/-- Events on all boundary conditions of a discretisation. -/
def onBcs (f : Obj → Ev) (c : Cfg) : List Ev := (bcMap 0 c.bcs []).map fun e => f ⟨p, .bc e.2⟩

/-- The constructors `Spatial` (src/spatial/aspatial.cpp:35-77), `FlowFV_base` (src/spatial/flow_spatial.cpp:34-59) and `FlowFV` (:311-338), called through
`new` (src/utilities/afactory.cpp:252-267). If the boundary conditions cannot be constructed the destructor of the finished base `Spatial` runs (src/spatial/aspatial.cpp:79-88)
and the memory of the object itself is given back; what the raw pointers point to is not. -/
def makeSpace (o2 : Bool) (c : Cfg) : Prog :=
  tell [.make ⟨p, .space⟩, .make ⟨p, .centres⟩, .use ⟨p, .centres⟩, .make ⟨p, .flux⟩, .make ⟨p, .fluxGas⟩, .make ⟨p, .grads⟩, .make ⟨p, .lim⟩] ;;
  (match (bcMake p 0 c.bcs).2 with
    | none => bcMake p 0 c.bcs
    | some x => tell (bcMake p 0 c.bcs).1 ;; tell [.use ⟨p, .centres⟩, .free ⟨p, .centres⟩, .free ⟨p, .space⟩] ;; raise x) ;;
  tell ([.make ⟨p, .jflux⟩, .make ⟨p, .jfluxGas⟩] ++ if o2 then [.make ⟨p, .gradvec⟩] else [])

/-- `delete` of a discretisation: the destructors of `FlowFV` (src/spatial/flow_spatial.cpp:340-347), `FlowFV_base` (:61-71) with that of the
flux (src/spatial/anumericalflux.cpp:28-32), and `Spatial` (src/spatial/aspatial.cpp:79-88). -/
def freeSpace (o2 : Bool) (c : Cfg) : List Ev :=
  (if o2 then [.free ⟨p, .gradvec⟩] else []) ++ [.free ⟨p, .grads⟩, .free ⟨p, .fluxGas⟩, .free ⟨p, .flux⟩, .free ⟨p, .lim⟩] ++ onBcs p .free c ++
    [.use ⟨p, .centres⟩, .free ⟨p, .centres⟩, .free ⟨p, .space⟩]

/-- `setupImplicitSolver` and `setupKSP`, src/utilities/casesolvers.cpp:166-198, with `create_matrixfree_jacobian`, src/linalg/alinalg.cpp:259-280. -/
def makeLhs (c : Cfg) : List Ev :=
  [.use ⟨p, .space⟩, .make ⟨p, .M⟩] ++ (if c.mf then [.make ⟨p, .ctx⟩, .make ⟨p, .A⟩] else []) ++ [.make ⟨p, .ksp⟩, .use ⟨p, .M⟩] ++ (if c.mf then [.use ⟨p, .A⟩] else [])

/-- `LinearProblemLHS::destroy`, src/utilities/casesolvers.hpp:133-141, with `matrixfree_destroy`, src/linalg/alinalg.cpp:249-258. -/
def freeLhs (c : Cfg) : List Ev :=
  [.free ⟨p, .ksp⟩, .free ⟨p, .M⟩] ++ if c.mf then [.free ⟨p, .ctx⟩, .free ⟨p, .A⟩] else []

/-- The objects used by an evaluation of the residual, src/spatial/flow_spatial.cpp:638-817. -/
def residual (o2 : Bool) (c : Cfg) : List Ev :=
  [.use ⟨p, .space⟩, .use ⟨p, .centres⟩, .use ⟨p, .flux⟩] ++ onBcs p .use c ++ if o2 then [.use ⟨p, .grads⟩, .use ⟨p, .lim⟩, .use ⟨p, .gradvec⟩] else []

/-- One iteration of the loop of `SteadyForwardEulerSolver::solve` (src/ode/aodesolver.cpp:177-252) or `SteadyBackwardEulerSolver::solve` (:419-559): the implicit
solver also assembles the Jacobian and solves the linear system, which applies the matrix-free matrix to vectors and with it evaluates the residual and reads the vectors the context
points to (src/linalg/alinalg.cpp:143-229). -/
def step (o2 : Bool) (c : Cfg) : List Ev :=
  [.use ⟨p, .time⟩] ++ residual p o2 c ++ [.use ⟨p, .r⟩, .use ⟨p, .dt⟩] ++
    if c.implicit then
      [.use ⟨p, .jflux⟩, .use ⟨p, .jfluxGas⟩, .use ⟨p, .M⟩, .use ⟨p, .ksp⟩, .use ⟨p, .du⟩, .use ⟨p, .upd⟩] ++
        if c.mf then [.use ⟨p, .A⟩, .use ⟨p, .ctx⟩] ++ residual p o2 c ++ [.use ⟨p, .r⟩, .use ⟨p, .dt⟩] else []
    else []

/-- Some iterations. -/
def steps (o2 : Bool) (c : Cfg) : ℕ → List Ev
  | 0 => []
  | n + 1 => step p o2 c ++ steps o2 c n

/-- The vectors created at the start of a solve, src/ode/aodesolver.cpp:148-150 and :377-380. -/
def makeVecs (c : Cfg) : List Ev :=
  [.make ⟨p, .r⟩] ++ (if c.implicit then [.make ⟨p, .du⟩] else []) ++ [.make ⟨p, .dt⟩] ++ if c.implicit then [.use ⟨p, .ksp⟩] ++ if c.mf then [.use ⟨p, .A⟩, .use ⟨p, .ctx⟩] else [] else []

/-- The vectors destroyed at the end of a solve, src/ode/aodesolver.cpp:278-279 and :634-636. -/
def freeVecs (c : Cfg) : List Ev := [.free ⟨p, .r⟩] ++ (if c.implicit then [.free ⟨p, .du⟩] else []) ++ [.free ⟨p, .dt⟩]

/-- Writing the final linear system, src/ode/aodesolver.cpp:579-610: only in the implicit solver, and only if asked for; the starting solve never asks for
it (src/utilities/casesolvers.cpp:247-251). -/
def viewers (c : Cfg) : List Ev :=
  if c.implicit && c.write && p = .main then
    [.make ⟨p, .matv⟩, .make ⟨p, .rhsv⟩, .make ⟨p, .solnv⟩, .use ⟨p, .M⟩, .use ⟨p, .r⟩, .use ⟨p, .du⟩, .free ⟨p, .matv⟩, .free ⟨p, .rhsv⟩, .free ⟨p, .solnv⟩]
  else []

/-- `SteadyForwardEulerSolver::solve`, src/ode/aodesolver.cpp:136-283, and `SteadyBackwardEulerSolver::solve`, :364-638. -/
def solve (o2 : Bool) (c : Cfg) (s : Course) : Prog :=
  tell [.use ⟨p, .time⟩] ;;
  match s.fin with
  | .nothing => tell []
  | .conv => tell (makeVecs p c ++ steps p o2 c s.iters ++ viewers p c ++ freeVecs p c)
  | .tol => tell (makeVecs p c ++ steps p o2 c s.iters ++ viewers p c) ;; raise .tol
  | .diverged => tell (makeVecs p c ++ steps p o2 c s.iters) ;; raise .num
  | .blew => tell (makeVecs p c ++ steps p o2 c s.iters ++ viewers p c) ;; raise .num

/-- `create_const_nonlinearUpdateScheme`, src/utilities/afactory.cpp:285-294, called for implicit stepping only. -/
def makeUpd (c : Cfg) : Prog :=
  if c.implicit then (if c.updOk then tell [.make ⟨p, .upd⟩] else raise .other) else tell []

end

/-- `SteadyFlowCase::execute_starter`, src/utilities/casesolvers.cpp:225-314. -/
def starter (c : Cfg) (s : Course) : Prog :=
  tell [.use ⟨.main, .space⟩] ;; makeSpace .starter false c ;; tell (makeLhs .starter c) ;; makeUpd .starter c ;;
  (if c.use then tell [.make ⟨.starter, .time⟩] ;; catchTol (solve .starter false c s) ;; tell [.free ⟨.starter, .time⟩] else tell []) ;;
  tell ((if c.implicit then [.free ⟨.starter, .upd⟩] else []) ++ freeLhs .starter c ++ freeSpace .starter false c)

/-- `SteadyFlowCase::execute_main`, src/utilities/casesolvers.cpp:316-386, and what follows it in `execute`, :388-396: a `Tolerance_error` unless the timing data say
converged, which they do not after a failed solve nor after one with nothing to do (src/ode/aodesolver.cpp:71). A numerical error is caught; then only the pseudo-time solver is
deleted. -/
def mainSolve (c : Cfg) (s : Course) : Prog :=
  tell (makeLhs .main c) ;; makeUpd .main c ;; tell [.make ⟨.main, .time⟩] ;;
  (match (solve .main c.order2 c s).2 with
    | some .other => solve .main c.order2 c s
    | some _ => tell (solve .main c.order2 c s).1 ;; tell [.use ⟨.main, .time⟩, .free ⟨.main, .time⟩]
    | none => solve .main c.order2 c s ;; tell ([.use ⟨.main, .time⟩, .free ⟨.main, .time⟩] ++ (if c.implicit then [.free ⟨.main, .upd⟩] else []) ++ freeLhs .main c)) ;;
  (if s.fin = .conv then tell [] else raise .tol)

/-- `SteadyFlowCase::execute`, src/utilities/casesolvers.cpp:388-422. -/
def execute (c : Cfg) (s m : Course) : Prog := starter c s ;; mainSolve c m

/-- `FlowCase::run`, src/utilities/casesolvers.cpp:75-84. -/
def run (c : Cfg) (s m : Course) : Prog :=
  makeSpace .main c.order2 c ;; execute c s m ;; tell (freeSpace .main c.order2 c)

/-- `FlowCase::run_output`, src/utilities/casesolvers.cpp:86-164; `out` tells whether the output (from :105 on) succeeds. -/
def runOutput (c : Cfg) (s m : Course) (out : Bool) : Prog :=
  makeSpace .main c.order2 c ;; catchTol (execute c s m) ;; tell (residual .main c.order2 c) ;; (if out then tell [] else raise .other) ;;
  tell (freeSpace .main c.order2 c)

end FVENS.Life
