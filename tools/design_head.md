# Formal model of FVENS: design

FVENS is a 2D finite-volume compressible-flow solver on unstructured hybrid (triangle/quadrilateral) meshes, parallelised with OpenMP and MPI (PETSc).
The model is written in Lean 4 with Mathlib under `lean/Verif`. It follows the C++ function by function; each definition cites file and lines of `/repo`.
This file is generated by `tools/design.py` from `tools/design_head.md`, the property list, the manifest and the Lean sources.

## Conventions of the model

* **Scalars.** `freal`/`scalar` is `ℝ`. Rounding, overflow and NaN are not modelled. Division by zero is not relied on: theorems carry the hypotheses under
  which the C++ divisions are meaningful, or the definition returns an undefined outcome. `NDIM = 2`, `NVARS = 4`; states are `Fin 4 → ℝ`.
* **Integers.** `fint`/`int` are `ℕ`; the value −1 for "no cell" is `none`; tags are `ℤ`. 32-bit overflow is not modelled.
* **Undefined behaviour** (reads or writes out of range, uninitialised reads, null pointers, empty output of a routine) is a separate outcome:
  `none`, `BC.Res.ub` or `Ode.Out.ub`. Exceptions are `BC.Res.throws`.
* **Aliasing.** Routines that write through pointers which may coincide are modelled as sequences of stores into one memory (C02).
* **OpenMP.** Loops are multisets of per-iteration instruction lists; threads interleave arbitrarily at the granularity of single loads and stores,
  under sequentially consistent memory. `atomic` updates are single steps, others a load and a store. `reduction` clauses are sums.
* **MPI.** Point-to-point exchange is a transition system with one FIFO queue per ordered pair of ranks, arbitrary delivery order between queues, and
  blocking receives. MPI is assumed reliable and non-overtaking, and sends are assumed to be buffered. `MPI_Allreduce` is a sum over ranks. The code passes the same buffer
  as send and receive argument (`src/utilities/mpiutils.cpp:15-18`, `src/ode/aodesolver.cpp:528`), which MPI does not allow; what follows from that is C120,
  and all other properties assume it works.
* **PETSc.** Vectors and matrices are modelled by what their documentation says: owned blocks are contiguous in rank order, ghost blocks hold copies of the
  global entries whose indices were given at creation, `MatSetValuesBlocked` adds into the block with the given global row and column. Krylov solvers are
  arbitrary: theorems quantify over the returned update.
* **Property trees** (Boost) are trees of named nodes; text-to-number conversion is an abstract function.
* **Files** are token or line sequences; character-level formatting is not modelled.

Specifications are separate definitions (in sections headed "Specification", or next to the theorems) written in terms of the mathematical meaning, not of the model's
helper functions. Property theorems are named `Cxx_…`; everything else is auxiliary. Where the code does not satisfy a property, `Cxx_…_refuted` proves so with a
concrete input, `Cxx_…_iff`/`_exact` gives the exact condition where one was found, and `Cxx_…_partial` is the part that holds. Theorems with hypotheses are
applied to a concrete non-trivial input by an `example`, either right after the theorem or in `Verif/Cases/*` (one file per part of the model).

## Trusted base

* The Lean 4.33 kernel, and Mathlib's definitions used in statements (`ℝ`, `HasFDerivAt`, `List.Perm`, …).
* Axioms: every claim theorem depends on a subset of `propext`, `Classical.choice`, `Quot.sound`. No axioms are added; there is no `sorry`, `native_decide`
  or `bv_decide`. The list per theorem is in `tools/axioms.txt`.
* The correspondence of model and C++ text, made by reading. Nothing is extracted or run.
* Real arithmetic in place of IEEE-754.
* The stated behaviour of PETSc, MPI, OpenMP, Boost and the C++ library.

## What is modelled

| Source | Modelled in |
|---|---|
| `physics/aphysics.cpp`, `aphysics_defs.hpp` | `Phys/*`: all conversions, derivatives, viscosity, conductivity, stress, entropy |
| `physics/viscousphysics.cpp` | `FV/Visc` (face gradient, viscous flux, its Jacobian), `FV/Heat` |
| `spatial/abc.cpp`, `abc.hpp`, `abctypemap.cpp` | `BC/*`: all eight conditions, their Jacobians, the factory |
| `spatial/anumericalflux.cpp` | `Flux/*`: seven fluxes, six Jacobians; `Flux/Chart*` (axes and units); `Flux/Continuous`; `Flux/Boost` (moving observers) |
| `mesh/mesh.cpp`, `mesh.hpp` | `Mesh/{Model,Esup,Esuel,Host,Faces,Conform,Geom,Renumber,Psup}`: connectivity, metrics, areas, centres, periodic map, reordering, writer |
| `mesh/meshreaders.cpp` | `Mesh/Gmsh` (Gmsh format 2), see below |
| `mesh/ameshutils.cpp`, `meshordering.cpp`, `details_lineordering.hpp` | `Mesh/{Order,Levels,Compare}`, `Par/{Renumber,RenumberRun}` |
| `mesh/meshpartitioning.cpp` | `Mesh/{Part,Sub,Check}`, `Par/Partition` |
| `linalg/tracevector.cpp` | `Par/{Transport,Trace}`: exchange protocol and data |
| `linalg/alinalg.cpp`, `petscutils.cpp` | `Lin/{Matrix,Handles,Precond}`, `Par/{Layout,MatrixFree}`: preallocation, matrix-free product, ghosted vectors, handles |
| `spatial/agradientschemes.cpp` | `FV/{Grad,GradExact,Race}` |
| `spatial/areconstruction.cpp`, `musclreconstruction.cpp`, `limitedlinearreconstruction.cpp` | `FV/{Recon,ReconMesh,MusclBound,Length}` |
| `spatial/flow_spatial.cpp`, `aspatial.cpp` | `FV/{Assemble,Threads,Residual,Jacobian,JacJoint,JacBoundary,CellForm,Copy,Copy2,Similar*,Units*,Reflect*,Chart*,WenoFrames}`, `Par/Distributed`, `Out/Surface` |
| `spatial/diffusion.cpp` | `FV/{Diffusion,DiffMax,DiffMaxEx,DiffConv,DiffConvEx}` |
| `spatial/aoutput.cpp` | `Out/{Nodal,Vtu,Entropy,Files,VtuData,Lift}` |
| `ode/aodesolver.cpp`, `nonlinearrelaxation.cpp` | `Ode/*`, `Lin/Matrix`, `Par/{Explicit,Unsteady,Positive,Steady,Implicit*,SecondOrder,AtRest,WeakSteady,Carried,Enthalpy,Upstream,UpstreamJac,Limit,Converge,Chart*}` |
| `utilities/controlparser.cpp`, `afactory.cpp`, `casesolvers.cpp`, `fvens_steady.cpp` | `Ctl/*`, `Par/{Case,CaseRuns,CasePos}` (whole steady cases), `Life/*` (creation and destruction of objects) |
| `utilities/aoptionparser.cpp` | `Ctl/PetscOpts`: the functions reading PETSc's option database |
| `utilities/aarray2d.*` | `Out/{Array,ArrayText}` |

Not modelled: automatic differentiation and ADOL-C paths, the Boost command line (`parse_cmd_options`), Scotch partitioning itself (the partition
is an arbitrary function from cells to ranks), timing and performance logging, message texts, the BLASTed preconditioner, the programs under `tests/` and `perftest/`.
