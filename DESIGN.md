# Formal model of FVENS: design

FVENS is a 2D finite-volume compressible-flow solver on unstructured hybrid (triangle/quadrilateral) meshes, parallelised with OpenMP and MPI (PETSc).
The model is written in Lean 4 with Mathlib under `lean/Verif`. It follows the C++ function by function; each definition cites file and lines of `/repo`.
This file is generated by `tools/design.py` from `tools/design_head.md`, the property list, the manifest and the Lean sources.

## Conventions of the model

* **Scalars.** `freal`/`scalar` is `ℝ`. Rounding, overflow and NaN are not modelled. Division by zero is not relied on: theorems carry the hypotheses under
  which the C++ divisions are meaningful, or the definition returns an undefined outcome. `NDIM = 2`, `NVARS = 4`; states are `Fin 4 → ℝ`.
* **Integers.** `fint`/`int` are `ℕ`; the value −1 for "no cell" is `none`; tags are `ℤ`. 32-bit overflow is not modelled.
* **Undefined behaviour** (reads or writes out of range, uninitialised reads, null pointers, empty output of a routine) is a separate outcome:
  `none`, `BC.Res.ub` or `Ode.Out.ub`. Exceptions are `BC.Res.throws`.
* **Aliasing.** Routines that write through pointers which may coincide are modelled as sequences of stores into one memory (C02).
* **OpenMP.** Loops are multisets of per-iteration instruction lists; threads interleave arbitrarily at the granularity of single loads and stores,
  under sequentially consistent memory. `atomic` updates are single steps, others a load and a store. `reduction` clauses are sums.
* **MPI.** Point-to-point exchange is a transition system with one FIFO queue per ordered pair of ranks, arbitrary delivery order between queues, and
  blocking receives. MPI is assumed reliable and non-overtaking, and sends are assumed to be buffered. `MPI_Allreduce` is a sum over ranks. The code passes the same buffer
  as send and receive argument (`src/utilities/mpiutils.cpp:15-18`, `src/ode/aodesolver.cpp:528`), which MPI does not allow; what follows from that is C120,
  and all other properties assume it works.
* **PETSc.** Vectors and matrices are modelled by what their documentation says: owned blocks are contiguous in rank order, ghost blocks hold copies of the
  global entries whose indices were given at creation, `MatSetValuesBlocked` adds into the block with the given global row and column. Krylov solvers are
  arbitrary: theorems quantify over the returned update.
* **Property trees** (Boost) are trees of named nodes; text-to-number conversion is an abstract function.
* **Files** are token or line sequences; character-level formatting is not modelled.

Specifications are separate definitions (in sections headed "Specification", or next to the theorems) written in terms of the mathematical meaning, not of the model's
helper functions. Property theorems are named `Cxx_…`; everything else is auxiliary. Where the code does not satisfy a property, `Cxx_…_refuted` proves so with a
concrete input, `Cxx_…_iff`/`_exact` gives the exact condition where one was found, and `Cxx_…_partial` is the part that holds. Theorems with hypotheses are
applied to a concrete non-trivial input by an `example`, either right after the theorem or in `Verif/Cases/*` (one file per part of the model).

## Trusted base

* The Lean 4.33 kernel, and Mathlib's definitions used in statements (`ℝ`, `HasFDerivAt`, `List.Perm`, …).
* Axioms: every claim theorem depends on a subset of `propext`, `Classical.choice`, `Quot.sound`. No axioms are added; there is no `sorry`, `native_decide`
  or `bv_decide`. The list per theorem is in `tools/axioms.txt`.
* The correspondence of model and C++ text, made by reading. Nothing is extracted or run.
* Real arithmetic in place of IEEE-754.
* The stated behaviour of PETSc, MPI, OpenMP, Boost and the C++ library.

## What is modelled

| Source | Modelled in |
|---|---|
| `physics/aphysics.cpp`, `aphysics_defs.hpp` | `Phys/*`: all conversions, derivatives, viscosity, conductivity, stress, entropy |
| `physics/viscousphysics.cpp` | `FV/Visc` (face gradient, viscous flux, its Jacobian), `FV/Heat` |
| `spatial/abc.cpp`, `abc.hpp`, `abctypemap.cpp` | `BC/*`: all eight conditions, their Jacobians, the factory |
| `spatial/anumericalflux.cpp` | `Flux/*`: seven fluxes, six Jacobians; `Flux/Chart*` (axes and units); `Flux/Continuous`; `Flux/Boost` (moving observers) |
| `mesh/mesh.cpp`, `mesh.hpp` | `Mesh/{Model,Esup,Esuel,Host,Faces,Conform,Geom,Renumber,Psup}`: connectivity, metrics, areas, centres, periodic map, reordering, writer |
| `mesh/meshreaders.cpp` | `Mesh/Gmsh` (Gmsh format 2), see below |
| `mesh/ameshutils.cpp`, `meshordering.cpp`, `details_lineordering.hpp` | `Mesh/{Order,Levels,Compare}`, `Par/{Renumber,RenumberRun}` |
| `mesh/meshpartitioning.cpp` | `Mesh/{Part,Sub,Check}`, `Par/Partition` |
| `linalg/tracevector.cpp` | `Par/{Transport,Trace}`: exchange protocol and data |
| `linalg/alinalg.cpp`, `petscutils.cpp` | `Lin/{Matrix,Handles,Precond}`, `Par/{Layout,MatrixFree}`: preallocation, matrix-free product, ghosted vectors, handles |
| `spatial/agradientschemes.cpp` | `FV/{Grad,GradExact,Race}` |
| `spatial/areconstruction.cpp`, `musclreconstruction.cpp`, `limitedlinearreconstruction.cpp` | `FV/{Recon,ReconMesh,MusclBound,Length}` |
| `spatial/flow_spatial.cpp`, `aspatial.cpp` | `FV/{Assemble,Threads,Residual,Jacobian,JacJoint,JacBoundary,CellForm,Copy,Copy2,Similar*,Units*,Reflect*,Chart*,WenoFrames}`, `Par/Distributed`, `Out/Surface` |
| `spatial/diffusion.cpp` | `FV/{Diffusion,DiffMax,DiffMaxEx,DiffConv,DiffConvEx}` |
| `spatial/aoutput.cpp` | `Out/{Nodal,Vtu,Entropy,Files,VtuData,Lift}` |
| `ode/aodesolver.cpp`, `nonlinearrelaxation.cpp` | `Ode/*`, `Lin/Matrix`, `Par/{Explicit,Unsteady,Positive,Steady,Implicit*,SecondOrder,AtRest,WeakSteady,Carried,Enthalpy,Upstream,UpstreamJac,Limit,Converge,Chart*}` |
| `utilities/controlparser.cpp`, `afactory.cpp`, `casesolvers.cpp`, `fvens_steady.cpp` | `Ctl/*`, `Par/{Case,CaseRuns,CasePos}` (whole steady cases), `Life/*` (creation and destruction of objects) |
| `utilities/aoptionparser.cpp` | `Ctl/PetscOpts`: the functions reading PETSc's option database |
| `utilities/aarray2d.*` | `Out/{Array,ArrayText}` |

Not modelled: automatic differentiation and ADOL-C paths, the Boost command line (`parse_cmd_options`), Scotch partitioning itself (the partition
is an arbitrary function from cells to ranks), timing and performance logging, message texts, the BLASTed preconditioner, the programs under `tests/` and `perftest/`.

## Properties

| Id | Title | Status | Where | Remarks |
|---|---|---|---|---|
| C01 | Conserved/primitive conversions are mutually inverse | proved | Phys/GradT, Phys/Props | Real arithmetic; density nonzero, gamma not 1. |
| C02 | Variable and gradient conversions may be done in place | proved | Phys/GradT, Phys/Props | Memory model with aliased pointers. |
| C03 | Analytical derivative routines return the true derivatives | proved | Phys/Props | Frechet derivatives on R^4 for each routine. |
| C04 | Sutherland viscosity and its derivative | partial | Phys/Props, Phys/Transport | False in the code: C04_refuted. The partial theorem gives the condition under which the routine is right. |
| C05 | Pressure increment of a conserved-variable update | partial | Phys/Props | False in the code: C05_refuted; C05_deltaPressure_correct_iff gives the exact condition. |
| C06 | Free-stream state realises the requested Mach number and incidence | proved | Phys/Props |  |
| C07 | Viscous stress is symmetric, frame-indifferent and dissipative | proved | Phys/Props |  |
| C08 | Slip-wall ghost state is a mirror image | proved | BC/Props |  |
| C09 | No mass or energy passes through a slip wall | proved | Flux/Upwind | All seven schemes. |
| C10 | Boundary-state Jacobians differentiate the boundary states | partial | BC/IsoRow, BC/Props, FV/JacBoundary | Proved for far field, extrapolation, slip wall, adiabatic wall and in/outflow away from the switches, for the routine the constructed object calls (C10_object). False for the isothermal wall (C10_isothermal_refuted; its energy row in full: C10_isothermal_row) and at exactly sonic outflow (C10_inOut_sonic_refuted). |
| C11 | No-slip walls impose the wall velocity and thermal condition | partial | BC/Props | Velocity and isothermal temperature proved. Adiabatic temperature only for walls at rest: exact condition and refutation for moving walls. General-velocity wall reads out of bounds. |
| C12 | Characteristic in/outflow boundary selects by wave direction | proved | BC/Props |  |
| C13 | Stagnation inflow imposes the configured total conditions | partial | BC/Props | False in the code: C13_refuted, C13_ghost_never_inflow; the partial theorem is the exact condition. |
| C14 | Boundary-condition construction covers exactly the supported kinds | proved | BC/Effect, BC/Props | Success exactly for supported kinds with enough parameters; too few parameters is undefined behaviour and periodic throws. |
| C15 | Numerical fluxes are consistent | proved | Flux/Props | All seven schemes. |
| C16 | Numerical fluxes are conservative under side swap | proved | Flux/Order, Flux/Props | All seven schemes; HLLC for gamma >= 4/3 and unit normals (tie-breaking at zero contact speed uses the Rankine-Hugoniot relations). |
| C17 | Supersonic flow is fully upwinded | proved | Flux/Upwind | Van Leer, AUSM, AUSM+, HLL, HLLC, Roe. Local Lax-Friedrichs is refuted (C17_llf_refuted), as expected for a central scheme with dissipation. |
| C18 | Flux Jacobians are consistent | partial | FV/JacJoint, FV/JacSwitch, FV/JacSwitchHllc, FV/JacSwitchRoe, Flux/AusmKink, Flux/HllcKink, Flux/HllcSwitch, Flux/Jac, Flux/JacAvg, Flux/JacHllc, Flux/RoeContact | Exact: AUSM (exactly where the interface Mach number is nonzero, or both sides leave the face at no less than the speed of sound, or both carry the same; elsewhere, e.g. at a stationary contact, the flux has no derivative at all: C18_ausm_exact_iff, C18_ausm_no_jacobian, C18_ausm_switch_refuted), HLLC (no switch at its threshold; at a stationary contact the mass flux has a derivative exactly if the densities are equal: C18_hllc_contact_iff, C18_hllc_switch_refuted; wherever the contact stands still, exactly if the densities beside it agree or its speed has zero derivative: C18_hllc_switch_iff, so at slip walls it has one: C18_hllc_wall), Roe without active entropy fix, the edge of the fix included (C18_roe_edge_exact; the flux itself has a derivative between all admissible states: C18_roe_smooth), Roe between states mirrored at a slip wall although the entropy fix is active there (C18_roe_mirror); block sums at equal states for all schemes having a Jacobian; Lax-Friedrichs and HLL are derivatives with frozen wave speeds, as documented. False: Roe with active entropy fix (the error of the coded eigenvalue derivative and the exact condition under which it vanishes are proved; where the averaged normal velocity vanishes the mass row is right exactly if the density jump is that of an acoustic wave: C18_roe_contact_iff, C18_roe_contact_right_iff), second Lax-Friedrichs variant for density other than 1, Van Leer (throws), AUSM+ (leaves the output untouched). |
| C19 | Fluxes do not depend on the orientation of the coordinate axes | proved | FV/Similar, Flux/Rot | All seven schemes; C19_every_state without any condition on the states. |
| C20 | Stationary contact discontinuities are preserved by HLLC and AUSM | proved | Flux/Upwind | AUSM, AUSM+, HLLC. Roe with its entropy fix diffuses contacts (C20_roe_diffuses_contact, C20_roe_refuted). |
| C21 | HLLC wave ordering and star states | proved | Flux/Order | For gamma >= 4/3; C21_low_gamma_refuted shows the hypothesis is needed. |
| C22 | Cells are closed | proved | Mesh/Geom | Real arithmetic; closedness for cells whose faces have nonzero length. |
| C23 | Cell areas are polygon areas | proved | Mesh/Geom | Triangles and quadrilaterals; other cells leave the area unset (C23_unset_iff). |
| C24 | Ghost-cell centres are mirror images | partial | Mesh/Geom, Mesh/GeomTol | Midpoint variant exact. Face-line variant exact unless a direction component of the face is below 1e-12 in size without being zero: C24_small_angle_refuted; C24_face_error bounds the deviation. |
| C25 | Point-to-cell lists are exact | proved | Mesh/Esup |  |
| C26 | Cell-to-cell adjacency is symmetric and geometric | proved | Mesh/Esuel | Completeness and symmetry on manifold meshes (no face in three cells); C26_nonmanifold_refuted shows the hypothesis is needed. |
| C27 | Face list enumerates every face exactly once | proved | Mesh/Faces |  |
| C28 | Host cell of a boundary face | proved | Mesh/Host, Mesh/HostFaces | Exact conditions for success, error and undefined behaviour; C28_orphan_refuted exhibits the undefined case. |
| C29 | Boundary faces are oriented outward after correction | proved | Mesh/Host |  |
| C30 | Cell reordering is a pure renumbering | partial | Mesh/Renumber | Vertices, counts, geometry and adjacency follow the cell. Region tags do not: C30_refuted, exact condition C30_iff. |
| C31 | Periodic boundary pairing | partial | Mesh/Renumber | Symmetric if each periodic face has at most one candidate within the tolerance; C31_refuted gives three faces where it is not. |
| C32 | Mesh file round trip | proved | Mesh/Gmsh | Token level; meshes of triangles and quadrilaterals with at least one cell and at most 21 tags. Meshes without cells cannot be read back (C32_no_cells_refuted). |
| C33 | Point neighbour lists | proved | Mesh/Psup | Meshes of triangles and quadrilaterals. |
| C34 | Level scheduling admits parallel sweeps | proved | Mesh/Levels, Mesh/Order | For any symmetric adjacency, and for every pre-processed conforming mesh with adjacency meaning a shared face (C34_mesh_levels); maximal and unique; undefined exactly if a cell other than the last has a face without neighbour, as before face construction. |
| C35 | Hybrid line ordering is a permutation keeping lines contiguous | proved | Mesh/Order | For any sorting of equal weights and any vertex ordering delivered by PETSc. Cells without real neighbours lead to an uninitialised read (C35_isolated_refuted). |
| C36 | Trivial partition covers all cells | proved | Mesh/Part |  |
| C37 | Subdomain extraction preserves cells and geometry | proved | Mesh/Sub | For conforming global meshes with at most four boundary tags per face, any assignment of cells to ranks. |
| C38 | Partition-interface faces are all found | partial | Mesh/Check, Mesh/Sub | Registered faces are correct; a face between ranks is registered iff an end point is off the rank's physical boundary (C38_all_iff). Refuted for the unit square of two triangles on two ranks (C38_refuted) and one-sidedly (C38_one_sided_refuted). |
| C39 | Cell adjacency graph handed to the partitioner | proved | Mesh/Part |  |
| C40 | Interface exchange delivers the neighbour's face values | partial | Par/Partition, Par/Trace, Par/Transport | For every schedule, number of ranks and set of agreeing interface tables; tables agree whenever all interface faces are registered (C40_tables). With one-sided registration a rank waits for ever (C40_refuted). MPI assumed reliable and non-overtaking, sends assumed buffered. |
| C41 | The residual is conservative | proved | FV/Assemble | Assembly loop over the face list of any conforming (sub)mesh; sums exact (real numbers or any commutative group). |
| C42 | Residual assembly does not depend on thread scheduling | proved | FV/Threads | Threads interleave arbitrarily under sequentially consistent memory; any distribution of faces. Also the converse: unprotected updates of a shared location lose contributions in some execution. |
| C43 | Free-stream preservation | proved | FV/Residual | First order and second order with every gradient scheme where defined; Barth-Jespersen and Venkatakrishnan where defined (C48). Other ranks' data are parameters; the sent states are shown uniform. Exact arithmetic. |
| C44 | Gradient accumulation at boundary faces is race-free | partial | FV/Race | False in general: boundary and connectivity loops update without atomics (C44_refuted). C44_exact: correct for all schedules exactly if no cell has two boundary or two connectivity faces. |
| C45 | Gradient schemes are exact where promised | proved | FV/Grad, FV/GradExact, FV/LinearField | Green-Gauss: constants and linearity. WLSQ: exact for linear fields iff-condition on stencil, linearity, unique minimiser; both also as the option the residual uses. Exact arithmetic. |
| C46 | Reconstruction is exact for linear and constant fields | proved | FV/LinearField, FV/ReconMesh | Linear, MUSCL and WENO reconstruction of linear fields from exact gradients; limited schemes for vanishing gradients; face states and fluxes of the second-order residual for linear fields, by option. Exact arithmetic. |
| C47 | Limiters create no new extrema | proved | FV/Length, FV/MusclBound, FV/Recon, FV/ReconMesh, FV/VenkBound | Bounds for Barth-Jespersen where defined (see C48); Van Albada and Venkatakrishnan in [0,1]; MUSCL up to 1.25e-5, exact monotonicity fails because of the limiter constant (C47_muscl_exact_refuted); Venkatakrishnan with K > 0 can overshoot (C47_venkatakrishnan_overshoot), by no more than C47_venkatakrishnan_range says, and is nearly inactive where the solution is smooth (C47_venkatakrishnan_inactive). |
| C48 | Limiters read only cell data that exist | partial | FV/ReconMesh | False: Barth-Jespersen and Venkatakrishnan read rows beyond the array at physical boundaries (C48_refuted); C48_exact: defined exactly if there is no physical boundary face. The other schemes are safe (C48_partial). |
| C49 | WENO gradient is a convex combination | proved | FV/Recon | Positive lambda (not set by the control file parser, see C64). |
| C50 | Assembled Jacobian matches the face-wise derivatives | partial | FV/JacBoundary, FV/JacSwitch, FV/JacSwitchHllc, FV/JacSwitchRoe, FV/Jacobian | Derivative of the first-order residual for every exact flux and boundary Jacobian, schedule independence, column sums, numbering with ghost columns; end to end for AUSM, Roe and HLLC with slip walls (every admissible state), insulated walls, far fields, extrapolation and in/outflow (C50_boundaries), inviscid or with constant viscosity, away from the switches of the scheme at the other faces. False at the switch of AUSM: where the interface Mach number of a face vanishes the residual has a derivative with respect to the neighbour exactly if both sides carry the same or leave the face at no less than the speed of sound (C50_ausm_switch_iff), and at a stationary contact it has none (C50_ausm_switch_refuted). With any scheme the residual has a derivative with respect to a neighbour exactly where the flux between them has one (C50_neighbour_iff); with HLLC, where the contact stands still, the mass residual has one exactly if the densities beside the contact agree or the contact speed is flat (C50_hllc_switch_iff), and at a stationary density jump it has none (C50_hllc_switch_refuted). Roe has no such switch: the residual has a derivative with respect to a neighbour at all admissible states (C50_roe_smooth), though with active entropy fix the coded block is not that derivative (C18). Missing: the other switches of HLLC, Roe at no-slip walls, Sutherland viscosity (C04), isothermal walls (C10). Distributed assembly is C82. |
| C51 | Local time steps are positive and respect the wave-speed bound | proved | FV/Residual | Exact arithmetic; admissible face states, positive area of the cell. |
| C52 | Face gradient and viscous flux consistency | proved | FV/Visc | Continuity of the state enters as distinct cell centres; flux of rigid motion and uniform fields vanishes; temperature row uses the exact chain rule. |
| C53 | Scalar diffusion discretisation | partial | FV/Diffusion | Boundary value, conservation, consistency and interior blocks proved. Boundary blocks are half of the derivative because the dependence of the ghost state is ignored: C53_refuted, exact condition C53_jacobian_iff; with doubled boundary blocks the matrix is the derivative (C53_jacobian_doubled). Source terms depending on the solution are not in the Jacobian. |
| C54 | CFL ramping stays within configured limits | proved | Ode/Ramp | Both ramps of aodesolver.cpp over the reals: bounds, end values, monotonicity in the iteration (linear ramp) and in the residual ratio. |
| C55 | Under-relaxation factor is safe | partial | Ode/Ramp | Range and density part proved; pressure part proved where the coded pressure increment is right (C05_deltaPressure_correct_iff) and refuted in general by C55_refuted (an x-momentum update is not seen, full step, negative pressure). |
| C56 | Steady solvers terminate and report convergence truthfully | partial | Ode/Steady | Termination, iteration bound, exact reporting for every residual history proved for both solvers. Refuted: tolerance met in the last allowed iteration is reported as failure (C56_last_iteration_refuted); the implicit solver reports an exact initial state as blown up (C56_zero_residual_refuted). Residual, linear solver abstract. |
| C57 | Pseudo-time step uses the reported CFL number | partial | Ode/Steady | Refuted for the explicit solver (C57_refuted: it always uses the initial CFL number); holds with equal limits, and for the implicit solver. |
| C58 | TVD Runge-Kutta schemes have their nominal order | partial | Ode/Rk | Refuted (C58_refuted, C58_step: every order reduces to one reversed Euler step); the coefficient table itself is right (C58_table_partial). Time loop: end time, termination, divergence for order zero. |
| C59 | Pseudo-time term is added to the diagonal only | proved | Lin/Matrix | All schedules and thread counts; blocked and scalar variant agree. Global cell numbers are assumed distinct. |
| C60 | Matrix-free Jacobian product | proved | Lin/Matrix | Exact for affine residuals, limit and error bound for differentiable ones; zero direction undefined; the effect of ghost entries left uncleared by the wrong loop bounds is characterised exactly (C60_ghost_iff); the statement assumes they are zero, as on one process. |
| C61 | Matrix preallocation is sufficient | partial | Lin/Matrix | Diagonal part proved on all conforming meshes; off-diagonal part refuted (C61_refuted) with exact condition C61_offdiagonal_iff; C61_row_partial for cells with one interface face. |
| C62 | Vector access handles always balance | partial | Lin/Access, Lin/Handles | Proved for every program over any number of handles in which attaching succeeds and no handle is copied; refuted for a failing PETSc call (the array is released although it was not acquired, the local form leaks in the constructor) and for the implicit copy constructor. |
| C63 | Boundary-condition list in the control file | proved | Ctl/Bcs | Termination, the exact list read, and exactly when an exception is thrown, for every property tree; reading the file into the tree and text-to-number conversions are abstract. |
| C64 | Every solver parameter used is defined | partial | Ctl/Options | Documented places and defaults proved for every accepted file; exact characterisation of the undefined members; refuted for the control file in doc/, whose limiter parameter is never read, and for files without the optional section. |
| C65 | Scheme selection by name | partial | Ctl/Case, Ctl/Letters | Selection by name proved for all strings; refuted for unsupported names: null pointers for fluxes and reconstructions, silently no gradients. Nonlinear updates and boundary types are right. |
| C66 | Failure reporting of a flow case | partial | Ctl/Case | run reports failures exactly; run_output, which the driver calls, returns normally after non-convergence and blow-up (refuted, with exact characterisation). |
| C67 | Nodal output values are averages of surrounding cells | partial | Out/Nodal, Out/ScalarOne | Velocity, Mach number and temperature averages proved for all meshes and fields; refuted for density and pressure, written as exactly a quarter of the average, and the scalar version reads out of bounds for any mesh of two or more cells. |
| C68 | VTU connectivity offsets | partial | Out/Vtu | The data writer is proved to round-trip every hybrid mesh; writeMeshToVtu has right offsets exactly when all cells have the same node count (refuted for hybrid meshes). |
| C69 | Surface force coefficients | partial | Out/Surface | Pressure forces proved for all closed surfaces, rotations and orientations; friction drag comes out with the wrong sign (refuted), Sutherland viscosity is used even with constant viscosity, and output passes too many rows. |
| C70 | Dense array storage | partial | Out/Array | Memory safety of every legal program, index injectivity, independence of copies, assignment, move, resize and no leak proved; self-assignment in release builds loses all elements (refuted). |
| C71 | Cell-to-face map and neighbour across a face | proved | Mesh/Conform | Conforming meshes as defined by Msh.Conforming. |
| C72 | Gmsh reader accepts any valid ordering | partial | Mesh/Gmsh | Correct if boundary faces come first and nodes are numbered consecutively; otherwise refuted. |
| C73 | Viscous flux Jacobian is the derivative of the viscous flux | partial | FV/Visc | False with Sutherland viscosity: the coded derivative of the viscosity is wrong (C73_refuted, C73_exact gives the exact condition); fully proved for constant viscosity. |
| C74 | Ghost blocks hold the value of the cell across the interface face | partial | Par/Layout | PETSc's layout (owned blocks in rank order) against ghost indices taken from the global numbering: exact value of each ghost block for every partition, correct for all fields iff no ghost cell is displaced, hence for every assignment non-decreasing along the numbering and the trivial partition; refuted for others. |
| C75 | Residual depends on a cell's surroundings only | proved | FV/Copy, FV/Copy2, FV/CopyStep | Gradients (all schemes), first-order residual, face states of all reconstructions and second-order residual and time steps agree on local copies. |
| C76 | Distributed residual equals the single-process residual | partial | Par/Distributed | First and second order, every gradient and reconstruction scheme and any interleaving proved for assignments non-decreasing along the numbering with all interface faces registered; refuted for others on a four-cell mesh. |
| C77 | Renumbering the cells leaves the residual with the cells | partial | Par/Renumber, Par/RenumberRun | Single process, every permutation, first and second order, residuals and whole explicit and implicit steady runs (implicit: exact linear solvers, regular systems, mirrored flux Jacobians, C83); with interface faces the renumbered mesh is valid iff the permutation maps recorded faces to recorded faces (C77_iff), refuted for a two-process mesh (C77_refuted): interface records are not renumbered. |
| C78 | Mesh comparison answers what it documents | partial | Mesh/Compare | All-positive answers iff the meshes agree; sizes, boundary faces and coordinates correct one by one. Refuted for the single answers on cells and when the second mesh is smaller. |
| C79 | A single process gets the mesh that was read | partial | Mesh/Compare | Identity proved when every point belongs to a cell; with unused points the check of debug builds is undefined (C79_check, C79_refuted). |
| C80 | Reported entropy error and mesh size | partial | Out/Entropy | Entropy error proved for all distributions; the mesh size is that of the process, refuted for more than one (C80_mesh_size_refuted). |
| C81 | Heat conduction obeys Fourier's law | proved | FV/Heat | Both orders, constant and Sutherland viscosity. |
| C82 | Distributed Jacobian matrix equals the single-process matrix | partial | Par/Matrix | For assignments of cells to ranks that follow the cell numbering and Jacobian routines that treat the sides of a face alike at the given states (all states for LLF and HLL, C83): all blocks, own rows only, products. Refuted for other assignments: rows and columns are named by cell numbers, vectors are laid out by rank. |
| C83 | Blocks of a face do not depend on which side is called left | partial | Flux/Mirror | All states for LLF and HLL; AUSM for non-zero interface Mach number, Roe where no averaged wave speed vanishes, HLLC away from ties of wave speeds. Refuted for AUSM, Roe and HLLC at every stationary contact between different densities. |
| C84 | SU2 mesh files are read as described | partial | Mesh/Su2 | All files of triangles and quadrilaterals in which at most the last marker is empty, and their conversion. Refuted: an empty marker before another one derails the reader; three-dimensional files and unknown types of cells are accepted. Named markers throw, as documented. |
| C85 | Boundary points are numbered once with their faces | proved | Mesh/Bpoints | All lists of boundary faces; where several faces begin (or end) at a point the last of them is kept. |
| C86 | Graph of lines and points is the quotient of the mesh | proved | Mesh/LineGraph | Every mesh and every outcome of findLines; error codes of PETSc and preallocation not modelled. |
| C87 | Solid walls keep mass and energy in the box | proved | FV/Closed | First order: every admissible state. Second order: reconstructed wall states must be admissible; viscous energy needs ghost centres on the wall normals (mirror images, C24). The time integration is the one in the code, including its wrong sign (C58). |
| C88 | Explicit steady solver gives the same run on any number of processes | partial | Par/Explicit, Par/SecondOrder | First- and second-order discretisation (any gradient and reconstruction scheme), inviscid and viscous, every number of ranks, whole runs, assignments non-decreasing along the cell numbering that register all interface faces (the trivial partition among them). Refuted for interleaved assignments (ghost positions, C76). |
| C89 | Explicit unsteady solver gives the same run on any number of processes | partial | Par/Unsteady | Refuted: each rank takes the smallest time step of its own cells and never updates ghost blocks. Proved: rank time steps bound the single one from above and one attains it; ghost blocks keep their initial values; exact condition for the first step to agree; whole runs agree with all cells on one rank. |
| C90 | Mesh construction hands every rank its part of the file's mesh | partial | Par/Construct | Every proper file, any number of ranks, no reordering, faces between ranks with an end off the boundary; any permutation on one rank; exact meaning of the options and file names. Refuted: coarse meshes (C38) and reordering on several ranks (C77) silently give meshes that are not conforming. PETSc orderings are parameters. |
| C91 | Surface and volume result files | proved | Out/Files | Exact condition for definedness (boundary faces must carry markers) and for an undefined last line (no face with the marker) in C91_defined_iff, C91_trailer_iff. Rounding to six digits is not modelled. |
| C92 | VTU data arrays | partial | Out/VtuData | Refuted for vectors with one column (C92_one_column_refuted), exact condition C92_wellformed_iff; everything a run writes is well formed (C92_run). |
| C93 | Explicit steps keep density and pressure positive | partial | Par/Positive | First order, inviscid, 4/3 <= gamma <= 3. C93_step_partial: one iteration keeps a cell positive for local Lax-Friedrichs, van Leer, HLL and HLLC if the CFL number times the sum of the rates at which the faces take the state away (half the larger wave speed; c - vn for van Leer; minus the left signal speed for HLL, HLLC) does not exceed the sum of the cell's own wave speeds. For van Leer's flux this holds at every CFL number from 0 to 1 whatever the states (C93_vanLeer_partial), hence for whole runs (C93_run_partial) and, with C88, for runs on several processes (C93_several_partial). C93_llf_partial: factor between wave speeds that suffices. Refuted for every other scheme at CFL number 1 (C93_cfl_one_refuted): the time step uses the wave speeds of the cell alone, not those beyond its faces. Boundary conditions with positive ghost states: slip, extrapolation, far field, inflow-outflow, adiabatic wall at rest. |
| C94 | Independence of position, orientation and unit of length of the mesh | partial | FV/Similar, FV/SimilarEx, FV/SimilarGrad, FV/SimilarRecon, FV/SimilarRes, FV/SimilarRun, FV/WenoFrames, Par/ChartSecond | Proved without conditions on the states for boundary states, all fluxes, the viscous flux, gradients, time steps, the first-order residual (inviscid and viscous), the second-order residual with the unlimited reconstruction, and whole runs of the explicit steady solver on one process, of first order and of second order with the unlimited reconstruction (C94_second_order_run_partial). False: WENO, whose weights compare squared gradients with 1e-5 (C94_weno_refuted); the MUSCL reconstruction limits the velocity components separately (C94_muscl_refuted); the CFL ramp compares the first residual norm with the number 1, so that the reported CFL number (and the one used by the implicit solver, C94_second_cfl) depends on the unit of length (C94_cfl_unit_refuted). Implicit runs: C104. Not covered: the Barth-Jespersen and Venkatakrishnan limiters, which are undefined on every mesh with a physical boundary (C48_exact). |
| C95 | Reported convergence and steady states | partial | Par/Steady | Proved: fixed points of explicit updates and of Runge-Kutta steps are exactly the steady states; the norm vanishes exactly where the energy residual does; both solvers stay at steady states. False: the norm counts the energy equation only, and the explicit solver reports convergence after one iteration from a state whose mass residual does not vanish (C95_converged_refuted); started at a steady state the implicit solver ends with a numerical error (C95_free_stream). |
| C96 | Implicit steady solver | partial | Par/Implicit, Par/ImplicitInexact, Par/ImplicitInexactPar, Par/ImplicitNewton, Par/ImplicitRun, Par/SecondOrder | Proved: linearised backward Euler step for every exact flux and boundary Jacobian (C96_newton) and end to end for AUSM, Roe and HLLC (C96_newton_schemes), with second-order residuals and iterative linear solvers up to a defect within their tolerances (C96_defect_correction, C96_defect_correction_schemes); fixed points for exact and iterative linear solvers and any evaluation of the residual (C96_inexact_steady_iff, C96_second_order_steady_iff; a relative tolerance of one does not suffice, C96_inexact_sharp, and the code does not ask KSP whether it converged); small CFL numbers, for any Jacobian routine; thread schedules; whole runs on several processes, first and second order, for assignments that are non-decreasing along the cell numbering. Missing: other assignments of cells (false for the matrix and the residual: C82_refuted, C88_refuted); whole runs on several processes with iterative linear solvers, whose steps differ with the preconditioner of each partition; the states that an iteration leaves unchanged are those of the single process also then (C96_inexact_processes_partial, C96_inexact_processes_second_partial) (matrix-free products are treated in C60 and C121). |
| C97 | Gas at rest under uniform pressure stays at rest | partial | Par/AtRest, Par/AtRestIn, Par/AtRestInAll, Par/AtRestIso | Proved for AUSM, AUSM+ and HLLC: first order, second order with every gradient and reconstruction scheme (reconstructed densities positive; automatic for MUSCL with densities above 1.25e-5), explicit runs of both orders, implicit updates. False for LLF, van Leer, Roe and HLL: there the state is steady exactly if the density is equal across every face (C97_diffusive_iff, C97_all_schemes_refuted). Isothermal walls: gas stays at rest exactly if the cells at the wall have its temperature (C97_isothermal, C97_isothermal_run, C97_isothermal_iff, C97_isothermal_cell_iff, C97_isothermal_refuted). False at subsonic inflows, whose ghost state beside gas at rest always moves out of the domain (C97_inflow_moves), so that with AUSM the cell loses mass (C97_inflow_cell, C97_inflow_refuted); with AUSM+ it does so as well, and with HLLC if the prescribed total temperature is at most that of the gas (C97_inflow_cell_schemes). With HLLC the cell stays at rest exactly if the contact speed vanishes (C97_inflow_hllc_iff), which some total pressure achieves for every high total temperature (C97_inflow_balance). |
| C98 | No influence against a supersonic stream | partial | Par/Upstream, Par/UpstreamCone, Par/UpstreamJac, Par/UpstreamLayer, Par/UpstreamSecond, Par/UpstreamVisc | Proved for every scheme but LLF, for inviscid first-order residuals, local time steps, updates and runs of the explicit steady solver: C98_residual, C98_update, C98_run (the gas must leave the set faster than sound, on both sides of its rim, at every iterate). False for LLF, whose dissipation carries downstream states against the stream (C98_llf_refuted, on the two-square mesh). For the implicit solver (AUSM, HLL, HLLC or Roe Jacobians): the blocks of a supersonic face are those of the upstream state (C98_jacobian_*), the rows of the set have no entries outside it (C98_rows, C98_matrix), updates and runs with exact linear solves and constant CFL number do not depend on the rest (C98_implicit_update, C98_implicit_run). With viscosity the claim is false (C98_viscous_refuted): a downstream state acts upstream exactly if it changes the viscous flux of the face (C98_viscous_iff). At second order it is false too, since gradients read all neighbours (C98_second_order_refuted: Green-Gauss, linear reconstruction, AUSM, no viscosity, face crossed faster than sound by cell and face states); the influence reaches one layer of cells and no further in each iteration (C98_second_order_layer, C98_second_order_timestep, C98_second_order_run: explicit solver, linear reconstruction, all gradient schemes). |
| C99 | Independence of the units of mass and time | partial | FV/Units, FV/UnitsRun, FV/WenoFrames, Flux/Units, Par/ChartSecond | Proved: fluxes of all schemes (C99_flux), boundary states (C99_ghost), viscous fluxes, gradients, first-order residuals, second-order residuals with the unlimited reconstruction, time steps, iterations and runs of the explicit steady solver, also of second order with the unlimited reconstruction (C99_second_order_run_partial). False: WENO (C99_weno_refuted); the in/outflow boundary when the unit of density changes, because the free-stream pressure 1/(gamma M^2) presumes free-stream density 1 (C99_outflow_refuted); MUSCL, whose limiter adds 1e-8 to squared differences (C99_muscl_refuted); reported CFL numbers, ramped from a norm compared with 1 (C99_cfl_refuted). Implicit runs: C104. Not covered: the Barth-Jespersen and Venkatakrishnan limiters, undefined on every mesh with a physical boundary (C48_exact). |
| C100 | Mirror images, and slip walls as symmetry planes | proved | FV/Reflect, FV/ReflectMesh, FV/ReflectRun, Flux/Reflect | Inviscid, first order, as stated: the second-order and viscous terms use ghost centres mirrored through the face midpoint (C24), not at the axis. Runs assume admissible states along the way and gamma at least 4/3 (conservation of the HLLC and AUSM fluxes, C16). |
| C101 | Maximum principle of the diffusion solver | partial | FV/DiffMax, FV/DiffMaxEx | Thin-layer gradients on any mesh, every gradient scheme where lines of centres are along the normals; conductances nonnegative (true on meshes of convex counter-clockwise cells, C101_convex). Explicit: a step keeps all bounds exactly if CFL times time step times the sum of conductances is at most the area of each cell (C101_step_iff, C101_run); the code takes time steps from the longest face, so no CFL number is small enough for all meshes: on long rectangles the error at least doubles in each iteration and the run fails (C101_no_cfl_refuted). Implicit, exact linear solver: unconditional with correct boundary blocks (C101_implicit_doubled); with the half blocks of the code (C53) exactly if the boundary conductances of each cell are at most twice area over time step (C101_implicit_iff), so it fails on the unit square at every CFL number above a quarter (C101_implicit_refuted), but a quadratic measure never grows (C101_implicit_measure). Steady states: C101_steady. |
| C102 | Convergence of the steady diffusion solver | proved | FV/DiffConv, FV/DiffConvEx | The measure that decreases is the dissipation of the distance to the steady state (C102_implicit_step exact, C102_explicit_step); iteration counts in C102_implicit_run and C102_explicit_run; limits in C102_implicit_converges and C102_explicit_converges; existence and uniqueness in C102_steady, using that on meshes with positive areas every cell is connected to a boundary face (C102_reaches). The limit for explicit runs is exact on rectangles (C102_explicit_sharp), hence no CFL number serves all meshes (C102_no_cfl_refuted). The linear solver is taken as exact; gradient corrections on skewed meshes are not covered. |
| C103 | CFL numbers of a steady run | partial | Ode/History | Proved: C103_first, C103_bounds, C103_second, C103_later, C103_direction, closed form for falling norms (C103_falling), C103_final, and agreement of runs in different units where both first norms are at least one (C103_scaling_partial). False otherwise: the second iteration compares the first norm with the number one, so the implicit solver takes another path in other units (C103_scaling_refuted). |
| C104 | Independence of axes and units of the implicit solver | partial | FV/ChartBc, FV/ChartVisc, Flux/ChartJac, Par/ChartEx, Par/ChartInst, Par/ChartRun, Par/ChartSecond, Par/ChartSys | Proved for every chart (turn, reflection, units of density and velocity): Jacobians of LLF, HLL, AUSM, Roe and (for gamma at least 4/3) HLLC, viscous Jacobian, boundary Jacobians, the assembled first-order matrix, exact solves; for similarities of the mesh and for changes of units: iterations and runs of the implicit solver with full updates, viscous or not, of first order or of second order with the unlimited reconstruction. The CFL number must be constant, or the ramp must take the same first decision in both units: it compares the first norm with the number 1, and runs differ otherwise (C104_cfl_refuted). False with FlowSimpleUpdate: its pressure increment loops over energy instead of the first momentum, so that the factor depends on the axes (C104_relax_axes_refuted) and the unit of velocity (C104_relax_units_refuted); C104_relax_partial gives the charts that keep it. Not covered: runs on mirrored meshes, inexact solvers, states that are not admissible. |
| C105 | Residual history of a flow case | partial | Ctl/Monitor | Proved: contents of the file after a converged main solve (C105_lines), first and last line (C105_ends), reads within bounds in run and run_output (C105_safe), and exactly when a direct call of execute reads outside (C105_unsafe_iff). False for runs that do not converge: the exception comes before the file is written (C105_lost_refuted; C105_written_partial gives exactly the runs that leave a file). Wall times, counts of linear iterations and rounding are not modelled. |
| C106 | Search for a preconditioner | partial | Lin/Precond | Proved: error exactly for several blocks (C106_error_iff), found if present and untouched if not (C106_finds). The first one is found unless a multigrid preconditioner has the type on two levels but not in the coarse solver (C106_first_partial); then the last level wins (C106_first_refuted). |
| C107 | Text form of arrays | partial | Out/ArrayText | False for every array with contents: the writer leaves out the dimensions the reader expects (C107_round_trip_refuted). With the dimensions put in front the array is restored (C107_with_dimensions_partial). Integers only; rounding of printed floating-point numbers is not modelled. |
| C108 | Whole steady cases | partial | Par/Case, Par/CasePos, Par/CaseRuns | False of implicit cases in a stream without obstacles: the initial vector has residual zero and the case throws (C108_uniform_implicit_refuted). Several processes need an assignment that is non-decreasing along the cell numbering and registers all interface faces, implicit cases exact linear solvers, turned meshes no limiters. Positivity for van Leer's flux only. |
| C109 | Stationary shocks | proved | Flux/Shock, Par/WeakSteady | Inviscid, first order. HLLC across faces with the flow from right to left needs a ratio of specific heats of at least 4/3 (as C16 does). |
| C110 | Density carried along by a uniform stream | proved | Flux/Carried, Par/Carried | Inviscid, first order, explicit. The exceptions are part of the statement and proved as such: C110_ausm_refuted, C110_vanLeer_refuted, C110_run_refuted, C110_ratio_refuted. The in- and outflow condition keeps the stream if the stream's pressure is the free stream's. |
| C111 | Uniform total enthalpy in steady flow | proved | Flux/Enthalpy, Par/Enthalpy | Both parts. The errors of LLF, HLL, van Leer and HLLC between states of common total enthalpy are given exactly; Roe by a witness. Steady means a residual that is exactly zero. The example is a shock kept by AUSM+ between two cells. |
| C112 | Lift and drag of mirror images; no lift in symmetric flow | proved | Out/Lift | Runs: first order, inviscid, one process, gamma at least 4/3, admissible iterates (automatic for van Leer, C93). The example is a pair of streams that meet, on two cells. |
| C113 | Continuity; limits of runs are steady and reported | proved | Flux/Continuous, Par/Limit | The jump of the characteristic boundary is part of the statement: C113_inOut_iff says exactly where it is continuous, C113_inOut_refuted shows the flux jumping with still air on both sides. First order; one process. Limits and reports concern runs whose iterates converge; C114 supplies a family of such runs. |
| C114 | Convergence of the explicit solver in a uniform stream | proved | Par/Converge | Explicit solver, first order, inviscid, gamma at least 4/3; van Leer and AUSM are excluded since they disturb the pressure of such streams (C110). C114_at_rest shows that the sweeping stream is needed. |
| C115 | Objects are destroyed once and after their last use | partial | Life/Agree, Life/Props | Safety holds always (C115_safe). The second half fails in the code: the flux of the Jacobian is never deleted (C115_jacobianFlux_refuted), a repeated boundary tag loses a boundary object, a failed solve loses its vectors, a failed main solve its linear problem and update scheme (C115_main_refuted), and an exception leaving run or run_output the discretisations (C115_space, C115_starter). C115_run_partial and C115_output_partial list exactly what is left after a normal return. PETSc calls are taken to succeed. |
| C116 | The flow is the same for an observer moving along the face | partial | Flux/Boost, Flux/BoostIn | Proved for six fluxes (C116_flux_partial), the analytical flux, and slip, far-field, in/outflow, extrapolation and isothermal boundaries. Refuted for AUSM+, whose interface sound speed depends on the tangential velocity (C116_ausmPlus_refuted), and for moving adiabatic walls, whose ghost state keeps the interior energy (C116_adiabatic_iff, C116_adiabatic_refuted). Refuted at the subsonic inflow, which fixes the flow direction (C116_inflow_refuted). |
| C117 | Options of the option database are read as given | partial | Ctl/PetscOpts | Integers, reals and switches read by value are right (C117_int, C117_real, C117_bool). False in the code: an explicit false still selects the matrix-free solver (C117_matrixFree_refuted, exact condition C117_matrixFree_iff), strings and lists are cut silently (C117_string_iff, C117_ints_iff, C117_amg_refuted), a missing string leaves its buffer allocated (C117_buffer_iff). |
| C118 | Processes of a solver never wait for each other for ever | partial | Par/Async, Par/AsyncEarly, Par/AsyncHang, Par/AsyncMissing, Par/AsyncNb, Par/AsyncRun, Par/AsyncSecond | All four steady solvers, for every interleaving (C118_lockstep for any sequence of exchanges; C118_explicit, C118_implicit, C118_second_explicit, C118_second_implicit; with C88 and C100 the run of one process, the theorems *_single_partial). The exchange of face states as one operation agrees with the message protocol of C40 (C118_faces). Operations that complete for all at once are no restriction (C118_neighbours): the conclusions hold when in exchanges a process waits only for processes with cells next to its own (C118_waits_partial, for assignments of cells in the order of cell numbers), and contributions may be available from any moment at which they are determined (C118_early, C118_begin_partial), as they are when an exchange begins before it ends. False for the second-order unsteady solver, whose time step is that of the process's own cells: a rank waits for ever for one that has passed the final time (C118_unsteady_refuted, condition C118_unsteady_hangs). False also if a boundary condition is missing for faces of some processes only: those end by an exception and the others wait for ever (C118_missing_refuted, exact condition C118_missing_conditions). That the code ends an exchange of the solution after the global sum that the model has after it makes no difference, since the sum ends only when all have begun the exchange. |
| C119 | The check of interface faces accepts correct subdomains | partial | Par/ConnCheck | False in the code: the check compares the own cell with the left cell of the global face, which is the cell with the smaller number, so that of the two sides of each registered cut face one is always rejected (C119_rejects, C119_refuted). C119_iff gives the exact condition. The only call is a commented-out assertion. |
| C120 | Global sums have the sum over all processes as their result | partial | Par/Reduce | Right for the explicit solver with every conforming implementation (C120_explicit). The implicit solver, the force coefficients and the entropy error pass one buffer as both arguments, which MPI does not define: right for implementations that allow it (C120_same_partial, exact condition for the norm C120_implicit_iff), but there is a conforming implementation with which the norm is zero and every implicit run stops after its first iteration (C120_refuted). |
| C121 | Matrix-free products on several processes | partial | Par/MatrixFree, Par/MatrixFree2, Par/MatrixFree2Iff | Proved for assignments of cells in the order of cell numbers, first and second order, if the ghost blocks of the auxiliary vector are zero when made (C121_zeroed_partial, C121_second_order_zeroed_partial); for one process the operator is that of C60 (C121_one). The loop meant to clear these blocks runs over the wrong entries: the exact effect of what is left in them is C121_product_partial and C121_second_order_partial, the exact conditions C121_iff and C121_second_order_iff, and cases where the product is wrong C121_refuted and C121_second_order_refuted. Missing: other assignments of cells (false for the residual, C88_refuted). |
| C122 | The approximate viscous Jacobian is dissipative | partial | FV/ApproxVisc | Proved: quadratic form and dissipativity for every mesh, schedule and vector (C122_quadratic, C122_dissipative, the latter for constant viscosity). The blocks are never the derivative of the viscous flux, whose mass row is zero (C122_not_derivative). False that it applies to every face: at physical boundary faces it reads outside the array of cell centres (C122_defined_iff, C122_boundary_refuted). |

## Disagreements between code and properties

Each is a theorem; the C++ lines are cited at the definitions it uses.

* `C04_refuted`: C04 refuted: wherever the temperature is positive, different from 1, and varies with the state (always with the energy), the returned row is not the derivative of the viscosity.
* `C05_refuted`: C05 refuted: for fluid at rest and a pure energy (heating) update the result is wrong: there are an admissible state and an admissible update for which a wrong increment is returned.
* `C101_implicit_refuted`: C101 is false of the implicit solver with the code's matrix: on the unit square, without source and with an exact linear solver, a step at a CFL number above a quarter moves every solution to the other side of the boundary value, by a factor that tends to -1 as the CFL number grows. With the blocks at boundary faces doubled (their correct value, `C53_jacobian_boundary_refuted`) the factor is positive and tends to 0.
* `C101_no_cfl_refuted`: C101 is false of the explicit solver at every CFL number, because time steps are taken from the longest face of a cell and its diffusivity, and areas play no part: at any positive CFL number there is a rectangle on which each iteration moves the solution to the other side of the boundary value and at least twice as far away. The run fails after the maximum number of iterations for any tolerance below 1.
* `C102_no_cfl_refuted`: C102: no CFL number is small enough for all meshes: at each there is a rectangle in which explicit runs from anywhere but the boundary value do not tend to it.
* `C103_scaling_refuted`: C103 fails: for a first norm of one and of one sixteenth the implicit solver takes different CFL numbers, 1 and 2, in the second iteration and arrives at different states, although the two problems differ in the unit of the residual only.
* `C104_cfl_refuted`: C104 is false of runs whose CFL number may grow: for every mesh, gas, set of boundary conditions, initial state with a positive residual norm, exact linear solvers and full updates there are two units of length such that the implicit solver's second update uses the initial CFL number in one and a larger number in the other.
* `C104_relax_axes_refuted`: C104 is false of runs with `FlowSimpleUpdate`: its pressure increment leaves out the first momentum component (src/physics/aphysics_defs.hpp:74), so that the factor for the same update of the same state changes when the axes are turned by a right angle.
* `C104_relax_units_refuted`: C104 is false of runs with `FlowSimpleUpdate`: its pressure increment adds squares of momentum and of energy, so that the factor for the same update of the same state changes with the unit of velocity.
* `C105_lost_refuted`: C105 fails: a run that ends for want of iterations writes no history although residuals are recorded, while `run_output` returns normally; the exception of `SteadyFlowCase::execute` (src/utilities/casesolvers.cpp:394-395) comes before the file is written.
* `C106_first_refuted`: C106 fails: in a multigrid preconditioner with another coarse solver and smoothers of the type on all finer levels, which is the usual set-up, the last is found, on the finest level.
* `C107_round_trip_refuted`: C107 fails for every array with contents: `fprint` does not write the dimensions that `fread` expects, so that reading back what was written never gives the array, whatever it is read into.
* `C108_uniform_implicit_refuted`: C108 fails for implicit cases: with far field all around the initial vector is the exact solution, its residual is zero, and the case throws: `Tolerance_error` without a starting run, a `Numerical_error` with one.
* `C10_inOut_sonic_refuted`: C10 fails at exactly sonic outflow: the two routines return different ghost states whenever the interior pressure differs from the free-stream pressure.
* `C10_isothermal_refuted`: C10 refuted, isothermal wall: the ghost energy returned by the Jacobian routine agrees with the ghost state used by the residual exactly when the interior is at wall temperature.
* `C110_ausm_refuted`: C110 fails for AUSM: gas of density 1 before gas of density 4, both moving at the same quarter of the first speed of sound under the same pressure; the interface pressure is 215/256 of that pressure, since the Mach numbers differ.
* `C110_ratio_refuted`: Why LLF, HLL and Roe need bounded density ratios: air at rest under uniform pressure beside much lighter air. One step with CFL number 1, which takes the wave speeds of the own cell only, makes the density of the heavy air negative.
* `C110_run_refuted`: C110 fails for AUSM and van Leer's scheme: one explicit step leaves a state in the first square that does not have the velocity and pressure of the stream.
* `C110_vanLeer_refuted`: C110 fails for van Leer's scheme already for gas at rest: heat flows between gas of density 1 and gas of density 4.
* `C113_inOut_refuted`: C113 fails for the characteristic in- and outflow boundary: with still air inside, of the pressure of the free stream and another density, the flux through the boundary jumps as soon as there is any outflow.
* `C115_jacobianFlux_refuted`: C115, refuted: the flux of the Jacobian of the main discretisation (src/spatial/flow_spatial.cpp:320) is never destroyed, in any run which constructs it.
* `C115_main_refuted`: C115, refuted: a call of `run_output` whose main solve stops at its maximal number of iterations returns normally and leaves the linear solver and the matrix behind, though `execute_main` is documented to destroy all implicit solver objects after it is done (src/utilities/casesolvers.hpp:184-188).
* `C116_adiabatic_refuted`: C116 refuted for adiabatic walls: for gas at rest beside a wall moving with speed 1, seen from a frame moving along the wall, the ghost state is that of another flow.
* `C116_ausmPlus_refuted`: C116 refuted for AUSM+: its interface sound speed depends on the velocity along the face. Air at pressure 149 to the left and 5 to the right crosses the face with velocity 1; for an observer moving along the face with speed 12 the momentum flux through the face is different.
* `C116_inflow_refuted`: C116 refuted at the subsonic inflow: its ghost state always moves along the normal, so that an observer moving along the face never finds there the ghost state of the first observer, whatever total pressure and temperature each of them prescribes.
* `C117_amg_refuted`: C117 refuted: a fourth iteration listed for the interpolation is forgotten silently.
* `C117_buffer_refuted`: C117 refuted: if a mandatory string is missing the buffer stays allocated.
* `C117_matrixFree_refuted`: C117 refuted: `-matrix_free_jacobian false` selects the matrix-free solver.
* `C117_string_refuted`: C117 refuted: a value of eight characters read with length eight loses its last character, although the buffer allocated has room for it.
* `C118_missing_refuted`: C118 refuted: four triangles on two processes, with a boundary condition missing for the two sides that belong to the second process. Whatever the initial states, the second process ends by an exception, and every execution of the explicit solver comes to a point where the first waits for it for ever. On one process, or with the triangles dealt out so that each process has such a side, all end by the exception.
* `C118_unsteady_refuted`: C118 fails for the second-order unsteady solver. A square of four triangles, two on each of two ranks, interface faces registered, cell numbers in the order of the ranks; gas at rest, denser in the cells of rank 1. For every order, every positive CFL number and whatever the ranks send to each other, there are final times for which every execution comes to a point where a rank waits for ever for one that has ended.
* `C119_refuted`: C119, refuted: four triangles on two ranks. Rank 0 passes the check, rank 1 does not, though the records of both are correct.
* `C11_adiabatic_temperature_refuted`: C11 refuted for moving walls: fluid at rest next to a wall moving with tangential speed 1.
* `C120_refuted`: C120, refuted: there is a conforming implementation with which, on any number of processes and whatever their residuals, the implicit solver's norm and the entropy error are zero, and with which the solver therefore stops after the first iteration of every run that allows more than one, with any tolerance at all.
* `C121_refuted`: C121: the loop meant to clear the ghost blocks does not: with ones left in them the product of two processes is not that of one.
* `C121_second_order_refuted`: C121 refuted for the second-order discretisation: with Green-Gauss gradients and MUSCL on two ranks, ghost blocks that are not zero when made spoil the product; zero ones do not.
* `C122_boundary_refuted`: C122: at a boundary face of the example mesh the function reads outside the array.
* `C13_refuted`: C13 refuted: a subsonic inflow state (Mach 1/3 into the domain) with configured total pressure and temperature 1 gets a ghost state whose total temperature is not 1 and which leaves the domain.
* `C17_llf_refuted`: C17 fails for the local Lax-Friedrichs flux: it is not upwind for supersonic flow.
* `C18_ausmPlus_refuted`: C18 refuted for AUSM+: the routine is empty, so whatever the output arrays held is returned; for any states some previous contents are not the Jacobian.
* `C18_ausm_switch_refuted`: C18: a stationary contact (gas of density one beside gas of density four, both at rest at the same pressure) is a state where the AUSM flux has no derivative.
* `C18_hllc_switch_refuted`: C18: at the contact between gas of density one and gas of density four at rest at the same pressure the HLLC flux has no derivative.
* `C18_llf2_refuted`: C18 refuted for the second Lax-Friedrichs Jacobian: at density 7/5 the derivative of the spectral radius is wrong (`|vn/ρ²|` is used for `|vn|/ρ`).
* `C18_roe_refuted`: C18 refuted for Roe with the entropy fix active: at a stationary contact the mass row of the left block is not the derivative, because `l[ivar]` is overwritten by the fix before its derivative is computed.
* `C18_vanLeer_refuted`: C18 refuted for Van Leer: the Jacobian routine always throws.
* `C20_roe_refuted`: So the Roe flux does not preserve stationary contacts.
* `C21_low_gamma_refuted`: C21 refuted for ratios of specific heats close to 1: the contact speed is outside the signal speeds for admissible states of a gas with `γ = 26/25`.
* `C24_small_angle_refuted`: C24: below the threshold the ghost centre is not exactly the mirror image: a face inclined by `1e-12`.
* `C26_nonmanifold_refuted`: C26: the manifold assumption is needed: with three cells on one edge, cell 0 records cell 2 but cell 2 records cell 1.
* `C28_orphan_refuted`: C28: a boundary face whose nodes lie in no common cell is not diagnosed: undefined behaviour.
* `C30_refuted`: C30 fails: swapping the two cells of the hybrid mesh leaves the region tags behind.
* `C31_refuted`: C31 fails in general: the already paired third face is paired again, so that face 0's ghost is the interior cell of face 2 but face 2's ghost is the interior cell of face 1.
* `C32_no_cells_refuted`: C32: a mesh without cells cannot be read back (the reader accesses the first cell's node count).
* `C35_isolated_refuted`: C35 fails for a boundary cell without real neighbours: an uninitialised weight is read.
* `C38_one_sided_refuted`: C38 fails asymmetrically: with one cell per rank, the face between cells 0 and 1 is registered on the rank of cell 1, which will wait for cell 0's values, but not on the rank of cell 0.
* `C38_refuted`: C38 fails: on the unit square cut into two triangles, distributed to two ranks by the trivial partitioner, the diagonal is not registered as an interface face on either rank, since both end points lie on boundary faces of each.
* `C40_refuted`: C40 fails on some partitions: for the fan with one cell per rank, rank 1 lists rank 0 as a neighbour but not conversely, so rank 1 waits for ever; no schedule lets it finish even the index exchange.
* `C44_refuted`: C44 refuted: on the mesh of a quadrilateral and a triangle, whose quadrilateral has three boundary faces, two threads can compute wrong gradients of a constant field.
* `C47_muscl_exact_refuted`: The exact claim fails: between two cells of equal value, with a small gradient, the face value exceeds both.
* `C48_refuted`: C48 refuted: on the mesh of a quadrilateral and a triangle both limiters read beyond the allocated rows.
* `C50_ausm_switch_refuted`: C50: a stationary contact between the two cells of the example mesh: the mass residual of the first cell has no derivative with respect to the state of the second.
* `C50_hllc_switch_refuted`: C50: a stationary contact between the two cells of the example mesh: with HLLC the mass residual of the first cell has no derivative with respect to the state of the second.
* `C53_refuted`: C53 refuted: on the example mesh the assembled diagonal block of cell 0, which has three physical boundary faces, is not the derivative of the thin-layer residual, whatever the number of threads and the schedule.
* `C55_refuted`: C55 fails: an update of the x-momentum goes unnoticed, the full step is taken, and the pressure becomes negative.
* `C56_last_iteration_refuted`: C56 fails: with three iterations allowed the tolerance is met in the third, but failure to converge is reported.
* `C56_zero_residual_refuted`: C56 fails: started from an exact solution (for instance the free stream, `C47`), the implicit solver reports that it blew up.
* `C57_refuted`: C57 fails: with a residual that halves, the third iteration reports a larger CFL number than it uses.
* `C58_refuted`: C58 fails for each order: already on `du/dt = u` a step of any positive size is not the Taylor polynomial, and the solution decreases where it should grow.
* `C61_refuted`: C61 fails: a cell with three interface faces needs three blocks of other processes, one is preallocated.
* `C62_copy_refuted`: C62 fails if a handle is copied, which the compiler allows: the array is released by both, and the original remains accessible after the first release.
* `C62_failed_acquire_refuted`: C62 fails if PETSc refuses the array: the handle still releases it on destruction, and in the constructor of a ghosted handle the local form is never released.
* `C64_refuted`: C64 fails for the documented control file: it asks for the WENO reconstruction, which needs the parameter, and gives a value for it, but the value handed on is undefined. Without the optional section the flag which is tested before the starting solve is undefined.
* `C65_flux_refuted`: C65 fails for fluxes and reconstructions: every unsupported name gives a null pointer, through which the residual calls.
* `C65_gradient_refuted`: C65 fails for gradients: every unsupported name is taken to mean no gradients.
* `C66_concrete_refuted`: C66 fails, with a concrete solve: the iteration of `Ode.halving` stopped by too few iterations.
* `C66_refuted`: C66 fails: the driver of src/fvens_steady.cpp (:49) calls `run_output`, which returns normally when the main solve blew up or did not converge. Without an output wall it is undefined even after success.
* `C67_refuted`: C67 is refuted: on every mesh with positive cell areas, at every node of a cell and for every spatially constant field of nonzero density, the written density is not that of the field.
* `C67_scalar_refuted`: Two cells: undefined.
* `C68_nine_refuted`: C68 is refuted for nine-node cells: every mesh having one is written by the mesh writer with a type of eight nodes.
* `C68_refuted`: C68 is refuted for the mesh writer: a square followed by a triangle is read back with the wrong nodes for the triangle.
* `C69_friction_sign_refuted`: C69 is refuted for the friction drag: for shear flow along a plate the force on the plate is along the flow, the coefficient negative.
* `C69_rows_refuted`: A single triangle with three wall faces: the array passed by `run_output` has one row.
* `C69_viscosity_law_refuted`: C69: skin friction is always computed with Sutherland's viscosity, also if the flow is computed with constant viscosity (`1/Re`): at four times the free-stream temperature the two differ, for every gas.
* `C70_self_assign_refuted`: C70 is refuted for self-assignment in release builds: in every reachable world and for every array, all elements become indeterminate.
* `C72_node_numbers_refuted`: C72 fails for node numbers that are not 1, 2, … in order: the numbers in the node section are discarded, so a file numbering the same nodes differently is read as the same mesh.
* `C72_order_refuted`: C72 fails for files listing a cell before a boundary face, which the format allows: the triangle's row is taken for the boundary face, the face's row for the cell, which gets no vertices.
* `C73_refuted`: C73 refuted for Sutherland's law: air at rest on the right, moving on the left with temperature 21/40.
* `C74_refuted`: C74 fails for partitions not sorted by rank. Of the square's four triangles, let 0 and 2 be on rank 0 and 1 and 3 on rank 1. The ghost block of the face between cells 0 and 1 on rank 0 then holds the value of cell 2, which is rank 0's own.
* `C76_refuted`: C76 fails for other assignments of cells to ranks. The square's triangles 0 and 2 are on rank 0, 1 and 3 on rank 1; all interface faces are registered and all states are admissible. The gas is at rest with density 2 in cell 1 and 1 elsewhere. Rank 0 leaves the residual of cell 0 unchanged, the single process adds a mass flux.
* `C77_refuted`: C77 fails on several ranks. With triangles 0, 1 of the square on rank 0, its extracted mesh is conforming; after swapping the two cells the interface record of one cell names the face between the two.
* `C78_refuted`: C78 refuted for the single answers: vertex lists and faces per cell are reported equal though they differ, because the loop stops at the first cell with another number of vertices.
* `C78_smaller_refuted`: C78: with fewer points or boundary faces in the second mesh nothing is answered: the loops run to the counts of the first mesh and read behind the end of the second.
* `C79_refuted`: C79 refuted for files with unused points: the check of debug builds is undefined.
* `C80_mesh_size_refuted`: C80 refuted for the mesh size: with four cells on two processes each process reports the size of a mesh of two cells.
* `C82_refuted`: C82 fails for other assignments of cells to ranks. The square's triangles 0 and 2 are on rank 0, 1 and 3 on rank 1; the gas is uniform and at rest, the Jacobian is the local Lax-Friedrichs one. The vector `x` is one in the density of cell 1 and zero elsewhere. The single process finds that it changes the mass balance of cell 0, a neighbour of cell 1; the distributed product is zero in that cell's position.
* `C83_ausm_refuted`: C83 fails for AUSM at every stationary contact between different densities.
* `C83_hllc_refuted`: C83 fails for HLLC at every stationary contact between different densities.
* `C83_roe_refuted`: C83 fails for Roe at every stationary contact between different densities.
* `C84_dimension_refuted`: C84 fails for three-dimensional files: they are read without complaint, and the coordinates of the points get mixed up. The points of this file are (0,0,0), (1,0,0) and (0,1,0).
* `C84_empty_marker_refuted`: C84 fails for an empty marker before another one: dropping "the rest of the line" drops the tag of the next marker, its number of faces is taken as the tag, and the search for the number of faces runs into the end of the file.
* `C84_type_refuted`: C84 fails for unknown types of elements: a tetrahedron is read without complaint as a cell without nodes.
* `C88_refuted`: C88 fails for other assignments of cells to ranks. The square's triangles 0 and 2 are on rank 0, 1 and 3 on rank 1; all interface faces are registered and the state is admissible: after one iteration with any positive CFL number the ranks hold another state than the single process.
* `C89_refuted`: C89 fails. A square of four triangles, two on each of two ranks, interface faces registered, cell numbers in the order of the ranks; gas at rest, denser in the cells of rank 1. For every order and every non-zero CFL number the first step takes the two ranks to different physical times, and the resulting state is not that of the single process.
* `C90_refuted`: C90 fails for coarse meshes: the square cut into two triangles is a proper file; on two ranks, without any reordering, construction succeeds but the meshes of both ranks miss the face between them.
* `C90_reordering_refuted`: C90 fails with reordering on several ranks: the square cut by its diagonals on two ranks; swapping the two cells of rank 0 leaves its interface records behind, and construction succeeds with a mesh that is not conforming.
* `C92_one_column_refuted`: The claim that the element is always well formed fails: a vector of one column is announced with three components.
* `C93_cfl_one_refuted`: C93 fails at CFL number 1 for every other scheme: air in two unit squares, extrapolation on all boundaries. One explicit step leaves a state of non-positive density or pressure in the first square.
* `C94_cfl_unit_refuted`: C94 fails for the CFL numbers: on every mesh and from every state whose first residual norm is not zero, there are two units of length such that the CFL number reported by the explicit steady solver in its second iteration is the initial value for one and larger for the other. (The implicit solver takes its CFL number from the same ramp and also uses it: `C94_second_cfl`.)
* `C94_muscl_refuted`: C94 fails for the MUSCL reconstruction, which limits the two velocity components separately: on every mesh and every interior face with distinct centres there are cell values and gradients whose face state is not turned along with the mesh (here by the angle with cosine 3/5 and sine 4/5).
* `C94_weno_refuted`: C94 fails for the WENO reconstruction if the unit of length changes or the axes are turned by an angle that is no multiple of the right angle: on every mesh and every interior face there are cell values and gradients whose face state is not turned along with the mesh.
* `C95_converged_refuted`: The full claim, that a run reported as converged has come near a steady state, fails. The square's four triangles hold gas at rest of equal energy, with density 2 in cell 1 and 1 elsewhere; all data are admissible. The energy residual is zero everywhere, so the explicit solver reports convergence after one iteration for every tolerance below one, every iteration limit above one and all CFL numbers. Mass flows into cell 0, and each further explicit update would change the state.
* `C97_all_schemes_refuted`: The full claim, for every flux scheme, fails: with LLF the square's gas does not stay.
* `C97_inflow_refuted`: C97 refuted for subsonic inflows: uniform air at rest in the square does not stay at rest, whatever total pressure and temperature are prescribed, its own among them: all cells lose mass.
* `C97_isothermal_refuted`: C97 refuted for isothermal walls: gas at rest under one pressure, with density 2 in one of the four triangles of the square, within isothermal walls at rest at the temperature of the other triangles, does not stay at rest with any of the three schemes that keep contacts; uniform gas does.
* `C98_llf_refuted`: The full claim, for every flux scheme, fails: with LLF the second square, entered at Mach 4, acts on the first.
* `C98_second_order_refuted`: The full claim of C98 fails at second order (Green–Gauss gradients, linear reconstruction, AUSM, no viscosity): the face between the two cells of the example mesh is crossed faster than sound, on both sides, by the cell states and by the face states; denser gas downstream still changes the residual upstream.
* `C98_viscous_refuted`: The full claim of C98 fails for viscous flow: air at Mach 4 in both cells; replacing the state downstream by Mach 5 changes the residual upstream.
* `C99_cfl_refuted`: C99 fails for the CFL numbers: from every state whose first residual norm is not zero there are two units of velocity with which the CFL number reported in the second iteration is the initial value for one and larger for the other.
* `C99_muscl_refuted`: C99 fails for the MUSCL reconstruction: van Albada's limiter adds the number 1e-8 to squared differences of density, velocity and pressure. On every mesh, for every interior face: densities 1 and 1.0001 and zero gradients give the left face density 1, in units with half the numbers more than half of it.
* `C99_outflow_refuted`: With a unit of density other than the free-stream density the subsonic outflow state is a different one.
* `C99_weno_refuted`: C99 fails for the WENO reconstruction with every change of the units of density or velocity: on every mesh and every interior face there are cell values and gradients whose face state in the other units is not the face state.

## Wrong programs

`seeded/LOG.jsonl` has one line per wrong program tried: the definition edited, the edit, the property it breaks, the theorems whose proofs failed (other theorems were
kept by replacing failed proofs with `sorry` in the scratch copy), the claim theorems lost directly or through dependence, and the theorems tightened or added because the
edit had not been noticed. Findings that led to changes:

* The exponent in the entropy was used by no theorem: `C80_*` added.
* Exchanging the virtual functions called for two boundary kinds was seen only by construction theorems: `C14_effect` relates configuration and ghost state.
* The factor in the conductivity was seen only through the Jacobian: `C81_*` states Fourier's law with the Prandtl number.
* Exchanging two names of boundary types was seen only by an example, since the specification used the model's table: `C63_*` and `C65_boundary` now have their own table.
