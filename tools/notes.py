"""Status and note per property, used by manifest.py."""
NOTES = {
'C01': ('proved', 'Real arithmetic; density nonzero, gamma not 1.'),
'C02': ('proved', 'Memory model with aliased pointers.'),
'C03': ('proved', 'Frechet derivatives on R^4 for each routine.'),
'C04': ('partial', 'False in the code: C04_refuted. The partial theorem gives the condition under which the routine is right.'),
'C05': ('partial', 'False in the code: C05_refuted; C05_deltaPressure_correct_iff gives the exact condition.'),
'C06': ('proved', ''),
'C07': ('proved', ''),
'C08': ('proved', ''),
'C10': ('partial', 'Proved for far field, extrapolation, slip wall, adiabatic wall and in/outflow away from the switches. False for the isothermal wall (C10_isothermal_refuted; its energy row in full: C10_isothermal_row) and at exactly sonic outflow (C10_inOut_sonic_refuted).'),
'C11': ('partial', 'Velocity and isothermal temperature proved. Adiabatic temperature only for walls at rest: exact condition and refutation for moving walls. General-velocity wall reads out of bounds.'),
'C12': ('proved', ''),
'C13': ('partial', 'False in the code: C13_refuted, C13_ghost_never_inflow; the partial theorem is the exact condition.'),
'C14': ('proved', 'Success exactly for supported kinds with enough parameters; too few parameters is undefined behaviour and periodic throws.'),
'C09': ('proved', 'All seven schemes.'),
'C15': ('proved', 'All seven schemes.'),
'C16': ('proved', 'All seven schemes; HLLC for gamma >= 4/3 and unit normals (tie-breaking at zero contact speed uses the Rankine-Hugoniot relations).'),
'C17': ('proved', 'Van Leer, AUSM, AUSM+, HLL, HLLC, Roe. Local Lax-Friedrichs is refuted (C17_llf_refuted), as expected for a central scheme with dissipation.'),
'C18': ('partial', 'Exact: AUSM (interface Mach number nonzero), HLLC (no switch at its threshold), Roe without active entropy fix; block sums at equal states for all schemes having a Jacobian; Lax-Friedrichs and HLL are derivatives with frozen wave speeds, as documented. False: Roe with active entropy fix (the error of the coded eigenvalue derivative and the exact condition under which it vanishes are proved; where the averaged normal velocity vanishes the mass row is right exactly if the density jump is that of an acoustic wave: C18_roe_contact_iff, C18_roe_contact_right_iff), second Lax-Friedrichs variant for density other than 1, Van Leer (throws), AUSM+ (leaves the output untouched).'),
'C19': ('proved', 'All seven schemes.'),
'C20': ('proved', 'AUSM, AUSM+, HLLC. Roe with its entropy fix diffuses contacts (C20_roe_diffuses_contact, C20_roe_refuted).'),
'C21': ('proved', 'For gamma >= 4/3; C21_low_gamma_refuted shows the hypothesis is needed.'),

'C22': ('proved', 'Real arithmetic; closedness for cells whose faces have nonzero length.'),
'C23': ('proved', 'Triangles and quadrilaterals; other cells leave the area unset (C23_unset_iff).'),
'C24': ('partial', 'Midpoint variant exact. Face-line variant exact unless a direction component of the face is below 1e-12 in size without being zero: C24_small_angle_refuted; C24_face_error bounds the deviation.'),
'C25': ('proved', ''),
'C26': ('proved', 'Completeness and symmetry on manifold meshes (no face in three cells); C26_nonmanifold_refuted shows the hypothesis is needed.'),
'C27': ('proved', ''),
'C28': ('proved', 'Exact conditions for success, error and undefined behaviour; C28_orphan_refuted exhibits the undefined case.'),
'C29': ('proved', ''),
'C30': ('partial', 'Vertices, counts, geometry and adjacency follow the cell. Region tags do not: C30_refuted, exact condition C30_iff.'),
'C31': ('partial', 'Symmetric if each periodic face has at most one candidate within the tolerance; C31_refuted gives three faces where it is not.'),
'C71': ('proved', 'Conforming meshes as defined by Msh.Conforming.'),

'C32': ('proved', 'Token level; meshes of triangles and quadrilaterals with at least one cell and at most 21 tags. Meshes without cells cannot be read back (C32_no_cells_refuted).'),
'C33': ('proved', 'Meshes of triangles and quadrilaterals.'),
'C34': ('proved', 'For any symmetric adjacency, and for every pre-processed conforming mesh with adjacency meaning a shared face (C34_mesh_levels); maximal and unique; undefined exactly if a cell other than the last has a face without neighbour, as before face construction.'),
'C35': ('proved', 'For any sorting of equal weights and any vertex ordering delivered by PETSc. Cells without real neighbours lead to an uninitialised read (C35_isolated_refuted).'),
'C72': ('partial', 'Correct if boundary faces come first and nodes are numbered consecutively; otherwise refuted.'),

'C36': ('proved', ''),
'C37': ('proved', 'For conforming global meshes with at most four boundary tags per face, any assignment of cells to ranks.'),
'C38': ('partial', 'Registered faces are correct; a face between ranks is registered iff an end point is off the rank\'s physical boundary (C38_all_iff). Refuted for the unit square of two triangles on two ranks (C38_refuted) and one-sidedly (C38_one_sided_refuted).'),
'C39': ('proved', ''),
'C40': ('partial', 'For every schedule, number of ranks and set of agreeing interface tables; tables agree whenever all interface faces are registered (C40_tables). With one-sided registration a rank waits for ever (C40_refuted). MPI assumed reliable and non-overtaking, sends assumed buffered.'),
'C41': ('proved', 'Assembly loop over the face list of any conforming (sub)mesh; sums exact (real numbers or any commutative group).'),
'C42': ('proved', 'Threads interleave arbitrarily under sequentially consistent memory; any distribution of faces. Also the converse: unprotected updates of a shared location lose contributions in some execution.'),
'C44': ('partial', 'False in general: boundary and connectivity loops update without atomics (C44_refuted). C44_exact: correct for all schedules exactly if no cell has two boundary or two connectivity faces.'),
'C45': ('proved', 'Green-Gauss: constants and linearity. WLSQ: exact for linear fields iff-condition on stencil, linearity, unique minimiser; both also as the option the residual uses. Exact arithmetic.'),
'C46': ('proved', 'Linear, MUSCL and WENO reconstruction of linear fields from exact gradients; limited schemes for vanishing gradients; face states and fluxes of the second-order residual for linear fields, by option. Exact arithmetic.'),
'C47': ('proved', 'Bounds for Barth-Jespersen where defined (see C48); Van Albada and Venkatakrishnan in [0,1]; Venkatakrishnan with K > 0 can overshoot (C47_venkatakrishnan_overshoot).'),
'C48': ('partial', 'False: Barth-Jespersen and Venkatakrishnan read rows beyond the array at physical boundaries (C48_refuted); C48_exact: defined exactly if there is no physical boundary face. The other schemes are safe (C48_partial).'),
'C49': ('proved', 'Positive lambda (not set by the control file parser, see C64).'),
'C52': ('proved', 'Continuity of the state enters as distinct cell centres; flux of rigid motion and uniform fields vanishes; temperature row uses the exact chain rule.'),
'C73': ('partial', 'False with Sutherland viscosity: the coded derivative of the viscosity is wrong (C73_refuted, C73_exact gives the exact condition); fully proved for constant viscosity.'),
'C43': ('proved', "First order and second order with every gradient scheme where defined; Barth-Jespersen and Venkatakrishnan where defined (C48). Other ranks' data are parameters; the sent states are shown uniform. Exact arithmetic."),
'C51': ('proved', 'Exact arithmetic; admissible face states, positive area of the cell.'),
'C50': ('partial', 'Derivative of the first-order residual for every exact flux and boundary Jacobian, schedule independence, column sums, numbering with ghost columns; end to end for AUSM with far-field boundaries. Distributed assembly is C82.'),
'C53': ('partial', 'Boundary value, conservation, consistency and interior blocks proved. Boundary blocks are half of the derivative because the dependence of the ghost state is ignored: C53_refuted, exact condition C53_jacobian_iff; with doubled boundary blocks the matrix is the derivative (C53_jacobian_doubled). Source terms depending on the solution are not in the Jacobian.'),
'C54': ('proved', 'Both ramps of aodesolver.cpp over the reals: bounds, end values, monotonicity in the iteration (linear ramp) and in the residual ratio.'),
'C55': ('partial', 'Range and density part proved; pressure part proved where the coded pressure increment is right (C05_deltaPressure_correct_iff) and refuted in general by C55_refuted (an x-momentum update is not seen, full step, negative pressure).'),
'C56': ('partial', 'Termination, iteration bound, exact reporting for every residual history proved for both solvers. Refuted: tolerance met in the last allowed iteration is reported as failure (C56_last_iteration_refuted); the implicit solver reports an exact initial state as blown up (C56_zero_residual_refuted). Residual, linear solver abstract.'),
'C57': ('partial', 'Refuted for the explicit solver (C57_refuted: it always uses the initial CFL number); holds with equal limits, and for the implicit solver.'),
'C58': ('partial', 'Refuted (C58_refuted, C58_step: every order reduces to one reversed Euler step); the coefficient table itself is right (C58_table_partial). Time loop: end time, termination, divergence for order zero.'),
'C59': ('proved', 'All schedules and thread counts; blocked and scalar variant agree. Global cell numbers are assumed distinct.'),
'C60': ('proved', 'Exact for affine residuals, limit and error bound for differentiable ones; zero direction undefined; the effect of ghost entries left uncleared by the wrong loop bounds is characterised exactly (C60_ghost_iff); the statement assumes they are zero, as on one process.'),
'C61': ('partial', 'Diagonal part proved on all conforming meshes; off-diagonal part refuted (C61_refuted) with exact condition C61_offdiagonal_iff; C61_row_partial for cells with one interface face.'),
'C62': ('partial', 'Proved for every program over any number of handles in which attaching succeeds and no handle is copied; refuted for a failing PETSc call (the array is released although it was not acquired, the local form leaks in the constructor) and for the implicit copy constructor.'),
'C63': ('proved', 'Termination, the exact list read, and exactly when an exception is thrown, for every property tree; reading the file into the tree and text-to-number conversions are abstract.'),
'C64': ('partial', 'Documented places and defaults proved for every accepted file; exact characterisation of the undefined members; refuted for the control file in doc/, whose limiter parameter is never read, and for files without the optional section.'),
'C65': ('partial', 'Selection by name proved for all strings; refuted for unsupported names: null pointers for fluxes and reconstructions, silently no gradients. Nonlinear updates and boundary types are right.'),
'C66': ('partial', 'run reports failures exactly; run_output, which the driver calls, returns normally after non-convergence and blow-up (refuted, with exact characterisation).'),
'C67': ('partial', 'Velocity, Mach number and temperature averages proved for all meshes and fields; refuted for density and pressure, written as exactly a quarter of the average, and the scalar version reads out of bounds for any mesh of two or more cells.'),
'C68': ('partial', 'The data writer is proved to round-trip every hybrid mesh; writeMeshToVtu has right offsets exactly when all cells have the same node count (refuted for hybrid meshes).'),
'C69': ('partial', 'Pressure forces proved for all closed surfaces, rotations and orientations; friction drag comes out with the wrong sign (refuted), Sutherland viscosity is used even with constant viscosity, and output passes too many rows.'),
'C70': ('partial', 'Memory safety of every legal program, index injectivity, independence of copies, assignment, move, resize and no leak proved; self-assignment in release builds loses all elements (refuted).'),
'C74': ('partial', "PETSc's layout (owned blocks in rank order) against ghost indices taken from the global numbering: exact value of each ghost block for every partition, correct for all fields iff no ghost cell is displaced, hence for every assignment non-decreasing along the numbering and the trivial partition; refuted for others."),
'C75': ('proved', 'Gradients (all schemes), first-order residual, face states of all reconstructions and second-order residual and time steps agree on local copies.'),
'C76': ('partial', 'First and second order, every gradient and reconstruction scheme and any interleaving proved for assignments non-decreasing along the numbering with all interface faces registered; refuted for others on a four-cell mesh.'),
'C77': ('partial', 'Single process, every permutation, first and second order, residuals and whole explicit and implicit steady runs (implicit: exact linear solvers, regular systems, mirrored flux Jacobians, C83); with interface faces the renumbered mesh is valid iff the permutation maps recorded faces to recorded faces (C77_iff), refuted for a two-process mesh (C77_refuted): interface records are not renumbered.'),
'C78': ('partial', 'All-positive answers iff the meshes agree; sizes, boundary faces and coordinates correct one by one. Refuted for the single answers on cells and when the second mesh is smaller.'),
'C79': ('partial', 'Identity proved when every point belongs to a cell; with unused points the check of debug builds is undefined (C79_check, C79_refuted).'),
'C80': ('partial', 'Entropy error proved for all distributions; the mesh size is that of the process, refuted for more than one (C80_mesh_size_refuted).'),
'C81': ('proved', 'Both orders, constant and Sutherland viscosity.'),
'C82': ('partial', 'For assignments of cells to ranks that follow the cell numbering and Jacobian routines that treat the sides of a face alike at the given states (all states for LLF and HLL, C83): all blocks, own rows only, products. Refuted for other assignments: rows and columns are named by cell numbers, vectors are laid out by rank.'),
'C83': ('partial', 'All states for LLF and HLL; AUSM for non-zero interface Mach number, Roe where no averaged wave speed vanishes, HLLC away from ties of wave speeds. Refuted for AUSM, Roe and HLLC at every stationary contact between different densities.'),
'C84': ('partial', 'All files of triangles and quadrilaterals in which at most the last marker is empty, and their conversion. Refuted: an empty marker before another one derails the reader; three-dimensional files and unknown types of cells are accepted. Named markers throw, as documented.'),
'C85': ('proved', 'All lists of boundary faces; where several faces begin (or end) at a point the last of them is kept.'),
'C86': ('proved', 'Every mesh and every outcome of findLines; error codes of PETSc and preallocation not modelled.'),
'C87': ('proved', 'First order: every admissible state. Second order: reconstructed wall states must be admissible; viscous energy needs ghost centres on the wall normals (mirror images, C24). The time integration is the one in the code, including its wrong sign (C58).'),
'C88': ('partial', 'First- and second-order discretisation (any gradient and reconstruction scheme), inviscid and viscous, every number of ranks, whole runs, assignments non-decreasing along the cell numbering that register all interface faces (the trivial partition among them). Refuted for interleaved assignments (ghost positions, C76).'),
'C89': ('partial', 'Refuted: each rank takes the smallest time step of its own cells and never updates ghost blocks. Proved: rank time steps bound the single one from above and one attains it; ghost blocks keep their initial values; exact condition for the first step to agree; whole runs agree with all cells on one rank.'),
'C90': ('partial', 'Every proper file, any number of ranks, no reordering, faces between ranks with an end off the boundary; any permutation on one rank; exact meaning of the options and file names. Refuted: coarse meshes (C38) and reordering on several ranks (C77) silently give meshes that are not conforming. PETSc orderings are parameters.'),
'C91': ('proved', 'Exact condition for definedness (boundary faces must carry markers) and for an undefined last line (no face with the marker) in C91_defined_iff, C91_trailer_iff. Rounding to six digits is not modelled.'),
'C92': ('partial', 'Refuted for vectors with one column (C92_one_column_refuted), exact condition C92_wellformed_iff; everything a run writes is well formed (C92_run).'),
'C93': ('partial', "First order, inviscid, 4/3 <= gamma <= 3. C93_step_partial: one iteration keeps a cell positive for local Lax-Friedrichs, van Leer, HLL and HLLC if the CFL number times the sum of the rates at which the faces take the state away (half the larger wave speed; c - vn for van Leer; minus the left signal speed for HLL, HLLC) does not exceed the sum of the cell's own wave speeds. For van Leer's flux this holds at every CFL number from 0 to 1 whatever the states (C93_vanLeer_partial), hence for whole runs (C93_run_partial) and, with C88, for runs on several processes (C93_several_partial). C93_llf_partial: factor between wave speeds that suffices. Refuted for every other scheme at CFL number 1 (C93_cfl_one_refuted): the time step uses the wave speeds of the cell alone, not those beyond its faces. Boundary conditions with positive ghost states: slip, extrapolation, far field, inflow-outflow, adiabatic wall at rest."),
'C10': ('partial', 'Proved for far field, extrapolation, slip wall, adiabatic wall and in/outflow away from the switches, for the routine the constructed object calls (C10_object). False for the isothermal wall (C10_isothermal_refuted; its energy row in full: C10_isothermal_row) and at exactly sonic outflow (C10_inOut_sonic_refuted).'),
'C18': ('partial', 'Exact: AUSM (exactly where the interface Mach number is nonzero, or both sides leave the face at no less than the speed of sound, or both carry the same; elsewhere, e.g. at a stationary contact, the flux has no derivative at all: C18_ausm_exact_iff, C18_ausm_no_jacobian, C18_ausm_switch_refuted), HLLC (no switch at its threshold; at a stationary contact the mass flux has a derivative exactly if the densities are equal: C18_hllc_contact_iff, C18_hllc_switch_refuted; wherever the contact stands still, exactly if the densities beside it agree or its speed has zero derivative: C18_hllc_switch_iff, so at slip walls it has one: C18_hllc_wall), Roe without active entropy fix, the edge of the fix included (C18_roe_edge_exact; the flux itself has a derivative between all admissible states: C18_roe_smooth), Roe between states mirrored at a slip wall although the entropy fix is active there (C18_roe_mirror); block sums at equal states for all schemes having a Jacobian; Lax-Friedrichs and HLL are derivatives with frozen wave speeds, as documented. False: Roe with active entropy fix (the error of the coded eigenvalue derivative and the exact condition under which it vanishes are proved; where the averaged normal velocity vanishes the mass row is right exactly if the density jump is that of an acoustic wave: C18_roe_contact_iff, C18_roe_contact_right_iff), second Lax-Friedrichs variant for density other than 1, Van Leer (throws), AUSM+ (leaves the output untouched).'),
'C50': ('partial', 'Derivative of the first-order residual for every exact flux and boundary Jacobian, schedule independence, column sums, numbering with ghost columns; end to end for AUSM, Roe and HLLC with slip walls (every admissible state), insulated walls, far fields, extrapolation and in/outflow (C50_boundaries), inviscid or with constant viscosity, away from the switches of the scheme at the other faces. False at the switch of AUSM: where the interface Mach number of a face vanishes the residual has a derivative with respect to the neighbour exactly if both sides carry the same or leave the face at no less than the speed of sound (C50_ausm_switch_iff), and at a stationary contact it has none (C50_ausm_switch_refuted). With any scheme the residual has a derivative with respect to a neighbour exactly where the flux between them has one (C50_neighbour_iff); with HLLC, where the contact stands still, the mass residual has one exactly if the densities beside the contact agree or the contact speed is flat (C50_hllc_switch_iff), and at a stationary density jump it has none (C50_hllc_switch_refuted). Roe has no such switch: the residual has a derivative with respect to a neighbour at all admissible states (C50_roe_smooth), though with active entropy fix the coded block is not that derivative (C18). Missing: the other switches of HLLC, Roe at no-slip walls, Sutherland viscosity (C04), isothermal walls (C10). Distributed assembly is C82.'),
'C94': ('partial', 'Proved without conditions on the states for boundary states, all fluxes, the viscous flux, gradients, time steps, the first-order residual (inviscid and viscous), the second-order residual with the unlimited reconstruction, and whole runs of the explicit steady solver on one process, of first order and of second order with the unlimited reconstruction (C94_second_order_run_partial). False: WENO, whose weights compare squared gradients with 1e-5 (C94_weno_refuted); the MUSCL reconstruction limits the velocity components separately (C94_muscl_refuted); the CFL ramp compares the first residual norm with the number 1, so that the reported CFL number (and the one used by the implicit solver, C94_second_cfl) depends on the unit of length (C94_cfl_unit_refuted). Implicit runs: C104. Not covered: the Barth-Jespersen and Venkatakrishnan limiters, which are undefined on every mesh with a physical boundary (C48_exact).'),
'C19': ('proved', 'All seven schemes; C19_every_state without any condition on the states.'),
'C95': ('partial', 'Proved: fixed points of explicit updates and of Runge-Kutta steps are exactly the steady states; the norm vanishes exactly where the energy residual does; both solvers stay at steady states. False: the norm counts the energy equation only, and the explicit solver reports convergence after one iteration from a state whose mass residual does not vanish (C95_converged_refuted); started at a steady state the implicit solver ends with a numerical error (C95_free_stream).'),
'C96': ('partial', 'Proved: linearised backward Euler step for every exact flux and boundary Jacobian (C96_newton) and end to end for AUSM, Roe and HLLC (C96_newton_schemes); fixed points; small CFL numbers, for any Jacobian routine; thread schedules; whole runs on several processes, first and second order, for assignments that are non-decreasing along the cell numbering. Missing: other assignments of cells (false for the matrix and the residual: C82_refuted, C88_refuted), inexact linear solvers (matrix-free products are treated in C60 and C121); the backward Euler interpretation and fixed points are proved for the first-order discretisation only (the second-order solver uses the first-order matrix).'),
'C97': ('partial', 'Proved for AUSM, AUSM+ and HLLC: first order, second order with every gradient and reconstruction scheme (reconstructed densities positive; automatic for MUSCL with densities above 1.25e-5), explicit runs of both orders, implicit updates. False for LLF, van Leer, Roe and HLL: there the state is steady exactly if the density is equal across every face (C97_diffusive_iff, C97_all_schemes_refuted). Isothermal walls: gas stays at rest exactly if the cells at the wall have its temperature (C97_isothermal, C97_isothermal_run, C97_isothermal_iff, C97_isothermal_cell_iff, C97_isothermal_refuted). False at subsonic inflows, whose ghost state beside gas at rest always moves out of the domain (C97_inflow_moves), so that with AUSM the cell loses mass (C97_inflow_cell, C97_inflow_refuted); with AUSM+ it does so as well, and with HLLC if the prescribed total temperature is at most that of the gas (C97_inflow_cell_schemes). With HLLC the cell stays at rest exactly if the contact speed vanishes (C97_inflow_hllc_iff), which some total pressure achieves for every high total temperature (C97_inflow_balance).'),
'C47': ('proved', 'Bounds for Barth-Jespersen where defined (see C48); Van Albada and Venkatakrishnan in [0,1]; MUSCL up to 1.25e-5, exact monotonicity fails because of the limiter constant (C47_muscl_exact_refuted); Venkatakrishnan with K > 0 can overshoot (C47_venkatakrishnan_overshoot).'),
'C98': ('partial', 'Proved for every scheme but LLF, for inviscid first-order residuals, local time steps, updates and runs of the explicit steady solver: C98_residual, C98_update, C98_run (the gas must leave the set faster than sound, on both sides of its rim, at every iterate). False for LLF, whose dissipation carries downstream states against the stream (C98_llf_refuted, on the two-square mesh). For the implicit solver (AUSM, HLL, HLLC or Roe Jacobians): the blocks of a supersonic face are those of the upstream state (C98_jacobian_*), the rows of the set have no entries outside it (C98_rows, C98_matrix), updates and runs with exact linear solves and constant CFL number do not depend on the rest (C98_implicit_update, C98_implicit_run). With viscosity the claim is false (C98_viscous_refuted): a downstream state acts upstream exactly if it changes the viscous flux of the face (C98_viscous_iff). At second order it is false too, since gradients read all neighbours (C98_second_order_refuted: Green-Gauss, linear reconstruction, AUSM, no viscosity, face crossed faster than sound by cell and face states); the influence reaches one layer of cells and no further in each iteration (C98_second_order_layer, C98_second_order_timestep, C98_second_order_run: explicit solver, linear reconstruction, all gradient schemes).'),
'C99': ('partial', 'Proved: fluxes of all schemes (C99_flux), boundary states (C99_ghost), viscous fluxes, gradients, first-order residuals, second-order residuals with the unlimited reconstruction, time steps, iterations and runs of the explicit steady solver, also of second order with the unlimited reconstruction (C99_second_order_run_partial). False: WENO (C99_weno_refuted); the in/outflow boundary when the unit of density changes, because the free-stream pressure 1/(gamma M^2) presumes free-stream density 1 (C99_outflow_refuted); MUSCL, whose limiter adds 1e-8 to squared differences (C99_muscl_refuted); reported CFL numbers, ramped from a norm compared with 1 (C99_cfl_refuted). Implicit runs: C104. Not covered: the Barth-Jespersen and Venkatakrishnan limiters, undefined on every mesh with a physical boundary (C48_exact).'),
'C100': ('proved', 'Inviscid, first order, as stated: the second-order and viscous terms use ghost centres mirrored through the face midpoint (C24), not at the axis. Runs assume admissible states along the way and gamma at least 4/3 (conservation of the HLLC and AUSM fluxes, C16).'),
'C101': ('partial', 'Thin-layer gradients on any mesh, every gradient scheme where lines of centres are along the normals; conductances nonnegative (true on meshes of convex counter-clockwise cells, C101_convex). Explicit: a step keeps all bounds exactly if CFL times time step times the sum of conductances is at most the area of each cell (C101_step_iff, C101_run); the code takes time steps from the longest face, so no CFL number is small enough for all meshes: on long rectangles the error at least doubles in each iteration and the run fails (C101_no_cfl_refuted). Implicit, exact linear solver: unconditional with correct boundary blocks (C101_implicit_doubled); with the half blocks of the code (C53) exactly if the boundary conductances of each cell are at most twice area over time step (C101_implicit_iff), so it fails on the unit square at every CFL number above a quarter (C101_implicit_refuted), but a quadratic measure never grows (C101_implicit_measure). Steady states: C101_steady.'),
'C102': ('proved', 'The measure that decreases is the dissipation of the distance to the steady state (C102_implicit_step exact, C102_explicit_step); iteration counts in C102_implicit_run and C102_explicit_run; limits in C102_implicit_converges and C102_explicit_converges; existence and uniqueness in C102_steady, using that on meshes with positive areas every cell is connected to a boundary face (C102_reaches). The limit for explicit runs is exact on rectangles (C102_explicit_sharp), hence no CFL number serves all meshes (C102_no_cfl_refuted). The linear solver is taken as exact; gradient corrections on skewed meshes are not covered.'),
'C103': ('partial', 'Proved: C103_first, C103_bounds, C103_second, C103_later, C103_direction, closed form for falling norms (C103_falling), C103_final, and agreement of runs in different units where both first norms are at least one (C103_scaling_partial). False otherwise: the second iteration compares the first norm with the number one, so the implicit solver takes another path in other units (C103_scaling_refuted).'),
'C104': ('partial', 'Proved for every chart (turn, reflection, units of density and velocity): Jacobians of LLF, HLL, AUSM, Roe and (for gamma at least 4/3) HLLC, viscous Jacobian, boundary Jacobians, the assembled first-order matrix, exact solves; for similarities of the mesh and for changes of units: iterations and runs of the implicit solver with full updates, viscous or not, of first order or of second order with the unlimited reconstruction. The CFL number must be constant, or the ramp must take the same first decision in both units: it compares the first norm with the number 1, and runs differ otherwise (C104_cfl_refuted). False with FlowSimpleUpdate: its pressure increment loops over energy instead of the first momentum, so that the factor depends on the axes (C104_relax_axes_refuted) and the unit of velocity (C104_relax_units_refuted); C104_relax_partial gives the charts that keep it. Not covered: runs on mirrored meshes, inexact solvers, states that are not admissible.'),
'C105': ('partial', 'Proved: contents of the file after a converged main solve (C105_lines), first and last line (C105_ends), reads within bounds in run and run_output (C105_safe), and exactly when a direct call of execute reads outside (C105_unsafe_iff). False for runs that do not converge: the exception comes before the file is written (C105_lost_refuted; C105_written_partial gives exactly the runs that leave a file). Wall times, counts of linear iterations and rounding are not modelled.'),
'C106': ('partial', 'Proved: error exactly for several blocks (C106_error_iff), found if present and untouched if not (C106_finds). The first one is found unless a multigrid preconditioner has the type on two levels but not in the coarse solver (C106_first_partial); then the last level wins (C106_first_refuted).'),
'C107': ('partial', 'False for every array with contents: the writer leaves out the dimensions the reader expects (C107_round_trip_refuted). With the dimensions put in front the array is restored (C107_with_dimensions_partial). Integers only; rounding of printed floating-point numbers is not modelled.'),
'C108': ('partial', "False of implicit cases in a stream without obstacles: the initial vector has residual zero and the case throws (C108_uniform_implicit_refuted). Several processes need an assignment that is non-decreasing along the cell numbering and registers all interface faces, implicit cases exact linear solvers, turned meshes no limiters. Positivity for van Leer's flux only."),
'C109': ('proved', 'Inviscid, first order. HLLC across faces with the flow from right to left needs a ratio of specific heats of at least 4/3 (as C16 does).'),
'C110': ('proved', "Inviscid, first order, explicit. The exceptions are part of the statement and proved as such: C110_ausm_refuted, C110_vanLeer_refuted, C110_run_refuted, C110_ratio_refuted. The in- and outflow condition keeps the stream if the stream's pressure is the free stream's."),
'C111': ('proved', 'Both parts. The errors of LLF, HLL, van Leer and HLLC between states of common total enthalpy are given exactly; Roe by a witness. Steady means a residual that is exactly zero. The example is a shock kept by AUSM+ between two cells.'),
'C112': ('proved', 'Runs: first order, inviscid, one process, gamma at least 4/3, admissible iterates (automatic for van Leer, C93). The example is a pair of streams that meet, on two cells.'),
'C113': ('proved', 'The jump of the characteristic boundary is part of the statement: C113_inOut_iff says exactly where it is continuous, C113_inOut_refuted shows the flux jumping with still air on both sides. First order; one process. Limits and reports concern runs whose iterates converge; C114 supplies a family of such runs.'),
'C114': ('proved', 'Explicit solver, first order, inviscid, gamma at least 4/3; van Leer and AUSM are excluded since they disturb the pressure of such streams (C110). C114_at_rest shows that the sweeping stream is needed.'),
'C115': ('partial', 'Safety holds always (C115_safe). The second half fails in the code: the flux of the Jacobian is never deleted (C115_jacobianFlux_refuted), a repeated boundary tag loses a boundary object, a failed solve loses its vectors, a failed main solve its linear problem and update scheme (C115_main_refuted), and an exception leaving run or run_output the discretisations (C115_space, C115_starter). C115_run_partial and C115_output_partial list exactly what is left after a normal return. PETSc calls are taken to succeed.'),
'C116': ('partial', 'Proved for six fluxes (C116_flux_partial), the analytical flux, and slip, far-field, in/outflow, extrapolation and isothermal boundaries. Refuted for AUSM+, whose interface sound speed depends on the tangential velocity (C116_ausmPlus_refuted), and for moving adiabatic walls, whose ghost state keeps the interior energy (C116_adiabatic_iff, C116_adiabatic_refuted). Refuted at the subsonic inflow, which fixes the flow direction (C116_inflow_refuted).'),
'C117': ('partial', 'Integers, reals and switches read by value are right (C117_int, C117_real, C117_bool). False in the code: an explicit false still selects the matrix-free solver (C117_matrixFree_refuted, exact condition C117_matrixFree_iff), strings and lists are cut silently (C117_string_iff, C117_ints_iff, C117_amg_refuted), a missing string leaves its buffer allocated (C117_buffer_iff).'),
'C47': ('proved', 'Bounds for Barth-Jespersen where defined (see C48); Van Albada and Venkatakrishnan in [0,1]; MUSCL up to 1.25e-5, exact monotonicity fails because of the limiter constant (C47_muscl_exact_refuted); Venkatakrishnan with K > 0 can overshoot (C47_venkatakrishnan_overshoot), by no more than C47_venkatakrishnan_range says, and is nearly inactive where the solution is smooth (C47_venkatakrishnan_inactive).'),
'C118': ('partial', "All four steady solvers, for every interleaving (C118_lockstep for any sequence of exchanges; C118_explicit, C118_implicit, C118_second_explicit, C118_second_implicit; with C88 and C100 the run of one process, the theorems *_single_partial). The exchange of face states as one operation agrees with the message protocol of C40 (C118_faces). Operations that complete for all at once are no restriction (C118_neighbours): the conclusions hold when in exchanges a process waits only for processes with cells next to its own (C118_waits_partial, for assignments of cells in the order of cell numbers), and contributions may be available from any moment at which they are determined (C118_early, C118_begin_partial), as they are when an exchange begins before it ends. False for the second-order unsteady solver, whose time step is that of the process's own cells: a rank waits for ever for one that has passed the final time (C118_unsteady_refuted, condition C118_unsteady_hangs). False also if a boundary condition is missing for faces of some processes only: those end by an exception and the others wait for ever (C118_missing_refuted, exact condition C118_missing_conditions). That the code ends an exchange of the solution after the global sum that the model has after it makes no difference, since the sum ends only when all have begun the exchange."),
'C119': ('partial', 'False in the code: the check compares the own cell with the left cell of the global face, which is the cell with the smaller number, so that of the two sides of each registered cut face one is always rejected (C119_rejects, C119_refuted). C119_iff gives the exact condition. The only call is a commented-out assertion.'),
'C120': ('partial', 'Right for the explicit solver with every conforming implementation (C120_explicit). The implicit solver, the force coefficients and the entropy error pass one buffer as both arguments, which MPI does not define: right for implementations that allow it (C120_same_partial, exact condition for the norm C120_implicit_iff), but there is a conforming implementation with which the norm is zero and every implicit run stops after its first iteration (C120_refuted).'),
'C121': ('partial', 'Proved for assignments of cells in the order of cell numbers, first and second order, if the ghost blocks of the auxiliary vector are zero when made (C121_zeroed_partial, C121_second_order_zeroed_partial); for one process the operator is that of C60 (C121_one). The loop meant to clear these blocks runs over the wrong entries: the exact effect of what is left in them is C121_product_partial and C121_second_order_partial, the exact conditions C121_iff and C121_second_order_iff, and cases where the product is wrong C121_refuted and C121_second_order_refuted. Missing: other assignments of cells (false for the residual, C88_refuted).'),
'C122': ('partial', 'Proved: quadratic form and dissipativity for every mesh, schedule and vector (C122_quadratic, C122_dissipative, the latter for constant viscosity). The blocks are never the derivative of the viscous flux, whose mass row is zero (C122_not_derivative). False that it applies to every face: at physical boundary faces it reads outside the array of cell centres (C122_defined_iff, C122_boundary_refuted).'),
'C96': ('partial', 'Proved: linearised backward Euler step for every exact flux and boundary Jacobian (C96_newton) and end to end for AUSM, Roe and HLLC (C96_newton_schemes), with second-order residuals and iterative linear solvers up to a defect within their tolerances (C96_defect_correction, C96_defect_correction_schemes); fixed points for exact and iterative linear solvers and any evaluation of the residual (C96_inexact_steady_iff, C96_second_order_steady_iff; a relative tolerance of one does not suffice, C96_inexact_sharp, and the code does not ask KSP whether it converged); small CFL numbers, for any Jacobian routine; thread schedules; whole runs on several processes, first and second order, for assignments that are non-decreasing along the cell numbering. Missing: other assignments of cells (false for the matrix and the residual: C82_refuted, C88_refuted); whole runs on several processes with iterative linear solvers, whose steps differ with the preconditioner of each partition; the states that an iteration leaves unchanged are those of the single process also then (C96_inexact_processes_partial, C96_inexact_processes_second_partial) (matrix-free products are treated in C60 and C121).'),
}
