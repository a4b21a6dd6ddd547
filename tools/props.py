# Single source for properties.jsonl (run tools/gen.py after editing).
# Each entry: id, title, statement, quantifier, why_tests_cant, anchors
P = []
def p(id, title, statement, quantifier, why, anchors):
    P.append(dict(id=id, title=title, statement=statement, quantifier=quantifier,
                  why_tests_cant=why, anchors=anchors))

PHD="src/physics/aphysics_defs.hpp"; PH="src/physics/aphysics.cpp"
p("C01","Conserved/primitive conversions are mutually inverse",
  "Converting a flow state from conserved to primitive variables and back gives the same state, and the reverse order too; the temperature-based primitive set determines the same total energy as the pressure-based one.",
  "all real states with non-zero density, all gas parameters with gamma != 1 and (for temperature) gamma, Mach number non-zero",
  "The identity is over a 4-dimensional continuum of states and a family of gas parameters; tests check a few states to a tolerance.",
  [PHD+":getPrimitiveFromConserved", PHD+":getConservedFromPrimitive", PHD+":getEnergyFromPrimitive2", PHD+":getPrimitive2FromConserved"])
p("C02","Variable and gradient conversions may be done in place",
  "Calling a state conversion or the conserved-to-primitive gradient conversion with the output array identical to the input array produces exactly the values that separate arrays would give, and the converted gradient is the chain-rule gradient.",
  "all states with non-zero density, all gradients, both aliased and non-aliased calls",
  "Aliasing defects depend on the order of stores; a test with particular numbers (for example zero velocity) can pass by accident.",
  [PHD+":getPrimitiveFromConserved", PHD+":getConservedFromPrimitive", PHD+":getGradPrimitive2FromConservedAndGradConserved"])
p("C03","Analytical derivative routines return the true derivatives",
  "The routines documented as Jacobians (pressure, squared speed, temperature, sound speed, normal Mach number, density, energy, primitive-2 state and directional flux with respect to the conserved state) return the mathematical partial derivatives of the functions they are documented to differentiate.",
  "all admissible states (positive density, positive pressure where a square root is taken), all face normals, every component",
  "Tests compare with finite differences at isolated states, to a tolerance which hides small terms.",
  [PHD+":getJacobianPressureWrtConserved", PHD+":getJacobianTemperature", PHD+":getJacobianSoundSpeed", PHD+":getJacobianMachNormalWrtConserved", PH+":getJacobianDirectionalFluxWrtConserved", PH+":getJacobianVarsWrtConserved", PH+":getJacobianPrimitive2WrtConserved"])
p("C04","Sutherland viscosity and its derivative",
  "Viscosity follows Sutherland's law with the constant 110.5 K, rises with temperature and is 1/Re in the free stream; the conductivity belongs to the Prandtl number. The routine for the derivative of the Sutherland viscosity with respect to the conserved state returns the derivative of the viscosity the solver uses.",
  "all states of positive temperature",
  "A test at free-stream temperature T=1 cannot distinguish powers of T.",
  [PHD+":getJacobianSutherlandViscosityWrtConserved", PHD+":getViscosityCoeffFromTemperature"])
p("C05","Pressure increment of a conserved-variable update",
  "The pressure increment routine returns p(u+du)-p(u).",
  "all states and updates with non-zero old and new density",
  "It is an algebraic identity in eight variables; tests at du with a zero component can pass.",
  [PHD+":getDeltaPressureFromConserved"])
p("C06","Free-stream state realises the requested Mach number and incidence",
  "The free-stream state has density 1, speed 1 in the direction of the angle of attack, temperature 1, pressure 1/(gamma M^2), and its Mach number is the configured one.",
  "all angles of attack, all positive Mach numbers, all gamma > 1",
  "Continuum of angles and Mach numbers.",
  [PH+":compute_freestream_state", PHD+":getFreestreamPressure"])
p("C07","Viscous stress is symmetric, frame-indifferent and dissipative",
  "The viscous stress is symmetric, linear in the velocity gradient, zero for every rigid-body rotation, traceless up to the 2D/3D Stokes factor, and does non-negative work on the velocity gradient for non-negative viscosity.",
  "all velocity gradients and viscosities",
  "Identities and inequalities over a continuum.",
  [PHD+":getStressTensor", PH+":getJacobianStress"])

BC="src/spatial/abc.cpp"
p("C08","Slip-wall ghost state is a mirror image",
  "The ghost state at an inviscid wall has the interior density, energy, pressure and speed, its normal velocity is the negative of the interior one, and taking the ghost of the ghost gives back the interior state.",
  "all interior states with non-zero density, all unit normals",
  "Identity over states and directions; a test on axis-aligned walls misses cross terms.",
  [BC+":Slipwall::computeGhostState"])
p("C09","No mass or energy passes through a slip wall",
  "With the slip-wall ghost state, the mass flux and energy flux computed by the inviscid flux schemes are zero and the momentum flux is along the normal.",
  "all admissible interior states, all unit normals, each flux scheme",
  "Requires exact cancellation for every state, whereas tests see round-off-level numbers at sample states.",
  [BC+":Slipwall", "src/spatial/anumericalflux.cpp"])
p("C10","Boundary-state Jacobians differentiate the boundary states",
  "For every boundary condition the Jacobian routine returns both the ghost state used by the residual and its derivative with respect to the interior state.",
  "all admissible interior states not on a branch switch, all normals, all boundary-condition kinds",
  "Derivatives over a continuum, and disagreement only on some branches.",
  [BC+":computeGhostStateAndJacobian", BC+":InOutFlow", BC+":Isothermalwall2D", BC+":Adiabaticwall2D"])
p("C11","No-slip walls impose the wall velocity and thermal condition",
  "At viscous walls the average of interior and ghost velocities is the wall velocity, pressure is continuous; at adiabatic walls the temperature is unchanged; at isothermal walls the average temperature is the wall temperature.",
  "all interior states, all unit normals, all wall speeds and wall temperatures",
  "The defect in the thermal condition appears only for moving walls or special interior temperatures.",
  [BC+":Adiabaticwall2D", BC+":Isothermalwall2D"])
p("C12","Characteristic in/outflow boundary selects by wave direction",
  "Supersonic outflow copies the interior, supersonic inflow imposes the free stream, subsonic outflow keeps density and velocity direction information from the interior with free-stream pressure; the free stream itself is reproduced at every such boundary.",
  "all admissible interior states and all normals",
  "Branching on a real quantity; boundaries of the branches are measure-zero and never sampled.",
  [BC+":InOutFlow::computeGhostState", BC+":Farfield", BC+":Extrapolation"])
p("C13","Stagnation inflow imposes the configured total conditions",
  "The ghost state at a total-pressure/total-temperature inflow has the configured total temperature and total pressure.",
  "all interior states, all inflow configurations",
  "Holds only on special configurations, which a test is likely to choose.",
  [BC+":InFlow::computeGhostState"])
p("C14","Boundary-condition construction covers exactly the supported kinds",
  "Building the set of boundary conditions succeeds precisely when every configured boundary has a supported kind, each mesh tag is bound to the condition configured for it, and kind names in the control file map one-to-one to kinds.",
  "all lists of boundary configurations",
  "Lists of arbitrary length with repeated or missing tags.",
  [BC+":create_const_flowBCs", "src/spatial/abctypemap.hpp"])

NF="src/spatial/anumericalflux.cpp"
p("C15","Numerical fluxes are consistent",
  "For equal left and right states each inviscid flux scheme returns the analytical Euler flux in the face direction.",
  "all admissible states, all unit normals, all seven schemes",
  "Continuum of states including sonic and stagnation switches.",
  [NF+":get_flux"])
p("C16","Numerical fluxes are conservative under side swap",
  "Exchanging the two sides and reversing the normal negates the flux, so what leaves one cell enters the other irrespective of face orientation.",
  "all admissible left/right states, all unit normals",
  "Depends on tie-breaking of comparisons at switching points.",
  [NF+":get_flux"])
p("C17","Supersonic flow is fully upwinded",
  "When all waves (as estimated by the scheme) travel from left to right the numerical flux equals the analytical flux of the left state, independent of the right state, for every scheme except local Lax-Friedrichs.",
  "all pairs of admissible states supersonic along the normal",
  "Infinite set of state pairs.",
  [NF+":VanLeerFlux", NF+":AUSMFlux", NF+":HLLFlux", NF+":HLLCFlux"])
p("C18","Flux Jacobians are consistent",
  "For equal left and right states the derivative blocks returned for the two sides add up to the Jacobian of the analytical flux; for the schemes claimed exact the blocks are the derivatives of the numerical flux.",
  "all admissible states, all normals",
  "Finite-difference tests tolerate O(h) errors and do not visit branch boundaries.",
  [NF+":get_jacobian", NF+":get_jacobian_2"])
p("C19","Fluxes do not depend on the orientation of the coordinate axes",
  "Rotating both states and the normal rotates the momentum components of the flux and leaves mass and energy fluxes unchanged.",
  "all rotations, all admissible states",
  "Continuum of rotations.",
  [NF])
p("C20","Stationary contact discontinuities are preserved by HLLC and AUSM",
  "For two states with equal pressure and zero normal velocity, arbitrary density and tangential velocity, the flux is pure pressure.",
  "all densities, tangential velocities, pressures",
  "Exactness for all pairs.",
  [NF+":HLLCFlux::get_flux", NF+":AUSMFlux::get_flux"])
p("C21","HLLC wave ordering and star states",
  "For ratios of specific heats at least 4/3 the contact speed lies between the two acoustic speeds and star densities are positive; the star states satisfy the Rankine-Hugoniot relations across the acoustic waves.",
  "all admissible state pairs",
  "Positivity for all inputs.",
  [NF+":HLLCFlux::getStarState", NF+":HLLCFlux::get_flux"])

ME="src/mesh/mesh.cpp"
p("C22","Cells are closed",
  "For every cell, the sum over its faces of outward unit normal times face length is zero, face normals have unit length and are perpendicular to the face, and the two cells sharing a face see opposite normals.",
  "all meshes and node positions without zero-length faces, any number of cells",
  "Must hold for every geometry, otherwise free-stream is not preserved.",
  [ME+":compute_face_data", ME+":compute_faceConnectivity"])
p("C23","Cell areas are polygon areas",
  "The area of a triangle or quadrilateral equals the signed polygon area: independent of the starting vertex, translation-invariant, positive for counter-clockwise convex cells, negated by reversal, and equal to the boundary integral by the divergence theorem.",
  "all vertex positions",
  "Continuum of geometries.",
  [ME+":compute_areas"])
p("C24","Ghost-cell centres are mirror images",
  "The ghost-cell centre about a face midpoint, respectively about the face line, is the point reflection, respectively line reflection, of the interior cell centre.",
  "all cell centres, all non-degenerate faces including axis-aligned ones",
  "The general formula divides by quantities that vanish on axis-aligned faces.",
  ["src/spatial/aspatial.cpp:compute_ghost_cell_coords_about_midpoint", "src/spatial/aspatial.cpp:compute_ghost_cell_coords_about_face"])
p("C25","Point-to-cell lists are exact",
  "For every mesh, after topological pre-processing the list of cells around a point contains exactly the cells having that point as vertex, once per occurrence, in increasing order, and lists of different points do not overlap.",
  "all meshes: any number of points, cells, mixed triangles and quads",
  "Unbounded mesh size and arbitrary connectivity.",
  [ME+":compute_elementsSurroundingPoints"])
p("C26","Cell-to-cell adjacency is symmetric and geometric",
  "After topological pre-processing, a cell j is recorded as neighbour of cell i across one of its faces only if they share the two vertices of that face, every pair sharing a face is recorded, and the relation is symmetric.",
  "all meshes whose cells pairwise share at most one face",
  "Unbounded mesh size; the loop overwrites earlier matches so correctness depends on global structure.",
  [ME+":compute_elementsSurroundingElements"])
p("C27","Face list enumerates every face exactly once",
  "The face list contains each physical boundary face, each interior face and each partition-interface face exactly once in consecutive ranges, the lower-numbered cell of an interior face is on the left, and the nodes are in the left cell's order.",
  "all meshes",
  "Unbounded mesh size.",
  [ME+":compute_faceConnectivity"])
p("C28","Host cell of a boundary face",
  "For each boundary face the host cell reported is the unique cell containing both nodes; if several cells contain them an error is raised; a boundary face belonging to no cell is a usage error.",
  "all meshes and boundary face lists",
  "Error paths depend on mesh inconsistencies.",
  [ME+":compute_phyBFaceNeighboringElements", ME+":getFaceEIndex"])
p("C29","Boundary faces are oriented outward after correction",
  "After the orientation correction every boundary face lists its nodes in its host cell's order; the correction is idempotent and changes neither tags nor the set of nodes.",
  "all meshes and any initial orientations",
  "2^n orientation patterns.",
  [ME+":correctBoundaryFaceOrientation"])
p("C30","Cell reordering is a pure renumbering",
  "Reordering cells by a permutation yields the same mesh with renumbered cells: all per-cell data follow the cell.",
  "all permutations, all meshes",
  "n! permutations; a test with identity-tag meshes cannot see unpermuted region data.",
  [ME+":reorder_cells", "src/mesh/meshordering.cpp:lineReorder"])
p("C31","Periodic boundary pairing",
  "After periodic mapping, the pairing of periodic faces is symmetric: if face i's ghost is the interior cell of face j then face j's ghost is the interior cell of face i.",
  "all boundary face lists and positions",
  "Fails only when more than two faces are within tolerance.",
  [ME+":compute_periodic_map"])
p("C32","Mesh file round trip",
  "Writing a mesh in Gmsh-2 format and reading it back gives the same points, cells, boundary faces and tags.",
  "all meshes with triangles and quads, any number of boundary tags and domain tags",
  "Unbounded meshes, tag counts 0,1,2,...",
  [ME+":writeGmsh2", "src/mesh/meshreaders.cpp:readGmsh2"])
p("C33","Point neighbour lists",
  "The list of points around a point contains exactly the points joined to it by a cell edge, each once.",
  "all meshes",
  "Unbounded mesh size.",
  [ME+":compute_pointsSurroundingPoints"])
p("C34","Level scheduling admits parallel sweeps",
  "The level schedule partitions the cells into consecutive ranges covering all cells in order, and no two cells of a range are neighbours.",
  "all meshes/adjacency graphs",
  "Unbounded graphs.",
  ["src/mesh/ameshutils.cpp:levelSchedule"])
p("C35","Hybrid line ordering is a permutation keeping lines contiguous",
  "Lines found in anisotropic regions are disjoint chains of adjacent cells, and the hybrid ordering visits every cell exactly once with each line's cells consecutive.",
  "all meshes and anisotropy thresholds",
  "Unbounded meshes; greedy algorithm with many paths.",
  ["src/mesh/meshordering.cpp:findLines", "src/mesh/meshordering.cpp:getHybridLineOrdering"])

MP="src/mesh/meshpartitioning.cpp"
p("C36","Trivial partition covers all cells",
  "The trivial partitioner assigns every cell to exactly one existing rank, the cells of a rank are contiguous and every rank receives at least one cell, provided there are at least as many cells as ranks; otherwise construction fails.",
  "all cell and rank counts",
  "Infinite family of (cells, ranks).",
  [MP+":compute_partition"])
p("C37","Subdomain extraction preserves cells and geometry",
  "Each rank's subdomain contains exactly the cells assigned to it with their region tags, its local points are exactly the points of these cells, and every local cell vertex has the global vertex's coordinates.",
  "all meshes, all partitions",
  "Unbounded meshes and arbitrary partitions.",
  [MP+":restrictMeshToPartitions", MP+":extractInpoel", MP+":extractPointCoords"])
p("C38","Partition-interface faces are all found",
  "Every face shared by cells on different ranks is registered as an interface face on both ranks with the other rank's identity and global cell index.",
  "all meshes, all partitions",
  "Fails only for special partitions (interface face with both end points on the physical boundary).",
  [MP+":getConnectivityFaceEIndices", MP+":restrictMeshToPartitions"])
p("C39","Cell adjacency graph handed to the partitioner",
  "The CSR graph lists for each cell exactly its real neighbours; it is symmetric, loop-free and the offsets are monotone from zero to the total count.",
  "all meshes",
  "Unbounded meshes.",
  [MP+":getCellAdjLists"])
TV="src/linalg/tracevector.cpp"
p("C40","Interface exchange delivers the neighbour's face values",
  "After an interface exchange completes on all ranks, the right-hand value stored for each interface face is the left-hand value the neighbouring rank holds for the same physical face, regardless of the order in which messages are delivered.",
  "all partitions, all numbers of ranks and interface faces, every message interleaving",
  "Exponentially many schedules.",
  [TV+":update_comm_pattern", TV+":updateSharedFacesBegin", TV+":updateSharedFacesEnd"])

FS="src/spatial/flow_spatial.cpp"
p("C41","The residual is conservative",
  "The sum of residuals over all cells equals minus the sum of boundary face fluxes: interior fluxes cancel.",
  "all meshes, all flux values",
  "Unbounded meshes, all states.",
  [FS+":compute_fluxes"])
p("C42","Residual assembly does not depend on thread scheduling",
  "For every interleaving of the threads that process faces, accumulation with atomic updates yields the sequential result; the same updates without atomicity can lose contributions.",
  "all meshes, all thread counts and interleavings",
  "Exponentially many interleavings; races are intermittent.",
  [FS+":compute_fluxes", "src/spatial/agradientschemes.cpp:GreenGaussGradients::compute_gradients"])
p("C43","Free-stream preservation",
  "If the whole field equals the free stream and all boundaries are far-field boundaries, the residual is exactly zero in every cell.",
  "all meshes with closed cells, all free-stream states, every consistent flux scheme",
  "All geometries.",
  [FS+":compute_residual", FS+":compute_fluxes"])
p("C44","Gradient accumulation at boundary faces is race-free",
  "Green-Gauss gradients are the same for every thread schedule.",
  "all meshes and interleavings",
  "Race requires particular timing on cells with two boundary faces.",
  ["src/spatial/agradientschemes.cpp:GreenGaussGradients::compute_gradients"])
p("C45","Gradient schemes are exact where promised",
  "Weighted least-squares gradients are exact for linear fields on any stencil spanning the plane; Green-Gauss gradients of constant fields vanish on closed cells and those of linear fields are exact in cells whose face midpoints lie between the centres; both are linear in the data.",
  "all meshes, all linear fields",
  "All geometries and fields.",
  ["src/spatial/agradientschemes.cpp"])
RC="src/spatial/limitedlinearreconstruction.cpp"
p("C46","Reconstruction is exact for linear and constant fields",
  "Unlimited linear reconstruction and MUSCL reconstruct linear fields exactly at face centres (MUSCL at cell-centre midpoints), and every reconstruction returns the cell value for constant fields. In the second-order residual a linear field of primitive variables gives both sides of every face between two cells its state at that point, hence the exact flux there.",
  "all geometries, all linear fields",
  "Continuum.",
  ["src/spatial/areconstruction.cpp", "src/spatial/musclreconstruction.cpp", "src/spatial/reconstruction_utils.hpp"])
p("C47","Limiters create no new extrema",
  "The Barth-Jespersen limiter is between 0 and 1 and limited face values lie between the minimum and maximum of the cell and its neighbours; Van Albada and Venkatakrishnan limiters are in [0,1]; MUSCL face values lie between the values on both sides of the face, up to 1.25e-5. With the smoothing constant K, Venkatakrishnan face values leave the range of the cell and its neighbours by at most sqrt((K L)^3/8), L being the longest edge of the cell, and differ from the unlimited ones by at most 2 d^3/(K L)^3 where these vary by at most d over the cell.",
  "all cell averages, gradients, geometries",
  "Inequality over a continuum with ties.",
  [RC+":BarthJespersenLimiter", RC+":VenkatakrishnanLimiter", "src/spatial/musclreconstruction.cpp:VanAlbada"])
p("C48","Limiters read only cell data that exist",
  "For every mesh the limiters access only rows of the state array that are allocated.",
  "all meshes (in particular cells with physical boundary faces)",
  "Out-of-range reads silently return neighbouring memory.",
  [RC+":BarthJespersenLimiter::compute_face_values", RC+":VenkatakrishnanLimiter::compute_face_values"])
p("C49","WENO gradient is a convex combination",
  "The WENO gradient is a convex combination of the central and neighbouring gradients, hence bounded by them and exact for linear fields.",
  "all gradients, all positive central weights",
  "Continuum.",
  [RC+":WENOReconstruction"])
p("C50","Assembled Jacobian matches the face-wise derivatives",
  "The assembled matrix applied to a perturbation equals the sum over faces of the derivative of the residual contributions; interior block columns sum to zero; assembly order is irrelevant; distributed assembly gives the rows of the serial matrix.",
  "all meshes, all face blocks, all assembly orders",
  "Unbounded meshes and schedules.",
  ["src/spatial/aspatial.cpp:assemble_jacobian"])
p("C51","Local time steps are positive and respect the wave-speed bound",
  "With positive cell areas and admissible states each local time step is positive and equals area over the integral of wave speeds over the cell's faces, independent of the order of face processing.",
  "all meshes, all states",
  "All meshes.",
  [FS+":compute_max_timestep"])
p("C52","Face gradient and viscous flux consistency",
  "The modified average face gradient has the exact directional derivative between cell centres, is exact for linear fields, and viscous fluxes vanish for uniform flow, are opposite for the two sides, and in linear velocity fields are the Navier-Stokes stress on the face and the work and heat flux belonging to it.",
  "all states, gradients and geometries",
  "Continuum.",
  ["src/spatial/aspatial.cpp:getFaceGradient_modifiedAverage", "src/physics/viscousphysics.cpp:computeViscousFlux"])
p("C53","Scalar diffusion discretisation",
  "The diffusion boundary state makes the face average equal the prescribed value; the diffusion residual is conservative; the diffusion Jacobian is the derivative of the thin-layer residual.",
  "all meshes and fields",
  "All meshes.",
  ["src/spatial/diffusion.cpp"])
OD="src/ode/aodesolver.cpp"
p("C54","CFL ramping stays within configured limits",
  "Both CFL ramp functions return values within the configured bounds, monotone in the iteration count (linear ramp) resp. non-decreasing when the residual falls (residual-based ramp).",
  "all iteration numbers, all residual histories",
  "Unbounded histories.",
  [OD+":linearRamp", OD+":expResidualRamp"])
p("C55","Under-relaxation factor is safe",
  "The relaxation factor lies between the configured minimum and 1, and when it is not the minimum, the updated density and pressure stay positive.",
  "all states and updates",
  "Continuum of updates.",
  ["src/ode/nonlinearrelaxation.cpp"])
p("C56","Steady solvers terminate and report convergence truthfully",
  "A steady solve performs at most the maximum number of iterations, reports success only if the residual ratio met the tolerance, and reports failure only if it did not.",
  "all residual histories",
  "Histories of any length; edge case at the last iteration.",
  [OD+":SteadyForwardEulerSolver::solve", OD+":SteadyBackwardEulerSolver::solve"])
p("C57","Pseudo-time step uses the reported CFL number",
  "The explicit steady solver's update uses the ramped CFL number that it reports.",
  "all configurations",
  "Only visible with ramping enabled and by comparing to a hand computed update.",
  [OD+":SteadyForwardEulerSolver::solve"])
p("C58","TVD Runge-Kutta schemes have their nominal order",
  "The unsteady integrator of order q reproduces the Taylor expansion of du/dt = r(u) to order q, and each stage is a convex combination of forward-Euler steps.",
  "all linear right-hand sides, all step sizes, orders 1-3",
  "Convergence tests look at a single smooth problem.",
  [OD+":TVDRKSolver::solve", OD+":initialize_TVDRK_Coeffs"])
p("C59","Pseudo-time term is added to the diagonal only",
  "The implicit steady solver adds area/(CFL dt) to each diagonal entry of the cell's diagonal block and nothing elsewhere.",
  "all meshes",
  "Unbounded sizes.",
  [OD+":addPseudoTimeTerm"])
p("C60","Matrix-free Jacobian product",
  "The matrix-free operator returns the pseudo-time diagonal times x plus the directional derivative of the residual; exact for affine residuals and for any perturbation size; error is bounded by the curvature for smooth residuals.",
  "all residual functions, states, non-zero directions",
  "All functions.",
  ["src/linalg/alinalg.cpp:MatrixFreeSpatialJacobian::apply"])
p("C61","Matrix preallocation is sufficient",
  "The number of nonzero blocks preallocated per row is at least the number inserted during assembly.",
  "all meshes and partitions",
  "Fails only for cells with several interface faces.",
  ["src/linalg/alinalg.cpp:setJacobianPreallocation", "src/spatial/aspatial.cpp:assemble_jacobian"])
p("C62","Vector access handles always balance",
  "For every sequence of operations on a vector access handle including destruction at any point, each acquired array is restored exactly once and no array is accessible after restoring.",
  "all operation sequences",
  "Unbounded histories, early exits.",
  ["src/linalg/petscutils.cpp"])
CP="src/utilities/controlparser.cpp"
p("C63","Boundary-condition list in the control file",
  "The parser reads the boundary condition sections numbered consecutively from zero; every section before the first gap is included in order and nothing after it.",
  "all control files",
  "Arbitrary numbering patterns.",
  [CP+":parse_BC_options"])
p("C64","Every solver parameter used is defined",
  "For every accepted control file each numerical parameter passed to the solvers has been set from the file or from a documented default.",
  "all control files",
  "Uninitialised reads often return plausible values.",
  [CP+":parse_flow_controlfile"])
p("C65","Scheme selection by name",
  "The factories return the scheme of the requested name for every supported name, and never return an unusable object for an unsupported name.",
  "all strings",
  "Infinite set of names.",
  ["src/utilities/afactory.cpp"])
p("C66","Failure reporting of a flow case",
  "A run which does not converge or blows up numerically is reported as failure to the caller.",
  "all outcomes of starter and main solves",
  "Combination of exceptions from nested solves.",
  ["src/utilities/casesolvers.cpp:SteadyFlowCase::execute", "src/utilities/casesolvers.cpp:FlowCase::run_output"])
AO="src/spatial/aoutput.cpp"
p("C67","Nodal output values are averages of surrounding cells",
  "The nodal value written for each variable is the area-weighted average of the surrounding cells' values; in particular constant fields are reproduced.",
  "all meshes and fields",
  "All meshes.",
  [AO+":postprocess_point"])
p("C68","VTU connectivity offsets",
  "The offsets written to VTU files are the cumulative node counts, for hybrid meshes too.",
  "all meshes (mixed cell types)",
  "Uniform-cell meshes hide the defect.",
  [AO+":writeScalarsVectorToVtu_PointData", AO+":writeMeshToVtu"])
p("C69","Surface force coefficients",
  "Lift, drag and skin-friction sums are orientation-consistent: uniform pressure on a closed surface gives no force, and rotating the geometry and the free stream together leaves the coefficients unchanged.",
  "all surfaces and pressure distributions",
  "All geometries.",
  [FS+":computeSurfaceData"])
p("C70","Dense array storage",
  "The 2D array type maps distinct index pairs to distinct storage cells, copies are independent of the original, and assignment gives an equal array, including self-assignment.",
  "all dimensions and index pairs",
  "All sizes.",
  ["src/utilities/aarray2d.hpp"])
p("C71","Cell-to-face map and neighbour across a face",
  "After topological pre-processing, each local face of each cell refers to the face of the list having exactly its two nodes and the cell on one side, and the recorded neighbour is the cell on the other side.",
  "all conforming meshes, cells and local faces",
  "All meshes and numberings.",
  ["src/mesh/mesh.cpp:compute_faceConnectivity", "src/mesh/mesh.cpp:compute_elementsSurroundingElements"])
p("C72","Gmsh reader accepts any valid ordering",
  "Reading a Gmsh-2 file yields the mesh described by it, whatever the order of its entries and the numbering of its nodes.",
  "all files in the format",
  "Mesh generators produce the usual order, so that tests always use it.",
  ["src/mesh/meshreaders.cpp:readGmsh2"])
p("C73","Viscous flux Jacobian is the derivative of the viscous flux",
  "The two blocks returned for a face are minus the derivative with respect to the left state and the derivative with respect to the right state of the first-order viscous flux.",
  "all states with nonzero density, all geometries, both viscosity laws",
  "Finite differences at chosen states cover neither all states nor both viscosity laws.",
  ["src/physics/viscousphysics.cpp:computeViscousFluxJacobian", FS+":compute_viscous_flux_jacobian"])
p("C74","Ghost blocks hold the value of the cell across the interface face",
  "After a ghost update of a distributed vector, the ghost block belonging to an interface face holds the value of the neighbouring rank's cell across that face.",
  "all conforming meshes, all assignments of cells to any number of ranks, all field values",
  "Tests use the trivial partition; other partitioners number the cells differently.",
  ["src/linalg/alinalg.cpp:createGhostedSystemVector", "src/mesh/meshpartitioning.cpp:restrictMeshToPartitions"])
p("C75","Residual depends on a cell's surroundings only",
  "Two discretisations whose meshes agree around a cell up to renumbering give the cell the same gradient, face states and residual, first and second order.",
  "all pairs of conforming meshes related by a local copy, all states, all schemes",
  "Needs comparison of arbitrary renumberings.",
  [FS+":compute_residual", FS+":compute_fluxes", "src/spatial/agradientschemes.cpp"])
p("C76","Distributed residual equals the single-process residual",
  "On every rank, the residual computed for each of its cells equals that computed by a single process holding the whole mesh.",
  "all conforming meshes, assignments of cells to ranks, states, schemes and interleavings of the exchange",
  "Neither all partitions nor all interleavings can be run.",
  [FS+":compute_residual", "src/linalg/alinalg.cpp:createGhostedSystemVector", "src/mesh/meshpartitioning.cpp:restrictMeshToPartitions", "src/linalg/tracevector.cpp"])
p("C77","Renumbering the cells leaves the residual with the cells",
  "Reordering the cells of a mesh permutes gradients, residuals and neighbours accordingly: each cell keeps the residual it had, and steady runs, explicit or implicit, repeat with each cell in the states it had and the same reported norms and CFL numbers.",
  "all conforming meshes, permutations, states, schemes, configurations and executions",
  "Tests run one ordering at a time.",
  ["src/mesh/mesh.cpp:reorder_cells", "src/mesh/ameshutils.cpp:preprocessMesh", FS+":compute_residual"])
p("C78","Mesh comparison answers what it documents",
  "Each of the eight answers says whether the named part of two meshes is the same; all are positive exactly if the meshes agree up to rounding of coordinates.",
  "all pairs of meshes",
  "Quantifies over all pairs of meshes, also of different sizes.",
  ["src/mesh/ameshutils.cpp:compareMeshes"])
p("C79","A single process gets the mesh that was read",
  "On one process the partitioner hands out the mesh itself: same cells, points, boundary faces, tags and coordinates in the same order and no interface faces, and the check of debug builds succeeds.",
  "all conforming meshes",
  "Tests compare a handful of meshes.",
  ["src/mesh/ameshutils.cpp:constructMesh", "src/mesh/meshpartitioning.cpp:restrictMeshToPartitions"])
p("C80","Reported entropy error and mesh size",
  "The entropy error is the area-weighted L2 norm of the relative deviation from the free-stream isentrope, zero exactly for isentropic solutions, and like the mesh size does not depend on the number of processes and threads.",
  "all states, meshes, distributions of cells to processes and threads",
  "Convergence studies use the values for a few meshes on one process.",
  ["src/spatial/aoutput.cpp:compute_entropy_cell", "src/physics/aphysics_defs.hpp:getEntropyFromConserved", "src/utilities/casesolvers.cpp:run_output"])
p("C81","Heat conduction obeys Fourier's law",
  "The energy flux through a face is the work of the viscous momentum flux and the heat conducted along the gradient of enthalpy with coefficient viscosity over Prandtl number; heat flows from warm to cold.",
  "all states, gradients, faces and gas parameters",
  "Tests compare Jacobians with finite differences, which agree for a wrong conductivity too.",
  ["src/physics/viscousphysics.cpp:computeViscousFlux", "src/physics/aphysics_defs.hpp:getThermalConductivityFromViscosity", FS+":compute_viscous_flux"])
p("C82","Distributed Jacobian matrix equals the single-process matrix",
  "The matrix assembled by several ranks has in the row of each cell the blocks that a single process computes, each rank sets only rows of its own cells, and products with distributed vectors are those of the single process.",
  "all conforming meshes, assignments of cells to ranks, states, boundary conditions and thread schedules",
  "Neither all partitions nor all schedules can be run.",
  ["src/spatial/aspatial.cpp:assemble_jacobian", "src/linalg/alinalg.cpp:setupSystemMatrix", "src/mesh/meshpartitioning.cpp:restrictMeshToPartitions"])
p("C83","Blocks of a face do not depend on which side is called left",
  "Exchanging the two states and reversing the normal exchanges the two blocks a flux scheme's Jacobian routine returns, so a matrix does not depend on how faces are directed.",
  "all pairs of admissible states and normals, all schemes with a Jacobian",
  "Equality over all pairs of states; the exceptions are sets without interior which sampled tests miss.",
  ["src/spatial/anumericalflux.cpp:get_jacobian"])
p("C84","SU2 mesh files are read as described",
  "Reading an SU2 file gives the cells, points and tagged boundary faces it describes, in its order; converting it to a Gmsh file and reading that gives the same mesh; other files are rejected.",
  "all files, whatever comments surround the headers",
  "Tests read two files.",
  ["src/mesh/meshreaders.cpp:readSU2", "src/utilities/convertformat.cpp:main", "src/mesh/mesh.cpp:UMesh"])
p("C85","Boundary points are numbered once with their faces",
  "Every point of a boundary face gets exactly one number, all below the number of boundary points; the face table gives the numbers of a face's nodes and the point table the faces that end and begin at a point.",
  "all meshes whose boundary faces name existing points",
  "Sizes and orders of boundary lists are unbounded.",
  ["src/mesh/mesh.cpp:compute_boundary_points"])
p("C86","Graph of lines and points is the quotient of the mesh",
  "The graph handed to PETSc for the hybrid line ordering has a vertex for each line and each cell outside the lines and joins two of them exactly if cells of theirs share a face; it is symmetric, has a full diagonal and no entry outside the matrix.",
  "all conforming meshes, weights, thresholds and lists of boundary cells",
  "Any number of lines of any length; a lost or one-sided entry only changes the quality of an ordering.",
  ["src/mesh/meshordering.cpp:createLinePointGraph", "src/mesh/meshordering.cpp:createLinePointGraphVertices"])
p("C87","Solid walls keep mass and energy in the box",
  "In a single-process case whose boundaries are all slip walls or insulated no-slip walls at rest, the residual neither creates nor removes mass, nor energy (viscous flow: all walls no-slip); with slip walls total momentum changes only by forces along the wall normals; explicit time steps keep the amounts of mass and energy.",
  "all conforming meshes, numerical fluxes, gradient and reconstruction schemes, admissible states, orders and numbers of time steps",
  "A leak of rounding size per step is invisible in tests and depends on mesh, scheme and state.",
  ["src/spatial/flow_spatial.cpp:compute_residual", "src/spatial/flow_spatial.cpp:compute_fluxes", "src/spatial/abc.cpp:computeGhostState", "src/ode/aodesolver.cpp:TVDRKSolver::solve"])
p("C88","Explicit steady solver gives the same run on any number of processes",
  "Forward Euler iterations of several ranks, with their ghost updates and global sums, report the norms of a single process, stop after the same number of iterations for the same reason, and leave the ranks with the single process's solution.",
  "all conforming meshes, assignments of cells to ranks, initial states, configurations and numbers of iterations",
  "Neither all partitions nor runs of every length can be compared.",
  ["src/ode/aodesolver.cpp:SteadyForwardEulerSolver::solve", "src/spatial/flow_spatial.cpp:compute_residual", "src/mesh/meshpartitioning.cpp:restrictMeshToPartitions"])
p("C89","Explicit unsteady solver gives the same run on any number of processes",
  "TVD Runge-Kutta steps of several ranks advance all of them by the time step of a single process and leave the ranks with the single process's solution.",
  "all conforming meshes, assignments of cells to ranks, initial states, orders, CFL numbers and numbers of steps",
  "Differences depend on the state and the partition; a run on one process shows none.",
  ["src/ode/aodesolver.cpp:TVDRKSolver::solve", "src/spatial/flow_spatial.cpp:compute_residual"])
p("C90","Mesh construction hands every rank its part of the file's mesh",
  "From a proper mesh file constructMesh gives the ranks together each cell, with its vertices and tags, and each boundary face exactly once, on every rank a conforming mesh with its topology; a requested reordering only renumbers cells; improper requests and too many ranks are refused.",
  "all proper files, numbers of ranks, values of the ordering options and permutations",
  "Meshes, rank counts and orderings are unbounded; a lost interface face passes silently.",
  ["src/mesh/ameshutils.cpp:constructMesh", "src/mesh/ameshutils.cpp:preprocessMesh", "src/mesh/meshreaders.cpp:readMesh"])
p("C91","Surface and volume result files",
  "exportSurfaceData writes one file per listed marker and no other, each with one row per boundary face of that marker in mesh order holding the face midpoint and the pressure and friction coefficients (walls) or velocity (others) of the cell behind it, without overrunning or printing unset memory; exportVolumeData and postprocess_cell write values from which the cell states are recovered.",
  "all conforming meshes, states, gradients, lists of markers (also repeated or unused)",
  "Row counters and buffers depend on the number of faces per marker; tests look at a single mesh.",
  ["src/spatial/aoutput.cpp:FlowOutput::exportSurfaceData", "src/spatial/aoutput.cpp:FlowOutput::exportVolumeData", "src/spatial/aoutput.cpp:FlowOutput::postprocess_cell"])
p("C92","VTU data arrays",
  "The data elements of a VTU file hold, under the given names, exactly the entries of the arrays passed, entity by entity, with vectors padded to three components, and match the announced numbers of components; the file written after a run holds the nodal density, Mach number, pressure, temperature and velocity under those names.",
  "all meshes, arrays of any dimensions, names",
  "Dimensions of arrays and numbers of names are unbounded; a viewer silently shows shifted data.",
  ["src/spatial/aoutput.cpp:writeScalarsVectorToVtu_PointData", "src/spatial/aoutput.cpp:writeScalarsVectorToVtu_CellData", "src/utilities/casesolvers.cpp:FlowCase::run_output"])
p("C93","Explicit steps keep density and pressure positive",
  "From states with positive density and pressure, an iteration of the explicit steady solver with its own local time steps and a CFL number from 0 to 1 leaves positive density and pressure in every cell, so a run never ends with a residual norm that is not a number.",
  "all meshes, all admissible states, all numbers of iterations and processes",
  "Negative pressure appears for particular jumps between neighbouring cells only; the number of iterations is unbounded.",
  ["src/ode/aodesolver.cpp:SteadyForwardEulerSolver::solve", "src/spatial/flow_spatial.cpp:compute_residual", "src/spatial/anumericalflux.cpp:get_flux"])
p("C94","Independence of position, orientation and unit of length of the mesh",
  "If the mesh is shifted, turned and scaled, far-field momenta are turned along and the Reynolds number is divided by the scale, then boundary states, fluxes, gradients and residuals are the turned ones (residuals times the scale), local time steps are multiplied by the scale, and the explicit steady solver makes the same iterations through turned states and ends in the same way, reporting the same CFL numbers.",
  "all meshes, similarities, states, flux and gradient schemes, boundary conditions, numbers of iterations",
  "Compares two runs on different meshes for a continuum of transformations; a wrong sign in one component only shows in directions the test meshes do not have.",
  ["src/spatial/flow_spatial.cpp:compute_residual", "src/spatial/flow_spatial.cpp:compute_fluxes", "src/spatial/gradientschemes.cpp:GreenGaussGradients::compute_gradients", "src/spatial/abc.cpp:computeGhostState", "src/ode/aodesolver.cpp:SteadyForwardEulerSolver::solve"])
p("C95","Reported convergence and steady states",
  "The steady solvers leave exactly those states unchanged whose residual vanishes in every cell and component, report a residual norm of zero exactly for them, stay at them, and end normally only at states that satisfy the tolerance in all equations.",
  "all meshes, states, schemes, boundary conditions, positive CFL numbers, numbers of iterations",
  "A stopping test that ignores an equation passes on every problem in which the equations converge together.",
  ["src/ode/aodesolver.cpp:SteadyForwardEulerSolver::solve", "src/ode/aodesolver.cpp:SteadyBackwardEulerSolver::solve", "src/ode/aodesolver.cpp:TVDRKSolver::solve"])
p("C96","Implicit steady solver",
  "With a linear solver that solves regular systems, an iteration of the implicit steady solver without under-relaxation is a backward Euler step over the local time steps with the residual linearised about the old states; it leaves a state unchanged exactly where the residual vanishes, approaches the explicit update as the CFL number falls, does not depend on thread schedules, and runs on several processes visit the states, norms and CFL numbers of the run on a single process. With a linear solver that only meets tolerances the step holds up to a defect within them, and with a relative tolerance below one the unchanged states are the same; with the second-order residual and first-order matrix both hold for the second-order residual.",
  "all meshes, admissible states, thread counts and schedules, numbers of iterations and processes, assignments of cells, exact and iterative linear solvers, stopping criteria",
  "Involves a derivative, a limit and all partitions; a wrong Jacobian or pseudo-time term still converges, only more slowly.",
  ["src/ode/aodesolver.cpp:SteadyBackwardEulerSolver::solve", "src/ode/aodesolver.cpp:addPseudoTimeTerm", "src/spatial/aspatial.cpp:assemble_jacobian"])
p("C97","Gas at rest under uniform pressure stays at rest",
  "Gas at rest under the same pressure everywhere, whatever its density in each cell, in a domain bounded by walls at rest, extrapolation or a far field at that pressure, has zero inviscid residual at first and second order, and steady runs of any length leave it unchanged.",
  "all meshes, density distributions, flux, gradient and reconstruction schemes, numbers of iterations",
  "Involves all density distributions; a scheme that smears density jumps at rest still converges on smooth test problems.",
  ["src/spatial/anumericalflux.cpp:get_flux", "src/spatial/flow_spatial.cpp:compute_residual", "src/spatial/abc.cpp:computeGhostState", "src/ode/aodesolver.cpp:SteadyForwardEulerSolver::solve"])
p("C98","No influence against a supersonic stream",
  "Where the gas leaves a set of cells faster than sound through every face of the set's rim that leads to other cells, nothing outside the set influences it: inviscid first-order residuals, local time steps and explicit updates of its cells depend only on the states in the set, for any number of iterations. The same holds for the rows of the implicit solver's matrix, which have no entries outside the set, and with exact linear solves and a constant CFL number for implicit updates.",
  "all meshes, sets of cells, admissible states, flux schemes, numbers of iterations",
  "Compares runs for all downstream states and sets of cells; a wrongly signed wave-speed branch only leaks for particular Mach numbers.",
  ["src/spatial/anumericalflux.cpp:get_flux", "src/spatial/flow_spatial.cpp:compute_fluxes", "src/spatial/flow_spatial.cpp:compute_max_timestep", "src/ode/aodesolver.cpp:SteadyForwardEulerSolver::solve", "src/spatial/anumericalflux.cpp:get_jacobian", "src/ode/aodesolver.cpp:SteadyBackwardEulerSolver::solve"])
p("C99","Independence of the units of mass and time",
  "Expressing densities and velocities in other units, with Mach and Reynolds numbers and boundary parameters converted accordingly, only converts the results: numerical and viscous fluxes, boundary states, gradients, residuals and local time steps are converted, and explicit steady runs make the same iterations and end in the same way.",
  "all units, states, schemes, boundary conditions, meshes, numbers of iterations",
  "Involves all units and states; a constant with a hidden dimension gives plausible results in the units of the tests.",
  ["src/spatial/anumericalflux.cpp:get_flux", "src/spatial/abc.cpp:computeGhostState", "src/physics/aphysics.hpp:IdealGasPhysics", "src/spatial/flow_spatial.cpp:compute_residual", "src/ode/aodesolver.cpp:SteadyForwardEulerSolver::solve"])
p("C100","Mirror images, and slip walls as symmetry planes",
  "Reflecting states and normals reflects fluxes and boundary states (moving walls then slide the other way). From the mirrored mesh file the code sets up the mirror image of the discretisation, and inviscid first-order residuals, local time steps and explicit steady runs on it are mirrored. On a symmetric mesh a symmetric state stays symmetric, and the run equals, cell by cell, the run on one half of the mesh with slip walls along the axis.",
  "all reflections, meshes, admissible states, flux schemes, boundary conditions, numbers of iterations",
  "Compares runs on different meshes for a continuum of axes; an error odd in one momentum component cancels on the symmetric bodies used as tests.",
  ["src/spatial/anumericalflux.cpp:get_flux", "src/spatial/abc.cpp:computeGhostState", "src/spatial/flow_spatial.cpp:compute_residual", "src/spatial/flow_spatial.cpp:compute_max_timestep", "src/mesh/mesh.cpp:compute_topological", "src/ode/aodesolver.cpp:SteadyForwardEulerSolver::solve"])
p("C101","Maximum principle of the diffusion solver",
  "Without source, the diffusion solver keeps values between all bounds of the initial values and the boundary value, step by step and over whole steady runs, explicit or implicit; and a state with zero residual is the boundary value everywhere.",
  "all meshes, states, diffusivities, CFL numbers, numbers of iterations",
  "Whether values stay in bounds depends on cell shape and CFL number; tests look at the converged error on nearly square cells only.",
  ["src/spatial/diffusion.cpp:compute_residual", "src/spatial/diffusion.cpp:compute_local_jacobian_interior", "src/ode/aodesolver.cpp:SteadyForwardEulerSolver::solve", "src/ode/aodesolver.cpp:SteadyBackwardEulerSolver::solve"])

p("C102","Convergence of the steady diffusion solver",
  "For every source that depends on position only there is exactly one steady state. Implicit runs with exact linear solves reach it from every initial state at all positive CFL numbers, although the boundary blocks of the matrix are half of what they should be; explicit runs reach it where CFL number times time step times conductances over area, boundary faces counted half, is below 1 in all cells, and on rectangles only there. Runs end with the tolerance met if enough iterations are allowed, and the distance to the steady state is bounded by a constant times the residual norm.",
  "all meshes of convex cells on one process, sources, initial states, diffusivities, CFL numbers, tolerances; thin-layer gradients, or any gradients where lines of centres are along the normals",
  "Tests run a few meshes from one initial state; convergence is a statement about infinitely many iterations from all states.",
  ["src/spatial/diffusion.cpp:compute_residual", "src/spatial/diffusion.cpp:compute_local_jacobian_interior", "src/ode/aodesolver.cpp:SteadyForwardEulerSolver::solve", "src/ode/aodesolver.cpp:SteadyBackwardEulerSolver::solve"])
p("C103","CFL numbers of a steady run",
  "Both steady solvers begin with the initial CFL number, keep within the limits, raise the CFL number exactly after a fall of the residual norm and lower it exactly after a rise (unless at a limit), by a power of the ratio of the last two norms; if the norms fall to zero the final CFL number is reached. The CFL numbers depend on ratios of norms only, so a problem whose residuals are expressed in another unit runs alike.",
  "all problems, initial states, residual histories, limits and iterations, both solvers",
  "Concerns all residual histories; the tests never look at CFL numbers, and a wrong ratio only slows convergence down.",
  ["src/ode/aodesolver.cpp:expResidualRamp", "src/ode/aodesolver.cpp:SteadyForwardEulerSolver::solve", "src/ode/aodesolver.cpp:SteadyBackwardEulerSolver::solve"])
p("C104","Independence of axes and units of the implicit solver",
  "Turning or reflecting the axes and changing the units of density, velocity and length maps flux Jacobians of all schemes, viscous Jacobians, boundary Jacobians and the assembled matrix of the implicit solver to the blocks conjugated by the map of states; with exact linear solvers every iteration and whole runs of the implicit steady solver are the images of each other and end in the same way.",
  "all turns, reflections, units, admissible states, schemes, boundary conditions, meshes, CFL numbers, numbers of iterations",
  "A wrong entry of a block still lets the tests converge; it shows as a dependence on axes or units, for which a continuum of pairs of runs would have to be compared.",
  ["src/spatial/anumericalflux.cpp:get_jacobian", "src/spatial/abc.cpp:computeGhostStateAndJacobian", "src/spatial/flow_spatial.cpp:compute_local_jacobian_interior", "src/spatial/flow_spatial.cpp:compute_local_jacobian_boundary", "src/ode/aodesolver.cpp:SteadyBackwardEulerSolver::solve", "src/ode/nonlinearrelaxation.cpp:FlowSimpleUpdate"])
p("C105","Residual history of a flow case",
  "With recording of residuals switched on, every steady flow case leaves a history file with one line per iteration of the main solve, in order, showing the iteration's number, the logarithms of its residual norm relative to the first and as such, and its CFL number; reading the recorded history never leaves it.",
  "all problems, solvers, outcomes of starting and main solves, processes",
  "Whether the file is written depends on how the solve ended; the tests look at converged cases only.",
  ["src/utilities/casesolvers.cpp:SteadyFlowCase::execute", "src/utilities/casesolvers.cpp:FlowCase::run_output", "src/ode/aodesolver.cpp:SteadyForwardEulerSolver::solve", "src/ode/aodesolver.cpp:SteadyBackwardEulerSolver::solve", "src/spatial/aoutput.cpp:writeStepToConvergenceHistory"])
p("C106","Search for a preconditioner",
  "Searching a linear solver for a preconditioner of a given type finds the first one, looking into block, multigrid and nested solvers, leaves the result untouched if there is none, and fails exactly if it comes to a block preconditioner with more or fewer blocks than one on the process.",
  "all nestings of preconditioners, types",
  "Nestings are unbounded; tests use one or two.",
  ["src/linalg/alinalg.cpp:getPC"])
p("C107","Text form of arrays",
  "An array written to a text stream is read back with the same dimensions and contents.",
  "all arrays of integers, arrays read into, following contents of the stream",
  "For all dimensions and contents; the tests never read back what they write.",
  ["src/utilities/aarray2d.cpp:Array2d::fprint", "src/utilities/aarray2d.cpp:Array2d::fread"])
p("C108","Whole steady cases",
  "A steady case - initial vector from the free stream, first-order starting run, main run - ends in exactly one way; a normal return means that the main run reached its tolerance from where the starting run left off. On any number of processes, on a mesh with renumbered cells, and on a turned, shifted and magnified mesh with the angle of attack turned along, it ends in the same way and leaves the corresponding vector. A stream without obstacles returns normally and unchanged. With van Leer's flux an explicit case never breaks down.",
  "all meshes, options, markers, angles of attack, configurations of both runs, numbers of iterations and processes",
  "Every case is a different run of two solvers in a row; tests check single cases against stored results.",
  ["src/utilities/casesolvers.cpp:SteadyFlowCase::execute", "src/utilities/casesolvers.cpp:SteadyFlowCase::execute_starter", "src/utilities/casesolvers.cpp:SteadyFlowCase::execute_main", "src/utilities/casesolvers.cpp:FlowCase::initializeSystemVector", "src/utilities/controlparser.cpp:extract_spatial_physics_config", "src/spatial/flow_spatial.cpp:FlowFV_base::FlowFV_base"])
p("C109","Stationary shocks",
  "Between two states with the same flux through a face, HLLC gives that flux exactly if the gas does not expand abruptly in its direction of flow, so it keeps shocks and contacts and rejects expansion shocks; HLL does so wherever gas crosses the face; AUSM+ keeps exactly the shocks without velocity along the face; the other schemes keep no shock, Roe's error being the jump times the speed of sound over 40000; no scheme keeps an expansion shock. On every mesh whose faces follow the discontinuities, HLLC keeps every steady field of constant pieces that the second law allows, for whole runs.",
  "all gases, admissible states, normals, schemes, meshes, boundary conditions, configurations and numbers of iterations",
  "Concerns all pairs of states on a curve that random states miss; a scheme that smears shocks or admits expansion shocks passes smooth-flow tests.",
  ["src/spatial/anumericalflux.cpp:HLLCFlux::get_flux", "src/spatial/anumericalflux.cpp:HLLFlux::get_flux", "src/spatial/anumericalflux.cpp:AUSMPlusFlux::get_flux", "src/spatial/anumericalflux.cpp:RoeFlux::get_flux", "src/spatial/flow_spatial.cpp:FlowFV::compute_residual"])
p("C110","Density carried along by a uniform stream",
  "Between two states of the same velocity and pressure but any densities, LLF, HLL, HLLC, AUSM+ and Roe move momentum and energy with the mass and leave the pressure to act as in a uniform stream; HLLC and AUSM+ give the flux of the side the stream comes from; AUSM and van Leer disturb velocity or pressure. In whole inviscid explicit runs with CFL numbers from 0 to 1, on any mesh, on one or several processes, with far fields of the same stream, extrapolation, and slip walls along it, velocity and pressure remain uniform and the densities within their initial and far-field bounds, for LLF, HLL and Roe provided these differ by at most a factor of four; with larger ratios a step can make a density negative.",
  "all gases, velocities, pressures, densities, normals, meshes, configurations, numbers of iterations and processes",
  "Pressure oscillations at moving contacts show only in unsteady runs with density differences; the tests are steady flows of nearly uniform entropy.",
  ["src/spatial/anumericalflux.cpp:LocalLaxFriedrichsFlux::get_flux", "src/spatial/anumericalflux.cpp:HLLFlux::get_flux", "src/spatial/anumericalflux.cpp:HLLCFlux::get_flux", "src/spatial/anumericalflux.cpp:AUSMPlusFlux::get_flux", "src/spatial/anumericalflux.cpp:AUSMFlux::get_flux", "src/spatial/anumericalflux.cpp:VanLeerFlux::get_flux", "src/spatial/anumericalflux.cpp:RoeFlux::get_flux", "src/ode/aodesolver.cpp:SteadyForwardEulerSolver::solve"])
p("C111","Uniform total enthalpy in steady flow",
  "AUSM and AUSM+ transport energy as mass flux times the total enthalpy of the side the mass comes from, and they are the only two of the seven schemes whose energy flux is mass flux times H between states of common total enthalpy H. In every steady state of the first-order inviscid scheme with either of them, on any mesh, with slip walls, insulated walls at rest, extrapolation and far fields of total enthalpy H: if from every cell one comes, against the mass fluxes from cell to cell, to a boundary face where gas of total enthalpy H enters, the total enthalpy is exactly H in all cells.",
  "all gases, schemes, meshes, boundary conditions of these kinds, steady states",
  "A statement about all solutions of the discrete equations; a test sees one converged solution to a tolerance.",
  ["src/spatial/anumericalflux.cpp:AUSMFlux::get_flux", "src/spatial/anumericalflux.cpp:AUSMPlusFlux::get_flux", "src/spatial/flow_spatial.cpp:FlowFV::compute_residual", "src/spatial/abc.cpp:Slipwall::computeGhostState"])
p("C112","Lift and drag of mirror images; no lift in symmetric flow",
  "Mirroring the mesh, the state and the free stream changes the sign of the lift coefficient and keeps the pressure drag (and the friction drag, if the gradients are mirrored). The explicit steady solver run on the mirrored mesh file ends alike with opposite lift and the same pressure drag. On a mesh symmetric about an axis along the free stream, started from a symmetric state, every iterate of the first-order inviscid explicit solver is symmetric and its lift coefficient is exactly zero.",
  "all gases, schemes, meshes, walls, reflections, symmetric states, numbers of iterations",
  "Involves whole runs and exact cancellation over all wall faces; a test sees small numbers for one geometry.",
  ["src/spatial/flow_spatial.cpp:FlowFV_base::computeSurfaceData", "src/spatial/flow_spatial.cpp:FlowFV::compute_residual", "src/ode/aodesolver.cpp:SteadyForwardEulerSolver::solve"])
p("C113","Continuity; limits of runs are steady and reported",
  "Every numerical flux depends continuously on both states, also where its formula changes (Mach 0 and 1, contacts, sonic points; HLLC for gamma of at least 4/3). So do the ghost states of walls, far-field and extrapolation boundaries, the first-order residual with and without viscosity, the time steps and the update of the explicit solver. If the iterates of an explicit run tend to a state, that state is steady, and the run is reported as converged for every tolerance between 0 and 1, given enough iterations. The characteristic in- and outflow boundary is continuous exactly where gas that stops has the far-field state and gas that becomes sonic has the free-stream pressure; elsewhere its ghost state and the flux jump.",
  "all gases, schemes, admissible states, normals, meshes, boundary conditions, configurations and runs",
  "A jump at a switch is met only by states on a surface that tests miss, and shows in practice as a run that stalls.",
  ["src/spatial/anumericalflux.cpp:HLLCFlux::get_flux", "src/spatial/anumericalflux.cpp:VanLeerFlux::get_flux", "src/spatial/anumericalflux.cpp:AUSMFlux::get_flux", "src/spatial/anumericalflux.cpp:AUSMPlusFlux::get_flux", "src/spatial/anumericalflux.cpp:RoeFlux::get_flux", "src/spatial/abc.cpp:InOutFlow::computeGhostState", "src/spatial/flow_spatial.cpp:FlowFV::compute_residual", "src/ode/aodesolver.cpp:SteadyForwardEulerSolver::solve"])
p("C114","Convergence of the explicit solver in a uniform stream",
  "A stream of one velocity, pressure and density enters through far-field boundaries and sweeps, from cell to cell, through the whole mesh; the cells start with its velocity and pressure and any densities (for LLF, HLL and Roe within a factor of four). Then the explicit solver with a CFL number in (0,1] tends to the uniform stream in all cells, the largest difference shrinking at least geometrically; the run is reported as converged for every tolerance between 0 and 1, on one or several processes, given enough iterations; and no other steady state has that velocity and pressure. Gas at rest is not swept: HLLC and AUSM+ keep its densities forever.",
  "all gases, streams, densities, meshes, boundary conditions of these kinds, tolerances, CFL numbers in (0,1], numbers of processes",
  "Convergence is a statement about infinite runs from all initial densities on all meshes; a test sees one run stop.",
  ["src/ode/aodesolver.cpp:SteadyForwardEulerSolver::solve", "src/spatial/flow_spatial.cpp:FlowFV::compute_residual", "src/spatial/anumericalflux.cpp:HLLCFlux::get_flux", "src/spatial/anumericalflux.cpp:AUSMPlusFlux::get_flux", "src/spatial/abc.cpp:Farfield::computeGhostState"])
p("C115","Objects are destroyed once and after their last use",
  "A steady case creates discretisations, matrices, linear solvers, update schemes, pseudo-time solvers and vectors, and destroys them. Whatever the settings and however both solves go (nothing to do, converged, not converged, diverged, blown up, invalid settings), no object is used or destroyed unless it exists, and none is destroyed twice. After a call which returns normally every object created has been destroyed; a call left by an exception leaves nothing behind either.",
  "all settings, lists of boundary conditions, courses of both solves, numbers of iterations",
  "Tests run the converging path and do not look at memory; the other paths are many and each leaves different objects.",
  ["src/utilities/casesolvers.cpp:SteadyFlowCase::execute_starter", "src/utilities/casesolvers.cpp:SteadyFlowCase::execute_main", "src/utilities/casesolvers.cpp:FlowCase::run", "src/utilities/casesolvers.cpp:FlowCase::run_output", "src/ode/aodesolver.cpp:SteadyBackwardEulerSolver::solve", "src/ode/aodesolver.cpp:SteadyForwardEulerSolver::solve", "src/spatial/flow_spatial.cpp:FlowFV_base::~FlowFV_base", "src/spatial/abc.cpp:create_const_flowBCs", "src/linalg/alinalg.cpp:create_matrixfree_jacobian"])
p("C116","The flow is the same for an observer moving along the face",
  "Let an observer move along a face with a constant velocity, so that all velocities change by the same vector w orthogonal to the face normal while densities and pressures stay. Every numerical flux then keeps its mass flux, its momentum flux gains w times the mass flux, and its energy flux gains the work of w on the momentum flux plus half |w|^2 times the mass flux. The ghost state of each boundary condition is the ghost state of the first observer seen by the second, wall speeds and free stream being seen from the same frame.",
  "all gases with gamma other than 1, states with non-zero density, normals, frame velocities along the face, flux schemes and boundary conditions",
  "Flow solvers are tested in one frame; a spurious dependence on tangential speed changes results slightly and looks like numerical error.",
  ["src/spatial/anumericalflux.cpp:LocalLaxFriedrichsFlux::get_flux", "src/spatial/anumericalflux.cpp:VanLeerFlux::get_flux", "src/spatial/anumericalflux.cpp:AUSMFlux::get_flux", "src/spatial/anumericalflux.cpp:AUSMPlusFlux::get_flux", "src/spatial/anumericalflux.cpp:RoeFlux::get_flux", "src/spatial/anumericalflux.cpp:HLLFlux::get_flux", "src/spatial/anumericalflux.cpp:HLLCFlux::get_flux", "src/spatial/abc.cpp:Adiabaticwall2D::computeGhostState"])
p("C117","Options of the option database are read as given",
  "A mandatory integer, switch, string or list is returned as the user gave it, and its absence or a malformed value is an exception. An optional one takes its default if it is absent. A switch given alone is on, and one given the value false is off. Strings and lists are returned whole or the call fails. Nothing stays allocated. The multigrid interpolation is computed anew in exactly the iterations listed.",
  "all option databases, names, text conversions, default values, buffer lengths and numbers of iterations",
  "Tests use short, well-formed values; truncation and switches given with a value are not tried.",
  ["src/utilities/aoptionparser.cpp:parsePetscCmd_isDefined", "src/utilities/aoptionparser.cpp:parsePetscCmd_int", "src/utilities/aoptionparser.cpp:parseOptionalPetscCmd_real", "src/utilities/aoptionparser.cpp:parsePetscCmd_string", "src/utilities/aoptionparser.cpp:parseOptionalPetscCmd_intArray", "src/ode/aodesolver.cpp:SteadyBackwardEulerSolver::solve", "src/utilities/casesolvers.cpp:SteadyFlowCase::SteadyFlowCase"])
p("C118","Processes of a solver never wait for each other for ever",
  "Each process runs the solver at its own pace with its own copies of the loop variables, and meets the others only in ghost updates, matrix assembly, linear solves and global sums. Whatever the order in which processes proceed, none is left waiting in an operation that another never enters, every execution ends, and all processes end alike: by the same exception, or after the same number of iterations with the same norms, CFL numbers and status, holding the solution that processes working in step compute.",
  "all numbers of processes, relative speeds and interleavings, meshes, assignments of cells, settings, configurations, linear solvers and initial states",
  "A hang depends on the speeds of the processes and on data of each; runs on one process cannot show it.",
  ["src/ode/aodesolver.cpp:SteadyForwardEulerSolver::solve", "src/ode/aodesolver.cpp:SteadyBackwardEulerSolver::solve", "src/ode/aodesolver.cpp:TVDRKSolver::solve", "src/spatial/flow_spatial.cpp:compute_residual"])
p("C119","The check of interface faces accepts correct subdomains",
  "checkConnFaces, offered with the partitioner to verify the global face numbers stored with a subdomain, returns true for every subdomain extracted from a conforming mesh whose interface records are correct.",
  "all conforming meshes, assignments of cells to processes, and subdomains with correct interface records",
  "The check is never run by the tests (its only call is a commented-out assertion), and on one process there are no interface faces, so that it passes trivially.",
  ["src/mesh/meshpartitioning.cpp:checkConnFaces", "src/mesh/meshpartitioning.hpp:checkConnFaces", "src/mesh/ameshutils.cpp:constructMesh"])
p("C120","Global sums have the sum over all processes as their result",
  "With every implementation of message passing that does what the MPI standard says, the residual norms of the steady solvers, the force coefficients and the entropy error on every process are those computed from the sums over all processes.",
  "all implementations of MPI_Allreduce that conform to the standard, numbers of processes, and contributions of the processes",
  "Tests run one implementation, usually one that happens to copy its input first.",
  ["src/ode/aodesolver.cpp:SteadyForwardEulerSolver::solve", "src/ode/aodesolver.cpp:SteadyBackwardEulerSolver::solve", "src/utilities/mpiutils.cpp:mpi_all_reduce", "src/spatial/flow_spatial.cpp:computeSurfaceData", "src/spatial/aoutput.cpp:FlowOutput::compute_entropy_cell"])
p("C121","Matrix-free products on several processes",
  "The product of the matrix-free operator with a distributed vector is, cell by cell, the product a single process computes, whatever the number of processes; on one process it is the directional difference of the residual of the whole mesh.",
  "all meshes, settings, states, directions, step lengths, numbers of processes and assignments of cells in the order of their numbers, and contents of freshly made vectors",
  "Freshly made vectors happen to be zero on the machines tested; the assignment of cells is one of many.",
  ["src/linalg/alinalg.cpp:MatrixFreeSpatialJacobian::apply"])
p("C122","The approximate viscous Jacobian is dissipative",
  "Applied to the faces between cells, the approximate viscous Jacobian subtracts the same multiple of the identity from both blocks, so that what it adds to the assembled matrix has the quadratic form of a weighted graph: the sum over faces of weight times squared difference, never negative. It can be applied to every face of the mesh.",
  "all meshes, states of positive density, viscosities, numbers of threads and schedules, vectors",
  "No test calls the function (its only call is commented out); definiteness quantifies over all vectors.",
  ["src/spatial/flow_spatial.cpp:compute_viscous_flux_approximate_jacobian"])
