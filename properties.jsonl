{"id": "C01", "title": "Conserved/primitive conversions are mutually inverse", "statement": "Converting a flow state from conserved to primitive variables and back gives the same state, and the reverse order too; the temperature-based primitive set determines the same total energy as the pressure-based one.", "quantifier": "all real states with non-zero density, all gas parameters with gamma != 1 and (for temperature) gamma, Mach number non-zero", "why_tests_cant": "The identity is over a 4-dimensional continuum of states and a family of gas parameters; tests check a few states to a tolerance.", "anchors": ["src/physics/aphysics_defs.hpp:getPrimitiveFromConserved", "src/physics/aphysics_defs.hpp:getConservedFromPrimitive", "src/physics/aphysics_defs.hpp:getEnergyFromPrimitive2", "src/physics/aphysics_defs.hpp:getPrimitive2FromConserved"]}
{"id": "C02", "title": "Variable and gradient conversions may be done in place", "statement": "Calling a state conversion or the conserved-to-primitive gradient conversion with the output array identical to the input array produces exactly the values that separate arrays would give, and the converted gradient is the chain-rule gradient.", "quantifier": "all states with non-zero density, all gradients, both aliased and non-aliased calls", "why_tests_cant": "Aliasing defects depend on the order of stores; a test with particular numbers (for example zero velocity) can pass by accident.", "anchors": ["src/physics/aphysics_defs.hpp:getPrimitiveFromConserved", "src/physics/aphysics_defs.hpp:getConservedFromPrimitive", "src/physics/aphysics_defs.hpp:getGradPrimitive2FromConservedAndGradConserved"]}
{"id": "C03", "title": "Analytical derivative routines return the true derivatives", "statement": "The routines documented as Jacobians (pressure, squared speed, temperature, sound speed, normal Mach number, density, energy, primitive-2 state and directional flux with respect to the conserved state) return the mathematical partial derivatives of the functions they are documented to differentiate.", "quantifier": "all admissible states (positive density, positive pressure where a square root is taken), all face normals, every component", "why_tests_cant": "Tests compare with finite differences at isolated states, to a tolerance which hides small terms.", "anchors": ["src/physics/aphysics_defs.hpp:getJacobianPressureWrtConserved", "src/physics/aphysics_defs.hpp:getJacobianTemperature", "src/physics/aphysics_defs.hpp:getJacobianSoundSpeed", "src/physics/aphysics_defs.hpp:getJacobianMachNormalWrtConserved", "src/physics/aphysics.cpp:getJacobianDirectionalFluxWrtConserved", "src/physics/aphysics.cpp:getJacobianVarsWrtConserved", "src/physics/aphysics.cpp:getJacobianPrimitive2WrtConserved"]}
{"id": "C04", "title": "Sutherland viscosity and its derivative", "statement": "Viscosity follows Sutherland's law with the constant 110.5 K, rises with temperature and is 1/Re in the free stream; the conductivity belongs to the Prandtl number. The routine for the derivative of the Sutherland viscosity with respect to the conserved state returns the derivative of the viscosity the solver uses.", "quantifier": "all states of positive temperature", "why_tests_cant": "A test at free-stream temperature T=1 cannot distinguish powers of T.", "anchors": ["src/physics/aphysics_defs.hpp:getJacobianSutherlandViscosityWrtConserved", "src/physics/aphysics_defs.hpp:getViscosityCoeffFromTemperature"]}
{"id": "C05", "title": "Pressure increment of a conserved-variable update", "statement": "The pressure increment routine returns p(u+du)-p(u).", "quantifier": "all states and updates with non-zero old and new density", "why_tests_cant": "It is an algebraic identity in eight variables; tests at du with a zero component can pass.", "anchors": ["src/physics/aphysics_defs.hpp:getDeltaPressureFromConserved"]}
{"id": "C06", "title": "Free-stream state realises the requested Mach number and incidence", "statement": "The free-stream state has density 1, speed 1 in the direction of the angle of attack, temperature 1, pressure 1/(gamma M^2), and its Mach number is the configured one.", "quantifier": "all angles of attack, all positive Mach numbers, all gamma > 1", "why_tests_cant": "Continuum of angles and Mach numbers.", "anchors": ["src/physics/aphysics.cpp:compute_freestream_state", "src/physics/aphysics_defs.hpp:getFreestreamPressure"]}
{"id": "C07", "title": "Viscous stress is symmetric, frame-indifferent and dissipative", "statement": "The viscous stress is symmetric, linear in the velocity gradient, zero for every rigid-body rotation, traceless up to the 2D/3D Stokes factor, and does non-negative work on the velocity gradient for non-negative viscosity.", "quantifier": "all velocity gradients and viscosities", "why_tests_cant": "Identities and inequalities over a continuum.", "anchors": ["src/physics/aphysics_defs.hpp:getStressTensor", "src/physics/aphysics.cpp:getJacobianStress"]}
{"id": "C08", "title": "Slip-wall ghost state is a mirror image", "statement": "The ghost state at an inviscid wall has the interior density, energy, pressure and speed, its normal velocity is the negative of the interior one, and taking the ghost of the ghost gives back the interior state.", "quantifier": "all interior states with non-zero density, all unit normals", "why_tests_cant": "Identity over states and directions; a test on axis-aligned walls misses cross terms.", "anchors": ["src/spatial/abc.cpp:Slipwall::computeGhostState"]}
{"id": "C09", "title": "No mass or energy passes through a slip wall", "statement": "With the slip-wall ghost state, the mass flux and energy flux computed by the inviscid flux schemes are zero and the momentum flux is along the normal.", "quantifier": "all admissible interior states, all unit normals, each flux scheme", "why_tests_cant": "Requires exact cancellation for every state, whereas tests see round-off-level numbers at sample states.", "anchors": ["src/spatial/abc.cpp:Slipwall", "src/spatial/anumericalflux.cpp"]}
{"id": "C10", "title": "Boundary-state Jacobians differentiate the boundary states", "statement": "For every boundary condition the Jacobian routine returns both the ghost state used by the residual and its derivative with respect to the interior state.", "quantifier": "all admissible interior states not on a branch switch, all normals, all boundary-condition kinds", "why_tests_cant": "Derivatives over a continuum, and disagreement only on some branches.", "anchors": ["src/spatial/abc.cpp:computeGhostStateAndJacobian", "src/spatial/abc.cpp:InOutFlow", "src/spatial/abc.cpp:Isothermalwall2D", "src/spatial/abc.cpp:Adiabaticwall2D"]}
{"id": "C11", "title": "No-slip walls impose the wall velocity and thermal condition", "statement": "At viscous walls the average of interior and ghost velocities is the wall velocity, pressure is continuous; at adiabatic walls the temperature is unchanged; at isothermal walls the average temperature is the wall temperature.", "quantifier": "all interior states, all unit normals, all wall speeds and wall temperatures", "why_tests_cant": "The defect in the thermal condition appears only for moving walls or special interior temperatures.", "anchors": ["src/spatial/abc.cpp:Adiabaticwall2D", "src/spatial/abc.cpp:Isothermalwall2D"]}
{"id": "C12", "title": "Characteristic in/outflow boundary selects by wave direction", "statement": "Supersonic outflow copies the interior, supersonic inflow imposes the free stream, subsonic outflow keeps density and velocity direction information from the interior with free-stream pressure; the free stream itself is reproduced at every such boundary.", "quantifier": "all admissible interior states and all normals", "why_tests_cant": "Branching on a real quantity; boundaries of the branches are measure-zero and never sampled.", "anchors": ["src/spatial/abc.cpp:InOutFlow::computeGhostState", "src/spatial/abc.cpp:Farfield", "src/spatial/abc.cpp:Extrapolation"]}
{"id": "C13", "title": "Stagnation inflow imposes the configured total conditions", "statement": "The ghost state at a total-pressure/total-temperature inflow has the configured total temperature and total pressure.", "quantifier": "all interior states, all inflow configurations", "why_tests_cant": "Holds only on special configurations, which a test is likely to choose.", "anchors": ["src/spatial/abc.cpp:InFlow::computeGhostState"]}
{"id": "C14", "title": "Boundary-condition construction covers exactly the supported kinds", "statement": "Building the set of boundary conditions succeeds precisely when every configured boundary has a supported kind, each mesh tag is bound to the condition configured for it, and kind names in the control file map one-to-one to kinds.", "quantifier": "all lists of boundary configurations", "why_tests_cant": "Lists of arbitrary length with repeated or missing tags.", "anchors": ["src/spatial/abc.cpp:create_const_flowBCs", "src/spatial/abctypemap.hpp"]}
{"id": "C15", "title": "Numerical fluxes are consistent", "statement": "For equal left and right states each inviscid flux scheme returns the analytical Euler flux in the face direction.", "quantifier": "all admissible states, all unit normals, all seven schemes", "why_tests_cant": "Continuum of states including sonic and stagnation switches.", "anchors": ["src/spatial/anumericalflux.cpp:get_flux"]}
{"id": "C16", "title": "Numerical fluxes are conservative under side swap", "statement": "Exchanging the two sides and reversing the normal negates the flux, so what leaves one cell enters the other irrespective of face orientation.", "quantifier": "all admissible left/right states, all unit normals", "why_tests_cant": "Depends on tie-breaking of comparisons at switching points.", "anchors": ["src/spatial/anumericalflux.cpp:get_flux"]}
{"id": "C17", "title": "Supersonic flow is fully upwinded", "statement": "When all waves (as estimated by the scheme) travel from left to right the numerical flux equals the analytical flux of the left state, independent of the right state, for every scheme except local Lax-Friedrichs.", "quantifier": "all pairs of admissible states supersonic along the normal", "why_tests_cant": "Infinite set of state pairs.", "anchors": ["src/spatial/anumericalflux.cpp:VanLeerFlux", "src/spatial/anumericalflux.cpp:AUSMFlux", "src/spatial/anumericalflux.cpp:HLLFlux", "src/spatial/anumericalflux.cpp:HLLCFlux"]}
{"id": "C18", "title": "Flux Jacobians are consistent", "statement": "For equal left and right states the derivative blocks returned for the two sides add up to the Jacobian of the analytical flux; for the schemes claimed exact the blocks are the derivatives of the numerical flux.", "quantifier": "all admissible states, all normals", "why_tests_cant": "Finite-difference tests tolerate O(h) errors and do not visit branch boundaries.", "anchors": ["src/spatial/anumericalflux.cpp:get_jacobian", "src/spatial/anumericalflux.cpp:get_jacobian_2"]}
{"id": "C19", "title": "Fluxes do not depend on the orientation of the coordinate axes", "statement": "Rotating both states and the normal rotates the momentum components of the flux and leaves mass and energy fluxes unchanged.", "quantifier": "all rotations, all admissible states", "why_tests_cant": "Continuum of rotations.", "anchors": ["src/spatial/anumericalflux.cpp"]}
{"id": "C20", "title": "Stationary contact discontinuities are preserved by HLLC and AUSM", "statement": "For two states with equal pressure and zero normal velocity, arbitrary density and tangential velocity, the flux is pure pressure.", "quantifier": "all densities, tangential velocities, pressures", "why_tests_cant": "Exactness for all pairs.", "anchors": ["src/spatial/anumericalflux.cpp:HLLCFlux::get_flux", "src/spatial/anumericalflux.cpp:AUSMFlux::get_flux"]}
{"id": "C21", "title": "HLLC wave ordering and star states", "statement": "For ratios of specific heats at least 4/3 the contact speed lies between the two acoustic speeds and star densities are positive; the star states satisfy the Rankine-Hugoniot relations across the acoustic waves.", "quantifier": "all admissible state pairs", "why_tests_cant": "Positivity for all inputs.", "anchors": ["src/spatial/anumericalflux.cpp:HLLCFlux::getStarState", "src/spatial/anumericalflux.cpp:HLLCFlux::get_flux"]}
{"id": "C22", "title": "Cells are closed", "statement": "For every cell, the sum over its faces of outward unit normal times face length is zero, face normals have unit length and are perpendicular to the face, and the two cells sharing a face see opposite normals.", "quantifier": "all meshes and node positions without zero-length faces, any number of cells", "why_tests_cant": "Must hold for every geometry, otherwise free-stream is not preserved.", "anchors": ["src/mesh/mesh.cpp:compute_face_data", "src/mesh/mesh.cpp:compute_faceConnectivity"]}
{"id": "C23", "title": "Cell areas are polygon areas", "statement": "The area of a triangle or quadrilateral equals the signed polygon area: independent of the starting vertex, translation-invariant, positive for counter-clockwise convex cells, negated by reversal, and equal to the boundary integral by the divergence theorem.", "quantifier": "all vertex positions", "why_tests_cant": "Continuum of geometries.", "anchors": ["src/mesh/mesh.cpp:compute_areas"]}
{"id": "C24", "title": "Ghost-cell centres are mirror images", "statement": "The ghost-cell centre about a face midpoint, respectively about the face line, is the point reflection, respectively line reflection, of the interior cell centre.", "quantifier": "all cell centres, all non-degenerate faces including axis-aligned ones", "why_tests_cant": "The general formula divides by quantities that vanish on axis-aligned faces.", "anchors": ["src/spatial/aspatial.cpp:compute_ghost_cell_coords_about_midpoint", "src/spatial/aspatial.cpp:compute_ghost_cell_coords_about_face"]}
{"id": "C25", "title": "Point-to-cell lists are exact", "statement": "For every mesh, after topological pre-processing the list of cells around a point contains exactly the cells having that point as vertex, once per occurrence, in increasing order, and lists of different points do not overlap.", "quantifier": "all meshes: any number of points, cells, mixed triangles and quads", "why_tests_cant": "Unbounded mesh size and arbitrary connectivity.", "anchors": ["src/mesh/mesh.cpp:compute_elementsSurroundingPoints"]}
{"id": "C26", "title": "Cell-to-cell adjacency is symmetric and geometric", "statement": "After topological pre-processing, a cell j is recorded as neighbour of cell i across one of its faces only if they share the two vertices of that face, every pair sharing a face is recorded, and the relation is symmetric.", "quantifier": "all meshes whose cells pairwise share at most one face", "why_tests_cant": "Unbounded mesh size; the loop overwrites earlier matches so correctness depends on global structure.", "anchors": ["src/mesh/mesh.cpp:compute_elementsSurroundingElements"]}
{"id": "C27", "title": "Face list enumerates every face exactly once", "statement": "The face list contains each physical boundary face, each interior face and each partition-interface face exactly once in consecutive ranges, the lower-numbered cell of an interior face is on the left, and the nodes are in the left cell's order.", "quantifier": "all meshes", "why_tests_cant": "Unbounded mesh size.", "anchors": ["src/mesh/mesh.cpp:compute_faceConnectivity"]}
{"id": "C28", "title": "Host cell of a boundary face", "statement": "For each boundary face the host cell reported is the unique cell containing both nodes; if several cells contain them an error is raised; a boundary face belonging to no cell is a usage error.", "quantifier": "all meshes and boundary face lists", "why_tests_cant": "Error paths depend on mesh inconsistencies.", "anchors": ["src/mesh/mesh.cpp:compute_phyBFaceNeighboringElements", "src/mesh/mesh.cpp:getFaceEIndex"]}
{"id": "C29", "title": "Boundary faces are oriented outward after correction", "statement": "After the orientation correction every boundary face lists its nodes in its host cell's order; the correction is idempotent and changes neither tags nor the set of nodes.", "quantifier": "all meshes and any initial orientations", "why_tests_cant": "2^n orientation patterns.", "anchors": ["src/mesh/mesh.cpp:correctBoundaryFaceOrientation"]}
{"id": "C30", "title": "Cell reordering is a pure renumbering", "statement": "Reordering cells by a permutation yields the same mesh with renumbered cells: all per-cell data follow the cell.", "quantifier": "all permutations, all meshes", "why_tests_cant": "n! permutations; a test with identity-tag meshes cannot see unpermuted region data.", "anchors": ["src/mesh/mesh.cpp:reorder_cells", "src/mesh/meshordering.cpp:lineReorder"]}
{"id": "C31", "title": "Periodic boundary pairing", "statement": "After periodic mapping, the pairing of periodic faces is symmetric: if face i's ghost is the interior cell of face j then face j's ghost is the interior cell of face i.", "quantifier": "all boundary face lists and positions", "why_tests_cant": "Fails only when more than two faces are within tolerance.", "anchors": ["src/mesh/mesh.cpp:compute_periodic_map"]}
{"id": "C32", "title": "Mesh file round trip", "statement": "Writing a mesh in Gmsh-2 format and reading it back gives the same points, cells, boundary faces and tags.", "quantifier": "all meshes with triangles and quads, any number of boundary tags and domain tags", "why_tests_cant": "Unbounded meshes, tag counts 0,1,2,...", "anchors": ["src/mesh/mesh.cpp:writeGmsh2", "src/mesh/meshreaders.cpp:readGmsh2"]}
{"id": "C33", "title": "Point neighbour lists", "statement": "The list of points around a point contains exactly the points joined to it by a cell edge, each once.", "quantifier": "all meshes", "why_tests_cant": "Unbounded mesh size.", "anchors": ["src/mesh/mesh.cpp:compute_pointsSurroundingPoints"]}
{"id": "C34", "title": "Level scheduling admits parallel sweeps", "statement": "The level schedule partitions the cells into consecutive ranges covering all cells in order, and no two cells of a range are neighbours.", "quantifier": "all meshes/adjacency graphs", "why_tests_cant": "Unbounded graphs.", "anchors": ["src/mesh/ameshutils.cpp:levelSchedule"]}
{"id": "C35", "title": "Hybrid line ordering is a permutation keeping lines contiguous", "statement": "Lines found in anisotropic regions are disjoint chains of adjacent cells, and the hybrid ordering visits every cell exactly once with each line's cells consecutive.", "quantifier": "all meshes and anisotropy thresholds", "why_tests_cant": "Unbounded meshes; greedy algorithm with many paths.", "anchors": ["src/mesh/meshordering.cpp:findLines", "src/mesh/meshordering.cpp:getHybridLineOrdering"]}
{"id": "C36", "title": "Trivial partition covers all cells", "statement": "The trivial partitioner assigns every cell to exactly one existing rank, the cells of a rank are contiguous and every rank receives at least one cell, provided there are at least as many cells as ranks; otherwise construction fails.", "quantifier": "all cell and rank counts", "why_tests_cant": "Infinite family of (cells, ranks).", "anchors": ["src/mesh/meshpartitioning.cpp:compute_partition"]}
{"id": "C37", "title": "Subdomain extraction preserves cells and geometry", "statement": "Each rank's subdomain contains exactly the cells assigned to it with their region tags, its local points are exactly the points of these cells, and every local cell vertex has the global vertex's coordinates.", "quantifier": "all meshes, all partitions", "why_tests_cant": "Unbounded meshes and arbitrary partitions.", "anchors": ["src/mesh/meshpartitioning.cpp:restrictMeshToPartitions", "src/mesh/meshpartitioning.cpp:extractInpoel", "src/mesh/meshpartitioning.cpp:extractPointCoords"]}
{"id": "C38", "title": "Partition-interface faces are all found", "statement": "Every face shared by cells on different ranks is registered as an interface face on both ranks with the other rank's identity and global cell index.", "quantifier": "all meshes, all partitions", "why_tests_cant": "Fails only for special partitions (interface face with both end points on the physical boundary).", "anchors": ["src/mesh/meshpartitioning.cpp:getConnectivityFaceEIndices", "src/mesh/meshpartitioning.cpp:restrictMeshToPartitions"]}
{"id": "C39", "title": "Cell adjacency graph handed to the partitioner", "statement": "The CSR graph lists for each cell exactly its real neighbours; it is symmetric, loop-free and the offsets are monotone from zero to the total count.", "quantifier": "all meshes", "why_tests_cant": "Unbounded meshes.", "anchors": ["src/mesh/meshpartitioning.cpp:getCellAdjLists"]}
{"id": "C40", "title": "Interface exchange delivers the neighbour's face values", "statement": "After an interface exchange completes on all ranks, the right-hand value stored for each interface face is the left-hand value the neighbouring rank holds for the same physical face, regardless of the order in which messages are delivered.", "quantifier": "all partitions, all numbers of ranks and interface faces, every message interleaving", "why_tests_cant": "Exponentially many schedules.", "anchors": ["src/linalg/tracevector.cpp:update_comm_pattern", "src/linalg/tracevector.cpp:updateSharedFacesBegin", "src/linalg/tracevector.cpp:updateSharedFacesEnd"]}
{"id": "C41", "title": "The residual is conservative", "statement": "The sum of residuals over all cells equals minus the sum of boundary face fluxes: interior fluxes cancel.", "quantifier": "all meshes, all flux values", "why_tests_cant": "Unbounded meshes, all states.", "anchors": ["src/spatial/flow_spatial.cpp:compute_fluxes"]}
{"id": "C42", "title": "Residual assembly does not depend on thread scheduling", "statement": "For every interleaving of the threads that process faces, accumulation with atomic updates yields the sequential result; the same updates without atomicity can lose contributions.", "quantifier": "all meshes, all thread counts and interleavings", "why_tests_cant": "Exponentially many interleavings; races are intermittent.", "anchors": ["src/spatial/flow_spatial.cpp:compute_fluxes", "src/spatial/agradientschemes.cpp:GreenGaussGradients::compute_gradients"]}
{"id": "C43", "title": "Free-stream preservation", "statement": "If the whole field equals the free stream and all boundaries are far-field boundaries, the residual is exactly zero in every cell.", "quantifier": "all meshes with closed cells, all free-stream states, every consistent flux scheme", "why_tests_cant": "All geometries.", "anchors": ["src/spatial/flow_spatial.cpp:compute_residual", "src/spatial/flow_spatial.cpp:compute_fluxes"]}
{"id": "C44", "title": "Gradient accumulation at boundary faces is race-free", "statement": "Green-Gauss gradients are the same for every thread schedule.", "quantifier": "all meshes and interleavings", "why_tests_cant": "Race requires particular timing on cells with two boundary faces.", "anchors": ["src/spatial/agradientschemes.cpp:GreenGaussGradients::compute_gradients"]}
{"id": "C45", "title": "Gradient schemes are exact where promised", "statement": "Weighted least-squares gradients are exact for linear fields on any stencil spanning the plane; Green-Gauss gradients of constant fields vanish on closed cells and those of linear fields are exact in cells whose face midpoints lie between the centres; both are linear in the data.", "quantifier": "all meshes, all linear fields", "why_tests_cant": "All geometries and fields.", "anchors": ["src/spatial/agradientschemes.cpp"]}
{"id": "C46", "title": "Reconstruction is exact for linear and constant fields", "statement": "Unlimited linear reconstruction and MUSCL reconstruct linear fields exactly at face centres (MUSCL at cell-centre midpoints), and every reconstruction returns the cell value for constant fields. In the second-order residual a linear field of primitive variables gives both sides of every face between two cells its state at that point, hence the exact flux there.", "quantifier": "all geometries, all linear fields", "why_tests_cant": "Continuum.", "anchors": ["src/spatial/areconstruction.cpp", "src/spatial/musclreconstruction.cpp", "src/spatial/reconstruction_utils.hpp"]}
{"id": "C47", "title": "Limiters create no new extrema", "statement": "The Barth-Jespersen limiter is between 0 and 1 and limited face values lie between the minimum and maximum of the cell and its neighbours; Van Albada and Venkatakrishnan limiters are in [0,1]; MUSCL face values lie between the values on both sides of the face, up to 1.25e-5. With the smoothing constant K, Venkatakrishnan face values leave the range of the cell and its neighbours by at most sqrt((K L)^3/8), L being the longest edge of the cell, and differ from the unlimited ones by at most 2 d^3/(K L)^3 where these vary by at most d over the cell.", "quantifier": "all cell averages, gradients, geometries", "why_tests_cant": "Inequality over a continuum with ties.", "anchors": ["src/spatial/limitedlinearreconstruction.cpp:BarthJespersenLimiter", "src/spatial/limitedlinearreconstruction.cpp:VenkatakrishnanLimiter", "src/spatial/musclreconstruction.cpp:VanAlbada"]}
{"id": "C48", "title": "Limiters read only cell data that exist", "statement": "For every mesh the limiters access only rows of the state array that are allocated.", "quantifier": "all meshes (in particular cells with physical boundary faces)", "why_tests_cant": "Out-of-range reads silently return neighbouring memory.", "anchors": ["src/spatial/limitedlinearreconstruction.cpp:BarthJespersenLimiter::compute_face_values", "src/spatial/limitedlinearreconstruction.cpp:VenkatakrishnanLimiter::compute_face_values"]}
{"id": "C49", "title": "WENO gradient is a convex combination", "statement": "The WENO gradient is a convex combination of the central and neighbouring gradients, hence bounded by them and exact for linear fields.", "quantifier": "all gradients, all positive central weights", "why_tests_cant": "Continuum.", "anchors": ["src/spatial/limitedlinearreconstruction.cpp:WENOReconstruction"]}
{"id": "C50", "title": "Assembled Jacobian matches the face-wise derivatives", "statement": "The assembled matrix applied to a perturbation equals the sum over faces of the derivative of the residual contributions; interior block columns sum to zero; assembly order is irrelevant; distributed assembly gives the rows of the serial matrix.", "quantifier": "all meshes, all face blocks, all assembly orders", "why_tests_cant": "Unbounded meshes and schedules.", "anchors": ["src/spatial/aspatial.cpp:assemble_jacobian"]}
{"id": "C51", "title": "Local time steps are positive and respect the wave-speed bound", "statement": "With positive cell areas and admissible states each local time step is positive and equals area over the integral of wave speeds over the cell's faces, independent of the order of face processing.", "quantifier": "all meshes, all states", "why_tests_cant": "All meshes.", "anchors": ["src/spatial/flow_spatial.cpp:compute_max_timestep"]}
{"id": "C52", "title": "Face gradient and viscous flux consistency", "statement": "The modified average face gradient has the exact directional derivative between cell centres, is exact for linear fields, and viscous fluxes vanish for uniform flow, are opposite for the two sides, and in linear velocity fields are the Navier-Stokes stress on the face and the work and heat flux belonging to it.", "quantifier": "all states, gradients and geometries", "why_tests_cant": "Continuum.", "anchors": ["src/spatial/aspatial.cpp:getFaceGradient_modifiedAverage", "src/physics/viscousphysics.cpp:computeViscousFlux"]}
{"id": "C53", "title": "Scalar diffusion discretisation", "statement": "The diffusion boundary state makes the face average equal the prescribed value; the diffusion residual is conservative; the diffusion Jacobian is the derivative of the thin-layer residual.", "quantifier": "all meshes and fields", "why_tests_cant": "All meshes.", "anchors": ["src/spatial/diffusion.cpp"]}
{"id": "C54", "title": "CFL ramping stays within configured limits", "statement": "Both CFL ramp functions return values within the configured bounds, monotone in the iteration count (linear ramp) resp. non-decreasing when the residual falls (residual-based ramp).", "quantifier": "all iteration numbers, all residual histories", "why_tests_cant": "Unbounded histories.", "anchors": ["src/ode/aodesolver.cpp:linearRamp", "src/ode/aodesolver.cpp:expResidualRamp"]}
{"id": "C55", "title": "Under-relaxation factor is safe", "statement": "The relaxation factor lies between the configured minimum and 1, and when it is not the minimum, the updated density and pressure stay positive.", "quantifier": "all states and updates", "why_tests_cant": "Continuum of updates.", "anchors": ["src/ode/nonlinearrelaxation.cpp"]}
{"id": "C56", "title": "Steady solvers terminate and report convergence truthfully", "statement": "A steady solve performs at most the maximum number of iterations, reports success only if the residual ratio met the tolerance, and reports failure only if it did not.", "quantifier": "all residual histories", "why_tests_cant": "Histories of any length; edge case at the last iteration.", "anchors": ["src/ode/aodesolver.cpp:SteadyForwardEulerSolver::solve", "src/ode/aodesolver.cpp:SteadyBackwardEulerSolver::solve"]}
{"id": "C57", "title": "Pseudo-time step uses the reported CFL number", "statement": "The explicit steady solver's update uses the ramped CFL number that it reports.", "quantifier": "all configurations", "why_tests_cant": "Only visible with ramping enabled and by comparing to a hand computed update.", "anchors": ["src/ode/aodesolver.cpp:SteadyForwardEulerSolver::solve"]}
{"id": "C58", "title": "TVD Runge-Kutta schemes have their nominal order", "statement": "The unsteady integrator of order q reproduces the Taylor expansion of du/dt = r(u) to order q, and each stage is a convex combination of forward-Euler steps.", "quantifier": "all linear right-hand sides, all step sizes, orders 1-3", "why_tests_cant": "Convergence tests look at a single smooth problem.", "anchors": ["src/ode/aodesolver.cpp:TVDRKSolver::solve", "src/ode/aodesolver.cpp:initialize_TVDRK_Coeffs"]}
{"id": "C59", "title": "Pseudo-time term is added to the diagonal only", "statement": "The implicit steady solver adds area/(CFL dt) to each diagonal entry of the cell's diagonal block and nothing elsewhere.", "quantifier": "all meshes", "why_tests_cant": "Unbounded sizes.", "anchors": ["src/ode/aodesolver.cpp:addPseudoTimeTerm"]}
{"id": "C60", "title": "Matrix-free Jacobian product", "statement": "The matrix-free operator returns the pseudo-time diagonal times x plus the directional derivative of the residual; exact for affine residuals and for any perturbation size; error is bounded by the curvature for smooth residuals.", "quantifier": "all residual functions, states, non-zero directions", "why_tests_cant": "All functions.", "anchors": ["src/linalg/alinalg.cpp:MatrixFreeSpatialJacobian::apply"]}
{"id": "C61", "title": "Matrix preallocation is sufficient", "statement": "The number of nonzero blocks preallocated per row is at least the number inserted during assembly.", "quantifier": "all meshes and partitions", "why_tests_cant": "Fails only for cells with several interface faces.", "anchors": ["src/linalg/alinalg.cpp:setJacobianPreallocation", "src/spatial/aspatial.cpp:assemble_jacobian"]}
{"id": "C62", "title": "Vector access handles always balance", "statement": "For every sequence of operations on a vector access handle including destruction at any point, each acquired array is restored exactly once and no array is accessible after restoring.", "quantifier": "all operation sequences", "why_tests_cant": "Unbounded histories, early exits.", "anchors": ["src/linalg/petscutils.cpp"]}
{"id": "C63", "title": "Boundary-condition list in the control file", "statement": "The parser reads the boundary condition sections numbered consecutively from zero; every section before the first gap is included in order and nothing after it.", "quantifier": "all control files", "why_tests_cant": "Arbitrary numbering patterns.", "anchors": ["src/utilities/controlparser.cpp:parse_BC_options"]}
{"id": "C64", "title": "Every solver parameter used is defined", "statement": "For every accepted control file each numerical parameter passed to the solvers has been set from the file or from a documented default.", "quantifier": "all control files", "why_tests_cant": "Uninitialised reads often return plausible values.", "anchors": ["src/utilities/controlparser.cpp:parse_flow_controlfile"]}
{"id": "C65", "title": "Scheme selection by name", "statement": "The factories return the scheme of the requested name for every supported name, and never return an unusable object for an unsupported name.", "quantifier": "all strings", "why_tests_cant": "Infinite set of names.", "anchors": ["src/utilities/afactory.cpp"]}
{"id": "C66", "title": "Failure reporting of a flow case", "statement": "A run which does not converge or blows up numerically is reported as failure to the caller.", "quantifier": "all outcomes of starter and main solves", "why_tests_cant": "Combination of exceptions from nested solves.", "anchors": ["src/utilities/casesolvers.cpp:SteadyFlowCase::execute", "src/utilities/casesolvers.cpp:FlowCase::run_output"]}
{"id": "C67", "title": "Nodal output values are averages of surrounding cells", "statement": "The nodal value written for each variable is the area-weighted average of the surrounding cells' values; in particular constant fields are reproduced.", "quantifier": "all meshes and fields", "why_tests_cant": "All meshes.", "anchors": ["src/spatial/aoutput.cpp:postprocess_point"]}
{"id": "C68", "title": "VTU connectivity offsets", "statement": "The offsets written to VTU files are the cumulative node counts, for hybrid meshes too.", "quantifier": "all meshes (mixed cell types)", "why_tests_cant": "Uniform-cell meshes hide the defect.", "anchors": ["src/spatial/aoutput.cpp:writeScalarsVectorToVtu_PointData", "src/spatial/aoutput.cpp:writeMeshToVtu"]}
{"id": "C69", "title": "Surface force coefficients", "statement": "Lift, drag and skin-friction sums are orientation-consistent: uniform pressure on a closed surface gives no force, and rotating the geometry and the free stream together leaves the coefficients unchanged.", "quantifier": "all surfaces and pressure distributions", "why_tests_cant": "All geometries.", "anchors": ["src/spatial/flow_spatial.cpp:computeSurfaceData"]}
{"id": "C70", "title": "Dense array storage", "statement": "The 2D array type maps distinct index pairs to distinct storage cells, copies are independent of the original, and assignment gives an equal array, including self-assignment.", "quantifier": "all dimensions and index pairs", "why_tests_cant": "All sizes.", "anchors": ["src/utilities/aarray2d.hpp"]}
{"id": "C71", "title": "Cell-to-face map and neighbour across a face", "statement": "After topological pre-processing, each local face of each cell refers to the face of the list having exactly its two nodes and the cell on one side, and the recorded neighbour is the cell on the other side.", "quantifier": "all conforming meshes, cells and local faces", "why_tests_cant": "All meshes and numberings.", "anchors": ["src/mesh/mesh.cpp:compute_faceConnectivity", "src/mesh/mesh.cpp:compute_elementsSurroundingElements"]}
{"id": "C72", "title": "Gmsh reader accepts any valid ordering", "statement": "Reading a Gmsh-2 file yields the mesh described by it, whatever the order of its entries and the numbering of its nodes.", "quantifier": "all files in the format", "why_tests_cant": "Mesh generators produce the usual order, so that tests always use it.", "anchors": ["src/mesh/meshreaders.cpp:readGmsh2"]}
{"id": "C73", "title": "Viscous flux Jacobian is the derivative of the viscous flux", "statement": "The two blocks returned for a face are minus the derivative with respect to the left state and the derivative with respect to the right state of the first-order viscous flux.", "quantifier": "all states with nonzero density, all geometries, both viscosity laws", "why_tests_cant": "Finite differences at chosen states cover neither all states nor both viscosity laws.", "anchors": ["src/physics/viscousphysics.cpp:computeViscousFluxJacobian", "src/spatial/flow_spatial.cpp:compute_viscous_flux_jacobian"]}
{"id": "C74", "title": "Ghost blocks hold the value of the cell across the interface face", "statement": "After a ghost update of a distributed vector, the ghost block belonging to an interface face holds the value of the neighbouring rank's cell across that face.", "quantifier": "all conforming meshes, all assignments of cells to any number of ranks, all field values", "why_tests_cant": "Tests use the trivial partition; other partitioners number the cells differently.", "anchors": ["src/linalg/alinalg.cpp:createGhostedSystemVector", "src/mesh/meshpartitioning.cpp:restrictMeshToPartitions"]}
{"id": "C75", "title": "Residual depends on a cell's surroundings only", "statement": "Two discretisations whose meshes agree around a cell up to renumbering give the cell the same gradient, face states and residual, first and second order.", "quantifier": "all pairs of conforming meshes related by a local copy, all states, all schemes", "why_tests_cant": "Needs comparison of arbitrary renumberings.", "anchors": ["src/spatial/flow_spatial.cpp:compute_residual", "src/spatial/flow_spatial.cpp:compute_fluxes", "src/spatial/agradientschemes.cpp"]}
{"id": "C76", "title": "Distributed residual equals the single-process residual", "statement": "On every rank, the residual computed for each of its cells equals that computed by a single process holding the whole mesh.", "quantifier": "all conforming meshes, assignments of cells to ranks, states, schemes and interleavings of the exchange", "why_tests_cant": "Neither all partitions nor all interleavings can be run.", "anchors": ["src/spatial/flow_spatial.cpp:compute_residual", "src/linalg/alinalg.cpp:createGhostedSystemVector", "src/mesh/meshpartitioning.cpp:restrictMeshToPartitions", "src/linalg/tracevector.cpp"]}
{"id": "C77", "title": "Renumbering the cells leaves the residual with the cells", "statement": "Reordering the cells of a mesh permutes gradients, residuals and neighbours accordingly: each cell keeps the residual it had, and steady runs, explicit or implicit, repeat with each cell in the states it had and the same reported norms and CFL numbers.", "quantifier": "all conforming meshes, permutations, states, schemes, configurations and executions", "why_tests_cant": "Tests run one ordering at a time.", "anchors": ["src/mesh/mesh.cpp:reorder_cells", "src/mesh/ameshutils.cpp:preprocessMesh", "src/spatial/flow_spatial.cpp:compute_residual"]}
{"id": "C78", "title": "Mesh comparison answers what it documents", "statement": "Each of the eight answers says whether the named part of two meshes is the same; all are positive exactly if the meshes agree up to rounding of coordinates.", "quantifier": "all pairs of meshes", "why_tests_cant": "Quantifies over all pairs of meshes, also of different sizes.", "anchors": ["src/mesh/ameshutils.cpp:compareMeshes"]}
{"id": "C79", "title": "A single process gets the mesh that was read", "statement": "On one process the partitioner hands out the mesh itself: same cells, points, boundary faces, tags and coordinates in the same order and no interface faces, and the check of debug builds succeeds.", "quantifier": "all conforming meshes", "why_tests_cant": "Tests compare a handful of meshes.", "anchors": ["src/mesh/ameshutils.cpp:constructMesh", "src/mesh/meshpartitioning.cpp:restrictMeshToPartitions"]}
{"id": "C80", "title": "Reported entropy error and mesh size", "statement": "The entropy error is the area-weighted L2 norm of the relative deviation from the free-stream isentrope, zero exactly for isentropic solutions, and like the mesh size does not depend on the number of processes and threads.", "quantifier": "all states, meshes, distributions of cells to processes and threads", "why_tests_cant": "Convergence studies use the values for a few meshes on one process.", "anchors": ["src/spatial/aoutput.cpp:compute_entropy_cell", "src/physics/aphysics_defs.hpp:getEntropyFromConserved", "src/utilities/casesolvers.cpp:run_output"]}
{"id": "C81", "title": "Heat conduction obeys Fourier's law", "statement": "The energy flux through a face is the work of the viscous momentum flux and the heat conducted along the gradient of enthalpy with coefficient viscosity over Prandtl number; heat flows from warm to cold.", "quantifier": "all states, gradients, faces and gas parameters", "why_tests_cant": "Tests compare Jacobians with finite differences, which agree for a wrong conductivity too.", "anchors": ["src/physics/viscousphysics.cpp:computeViscousFlux", "src/physics/aphysics_defs.hpp:getThermalConductivityFromViscosity", "src/spatial/flow_spatial.cpp:compute_viscous_flux"]}
{"id": "C82", "title": "Distributed Jacobian matrix equals the single-process matrix", "statement": "The matrix assembled by several ranks has in the row of each cell the blocks that a single process computes, each rank sets only rows of its own cells, and products with distributed vectors are those of the single process.", "quantifier": "all conforming meshes, assignments of cells to ranks, states, boundary conditions and thread schedules", "why_tests_cant": "Neither all partitions nor all schedules can be run.", "anchors": ["src/spatial/aspatial.cpp:assemble_jacobian", "src/linalg/alinalg.cpp:setupSystemMatrix", "src/mesh/meshpartitioning.cpp:restrictMeshToPartitions"]}
{"id": "C83", "title": "Blocks of a face do not depend on which side is called left", "statement": "Exchanging the two states and reversing the normal exchanges the two blocks a flux scheme's Jacobian routine returns, so a matrix does not depend on how faces are directed.", "quantifier": "all pairs of admissible states and normals, all schemes with a Jacobian", "why_tests_cant": "Equality over all pairs of states; the exceptions are sets without interior which sampled tests miss.", "anchors": ["src/spatial/anumericalflux.cpp:get_jacobian"]}
{"id": "C84", "title": "SU2 mesh files are read as described", "statement": "Reading an SU2 file gives the cells, points and tagged boundary faces it describes, in its order; converting it to a Gmsh file and reading that gives the same mesh; other files are rejected.", "quantifier": "all files, whatever comments surround the headers", "why_tests_cant": "Tests read two files.", "anchors": ["src/mesh/meshreaders.cpp:readSU2", "src/utilities/convertformat.cpp:main", "src/mesh/mesh.cpp:UMesh"]}
{"id": "C85", "title": "Boundary points are numbered once with their faces", "statement": "Every point of a boundary face gets exactly one number, all below the number of boundary points; the face table gives the numbers of a face's nodes and the point table the faces that end and begin at a point.", "quantifier": "all meshes whose boundary faces name existing points", "why_tests_cant": "Sizes and orders of boundary lists are unbounded.", "anchors": ["src/mesh/mesh.cpp:compute_boundary_points"]}
{"id": "C86", "title": "Graph of lines and points is the quotient of the mesh", "statement": "The graph handed to PETSc for the hybrid line ordering has a vertex for each line and each cell outside the lines and joins two of them exactly if cells of theirs share a face; it is symmetric, has a full diagonal and no entry outside the matrix.", "quantifier": "all conforming meshes, weights, thresholds and lists of boundary cells", "why_tests_cant": "Any number of lines of any length; a lost or one-sided entry only changes the quality of an ordering.", "anchors": ["src/mesh/meshordering.cpp:createLinePointGraph", "src/mesh/meshordering.cpp:createLinePointGraphVertices"]}
{"id": "C87", "title": "Solid walls keep mass and energy in the box", "statement": "In a single-process case whose boundaries are all slip walls or insulated no-slip walls at rest, the residual neither creates nor removes mass, nor energy (viscous flow: all walls no-slip); with slip walls total momentum changes only by forces along the wall normals; explicit time steps keep the amounts of mass and energy.", "quantifier": "all conforming meshes, numerical fluxes, gradient and reconstruction schemes, admissible states, orders and numbers of time steps", "why_tests_cant": "A leak of rounding size per step is invisible in tests and depends on mesh, scheme and state.", "anchors": ["src/spatial/flow_spatial.cpp:compute_residual", "src/spatial/flow_spatial.cpp:compute_fluxes", "src/spatial/abc.cpp:computeGhostState", "src/ode/aodesolver.cpp:TVDRKSolver::solve"]}
{"id": "C88", "title": "Explicit steady solver gives the same run on any number of processes", "statement": "Forward Euler iterations of several ranks, with their ghost updates and global sums, report the norms of a single process, stop after the same number of iterations for the same reason, and leave the ranks with the single process's solution.", "quantifier": "all conforming meshes, assignments of cells to ranks, initial states, configurations and numbers of iterations", "why_tests_cant": "Neither all partitions nor runs of every length can be compared.", "anchors": ["src/ode/aodesolver.cpp:SteadyForwardEulerSolver::solve", "src/spatial/flow_spatial.cpp:compute_residual", "src/mesh/meshpartitioning.cpp:restrictMeshToPartitions"]}
{"id": "C89", "title": "Explicit unsteady solver gives the same run on any number of processes", "statement": "TVD Runge-Kutta steps of several ranks advance all of them by the time step of a single process and leave the ranks with the single process's solution.", "quantifier": "all conforming meshes, assignments of cells to ranks, initial states, orders, CFL numbers and numbers of steps", "why_tests_cant": "Differences depend on the state and the partition; a run on one process shows none.", "anchors": ["src/ode/aodesolver.cpp:TVDRKSolver::solve", "src/spatial/flow_spatial.cpp:compute_residual"]}
{"id": "C90", "title": "Mesh construction hands every rank its part of the file's mesh", "statement": "From a proper mesh file constructMesh gives the ranks together each cell, with its vertices and tags, and each boundary face exactly once, on every rank a conforming mesh with its topology; a requested reordering only renumbers cells; improper requests and too many ranks are refused.", "quantifier": "all proper files, numbers of ranks, values of the ordering options and permutations", "why_tests_cant": "Meshes, rank counts and orderings are unbounded; a lost interface face passes silently.", "anchors": ["src/mesh/ameshutils.cpp:constructMesh", "src/mesh/ameshutils.cpp:preprocessMesh", "src/mesh/meshreaders.cpp:readMesh"]}
{"id": "C91", "title": "Surface and volume result files", "statement": "exportSurfaceData writes one file per listed marker and no other, each with one row per boundary face of that marker in mesh order holding the face midpoint and the pressure and friction coefficients (walls) or velocity (others) of the cell behind it, without overrunning or printing unset memory; exportVolumeData and postprocess_cell write values from which the cell states are recovered.", "quantifier": "all conforming meshes, states, gradients, lists of markers (also repeated or unused)", "why_tests_cant": "Row counters and buffers depend on the number of faces per marker; tests look at a single mesh.", "anchors": ["src/spatial/aoutput.cpp:FlowOutput::exportSurfaceData", "src/spatial/aoutput.cpp:FlowOutput::exportVolumeData", "src/spatial/aoutput.cpp:FlowOutput::postprocess_cell"]}
{"id": "C92", "title": "VTU data arrays", "statement": "The data elements of a VTU file hold, under the given names, exactly the entries of the arrays passed, entity by entity, with vectors padded to three components, and match the announced numbers of components; the file written after a run holds the nodal density, Mach number, pressure, temperature and velocity under those names.", "quantifier": "all meshes, arrays of any dimensions, names", "why_tests_cant": "Dimensions of arrays and numbers of names are unbounded; a viewer silently shows shifted data.", "anchors": ["src/spatial/aoutput.cpp:writeScalarsVectorToVtu_PointData", "src/spatial/aoutput.cpp:writeScalarsVectorToVtu_CellData", "src/utilities/casesolvers.cpp:FlowCase::run_output"]}
{"id": "C93", "title": "Explicit steps keep density and pressure positive", "statement": "From states with positive density and pressure, an iteration of the explicit steady solver with its own local time steps and a CFL number from 0 to 1 leaves positive density and pressure in every cell, so a run never ends with a residual norm that is not a number.", "quantifier": "all meshes, all admissible states, all numbers of iterations and processes", "why_tests_cant": "Negative pressure appears for particular jumps between neighbouring cells only; the number of iterations is unbounded.", "anchors": ["src/ode/aodesolver.cpp:SteadyForwardEulerSolver::solve", "src/spatial/flow_spatial.cpp:compute_residual", "src/spatial/anumericalflux.cpp:get_flux"]}
{"id": "C94", "title": "Independence of position, orientation and unit of length of the mesh", "statement": "If the mesh is shifted, turned and scaled, far-field momenta are turned along and the Reynolds number is divided by the scale, then boundary states, fluxes, gradients and residuals are the turned ones (residuals times the scale), local time steps are multiplied by the scale, and the explicit steady solver makes the same iterations through turned states and ends in the same way, reporting the same CFL numbers.", "quantifier": "all meshes, similarities, states, flux and gradient schemes, boundary conditions, numbers of iterations", "why_tests_cant": "Compares two runs on different meshes for a continuum of transformations; a wrong sign in one component only shows in directions the test meshes do not have.", "anchors": ["src/spatial/flow_spatial.cpp:compute_residual", "src/spatial/flow_spatial.cpp:compute_fluxes", "src/spatial/gradientschemes.cpp:GreenGaussGradients::compute_gradients", "src/spatial/abc.cpp:computeGhostState", "src/ode/aodesolver.cpp:SteadyForwardEulerSolver::solve"]}
{"id": "C95", "title": "Reported convergence and steady states", "statement": "The steady solvers leave exactly those states unchanged whose residual vanishes in every cell and component, report a residual norm of zero exactly for them, stay at them, and end normally only at states that satisfy the tolerance in all equations.", "quantifier": "all meshes, states, schemes, boundary conditions, positive CFL numbers, numbers of iterations", "why_tests_cant": "A stopping test that ignores an equation passes on every problem in which the equations converge together.", "anchors": ["src/ode/aodesolver.cpp:SteadyForwardEulerSolver::solve", "src/ode/aodesolver.cpp:SteadyBackwardEulerSolver::solve", "src/ode/aodesolver.cpp:TVDRKSolver::solve"]}
{"id": "C96", "title": "Implicit steady solver", "statement": "With a linear solver that solves regular systems, an iteration of the implicit steady solver without under-relaxation is a backward Euler step over the local time steps with the residual linearised about the old states; it leaves a state unchanged exactly where the residual vanishes, approaches the explicit update as the CFL number falls, does not depend on thread schedules, and runs on several processes visit the states, norms and CFL numbers of the run on a single process. With a linear solver that only meets tolerances the step holds up to a defect within them, and with a relative tolerance below one the unchanged states are the same; with the second-order residual and first-order matrix both hold for the second-order residual.", "quantifier": "all meshes, admissible states, thread counts and schedules, numbers of iterations and processes, assignments of cells, exact and iterative linear solvers, stopping criteria", "why_tests_cant": "Involves a derivative, a limit and all partitions; a wrong Jacobian or pseudo-time term still converges, only more slowly.", "anchors": ["src/ode/aodesolver.cpp:SteadyBackwardEulerSolver::solve", "src/ode/aodesolver.cpp:addPseudoTimeTerm", "src/spatial/aspatial.cpp:assemble_jacobian"]}
{"id": "C97", "title": "Gas at rest under uniform pressure stays at rest", "statement": "Gas at rest under the same pressure everywhere, whatever its density in each cell, in a domain bounded by walls at rest, extrapolation or a far field at that pressure, has zero inviscid residual at first and second order, and steady runs of any length leave it unchanged.", "quantifier": "all meshes, density distributions, flux, gradient and reconstruction schemes, numbers of iterations", "why_tests_cant": "Involves all density distributions; a scheme that smears density jumps at rest still converges on smooth test problems.", "anchors": ["src/spatial/anumericalflux.cpp:get_flux", "src/spatial/flow_spatial.cpp:compute_residual", "src/spatial/abc.cpp:computeGhostState", "src/ode/aodesolver.cpp:SteadyForwardEulerSolver::solve"]}
{"id": "C98", "title": "No influence against a supersonic stream", "statement": "Where the gas leaves a set of cells faster than sound through every face of the set's rim that leads to other cells, nothing outside the set influences it: inviscid first-order residuals, local time steps and explicit updates of its cells depend only on the states in the set, for any number of iterations. The same holds for the rows of the implicit solver's matrix, which have no entries outside the set, and with exact linear solves and a constant CFL number for implicit updates.", "quantifier": "all meshes, sets of cells, admissible states, flux schemes, numbers of iterations", "why_tests_cant": "Compares runs for all downstream states and sets of cells; a wrongly signed wave-speed branch only leaks for particular Mach numbers.", "anchors": ["src/spatial/anumericalflux.cpp:get_flux", "src/spatial/flow_spatial.cpp:compute_fluxes", "src/spatial/flow_spatial.cpp:compute_max_timestep", "src/ode/aodesolver.cpp:SteadyForwardEulerSolver::solve", "src/spatial/anumericalflux.cpp:get_jacobian", "src/ode/aodesolver.cpp:SteadyBackwardEulerSolver::solve"]}
{"id": "C99", "title": "Independence of the units of mass and time", "statement": "Expressing densities and velocities in other units, with Mach and Reynolds numbers and boundary parameters converted accordingly, only converts the results: numerical and viscous fluxes, boundary states, gradients, residuals and local time steps are converted, and explicit steady runs make the same iterations and end in the same way.", "quantifier": "all units, states, schemes, boundary conditions, meshes, numbers of iterations", "why_tests_cant": "Involves all units and states; a constant with a hidden dimension gives plausible results in the units of the tests.", "anchors": ["src/spatial/anumericalflux.cpp:get_flux", "src/spatial/abc.cpp:computeGhostState", "src/physics/aphysics.hpp:IdealGasPhysics", "src/spatial/flow_spatial.cpp:compute_residual", "src/ode/aodesolver.cpp:SteadyForwardEulerSolver::solve"]}
{"id": "C100", "title": "Mirror images, and slip walls as symmetry planes", "statement": "Reflecting states and normals reflects fluxes and boundary states (moving walls then slide the other way). From the mirrored mesh file the code sets up the mirror image of the discretisation, and inviscid first-order residuals, local time steps and explicit steady runs on it are mirrored. On a symmetric mesh a symmetric state stays symmetric, and the run equals, cell by cell, the run on one half of the mesh with slip walls along the axis.", "quantifier": "all reflections, meshes, admissible states, flux schemes, boundary conditions, numbers of iterations", "why_tests_cant": "Compares runs on different meshes for a continuum of axes; an error odd in one momentum component cancels on the symmetric bodies used as tests.", "anchors": ["src/spatial/anumericalflux.cpp:get_flux", "src/spatial/abc.cpp:computeGhostState", "src/spatial/flow_spatial.cpp:compute_residual", "src/spatial/flow_spatial.cpp:compute_max_timestep", "src/mesh/mesh.cpp:compute_topological", "src/ode/aodesolver.cpp:SteadyForwardEulerSolver::solve"]}
{"id": "C101", "title": "Maximum principle of the diffusion solver", "statement": "Without source, the diffusion solver keeps values between all bounds of the initial values and the boundary value, step by step and over whole steady runs, explicit or implicit; and a state with zero residual is the boundary value everywhere.", "quantifier": "all meshes, states, diffusivities, CFL numbers, numbers of iterations", "why_tests_cant": "Whether values stay in bounds depends on cell shape and CFL number; tests look at the converged error on nearly square cells only.", "anchors": ["src/spatial/diffusion.cpp:compute_residual", "src/spatial/diffusion.cpp:compute_local_jacobian_interior", "src/ode/aodesolver.cpp:SteadyForwardEulerSolver::solve", "src/ode/aodesolver.cpp:SteadyBackwardEulerSolver::solve"]}
{"id": "C102", "title": "Convergence of the steady diffusion solver", "statement": "For every source that depends on position only there is exactly one steady state. Implicit runs with exact linear solves reach it from every initial state at all positive CFL numbers, although the boundary blocks of the matrix are half of what they should be; explicit runs reach it where CFL number times time step times conductances over area, boundary faces counted half, is below 1 in all cells, and on rectangles only there. Runs end with the tolerance met if enough iterations are allowed, and the distance to the steady state is bounded by a constant times the residual norm.", "quantifier": "all meshes of convex cells on one process, sources, initial states, diffusivities, CFL numbers, tolerances; thin-layer gradients, or any gradients where lines of centres are along the normals", "why_tests_cant": "Tests run a few meshes from one initial state; convergence is a statement about infinitely many iterations from all states.", "anchors": ["src/spatial/diffusion.cpp:compute_residual", "src/spatial/diffusion.cpp:compute_local_jacobian_interior", "src/ode/aodesolver.cpp:SteadyForwardEulerSolver::solve", "src/ode/aodesolver.cpp:SteadyBackwardEulerSolver::solve"]}
{"id": "C103", "title": "CFL numbers of a steady run", "statement": "Both steady solvers begin with the initial CFL number, keep within the limits, raise the CFL number exactly after a fall of the residual norm and lower it exactly after a rise (unless at a limit), by a power of the ratio of the last two norms; if the norms fall to zero the final CFL number is reached. The CFL numbers depend on ratios of norms only, so a problem whose residuals are expressed in another unit runs alike.", "quantifier": "all problems, initial states, residual histories, limits and iterations, both solvers", "why_tests_cant": "Concerns all residual histories; the tests never look at CFL numbers, and a wrong ratio only slows convergence down.", "anchors": ["src/ode/aodesolver.cpp:expResidualRamp", "src/ode/aodesolver.cpp:SteadyForwardEulerSolver::solve", "src/ode/aodesolver.cpp:SteadyBackwardEulerSolver::solve"]}
{"id": "C104", "title": "Independence of axes and units of the implicit solver", "statement": "Turning or reflecting the axes and changing the units of density, velocity and length maps flux Jacobians of all schemes, viscous Jacobians, boundary Jacobians and the assembled matrix of the implicit solver to the blocks conjugated by the map of states; with exact linear solvers every iteration and whole runs of the implicit steady solver are the images of each other and end in the same way.", "quantifier": "all turns, reflections, units, admissible states, schemes, boundary conditions, meshes, CFL numbers, numbers of iterations", "why_tests_cant": "A wrong entry of a block still lets the tests converge; it shows as a dependence on axes or units, for which a continuum of pairs of runs would have to be compared.", "anchors": ["src/spatial/anumericalflux.cpp:get_jacobian", "src/spatial/abc.cpp:computeGhostStateAndJacobian", "src/spatial/flow_spatial.cpp:compute_local_jacobian_interior", "src/spatial/flow_spatial.cpp:compute_local_jacobian_boundary", "src/ode/aodesolver.cpp:SteadyBackwardEulerSolver::solve", "src/ode/nonlinearrelaxation.cpp:FlowSimpleUpdate"]}
{"id": "C105", "title": "Residual history of a flow case", "statement": "With recording of residuals switched on, every steady flow case leaves a history file with one line per iteration of the main solve, in order, showing the iteration's number, the logarithms of its residual norm relative to the first and as such, and its CFL number; reading the recorded history never leaves it.", "quantifier": "all problems, solvers, outcomes of starting and main solves, processes", "why_tests_cant": "Whether the file is written depends on how the solve ended; the tests look at converged cases only.", "anchors": ["src/utilities/casesolvers.cpp:SteadyFlowCase::execute", "src/utilities/casesolvers.cpp:FlowCase::run_output", "src/ode/aodesolver.cpp:SteadyForwardEulerSolver::solve", "src/ode/aodesolver.cpp:SteadyBackwardEulerSolver::solve", "src/spatial/aoutput.cpp:writeStepToConvergenceHistory"]}
{"id": "C106", "title": "Search for a preconditioner", "statement": "Searching a linear solver for a preconditioner of a given type finds the first one, looking into block, multigrid and nested solvers, leaves the result untouched if there is none, and fails exactly if it comes to a block preconditioner with more or fewer blocks than one on the process.", "quantifier": "all nestings of preconditioners, types", "why_tests_cant": "Nestings are unbounded; tests use one or two.", "anchors": ["src/linalg/alinalg.cpp:getPC"]}
{"id": "C107", "title": "Text form of arrays", "statement": "An array written to a text stream is read back with the same dimensions and contents.", "quantifier": "all arrays of integers, arrays read into, following contents of the stream", "why_tests_cant": "For all dimensions and contents; the tests never read back what they write.", "anchors": ["src/utilities/aarray2d.cpp:Array2d::fprint", "src/utilities/aarray2d.cpp:Array2d::fread"]}
{"id": "C108", "title": "Whole steady cases", "statement": "A steady case - initial vector from the free stream, first-order starting run, main run - ends in exactly one way; a normal return means that the main run reached its tolerance from where the starting run left off. On any number of processes, on a mesh with renumbered cells, and on a turned, shifted and magnified mesh with the angle of attack turned along, it ends in the same way and leaves the corresponding vector. A stream without obstacles returns normally and unchanged. With van Leer's flux an explicit case never breaks down.", "quantifier": "all meshes, options, markers, angles of attack, configurations of both runs, numbers of iterations and processes", "why_tests_cant": "Every case is a different run of two solvers in a row; tests check single cases against stored results.", "anchors": ["src/utilities/casesolvers.cpp:SteadyFlowCase::execute", "src/utilities/casesolvers.cpp:SteadyFlowCase::execute_starter", "src/utilities/casesolvers.cpp:SteadyFlowCase::execute_main", "src/utilities/casesolvers.cpp:FlowCase::initializeSystemVector", "src/utilities/controlparser.cpp:extract_spatial_physics_config", "src/spatial/flow_spatial.cpp:FlowFV_base::FlowFV_base"]}
{"id": "C109", "title": "Stationary shocks", "statement": "Between two states with the same flux through a face, HLLC gives that flux exactly if the gas does not expand abruptly in its direction of flow, so it keeps shocks and contacts and rejects expansion shocks; HLL does so wherever gas crosses the face; AUSM+ keeps exactly the shocks without velocity along the face; the other schemes keep no shock, Roe's error being the jump times the speed of sound over 40000; no scheme keeps an expansion shock. On every mesh whose faces follow the discontinuities, HLLC keeps every steady field of constant pieces that the second law allows, for whole runs.", "quantifier": "all gases, admissible states, normals, schemes, meshes, boundary conditions, configurations and numbers of iterations", "why_tests_cant": "Concerns all pairs of states on a curve that random states miss; a scheme that smears shocks or admits expansion shocks passes smooth-flow tests.", "anchors": ["src/spatial/anumericalflux.cpp:HLLCFlux::get_flux", "src/spatial/anumericalflux.cpp:HLLFlux::get_flux", "src/spatial/anumericalflux.cpp:AUSMPlusFlux::get_flux", "src/spatial/anumericalflux.cpp:RoeFlux::get_flux", "src/spatial/flow_spatial.cpp:FlowFV::compute_residual"]}
{"id": "C110", "title": "Density carried along by a uniform stream", "statement": "Between two states of the same velocity and pressure but any densities, LLF, HLL, HLLC, AUSM+ and Roe move momentum and energy with the mass and leave the pressure to act as in a uniform stream; HLLC and AUSM+ give the flux of the side the stream comes from; AUSM and van Leer disturb velocity or pressure. In whole inviscid explicit runs with CFL numbers from 0 to 1, on any mesh, on one or several processes, with far fields of the same stream, extrapolation, and slip walls along it, velocity and pressure remain uniform and the densities within their initial and far-field bounds, for LLF, HLL and Roe provided these differ by at most a factor of four; with larger ratios a step can make a density negative.", "quantifier": "all gases, velocities, pressures, densities, normals, meshes, configurations, numbers of iterations and processes", "why_tests_cant": "Pressure oscillations at moving contacts show only in unsteady runs with density differences; the tests are steady flows of nearly uniform entropy.", "anchors": ["src/spatial/anumericalflux.cpp:LocalLaxFriedrichsFlux::get_flux", "src/spatial/anumericalflux.cpp:HLLFlux::get_flux", "src/spatial/anumericalflux.cpp:HLLCFlux::get_flux", "src/spatial/anumericalflux.cpp:AUSMPlusFlux::get_flux", "src/spatial/anumericalflux.cpp:AUSMFlux::get_flux", "src/spatial/anumericalflux.cpp:VanLeerFlux::get_flux", "src/spatial/anumericalflux.cpp:RoeFlux::get_flux", "src/ode/aodesolver.cpp:SteadyForwardEulerSolver::solve"]}
{"id": "C111", "title": "Uniform total enthalpy in steady flow", "statement": "AUSM and AUSM+ transport energy as mass flux times the total enthalpy of the side the mass comes from, and they are the only two of the seven schemes whose energy flux is mass flux times H between states of common total enthalpy H. In every steady state of the first-order inviscid scheme with either of them, on any mesh, with slip walls, insulated walls at rest, extrapolation and far fields of total enthalpy H: if from every cell one comes, against the mass fluxes from cell to cell, to a boundary face where gas of total enthalpy H enters, the total enthalpy is exactly H in all cells.", "quantifier": "all gases, schemes, meshes, boundary conditions of these kinds, steady states", "why_tests_cant": "A statement about all solutions of the discrete equations; a test sees one converged solution to a tolerance.", "anchors": ["src/spatial/anumericalflux.cpp:AUSMFlux::get_flux", "src/spatial/anumericalflux.cpp:AUSMPlusFlux::get_flux", "src/spatial/flow_spatial.cpp:FlowFV::compute_residual", "src/spatial/abc.cpp:Slipwall::computeGhostState"]}
{"id": "C112", "title": "Lift and drag of mirror images; no lift in symmetric flow", "statement": "Mirroring the mesh, the state and the free stream changes the sign of the lift coefficient and keeps the pressure drag (and the friction drag, if the gradients are mirrored). The explicit steady solver run on the mirrored mesh file ends alike with opposite lift and the same pressure drag. On a mesh symmetric about an axis along the free stream, started from a symmetric state, every iterate of the first-order inviscid explicit solver is symmetric and its lift coefficient is exactly zero.", "quantifier": "all gases, schemes, meshes, walls, reflections, symmetric states, numbers of iterations", "why_tests_cant": "Involves whole runs and exact cancellation over all wall faces; a test sees small numbers for one geometry.", "anchors": ["src/spatial/flow_spatial.cpp:FlowFV_base::computeSurfaceData", "src/spatial/flow_spatial.cpp:FlowFV::compute_residual", "src/ode/aodesolver.cpp:SteadyForwardEulerSolver::solve"]}
{"id": "C113", "title": "Continuity; limits of runs are steady and reported", "statement": "Every numerical flux depends continuously on both states, also where its formula changes (Mach 0 and 1, contacts, sonic points; HLLC for gamma of at least 4/3). So do the ghost states of walls, far-field and extrapolation boundaries, the first-order residual with and without viscosity, the time steps and the update of the explicit solver. If the iterates of an explicit run tend to a state, that state is steady, and the run is reported as converged for every tolerance between 0 and 1, given enough iterations. The characteristic in- and outflow boundary is continuous exactly where gas that stops has the far-field state and gas that becomes sonic has the free-stream pressure; elsewhere its ghost state and the flux jump.", "quantifier": "all gases, schemes, admissible states, normals, meshes, boundary conditions, configurations and runs", "why_tests_cant": "A jump at a switch is met only by states on a surface that tests miss, and shows in practice as a run that stalls.", "anchors": ["src/spatial/anumericalflux.cpp:HLLCFlux::get_flux", "src/spatial/anumericalflux.cpp:VanLeerFlux::get_flux", "src/spatial/anumericalflux.cpp:AUSMFlux::get_flux", "src/spatial/anumericalflux.cpp:AUSMPlusFlux::get_flux", "src/spatial/anumericalflux.cpp:RoeFlux::get_flux", "src/spatial/abc.cpp:InOutFlow::computeGhostState", "src/spatial/flow_spatial.cpp:FlowFV::compute_residual", "src/ode/aodesolver.cpp:SteadyForwardEulerSolver::solve"]}
{"id": "C114", "title": "Convergence of the explicit solver in a uniform stream", "statement": "A stream of one velocity, pressure and density enters through far-field boundaries and sweeps, from cell to cell, through the whole mesh; the cells start with its velocity and pressure and any densities (for LLF, HLL and Roe within a factor of four). Then the explicit solver with a CFL number in (0,1] tends to the uniform stream in all cells, the largest difference shrinking at least geometrically; the run is reported as converged for every tolerance between 0 and 1, on one or several processes, given enough iterations; and no other steady state has that velocity and pressure. Gas at rest is not swept: HLLC and AUSM+ keep its densities forever.", "quantifier": "all gases, streams, densities, meshes, boundary conditions of these kinds, tolerances, CFL numbers in (0,1], numbers of processes", "why_tests_cant": "Convergence is a statement about infinite runs from all initial densities on all meshes; a test sees one run stop.", "anchors": ["src/ode/aodesolver.cpp:SteadyForwardEulerSolver::solve", "src/spatial/flow_spatial.cpp:FlowFV::compute_residual", "src/spatial/anumericalflux.cpp:HLLCFlux::get_flux", "src/spatial/anumericalflux.cpp:AUSMPlusFlux::get_flux", "src/spatial/abc.cpp:Farfield::computeGhostState"]}
{"id": "C115", "title": "Objects are destroyed once and after their last use", "statement": "A steady case creates discretisations, matrices, linear solvers, update schemes, pseudo-time solvers and vectors, and destroys them. Whatever the settings and however both solves go (nothing to do, converged, not converged, diverged, blown up, invalid settings), no object is used or destroyed unless it exists, and none is destroyed twice. After a call which returns normally every object created has been destroyed; a call left by an exception leaves nothing behind either.", "quantifier": "all settings, lists of boundary conditions, courses of both solves, numbers of iterations", "why_tests_cant": "Tests run the converging path and do not look at memory; the other paths are many and each leaves different objects.", "anchors": ["src/utilities/casesolvers.cpp:SteadyFlowCase::execute_starter", "src/utilities/casesolvers.cpp:SteadyFlowCase::execute_main", "src/utilities/casesolvers.cpp:FlowCase::run", "src/utilities/casesolvers.cpp:FlowCase::run_output", "src/ode/aodesolver.cpp:SteadyBackwardEulerSolver::solve", "src/ode/aodesolver.cpp:SteadyForwardEulerSolver::solve", "src/spatial/flow_spatial.cpp:FlowFV_base::~FlowFV_base", "src/spatial/abc.cpp:create_const_flowBCs", "src/linalg/alinalg.cpp:create_matrixfree_jacobian"]}
{"id": "C116", "title": "The flow is the same for an observer moving along the face", "statement": "Let an observer move along a face with a constant velocity, so that all velocities change by the same vector w orthogonal to the face normal while densities and pressures stay. Every numerical flux then keeps its mass flux, its momentum flux gains w times the mass flux, and its energy flux gains the work of w on the momentum flux plus half |w|^2 times the mass flux. The ghost state of each boundary condition is the ghost state of the first observer seen by the second, wall speeds and free stream being seen from the same frame.", "quantifier": "all gases with gamma other than 1, states with non-zero density, normals, frame velocities along the face, flux schemes and boundary conditions", "why_tests_cant": "Flow solvers are tested in one frame; a spurious dependence on tangential speed changes results slightly and looks like numerical error.", "anchors": ["src/spatial/anumericalflux.cpp:LocalLaxFriedrichsFlux::get_flux", "src/spatial/anumericalflux.cpp:VanLeerFlux::get_flux", "src/spatial/anumericalflux.cpp:AUSMFlux::get_flux", "src/spatial/anumericalflux.cpp:AUSMPlusFlux::get_flux", "src/spatial/anumericalflux.cpp:RoeFlux::get_flux", "src/spatial/anumericalflux.cpp:HLLFlux::get_flux", "src/spatial/anumericalflux.cpp:HLLCFlux::get_flux", "src/spatial/abc.cpp:Adiabaticwall2D::computeGhostState"]}
{"id": "C117", "title": "Options of the option database are read as given", "statement": "A mandatory integer, switch, string or list is returned as the user gave it, and its absence or a malformed value is an exception. An optional one takes its default if it is absent. A switch given alone is on, and one given the value false is off. Strings and lists are returned whole or the call fails. Nothing stays allocated. The multigrid interpolation is computed anew in exactly the iterations listed.", "quantifier": "all option databases, names, text conversions, default values, buffer lengths and numbers of iterations", "why_tests_cant": "Tests use short, well-formed values; truncation and switches given with a value are not tried.", "anchors": ["src/utilities/aoptionparser.cpp:parsePetscCmd_isDefined", "src/utilities/aoptionparser.cpp:parsePetscCmd_int", "src/utilities/aoptionparser.cpp:parseOptionalPetscCmd_real", "src/utilities/aoptionparser.cpp:parsePetscCmd_string", "src/utilities/aoptionparser.cpp:parseOptionalPetscCmd_intArray", "src/ode/aodesolver.cpp:SteadyBackwardEulerSolver::solve", "src/utilities/casesolvers.cpp:SteadyFlowCase::SteadyFlowCase"]}
{"id": "C118", "title": "Processes of a solver never wait for each other for ever", "statement": "Each process runs the solver at its own pace with its own copies of the loop variables, and meets the others only in ghost updates, matrix assembly, linear solves and global sums. Whatever the order in which processes proceed, none is left waiting in an operation that another never enters, every execution ends, and all processes end alike: by the same exception, or after the same number of iterations with the same norms, CFL numbers and status, holding the solution that processes working in step compute.", "quantifier": "all numbers of processes, relative speeds and interleavings, meshes, assignments of cells, settings, configurations, linear solvers and initial states", "why_tests_cant": "A hang depends on the speeds of the processes and on data of each; runs on one process cannot show it.", "anchors": ["src/ode/aodesolver.cpp:SteadyForwardEulerSolver::solve", "src/ode/aodesolver.cpp:SteadyBackwardEulerSolver::solve", "src/ode/aodesolver.cpp:TVDRKSolver::solve", "src/spatial/flow_spatial.cpp:compute_residual"]}
{"id": "C119", "title": "The check of interface faces accepts correct subdomains", "statement": "checkConnFaces, offered with the partitioner to verify the global face numbers stored with a subdomain, returns true for every subdomain extracted from a conforming mesh whose interface records are correct.", "quantifier": "all conforming meshes, assignments of cells to processes, and subdomains with correct interface records", "why_tests_cant": "The check is never run by the tests (its only call is a commented-out assertion), and on one process there are no interface faces, so that it passes trivially.", "anchors": ["src/mesh/meshpartitioning.cpp:checkConnFaces", "src/mesh/meshpartitioning.hpp:checkConnFaces", "src/mesh/ameshutils.cpp:constructMesh"]}
{"id": "C120", "title": "Global sums have the sum over all processes as their result", "statement": "With every implementation of message passing that does what the MPI standard says, the residual norms of the steady solvers, the force coefficients and the entropy error on every process are those computed from the sums over all processes.", "quantifier": "all implementations of MPI_Allreduce that conform to the standard, numbers of processes, and contributions of the processes", "why_tests_cant": "Tests run one implementation, usually one that happens to copy its input first.", "anchors": ["src/ode/aodesolver.cpp:SteadyForwardEulerSolver::solve", "src/ode/aodesolver.cpp:SteadyBackwardEulerSolver::solve", "src/utilities/mpiutils.cpp:mpi_all_reduce", "src/spatial/flow_spatial.cpp:computeSurfaceData", "src/spatial/aoutput.cpp:FlowOutput::compute_entropy_cell"]}
{"id": "C121", "title": "Matrix-free products on several processes", "statement": "The product of the matrix-free operator with a distributed vector is, cell by cell, the product a single process computes, whatever the number of processes; on one process it is the directional difference of the residual of the whole mesh.", "quantifier": "all meshes, settings, states, directions, step lengths, numbers of processes and assignments of cells in the order of their numbers, and contents of freshly made vectors", "why_tests_cant": "Freshly made vectors happen to be zero on the machines tested; the assignment of cells is one of many.", "anchors": ["src/linalg/alinalg.cpp:MatrixFreeSpatialJacobian::apply"]}
{"id": "C122", "title": "The approximate viscous Jacobian is dissipative", "statement": "Applied to the faces between cells, the approximate viscous Jacobian subtracts the same multiple of the identity from both blocks, so that what it adds to the assembled matrix has the quadratic form of a weighted graph: the sum over faces of weight times squared difference, never negative. It can be applied to every face of the mesh.", "quantifier": "all meshes, states of positive density, viscosities, numbers of threads and schedules, vectors", "why_tests_cant": "No test calls the function (its only call is commented out); definiteness quantifies over all vectors.", "anchors": ["src/spatial/flow_spatial.cpp:compute_viscous_flux_approximate_jacobian"]}
