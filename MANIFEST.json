{
 "claims": [
  {
   "property": "C01",
   "status": "proved",
   "theorems": [
    "FVENS.C01_temperature",
    "FVENS.C01_cons_prim_cons",
    "FVENS.C01_prim_cons_prim",
    "FVENS.C01_prim2_energy",
    "FVENS.C01_density_of_pressure_temperature",
    "FVENS.C01_vars_agree"
   ],
   "note": "Real arithmetic; density nonzero, gamma not 1."
  },
  {
   "property": "C02",
   "status": "proved",
   "theorems": [
    "FVENS.C02_gradTemperature",
    "FVENS.C02_prim_in_place",
    "FVENS.C02_prim2_in_place",
    "FVENS.C02_cons_in_place",
    "FVENS.C02_frame",
    "FVENS.C02_grad_in_place"
   ],
   "note": "Memory model with aliased pointers."
  },
  {
   "property": "C03",
   "status": "proved",
   "theorems": [
    "FVENS.C03_pressure",
    "FVENS.C03_pressure_overload",
    "FVENS.C03_vmag2",
    "FVENS.C03_temperature",
    "FVENS.C03_soundSpeed",
    "FVENS.C03_machNormal",
    "FVENS.C03_energyOfT",
    "FVENS.C03_densityOfPT",
    "FVENS.C03_prim2",
    "FVENS.C03_vars",
    "FVENS.C03_eulerFlux"
   ],
   "note": "Frechet derivatives on R^4 for each routine."
  },
  {
   "property": "C04",
   "status": "partial",
   "theorems": [
    "FVENS.C04_sutherland_partial",
    "FVENS.C04_refuted",
    "FVENS.C04_sutherland_law",
    "FVENS.C04_sutherland_mono",
    "FVENS.C04_prandtl"
   ],
   "note": "False in the code: C04_refuted. The partial theorem gives the condition under which the routine is right."
  },
  {
   "property": "C05",
   "status": "partial",
   "theorems": [
    "FVENS.C05_deltaPressure_partial",
    "FVENS.C05_deltaPressure_correct_iff",
    "FVENS.C05_refuted"
   ],
   "note": "False in the code: C05_refuted; C05_deltaPressure_correct_iff gives the exact condition."
  },
  {
   "property": "C06",
   "status": "proved",
   "theorems": [
    "FVENS.C06_freestream"
   ],
   "note": ""
  },
  {
   "property": "C07",
   "status": "proved",
   "theorems": [
    "FVENS.C07_symmetric",
    "FVENS.C07_rigid_rotation",
    "FVENS.C07_trace",
    "FVENS.C07_dissipative",
    "FVENS.C07_linear",
    "FVENS.C07_frame_indifferent",
    "FVENS.C07_stress_jacobian"
   ],
   "note": ""
  },
  {
   "property": "C08",
   "status": "proved",
   "theorems": [
    "FVENS.BC.C08_slip_mirror",
    "FVENS.BC.C08_slip_involution"
   ],
   "note": ""
  },
  {
   "property": "C09",
   "status": "proved",
   "theorems": [
    "FVENS.Flux.C09_llf",
    "FVENS.Flux.C09_vanLeer",
    "FVENS.Flux.C09_ausm",
    "FVENS.Flux.C09_ausmPlus",
    "FVENS.Flux.C09_roe",
    "FVENS.Flux.C09_hll",
    "FVENS.Flux.C09_hllc",
    "FVENS.Flux.C09_slip_wall_flux"
   ],
   "note": "All seven schemes."
  },
  {
   "property": "C10",
   "status": "partial",
   "theorems": [
    "FVENS.BC.C10_isothermal_row",
    "FVENS.BC.C10_farfield",
    "FVENS.BC.C10_extrapolation",
    "FVENS.BC.C10_slip",
    "FVENS.BC.C10_adiabatic",
    "FVENS.BC.C10_inOut",
    "FVENS.BC.C10_inOut_sonic_refuted",
    "FVENS.BC.C10_isothermal_partial",
    "FVENS.BC.C10_isothermal_refuted",
    "FVENS.BC.C10_object"
   ],
   "note": "Proved for far field, extrapolation, slip wall, adiabatic wall and in/outflow away from the switches, for the routine the constructed object calls (C10_object). False for the isothermal wall (C10_isothermal_refuted; its energy row in full: C10_isothermal_row) and at exactly sonic outflow (C10_inOut_sonic_refuted)."
  },
  {
   "property": "C11",
   "status": "partial",
   "theorems": [
    "FVENS.BC.C11_adiabatic_velocity",
    "FVENS.BC.C11_isothermal",
    "FVENS.BC.C11_adiabatic_temperature_partial",
    "FVENS.BC.C11_adiabatic_temperature_iff",
    "FVENS.BC.C11_adiabatic_temperature_refuted",
    "FVENS.BC.C11_general_wall_ub",
    "FVENS.BC.C11_general_wall_velocity"
   ],
   "note": "Velocity and isothermal temperature proved. Adiabatic temperature only for walls at rest: exact condition and refutation for moving walls. General-velocity wall reads out of bounds."
  },
  {
   "property": "C12",
   "status": "proved",
   "theorems": [
    "FVENS.BC.C12_inflow",
    "FVENS.BC.C12_supersonic_outflow",
    "FVENS.BC.C12_subsonic_outflow",
    "FVENS.BC.C12_freestream_reproduced"
   ],
   "note": ""
  },
  {
   "property": "C13",
   "status": "partial",
   "theorems": [
    "FVENS.BC.C13_total_temperature_partial",
    "FVENS.BC.C13_ghost_never_inflow",
    "FVENS.BC.C13_refuted"
   ],
   "note": "False in the code: C13_refuted, C13_ghost_never_inflow; the partial theorem is the exact condition."
  },
  {
   "property": "C14",
   "status": "proved",
   "theorems": [
    "FVENS.BC.C14_effect",
    "FVENS.BC.C14_succeeds_iff",
    "FVENS.BC.C14_binding",
    "FVENS.BC.C14_binding_distinct",
    "FVENS.BC.C14_periodic_throws",
    "FVENS.BC.C14_names",
    "FVENS.BC.C14_names_injective"
   ],
   "note": "Success exactly for supported kinds with enough parameters; too few parameters is undefined behaviour and periodic throws."
  },
  {
   "property": "C15",
   "status": "proved",
   "theorems": [
    "FVENS.Flux.C15_llf",
    "FVENS.Flux.C15_vanLeer",
    "FVENS.Flux.C15_ausm",
    "FVENS.Flux.C15_ausmPlus",
    "FVENS.Flux.C15_roe",
    "FVENS.Flux.C15_hll",
    "FVENS.Flux.C15_hllc",
    "FVENS.Flux.C15_consistency"
   ],
   "note": "All seven schemes."
  },
  {
   "property": "C16",
   "status": "proved",
   "theorems": [
    "FVENS.Flux.C16_hllc",
    "FVENS.Flux.C16_conservative",
    "FVENS.Flux.C16_llf",
    "FVENS.Flux.C16_vanLeer",
    "FVENS.Flux.C16_ausm",
    "FVENS.Flux.C16_ausmPlus",
    "FVENS.Flux.C16_roe",
    "FVENS.Flux.C16_hll"
   ],
   "note": "All seven schemes; HLLC for gamma >= 4/3 and unit normals (tie-breaking at zero contact speed uses the Rankine-Hugoniot relations)."
  },
  {
   "property": "C17",
   "status": "proved",
   "theorems": [
    "FVENS.Flux.C17_vanLeer",
    "FVENS.Flux.C17_ausm",
    "FVENS.Flux.C17_ausmPlus",
    "FVENS.Flux.C17_hll",
    "FVENS.Flux.C17_hllc",
    "FVENS.Flux.C17_roe",
    "FVENS.Flux.C17_llf_refuted"
   ],
   "note": "Van Leer, AUSM, AUSM+, HLL, HLLC, Roe. Local Lax-Friedrichs is refuted (C17_llf_refuted), as expected for a central scheme with dissipation."
  },
  {
   "property": "C18",
   "status": "partial",
   "theorems": [
    "FVENS.FV.Disc.C18_roe_mirror",
    "FVENS.Flux.C18_ausm_switch_row_right",
    "FVENS.Flux.C18_hllc_switch_right_iff",
    "FVENS.Flux.C18_hllc_contact_right_iff",
    "FVENS.Flux.C18_roe_edge_exact",
    "FVENS.Flux.C18_roe_smooth",
    "FVENS.Flux.C18_ausm_switch_row",
    "FVENS.Flux.C18_ausm_exact_iff",
    "FVENS.Flux.C18_ausm_no_jacobian",
    "FVENS.Flux.C18_ausm_switch_refuted",
    "FVENS.Flux.C18_hllc_contact_iff",
    "FVENS.Flux.C18_hllc_switch_refuted",
    "FVENS.Flux.C18_hllc_switch_iff",
    "FVENS.Flux.C18_hllc_wall",
    "FVENS.Flux.C18_llf_sum",
    "FVENS.Flux.C18_llf_frozen",
    "FVENS.Flux.C18_hll_sum",
    "FVENS.Flux.C18_hll_frozen",
    "FVENS.Flux.C18_ausm_exact",
    "FVENS.Flux.C18_ausm_sum",
    "FVENS.Flux.C18_vanLeer_refuted",
    "FVENS.Flux.C18_ausmPlus_refuted",
    "FVENS.Flux.C18_llf2_exact_iff",
    "FVENS.Flux.C18_llf2_partial",
    "FVENS.Flux.C18_llf2_sum",
    "FVENS.Flux.C18_llf2_refuted",
    "FVENS.Flux.C18_roe_averages_left",
    "FVENS.Flux.C18_roe_averages_right",
    "FVENS.Flux.C18_roe_exact_partial",
    "FVENS.Flux.C18_roe_sum",
    "FVENS.Flux.C18_roe_fix_error",
    "FVENS.Flux.C18_roe_fix_iff",
    "FVENS.Flux.C18_roe_refuted",
    "FVENS.Flux.C18_hllc_exact",
    "FVENS.Flux.C18_hllc_sum",
    "FVENS.Flux.C18_roe_contact_iff",
    "FVENS.Flux.C18_roe_contact_right_iff"
   ],
   "note": "Exact: AUSM (exactly where the interface Mach number is nonzero, or both sides leave the face at no less than the speed of sound, or both carry the same; elsewhere, e.g. at a stationary contact, the flux has no derivative at all: C18_ausm_exact_iff, C18_ausm_no_jacobian, C18_ausm_switch_refuted), HLLC (no switch at its threshold; at a stationary contact the mass flux has a derivative exactly if the densities are equal: C18_hllc_contact_iff, C18_hllc_switch_refuted; wherever the contact stands still, exactly if the densities beside it agree or its speed has zero derivative: C18_hllc_switch_iff, so at slip walls it has one: C18_hllc_wall), Roe without active entropy fix, the edge of the fix included (C18_roe_edge_exact; the flux itself has a derivative between all admissible states: C18_roe_smooth), Roe between states mirrored at a slip wall although the entropy fix is active there (C18_roe_mirror); block sums at equal states for all schemes having a Jacobian; Lax-Friedrichs and HLL are derivatives with frozen wave speeds, as documented. False: Roe with active entropy fix (the error of the coded eigenvalue derivative and the exact condition under which it vanishes are proved; where the averaged normal velocity vanishes the mass row is right exactly if the density jump is that of an acoustic wave: C18_roe_contact_iff, C18_roe_contact_right_iff), second Lax-Friedrichs variant for density other than 1, Van Leer (throws), AUSM+ (leaves the output untouched)."
  },
  {
   "property": "C19",
   "status": "proved",
   "theorems": [
    "FVENS.Flux.C19_every_state",
    "FVENS.Flux.C19_llf",
    "FVENS.Flux.C19_vanLeer",
    "FVENS.Flux.C19_ausm",
    "FVENS.Flux.C19_ausmPlus",
    "FVENS.Flux.C19_roe",
    "FVENS.Flux.C19_hll",
    "FVENS.Flux.C19_hllc",
    "FVENS.Flux.C19_rotation"
   ],
   "note": "All seven schemes; C19_every_state without any condition on the states."
  },
  {
   "property": "C20",
   "status": "proved",
   "theorems": [
    "FVENS.Flux.C20_ausm",
    "FVENS.Flux.C20_ausmPlus",
    "FVENS.Flux.C20_hllc",
    "FVENS.Flux.C20_contact_preserved",
    "FVENS.Flux.C20_roe_diffuses_contact",
    "FVENS.Flux.C20_roe_refuted"
   ],
   "note": "AUSM, AUSM+, HLLC. Roe with its entropy fix diffuses contacts (C20_roe_diffuses_contact, C20_roe_refuted)."
  },
  {
   "property": "C21",
   "status": "proved",
   "theorems": [
    "FVENS.Flux.C21_wave_order",
    "FVENS.Flux.C21_star_density_pos",
    "FVENS.Flux.C21_rankine_hugoniot",
    "FVENS.Flux.C21_star_pressure",
    "FVENS.Flux.C21_low_gamma_refuted"
   ],
   "note": "For gamma >= 4/3; C21_low_gamma_refuted shows the hypothesis is needed."
  },
  {
   "property": "C22",
   "status": "proved",
   "theorems": [
    "FVENS.Msh.C22_unit",
    "FVENS.Msh.C22_perpendicular",
    "FVENS.Msh.C22_length",
    "FVENS.Msh.C22_opposite",
    "FVENS.Msh.C22_outward",
    "FVENS.Msh.C22_closed"
   ],
   "note": "Real arithmetic; closedness for cells whose faces have nonzero length."
  },
  {
   "property": "C23",
   "status": "proved",
   "theorems": [
    "FVENS.Msh.C23_polygon_area",
    "FVENS.Msh.C23_unset_iff",
    "FVENS.Msh.C23_rotation_start",
    "FVENS.Msh.C23_translation",
    "FVENS.Msh.C23_reversal",
    "FVENS.Msh.C23_triangle_cross",
    "FVENS.Msh.C23_quad",
    "FVENS.Msh.C23_divergence",
    "FVENS.Msh.C23_total"
   ],
   "note": "Triangles and quadrilaterals; other cells leave the area unset (C23_unset_iff)."
  },
  {
   "property": "C24",
   "status": "partial",
   "theorems": [
    "FVENS.Msh.C24_midpoint",
    "FVENS.Msh.C24_face_partial",
    "FVENS.Msh.C24_face_error",
    "FVENS.Msh.C24_small_angle_refuted",
    "FVENS.Msh.C24_face_error_value"
   ],
   "note": "Midpoint variant exact. Face-line variant exact unless a direction component of the face is below 1e-12 in size without being zero: C24_small_angle_refuted; C24_face_error bounds the deviation."
  },
  {
   "property": "C25",
   "status": "proved",
   "theorems": [
    "FVENS.Msh.C25_lists_exact",
    "FVENS.Msh.C25_membership",
    "FVENS.Msh.C25_strictly_increasing"
   ],
   "note": ""
  },
  {
   "property": "C26",
   "status": "proved",
   "theorems": [
    "FVENS.Msh.C26_sound",
    "FVENS.Msh.C26_complete",
    "FVENS.Msh.C26_adjacency_exact",
    "FVENS.Msh.C26_symmetric",
    "FVENS.Msh.C26_nonmanifold_refuted"
   ],
   "note": "Completeness and symmetry on manifold meshes (no face in three cells); C26_nonmanifold_refuted shows the hypothesis is needed."
  },
  {
   "property": "C27",
   "status": "proved",
   "theorems": [
    "FVENS.Msh.C27_ranges",
    "FVENS.Msh.C27_interior",
    "FVENS.Msh.C27_interior_once"
   ],
   "note": ""
  },
  {
   "property": "C28",
   "status": "proved",
   "theorems": [
    "FVENS.Msh.C28_ok_iff",
    "FVENS.Msh.C28_throws_iff",
    "FVENS.Msh.C28_ub_iff",
    "FVENS.Msh.C28_orphan_refuted",
    "FVENS.Msh.C28_faces"
   ],
   "note": "Exact conditions for success, error and undefined behaviour; C28_orphan_refuted exhibits the undefined case."
  },
  {
   "property": "C29",
   "status": "proved",
   "theorems": [
    "FVENS.Msh.C29_oriented",
    "FVENS.Msh.C29_idempotent"
   ],
   "note": ""
  },
  {
   "property": "C30",
   "status": "partial",
   "theorems": [
    "FVENS.Msh.C30_connectivity_partial",
    "FVENS.Msh.C30_geometry",
    "FVENS.Msh.C30_adjacency",
    "FVENS.Msh.C30_iff",
    "FVENS.Msh.C30_refuted"
   ],
   "note": "Vertices, counts, geometry and adjacency follow the cell. Region tags do not: C30_refuted, exact condition C30_iff."
  },
  {
   "property": "C31",
   "status": "partial",
   "theorems": [
    "FVENS.Msh.C31_symmetric_partial",
    "FVENS.Msh.C31_disabled",
    "FVENS.Msh.C31_refuted"
   ],
   "note": "Symmetric if each periodic face has at most one candidate within the tolerance; C31_refuted gives three faces where it is not."
  },
  {
   "property": "C32",
   "status": "proved",
   "theorems": [
    "FVENS.Msh.C32_roundtrip",
    "FVENS.Msh.C32_no_cells_refuted"
   ],
   "note": "Token level; meshes of triangles and quadrilaterals with at least one cell and at most 21 tags. Meshes without cells cannot be read back (C32_no_cells_refuted)."
  },
  {
   "property": "C33",
   "status": "proved",
   "theorems": [
    "FVENS.Msh.C33_exact",
    "FVENS.Msh.C33_symmetric",
    "FVENS.Msh.C33_layout"
   ],
   "note": "Meshes of triangles and quadrilaterals."
  },
  {
   "property": "C34",
   "status": "proved",
   "theorems": [
    "FVENS.Msh.C34_mesh_levels",
    "FVENS.Msh.C34_mesh_unique",
    "FVENS.Msh.C34_undefined_iff",
    "FVENS.Msh.C34_levels",
    "FVENS.Msh.C34_cover",
    "FVENS.Msh.C34_empty"
   ],
   "note": "For any symmetric adjacency, and for every pre-processed conforming mesh with adjacency meaning a shared face (C34_mesh_levels); maximal and unique; undefined exactly if a cell other than the last has a face without neighbour, as before face construction."
  },
  {
   "property": "C35",
   "status": "proved",
   "theorems": [
    "FVENS.Msh.C35_lines",
    "FVENS.Msh.C35_total",
    "FVENS.Msh.C35_isolated_refuted",
    "FVENS.Msh.C35_line_permutation",
    "FVENS.Msh.C35_hybrid_permutation",
    "FVENS.Msh.C35_contiguous",
    "FVENS.Msh.C35_isPerm",
    "FVENS.Msh.C35_lines_adjacent",
    "FVENS.Msh.C35_anisotropy"
   ],
   "note": "For any sorting of equal weights and any vertex ordering delivered by PETSc. Cells without real neighbours lead to an uninitialised read (C35_isolated_refuted)."
  },
  {
   "property": "C36",
   "status": "proved",
   "theorems": [
    "FVENS.Msh.C36_trivial",
    "FVENS.Msh.C36_counts"
   ],
   "note": ""
  },
  {
   "property": "C37",
   "status": "proved",
   "theorems": [
    "FVENS.Msh.C37_extraction",
    "FVENS.Msh.C37_coordinates"
   ],
   "note": "For conforming global meshes with at most four boundary tags per face, any assignment of cells to ranks."
  },
  {
   "property": "C38",
   "status": "partial",
   "theorems": [
    "FVENS.Msh.C38_refuted",
    "FVENS.Msh.C38_one_sided_refuted",
    "FVENS.Msh.C38_sound",
    "FVENS.Msh.C38_registered_iff",
    "FVENS.Msh.C38_all_iff",
    "FVENS.Msh.C38_registered_partial",
    "FVENS.Msh.C38_conforming_iff"
   ],
   "note": "Registered faces are correct; a face between ranks is registered iff an end point is off the rank's physical boundary (C38_all_iff). Refuted for the unit square of two triangles on two ranks (C38_refuted) and one-sidedly (C38_one_sided_refuted)."
  },
  {
   "property": "C39",
   "status": "proved",
   "theorems": [
    "FVENS.Msh.C39_lists",
    "FVENS.Msh.C39_graph"
   ],
   "note": ""
  },
  {
   "property": "C40",
   "status": "partial",
   "theorems": [
    "FVENS.Par.C40_tables",
    "FVENS.Par.C40_exchange_partial",
    "FVENS.Par.C40_refuted",
    "FVENS.Par.C40_exchange",
    "FVENS.Par.C40_progress",
    "FVENS.Par.C40_finishes",
    "FVENS.Par.C40_completes",
    "FVENS.Par.C40_transport",
    "FVENS.Par.C40_no_deadlock",
    "FVENS.Par.C40_terminates"
   ],
   "note": "For every schedule, number of ranks and set of agreeing interface tables; tables agree whenever all interface faces are registered (C40_tables). With one-sided registration a rank waits for ever (C40_refuted). MPI assumed reliable and non-overtaking, sends assumed buffered."
  },
  {
   "property": "C41",
   "status": "proved",
   "theorems": [
    "FVENS.FV.C41_conservative",
    "FVENS.FV.C41_cell"
   ],
   "note": "Assembly loop over the face list of any conforming (sub)mesh; sums exact (real numbers or any commutative group)."
  },
  {
   "property": "C42",
   "status": "proved",
   "theorems": [
    "FVENS.FV.C42_race_free",
    "FVENS.FV.C42_atomic",
    "FVENS.FV.C42_lost_update",
    "FVENS.FV.C42_assembly"
   ],
   "note": "Threads interleave arbitrarily under sequentially consistent memory; any distribution of faces. Also the converse: unprotected updates of a shared location lose contributions in some execution."
  },
  {
   "property": "C43",
   "status": "proved",
   "theorems": [
    "FVENS.FV.Disc.C43_first_order",
    "FVENS.FV.Disc.C43_second_order",
    "FVENS.FV.Disc.C43_freestream"
   ],
   "note": "First order and second order with every gradient scheme where defined; Barth-Jespersen and Venkatakrishnan where defined (C48). Other ranks' data are parameters; the sent states are shown uniform. Exact arithmetic."
  },
  {
   "property": "C44",
   "status": "partial",
   "theorems": [
    "FVENS.FV.Geo.C44_partial",
    "FVENS.FV.Geo.C44_exact",
    "FVENS.FV.Geo.C44_refuted"
   ],
   "note": "False in general: boundary and connectivity loops update without atomics (C44_refuted). C44_exact: correct for all schedules exactly if no cell has two boundary or two connectivity faces."
  },
  {
   "property": "C45",
   "status": "proved",
   "theorems": [
    "FVENS.FV.Geo.C45_greenGauss_constant",
    "FVENS.FV.Geo.C45_greenGauss_linear",
    "FVENS.FV.Geo.C45_wls_invertible_iff",
    "FVENS.FV.Geo.C45_wls_linear_exact",
    "FVENS.FV.Geo.C45_wls_linear",
    "FVENS.FV.Geo.C45_wls_minimises",
    "FVENS.FV.Geo.C45_face_value_exact_iff",
    "FVENS.FV.Geo.C45_greenGauss_linear_exact",
    "FVENS.FV.Disc.C45_options"
   ],
   "note": "Green-Gauss: constants and linearity. WLSQ: exact for linear fields iff-condition on stencil, linearity, unique minimiser; both also as the option the residual uses. Exact arithmetic."
  },
  {
   "property": "C46",
   "status": "proved",
   "theorems": [
    "FVENS.FV.Disc.C46_options",
    "FVENS.FV.Disc.C46_face_states",
    "FVENS.FV.Disc.C46_exact_flux",
    "FVENS.FV.Geo.C46_linear",
    "FVENS.FV.Geo.C46_muscl",
    "FVENS.FV.Geo.C46_weno",
    "FVENS.FV.Geo.C46_constant_limited"
   ],
   "note": "Linear, MUSCL and WENO reconstruction of linear fields from exact gradients; limited schemes for vanishing gradients; face states and fluxes of the second-order residual for linear fields, by option. Exact arithmetic."
  },
  {
   "property": "C47",
   "status": "proved",
   "theorems": [
    "FVENS.FV.C47_length",
    "FVENS.FV.C47_muscl",
    "FVENS.FV.C47_muscl_exact_refuted",
    "FVENS.FV.C47_venkatakrishnan",
    "FVENS.FV.C47_venkatakrishnan_monotone",
    "FVENS.FV.C47_venkatakrishnan_overshoot",
    "FVENS.FV.C47_vanAlbada",
    "FVENS.FV.Geo.C47_barthJespersen",
    "FVENS.FV.C47_venkatakrishnan_overshoot_bound",
    "FVENS.FV.C47_venkatakrishnan_smooth",
    "FVENS.FV.Geo.C47_venkatakrishnan_range",
    "FVENS.FV.Geo.C47_venkatakrishnan_inactive"
   ],
   "note": "Bounds for Barth-Jespersen where defined (see C48); Van Albada and Venkatakrishnan in [0,1]; MUSCL up to 1.25e-5, exact monotonicity fails because of the limiter constant (C47_muscl_exact_refuted); Venkatakrishnan with K > 0 can overshoot (C47_venkatakrishnan_overshoot), by no more than C47_venkatakrishnan_range says, and is nearly inactive where the solution is smooth (C47_venkatakrishnan_inactive)."
  },
  {
   "property": "C48",
   "status": "partial",
   "theorems": [
    "FVENS.FV.Geo.C48_exact",
    "FVENS.FV.Geo.C48_refuted",
    "FVENS.FV.Geo.C48_partial"
   ],
   "note": "False: Barth-Jespersen and Venkatakrishnan read rows beyond the array at physical boundaries (C48_refuted); C48_exact: defined exactly if there is no physical boundary face. The other schemes are safe (C48_partial)."
  },
  {
   "property": "C49",
   "status": "proved",
   "theorems": [
    "FVENS.FV.C49_convex",
    "FVENS.FV.C49_bounded",
    "FVENS.FV.C49_linear"
   ],
   "note": "Positive lambda (not set by the control file parser, see C64)."
  },
  {
   "property": "C50",
   "status": "partial",
   "theorems": [
    "FVENS.FV.Disc.C50_boundary_exact",
    "FVENS.FV.Disc.C50_boundary_flux",
    "FVENS.FV.Disc.C50_boundaries",
    "FVENS.FV.Disc.C50_ausm_switch_iff",
    "FVENS.FV.Disc.C50_ausm_switch_refuted",
    "FVENS.FV.Disc.C50_neighbour_iff",
    "FVENS.FV.Disc.C50_hllc_switch_iff",
    "FVENS.FV.Disc.C50_hllc_switch_refuted",
    "FVENS.FV.Disc.C50_roe_smooth",
    "FVENS.FV.C50_schedule",
    "FVENS.FV.C50_derivative",
    "FVENS.FV.C50_column_sum",
    "FVENS.FV.Disc.C50_interior_blocks",
    "FVENS.FV.Disc.C50_boundary_constant",
    "FVENS.FV.Disc.C50_boundary_chain",
    "FVENS.FV.Disc.C50_flow",
    "FVENS.FV.Disc.C50_joint_llf",
    "FVENS.FV.Disc.C50_joint_hll",
    "FVENS.FV.Disc.C50_slip_wall_llf",
    "FVENS.FV.Disc.C50_ausm_farfield"
   ],
   "note": "Derivative of the first-order residual for every exact flux and boundary Jacobian, schedule independence, column sums, numbering with ghost columns; end to end for AUSM, Roe and HLLC with slip walls (every admissible state), insulated walls, far fields, extrapolation and in/outflow (C50_boundaries), inviscid or with constant viscosity, away from the switches of the scheme at the other faces. False at the switch of AUSM: where the interface Mach number of a face vanishes the residual has a derivative with respect to the neighbour exactly if both sides carry the same or leave the face at no less than the speed of sound (C50_ausm_switch_iff), and at a stationary contact it has none (C50_ausm_switch_refuted). With any scheme the residual has a derivative with respect to a neighbour exactly where the flux between them has one (C50_neighbour_iff); with HLLC, where the contact stands still, the mass residual has one exactly if the densities beside the contact agree or the contact speed is flat (C50_hllc_switch_iff), and at a stationary density jump it has none (C50_hllc_switch_refuted). Roe has no such switch: the residual has a derivative with respect to a neighbour at all admissible states (C50_roe_smooth), though with active entropy fix the coded block is not that derivative (C18). Missing: the other switches of HLLC, Roe at no-slip walls, Sutherland viscosity (C04), isothermal walls (C10). Distributed assembly is C82."
  },
  {
   "property": "C51",
   "status": "proved",
   "theorems": [
    "FVENS.FV.Disc.C51_integral",
    "FVENS.FV.Disc.C51_positive_bounded",
    "FVENS.FV.Disc.C51_threads"
   ],
   "note": "Exact arithmetic; admissible face states, positive area of the cell."
  },
  {
   "property": "C52",
   "status": "proved",
   "theorems": [
    "FVENS.FV.C52_directional",
    "FVENS.FV.C52_tangential",
    "FVENS.FV.C52_linear",
    "FVENS.FV.C52_gradient_symmetric",
    "FVENS.FV.C52_temperature_gradient",
    "FVENS.FV.C52_uniform",
    "FVENS.FV.C52_rigid",
    "FVENS.FV.C52_opposite",
    "FVENS.FV.C52_flux",
    "FVENS.FV.C52_navier_stokes",
    "FVENS.FV.C52_heat"
   ],
   "note": "Continuity of the state enters as distinct cell centres; flux of rigid motion and uniform fields vanishes; temperature row uses the exact chain rule."
  },
  {
   "property": "C53",
   "status": "partial",
   "theorems": [
    "FVENS.FV.Diff.C53_boundary_value",
    "FVENS.FV.Diff.C53_conservative",
    "FVENS.FV.Diff.C53_linear_flux",
    "FVENS.FV.Diff.C53_constant",
    "FVENS.FV.Diff.C53_interior_blocks",
    "FVENS.FV.Diff.C53_boundary_iff",
    "FVENS.FV.Diff.C53_jacobian_doubled",
    "FVENS.FV.Diff.C53_jacobian_partial",
    "FVENS.FV.Diff.C53_jacobian_iff",
    "FVENS.FV.Diff.C53_timestep",
    "FVENS.FV.Diff.C53_refuted"
   ],
   "note": "Boundary value, conservation, consistency and interior blocks proved. Boundary blocks are half of the derivative because the dependence of the ghost state is ignored: C53_refuted, exact condition C53_jacobian_iff; with doubled boundary blocks the matrix is the derivative (C53_jacobian_doubled). Source terms depending on the solution are not in the Jacobian."
  },
  {
   "property": "C54",
   "status": "proved",
   "theorems": [
    "FVENS.Ode.C54_linear_bounds",
    "FVENS.Ode.C54_linear_monotone",
    "FVENS.Ode.C54_exp_bounds",
    "FVENS.Ode.C54_exp_monotone",
    "FVENS.Ode.C54_exp_ratio_monotone"
   ],
   "note": "Both ramps of aodesolver.cpp over the reals: bounds, end values, monotonicity in the iteration (linear ramp) and in the residual ratio."
  },
  {
   "property": "C55",
   "status": "partial",
   "theorems": [
    "FVENS.Ode.C55_range_density",
    "FVENS.Ode.C55_pressure_partial",
    "FVENS.Ode.C55_refuted"
   ],
   "note": "Range and density part proved; pressure part proved where the coded pressure increment is right (C05_deltaPressure_correct_iff) and refuted in general by C55_refuted (an x-momentum update is not seen, full step, negative pressure)."
  },
  {
   "property": "C56",
   "status": "partial",
   "theorems": [
    "FVENS.Ode.C56_terminates",
    "FVENS.Ode.C56_outcome",
    "FVENS.Ode.C56_success",
    "FVENS.Ode.C56_failure_partial",
    "FVENS.Ode.C56_last_iteration_refuted",
    "FVENS.Ode.C56_zero_residual_refuted",
    "FVENS.Ode.C56_tolerance_one"
   ],
   "note": "Termination, iteration bound, exact reporting for every residual history proved for both solvers. Refuted: tolerance met in the last allowed iteration is reported as failure (C56_last_iteration_refuted); the implicit solver reports an exact initial state as blown up (C56_zero_residual_refuted). Residual, linear solver abstract."
  },
  {
   "property": "C57",
   "status": "partial",
   "theorems": [
    "FVENS.Ode.C57_implicit",
    "FVENS.Ode.C57_explicit_partial",
    "FVENS.Ode.C57_refuted"
   ],
   "note": "Refuted for the explicit solver (C57_refuted: it always uses the initial CFL number); holds with equal limits, and for the implicit solver."
  },
  {
   "property": "C58",
   "status": "partial",
   "theorems": [
    "FVENS.Ode.C58_step",
    "FVENS.Ode.C58_refuted",
    "FVENS.Ode.C58_consistent_iff",
    "FVENS.Ode.C58_table_partial",
    "FVENS.Ode.C58_end_time",
    "FVENS.Ode.C58_time_loop_ends",
    "FVENS.Ode.C58_order_zero_diverges"
   ],
   "note": "Refuted (C58_refuted, C58_step: every order reduces to one reversed Euler step); the coefficient table itself is right (C58_table_partial). Time loop: end time, termination, divergence for order zero."
  },
  {
   "property": "C59",
   "status": "proved",
   "theorems": [
    "FVENS.Lin.C59_diagonal",
    "FVENS.Lin.C59_variants_agree"
   ],
   "note": "All schedules and thread counts; blocked and scalar variant agree. Global cell numbers are assumed distinct."
  },
  {
   "property": "C60",
   "status": "proved",
   "theorems": [
    "FVENS.Lin.C60_affine",
    "FVENS.Lin.C60_ghost_iff",
    "FVENS.Lin.C60_limit",
    "FVENS.Lin.C60_error",
    "FVENS.Lin.C60_zero_direction"
   ],
   "note": "Exact for affine residuals, limit and error bound for differentiable ones; zero direction undefined; the effect of ghost entries left uncleared by the wrong loop bounds is characterised exactly (C60_ghost_iff); the statement assumes they are zero, as on one process."
  },
  {
   "property": "C61",
   "status": "partial",
   "theorems": [
    "FVENS.Lin.C61_diagonal",
    "FVENS.Lin.C61_offdiagonal_iff",
    "FVENS.Lin.C61_row_partial",
    "FVENS.Lin.C61_refuted"
   ],
   "note": "Diagonal part proved on all conforming meshes; off-diagonal part refuted (C61_refuted) with exact condition C61_offdiagonal_iff; C61_row_partial for cells with one interface face."
  },
  {
   "property": "C62",
   "status": "partial",
   "theorems": [
    "FVENS.Lin.C62_access",
    "FVENS.Lin.C62_failed_no_access",
    "FVENS.Lin.C62_balanced_partial",
    "FVENS.Lin.C62_second_vector",
    "FVENS.Lin.C62_failed_acquire_refuted",
    "FVENS.Lin.C62_copy_refuted"
   ],
   "note": "Proved for every program over any number of handles in which attaching succeeds and no handle is copied; refuted for a failing PETSc call (the array is released although it was not acquired, the local form leaks in the constructor) and for the implicit copy constructor."
  },
  {
   "property": "C63",
   "status": "proved",
   "theorems": [
    "FVENS.Ctl.C63_terminates",
    "FVENS.Ctl.C63_list_iff",
    "FVENS.Ctl.C63_throws_iff"
   ],
   "note": "Termination, the exact list read, and exactly when an exception is thrown, for every property tree; reading the file into the tree and text-to-number conversions are abstract."
  },
  {
   "property": "C64",
   "status": "partial",
   "theorems": [
    "FVENS.Ctl.C64_documented_partial",
    "FVENS.Ctl.C64_defaults",
    "FVENS.Ctl.C64_undefined_iff",
    "FVENS.Ctl.C64_refuted"
   ],
   "note": "Documented places and defaults proved for every accepted file; exact characterisation of the undefined members; refuted for the control file in doc/, whose limiter parameter is never read, and for files without the optional section."
  },
  {
   "property": "C65",
   "status": "partial",
   "theorems": [
    "FVENS.Ctl.C65_flux_partial",
    "FVENS.Ctl.C65_reconstruction_partial",
    "FVENS.Ctl.C65_update",
    "FVENS.Ctl.C65_boundary",
    "FVENS.Ctl.C65_gradient_partial",
    "FVENS.Ctl.C65_flux_refuted",
    "FVENS.Ctl.C65_gradient_refuted",
    "FVENS.Ctl.C65_usable_iff",
    "FVENS.Ctl.C65_letters"
   ],
   "note": "Selection by name proved for all strings; refuted for unsupported names: null pointers for fluxes and reconstructions, silently no gradients. Nonlinear updates and boundary types are right."
  },
  {
   "property": "C66",
   "status": "partial",
   "theorems": [
    "FVENS.Ctl.C66_run_partial",
    "FVENS.Ctl.C66_run_failure",
    "FVENS.Ctl.C66_run_converged",
    "FVENS.Ctl.C66_run_output_iff",
    "FVENS.Ctl.C66_refuted",
    "FVENS.Ctl.C66_concrete_refuted"
   ],
   "note": "run reports failures exactly; run_output, which the driver calls, returns normally after non-convergence and blow-up (refuted, with exact characterisation)."
  },
  {
   "property": "C67",
   "status": "partial",
   "theorems": [
    "FVENS.Out.C67_quarter",
    "FVENS.Out.C67_row_partial",
    "FVENS.Out.C67_constant",
    "FVENS.Out.C67_refuted",
    "FVENS.Out.C67_scalar_defined_iff",
    "FVENS.Out.C67_scalar_refuted",
    "FVENS.Out.C67_scalar_one_cell"
   ],
   "note": "Velocity, Mach number and temperature averages proved for all meshes and fields; refuted for density and pressure, written as exactly a quarter of the average, and the scalar version reads out of bounds for any mesh of two or more cells."
  },
  {
   "property": "C68",
   "status": "partial",
   "theorems": [
    "FVENS.Out.C68_offsets",
    "FVENS.Out.C68_roundtrip",
    "FVENS.Out.C68_mesh_offsets_iff",
    "FVENS.Out.C68_mesh_partial",
    "FVENS.Out.C68_refuted",
    "FVENS.Out.C68_nine_refuted"
   ],
   "note": "The data writer is proved to round-trip every hybrid mesh; writeMeshToVtu has right offsets exactly when all cells have the same node count (refuted for hybrid meshes)."
  },
  {
   "property": "C69",
   "status": "partial",
   "theorems": [
    "FVENS.Out.C69_distribution",
    "FVENS.Out.C69_pressure",
    "FVENS.Out.C69_uniform_pressure",
    "FVENS.Out.C69_closed_surface",
    "FVENS.Out.C69_rotation",
    "FVENS.Out.C69_reversal",
    "FVENS.Out.C69_friction_partial",
    "FVENS.Out.C69_friction_sign_refuted",
    "FVENS.Out.C69_viscosity_law_refuted",
    "FVENS.Out.C69_rows_iff",
    "FVENS.Out.C69_rows_refuted"
   ],
   "note": "Pressure forces proved for all closed surfaces, rotations and orientations; friction drag comes out with the wrong sign (refuted), Sutherland viscosity is used even with constant viscosity, and output passes too many rows."
  },
  {
   "property": "C70",
   "status": "partial",
   "theorems": [
    "FVENS.Arr.C70_index",
    "FVENS.Arr.C70_defined",
    "FVENS.Arr.C70_no_leak",
    "FVENS.Arr.C70_read",
    "FVENS.Arr.C70_write",
    "FVENS.Arr.C70_copy",
    "FVENS.Arr.C70_assign",
    "FVENS.Arr.C70_move",
    "FVENS.Arr.C70_resize",
    "FVENS.Arr.C70_self_assign_partial",
    "FVENS.Arr.C70_self_assign_refuted",
    "FVENS.Arr.C70_fill",
    "FVENS.Arr.C70_setdata",
    "FVENS.Arr.C70_equal"
   ],
   "note": "Memory safety of every legal program, index injectivity, independence of copies, assignment, move, resize and no leak proved; self-assignment in release builds loses all elements (refuted)."
  },
  {
   "property": "C71",
   "status": "proved",
   "theorems": [
    "FVENS.Msh.C71_elemface",
    "FVENS.Msh.C71_neighbour"
   ],
   "note": "Conforming meshes as defined by Msh.Conforming."
  },
  {
   "property": "C72",
   "status": "partial",
   "theorems": [
    "FVENS.Msh.C72_faces_first_partial",
    "FVENS.Msh.C72_order_refuted",
    "FVENS.Msh.C72_node_numbers_refuted"
   ],
   "note": "Correct if boundary faces come first and nodes are numbered consecutively; otherwise refuted."
  },
  {
   "property": "C73",
   "status": "partial",
   "theorems": [
    "FVENS.FV.C73_constant_viscosity",
    "FVENS.FV.C73_sutherland_partial",
    "FVENS.FV.C73_exact",
    "FVENS.FV.C73_refuted"
   ],
   "note": "False with Sutherland viscosity: the coded derivative of the viscosity is wrong (C73_refuted, C73_exact gives the exact condition); fully proved for constant viscosity."
  },
  {
   "property": "C74",
   "status": "partial",
   "theorems": [
    "FVENS.Par.C74_holds",
    "FVENS.Par.C74_iff",
    "FVENS.Par.C74_partial",
    "FVENS.Par.C74_trivial",
    "FVENS.Par.C74_refuted"
   ],
   "note": "PETSc's layout (owned blocks in rank order) against ghost indices taken from the global numbering: exact value of each ghost block for every partition, correct for all fields iff no ghost cell is displaced, hence for every assignment non-decreasing along the numbering and the trivial partition; refuted for others."
  },
  {
   "property": "C75",
   "status": "proved",
   "theorems": [
    "FVENS.FV.Geo.C75_gradients",
    "FVENS.FV.Disc.C75_first_order",
    "FVENS.FV.Disc.C75_face_states",
    "FVENS.FV.Disc.C75_second_order",
    "FVENS.FV.Disc.C75_time_steps",
    "FVENS.FV.Disc.C75_first_order_time_steps"
   ],
   "note": "Gradients (all schemes), first-order residual, face states of all reconstructions and second-order residual and time steps agree on local copies."
  },
  {
   "property": "C76",
   "status": "partial",
   "theorems": [
    "FVENS.Par.C76_first_order_partial",
    "FVENS.Par.C76_second_order_partial",
    "FVENS.Par.C76_refuted"
   ],
   "note": "First and second order, every gradient and reconstruction scheme and any interleaving proved for assignments non-decreasing along the numbering with all interface faces registered; refuted for others on a four-cell mesh."
  },
  {
   "property": "C77",
   "status": "partial",
   "theorems": [
    "FVENS.Par.C77_first_order_partial",
    "FVENS.Par.C77_second_order_partial",
    "FVENS.Par.C77_iff",
    "FVENS.Par.C77_refuted",
    "FVENS.Par.C77_run_partial",
    "FVENS.Par.C77_second_order_run_partial",
    "FVENS.Par.C77_implicit_run_partial",
    "FVENS.Par.C77_second_order_implicit_run_partial"
   ],
   "note": "Single process, every permutation, first and second order, residuals and whole explicit and implicit steady runs (implicit: exact linear solvers, regular systems, mirrored flux Jacobians, C83); with interface faces the renumbered mesh is valid iff the permutation maps recorded faces to recorded faces (C77_iff), refuted for a two-process mesh (C77_refuted): interface records are not renumbered."
  },
  {
   "property": "C78",
   "status": "partial",
   "theorems": [
    "FVENS.Msh.C78_sound",
    "FVENS.Msh.C78_complete",
    "FVENS.Msh.C78_partial",
    "FVENS.Msh.C78_smaller_refuted",
    "FVENS.Msh.C78_refuted"
   ],
   "note": "All-positive answers iff the meshes agree; sizes, boundary faces and coordinates correct one by one. Refuted for the single answers on cells and when the second mesh is smaller."
  },
  {
   "property": "C79",
   "status": "partial",
   "theorems": [
    "FVENS.Msh.C79_identity",
    "FVENS.Msh.C79_check",
    "FVENS.Msh.C79_refuted"
   ],
   "note": "Identity proved when every point belongs to a cell; with unused points the check of debug builds is undefined (C79_check, C79_refuted)."
  },
  {
   "property": "C80",
   "status": "partial",
   "theorems": [
    "FVENS.Out.C80_isentropic_iff",
    "FVENS.Out.C80_norm",
    "FVENS.Out.C80_zero_iff",
    "FVENS.Out.C80_mesh_size_iff",
    "FVENS.Out.C80_mesh_size_refuted"
   ],
   "note": "Entropy error proved for all distributions; the mesh size is that of the process, refuted for more than one (C80_mesh_size_refuted)."
  },
  {
   "property": "C81",
   "status": "proved",
   "theorems": [
    "FVENS.FV.C81_fourier",
    "FVENS.FV.C81_direction"
   ],
   "note": "Both orders, constant and Sutherland viscosity."
  },
  {
   "property": "C82",
   "status": "partial",
   "theorems": [
    "FVENS.Par.C82_own_rows",
    "FVENS.Par.C82_blocks_partial",
    "FVENS.Par.C82_product_partial",
    "FVENS.Par.C82_refuted"
   ],
   "note": "For assignments of cells to ranks that follow the cell numbering and Jacobian routines that treat the sides of a face alike at the given states (all states for LLF and HLL, C83): all blocks, own rows only, products. Refuted for other assignments: rows and columns are named by cell numbers, vectors are laid out by rank."
  },
  {
   "property": "C83",
   "status": "partial",
   "theorems": [
    "FVENS.Flux.C83_llf",
    "FVENS.Flux.C83_hll",
    "FVENS.Flux.C83_ausm_partial",
    "FVENS.Flux.C83_roe_partial",
    "FVENS.Flux.C83_hllc_partial",
    "FVENS.Flux.C83_ausm_refuted",
    "FVENS.Flux.C83_hllc_refuted",
    "FVENS.Flux.C83_roe_refuted"
   ],
   "note": "All states for LLF and HLL; AUSM for non-zero interface Mach number, Roe where no averaged wave speed vanishes, HLLC away from ties of wave speeds. Refuted for AUSM, Roe and HLLC at every stationary contact between different densities."
  },
  {
   "property": "C84",
   "status": "partial",
   "theorems": [
    "FVENS.Msh.Su2.C84_read_partial",
    "FVENS.Msh.Su2.C84_empty_marker_refuted",
    "FVENS.Msh.Su2.C84_dimension_refuted",
    "FVENS.Msh.Su2.C84_type_refuted",
    "FVENS.Msh.Su2.C84_name_throws",
    "FVENS.Msh.Su2.C84_convert"
   ],
   "note": "All files of triangles and quadrilaterals in which at most the last marker is empty, and their conversion. Refuted: an empty marker before another one derails the reader; three-dimensional files and unknown types of cells are accepted. Named markers throw, as documented."
  },
  {
   "property": "C85",
   "status": "proved",
   "theorems": [
    "FVENS.Msh.Bpt.C85_boundary_points",
    "FVENS.Msh.Bpt.C85_simple"
   ],
   "note": "All lists of boundary faces; where several faces begin (or end) at a point the last of them is kept."
  },
  {
   "property": "C86",
   "status": "proved",
   "theorems": [
    "FVENS.Msh.C86_defined",
    "FVENS.Msh.C86_entries",
    "FVENS.Msh.C86_symmetric",
    "FVENS.Msh.C86_inside",
    "FVENS.Msh.C86_blocks",
    "FVENS.Msh.C86_mesh"
   ],
   "note": "Every mesh and every outcome of findLines; error codes of PETSc and preallocation not modelled."
  },
  {
   "property": "C87",
   "status": "proved",
   "theorems": [
    "FVENS.FV.Disc.C87_no_slip_flux",
    "FVENS.FV.Disc.C87_first_order",
    "FVENS.FV.Disc.C87_second_order",
    "FVENS.FV.Disc.C87_momentum",
    "FVENS.FV.Disc.C87_time_step",
    "FVENS.FV.Disc.C87_run"
   ],
   "note": "First order: every admissible state. Second order: reconstructed wall states must be admissible; viscous energy needs ghost centres on the wall normals (mirror images, C24). The time integration is the one in the code, including its wrong sign (C58)."
  },
  {
   "property": "C88",
   "status": "partial",
   "theorems": [
    "FVENS.Par.C88_ghost_sum_partial",
    "FVENS.Par.C88_iteration_partial",
    "FVENS.Par.C88_run_partial",
    "FVENS.Par.C88_trivial_partial",
    "FVENS.Par.C88_refuted",
    "FVENS.Par.C88_second_order_run_partial"
   ],
   "note": "First- and second-order discretisation (any gradient and reconstruction scheme), inviscid and viscous, every number of ranks, whole runs, assignments non-decreasing along the cell numbering that register all interface faces (the trivial partition among them). Refuted for interleaved assignments (ghost positions, C76)."
  },
  {
   "property": "C89",
   "status": "partial",
   "theorems": [
    "FVENS.Par.C89_ghosts_frozen",
    "FVENS.Par.C89_time_step",
    "FVENS.Par.C89_first_step_iff",
    "FVENS.Par.C89_one_process_partial",
    "FVENS.Par.C89_refuted"
   ],
   "note": "Refuted: each rank takes the smallest time step of its own cells and never updates ghost blocks. Proved: rank time steps bound the single one from above and one attains it; ghost blocks keep their initial values; exact condition for the first step to agree; whole runs agree with all cells on one rank."
  },
  {
   "property": "C90",
   "status": "partial",
   "theorems": [
    "FVENS.Par.C90_format",
    "FVENS.Par.C90_hybrid_iff",
    "FVENS.Par.C90_request_throws_iff",
    "FVENS.Par.C90_oriented",
    "FVENS.Par.C90_too_many_ranks",
    "FVENS.Par.C90_split_partial",
    "FVENS.Par.C90_one_rank_partial",
    "FVENS.Par.C90_refuted",
    "FVENS.Par.C90_reordering_refuted"
   ],
   "note": "Every proper file, any number of ranks, no reordering, faces between ranks with an end off the boundary; any permutation on one rank; exact meaning of the options and file names. Refuted: coarse meshes (C38) and reordering on several ranks (C77) silently give meshes that are not conforming. PETSc orderings are parameters."
  },
  {
   "property": "C91",
   "status": "proved",
   "theorems": [
    "FVENS.Out.C91_surface_files",
    "FVENS.Out.C91_defined_iff",
    "FVENS.Out.C91_trailer_iff",
    "FVENS.Out.C91_volume_file",
    "FVENS.Out.C91_volume_injective",
    "FVENS.Out.C91_cell_arrays",
    "FVENS.Out.C91_cell_nodal"
   ],
   "note": "Exact condition for definedness (boundary faces must carry markers) and for an undefined last line (no face with the marker) in C91_defined_iff, C91_trailer_iff. Rounding to six digits is not modelled."
  },
  {
   "property": "C92",
   "status": "partial",
   "theorems": [
    "FVENS.Out.C92_defined_iff",
    "FVENS.Out.C92_empty_iff",
    "FVENS.Out.C92_contents",
    "FVENS.Out.C92_wellformed_iff",
    "FVENS.Out.C92_points",
    "FVENS.Out.C92_run",
    "FVENS.Out.C92_one_column_refuted"
   ],
   "note": "Refuted for vectors with one column (C92_one_column_refuted), exact condition C92_wellformed_iff; everything a run writes is well formed (C92_run)."
  },
  {
   "property": "C93",
   "status": "partial",
   "theorems": [
    "FVENS.Par.C93_step_partial",
    "FVENS.Par.C93_vanLeer_partial",
    "FVENS.Par.C93_llf_partial",
    "FVENS.Par.C93_run_partial",
    "FVENS.Par.C93_several_partial",
    "FVENS.Par.C93_cfl_one_refuted"
   ],
   "note": "First order, inviscid, 4/3 <= gamma <= 3. C93_step_partial: one iteration keeps a cell positive for local Lax-Friedrichs, van Leer, HLL and HLLC if the CFL number times the sum of the rates at which the faces take the state away (half the larger wave speed; c - vn for van Leer; minus the left signal speed for HLL, HLLC) does not exceed the sum of the cell's own wave speeds. For van Leer's flux this holds at every CFL number from 0 to 1 whatever the states (C93_vanLeer_partial), hence for whole runs (C93_run_partial) and, with C88, for runs on several processes (C93_several_partial). C93_llf_partial: factor between wave speeds that suffices. Refuted for every other scheme at CFL number 1 (C93_cfl_one_refuted): the time step uses the wave speeds of the cell alone, not those beyond its faces. Boundary conditions with positive ghost states: slip, extrapolation, far field, inflow-outflow, adiabatic wall at rest."
  },
  {
   "property": "C94",
   "status": "partial",
   "theorems": [
    "FVENS.BC.C94_ghost",
    "FVENS.FV.C94_viscous_flux",
    "FVENS.C94_second_cfl",
    "FVENS.C94_cfl_unit_refuted",
    "FVENS.FV.Moved.C94_greenGauss",
    "FVENS.FV.Moved.C94_wls",
    "FVENS.FV.Moved.C94_gradients",
    "FVENS.FV.Moved.C94_second_order_partial",
    "FVENS.FV.Moved.C94_muscl_refuted",
    "FVENS.FV.Moved.C94_face_flux",
    "FVENS.FV.Moved.C94_fluxes",
    "FVENS.FV.Moved.C94_time_steps",
    "FVENS.FV.Moved.C94_first_order",
    "FVENS.C94_setup",
    "FVENS.Par.C94_iteration",
    "FVENS.Par.C94_run",
    "FVENS.FV.C94_weno_refuted",
    "FVENS.C94_second_order_run_partial"
   ],
   "note": "Proved without conditions on the states for boundary states, all fluxes, the viscous flux, gradients, time steps, the first-order residual (inviscid and viscous), the second-order residual with the unlimited reconstruction, and whole runs of the explicit steady solver on one process, of first order and of second order with the unlimited reconstruction (C94_second_order_run_partial). False: WENO, whose weights compare squared gradients with 1e-5 (C94_weno_refuted); the MUSCL reconstruction limits the velocity components separately (C94_muscl_refuted); the CFL ramp compares the first residual norm with the number 1, so that the reported CFL number (and the one used by the implicit solver, C94_second_cfl) depends on the unit of length (C94_cfl_unit_refuted). Implicit runs: C104. Not covered: the Barth-Jespersen and Venkatakrishnan limiters, which are undefined on every mesh with a physical boundary (C48_exact)."
  },
  {
   "property": "C95",
   "status": "partial",
   "theorems": [
    "FVENS.Par.C95_explicit_iff",
    "FVENS.Par.C95_norm_zero_iff",
    "FVENS.Par.C95_stays",
    "FVENS.Par.C95_free_stream",
    "FVENS.Par.C95_rk_iff",
    "FVENS.Par.C95_converged_refuted"
   ],
   "note": "Proved: fixed points of explicit updates and of Runge-Kutta steps are exactly the steady states; the norm vanishes exactly where the energy residual does; both solvers stay at steady states. False: the norm counts the energy equation only, and the explicit solver reports convergence after one iteration from a state whose mass residual does not vanish (C95_converged_refuted); started at a steady state the implicit solver ends with a numerical error (C95_free_stream)."
  },
  {
   "property": "C96",
   "status": "partial",
   "theorems": [
    "FVENS.Par.C96_schedule",
    "FVENS.Par.C96_steady_iff",
    "FVENS.Par.C96_small_cfl",
    "FVENS.Par.C96_inexact_bound",
    "FVENS.Par.C96_inexact_steady_iff",
    "FVENS.Par.C96_second_order_steady_iff",
    "FVENS.Par.C96_inexact_sharp",
    "FVENS.Par.C96_defect_correction",
    "FVENS.Par.C96_defect_correction_schemes",
    "FVENS.Par.C96_inexact_processes_partial",
    "FVENS.Par.C96_inexact_processes_second_partial",
    "FVENS.Par.C96_product",
    "FVENS.Par.C96_newton",
    "FVENS.Par.C96_newton_schemes",
    "FVENS.Par.C96_iteration_partial",
    "FVENS.Par.C96_run_partial",
    "FVENS.Par.C96_second_order_run_partial"
   ],
   "note": "Proved: linearised backward Euler step for every exact flux and boundary Jacobian (C96_newton) and end to end for AUSM, Roe and HLLC (C96_newton_schemes), with second-order residuals and iterative linear solvers up to a defect within their tolerances (C96_defect_correction, C96_defect_correction_schemes); fixed points for exact and iterative linear solvers and any evaluation of the residual (C96_inexact_steady_iff, C96_second_order_steady_iff; a relative tolerance of one does not suffice, C96_inexact_sharp, and the code does not ask KSP whether it converged); small CFL numbers, for any Jacobian routine; thread schedules; whole runs on several processes, first and second order, for assignments that are non-decreasing along the cell numbering. Missing: other assignments of cells (false for the matrix and the residual: C82_refuted, C88_refuted); whole runs on several processes with iterative linear solvers, whose steps differ with the preconditioner of each partition; the states that an iteration leaves unchanged are those of the single process also then (C96_inexact_processes_partial, C96_inexact_processes_second_partial) (matrix-free products are treated in C60 and C121)."
  },
  {
   "property": "C97",
   "status": "partial",
   "theorems": [
    "FVENS.Par.C97_first_order",
    "FVENS.Par.C97_explicit_run",
    "FVENS.Par.C97_implicit_update",
    "FVENS.Par.C97_diffusive_iff",
    "FVENS.Par.C97_second_order",
    "FVENS.Par.C97_muscl",
    "FVENS.Par.C97_muscl_run",
    "FVENS.Par.C97_all_schemes_refuted",
    "FVENS.Par.C97_inflow_moves",
    "FVENS.Par.C97_inflow_cell",
    "FVENS.Par.C97_inflow_refuted",
    "FVENS.Par.C97_inflow_balance",
    "FVENS.Par.C97_inflow_cell_schemes",
    "FVENS.Par.C97_inflow_hllc_iff",
    "FVENS.Par.C97_isothermal_iff",
    "FVENS.Par.C97_isothermal",
    "FVENS.Par.C97_isothermal_run",
    "FVENS.Par.C97_isothermal_cell_iff",
    "FVENS.Par.C97_isothermal_refuted"
   ],
   "note": "Proved for AUSM, AUSM+ and HLLC: first order, second order with every gradient and reconstruction scheme (reconstructed densities positive; automatic for MUSCL with densities above 1.25e-5), explicit runs of both orders, implicit updates. False for LLF, van Leer, Roe and HLL: there the state is steady exactly if the density is equal across every face (C97_diffusive_iff, C97_all_schemes_refuted). Isothermal walls: gas stays at rest exactly if the cells at the wall have its temperature (C97_isothermal, C97_isothermal_run, C97_isothermal_iff, C97_isothermal_cell_iff, C97_isothermal_refuted). False at subsonic inflows, whose ghost state beside gas at rest always moves out of the domain (C97_inflow_moves), so that with AUSM the cell loses mass (C97_inflow_cell, C97_inflow_refuted); with AUSM+ it does so as well, and with HLLC if the prescribed total temperature is at most that of the gas (C97_inflow_cell_schemes). With HLLC the cell stays at rest exactly if the contact speed vanishes (C97_inflow_hllc_iff), which some total pressure achieves for every high total temperature (C97_inflow_balance)."
  },
  {
   "property": "C98",
   "status": "partial",
   "theorems": [
    "FVENS.Par.C98_residual",
    "FVENS.Par.C98_update",
    "FVENS.Par.C98_run",
    "FVENS.Par.C98_llf_refuted",
    "FVENS.Par.C98_second_order_timestep",
    "FVENS.Par.C98_second_order_run",
    "FVENS.Par.C98_jacobian_hll",
    "FVENS.Par.C98_jacobian_hllc",
    "FVENS.Par.C98_jacobian_ausm",
    "FVENS.Par.C98_jacobian_roe",
    "FVENS.Par.C98_rows",
    "FVENS.Par.C98_matrix",
    "FVENS.Par.C98_implicit_update",
    "FVENS.Par.C98_implicit_run",
    "FVENS.FV.Disc.C98_second_order_layer",
    "FVENS.FV.Disc.C98_second_order_refuted",
    "FVENS.Par.C98_viscous_iff",
    "FVENS.Par.C98_viscous_refuted"
   ],
   "note": "Proved for every scheme but LLF, for inviscid first-order residuals, local time steps, updates and runs of the explicit steady solver: C98_residual, C98_update, C98_run (the gas must leave the set faster than sound, on both sides of its rim, at every iterate). False for LLF, whose dissipation carries downstream states against the stream (C98_llf_refuted, on the two-square mesh). For the implicit solver (AUSM, HLL, HLLC or Roe Jacobians): the blocks of a supersonic face are those of the upstream state (C98_jacobian_*), the rows of the set have no entries outside it (C98_rows, C98_matrix), updates and runs with exact linear solves and constant CFL number do not depend on the rest (C98_implicit_update, C98_implicit_run). With viscosity the claim is false (C98_viscous_refuted): a downstream state acts upstream exactly if it changes the viscous flux of the face (C98_viscous_iff). At second order it is false too, since gradients read all neighbours (C98_second_order_refuted: Green-Gauss, linear reconstruction, AUSM, no viscosity, face crossed faster than sound by cell and face states); the influence reaches one layer of cells and no further in each iteration (C98_second_order_layer, C98_second_order_timestep, C98_second_order_run: explicit solver, linear reconstruction, all gradient schemes)."
  },
  {
   "property": "C99",
   "status": "partial",
   "theorems": [
    "FVENS.BC.C99_ghost",
    "FVENS.BC.C99_outflow_refuted",
    "FVENS.FV.C99_viscous_flux",
    "FVENS.FV.C99_face_flux",
    "FVENS.FV.C99_fluxes",
    "FVENS.FV.C99_first_order",
    "FVENS.FV.C99_time_steps",
    "FVENS.FV.C99_gradients",
    "FVENS.FV.C99_second_order_partial",
    "FVENS.FV.C99_muscl_refuted",
    "FVENS.Par.C99_iteration",
    "FVENS.Par.C99_run",
    "FVENS.Par.C99_cfl_refuted",
    "FVENS.FV.C99_weno_refuted",
    "FVENS.Flux.C99_flux",
    "FVENS.C99_second_order_run_partial"
   ],
   "note": "Proved: fluxes of all schemes (C99_flux), boundary states (C99_ghost), viscous fluxes, gradients, first-order residuals, second-order residuals with the unlimited reconstruction, time steps, iterations and runs of the explicit steady solver, also of second order with the unlimited reconstruction (C99_second_order_run_partial). False: WENO (C99_weno_refuted); the in/outflow boundary when the unit of density changes, because the free-stream pressure 1/(gamma M^2) presumes free-stream density 1 (C99_outflow_refuted); MUSCL, whose limiter adds 1e-8 to squared differences (C99_muscl_refuted); reported CFL numbers, ramped from a norm compared with 1 (C99_cfl_refuted). Implicit runs: C104. Not covered: the Barth-Jespersen and Venkatakrishnan limiters, undefined on every mesh with a physical boundary (C48_exact)."
  },
  {
   "property": "C100",
   "status": "proved",
   "theorems": [
    "FVENS.FV.Disc.C100_mirrored",
    "FVENS.Reflection.C100_setup",
    "FVENS.FV.Disc.C100_mirrored_update",
    "FVENS.FV.Disc.C100_half",
    "FVENS.FV.Disc.C100_half_iteration",
    "FVENS.FV.Disc.C100_half_run",
    "FVENS.Reflection.C100_mirror_run",
    "FVENS.Flux.C100_reflection",
    "FVENS.BC.C100_ghost",
    "FVENS.BC.C100_slip_ghost"
   ],
   "note": "Inviscid, first order, as stated: the second-order and viscous terms use ghost centres mirrored through the face midpoint (C24), not at the axis. Runs assume admissible states along the way and gamma at least 4/3 (conservation of the HLLC and AUSM fluxes, C16)."
  },
  {
   "property": "C101",
   "status": "partial",
   "theorems": [
    "FVENS.FV.Diff.C101_upper",
    "FVENS.FV.Diff.C101_lower",
    "FVENS.FV.Diff.C101_step_iff",
    "FVENS.FV.Diff.C101_run",
    "FVENS.FV.Diff.C101_implicit_doubled",
    "FVENS.FV.Diff.C101_implicit_iff",
    "FVENS.FV.Diff.C101_implicit_measure",
    "FVENS.FV.Diff.C101_steady",
    "FVENS.FV.Diff.C101_convex",
    "FVENS.FV.Diff.C101_no_cfl_refuted",
    "FVENS.FV.Diff.C101_implicit_refuted"
   ],
   "note": "Thin-layer gradients on any mesh, every gradient scheme where lines of centres are along the normals; conductances nonnegative (true on meshes of convex counter-clockwise cells, C101_convex). Explicit: a step keeps all bounds exactly if CFL times time step times the sum of conductances is at most the area of each cell (C101_step_iff, C101_run); the code takes time steps from the longest face, so no CFL number is small enough for all meshes: on long rectangles the error at least doubles in each iteration and the run fails (C101_no_cfl_refuted). Implicit, exact linear solver: unconditional with correct boundary blocks (C101_implicit_doubled); with the half blocks of the code (C53) exactly if the boundary conductances of each cell are at most twice area over time step (C101_implicit_iff), so it fails on the unit square at every CFL number above a quarter (C101_implicit_refuted), but a quadratic measure never grows (C101_implicit_measure). Steady states: C101_steady."
  },
  {
   "property": "C102",
   "status": "proved",
   "theorems": [
    "FVENS.FV.Diff.C102_implicit_step",
    "FVENS.FV.Diff.C102_explicit_step",
    "FVENS.FV.Diff.C102_implicit_run",
    "FVENS.FV.Diff.C102_explicit_run",
    "FVENS.FV.Diff.C102_reaches",
    "FVENS.FV.Diff.C102_steady",
    "FVENS.FV.Diff.C102_error",
    "FVENS.FV.Diff.C102_implicit_converges",
    "FVENS.FV.Diff.C102_explicit_converges",
    "FVENS.FV.Diff.C102_explicit_sharp",
    "FVENS.FV.Diff.C102_no_cfl_refuted"
   ],
   "note": "The measure that decreases is the dissipation of the distance to the steady state (C102_implicit_step exact, C102_explicit_step); iteration counts in C102_implicit_run and C102_explicit_run; limits in C102_implicit_converges and C102_explicit_converges; existence and uniqueness in C102_steady, using that on meshes with positive areas every cell is connected to a boundary face (C102_reaches). The limit for explicit runs is exact on rectangles (C102_explicit_sharp), hence no CFL number serves all meshes (C102_no_cfl_refuted). The linear solver is taken as exact; gradient corrections on skewed meshes are not covered."
  },
  {
   "property": "C103",
   "status": "partial",
   "theorems": [
    "FVENS.Ode.C103_bounds",
    "FVENS.Ode.C103_first",
    "FVENS.Ode.C103_second",
    "FVENS.Ode.C103_later",
    "FVENS.Ode.C103_direction",
    "FVENS.Ode.C103_falling",
    "FVENS.Ode.C103_final",
    "FVENS.Ode.C103_scaling_partial",
    "FVENS.Ode.C103_scaling_refuted"
   ],
   "note": "Proved: C103_first, C103_bounds, C103_second, C103_later, C103_direction, closed form for falling norms (C103_falling), C103_final, and agreement of runs in different units where both first norms are at least one (C103_scaling_partial). False otherwise: the second iteration compares the first norm with the number one, so the implicit solver takes another path in other units (C103_scaling_refuted)."
  },
  {
   "property": "C104",
   "status": "partial",
   "theorems": [
    "FVENS.Chart.C104_ghost",
    "FVENS.Chart.C104_viscous",
    "FVENS.Chart.C104_llf",
    "FVENS.Chart.C104_hll",
    "FVENS.Chart.C104_ausm",
    "FVENS.Chart.C104_hllc",
    "FVENS.Chart.C104_roe",
    "FVENS.C104_cfl_refuted",
    "FVENS.C104_moved_run_partial",
    "FVENS.C104_units_run_partial",
    "FVENS.C104_relax_partial",
    "FVENS.C104_relax_axes_refuted",
    "FVENS.C104_relax_units_refuted",
    "FVENS.Charted.C104_iteration",
    "FVENS.Charted.C104_run",
    "FVENS.C104_moved_second_order_run_partial",
    "FVENS.C104_units_second_order_run_partial",
    "FVENS.Chart.C104_system",
    "FVENS.Chart.C104_families",
    "FVENS.Charted.C104_jacobian",
    "FVENS.Charted.C104_matrix"
   ],
   "note": "Proved for every chart (turn, reflection, units of density and velocity): Jacobians of LLF, HLL, AUSM, Roe and (for gamma at least 4/3) HLLC, viscous Jacobian, boundary Jacobians, the assembled first-order matrix, exact solves; for similarities of the mesh and for changes of units: iterations and runs of the implicit solver with full updates, viscous or not, of first order or of second order with the unlimited reconstruction. The CFL number must be constant, or the ramp must take the same first decision in both units: it compares the first norm with the number 1, and runs differ otherwise (C104_cfl_refuted). False with FlowSimpleUpdate: its pressure increment loops over energy instead of the first momentum, so that the factor depends on the axes (C104_relax_axes_refuted) and the unit of velocity (C104_relax_units_refuted); C104_relax_partial gives the charts that keep it. Not covered: runs on mirrored meshes, inexact solvers, states that are not admissible."
  },
  {
   "property": "C105",
   "status": "partial",
   "theorems": [
    "FVENS.Ctl.C105_lines",
    "FVENS.Ctl.C105_ends",
    "FVENS.Ctl.C105_safe",
    "FVENS.Ctl.C105_unsafe_iff",
    "FVENS.Ctl.C105_written_partial",
    "FVENS.Ctl.C105_lost_refuted"
   ],
   "note": "Proved: contents of the file after a converged main solve (C105_lines), first and last line (C105_ends), reads within bounds in run and run_output (C105_safe), and exactly when a direct call of execute reads outside (C105_unsafe_iff). False for runs that do not converge: the exception comes before the file is written (C105_lost_refuted; C105_written_partial gives exactly the runs that leave a file). Wall times, counts of linear iterations and rounding are not modelled."
  },
  {
   "property": "C106",
   "status": "partial",
   "theorems": [
    "FVENS.Lin.C106_error_iff",
    "FVENS.Lin.C106_finds",
    "FVENS.Lin.C106_first_partial",
    "FVENS.Lin.C106_first_refuted"
   ],
   "note": "Proved: error exactly for several blocks (C106_error_iff), found if present and untouched if not (C106_finds). The first one is found unless a multigrid preconditioner has the type on two levels but not in the coarse solver (C106_first_partial); then the last level wins (C106_first_refuted)."
  },
  {
   "property": "C107",
   "status": "partial",
   "theorems": [
    "FVENS.ArrText.C107_with_dimensions_partial",
    "FVENS.ArrText.C107_round_trip_refuted",
    "FVENS.ArrText.C107_nothing_to_read"
   ],
   "note": "False for every array with contents: the writer leaves out the dimensions the reader expects (C107_round_trip_refuted). With the dimensions put in front the array is restored (C107_with_dimensions_partial). Integers only; rounding of printed floating-point numbers is not modelled."
  },
  {
   "property": "C108",
   "status": "partial",
   "theorems": [
    "FVENS.Par.C108_ends",
    "FVENS.Par.C108_converged",
    "FVENS.Par.C108_positive_partial",
    "FVENS.Par.C108_vanLeer_processes_partial",
    "FVENS.Par.C108_vanLeer_renumbered",
    "FVENS.Par.C108_processes_partial",
    "FVENS.Par.C108_processes_implicit_partial",
    "FVENS.Par.C108_renumbered",
    "FVENS.Par.C108_renumbered_implicit_partial",
    "FVENS.Par.C108_turned_settings",
    "FVENS.Par.C108_turned_partial",
    "FVENS.Par.C108_turned_implicit_partial",
    "FVENS.Par.C108_uniform",
    "FVENS.Par.C108_uniform_implicit_refuted"
   ],
   "note": "False of implicit cases in a stream without obstacles: the initial vector has residual zero and the case throws (C108_uniform_implicit_refuted). Several processes need an assignment that is non-decreasing along the cell numbering and registers all interface faces, implicit cases exact linear solvers, turned meshes no limiters. Positivity for van Leer's flux only."
  },
  {
   "property": "C109",
   "status": "proved",
   "theorems": [
    "FVENS.Flux.C109_hll",
    "FVENS.Flux.C109_hllc",
    "FVENS.Flux.C109_roe",
    "FVENS.Flux.C109_llf",
    "FVENS.Flux.C109_vanLeer",
    "FVENS.Flux.C109_ausm",
    "FVENS.Flux.C109_ausmPlus",
    "FVENS.Flux.C109_expansion",
    "FVENS.Flux.C109_shock",
    "FVENS.Flux.C109_hllc_exact",
    "FVENS.Flux.C109_hll_exact",
    "FVENS.Flux.C109_others",
    "FVENS.Par.C109_hllc_steady",
    "FVENS.Par.C109_hll_steady",
    "FVENS.Par.C109_run",
    "FVENS.Par.C109_smeared"
   ],
   "note": "Inviscid, first order. HLLC across faces with the flow from right to left needs a ratio of specific heats of at least 4/3 (as C16 does)."
  },
  {
   "property": "C110",
   "status": "proved",
   "theorems": [
    "FVENS.Flux.C110_hllc",
    "FVENS.Flux.C110_ausmPlus",
    "FVENS.Flux.C110_llf",
    "FVENS.Flux.C110_hll",
    "FVENS.Flux.C110_roe",
    "FVENS.Flux.C110_flux",
    "FVENS.Flux.C110_mass",
    "FVENS.Flux.C110_ausm_refuted",
    "FVENS.Flux.C110_vanLeer_refuted",
    "FVENS.Par.C110_keeps",
    "FVENS.Par.C110_step",
    "FVENS.Par.C110_run",
    "FVENS.Par.C110_several",
    "FVENS.Par.C110_run_refuted",
    "FVENS.Par.C110_ratio_refuted"
   ],
   "note": "Inviscid, first order, explicit. The exceptions are part of the statement and proved as such: C110_ausm_refuted, C110_vanLeer_refuted, C110_run_refuted, C110_ratio_refuted. The in- and outflow condition keeps the stream if the stream's pressure is the free stream's."
  },
  {
   "property": "C111",
   "status": "proved",
   "theorems": [
    "FVENS.Flux.C111_upwind",
    "FVENS.Flux.C111_llf",
    "FVENS.Flux.C111_hll",
    "FVENS.Flux.C111_vanLeer",
    "FVENS.Flux.C111_hllc",
    "FVENS.Flux.C111_schemes",
    "FVENS.Par.C111_uniform",
    "FVENS.Par.C111_steady"
   ],
   "note": "Both parts. The errors of LLF, HLL, van Leer and HLLC between states of common total enthalpy are given exactly; Roe by a witness. Steady means a residual that is exactly zero. The example is a shock kept by AUSM+ between two cells."
  },
  {
   "property": "C112",
   "status": "proved",
   "theorems": [
    "FVENS.Out.C112_mirror",
    "FVENS.Out.C112_no_lift",
    "FVENS.Out.C112_friction",
    "FVENS.Out.C112_run",
    "FVENS.Out.C112_mirror_run"
   ],
   "note": "Runs: first order, inviscid, one process, gamma at least 4/3, admissible iterates (automatic for van Leer, C93). The example is a pair of streams that meet, on two cells."
  },
  {
   "property": "C113",
   "status": "proved",
   "theorems": [
    "FVENS.Flux.C113_flux",
    "FVENS.Par.C113_ghost",
    "FVENS.Par.C113_inOut_iff",
    "FVENS.Par.C113_inOut_refuted",
    "FVENS.Par.C113_residual",
    "FVENS.Par.C113_timestep",
    "FVENS.Par.C113_update",
    "FVENS.Par.C113_limit_steady",
    "FVENS.Par.C113_reported"
   ],
   "note": "The jump of the characteristic boundary is part of the statement: C113_inOut_iff says exactly where it is continuous, C113_inOut_refuted shows the flux jumping with still air on both sides. First order; one process. Limits and reports concern runs whose iterates converge; C114 supplies a family of such runs."
  },
  {
   "property": "C114",
   "status": "proved",
   "theorems": [
    "FVENS.Par.C114_converges",
    "FVENS.Par.C114_reported",
    "FVENS.Par.C114_unique",
    "FVENS.Par.C114_at_rest",
    "FVENS.Par.C114_several"
   ],
   "note": "Explicit solver, first order, inviscid, gamma at least 4/3; van Leer and AUSM are excluded since they disturb the pressure of such streams (C110). C114_at_rest shows that the sweeping stream is needed."
  },
  {
   "property": "C115",
   "status": "partial",
   "theorems": [
    "FVENS.Life.C115_agrees",
    "FVENS.Life.C115_safe",
    "FVENS.Life.C115_returns",
    "FVENS.Life.C115_run_partial",
    "FVENS.Life.C115_output_partial",
    "FVENS.Life.C115_space",
    "FVENS.Life.C115_starter",
    "FVENS.Life.C115_jacobianFlux_refuted",
    "FVENS.Life.C115_main_refuted"
   ],
   "note": "Safety holds always (C115_safe). The second half fails in the code: the flux of the Jacobian is never deleted (C115_jacobianFlux_refuted), a repeated boundary tag loses a boundary object, a failed solve loses its vectors, a failed main solve its linear problem and update scheme (C115_main_refuted), and an exception leaving run or run_output the discretisations (C115_space, C115_starter). C115_run_partial and C115_output_partial list exactly what is left after a normal return. PETSc calls are taken to succeed."
  },
  {
   "property": "C116",
   "status": "partial",
   "theorems": [
    "FVENS.Flux.C116_flux_partial",
    "FVENS.Flux.C116_euler",
    "FVENS.Flux.C116_shear",
    "FVENS.Flux.C116_ghost",
    "FVENS.Flux.C116_isothermal",
    "FVENS.Flux.C116_adiabatic_iff",
    "FVENS.Flux.C116_ausmPlus_refuted",
    "FVENS.Flux.C116_adiabatic_refuted",
    "FVENS.Flux.C116_inflow_refuted"
   ],
   "note": "Proved for six fluxes (C116_flux_partial), the analytical flux, and slip, far-field, in/outflow, extrapolation and isothermal boundaries. Refuted for AUSM+, whose interface sound speed depends on the tangential velocity (C116_ausmPlus_refuted), and for moving adiabatic walls, whose ghost state keeps the interior energy (C116_adiabatic_iff, C116_adiabatic_refuted). Refuted at the subsonic inflow, which fixes the flow direction (C116_inflow_refuted)."
  },
  {
   "property": "C117",
   "status": "partial",
   "theorems": [
    "FVENS.Ctl.Petsc.C117_int",
    "FVENS.Ctl.Petsc.C117_real",
    "FVENS.Ctl.Petsc.C117_bool",
    "FVENS.Ctl.Petsc.C117_matrixFree_iff",
    "FVENS.Ctl.Petsc.C117_string_iff",
    "FVENS.Ctl.Petsc.C117_string_prefix",
    "FVENS.Ctl.Petsc.C117_buffer_iff",
    "FVENS.Ctl.Petsc.C117_ints_length",
    "FVENS.Ctl.Petsc.C117_ints_iff",
    "FVENS.Ctl.Petsc.C117_amg",
    "FVENS.Ctl.Petsc.C117_amg_off",
    "FVENS.Ctl.Petsc.C117_matrixFree_refuted",
    "FVENS.Ctl.Petsc.C117_string_refuted",
    "FVENS.Ctl.Petsc.C117_buffer_refuted",
    "FVENS.Ctl.Petsc.C117_amg_refuted"
   ],
   "note": "Integers, reals and switches read by value are right (C117_int, C117_real, C117_bool). False in the code: an explicit false still selects the matrix-free solver (C117_matrixFree_refuted, exact condition C117_matrixFree_iff), strings and lists are cut silently (C117_string_iff, C117_ints_iff, C117_amg_refuted), a missing string leaves its buffer allocated (C117_buffer_iff)."
  },
  {
   "property": "C118",
   "status": "partial",
   "theorems": [
    "FVENS.Par.Iter.C118_lockstep",
    "FVENS.Par.World.C118_early",
    "FVENS.Par.C118_begin_partial",
    "FVENS.Par.C118_unsteady_hangs",
    "FVENS.Par.C118_unsteady_refuted",
    "FVENS.Par.Iter.C118_missing_hangs",
    "FVENS.Par.Iter.C118_missing_all",
    "FVENS.Par.Iter.C118_missing_iff",
    "FVENS.Par.C118_missing_conditions",
    "FVENS.Par.C118_missing_refuted",
    "FVENS.Par.World.C118_neighbours",
    "FVENS.Par.C118_waits_partial",
    "FVENS.Par.C118_explicit",
    "FVENS.Par.C118_implicit",
    "FVENS.Par.C118_single_partial",
    "FVENS.Par.C118_faces",
    "FVENS.Par.C118_second_explicit",
    "FVENS.Par.C118_second_implicit",
    "FVENS.Par.C118_second_single_partial",
    "FVENS.Par.C118_second_implicit_single_partial",
    "FVENS.Par.C118_implicit_single_partial"
   ],
   "note": "All four steady solvers, for every interleaving (C118_lockstep for any sequence of exchanges; C118_explicit, C118_implicit, C118_second_explicit, C118_second_implicit; with C88 and C100 the run of one process, the theorems *_single_partial). The exchange of face states as one operation agrees with the message protocol of C40 (C118_faces). Operations that complete for all at once are no restriction (C118_neighbours): the conclusions hold when in exchanges a process waits only for processes with cells next to its own (C118_waits_partial, for assignments of cells in the order of cell numbers), and contributions may be available from any moment at which they are determined (C118_early, C118_begin_partial), as they are when an exchange begins before it ends. False for the second-order unsteady solver, whose time step is that of the process's own cells: a rank waits for ever for one that has passed the final time (C118_unsteady_refuted, condition C118_unsteady_hangs). False also if a boundary condition is missing for faces of some processes only: those end by an exception and the others wait for ever (C118_missing_refuted, exact condition C118_missing_conditions). That the code ends an exchange of the solution after the global sum that the model has after it makes no difference, since the sum ends only when all have begun the exchange."
  },
  {
   "property": "C119",
   "status": "partial",
   "theorems": [
    "FVENS.Par.C119_iff",
    "FVENS.Par.C119_accepts_partial",
    "FVENS.Par.C119_rejects",
    "FVENS.Par.C119_refuted"
   ],
   "note": "False in the code: the check compares the own cell with the left cell of the global face, which is the cell with the smaller number, so that of the two sides of each registered cut face one is always rejected (C119_rejects, C119_refuted). C119_iff gives the exact condition. The only call is a commented-out assertion."
  },
  {
   "property": "C120",
   "status": "partial",
   "theorems": [
    "FVENS.Par.C120_explicit",
    "FVENS.Par.C120_same_partial",
    "FVENS.Par.C120_implicit_iff",
    "FVENS.Par.C120_refuted"
   ],
   "note": "Right for the explicit solver with every conforming implementation (C120_explicit). The implicit solver, the force coefficients and the entropy error pass one buffer as both arguments, which MPI does not define: right for implementations that allow it (C120_same_partial, exact condition for the norm C120_implicit_iff), but there is a conforming implementation with which the norm is zero and every implicit run stops after its first iteration (C120_refuted)."
  },
  {
   "property": "C121",
   "status": "partial",
   "theorems": [
    "FVENS.Par.C121_product_partial",
    "FVENS.Par.C121_zeroed_partial",
    "FVENS.Par.C121_iff",
    "FVENS.Par.C121_one",
    "FVENS.Par.C121_refuted",
    "FVENS.Par.C121_second_order_partial",
    "FVENS.Par.C121_second_order_zeroed_partial",
    "FVENS.Par.C121_second_order_iff",
    "FVENS.Par.C121_second_order_refuted"
   ],
   "note": "Proved for assignments of cells in the order of cell numbers, first and second order, if the ghost blocks of the auxiliary vector are zero when made (C121_zeroed_partial, C121_second_order_zeroed_partial); for one process the operator is that of C60 (C121_one). The loop meant to clear these blocks runs over the wrong entries: the exact effect of what is left in them is C121_product_partial and C121_second_order_partial, the exact conditions C121_iff and C121_second_order_iff, and cases where the product is wrong C121_refuted and C121_second_order_refuted. Missing: other assignments of cells (false for the residual, C88_refuted)."
  },
  {
   "property": "C122",
   "status": "partial",
   "theorems": [
    "FVENS.FV.Disc.C122_defined_iff",
    "FVENS.FV.Disc.C122_not_derivative",
    "FVENS.FV.Disc.C122_quadratic",
    "FVENS.FV.Disc.C122_dissipative",
    "FVENS.FV.Disc.C122_boundary_refuted"
   ],
   "note": "Proved: quadratic form and dissipativity for every mesh, schedule and vector (C122_quadratic, C122_dissipative, the latter for constant viscosity). The blocks are never the derivative of the viscous flux, whose mass row is zero (C122_not_derivative). False that it applies to every face: at physical boundary faces it reads outside the array of cell centres (C122_defined_iff, C122_boundary_refuted)."
  }
 ]
}