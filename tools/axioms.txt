FVENS.C01_temperature: propext, Classical.choice, Quot.sound
FVENS.C01_cons_prim_cons: propext, Classical.choice, Quot.sound
FVENS.C01_prim_cons_prim: propext, Classical.choice, Quot.sound
FVENS.C01_prim2_energy: propext, Classical.choice, Quot.sound
FVENS.C01_density_of_pressure_temperature: propext, Classical.choice, Quot.sound
FVENS.C01_vars_agree: propext, Classical.choice, Quot.sound
FVENS.C02_gradTemperature: propext, Classical.choice, Quot.sound
FVENS.C02_prim_in_place: propext, Classical.choice, Quot.sound
FVENS.C02_prim2_in_place: propext, Classical.choice, Quot.sound
FVENS.C02_cons_in_place: propext, Classical.choice, Quot.sound
FVENS.C02_frame: propext, Classical.choice, Quot.sound
FVENS.C02_grad_in_place: propext, Classical.choice, Quot.sound
FVENS.C03_pressure: propext, Classical.choice, Quot.sound
FVENS.C03_pressure_overload: propext, Classical.choice, Quot.sound
FVENS.C03_vmag2: propext, Classical.choice, Quot.sound
FVENS.C03_temperature: propext, Classical.choice, Quot.sound
FVENS.C03_soundSpeed: propext, Classical.choice, Quot.sound
FVENS.C03_machNormal: propext, Classical.choice, Quot.sound
FVENS.C03_energyOfT: propext, Classical.choice, Quot.sound
FVENS.C03_densityOfPT: propext, Classical.choice, Quot.sound
FVENS.C03_prim2: propext, Classical.choice, Quot.sound
FVENS.C03_vars: propext, Classical.choice, Quot.sound
FVENS.C03_eulerFlux: propext, Classical.choice, Quot.sound
FVENS.C04_sutherland_partial: propext, Classical.choice, Quot.sound
FVENS.C04_refuted: propext, Classical.choice, Quot.sound
FVENS.C04_sutherland_law: propext, Classical.choice, Quot.sound
FVENS.C04_sutherland_mono: propext, Classical.choice, Quot.sound
FVENS.C04_prandtl: propext, Classical.choice, Quot.sound
FVENS.C05_deltaPressure_partial: propext, Classical.choice, Quot.sound
FVENS.C05_deltaPressure_correct_iff: propext, Classical.choice, Quot.sound
FVENS.C05_refuted: propext, Classical.choice, Quot.sound
FVENS.C06_freestream: propext, Classical.choice, Quot.sound
FVENS.C07_symmetric: propext, Classical.choice, Quot.sound
FVENS.C07_rigid_rotation: propext, Classical.choice, Quot.sound
FVENS.C07_trace: propext, Classical.choice, Quot.sound
FVENS.C07_dissipative: propext, Classical.choice, Quot.sound
FVENS.C07_linear: propext, Classical.choice, Quot.sound
FVENS.C07_frame_indifferent: propext, Classical.choice, Quot.sound
FVENS.C07_stress_jacobian: propext, Classical.choice, Quot.sound
FVENS.BC.C08_slip_mirror: propext, Classical.choice, Quot.sound
FVENS.BC.C08_slip_involution: propext, Classical.choice, Quot.sound
FVENS.Flux.C09_llf: propext, Classical.choice, Quot.sound
FVENS.Flux.C09_vanLeer: propext, Classical.choice, Quot.sound
FVENS.Flux.C09_ausm: propext, Classical.choice, Quot.sound
FVENS.Flux.C09_ausmPlus: propext, Classical.choice, Quot.sound
FVENS.Flux.C09_roe: propext, Classical.choice, Quot.sound
FVENS.Flux.C09_hll: propext, Classical.choice, Quot.sound
FVENS.Flux.C09_hllc: propext, Classical.choice, Quot.sound
FVENS.Flux.C09_slip_wall_flux: propext, Classical.choice, Quot.sound
FVENS.BC.C10_isothermal_row: propext, Classical.choice, Quot.sound
FVENS.BC.C10_farfield: propext, Classical.choice, Quot.sound
FVENS.BC.C10_extrapolation: propext, Classical.choice, Quot.sound
FVENS.BC.C10_slip: propext, Classical.choice, Quot.sound
FVENS.BC.C10_adiabatic: propext, Classical.choice, Quot.sound
FVENS.BC.C10_inOut: propext, Classical.choice, Quot.sound
FVENS.BC.C10_inOut_sonic_refuted: propext, Classical.choice, Quot.sound
FVENS.BC.C10_isothermal_partial: propext, Classical.choice, Quot.sound
FVENS.BC.C10_isothermal_refuted: propext, Classical.choice, Quot.sound
FVENS.BC.C10_object: propext, Classical.choice, Quot.sound
FVENS.BC.C11_adiabatic_velocity: propext, Classical.choice, Quot.sound
FVENS.BC.C11_isothermal: propext, Classical.choice, Quot.sound
FVENS.BC.C11_adiabatic_temperature_partial: propext, Classical.choice, Quot.sound
FVENS.BC.C11_adiabatic_temperature_iff: propext, Classical.choice, Quot.sound
FVENS.BC.C11_adiabatic_temperature_refuted: propext, Classical.choice, Quot.sound
FVENS.BC.C11_general_wall_ub: propext, Classical.choice, Quot.sound
FVENS.BC.C11_general_wall_velocity: propext, Classical.choice, Quot.sound
FVENS.BC.C12_inflow: propext, Classical.choice, Quot.sound
FVENS.BC.C12_supersonic_outflow: propext, Classical.choice, Quot.sound
FVENS.BC.C12_subsonic_outflow: propext, Classical.choice, Quot.sound
FVENS.BC.C12_freestream_reproduced: propext, Classical.choice, Quot.sound
FVENS.BC.C13_total_temperature_partial: propext, Classical.choice, Quot.sound
FVENS.BC.C13_ghost_never_inflow: propext, Classical.choice, Quot.sound
FVENS.BC.C13_refuted: propext, Classical.choice, Quot.sound
FVENS.BC.C14_effect: propext, Classical.choice, Quot.sound
FVENS.BC.C14_succeeds_iff: propext, Classical.choice, Quot.sound
FVENS.BC.C14_binding: propext, Classical.choice, Quot.sound
FVENS.BC.C14_binding_distinct: propext, Classical.choice, Quot.sound
FVENS.BC.C14_periodic_throws: propext, Classical.choice, Quot.sound
FVENS.BC.C14_names: none
FVENS.BC.C14_names_injective: propext, Quot.sound
FVENS.Flux.C15_llf: propext, Classical.choice, Quot.sound
FVENS.Flux.C15_vanLeer: propext, Classical.choice, Quot.sound
FVENS.Flux.C15_ausm: propext, Classical.choice, Quot.sound
FVENS.Flux.C15_ausmPlus: propext, Classical.choice, Quot.sound
FVENS.Flux.C15_roe: propext, Classical.choice, Quot.sound
FVENS.Flux.C15_hll: propext, Classical.choice, Quot.sound
FVENS.Flux.C15_hllc: propext, Classical.choice, Quot.sound
FVENS.Flux.C15_consistency: propext, Classical.choice, Quot.sound
FVENS.Flux.C16_hllc: propext, Classical.choice, Quot.sound
FVENS.Flux.C16_conservative: propext, Classical.choice, Quot.sound
FVENS.Flux.C16_llf: propext, Classical.choice, Quot.sound
FVENS.Flux.C16_vanLeer: propext, Classical.choice, Quot.sound
FVENS.Flux.C16_ausm: propext, Classical.choice, Quot.sound
FVENS.Flux.C16_ausmPlus: propext, Classical.choice, Quot.sound
FVENS.Flux.C16_roe: propext, Classical.choice, Quot.sound
FVENS.Flux.C16_hll: propext, Classical.choice, Quot.sound
FVENS.Flux.C17_vanLeer: propext, Classical.choice, Quot.sound
FVENS.Flux.C17_ausm: propext, Classical.choice, Quot.sound
FVENS.Flux.C17_ausmPlus: propext, Classical.choice, Quot.sound
FVENS.Flux.C17_hll: propext, Classical.choice, Quot.sound
FVENS.Flux.C17_hllc: propext, Classical.choice, Quot.sound
FVENS.Flux.C17_roe: propext, Classical.choice, Quot.sound
FVENS.Flux.C17_llf_refuted: propext, Classical.choice, Quot.sound
FVENS.FV.Disc.C18_roe_mirror: propext, Classical.choice, Quot.sound
FVENS.Flux.C18_ausm_switch_row_right: propext, Classical.choice, Quot.sound
FVENS.Flux.C18_hllc_switch_right_iff: propext, Classical.choice, Quot.sound
FVENS.Flux.C18_hllc_contact_right_iff: propext, Classical.choice, Quot.sound
FVENS.Flux.C18_roe_edge_exact: propext, Classical.choice, Quot.sound
FVENS.Flux.C18_roe_smooth: propext, Classical.choice, Quot.sound
FVENS.Flux.C18_ausm_switch_row: propext, Classical.choice, Quot.sound
FVENS.Flux.C18_ausm_exact_iff: propext, Classical.choice, Quot.sound
FVENS.Flux.C18_ausm_no_jacobian: propext, Classical.choice, Quot.sound
FVENS.Flux.C18_ausm_switch_refuted: propext, Classical.choice, Quot.sound
FVENS.Flux.C18_hllc_contact_iff: propext, Classical.choice, Quot.sound
FVENS.Flux.C18_hllc_switch_refuted: propext, Classical.choice, Quot.sound
FVENS.Flux.C18_hllc_switch_iff: propext, Classical.choice, Quot.sound
FVENS.Flux.C18_hllc_wall: propext, Classical.choice, Quot.sound
FVENS.Flux.C18_llf_sum: propext, Classical.choice, Quot.sound
FVENS.Flux.C18_llf_frozen: propext, Classical.choice, Quot.sound
FVENS.Flux.C18_hll_sum: propext, Classical.choice, Quot.sound
FVENS.Flux.C18_hll_frozen: propext, Classical.choice, Quot.sound
FVENS.Flux.C18_ausm_exact: propext, Classical.choice, Quot.sound
FVENS.Flux.C18_ausm_sum: propext, Classical.choice, Quot.sound
FVENS.Flux.C18_vanLeer_refuted: propext, Classical.choice, Quot.sound
FVENS.Flux.C18_ausmPlus_refuted: propext, Classical.choice, Quot.sound
FVENS.Flux.C18_llf2_exact_iff: propext, Classical.choice, Quot.sound
FVENS.Flux.C18_llf2_partial: propext, Classical.choice, Quot.sound
FVENS.Flux.C18_llf2_sum: propext, Classical.choice, Quot.sound
FVENS.Flux.C18_llf2_refuted: propext, Classical.choice, Quot.sound
FVENS.Flux.C18_roe_averages_left: propext, Classical.choice, Quot.sound
FVENS.Flux.C18_roe_averages_right: propext, Classical.choice, Quot.sound
FVENS.Flux.C18_roe_exact_partial: propext, Classical.choice, Quot.sound
FVENS.Flux.C18_roe_sum: propext, Classical.choice, Quot.sound
FVENS.Flux.C18_roe_fix_error: propext, Classical.choice, Quot.sound
FVENS.Flux.C18_roe_fix_iff: propext, Classical.choice, Quot.sound
FVENS.Flux.C18_roe_refuted: propext, Classical.choice, Quot.sound
FVENS.Flux.C18_hllc_exact: propext, Classical.choice, Quot.sound
FVENS.Flux.C18_hllc_sum: propext, Classical.choice, Quot.sound
FVENS.Flux.C18_roe_contact_iff: propext, Classical.choice, Quot.sound
FVENS.Flux.C18_roe_contact_right_iff: propext, Classical.choice, Quot.sound
FVENS.Flux.C19_every_state: propext, Classical.choice, Quot.sound
FVENS.Flux.C19_llf: propext, Classical.choice, Quot.sound
FVENS.Flux.C19_vanLeer: propext, Classical.choice, Quot.sound
FVENS.Flux.C19_ausm: propext, Classical.choice, Quot.sound
FVENS.Flux.C19_ausmPlus: propext, Classical.choice, Quot.sound
FVENS.Flux.C19_roe: propext, Classical.choice, Quot.sound
FVENS.Flux.C19_hll: propext, Classical.choice, Quot.sound
FVENS.Flux.C19_hllc: propext, Classical.choice, Quot.sound
FVENS.Flux.C19_rotation: propext, Classical.choice, Quot.sound
FVENS.Flux.C20_ausm: propext, Classical.choice, Quot.sound
FVENS.Flux.C20_ausmPlus: propext, Classical.choice, Quot.sound
FVENS.Flux.C20_hllc: propext, Classical.choice, Quot.sound
FVENS.Flux.C20_contact_preserved: propext, Classical.choice, Quot.sound
FVENS.Flux.C20_roe_diffuses_contact: propext, Classical.choice, Quot.sound
FVENS.Flux.C20_roe_refuted: propext, Classical.choice, Quot.sound
FVENS.Flux.C21_wave_order: propext, Classical.choice, Quot.sound
FVENS.Flux.C21_star_density_pos: propext, Classical.choice, Quot.sound
FVENS.Flux.C21_rankine_hugoniot: propext, Classical.choice, Quot.sound
FVENS.Flux.C21_star_pressure: propext, Classical.choice, Quot.sound
FVENS.Flux.C21_low_gamma_refuted: propext, Classical.choice, Quot.sound
FVENS.Msh.C22_unit: propext, Classical.choice, Quot.sound
FVENS.Msh.C22_perpendicular: propext, Classical.choice, Quot.sound
FVENS.Msh.C22_length: propext, Classical.choice, Quot.sound
FVENS.Msh.C22_opposite: propext, Classical.choice, Quot.sound
FVENS.Msh.C22_outward: propext, Classical.choice, Quot.sound
FVENS.Msh.C22_closed: propext, Classical.choice, Quot.sound
FVENS.Msh.C23_polygon_area: propext, Classical.choice, Quot.sound
FVENS.Msh.C23_unset_iff: propext, Classical.choice, Quot.sound
FVENS.Msh.C23_rotation_start: propext, Classical.choice, Quot.sound
FVENS.Msh.C23_translation: propext, Classical.choice, Quot.sound
FVENS.Msh.C23_reversal: propext, Classical.choice, Quot.sound
FVENS.Msh.C23_triangle_cross: propext, Classical.choice, Quot.sound
FVENS.Msh.C23_quad: propext, Classical.choice, Quot.sound
FVENS.Msh.C23_divergence: propext, Classical.choice, Quot.sound
FVENS.Msh.C23_total: propext, Classical.choice, Quot.sound
FVENS.Msh.C24_midpoint: propext, Classical.choice, Quot.sound
FVENS.Msh.C24_face_partial: propext, Classical.choice, Quot.sound
FVENS.Msh.C24_face_error: propext, Classical.choice, Quot.sound
FVENS.Msh.C24_small_angle_refuted: propext, Classical.choice, Quot.sound
FVENS.Msh.C24_face_error_value: propext, Classical.choice, Quot.sound
FVENS.Msh.C25_lists_exact: propext, Classical.choice, Quot.sound
FVENS.Msh.C25_membership: propext, Classical.choice, Quot.sound
FVENS.Msh.C25_strictly_increasing: propext, Classical.choice, Quot.sound
FVENS.Msh.C26_sound: propext, Classical.choice, Quot.sound
FVENS.Msh.C26_complete: propext, Classical.choice, Quot.sound
FVENS.Msh.C26_adjacency_exact: propext, Classical.choice, Quot.sound
FVENS.Msh.C26_symmetric: propext, Classical.choice, Quot.sound
FVENS.Msh.C26_nonmanifold_refuted: propext, Classical.choice, Quot.sound
FVENS.Msh.C27_ranges: propext, Classical.choice, Quot.sound
FVENS.Msh.C27_interior: propext, Classical.choice, Quot.sound
FVENS.Msh.C27_interior_once: propext, Classical.choice, Quot.sound
FVENS.Msh.C28_ok_iff: propext, Classical.choice, Quot.sound
FVENS.Msh.C28_throws_iff: propext, Classical.choice, Quot.sound
FVENS.Msh.C28_ub_iff: propext, Classical.choice, Quot.sound
FVENS.Msh.C28_orphan_refuted: propext, Classical.choice, Quot.sound
FVENS.Msh.C28_faces: propext, Classical.choice, Quot.sound
FVENS.Msh.C29_oriented: propext, Classical.choice, Quot.sound
FVENS.Msh.C29_idempotent: propext, Classical.choice, Quot.sound
FVENS.Msh.C30_connectivity_partial: propext, Classical.choice, Quot.sound
FVENS.Msh.C30_geometry: propext, Classical.choice, Quot.sound
FVENS.Msh.C30_adjacency: propext, Classical.choice, Quot.sound
FVENS.Msh.C30_iff: propext, Classical.choice, Quot.sound
FVENS.Msh.C30_refuted: propext, Classical.choice, Quot.sound
FVENS.Msh.C31_symmetric_partial: propext, Classical.choice, Quot.sound
FVENS.Msh.C31_disabled: propext, Classical.choice, Quot.sound
FVENS.Msh.C31_refuted: propext, Classical.choice, Quot.sound
FVENS.Msh.C32_roundtrip: propext, Classical.choice, Quot.sound
FVENS.Msh.C32_no_cells_refuted: propext, Classical.choice, Quot.sound
FVENS.Msh.C33_exact: propext, Classical.choice, Quot.sound
FVENS.Msh.C33_symmetric: propext, Classical.choice, Quot.sound
FVENS.Msh.C33_layout: propext, Classical.choice, Quot.sound
FVENS.Msh.C34_mesh_levels: propext, Classical.choice, Quot.sound
FVENS.Msh.C34_mesh_unique: propext, Classical.choice, Quot.sound
FVENS.Msh.C34_undefined_iff: propext, Classical.choice, Quot.sound
FVENS.Msh.C34_levels: propext, Classical.choice, Quot.sound
FVENS.Msh.C34_cover: propext, Classical.choice, Quot.sound
FVENS.Msh.C34_empty: propext
FVENS.Msh.C35_lines: propext, Classical.choice, Quot.sound
FVENS.Msh.C35_total: propext, Classical.choice, Quot.sound
FVENS.Msh.C35_isolated_refuted: propext, Classical.choice, Quot.sound
FVENS.Msh.C35_line_permutation: propext, Classical.choice, Quot.sound
FVENS.Msh.C35_hybrid_permutation: propext, Classical.choice, Quot.sound
FVENS.Msh.C35_contiguous: propext, Quot.sound
FVENS.Msh.C35_isPerm: propext, Classical.choice, Quot.sound
FVENS.Msh.C35_lines_adjacent: propext, Classical.choice, Quot.sound
FVENS.Msh.C35_anisotropy: propext, Classical.choice, Quot.sound
FVENS.Msh.C36_trivial: propext, Classical.choice, Quot.sound
FVENS.Msh.C36_counts: propext, Classical.choice, Quot.sound
FVENS.Msh.C37_extraction: propext, Classical.choice, Quot.sound
FVENS.Msh.C37_coordinates: propext, Classical.choice, Quot.sound
FVENS.Msh.C38_refuted: propext, Classical.choice, Quot.sound
FVENS.Msh.C38_one_sided_refuted: propext, Classical.choice, Quot.sound
FVENS.Msh.C38_sound: propext, Classical.choice, Quot.sound
FVENS.Msh.C38_registered_iff: propext, Classical.choice, Quot.sound
FVENS.Msh.C38_all_iff: propext, Classical.choice, Quot.sound
FVENS.Msh.C38_registered_partial: propext, Classical.choice, Quot.sound
FVENS.Msh.C38_conforming_iff: propext, Classical.choice, Quot.sound
FVENS.Msh.C39_lists: propext, Classical.choice, Quot.sound
FVENS.Msh.C39_graph: propext, Classical.choice, Quot.sound
FVENS.Par.C40_tables: propext, Classical.choice, Quot.sound
FVENS.Par.C40_exchange_partial: propext, Classical.choice, Quot.sound
FVENS.Par.C40_refuted: propext, Classical.choice, Quot.sound
FVENS.Par.C40_exchange: propext, Classical.choice, Quot.sound
FVENS.Par.C40_progress: propext, Classical.choice, Quot.sound
FVENS.Par.C40_finishes: propext, Classical.choice, Quot.sound
FVENS.Par.C40_completes: propext, Classical.choice, Quot.sound
FVENS.Par.C40_transport: propext, Classical.choice, Quot.sound
FVENS.Par.C40_no_deadlock: propext, Classical.choice, Quot.sound
FVENS.Par.C40_terminates: propext, Classical.choice, Quot.sound
FVENS.FV.C41_conservative: propext, Classical.choice, Quot.sound
FVENS.FV.C41_cell: propext, Classical.choice, Quot.sound
FVENS.FV.C42_race_free: propext, Classical.choice, Quot.sound
FVENS.FV.C42_atomic: propext, Classical.choice, Quot.sound
FVENS.FV.C42_lost_update: propext, Classical.choice, Quot.sound
FVENS.FV.C42_assembly: propext, Classical.choice, Quot.sound
FVENS.FV.Disc.C43_first_order: propext, Classical.choice, Quot.sound
FVENS.FV.Disc.C43_second_order: propext, Classical.choice, Quot.sound
FVENS.FV.Disc.C43_freestream: propext, Classical.choice, Quot.sound
FVENS.FV.Geo.C44_partial: propext, Classical.choice, Quot.sound
FVENS.FV.Geo.C44_exact: propext, Classical.choice, Quot.sound
FVENS.FV.Geo.C44_refuted: propext, Classical.choice, Quot.sound
FVENS.FV.Geo.C45_greenGauss_constant: propext, Classical.choice, Quot.sound
FVENS.FV.Geo.C45_greenGauss_linear: propext, Classical.choice, Quot.sound
FVENS.FV.Geo.C45_wls_invertible_iff: propext, Classical.choice, Quot.sound
FVENS.FV.Geo.C45_wls_linear_exact: propext, Classical.choice, Quot.sound
FVENS.FV.Geo.C45_wls_linear: propext, Classical.choice, Quot.sound
FVENS.FV.Geo.C45_wls_minimises: propext, Classical.choice, Quot.sound
FVENS.FV.Geo.C45_face_value_exact_iff: propext, Classical.choice, Quot.sound
FVENS.FV.Geo.C45_greenGauss_linear_exact: propext, Classical.choice, Quot.sound
FVENS.FV.Disc.C45_options: propext, Classical.choice, Quot.sound
FVENS.FV.Disc.C46_options: propext, Classical.choice, Quot.sound
FVENS.FV.Disc.C46_face_states: propext, Classical.choice, Quot.sound
FVENS.FV.Disc.C46_exact_flux: propext, Classical.choice, Quot.sound
FVENS.FV.Geo.C46_linear: propext, Classical.choice, Quot.sound
FVENS.FV.Geo.C46_muscl: propext, Classical.choice, Quot.sound
FVENS.FV.Geo.C46_weno: propext, Classical.choice, Quot.sound
FVENS.FV.Geo.C46_constant_limited: propext, Classical.choice, Quot.sound
FVENS.FV.C47_length: propext, Classical.choice, Quot.sound
FVENS.FV.C47_muscl: propext, Classical.choice, Quot.sound
FVENS.FV.C47_muscl_exact_refuted: propext, Classical.choice, Quot.sound
FVENS.FV.C47_venkatakrishnan: propext, Classical.choice, Quot.sound
FVENS.FV.C47_venkatakrishnan_monotone: propext, Classical.choice, Quot.sound
FVENS.FV.C47_venkatakrishnan_overshoot: propext, Classical.choice, Quot.sound
FVENS.FV.C47_vanAlbada: propext, Classical.choice, Quot.sound
FVENS.FV.Geo.C47_barthJespersen: propext, Classical.choice, Quot.sound
FVENS.FV.C47_venkatakrishnan_overshoot_bound: propext, Classical.choice, Quot.sound
FVENS.FV.C47_venkatakrishnan_smooth: propext, Classical.choice, Quot.sound
FVENS.FV.Geo.C47_venkatakrishnan_range: propext, Classical.choice, Quot.sound
FVENS.FV.Geo.C47_venkatakrishnan_inactive: propext, Classical.choice, Quot.sound
FVENS.FV.Geo.C48_exact: propext, Classical.choice, Quot.sound
FVENS.FV.Geo.C48_refuted: propext, Classical.choice, Quot.sound
FVENS.FV.Geo.C48_partial: propext, Classical.choice, Quot.sound
FVENS.FV.C49_convex: propext, Classical.choice, Quot.sound
FVENS.FV.C49_bounded: propext, Classical.choice, Quot.sound
FVENS.FV.C49_linear: propext, Classical.choice, Quot.sound
FVENS.FV.Disc.C50_boundary_exact: propext, Classical.choice, Quot.sound
FVENS.FV.Disc.C50_boundary_flux: propext, Classical.choice, Quot.sound
FVENS.FV.Disc.C50_boundaries: propext, Classical.choice, Quot.sound
FVENS.FV.Disc.C50_ausm_switch_iff: propext, Classical.choice, Quot.sound
FVENS.FV.Disc.C50_ausm_switch_refuted: propext, Classical.choice, Quot.sound
FVENS.FV.Disc.C50_neighbour_iff: propext, Classical.choice, Quot.sound
FVENS.FV.Disc.C50_hllc_switch_iff: propext, Classical.choice, Quot.sound
FVENS.FV.Disc.C50_hllc_switch_refuted: propext, Classical.choice, Quot.sound
FVENS.FV.Disc.C50_roe_smooth: propext, Classical.choice, Quot.sound
FVENS.FV.C50_schedule: propext, Classical.choice, Quot.sound
FVENS.FV.C50_derivative: propext, Classical.choice, Quot.sound
FVENS.FV.C50_column_sum: propext, Classical.choice, Quot.sound
FVENS.FV.Disc.C50_interior_blocks: propext, Classical.choice, Quot.sound
FVENS.FV.Disc.C50_boundary_constant: propext, Classical.choice, Quot.sound
FVENS.FV.Disc.C50_boundary_chain: propext, Classical.choice, Quot.sound
FVENS.FV.Disc.C50_flow: propext, Classical.choice, Quot.sound
FVENS.FV.Disc.C50_joint_llf: propext, Classical.choice, Quot.sound
FVENS.FV.Disc.C50_joint_hll: propext, Classical.choice, Quot.sound
FVENS.FV.Disc.C50_slip_wall_llf: propext, Classical.choice, Quot.sound
FVENS.FV.Disc.C50_ausm_farfield: propext, Classical.choice, Quot.sound
FVENS.FV.Disc.C51_integral: propext, Classical.choice, Quot.sound
FVENS.FV.Disc.C51_positive_bounded: propext, Classical.choice, Quot.sound
FVENS.FV.Disc.C51_threads: propext, Classical.choice, Quot.sound
FVENS.FV.C52_directional: propext, Classical.choice, Quot.sound
FVENS.FV.C52_tangential: propext, Classical.choice, Quot.sound
FVENS.FV.C52_linear: propext, Classical.choice, Quot.sound
FVENS.FV.C52_gradient_symmetric: propext, Classical.choice, Quot.sound
FVENS.FV.C52_temperature_gradient: propext, Classical.choice, Quot.sound
FVENS.FV.C52_uniform: propext, Classical.choice, Quot.sound
FVENS.FV.C52_rigid: propext, Classical.choice, Quot.sound
FVENS.FV.C52_opposite: propext, Classical.choice, Quot.sound
FVENS.FV.C52_flux: propext, Classical.choice, Quot.sound
FVENS.FV.C52_navier_stokes: propext, Classical.choice, Quot.sound
FVENS.FV.C52_heat: propext, Classical.choice, Quot.sound
FVENS.FV.Diff.C53_boundary_value: propext, Classical.choice, Quot.sound
FVENS.FV.Diff.C53_conservative: propext, Classical.choice, Quot.sound
FVENS.FV.Diff.C53_linear_flux: propext, Classical.choice, Quot.sound
FVENS.FV.Diff.C53_constant: propext, Classical.choice, Quot.sound
FVENS.FV.Diff.C53_interior_blocks: propext, Classical.choice, Quot.sound
FVENS.FV.Diff.C53_boundary_iff: propext, Classical.choice, Quot.sound
FVENS.FV.Diff.C53_jacobian_doubled: propext, Classical.choice, Quot.sound
FVENS.FV.Diff.C53_jacobian_partial: propext, Classical.choice, Quot.sound
FVENS.FV.Diff.C53_jacobian_iff: propext, Classical.choice, Quot.sound
FVENS.FV.Diff.C53_timestep: propext, Classical.choice, Quot.sound
FVENS.FV.Diff.C53_refuted: propext, Classical.choice, Quot.sound
FVENS.Ode.C54_linear_bounds: propext, Classical.choice, Quot.sound
FVENS.Ode.C54_linear_monotone: propext, Classical.choice, Quot.sound
FVENS.Ode.C54_exp_bounds: propext, Classical.choice, Quot.sound
FVENS.Ode.C54_exp_monotone: propext, Classical.choice, Quot.sound
FVENS.Ode.C54_exp_ratio_monotone: propext, Classical.choice, Quot.sound
FVENS.Ode.C55_range_density: propext, Classical.choice, Quot.sound
FVENS.Ode.C55_pressure_partial: propext, Classical.choice, Quot.sound
FVENS.Ode.C55_refuted: propext, Classical.choice, Quot.sound
FVENS.Ode.C56_terminates: propext, Classical.choice, Quot.sound
FVENS.Ode.C56_outcome: propext, Classical.choice, Quot.sound
FVENS.Ode.C56_success: propext, Classical.choice, Quot.sound
FVENS.Ode.C56_failure_partial: propext, Classical.choice, Quot.sound
FVENS.Ode.C56_last_iteration_refuted: propext, Classical.choice, Quot.sound
FVENS.Ode.C56_zero_residual_refuted: propext, Classical.choice, Quot.sound
FVENS.Ode.C56_tolerance_one: propext, Classical.choice, Quot.sound
FVENS.Ode.C57_implicit: propext, Classical.choice, Quot.sound
FVENS.Ode.C57_explicit_partial: propext, Classical.choice, Quot.sound
FVENS.Ode.C57_refuted: propext, Classical.choice, Quot.sound
FVENS.Ode.C58_step: propext, Classical.choice, Quot.sound
FVENS.Ode.C58_refuted: propext, Classical.choice, Quot.sound
FVENS.Ode.C58_consistent_iff: propext, Classical.choice, Quot.sound
FVENS.Ode.C58_table_partial: propext, Classical.choice, Quot.sound
FVENS.Ode.C58_end_time: propext, Classical.choice, Quot.sound
FVENS.Ode.C58_time_loop_ends: propext, Classical.choice, Quot.sound
FVENS.Ode.C58_order_zero_diverges: propext, Classical.choice, Quot.sound
FVENS.Lin.C59_diagonal: propext, Classical.choice, Quot.sound
FVENS.Lin.C59_variants_agree: propext, Classical.choice, Quot.sound
FVENS.Lin.C60_affine: propext, Classical.choice, Quot.sound
FVENS.Lin.C60_ghost_iff: propext, Classical.choice, Quot.sound
FVENS.Lin.C60_limit: propext, Classical.choice, Quot.sound
FVENS.Lin.C60_error: propext, Classical.choice, Quot.sound
FVENS.Lin.C60_zero_direction: propext, Classical.choice, Quot.sound
FVENS.Lin.C61_diagonal: propext, Classical.choice, Quot.sound
FVENS.Lin.C61_offdiagonal_iff: propext, Classical.choice, Quot.sound
FVENS.Lin.C61_row_partial: propext, Classical.choice, Quot.sound
FVENS.Lin.C61_refuted: propext, Classical.choice, Quot.sound
FVENS.Lin.C62_access: propext
FVENS.Lin.C62_failed_no_access: propext
FVENS.Lin.C62_balanced_partial: propext, Quot.sound
FVENS.Lin.C62_second_vector: propext
FVENS.Lin.C62_failed_acquire_refuted: propext
FVENS.Lin.C62_copy_refuted: propext
FVENS.Ctl.C63_terminates: propext, Classical.choice, Quot.sound
FVENS.Ctl.C63_list_iff: propext, Classical.choice, Quot.sound
FVENS.Ctl.C63_throws_iff: propext, Classical.choice, Quot.sound
FVENS.Ctl.C64_documented_partial: propext, Classical.choice, Quot.sound
FVENS.Ctl.C64_defaults: propext, Classical.choice, Quot.sound
FVENS.Ctl.C64_undefined_iff: propext, Classical.choice, Quot.sound
FVENS.Ctl.C64_refuted: propext, Classical.choice, Quot.sound
FVENS.Ctl.C65_flux_partial: propext
FVENS.Ctl.C65_reconstruction_partial: propext
FVENS.Ctl.C65_update: propext
FVENS.Ctl.C65_boundary: propext, Classical.choice, Quot.sound
FVENS.Ctl.C65_gradient_partial: none
FVENS.Ctl.C65_flux_refuted: propext, Classical.choice, Quot.sound
FVENS.Ctl.C65_gradient_refuted: none
FVENS.Ctl.C65_usable_iff: propext
FVENS.Ctl.C65_letters: propext, Classical.choice, Quot.sound
FVENS.Ctl.C66_run_partial: propext
FVENS.Ctl.C66_run_failure: propext
FVENS.Ctl.C66_run_converged: propext, Classical.choice, Quot.sound
FVENS.Ctl.C66_run_output_iff: propext, Quot.sound
FVENS.Ctl.C66_refuted: propext
FVENS.Ctl.C66_concrete_refuted: propext, Classical.choice, Quot.sound
FVENS.Out.C67_quarter: propext, Classical.choice, Quot.sound
FVENS.Out.C67_row_partial: propext, Classical.choice, Quot.sound
FVENS.Out.C67_constant: propext, Classical.choice, Quot.sound
FVENS.Out.C67_refuted: propext, Classical.choice, Quot.sound
FVENS.Out.C67_scalar_defined_iff: propext, Classical.choice, Quot.sound
FVENS.Out.C67_scalar_refuted: propext, Classical.choice, Quot.sound
FVENS.Out.C67_scalar_one_cell: propext, Classical.choice, Quot.sound
FVENS.Out.C68_offsets: propext, Classical.choice, Quot.sound
FVENS.Out.C68_roundtrip: propext, Classical.choice, Quot.sound
FVENS.Out.C68_mesh_offsets_iff: propext, Classical.choice, Quot.sound
FVENS.Out.C68_mesh_partial: propext, Classical.choice, Quot.sound
FVENS.Out.C68_refuted: propext, Classical.choice, Quot.sound
FVENS.Out.C68_nine_refuted: propext, Classical.choice, Quot.sound
FVENS.Out.C69_distribution: propext, Classical.choice, Quot.sound
FVENS.Out.C69_pressure: propext, Classical.choice, Quot.sound
FVENS.Out.C69_uniform_pressure: propext, Classical.choice, Quot.sound
FVENS.Out.C69_closed_surface: propext, Classical.choice, Quot.sound
FVENS.Out.C69_rotation: propext, Classical.choice, Quot.sound
FVENS.Out.C69_reversal: propext, Classical.choice, Quot.sound
FVENS.Out.C69_friction_partial: propext, Classical.choice, Quot.sound
FVENS.Out.C69_friction_sign_refuted: propext, Classical.choice, Quot.sound
FVENS.Out.C69_viscosity_law_refuted: propext, Classical.choice, Quot.sound
FVENS.Out.C69_rows_iff: propext, Classical.choice, Quot.sound
FVENS.Out.C69_rows_refuted: propext, Classical.choice, Quot.sound
FVENS.Arr.C70_index: propext, Quot.sound
FVENS.Arr.C70_defined: propext, Classical.choice, Quot.sound
FVENS.Arr.C70_no_leak: propext, Classical.choice, Quot.sound
FVENS.Arr.C70_read: propext, Classical.choice, Quot.sound
FVENS.Arr.C70_write: propext, Classical.choice, Quot.sound
FVENS.Arr.C70_copy: propext, Classical.choice, Quot.sound
FVENS.Arr.C70_assign: propext, Classical.choice, Quot.sound
FVENS.Arr.C70_move: propext, Classical.choice, Quot.sound
FVENS.Arr.C70_resize: propext, Classical.choice, Quot.sound
FVENS.Arr.C70_self_assign_partial: propext, Classical.choice, Quot.sound
FVENS.Arr.C70_self_assign_refuted: propext, Classical.choice, Quot.sound
FVENS.Arr.C70_fill: propext, Classical.choice, Quot.sound
FVENS.Arr.C70_setdata: propext, Classical.choice, Quot.sound
FVENS.Arr.C70_equal: propext, Classical.choice, Quot.sound
FVENS.Msh.C71_elemface: propext, Classical.choice, Quot.sound
FVENS.Msh.C71_neighbour: propext, Classical.choice, Quot.sound
FVENS.Msh.C72_faces_first_partial: propext, Classical.choice, Quot.sound
FVENS.Msh.C72_order_refuted: propext, Classical.choice, Quot.sound
FVENS.Msh.C72_node_numbers_refuted: propext, Classical.choice, Quot.sound
FVENS.FV.C73_constant_viscosity: propext, Classical.choice, Quot.sound
FVENS.FV.C73_sutherland_partial: propext, Classical.choice, Quot.sound
FVENS.FV.C73_exact: propext, Classical.choice, Quot.sound
FVENS.FV.C73_refuted: propext, Classical.choice, Quot.sound
FVENS.Par.C74_holds: propext, Classical.choice, Quot.sound
FVENS.Par.C74_iff: propext, Classical.choice, Quot.sound
FVENS.Par.C74_partial: propext, Classical.choice, Quot.sound
FVENS.Par.C74_trivial: propext, Classical.choice, Quot.sound
FVENS.Par.C74_refuted: propext, Classical.choice, Quot.sound
FVENS.FV.Geo.C75_gradients: propext, Classical.choice, Quot.sound
FVENS.FV.Disc.C75_first_order: propext, Classical.choice, Quot.sound
FVENS.FV.Disc.C75_face_states: propext, Classical.choice, Quot.sound
FVENS.FV.Disc.C75_second_order: propext, Classical.choice, Quot.sound
FVENS.FV.Disc.C75_time_steps: propext, Classical.choice, Quot.sound
FVENS.FV.Disc.C75_first_order_time_steps: propext, Classical.choice, Quot.sound
FVENS.Par.C76_first_order_partial: propext, Classical.choice, Quot.sound
FVENS.Par.C76_second_order_partial: propext, Classical.choice, Quot.sound
FVENS.Par.C76_refuted: propext, Classical.choice, Quot.sound
FVENS.Par.C77_first_order_partial: propext, Classical.choice, Quot.sound
FVENS.Par.C77_second_order_partial: propext, Classical.choice, Quot.sound
FVENS.Par.C77_iff: propext, Classical.choice, Quot.sound
FVENS.Par.C77_refuted: propext, Classical.choice, Quot.sound
FVENS.Par.C77_run_partial: propext, Classical.choice, Quot.sound
FVENS.Par.C77_second_order_run_partial: propext, Classical.choice, Quot.sound
FVENS.Par.C77_implicit_run_partial: propext, Classical.choice, Quot.sound
FVENS.Par.C77_second_order_implicit_run_partial: propext, Classical.choice, Quot.sound
FVENS.Msh.C78_sound: propext, Classical.choice, Quot.sound
FVENS.Msh.C78_complete: propext, Classical.choice, Quot.sound
FVENS.Msh.C78_partial: propext, Classical.choice, Quot.sound
FVENS.Msh.C78_smaller_refuted: propext, Classical.choice, Quot.sound
FVENS.Msh.C78_refuted: propext, Classical.choice, Quot.sound
FVENS.Msh.C79_identity: propext, Classical.choice, Quot.sound
FVENS.Msh.C79_check: propext, Classical.choice, Quot.sound
FVENS.Msh.C79_refuted: propext, Classical.choice, Quot.sound
FVENS.Out.C80_isentropic_iff: propext, Classical.choice, Quot.sound
FVENS.Out.C80_norm: propext, Classical.choice, Quot.sound
FVENS.Out.C80_zero_iff: propext, Classical.choice, Quot.sound
FVENS.Out.C80_mesh_size_iff: propext, Classical.choice, Quot.sound
FVENS.Out.C80_mesh_size_refuted: propext, Classical.choice, Quot.sound
FVENS.FV.C81_fourier: propext, Classical.choice, Quot.sound
FVENS.FV.C81_direction: propext, Classical.choice, Quot.sound
FVENS.Par.C82_own_rows: propext, Classical.choice, Quot.sound
FVENS.Par.C82_blocks_partial: propext, Classical.choice, Quot.sound
FVENS.Par.C82_product_partial: propext, Classical.choice, Quot.sound
FVENS.Par.C82_refuted: propext, Classical.choice, Quot.sound
FVENS.Flux.C83_llf: propext, Classical.choice, Quot.sound
FVENS.Flux.C83_hll: propext, Classical.choice, Quot.sound
FVENS.Flux.C83_ausm_partial: propext, Classical.choice, Quot.sound
FVENS.Flux.C83_roe_partial: propext, Classical.choice, Quot.sound
FVENS.Flux.C83_hllc_partial: propext, Classical.choice, Quot.sound
FVENS.Flux.C83_ausm_refuted: propext, Classical.choice, Quot.sound
FVENS.Flux.C83_hllc_refuted: propext, Classical.choice, Quot.sound
FVENS.Flux.C83_roe_refuted: propext, Classical.choice, Quot.sound
FVENS.Msh.Su2.C84_read_partial: propext, Classical.choice, Quot.sound
FVENS.Msh.Su2.C84_empty_marker_refuted: propext, Classical.choice, Quot.sound
FVENS.Msh.Su2.C84_dimension_refuted: propext, Classical.choice, Quot.sound
FVENS.Msh.Su2.C84_type_refuted: propext, Classical.choice, Quot.sound
FVENS.Msh.Su2.C84_name_throws: propext, Classical.choice, Quot.sound
FVENS.Msh.Su2.C84_convert: propext, Classical.choice, Quot.sound
FVENS.Msh.Bpt.C85_boundary_points: propext, Classical.choice, Quot.sound
FVENS.Msh.Bpt.C85_simple: propext, Classical.choice, Quot.sound
FVENS.Msh.C86_defined: propext, Classical.choice, Quot.sound
FVENS.Msh.C86_entries: propext, Classical.choice, Quot.sound
FVENS.Msh.C86_symmetric: propext, Classical.choice, Quot.sound
FVENS.Msh.C86_inside: propext, Classical.choice, Quot.sound
FVENS.Msh.C86_blocks: propext, Classical.choice, Quot.sound
FVENS.Msh.C86_mesh: propext, Classical.choice, Quot.sound
FVENS.FV.Disc.C87_no_slip_flux: propext, Classical.choice, Quot.sound
FVENS.FV.Disc.C87_first_order: propext, Classical.choice, Quot.sound
FVENS.FV.Disc.C87_second_order: propext, Classical.choice, Quot.sound
FVENS.FV.Disc.C87_momentum: propext, Classical.choice, Quot.sound
FVENS.FV.Disc.C87_time_step: propext, Classical.choice, Quot.sound
FVENS.FV.Disc.C87_run: propext, Classical.choice, Quot.sound
FVENS.Par.C88_ghost_sum_partial: propext, Classical.choice, Quot.sound
FVENS.Par.C88_iteration_partial: propext, Classical.choice, Quot.sound
FVENS.Par.C88_run_partial: propext, Classical.choice, Quot.sound
FVENS.Par.C88_trivial_partial: propext, Classical.choice, Quot.sound
FVENS.Par.C88_refuted: propext, Classical.choice, Quot.sound
FVENS.Par.C88_second_order_run_partial: propext, Classical.choice, Quot.sound
FVENS.Par.C89_ghosts_frozen: propext, Classical.choice, Quot.sound
FVENS.Par.C89_time_step: propext, Classical.choice, Quot.sound
FVENS.Par.C89_first_step_iff: propext, Classical.choice, Quot.sound
FVENS.Par.C89_one_process_partial: propext, Classical.choice, Quot.sound
FVENS.Par.C89_refuted: propext, Classical.choice, Quot.sound
FVENS.Par.C90_format: propext, Classical.choice, Quot.sound
FVENS.Par.C90_hybrid_iff: propext, Classical.choice, Quot.sound
FVENS.Par.C90_request_throws_iff: propext, Classical.choice, Quot.sound
FVENS.Par.C90_oriented: propext, Classical.choice, Quot.sound
FVENS.Par.C90_too_many_ranks: propext, Classical.choice, Quot.sound
FVENS.Par.C90_split_partial: propext, Classical.choice, Quot.sound
FVENS.Par.C90_one_rank_partial: propext, Classical.choice, Quot.sound
FVENS.Par.C90_refuted: propext, Classical.choice, Quot.sound
FVENS.Par.C90_reordering_refuted: propext, Classical.choice, Quot.sound
FVENS.Out.C91_surface_files: propext, Classical.choice, Quot.sound
FVENS.Out.C91_defined_iff: propext, Classical.choice, Quot.sound
FVENS.Out.C91_trailer_iff: propext, Classical.choice, Quot.sound
FVENS.Out.C91_volume_file: propext, Classical.choice, Quot.sound
FVENS.Out.C91_volume_injective: propext, Classical.choice, Quot.sound
FVENS.Out.C91_cell_arrays: propext, Classical.choice, Quot.sound
FVENS.Out.C91_cell_nodal: propext, Classical.choice, Quot.sound
FVENS.Out.C92_defined_iff: propext, Classical.choice, Quot.sound
FVENS.Out.C92_empty_iff: propext, Classical.choice, Quot.sound
FVENS.Out.C92_contents: propext, Classical.choice, Quot.sound
FVENS.Out.C92_wellformed_iff: propext, Classical.choice, Quot.sound
FVENS.Out.C92_points: propext, Classical.choice, Quot.sound
FVENS.Out.C92_run: propext, Classical.choice, Quot.sound
FVENS.Out.C92_one_column_refuted: propext, Classical.choice, Quot.sound
FVENS.Par.C93_step_partial: propext, Classical.choice, Quot.sound
FVENS.Par.C93_vanLeer_partial: propext, Classical.choice, Quot.sound
FVENS.Par.C93_llf_partial: propext, Classical.choice, Quot.sound
FVENS.Par.C93_run_partial: propext, Classical.choice, Quot.sound
FVENS.Par.C93_several_partial: propext, Classical.choice, Quot.sound
FVENS.Par.C93_cfl_one_refuted: propext, Classical.choice, Quot.sound
FVENS.BC.C94_ghost: propext, Classical.choice, Quot.sound
FVENS.FV.C94_viscous_flux: propext, Classical.choice, Quot.sound
FVENS.C94_second_cfl: propext, Classical.choice, Quot.sound
FVENS.C94_cfl_unit_refuted: propext, Classical.choice, Quot.sound
FVENS.FV.Moved.C94_greenGauss: propext, Classical.choice, Quot.sound
FVENS.FV.Moved.C94_wls: propext, Classical.choice, Quot.sound
FVENS.FV.Moved.C94_gradients: propext, Classical.choice, Quot.sound
FVENS.FV.Moved.C94_second_order_partial: propext, Classical.choice, Quot.sound
FVENS.FV.Moved.C94_muscl_refuted: propext, Classical.choice, Quot.sound
FVENS.FV.Moved.C94_face_flux: propext, Classical.choice, Quot.sound
FVENS.FV.Moved.C94_fluxes: propext, Classical.choice, Quot.sound
FVENS.FV.Moved.C94_time_steps: propext, Classical.choice, Quot.sound
FVENS.FV.Moved.C94_first_order: propext, Classical.choice, Quot.sound
FVENS.C94_setup: propext, Classical.choice, Quot.sound
FVENS.Par.C94_iteration: propext, Classical.choice, Quot.sound
FVENS.Par.C94_run: propext, Classical.choice, Quot.sound
FVENS.FV.C94_weno_refuted: propext, Classical.choice, Quot.sound
FVENS.C94_second_order_run_partial: propext, Classical.choice, Quot.sound
FVENS.Par.C95_explicit_iff: propext, Classical.choice, Quot.sound
FVENS.Par.C95_norm_zero_iff: propext, Classical.choice, Quot.sound
FVENS.Par.C95_stays: propext, Classical.choice, Quot.sound
FVENS.Par.C95_free_stream: propext, Classical.choice, Quot.sound
FVENS.Par.C95_rk_iff: propext, Classical.choice, Quot.sound
FVENS.Par.C95_converged_refuted: propext, Classical.choice, Quot.sound
FVENS.Par.C96_schedule: propext, Classical.choice, Quot.sound
FVENS.Par.C96_steady_iff: propext, Classical.choice, Quot.sound
FVENS.Par.C96_small_cfl: propext, Classical.choice, Quot.sound
FVENS.Par.C96_inexact_bound: propext, Classical.choice, Quot.sound
FVENS.Par.C96_inexact_steady_iff: propext, Classical.choice, Quot.sound
FVENS.Par.C96_second_order_steady_iff: propext, Classical.choice, Quot.sound
FVENS.Par.C96_inexact_sharp: propext, Classical.choice, Quot.sound
FVENS.Par.C96_defect_correction: propext, Classical.choice, Quot.sound
FVENS.Par.C96_defect_correction_schemes: propext, Classical.choice, Quot.sound
FVENS.Par.C96_inexact_processes_partial: propext, Classical.choice, Quot.sound
FVENS.Par.C96_inexact_processes_second_partial: propext, Classical.choice, Quot.sound
FVENS.Par.C96_product: propext, Classical.choice, Quot.sound
FVENS.Par.C96_newton: propext, Classical.choice, Quot.sound
FVENS.Par.C96_newton_schemes: propext, Classical.choice, Quot.sound
FVENS.Par.C96_iteration_partial: propext, Classical.choice, Quot.sound
FVENS.Par.C96_run_partial: propext, Classical.choice, Quot.sound
FVENS.Par.C96_second_order_run_partial: propext, Classical.choice, Quot.sound
FVENS.Par.C97_first_order: propext, Classical.choice, Quot.sound
FVENS.Par.C97_explicit_run: propext, Classical.choice, Quot.sound
FVENS.Par.C97_implicit_update: propext, Classical.choice, Quot.sound
FVENS.Par.C97_diffusive_iff: propext, Classical.choice, Quot.sound
FVENS.Par.C97_second_order: propext, Classical.choice, Quot.sound
FVENS.Par.C97_muscl: propext, Classical.choice, Quot.sound
FVENS.Par.C97_muscl_run: propext, Classical.choice, Quot.sound
FVENS.Par.C97_all_schemes_refuted: propext, Classical.choice, Quot.sound
FVENS.Par.C97_inflow_moves: propext, Classical.choice, Quot.sound
FVENS.Par.C97_inflow_cell: propext, Classical.choice, Quot.sound
FVENS.Par.C97_inflow_refuted: propext, Classical.choice, Quot.sound
FVENS.Par.C97_inflow_balance: propext, Classical.choice, Quot.sound
FVENS.Par.C97_inflow_cell_schemes: propext, Classical.choice, Quot.sound
FVENS.Par.C97_inflow_hllc_iff: propext, Classical.choice, Quot.sound
FVENS.Par.C97_isothermal_iff: propext, Classical.choice, Quot.sound
FVENS.Par.C97_isothermal: propext, Classical.choice, Quot.sound
FVENS.Par.C97_isothermal_run: propext, Classical.choice, Quot.sound
FVENS.Par.C97_isothermal_cell_iff: propext, Classical.choice, Quot.sound
FVENS.Par.C97_isothermal_refuted: propext, Classical.choice, Quot.sound
FVENS.Par.C98_residual: propext, Classical.choice, Quot.sound
FVENS.Par.C98_update: propext, Classical.choice, Quot.sound
FVENS.Par.C98_run: propext, Classical.choice, Quot.sound
FVENS.Par.C98_llf_refuted: propext, Classical.choice, Quot.sound
FVENS.Par.C98_second_order_timestep: propext, Classical.choice, Quot.sound
FVENS.Par.C98_second_order_run: propext, Classical.choice, Quot.sound
FVENS.Par.C98_jacobian_hll: propext, Classical.choice, Quot.sound
FVENS.Par.C98_jacobian_hllc: propext, Classical.choice, Quot.sound
FVENS.Par.C98_jacobian_ausm: propext, Classical.choice, Quot.sound
FVENS.Par.C98_jacobian_roe: propext, Classical.choice, Quot.sound
FVENS.Par.C98_rows: propext, Classical.choice, Quot.sound
FVENS.Par.C98_matrix: propext, Classical.choice, Quot.sound
FVENS.Par.C98_implicit_update: propext, Classical.choice, Quot.sound
FVENS.Par.C98_implicit_run: propext, Classical.choice, Quot.sound
FVENS.FV.Disc.C98_second_order_layer: propext, Classical.choice, Quot.sound
FVENS.FV.Disc.C98_second_order_refuted: propext, Classical.choice, Quot.sound
FVENS.Par.C98_viscous_iff: propext, Classical.choice, Quot.sound
FVENS.Par.C98_viscous_refuted: propext, Classical.choice, Quot.sound
FVENS.BC.C99_ghost: propext, Classical.choice, Quot.sound
FVENS.BC.C99_outflow_refuted: propext, Classical.choice, Quot.sound
FVENS.FV.C99_viscous_flux: propext, Classical.choice, Quot.sound
FVENS.FV.C99_face_flux: propext, Classical.choice, Quot.sound
FVENS.FV.C99_fluxes: propext, Classical.choice, Quot.sound
FVENS.FV.C99_first_order: propext, Classical.choice, Quot.sound
FVENS.FV.C99_time_steps: propext, Classical.choice, Quot.sound
FVENS.FV.C99_gradients: propext, Classical.choice, Quot.sound
FVENS.FV.C99_second_order_partial: propext, Classical.choice, Quot.sound
FVENS.FV.C99_muscl_refuted: propext, Classical.choice, Quot.sound
FVENS.Par.C99_iteration: propext, Classical.choice, Quot.sound
FVENS.Par.C99_run: propext, Classical.choice, Quot.sound
FVENS.Par.C99_cfl_refuted: propext, Classical.choice, Quot.sound
FVENS.FV.C99_weno_refuted: propext, Classical.choice, Quot.sound
FVENS.Flux.C99_flux: propext, Classical.choice, Quot.sound
FVENS.C99_second_order_run_partial: propext, Classical.choice, Quot.sound
FVENS.FV.Disc.C100_mirrored: propext, Classical.choice, Quot.sound
FVENS.Reflection.C100_setup: propext, Classical.choice, Quot.sound
FVENS.FV.Disc.C100_mirrored_update: propext, Classical.choice, Quot.sound
FVENS.FV.Disc.C100_half: propext, Classical.choice, Quot.sound
FVENS.FV.Disc.C100_half_iteration: propext, Classical.choice, Quot.sound
FVENS.FV.Disc.C100_half_run: propext, Classical.choice, Quot.sound
FVENS.Reflection.C100_mirror_run: propext, Classical.choice, Quot.sound
FVENS.Flux.C100_reflection: propext, Classical.choice, Quot.sound
FVENS.BC.C100_ghost: propext, Classical.choice, Quot.sound
FVENS.BC.C100_slip_ghost: propext, Classical.choice, Quot.sound
FVENS.FV.Diff.C101_upper: propext, Classical.choice, Quot.sound
FVENS.FV.Diff.C101_lower: propext, Classical.choice, Quot.sound
FVENS.FV.Diff.C101_step_iff: propext, Classical.choice, Quot.sound
FVENS.FV.Diff.C101_run: propext, Classical.choice, Quot.sound
FVENS.FV.Diff.C101_implicit_doubled: propext, Classical.choice, Quot.sound
FVENS.FV.Diff.C101_implicit_iff: propext, Classical.choice, Quot.sound
FVENS.FV.Diff.C101_implicit_measure: propext, Classical.choice, Quot.sound
FVENS.FV.Diff.C101_steady: propext, Classical.choice, Quot.sound
FVENS.FV.Diff.C101_convex: propext, Classical.choice, Quot.sound
FVENS.FV.Diff.C101_no_cfl_refuted: propext, Classical.choice, Quot.sound
FVENS.FV.Diff.C101_implicit_refuted: propext, Classical.choice, Quot.sound
FVENS.FV.Diff.C102_implicit_step: propext, Classical.choice, Quot.sound
FVENS.FV.Diff.C102_explicit_step: propext, Classical.choice, Quot.sound
FVENS.FV.Diff.C102_implicit_run: propext, Classical.choice, Quot.sound
FVENS.FV.Diff.C102_explicit_run: propext, Classical.choice, Quot.sound
FVENS.FV.Diff.C102_reaches: propext, Classical.choice, Quot.sound
FVENS.FV.Diff.C102_steady: propext, Classical.choice, Quot.sound
FVENS.FV.Diff.C102_error: propext, Classical.choice, Quot.sound
FVENS.FV.Diff.C102_implicit_converges: propext, Classical.choice, Quot.sound
FVENS.FV.Diff.C102_explicit_converges: propext, Classical.choice, Quot.sound
FVENS.FV.Diff.C102_explicit_sharp: propext, Classical.choice, Quot.sound
FVENS.FV.Diff.C102_no_cfl_refuted: propext, Classical.choice, Quot.sound
FVENS.Ode.C103_bounds: propext, Classical.choice, Quot.sound
FVENS.Ode.C103_first: propext, Classical.choice, Quot.sound
FVENS.Ode.C103_second: propext, Classical.choice, Quot.sound
FVENS.Ode.C103_later: propext, Classical.choice, Quot.sound
FVENS.Ode.C103_direction: propext, Classical.choice, Quot.sound
FVENS.Ode.C103_falling: propext, Classical.choice, Quot.sound
FVENS.Ode.C103_final: propext, Classical.choice, Quot.sound
FVENS.Ode.C103_scaling_partial: propext, Classical.choice, Quot.sound
FVENS.Ode.C103_scaling_refuted: propext, Classical.choice, Quot.sound
FVENS.Chart.C104_ghost: propext, Classical.choice, Quot.sound
FVENS.Chart.C104_viscous: propext, Classical.choice, Quot.sound
FVENS.Chart.C104_llf: propext, Classical.choice, Quot.sound
FVENS.Chart.C104_hll: propext, Classical.choice, Quot.sound
FVENS.Chart.C104_ausm: propext, Classical.choice, Quot.sound
FVENS.Chart.C104_hllc: propext, Classical.choice, Quot.sound
FVENS.Chart.C104_roe: propext, Classical.choice, Quot.sound
FVENS.C104_cfl_refuted: propext, Classical.choice, Quot.sound
FVENS.C104_moved_run_partial: propext, Classical.choice, Quot.sound
FVENS.C104_units_run_partial: propext, Classical.choice, Quot.sound
FVENS.C104_relax_partial: propext, Classical.choice, Quot.sound
FVENS.C104_relax_axes_refuted: propext, Classical.choice, Quot.sound
FVENS.C104_relax_units_refuted: propext, Classical.choice, Quot.sound
FVENS.Charted.C104_iteration: propext, Classical.choice, Quot.sound
FVENS.Charted.C104_run: propext, Classical.choice, Quot.sound
FVENS.C104_moved_second_order_run_partial: propext, Classical.choice, Quot.sound
FVENS.C104_units_second_order_run_partial: propext, Classical.choice, Quot.sound
FVENS.Chart.C104_system: propext, Classical.choice, Quot.sound
FVENS.Chart.C104_families: propext, Classical.choice, Quot.sound
FVENS.Charted.C104_jacobian: propext, Classical.choice, Quot.sound
FVENS.Charted.C104_matrix: propext, Classical.choice, Quot.sound
FVENS.Ctl.C105_lines: propext, Classical.choice, Quot.sound
FVENS.Ctl.C105_ends: propext, Classical.choice, Quot.sound
FVENS.Ctl.C105_safe: propext, Classical.choice, Quot.sound
FVENS.Ctl.C105_unsafe_iff: propext, Classical.choice, Quot.sound
FVENS.Ctl.C105_written_partial: propext, Classical.choice, Quot.sound
FVENS.Ctl.C105_lost_refuted: propext, Classical.choice, Quot.sound
FVENS.Lin.C106_error_iff: propext, Quot.sound
FVENS.Lin.C106_finds: propext, Quot.sound
FVENS.Lin.C106_first_partial: propext, Quot.sound
FVENS.Lin.C106_first_refuted: propext, Quot.sound
FVENS.ArrText.C107_with_dimensions_partial: propext, Classical.choice, Quot.sound
FVENS.ArrText.C107_round_trip_refuted: propext, Classical.choice, Quot.sound
FVENS.ArrText.C107_nothing_to_read: propext, Classical.choice, Quot.sound
FVENS.Par.C108_ends: propext, Classical.choice, Quot.sound
FVENS.Par.C108_converged: propext, Classical.choice, Quot.sound
FVENS.Par.C108_positive_partial: propext, Classical.choice, Quot.sound
FVENS.Par.C108_vanLeer_processes_partial: propext, Classical.choice, Quot.sound
FVENS.Par.C108_vanLeer_renumbered: propext, Classical.choice, Quot.sound
FVENS.Par.C108_processes_partial: propext, Classical.choice, Quot.sound
FVENS.Par.C108_processes_implicit_partial: propext, Classical.choice, Quot.sound
FVENS.Par.C108_renumbered: propext, Classical.choice, Quot.sound
FVENS.Par.C108_renumbered_implicit_partial: propext, Classical.choice, Quot.sound
FVENS.Par.C108_turned_settings: propext, Classical.choice, Quot.sound
FVENS.Par.C108_turned_partial: propext, Classical.choice, Quot.sound
FVENS.Par.C108_turned_implicit_partial: propext, Classical.choice, Quot.sound
FVENS.Par.C108_uniform: propext, Classical.choice, Quot.sound
FVENS.Par.C108_uniform_implicit_refuted: propext, Classical.choice, Quot.sound
FVENS.Flux.C109_hll: propext, Classical.choice, Quot.sound
FVENS.Flux.C109_hllc: propext, Classical.choice, Quot.sound
FVENS.Flux.C109_roe: propext, Classical.choice, Quot.sound
FVENS.Flux.C109_llf: propext, Classical.choice, Quot.sound
FVENS.Flux.C109_vanLeer: propext, Classical.choice, Quot.sound
FVENS.Flux.C109_ausm: propext, Classical.choice, Quot.sound
FVENS.Flux.C109_ausmPlus: propext, Classical.choice, Quot.sound
FVENS.Flux.C109_expansion: propext, Classical.choice, Quot.sound
FVENS.Flux.C109_shock: propext, Classical.choice, Quot.sound
FVENS.Flux.C109_hllc_exact: propext, Classical.choice, Quot.sound
FVENS.Flux.C109_hll_exact: propext, Classical.choice, Quot.sound
FVENS.Flux.C109_others: propext, Classical.choice, Quot.sound
FVENS.Par.C109_hllc_steady: propext, Classical.choice, Quot.sound
FVENS.Par.C109_hll_steady: propext, Classical.choice, Quot.sound
FVENS.Par.C109_run: propext, Classical.choice, Quot.sound
FVENS.Par.C109_smeared: propext, Classical.choice, Quot.sound
FVENS.Flux.C110_hllc: propext, Classical.choice, Quot.sound
FVENS.Flux.C110_ausmPlus: propext, Classical.choice, Quot.sound
FVENS.Flux.C110_llf: propext, Classical.choice, Quot.sound
FVENS.Flux.C110_hll: propext, Classical.choice, Quot.sound
FVENS.Flux.C110_roe: propext, Classical.choice, Quot.sound
FVENS.Flux.C110_flux: propext, Classical.choice, Quot.sound
FVENS.Flux.C110_mass: propext, Classical.choice, Quot.sound
FVENS.Flux.C110_ausm_refuted: propext, Classical.choice, Quot.sound
FVENS.Flux.C110_vanLeer_refuted: propext, Classical.choice, Quot.sound
FVENS.Par.C110_keeps: propext, Classical.choice, Quot.sound
FVENS.Par.C110_step: propext, Classical.choice, Quot.sound
FVENS.Par.C110_run: propext, Classical.choice, Quot.sound
FVENS.Par.C110_several: propext, Classical.choice, Quot.sound
FVENS.Par.C110_run_refuted: propext, Classical.choice, Quot.sound
FVENS.Par.C110_ratio_refuted: propext, Classical.choice, Quot.sound
FVENS.Flux.C111_upwind: propext, Classical.choice, Quot.sound
FVENS.Flux.C111_llf: propext, Classical.choice, Quot.sound
FVENS.Flux.C111_hll: propext, Classical.choice, Quot.sound
FVENS.Flux.C111_vanLeer: propext, Classical.choice, Quot.sound
FVENS.Flux.C111_hllc: propext, Classical.choice, Quot.sound
FVENS.Flux.C111_schemes: propext, Classical.choice, Quot.sound
FVENS.Par.C111_uniform: propext, Classical.choice, Quot.sound
FVENS.Par.C111_steady: propext, Classical.choice, Quot.sound
FVENS.Out.C112_mirror: propext, Classical.choice, Quot.sound
FVENS.Out.C112_no_lift: propext, Classical.choice, Quot.sound
FVENS.Out.C112_friction: propext, Classical.choice, Quot.sound
FVENS.Out.C112_run: propext, Classical.choice, Quot.sound
FVENS.Out.C112_mirror_run: propext, Classical.choice, Quot.sound
FVENS.Flux.C113_flux: propext, Classical.choice, Quot.sound
FVENS.Par.C113_ghost: propext, Classical.choice, Quot.sound
FVENS.Par.C113_inOut_iff: propext, Classical.choice, Quot.sound
FVENS.Par.C113_inOut_refuted: propext, Classical.choice, Quot.sound
FVENS.Par.C113_residual: propext, Classical.choice, Quot.sound
FVENS.Par.C113_timestep: propext, Classical.choice, Quot.sound
FVENS.Par.C113_update: propext, Classical.choice, Quot.sound
FVENS.Par.C113_limit_steady: propext, Classical.choice, Quot.sound
FVENS.Par.C113_reported: propext, Classical.choice, Quot.sound
FVENS.Par.C114_converges: propext, Classical.choice, Quot.sound
FVENS.Par.C114_reported: propext, Classical.choice, Quot.sound
FVENS.Par.C114_unique: propext, Classical.choice, Quot.sound
FVENS.Par.C114_at_rest: propext, Classical.choice, Quot.sound
FVENS.Par.C114_several: propext, Classical.choice, Quot.sound
FVENS.Life.C115_agrees: propext
FVENS.Life.C115_safe: propext, Classical.choice, Quot.sound
FVENS.Life.C115_returns: propext, Classical.choice, Quot.sound
FVENS.Life.C115_run_partial: propext, Classical.choice, Quot.sound
FVENS.Life.C115_output_partial: propext, Classical.choice, Quot.sound
FVENS.Life.C115_space: propext, Classical.choice, Quot.sound
FVENS.Life.C115_starter: propext, Classical.choice, Quot.sound
FVENS.Life.C115_jacobianFlux_refuted: propext, Classical.choice, Quot.sound
FVENS.Life.C115_main_refuted: propext, Classical.choice, Quot.sound
FVENS.Flux.C116_flux_partial: propext, Classical.choice, Quot.sound
FVENS.Flux.C116_euler: propext, Classical.choice, Quot.sound
FVENS.Flux.C116_shear: propext, Classical.choice, Quot.sound
FVENS.Flux.C116_ghost: propext, Classical.choice, Quot.sound
FVENS.Flux.C116_isothermal: propext, Classical.choice, Quot.sound
FVENS.Flux.C116_adiabatic_iff: propext, Classical.choice, Quot.sound
FVENS.Flux.C116_ausmPlus_refuted: propext, Classical.choice, Quot.sound
FVENS.Flux.C116_adiabatic_refuted: propext, Classical.choice, Quot.sound
FVENS.Flux.C116_inflow_refuted: propext, Classical.choice, Quot.sound
FVENS.Ctl.Petsc.C117_int: propext, Classical.choice, Quot.sound
FVENS.Ctl.Petsc.C117_real: propext, Classical.choice, Quot.sound
FVENS.Ctl.Petsc.C117_bool: propext, Classical.choice, Quot.sound
FVENS.Ctl.Petsc.C117_matrixFree_iff: propext, Classical.choice, Quot.sound
FVENS.Ctl.Petsc.C117_string_iff: propext, Classical.choice, Quot.sound
FVENS.Ctl.Petsc.C117_string_prefix: propext, Classical.choice, Quot.sound
FVENS.Ctl.Petsc.C117_buffer_iff: propext, Classical.choice, Quot.sound
FVENS.Ctl.Petsc.C117_ints_length: propext, Classical.choice, Quot.sound
FVENS.Ctl.Petsc.C117_ints_iff: propext, Classical.choice, Quot.sound
FVENS.Ctl.Petsc.C117_amg: propext, Classical.choice, Quot.sound
FVENS.Ctl.Petsc.C117_amg_off: propext, Classical.choice, Quot.sound
FVENS.Ctl.Petsc.C117_matrixFree_refuted: propext, Classical.choice, Quot.sound
FVENS.Ctl.Petsc.C117_string_refuted: propext, Classical.choice, Quot.sound
FVENS.Ctl.Petsc.C117_buffer_refuted: propext, Classical.choice, Quot.sound
FVENS.Ctl.Petsc.C117_amg_refuted: propext, Classical.choice, Quot.sound
FVENS.Par.Iter.C118_lockstep: propext, Classical.choice, Quot.sound
FVENS.Par.World.C118_early: propext, Classical.choice, Quot.sound
FVENS.Par.C118_begin_partial: propext, Classical.choice, Quot.sound
FVENS.Par.C118_unsteady_hangs: propext, Classical.choice, Quot.sound
FVENS.Par.C118_unsteady_refuted: propext, Classical.choice, Quot.sound
FVENS.Par.Iter.C118_missing_hangs: propext, Classical.choice, Quot.sound
FVENS.Par.Iter.C118_missing_all: propext, Classical.choice, Quot.sound
FVENS.Par.Iter.C118_missing_iff: propext, Classical.choice, Quot.sound
FVENS.Par.C118_missing_conditions: propext, Classical.choice, Quot.sound
FVENS.Par.C118_missing_refuted: propext, Classical.choice, Quot.sound
FVENS.Par.World.C118_neighbours: propext, Classical.choice, Quot.sound
FVENS.Par.C118_waits_partial: propext, Classical.choice, Quot.sound
FVENS.Par.C118_explicit: propext, Classical.choice, Quot.sound
FVENS.Par.C118_implicit: propext, Classical.choice, Quot.sound
FVENS.Par.C118_single_partial: propext, Classical.choice, Quot.sound
FVENS.Par.C118_faces: propext, Classical.choice, Quot.sound
FVENS.Par.C118_second_explicit: propext, Classical.choice, Quot.sound
FVENS.Par.C118_second_implicit: propext, Classical.choice, Quot.sound
FVENS.Par.C118_second_single_partial: propext, Classical.choice, Quot.sound
FVENS.Par.C118_second_implicit_single_partial: propext, Classical.choice, Quot.sound
FVENS.Par.C118_implicit_single_partial: propext, Classical.choice, Quot.sound
FVENS.Par.C119_iff: propext, Classical.choice, Quot.sound
FVENS.Par.C119_accepts_partial: propext, Classical.choice, Quot.sound
FVENS.Par.C119_rejects: propext, Classical.choice, Quot.sound
FVENS.Par.C119_refuted: propext, Classical.choice, Quot.sound
FVENS.Par.C120_explicit: propext, Classical.choice, Quot.sound
FVENS.Par.C120_same_partial: propext, Classical.choice, Quot.sound
FVENS.Par.C120_implicit_iff: propext, Classical.choice, Quot.sound
FVENS.Par.C120_refuted: propext, Classical.choice, Quot.sound
FVENS.Par.C121_product_partial: propext, Classical.choice, Quot.sound
FVENS.Par.C121_zeroed_partial: propext, Classical.choice, Quot.sound
FVENS.Par.C121_iff: propext, Classical.choice, Quot.sound
FVENS.Par.C121_one: propext, Classical.choice, Quot.sound
FVENS.Par.C121_refuted: propext, Classical.choice, Quot.sound
FVENS.Par.C121_second_order_partial: propext, Classical.choice, Quot.sound
FVENS.Par.C121_second_order_zeroed_partial: propext, Classical.choice, Quot.sound
FVENS.Par.C121_second_order_iff: propext, Classical.choice, Quot.sound
FVENS.Par.C121_second_order_refuted: propext, Classical.choice, Quot.sound
FVENS.FV.Disc.C122_defined_iff: propext, Classical.choice, Quot.sound
FVENS.FV.Disc.C122_not_derivative: propext, Classical.choice, Quot.sound
FVENS.FV.Disc.C122_quadratic: propext, Classical.choice, Quot.sound
FVENS.FV.Disc.C122_dissipative: propext, Classical.choice, Quot.sound
FVENS.FV.Disc.C122_boundary_refuted: propext, Classical.choice, Quot.sound
