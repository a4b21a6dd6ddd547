import Verif.Cases.FvFlow

/-!
# Concrete cases for the theorems on whole runs, mirror images, copies of discretisations, and heat conduction

Applications of theorems from `Verif/FV/*` to concrete inputs that meet their hypotheses.
-/

namespace FVENS.Cases

open FVENS Msh FV Flux Finset Par Ode

/-! ## C87 -/

/-- A run of one step of the second-order scheme in the closed square. -/
example : ∃ (dtm : (ℕ → St) → ℝ) (t : TMem (ℕ → St)),
    Loop (tcond 1e-12) (tbody 2 (fun w => (Disc.boxDisc false .slip).rhs ((Disc.boxDisc false .slip).residual1 w fun _ => 0)) dtm 1) ⟨Disc.boxState, 0⟩ 1 (some t) ∧
    (Disc.boxDisc false .slip).amount t.u 3 = (Disc.boxDisc false .slip).amount Disc.boxState 3 := by
  set f : (ℕ → St) → ℕ → St := fun w => (Disc.boxDisc false .slip).rhs ((Disc.boxDisc false .slip).residual1 w fun _ => 0) with hf
  choose d hd hA using fun i => Disc.adm_small (Disc.boxState_adm i) (f Disc.boxState i)
  set δ := min (min (d 0) (d 1)) (min (d 2) (d 3))
  have hδ : 0 < δ := lt_min (lt_min (hd 0) (hd 1)) (lt_min (hd 2) (hd 3))
  have hle : ∀ i, i < 4 → δ ≤ d i := fun i hi => by
    obtain rfl | rfl | rfl | rfl : i = 0 ∨ i = 1 ∨ i = 2 ∨ i = 3 := by omega
    all_goals simp [δ]
  classical
  have hstep : ∀ s : TMem (ℕ → St), tbody 2 f (fun u => if u = Disc.boxState then δ else 0) 1 s =
      some ⟨s.u - (if s.u = Disc.boxState then δ else 0) • f s.u, s.time + if s.u = Disc.boxState then δ else 0⟩ := fun s => by
    simp only [tbody]
    rw [C58_step (by norm_num)]
    simp [kappa]
  have hl : Loop (tcond 1e-12) (tbody 2 f (fun u => if u = Disc.boxState then δ else 0) 1) ⟨Disc.boxState, 0⟩ 1
      (some ⟨Disc.boxState - δ • f Disc.boxState, δ⟩) := by
    refine .step (by unfold tcond; norm_num) (hstep _) ?_
    simp only [if_true, zero_add]
    exact .done (by unfold tcond; simp; linarith)
  refine ⟨_, _, hl, Disc.C87_run (D := Disc.boxDisc false .slip) Disc.boxGeo_ok (Disc.boxDisc_box false (Or.inl rfl)) (by norm_num [Disc.boxDisc, air]) rfl box_area
    (A := {Disc.boxState, Disc.boxState - δ • f Disc.boxState}) ?_ ?_ (Set.mem_insert _ _) hl (Or.inr rfl)⟩
  · rintro u (rfl | rfl) i hi
    · exact Disc.boxState_adm i
    · exact hA i δ hδ (hle i hi)
  · rintro s s' hs hb
    cases (hstep s).symm.trans hb
    by_cases e : s.u = Disc.boxState
    · right; simp [e]
    · rcases hs with hs | hs
      · exact absurd hs e
      · right; simp only [if_neg e, zero_smul, sub_zero]; exact hs

/-! ## C100: two squares and their mirror images -/

noncomputable def halfD : Disc := (airHalf .vanLeer).disc halfPair halfS 0
theorem halfD_ok : halfD.G.Ok := ⟨halfPair_conforming, halfPair_nozero, halfS_ok⟩
theorem pair_half : Disc.Cut atOne pairD halfD id swap2 halfB swapB fun _ f => (4 - f) % 4 := pair_cut pairS_ok halfS_ok .vanLeer
theorem pairU_sym' : ∀ i, i < pairD.G.m.nelem → pairU (swap2 i) = atOne.st (pairU i) := fun i hi => by
  rw [pairU_sym i hi, atOne.st_st]
theorem gas43 : 4 ≤ 3 * pairD.gas.g := by show 4 ≤ 3 * air.g; norm_num [air]
theorem pair_swap : ∀ i j, i < pairD.G.m.nelem → j < pairD.G.m.nelem → pairD.SwapOk (pairU i) (pairU j) := fun _ _ hi hj =>
  Disc.swapOk_of_adm pairD gas43 (pairU_adm _ hi) (pairU_adm _ hj)

example := Disc.C100_mirrored pairD_ok pairD_ok pairD_sym (fun _ _ => rfl) (u := pairU) (u' := fun i => atOne.st (pairU (swap2 i))) (fun _ _ => rfl) pair_swap
  (r := pairU) (r' := fun i => atOne.st (pairU (swap2 i))) (fun _ _ => rfl)
example := atOne.C100_setup (P := airOut .vanLeer) pair_conforming rfl pair_nozero pairS_ok rfl
example := Disc.C100_mirrored_update pairD_ok pairD_ok pairD_sym (fun _ _ => rfl) gas43 (u := pairU) (u' := fun i => atOne.st (pairU (swap2 i))) (fun _ _ => rfl) pairU_adm (1 / 2)
example := Disc.C100_half pairD_ok halfD_ok pair_half.half (fun _ _ => rfl) (u := pairU) (u' := pairU) (fun _ _ => rfl)
  (fun i hi => pairU_sym' i (Nat.lt_succ_of_lt hi)) (fun i hi => (pairU_adm i (Nat.lt_succ_of_lt hi)).rho') pair_swap (r := fun _ => 0) (r' := fun _ => 0) fun _ _ => rfl
example := Disc.C100_half_iteration pairD_ok halfD_ok pair_half (fun _ _ => rfl) gas43 (u := pairU) (u' := pairU) ⟨fun _ _ => rfl, pairU_sym'⟩
  (fun i hi => pairU_adm i (Nat.lt_succ_of_lt hi)) 1
example : ∃ k out, Solve forwardEuler (single pairD) ⟨0, 10, 1, 1⟩ pairU k out := by
  have hpos := (C93_run_partial pairD_ok rfl gas43 (by show air.g ≤ 3; norm_num [air]) rfl (fun k _ => ⟨.extrapolation, rfl, trivial⟩) rfl
    (fun i hi => by show 0 < (area pair i).getD 0; rw [pair_area hi]; norm_num) (c := ⟨0, 10, 1, 1⟩) (by norm_num) (by norm_num) pairU_adm).1
  obtain ⟨⟨k, out, h⟩, -⟩ := C56_terminates forwardEuler (single pairD) ⟨0, 10, 1, 1⟩ pairU
  have := atOne.C100_mirror_run (P := airOut .vanLeer) pair_conforming rfl pair_nozero pairS_ok rfl (fun _ _ => rfl) gas43 h
    (fun j _ t ht => by obtain ⟨t', h1, h2⟩ := hpos j; cases h1.symm.trans ht; exact h2)
  exact ⟨k, out, h⟩

/-! ## C75: a mesh whose cells are renumbered -/

/-- the square cut by its diagonals, and the same with two of the four cells exchanged -/
noncomputable def crossD : Disc := (airOut .llf).disc FV.Geo.cross crossT 0
theorem cross_perm : IsPerm FV.Geo.cross.nelem (Equiv.swap 0 2) := swap_isPerm (by decide +kernel) (by decide +kernel)
noncomputable def crossT' : FState := (reorder_topological cross_perm cross_conforming crossT_ok).choose
noncomputable def crossD' : Disc := (airOut .llf).disc (reorderCells FV.Geo.cross (Equiv.swap 0 2)) crossT' 0
theorem cross_copy : crossD.G.Ok ∧ crossD'.G.Ok ∧ DiscCopy crossD crossD' (Equiv.swap 0 2) id :=
  reorder_disc cross_perm cross_conforming rfl FV.Geo.cross_nozero crossT_ok (reorder_topological cross_perm cross_conforming crossT_ok).choose_spec (airOut .llf)
theorem llf_ok (a b : St) : crossD.SwapOk a b := fun n _ v => llf_swap air _ _ n v
/-- states all different -/
noncomputable def crossU (i : ℕ) : St := ![1 + i, i, 1, 10 + i]

example := Disc.C75_first_order cross_copy.1 cross_copy.2.1 cross_copy.2.2 (fun _ _ => rfl) (u := crossU) (u' := fun i => crossU (Equiv.swap 0 2 i)) (fun _ _ => rfl)
  (fun _ _ _ _ => llf_ok _ _) (fun _ => 0) fun _ => 0
example := Geo.C75_gradients (nv := 4) cross_copy.1 cross_copy.2.1 cross_copy.2.2.geo (u := crossU) (u' := fun i => crossU (Equiv.swap 0 2 i)) (ug := fun k => crossU (k + 7)) (ug' := fun k => crossU (k + 7))
  (fun _ _ => rfl) (fun _ _ => rfl) (i := 2) (by show 2 < FV.Geo.cross.nelem; decide +kernel)

theorem cross_second : ∃ o, crossD.residual2 .wls (.weno 1000) ⟨0, 0, 0, 0⟩ crossU (fun _ => 0) = some o :=
  residual2_defined cross_copy.1 (fun _ _ => rfl) (gs := .wls) (R := .weno 1000) (show (0 : ℝ) < 1000 by norm_num) (fun h => by rcases h with h | ⟨K, h⟩ <;> cases h) _ _ _
example := Disc.C75_face_states cross_copy.1 cross_copy.2.1 cross_copy.2.2 (E' := ⟨0, 0, 0, 0⟩) (u' := fun i => crossU (Equiv.swap 0 2 i)) (fun _ _ => rfl) (fun _ _ => rfl)
  (fun _ _ i h1 h2 => absurd h2 (by have : crossD'.G.m.nconnface = 0 := rfl; omega)) (r' := fun _ => 0) cross_second.choose_spec
example := Disc.C75_second_order cross_copy.1 cross_copy.2.1 cross_copy.2.2 (E' := ⟨0, 0, 0, 0⟩) (u' := fun i => crossU (Equiv.swap 0 2 i)) (fun _ _ => rfl) (fun _ _ => rfl)
  (fun i h1 h2 => absurd h2 (by have : crossD'.G.m.nconnface = 0 := rfl; omega)) (r' := fun _ => 0) cross_second.choose_spec (fun ic h => absurd h (Nat.not_lt_zero _))
  (fun _ _ _ => llf_ok _ _)
example : ∃ o o', crossD.residual1 crossU (fun _ => 0) = some o ∧ crossD'.residual1 (fun i => crossU (Equiv.swap 0 2 i)) (fun _ => 0) = some o' ∧
    crossD'.timestep o'.uL o'.uR 0 = crossD.timestep o.uL o.uR 2 := by
  obtain ⟨o, o', h1, h2, -⟩ := Disc.C75_first_order cross_copy.1 cross_copy.2.1 cross_copy.2.2 (fun _ _ => rfl) (u := crossU) (u' := fun i => crossU (Equiv.swap 0 2 i)) (fun _ _ => rfl)
    (fun _ _ _ _ => llf_ok _ _) (fun _ => 0) fun _ => 0
  have := Disc.C75_first_order_time_steps cross_copy.1 cross_copy.2.1 cross_copy.2.2 (fun _ _ => rfl) h1 h2 (i := 0) (by show 0 < FV.Geo.cross.nelem; decide +kernel)
  rw [Equiv.swap_apply_left] at this
  exact ⟨o, o', h1, h2, this⟩

theorem cross_across : ∀ f, f < crossD'.G.m.nnode 0 → ∃ o, Across crossD'.G.m (0, f) o := fun f hf =>
  exists_across cross_copy.2.1.conf cross_copy.2.1.topo (x := (0, f)) ⟨by show 0 < FV.Geo.cross.nelem; decide +kernel, hf⟩
example := Disc.C75_time_steps cross_copy.1 cross_copy.2.1 cross_copy.2.2 (uL := fun _ => uEx) (uR := fun _ => uEx) (uL' := fun _ => uEx) (uR' := fun _ => uEx) (i := 0)
  (by show 0 < FV.Geo.cross.nelem; decide +kernel) (o' := fun f => if h : f < crossD'.G.m.nnode 0 then (cross_across f h).choose else .bnd 0)
  (fun f hf => by rw [dif_pos hf]; exact (cross_across f hf).choose_spec) (fo := fun _ => uEx) (fun _ _ _ _ _ => ⟨fun _ => rfl, fun _ => rfl⟩) (fun _ _ _ _ _ => ⟨fun _ => rfl, fun _ => rfl⟩)

/-! ## C53: heat conduction -/

example := Diff.C53_conservative Diff.exDiff exGeo_ok .wls (fun _ => 0) (fun i _ => i) fun _ => 0
theorem lin_sides : exGeo.xl 4 ≠ exGeo.xr 4 := by
  obtain ⟨l0, l1, l2, l3, l4, l5, r0, r1, r2, r3, r4, r5⟩ := exGeo_lr
  rw [l4, r4]; intro h; have := congrFun h 0; norm_num at this
example := Diff.C53_linear_flux Diff.exDiff 4 lin_sides (fun _ => 3) fun d _ => ![2, -1] d
example := Diff.C53_jacobian_doubled Diff.exDiff exGeo_ok exNum (u := fun i _ => i) (assembleJac_exists (by norm_num : 0 < 3) fun _ => 0).choose_spec (fun _ => 0) (q := fun i _ => Diff.exDiff.source (exGeo.rc i) 0 0)
  (fun _ _ _ => rfl) (i := 0) (gi := 0) (gc := 1) (by show 0 < 2; decide) rfl (u0 := fun _ => 1) (fun j _ h => by
    have : j = 1 := by unfold numbering at h; simp at h; exact h.2
    rw [this]; simp)
example := Diff.C53_jacobian_iff Diff.exDiff exGeo_ok exNum (fun i _ => i) (by norm_num : 0 < 3) (assembleJac_exists (by norm_num : 0 < 3) fun _ => 0).choose_spec (fun _ => 0) (q := fun i _ => Diff.exDiff.source (exGeo.rc i) 0 0)
  (fun _ _ _ => rfl) (i := 0) (gi := 0) (by show 0 < 2; decide) rfl (fun j _ h => by
    have : j = 0 := by unfold numbering at h; simp at h; exact h.2
    rw [this])
example := Diff.C53_refuted (by norm_num : 0 < 3) (assembleJac_exists (by norm_num : 0 < 3) fun _ => 0).choose_spec fun i _ => i

/-! ## C101, C102 -/

/-- heat conduction between two squares -/
noncomputable def rod : Diff 1 := Diff.onMesh pair pairS 1 0 fun _ _ _ => 0
theorem rod_ok : rod.G.Ok := ⟨pair_conforming, pair_nozero, pairS_ok⟩
theorem rod_w : (∀ k, k < rod.G.nface → 0 < rod.wt k) ∧ ∀ i, i < rod.G.m.nelem → 0 < rod.G.ar i :=
  Diff.C101_convex (nu := 1) (bval := 0) (source := fun _ _ => (0 : Fin 1 → ℝ)) pair_conforming rfl pair_nozero pairS_ok (fun _ hi => Diff.pair_convex hi) one_pos
theorem rod_t (i : ℕ) (hi : i < 2) : 0 < rod.timestep i / rod.G.ar i := div_pos (rod.C53_timestep rod_ok one_pos hi).2.2 (rod_w.2 i hi)
theorem rod_load (i : ℕ) : 0 ≤ rod.load i := sum_nonneg fun k hk => (rod_w.1 k (mem_range.1 (mem_filter.1 hk).1)).le
theorem rod_bload (i : ℕ) : 0 ≤ rod.bload i := Diff.bload_nonneg (fun k hk => (rod_w.1 k hk).le) i
/-- a small time step -/
noncomputable def rodC : ℝ := 1 / 2 / (1 + rod.timestep 0 / rod.G.ar 0 * rod.load 0 + rod.timestep 1 / rod.G.ar 1 * rod.load 1)
theorem rodC_pos : 0 < rodC := by
  have h2 := mul_nonneg (rod_t 0 (by omega)).le (rod_load 0)
  have h3 := mul_nonneg (rod_t 1 (by omega)).le (rod_load 1)
  unfold rodC; positivity
theorem rodC_half (i : ℕ) (hi : i < rod.G.m.nelem) : rodC * rod.timestep i / rod.G.ar i * rod.load i ≤ 1 / 2 := by
  have h2 := mul_nonneg (rod_t 0 (by omega)).le (rod_load 0)
  have h3 := mul_nonneg (rod_t 1 (by omega)).le (rod_load 1)
  have e : rodC * rod.timestep i / rod.G.ar i * rod.load i = 1 / 2 * (rod.timestep i / rod.G.ar i * rod.load i) /
      (1 + rod.timestep 0 / rod.G.ar 0 * rod.load 0 + rod.timestep 1 / rod.G.ar 1 * rod.load 1) := by unfold rodC; ring
  rw [e, div_le_iff₀ (by positivity)]
  have hi : i < 2 := hi
  obtain rfl | rfl : i = 0 ∨ i = 1 := by omega
  · linarith
  · linarith
theorem rodC_one (i : ℕ) (hi : i < rod.G.m.nelem) : rodC * rod.timestep i / rod.G.ar i * rod.load i ≤ 1 := (rodC_half i hi).trans (by norm_num)
theorem rodC_nonneg (i : ℕ) (hi : i < rod.G.m.nelem) : 0 ≤ rodC * rod.timestep i / rod.G.ar i := by
  rw [mul_div_assoc]; exact mul_nonneg rodC_pos.le (rod_t i hi).le
theorem rodC_theta (i : ℕ) (hi : i < rod.G.m.nelem) : rodC * rod.timestep i / rod.G.ar i * (rod.load i - rod.bload i / 2) ≤ 1 / 2 :=
  (mul_le_mul_of_nonneg_left (by have := rod_bload i; linarith) (rodC_nonneg i hi)).trans (rodC_half i hi)
theorem rod_nn : ∀ k, k < rod.G.nface → 0 ≤ rod.wt k := fun k hk => (rod_w.1 k hk).le

example := Diff.C101_lower rod_ok (gs := .zero) (Or.inl rfl) rod_nn rodC_nonneg rodC_one rod_w.2 (a := -3) (by show (-3 : ℝ) ≤ 0; norm_num) (u := fun i _ => i) (fun i _ _ => by
  have : (0 : ℝ) ≤ i := Nat.cast_nonneg i
  linarith) (fun _ _ _ => le_rfl) (i := 1)
example := Diff.C101_upper rod_ok (gs := .zero) (Or.inl rfl) rod_nn rodC_nonneg rodC_one rod_w.2 (b := 3) (by show (0 : ℝ) ≤ 3; norm_num) (u := fun _ _ => 2) (fun _ _ _ => by norm_num)
  (fun _ _ _ => le_rfl) (i := 1)
example := Diff.C101_implicit_doubled rod_ok rfl (gs := .zero) (Or.inl rfl) rod_nn one_pos rod_w.2 (fun _ _ => rfl) (cfl := 100) (by norm_num)
example := Diff.C101_implicit_iff rod_ok rfl (gs := .zero) (Or.inl rfl) rod_nn one_pos rod_w.2 (fun _ _ => rfl) (cfl := 100) (by norm_num)
theorem rod_within : rod.Within (-1) 2 fun i _ => if i = 1 then 2 else 0 := ⟨⟨by show (-1 : ℝ) ≤ 0; norm_num, by show (0 : ℝ) ≤ 2; norm_num⟩, fun i _ _ => by
  show -1 ≤ (if i = 1 then (2 : ℝ) else 0) ∧ (if i = 1 then (2 : ℝ) else 0) ≤ 2
  split_ifs <;> norm_num⟩
theorem rod_traj (n : ℕ) : ∃ t, traj forwardEuler (rod.solver .zero) ⟨1 / 1000, 100, rodC, rodC⟩ (fun i _ => if i = 1 then 2 else 0) n = some t := by
  obtain ⟨us, -, h⟩ := Diff.C102_explicit_converges (nu := 1) (bval := 0) (source := fun _ _ _ => 0) (gs := .zero) pair_conforming rfl pair_nozero pairS_ok (fun _ hi => Diff.pair_convex hi)
    one_pos (Or.inl rfl) (fun _ _ _ => rfl) rodC_pos fun i hi => (rodC_theta i hi).trans_lt (by norm_num)
  obtain ⟨t, ht, -⟩ := (h ⟨1 / 1000, 100, rodC, rodC⟩ rfl fun i _ => if i = 1 then 2 else 0).1
  exact ⟨t n, ht n⟩
example := Diff.C101_run rod_ok (gs := .zero) (Or.inl rfl) rod_nn one_pos rod_w.2 (fun _ _ => rfl) (c := ⟨1 / 1000, 100, rodC, rodC⟩) rodC_pos.le rodC_one (a := -1) (b := 2) (u := fun i _ => if i = 1 then 2 else 0)
  rod_within (n := 10) (rod_traj 10).choose_spec
example := Diff.C101_implicit_refuted (cfl := 1) (nu := 2) (bval := 3) (by norm_num) (by norm_num)
example := Diff.C101_no_cfl_refuted (cfl := 1 / 100) (nu := 2) (bval := 3) (by norm_num) (by norm_num)

/-- heat conduction with a source -/
noncomputable def fire : Diff 1 := Diff.onMesh pair pairS 1 0 fun x _ _ => x 0
theorem fire_reaches (i : ℕ) (hi : i < fire.G.m.nelem) : Diff.Reaches fire.G i := Diff.C102_reaches rod_ok rfl (fun i hi => by
  have h : 0 < (area pair i).getD 0 := rod_w.2 i hi
  cases e : area pair i with
  | none => rw [e] at h; exact absurd h (lt_irrefl _)
  | some A => rw [e] at h; exact ⟨A, h, e⟩) hi
example := Diff.C102_steady (D := fire) (gs := .zero) rod_ok rfl (Or.inl rfl) (fun _ _ _ => rfl) rod_w.1 fire_reaches
example := Diff.C102_error (D := fire) (gs := .zero) rod_ok rfl (Or.inl rfl) (fun _ _ _ => rfl) rod_w.1 fire_reaches rod_w.2
theorem fire_steady : ∃ us, fire.Steady .zero us := (Diff.C102_steady (D := fire) (gs := .zero) rod_ok rfl (Or.inl rfl) (fun _ _ _ => rfl) rod_w.1 fire_reaches).imp fun _ h => h.1
example := Diff.C102_explicit_run (D := fire) (gs := .zero) rod_ok rfl (Or.inl rfl) rod_nn one_pos rod_w.2 (fun _ _ _ => rfl) rodC_pos (θ := 1 / 2) (by norm_num) rodC_theta
example := Diff.C102_implicit_run (D := fire) (gs := .zero) rod_ok rfl (Or.inl rfl) rod_nn one_pos rod_w.2 (fun _ _ _ => rfl) (lo := 10) (hi := 1000) (by norm_num) (by norm_num)
example := Diff.C102_explicit_step (D := fire) (gs := .zero) rod_ok rfl (Or.inl rfl) rod_nn (fun _ _ _ => rfl) fire_steady.choose_spec rodC_theta rodC_nonneg fun i _ => i
theorem fire_implicit : ∃ u', fire.Implicit .zero fire.blk 100 (fun i _ => i) u' := by
  obtain ⟨u', hu'⟩ := Diff.implicit_solvable (D := fire) (gs := .zero) (κ := 1) (cfl := 100) rod_ok rfl rod_nn (by norm_num) (fun i hi =>
      div_pos (rod_w.2 i hi) (mul_pos (by norm_num) (fire.C53_timestep rod_ok one_pos hi).2.2)) fun i _ => i
  exact ⟨u', by simpa only [one_smul] using hu'⟩
example := Diff.C102_implicit_step (D := fire) (gs := .zero) rod_ok rfl (Or.inl rfl) (fun _ _ _ => rfl) fire_steady.choose_spec fire_implicit.choose_spec
example := Diff.C102_no_cfl_refuted (nu := 2) two_pos 5 .greenGauss (c := ⟨1 / 1000, 100, 1 / 100, 1 / 100⟩) (by norm_num)

end FVENS.Cases
