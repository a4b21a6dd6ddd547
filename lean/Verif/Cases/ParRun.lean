import Verif.Cases.Par

/-!
# Further concrete cases: implicit solvers, charts, exchanges between processes, whole cases

Applications of theorems from `Verif/Par/*` to concrete inputs that meet their hypotheses.
-/

namespace FVENS.Cases

open FVENS Msh FV Flux Finset Par Ode

/-! ## Several processes: C74, C82, C89 -/

noncomputable def crSub (r : ℕ) : Sub := (restrict_spec cross_conforming rfl cr_tags crS_ok (fun i => i / 2) r).choose
theorem crSub_ok (r : ℕ) : restrict FV.Geo.cross crS (fun i => i / 2) r = .ok (crSub r) := (restrict_spec cross_conforming rfl cr_tags crS_ok (fun i => i / 2) r).choose_spec.1
noncomputable def crSub' (r : ℕ) : FState := (sub_topological cross_conforming rfl cr_tags crS_ok (crSub_ok r)).choose
theorem crSub'_ok (r : ℕ) : topological (crSub r).mesh = .ok (crSub' r) := (sub_topological cross_conforming rfl cr_tags crS_ok (crSub_ok r)).choose_spec
theorem glued12 : Glued FV.Geo.cross (1, 1) (2, 2) := ⟨⟨by decide +kernel, by decide +kernel⟩, ⟨by decide +kernel, by decide +kernel⟩, by decide, by decide +kernel⟩

example : ∃ S l ic, restrict FV.Geo.cross crS (fun i => i / 2) 0 = .ok S ∧ S.cells[l]? = some 1 ∧ connKey S.mesh ic = (l, 1) ∧
    (∃ j' < 4, position FV.Geo.cross.nelem (fun i => i / 2) j' = 2 ∧ ghostAfter FV.Geo.cross crS (fun i => i / 2) 2 (split FV.Geo.cross crS (fun i => i / 2) bump) 0 ic = some (bump j')) ∧
    ((∀ (loc : ℕ → ℕ → ℝ) (w : ℕ → ℝ), Represents FV.Geo.cross crS (fun i => i / 2) loc w → ghostAfter FV.Geo.cross crS (fun i => i / 2) 2 loc 0 ic = some (w 2)) ↔
      position FV.Geo.cross.nelem (fun i => i / 2) 2 = 2) := by
  obtain ⟨S, l, ic, h1, h2, h3, h4⟩ := cross_registered crS_ok (fun i => i / 2) glued12 (by decide)
  exact ⟨S, l, ic, h1, h2, h4, C74_holds cross_conforming rfl cr_tags crS_ok half_lt (split_represents _ _ _ bump) h1 h3 h4 h2 glued12,
    C74_iff cross_conforming rfl cr_tags crS_ok half_lt h1 h3 h4 h2 glued12⟩

/-- The default partition puts cells 1 and 2 on different ranks. -/
example : ∃ r S l ic, restrict FV.Geo.cross crS triv2.choose r = .ok S ∧ S.cells[l]? = some 1 ∧ connKey S.mesh ic = (l, 1) ∧
    ghostAfter FV.Geo.cross crS triv2.choose 2 (split FV.Geo.cross crS triv2.choose bump) r ic = some (bump 2) := by
  have hd : triv2.choose 2 ≠ triv2.choose 1 := by
    have e : trivialPartition 4 2 = .ok triv2.choose := by rw [← cr_n]; exact triv2.choose_spec
    have e2 := BC.Res.ok.inj e
    rw [← e2]
    decide +kernel
  obtain ⟨S, l, ic, h1, h2, h3, h4⟩ := cross_registered crS_ok triv2.choose glued12 hd
  exact ⟨_, S, l, ic, h1, h2, h4, C74_trivial cross_conforming rfl cr_tags crS_ok two_pos triv2.choose_spec (split_represents _ _ _ bump) h1 h3 h4 h2 glued12⟩

abbrev crAsm := assembledOn_exists (air1 (Par.rest 1)) FV.Geo.cross crS (fun i => i / 2) 2 (llfJac air) (split FV.Geo.cross crS (fun i => i / 2) bump)
    (nt := fun _ => 3) (fun _ => by decide) crSub crSub'
example : ∃ (Ar : ℕ → ℕ × ℕ → Blk (Fin 4)) (A : ℕ × ℕ → Blk (Fin 4)),
    AssembledOn (air1 (Par.rest 1)) FV.Geo.cross crS (fun i => i / 2) 2 (llfJac air) (split FV.Geo.cross crS (fun i => i / 2) bump) (fun _ => 3) crSub crSub' Ar A ∧
    (∀ gc, Ar 0 (3, gc) = 0) ∧
    ∀ A1, ((air1 (Par.rest 1)).disc FV.Geo.cross crS 0).AssembleFlow (llfJac air) (oneCol FV.Geo.cross) bump 2 (fun _ => 0) A1 → ∀ l, (crSub 0).cells[l]? = some 1 → ∀ v,
      matMult FV.Geo.cross crS (fun i => i / 2) 2 A (split FV.Geo.cross crS (fun i => i / 2) stream4) (offset FV.Geo.cross crS (fun i => i / 2) 0 + l) v =
        ∑ q ∈ range FV.Geo.cross.nelem, ∑ c, A1 (1, q) v c * stream4 q c := by
  obtain ⟨Ar, A, hA⟩ := crAsm
  refine ⟨Ar, A, hA, fun gc => ?_, fun A1 hA1 l hl v => ?_⟩
  · exact C82_own_rows cross_conforming rfl cr_tags crS_ok FV.Geo.cross_nozero (cross_all crS_ok _) (air1 (Par.rest 1)) (crSub_ok 0) (crSub'_ok 0) (hA.1 0 (by omega)) (by decide) gc
  · exact C82_product_partial cross_conforming rfl cr_tags crS_ok FV.Geo.cross_nozero (cross_all crS_ok _) half_lt half_mono (air1 (Par.rest 1)) (fun _ _ _ _ _ _ _ => C83_llf air _ _ _)
      (split_represents _ _ _ bump) crSub_ok crSub'_ok hA hA1 (split_represents _ _ _ stream4) (by rw [cr_n]; omega) hl v

example := C89_first_step_iff cross_conforming rfl cr_tags crS_ok FV.Geo.cross_nozero (cross_all crS_ok _) half_lt half_mono (air1 (Par.rest 1)) (fun _ _ => rfl) bumpD_g (q := 2) (by norm_num)
  (cfl := 1 / 2) (by norm_num) (w := bump) (fun i _ => bump_adm i) (split_represents _ _ _ bump) crSub_ok crSub'_ok 0
example := C89_time_step cross_conforming rfl cr_tags crS_ok FV.Geo.cross_nozero (cross_all crS_ok _) half_lt half_mono (air1 (Par.rest 1)) (fun _ _ => rfl) bumpD_g (w := bump)
  (fun i _ => bump_adm i) (split_represents _ _ _ bump) (by rw [cr_n]; omega) crSub_ok crSub'_ok

/-! ## C40 -/

noncomputable def fanS : FState := fan_topological.choose
theorem fanS_ok : topological fan = .ok fanS := fan_topological.choose_spec
theorem fan_lt : ∀ g, g < fan.nelem → g / 2 < 2 := fun g hg => by
  have : fan.nelem = 4 := by decide +kernel
  omega
theorem fan_sym : SymTab 2 (subTab fan fanS fun i => i / 2) := C40_tables fan_check.conforming rfl (by decide +kernel) fanS_ok (fan_allRegistered fanS_ok) (n := 2) fan_lt
noncomputable def fanP : Setup ℝ := ⟨2, subTab fan fanS fun i => i / 2, fun _ => 4, 3, fun r t _ a => r + 10 * t + 100 * a⟩
theorem fan_run : ∃ c, Reach fanP.prog c ∧ Completed c 0 2 ∧ Completed c 1 2 := by
  obtain ⟨c, h1, h2⟩ := C40_completes (S := fanP) fan_sym
  have hcomp : ∀ r, r < 2 → Completed c r 2 := fun r hr => by
    obtain ⟨-, e2, e3⟩ := h2 r hr
    change 3 ≤ _ at e3
    rcases lt_or_eq_of_le (show 2 ≤ (c.rank r).phase by omega) with h | h
    · exact Or.inl h
    · exact Or.inr ⟨h, e2⟩
  exact ⟨c, h1, hcomp 0 (by decide), hcomp 1 (by decide)⟩
theorem fan_glued : Glued fan (1, 1) (2, 2) := ⟨⟨by decide +kernel, by decide +kernel⟩, ⟨by decide +kernel, by decide +kernel⟩, by decide, by decide +kernel⟩
example := C40_exchange_partial fan_check.conforming rfl (by decide +kernel) fanS_ok (fan_allRegistered fanS_ok) (P := fanP) fan_lt rfl fan_run.choose_spec.1 fan_glued (by decide) (t := 2) (by decide)
  fan_run.choose_spec.2.1 fun _ => 0
example := C40_exchange (S := fanP) fan_sym fan_run.choose_spec.1 (r := 1) (t := 2) (by decide) fan_run.choose_spec.2.2 fun _ => 0
example := C40_finishes (S := fanP) fan_sym fan_run.choose_spec.1
example := C40_progress (S := fanP) fan_sym .start (r := 0) (by show 0 < 2; decide) (fun h => absurd h.2.2 (by show ¬ 3 ≤ 0 + 1; decide))

/-! ## C77 -/

theorem perm4 : IsPerm FV.Geo.cross.nelem fun i => 3 - i := by
  have := cr_n
  refine ⟨fun i hi => by omega, fun i j hi hj e => ?_⟩
  have e : 3 - i = 3 - j := e
  omega
example := C77_iff perm4 cross_conforming

/-! ## C93 -/

example := C93_cfl_one_refuted .roe (by decide)

/-! ## C98 -/

theorem pairS_f : pairS.faces = [⟨0, 2, 0, 1⟩, ⟨1, 3, 1, 2⟩, ⟨1, 4, 2, 5⟩, ⟨1, 5, 5, 4⟩, ⟨0, 6, 4, 3⟩, ⟨0, 7, 3, 0⟩, ⟨0, 1, 1, 4⟩] := pair_topological.choose_spec.2
theorem supersonic5 : Faster .vanLeer air uS4 uS5 ![1, 0] := by simp only [Faster, vn_uS4, c_uS4, vn_uS5, c_uS5]; norm_num
theorem supersonic4 : Faster .vanLeer air uS4 uS4 ![1, 0] := by simp only [Faster, vn_uS4, c_uS4]; norm_num
theorem two_adm {a b : St} (ha : Adm air a) (hb : Adm air b) (i : ℕ) : Adm air (two a b i) := by unfold two; split_ifs <;> assumption
theorem two_left (a b c : St) (i : ℕ) (hi : i = 0) : two a b i = two a c i := by rw [hi]; rfl
example := C98_residual (U := (· = 0)) (outS_ok .vanLeer) (out_g _) rfl (fun _ _ => rfl) (u := two uS4 uS5) (w := two uS4 uS4) (fun i _ => two_adm adm_uS4 adm_uS5 i) (fun i _ => two_adm adm_uS4 adm_uS4 i)
  (fun i hi => two_left _ _ _ i hi) (pair_leaves pairS_f supersonic5) (pair_leaves pairS_f supersonic4) 0

/-! ## C109 -/

theorem weak5 (sch : Scheme) : WeakSteady (outS sch) (two (shockA 5) (shockB 5)) := pair_weak pairS_f sch 5
example := C109_hllc_steady (outS_ok .hllc) rfl (fun _ _ => rfl) (out_g _) rfl (weak5 _)

/-! ## C108 -/

noncomputable def farP : Settings := ⟨air, .roe, false, false, fun _ => some (.farfield (air.freestream 0))⟩
theorem far_steady : IsSteady (farP.disc FV.Geo.cross crS 0) (initVec air 0) :=
  (C95_free_stream (D := farP.disc FV.Geo.cross crS 0) ⟨cross_conforming, FV.Geo.cross_nozero, crS_ok⟩ fs_adm (fun _ _ => rfl) (fun _ _ => rfl)).1
theorem far_visits (c : Conf) : Visits forwardEuler (single (farP.disc FV.Geo.cross crS 0)) c (initVec air 0) fun t => ∀ i, i < FV.Geo.cross.nelem → Adm air (t.u i) :=
  fun k out _ j _ m hm i _ => by
    obtain ⟨⟨x, h1, h2⟩, -⟩ := C95_stays far_steady forwardEuler c j
    cases h1.symm.trans hm
    rw [h2]; exact fs_adm
theorem far_begins {use : Bool} {c : Conf} {w : ℕ → St} (hw : Begins forwardEuler (single (farP.disc FV.Geo.cross crS 0)) use c (initVec air 0) w) : w = initVec air 0 := by
  obtain ⟨e, h, -⟩ := hw
  unfold Starts at h
  split_ifs at h with hu
  · obtain ⟨n, o, h, -⟩ := h
    unfold Par.Ends at h
    split_ifs at h with hm
    · exact Option.some.inj h.2.2
    · obtain ⟨t, h1, h2, -⟩ := h
      cases t with
      | none => cases h2
      | some t =>
        have := (loop_inv (u := initVec air 0) h1 0 rfl).2.1
        simp only [zero_add] at this
        obtain ⟨⟨x, h3, h4⟩, -⟩ := C95_stays far_steady forwardEuler c n
        cases h3.symm.trans this
        rw [← h4]
        exact Option.some.inj h2
  · exact Option.some.inj h.2
theorem far_main {use : Bool} (c cm : Conf) (E : (ℕ → St) → Disc.Env) (w : ℕ → St) (hw : Begins forwardEuler (single (farP.disc FV.Geo.cross crS 0)) use c (initVec air 0) w) :
    Visits forwardEuler (solver (farP.disc FV.Geo.cross crS 0) (evalOf (farP.disc FV.Geo.cross crS 0) none E)) cm w fun t => MainOk (farP.disc FV.Geo.cross crS 0) none E t.u := by
  rw [far_begins hw]
  exact far_visits cm
noncomputable def farE : (ℕ → St) → Disc.Env := fun _ => ⟨fun _ => uEx, fun _ => 0, fun _ => 0, fun _ => 0⟩
theorem cr_reordered : ∃ s, topological (reorderCells FV.Geo.cross fun i => 3 - i) = .ok s := by
  obtain ⟨s, -, -, h, -⟩ := C77_first_order_partial perm4 cross_conforming rfl FV.Geo.cross_nozero crS_ok farP (fun _ _ => rfl) (by norm_num [farP, air]) (w := initVec air 0) (fun _ _ => fs_adm) 0 0
  exact ⟨s, h⟩
example := C108_renumbered perm4 cross_conforming rfl FV.Geo.cross_nozero crS_ok cr_reordered.choose_spec farP (fun _ _ => rfl) (by norm_num [farP, air]) (ord := none)
  farE farE (use := true) (cs := ⟨1 / 2, 10, 1, 1⟩) (cm := ⟨1 / 10, 100, 1, 1⟩) 0 (fun _ => far_visits _) (far_main _ _ _)
example := C108_processes_partial cross_conforming rfl cr_tags crS_ok half_lt FV.Geo.cross_nozero (cross_all crS_ok _) half_mono farP (fun _ _ => rfl) (by norm_num [farP, air]) (ord := none)
  farE (E := fun _ _ => farE fun _ => uEx) crSub_ok crSub'_ok (fun _ _ e => by cases e) (use := true) (cs := ⟨1 / 2, 10, 1, 1⟩) (cm := ⟨1 / 10, 100, 1, 1⟩) 0 (fun _ => far_visits _) (far_main _ _ _)
theorem sq_settings : ∃ P, (squareOpts .roe .slipWall (1 / 3)).settings = .ok P := by
  obtain ⟨P, hP, -⟩ := safe_settings (O := squareOpts .roe .slipWall (1 / 3)) (fun c hc => by
    obtain rfl := List.mem_singleton.1 hc
    exact .inl rfl) (by norm_num [squareOpts, air]) (by norm_num [squareOpts, air])
  exact ⟨P, hP⟩
noncomputable def turnBy (θ : ℝ) : Similarity := ⟨Real.cos θ, Real.sin θ, 2, fun _ => 7, by have := Real.cos_sq_add_sin_sq θ; nlinarith, two_pos⟩
example := C108_turned_settings (T := turnBy (1 / 4)) (θ := 1 / 4) ⟨rfl, rfl⟩ _ sq_settings.choose_spec
theorem sq_far : ∃ P, (squareOpts .roe .farfield 1).settings = .ok P := by
  obtain ⟨P, hP, -⟩ := far_settings (O := squareOpts .roe .farfield 1) (fun c hc => by
    obtain rfl := List.mem_singleton.1 hc
    rfl)
  exact ⟨P, hP⟩
noncomputable def sqD : Disc := sq_far.choose.disc FV.Geo.cross crS 0
theorem far_case : ∃ x, CaseRun forwardEuler (single sqD) (solver sqD (evalOf sqD (some (.zero, .muscl)) farE)) true ⟨1 / 2, 10, 1, 1⟩ ⟨1 / 10, 100, 1, 1⟩ (initVec air 1) .normal (some x) := by
  obtain ⟨seen, v, hr, -⟩ := C108_ends forwardEuler (single sqD) (solver sqD (evalOf sqD (some (.zero, .muscl)) farE)) true ⟨1 / 2, 10, 1, 1⟩ ⟨1 / 10, 100, 1, 1⟩ (initVec air 1)
  obtain ⟨rfl, x, rfl, -⟩ := C108_uniform (O := squareOpts .roe .farfield 1) (fun c hc => by
    obtain rfl := List.mem_singleton.1 hc
    rfl) cross_conforming FV.Geo.cross_nozero crS_ok rfl (square_cov _ _ _) (by norm_num [squareOpts, air]) (by norm_num [squareOpts, air]) sq_far.choose_spec
    (ord := some (.zero, .muscl)) (fun gs R e => by
      cases e
      exact ⟨trivial, trivial, by rintro (h | ⟨K, h⟩) <;> cases h⟩) farE (fun _ => by norm_num) (by norm_num) (by norm_num) (by norm_num) hr
  exact ⟨x, hr⟩
example := C108_converged (Or.inl rfl) (by norm_num) (by norm_num) far_case.choose_spec

/-! ## C104 -/

noncomputable def wallD : Disc := walled.disc FV.Geo.cross crS 0
theorem wall_ok : wallD.G.Ok := ⟨cross_conforming, FV.Geo.cross_nozero, crS_ok⟩
theorem wall_bj : wallD.BcJOk := fun _ _ => ⟨_, rfl, rfl⟩
theorem wall_out : units23.OutflowOk wallD := fun k _ ui e => by cases e
theorem wall_fam : units23.chart.FamIm wallD.gas (roeJac air) (roeJac (units23.gas air)) := (units23.chart.C104_families rfl).2.2.2.1
theorem wall_good : GoodAt wallD bump := walled_good crS
noncomputable def anyKsp : (ℕ × ℕ → Blk (Fin 4)) → (ℕ → St) → ℕ → St := (exact_exists FV.Geo.cross.nelem).choose
theorem anyKsp_exact : Exact wallD.G.m.nelem anyKsp := (exact_exists FV.Geo.cross.nelem).choose_spec
theorem wall_resIm (u : ℕ → St) : Charted.ResIm units23.chart 1 wallD (units23.disc wallD) (fun u => wallD.residual1 u 0) (fun u => (units23.disc wallD).residual1 u 0) u :=
  units23.resIm wallD wall_ok wall_out (bcOk_of_jOk wall_bj) u
example := (units23.charted wallD).C104_jacobian wall_ok rfl wall_fam wall_bj (u := bump) (u' := fun i => units23.chart.st (bump i)) (fun _ _ => rfl) wall_good
example := (units23.charted wallD).C104_iteration wall_ok rfl wall_fam wall_bj (relax := fun _ _ => 1) (relax' := fun _ _ => 1) anyKsp_exact anyKsp_exact (wall_resIm bump) wall_good (fun _ _ _ => rfl)
abbrev wall_run := walled_run (ksp := anyKsp) (relax := fun _ _ => 1) crS_ok
example := (units23.charted wallD).C104_run wall_ok rfl wall_fam wall_bj anyKsp_exact anyKsp_exact (relax' := fun _ _ => 1) wall_run.choose_spec.2.1 (fun _ _ _ => rfl)
  (fun j hj m hm => ⟨wall_resIm m.u, wall_run.choose_spec.2.2 j hj m hm⟩) (fun _ h _ => absurd h (lt_irrefl 1))
theorem wall_out1 : ∃ o o', wallD.residual1 bump 0 = some o ∧ (units23.disc wallD).residual1 (fun i => units23.chart.st (bump i)) 0 = some o' ∧
    ∀ i, i < wallD.G.m.nelem → (units23.disc wallD).timestep o'.uL o'.uR i = 1 / units23.chart.b * wallD.timestep o.uL o.uR i := by
  obtain ⟨o, o', h1, h2, h3⟩ := wall_resIm bump
  exact ⟨o, o', h1, h2, fun i hi => (h3 i hi).2⟩
example := (units23.charted wallD).C104_matrix wall_ok rfl wall_fam wall_bj (u := bump) (u' := fun i => units23.chart.st (bump i)) (fun _ _ => rfl) wall_good wall_out1.choose_spec.choose_spec.2.2 10
example := units23.chart.C104_system (N := wallD.G.m.nelem) (κ := units23.chart.b * 1) (by norm_num [Units.chart, units23]) fun x i hi v => (units23.charted wallD).C104_matrix wall_ok rfl wall_fam wall_bj (u := bump)
  (u' := fun i => units23.chart.st (bump i)) (fun _ _ => rfl) wall_good wall_out1.choose_spec.choose_spec.2.2 10 x hi v

/-! ## C96 -/

theorem wall_flow : ∃ A1, wallD.AssembleFlow (roeJac air) (oneCol wallD.G.m) bump 3 (fun _ => 0) A1 := assembleJac_exists (by decide) _
theorem wall_pseudo : ∃ A, ParLoop 2 wall_flow.choose (List.range wallD.G.m.nelem) (Lin.pseudoUpds id (Lin.pseudoDt wallD.G.ar (wallD.timestep wall_out1.choose.uL wall_out1.choose.uR) 10)) A :=
  (parLoop_exists (by decide) _ _ _).imp fun _ h => h.1
example := C96_schedule wall_ok wall_flow.choose_spec wall_pseudo.choose_spec

section slip
open Disc

noncomputable def slipD : Disc := airWalls.disc pair pairS 0
theorem slip_ok : slipD.G.Ok := ⟨pair_conforming, pair_nozero, pairS_ok⟩
theorem slip_smooth (k : ℕ) : ∃ o, slipD.bc (slipD.tag k) = some o ∧ BdSmooth slipD.gas slipD.scheme uEx (slipD.G.nrm k) o := by
  have hbc0 : ∀ t, slipD.bc t = if t = 1 then some .slip else some (.adiabatic 0) := fun _ => rfl
  by_cases ht : slipD.tag k = 1
  · exact ⟨.slip, by rw [hbc0, if_pos ht], Or.inl rfl⟩
  · exact ⟨.adiabatic 0, by rw [hbc0, if_neg ht], Or.inl ⟨rfl, Or.inl rfl⟩⟩
theorem slip_bc : slipD.BcOk := fun k _ => by obtain ⟨o, ho, -⟩ := slip_smooth k; rw [ho]; rfl
theorem slip_visc : slipD.ViscOk uEx := fun _ => ⟨uEx_adm.rho', fun h => by cases h⟩
theorem slip_outer (k : ℕ) (hk : k < slipD.G.m.nbface) (v : Fin 4) : HasGrad (fun a => slipD.flux2 k a (slipD.bstate k a) v) (-(slipD.blkBoundary (ausmJac air) (slipD.bjac k) k uEx v)) uEx := by
  obtain ⟨o, ho, hS⟩ := slip_smooth k
  have hn := Disc.nrm_unit slip_ok (Disc.bnd_lt slip_ok hk)
  obtain ⟨g, e1, e2, e3⟩ := Disc.C50_boundary_flux uEx_adm hn hS
  have eg : ∀ a, slipD.bstate k a = o.ghost slipD.gas a (slipD.G.nrm k) := fun a => by simp [Disc.bstate, ho]
  have e1 : o.ghostJ slipD.gas = some g := e1
  have ej : slipD.bjac k = g := by simp [Disc.bjac, ho, e1]
  refine Disc.C50_boundary_exact slipD k ?_ ?_ slip_visc (fun _ => ⟨(by rw [eg]; exact Disc.bdSmooth_adm uEx_adm hn hS : Adm slipD.gas _).rho', fun h => by cases h⟩) v
  · simp only [eg, ej]; exact e2
  · simp only [eg, ej]; exact e3
theorem slip_inner (k : ℕ) (hk : k < slipD.G.nface) (hk' : slipD.G.m.nbface ≤ k) : Disc.IsJoint (slipD.flux2 k) (slipD.blkInterior (ausmJac air) k uEx uEx) uEx uEx := by
  refine flux2_joint slipD k (smooth_joint (sch := .ausm) uEx_adm uEx_adm _ ?_) slip_visc slip_visc
  obtain rfl : k = 6 := by
    have h1 : slipD.G.nface = 7 := by show pairS.faces.length = 7; rw [pairS_f]; rfl
    have h2 : slipD.G.m.nbface = 6 := rfl
    omega
  change machHalf air uEx uEx (slipD.G.nrm 6) ≠ 0
  unfold machHalf
  rw [(ausm_split_sum _ 0 0 0 0).1]
  refine div_ne_zero ?_ uEx_adm.c_pos.ne'
  have e : slipD.G.nrm 6 = ![1, 0] := by
    have h6 : slipD.G.face 6 = ⟨0, 1, 1, 4⟩ := by show faceAt pairS.faces 6 = _; rw [pairS_f]; rfl
    unfold Geo.nrm fNrm
    rw [h6]
    norm_num [fLen, pair, slipD, Settings.disc]
  rw [e]
  norm_num [Gas.varsVn, dot, Gas.vel, uEx]
theorem slip_res : ∃ o : (ℕ → St) → Disc.Out, ∀ w, slipD.residual1 w 0 = some (o w) :=
  ⟨_, fun w => by unfold Disc.residual1; rw [if_pos slip_bc]⟩
theorem slip_regular : ∃ c0, 0 < c0 ∧ ∀ cfl, 0 < cfl → cfl ≤ c0 → ∀ o, slipD.residual1 (fun _ => uEx) 0 = some o → Regular slipD.G.m.nelem (sysOne slipD (ausmJac air) (fun _ => uEx) o cfl) :=
  regular_small (u := fun _ => uEx) slip_ok ⟨by norm_num [slipD, airWalls, Settings.disc, air], by norm_num [slipD, airWalls, Settings.disc, air], by norm_num [slipD, airWalls, Settings.disc, air],
    by norm_num [slipD, airWalls, Settings.disc, air]⟩ slip_bc (fun _ _ => uEx_adm) (fun i hi => by show 0 < (area pair i).getD 0; rw [pair_area hi]; norm_num) (ausmJac air)
example := C96_product slip_ok rfl slip_bc (u := fun _ => uEx) (J := ausmJac air) slip_outer slip_inner (fun i => Par.rest (i + 1)) (res := fun w => (slip_res.choose w).res)
  (fun w => ⟨_, slip_res.choose_spec w, rfl⟩) (i := 1) (by decide)
example := C96_newton slip_ok rfl slip_bc (u := fun _ => uEx) (J := ausmJac air) slip_outer slip_inner (exact_exists _).choose_spec (slip_res.choose_spec _)
  (slip_regular.choose_spec.2 _ slip_regular.choose_spec.1 le_rfl _ (slip_res.choose_spec _)) rfl (res := fun w => (slip_res.choose w).res)
  (fun w => ⟨_, slip_res.choose_spec w, rfl⟩) (i := 1) (by decide)
end slip

abbrev crOn := exactOn_exists cross_conforming rfl cr_tags crS_ok half_lt half_mono
example := C96_iteration_partial cross_conforming rfl cr_tags crS_ok FV.Geo.cross_nozero (cross_all crS_ok _) half_lt half_mono (air1 (Par.rest 1)) (fun _ _ => rfl) bumpD_g (fun _ _ => ⟨_, rfl, rfl⟩)
  (J := llfJac air) (w := bump) (fun i _ => bump_adm i) (fun _ _ _ _ _ _ _ => C83_llf air _ _ _) (split_represents _ _ _ bump) (fun _ _ => 1 / 2) anyKsp_exact crOn.choose_spec

/-! ## C40 over any transport -/

/-- three ranks in a line, two exchanges; the second message says what came in the first -/
def lineP : Prog ℕ := ⟨3, fun r => if r = 1 then [0, 2] else if r = 0 ∨ r = 2 then [1] else [], 2, fun r t inbox d => if t = 0 then 10 * r + d else (inbox 0 d).getD 0 + 1⟩
theorem line_nodup (r : ℕ) : (lineP.nb r).Nodup := by unfold lineP; dsimp only; split_ifs <;> decide
theorem line_self (r : ℕ) : r ∉ lineP.nb r := by
  unfold lineP; dsimp only; split_ifs with h1 h2
  · subst h1; decide
  · simp; omega
  · simp
theorem line_sym (r s : ℕ) (h : s ∈ lineP.nb r) : r ∈ lineP.nb s := by
  unfold lineP at h ⊢; dsimp only at h ⊢
  split_ifs at h with h1 h2
  · subst h1
    simp only [List.mem_cons, List.not_mem_nil, or_false] at h
    rcases h with rfl | rfl <;> simp
  · simp only [List.mem_cons, List.not_mem_nil, or_false] at h
    subst h
    rcases h2 with rfl | rfl <;> simp
  · simp at h
theorem line_lt (r : ℕ) (_ : r < lineP.n) (s : ℕ) (h : s ∈ lineP.nb r) : s < lineP.n := by
  show s < 3
  unfold lineP at h; dsimp only at h
  split_ifs at h <;> simp at h <;> omega
example := C40_no_deadlock line_nodup line_self line_sym line_lt .start (r := 1) (by decide) (fun h => absurd h.2.2 (by decide))
theorem line_step : ∃ c', Step lineP lineP.start c' := C40_no_deadlock line_nodup line_self line_sym line_lt .start (r := 1) (by decide) (fun h => absurd h.2.2 (by decide))
example := C40_terminates line_step.choose_spec

/-! ## C89, C93 -/

/-- rank 0 has sent, rank 1 has received -/
theorem line_received : ∃ c, Reach lineP c ∧ (c.rank 1).inbox 0 0 = some 1 := by
  have h1 := Reach.step .start (Step.send lineP.start 0 1 [] (by decide) rfl)
  have h2 := Reach.step h1 (Step.send _ 1 0 [2] (by decide) rfl)
  have h3 := Reach.step h2 (Step.send _ 1 2 [] (by decide) rfl)
  exact ⟨_, .step h3 (Step.recv _ 1 0 [2] 1 [] (by decide) rfl rfl rfl), rfl⟩
example := C40_transport line_nodup line_self line_sym line_received.choose_spec.1 (r := 1) (s := 0) (by decide) line_received.choose_spec.2

theorem two_cold (i : ℕ) : Adm air (two cold hot i) := two_adm cold_adm hot_adm i
theorem cold_side (f : ℕ) : (pairSide f).val pair (two cold hot) (ghosts (outS .llf) (two cold hot)) = cold ∨ (pairSide f).val pair (two cold hot) (ghosts (outS .llf) (two cold hot)) = hot := by
  have : ∀ i, two cold hot i = cold ∨ two cold hot i = hot := fun i => by unfold two; split_ifs <;> simp
  unfold pairSide
  split_ifs
  all_goals exact this _
example := C93_step_partial (outS_ok .llf) rfl (out_g _) (by norm_num [outS, Settings.disc, airOut, air]) trivial (fun _ _ => rfl) (u := two cold hot) (fun j _ => two_cold j) (fun _ _ => two_cold _) (i := 0)
  (by decide) (by show 0 < (area pair 0).getD 0; rw [pair_area (by omega)]; norm_num) pair_across (cfl := 1 / 100) (by norm_num) (by
    rw [Finset.mul_sum]
    refine Finset.sum_le_sum fun f hf => ?_
    have hT := (fLen_pos ((outS_ok .llf).nz (0, f) ⟨(by decide : 0 < 2), Finset.mem_range.1 hf⟩)).le
    rw [mul_left_comm]
    refine mul_le_mul_of_nonneg_left ?_ hT
    show 1 / 100 * (1 / 2 * max (|Gas.varsVn cold _| + cSide air cold) (|Gas.varsVn ((pairSide f).val pair (two cold hot) (ghosts (outS .llf) (two cold hot))) _| +
      cSide air ((pairSide f).val pair (two cold hot) (ghosts (outS .llf) (two cold hot))))) ≤ |Gas.varsVn cold _| + cSide air cold
    rcases cold_side f with e | e
    · rw [e, cold_vn, cold_c]; norm_num
    · rw [e, hot_vn, cold_vn, hot_c, cold_c]; norm_num)

noncomputable def hvD : Disc := (air1 (Par.rest 2)).disc FV.Geo.cross crS 0
theorem hvD_dt : 0 < rkDt hvD halves := by
  have hne := cr_n
  obtain ⟨o, ho, -⟩ := halves_residual crS_ok FV.Geo.cross_topological.choose_spec.2
  have e1 : rkDt hvD halves = (range FV.Geo.cross.nelem).inf' ⟨0, Finset.mem_range.2 (by omega)⟩ (hvD.timestep o.uL o.uR) := by
    simp only [rkDt, hvD, ho]
    exact dif_pos (show (range FV.Geo.cross.nelem).Nonempty from ⟨0, Finset.mem_range.2 (by omega)⟩)
  rw [e1]
  refine (Finset.lt_inf'_iff _).2 fun i hi => ?_
  unfold hvD
  rw [halves_timestep crS_ok ho (by have := Finset.mem_range.1 hi; omega)]
  have h2 : (0 : ℝ) ≤ Real.sqrt 2 := Real.sqrt_nonneg 2
  have hc2 : 0 < air.soundSpeedC (halves i) := Disc.soundSpeed_pos (halves_adm i)
  positivity
theorem tv_run : ∃ t, TvRun hvD 2 1 1e-12 halves 1 (some t) :=
  ⟨⟨halves - (kappa 2 * (rkDt hvD halves * 1)) • rkRhs hvD halves, 0 + rkDt hvD halves * 1⟩, .step (by norm_num [tcond]) (by simp only [tbody, C58_step (q := 2) (by decide), Option.map_some, if_pos (show (0 : ℤ) < 2 by decide)]) (.done (by
    simp only [tcond, sub_self, zero_add, mul_one, not_le]; exact hvD_dt))⟩
example := C89_ghosts_frozen (Or.inr (Or.inl rfl)) tv_run.choose_spec (l := 5) (by decide)

/-! ## C98, C109, C111 -/

theorem fe_one {D : Disc} (hb : D.BcOk) (har : ∀ i, i < D.G.m.nelem → 0 < D.G.ar i) (c : Conf) (u : ℕ → St) : ∃ s, traj forwardEuler (single D) c u 1 = some s := by
  obtain ⟨o, ho⟩ : ∃ o, D.residual1 u 0 = some o := ⟨_, by unfold Disc.residual1; rw [if_pos hb]⟩
  have hnn : 0 ≤ energy D o.res := Finset.sum_nonneg fun l hl => mul_nonneg (mul_self_nonneg _) (har l (Finset.mem_range.1 hl)).le
  have hr : (single D).norm u = some (Real.sqrt (energy D o.res)) := by simp only [single, ho, Option.bind_some, rootOf]; rw [if_pos hnn]
  exact ⟨_, by simp only [traj, Option.bind_some, body, init, hr]; rfl⟩
example := C98_run (U := (· = 0)) (outS_ok .vanLeer) (out_g _) rfl (fun _ _ => rfl) ⟨1 / 2, 10, 1, 1⟩ (u := two uS4 uS5) (w := two uS4 uS4) (fun i hi => two_left _ _ _ i hi) 1
  (fe_one (D := outS .vanLeer) (fun _ _ => rfl) out_ar _ _).choose_spec (fe_one (D := outS .vanLeer) (fun _ _ => rfl) out_ar _ _).choose_spec
  (fun j hj x hx => by
    obtain rfl : j = 0 := by omega
    cases hx
    exact ⟨pair_leaves pairS_f supersonic5, fun i _ => two_adm adm_uS4 adm_uS5 i⟩)
  (fun j hj x hx => by
    obtain rfl : j = 0 := by omega
    cases hx
    exact ⟨pair_leaves pairS_f supersonic4, fun i _ => two_adm adm_uS4 adm_uS4 i⟩)

section shock
variable (sch : Scheme)
theorem out_faces : (outS sch).G.nface = 7 := by show pairS.faces.length = 7; rw [pairS_f]; rfl
theorem out_beyond (w : ℝ) {k : ℕ} (e : k < 6) : beyond (outS sch) (two (shockA w) (shockB w)) k = two (shockA w) (shockB w) ((outS sch).G.face k).left := by
  unfold beyond
  rw [show (outS sch).G.m.nbface = 6 from rfl, if_pos e]
  rfl
theorem out_beyond6 (w : ℝ) : beyond (outS sch) (two (shockA w) (shockB w)) 6 = shockB w := by
  unfold beyond
  rw [show (outS sch).G.m.nbface = 6 from rfl, if_neg (by omega)]
  show two (shockA w) (shockB w) (faceAt pairS.faces 6).right = _
  rw [pairS_f]; rfl
theorem out_left6 (w : ℝ) : two (shockA w) (shockB w) ((outS sch).G.face 6).left = shockA w := by
  show two (shockA w) (shockB w) (faceAt pairS.faces 6).left = _
  rw [pairS_f]; rfl
theorem out_nrm6 : (outS sch).G.nrm 6 = ![1, 0] := by
  show fNrm (pair.coords (faceAt pairS.faces 6).n0) (pair.coords (faceAt pairS.faces 6).n1) = _
  rw [pairS_f]
  show fNrm (pair.coords 1) (pair.coords 4) = _
  have hl : fLen (pair.coords 1) (pair.coords 4) = 1 := by norm_num [fLen, pair]
  unfold fNrm
  rw [hl]
  norm_num [pair]
end shock
example := C109_hll_steady (outS_ok .hll) rfl (fun _ _ => rfl) rfl (weak5 .hll) (fun k hk => by
  rw [out_faces] at hk
  rcases (show k < 6 ∨ k = 6 by omega) with e | e
  · exact Or.inl (out_beyond _ _ e).symm
  · subst e
    rw [out_left6, out_nrm6]
    exact Or.inr ((shockA_adm 5).c_pos.trans (shock_supersonic 5)).ne')

noncomputable def sh0 : ℕ → St := two (shockA 0) (shockB 0)
theorem sh_flux : Scheme.flux air .ausmPlus (shockA 0) (shockB 0) ![1, 0] = air.eulerFlux (shockA 0) ![1, 0] :=
  (C109_shock (shock_jump 0) (shock_supersonic 0) .ausmPlus).2 (Or.inr (Or.inr ⟨rfl, by simp [Gas.vel, shockA]⟩))
theorem sh_steady : IsSteady (outS .ausmPlus) sh0 := by
  have hw := pair_weak pairS_f .ausmPlus 0
  refine steady_of_exact (outS_ok _) rfl (fun _ _ => rfl) hw.flux fun k hk => ?_
  rw [out_faces] at hk
  rcases (show k < 6 ∨ k = 6 by omega) with e | e
  · unfold sh0
    rw [out_beyond _ _ e]
    exact C15_ausmPlus (hw.left k (by show k < (outS .ausmPlus).G.nface; rw [out_faces]; omega)) _
  · subst e
    unfold sh0
    rw [out_beyond6, out_left6, out_nrm6]
    exact sh_flux
theorem sh_side (i : ℕ) (hi : i < 2) : fNrm (nodeA pair i 3) (nodeB pair i 3) = -![1, 0] := by
  have hl : fLen (nodeA pair i 3) (nodeB pair i 3) = 1 := by
    obtain rfl | rfl : i = 0 ∨ i = 1 := by omega
    all_goals norm_num [fLen, nodeA, nodeB, pair]
  unfold fNrm
  rw [hl]
  obtain rfl | rfl : i = 0 ∨ i = 1 := by omega
  all_goals norm_num [nodeA, nodeB, pair]
theorem sh_mass : air.eulerFlux (shockA 0) ![1, 0] 0 = 2 := by
  rw [eulerFlux_eq (shockA_adm 0).rho']
  simp [Gas.dirFlux, varsVn_def, Gas.vel, shockA]
theorem sh_fed0 : Fed (outS .ausmPlus) sh0 (enthalpy air (shockA 0)) 0 := by
  refine Fed.inflow (f := 3) (k := 5) (show 0 < 2 by omega) (show 3 < 4 by omega) (pair_across 3 (by decide +kernel)) ?_ ?_
  · have hgst : ghosts (outS .ausmPlus) sh0 5 = shockA 0 := by
      show two (shockA 0) (shockB 0) (faceAt pairS.faces 5).left = _
      rw [pairS_f]; rfl
    unfold massOut
    rw [hgst]
    show Scheme.flux air .ausmPlus (shockA 0) (shockA 0) (fNrm (nodeA pair 0 3) (nodeB pair 0 3)) 0 < 0
    rw [sh_side 0 (by omega), C16_conservative air _ _ _ (by norm_num [air]) (shockA_adm 0) (shockA_adm 0) (by simp)]
    show - ausmPlus air (shockA 0) (shockA 0) ![1, 0] 0 < 0
    rw [C15_ausmPlus (shockA_adm 0), sh_mass]
    norm_num
  · show enthalpy air (two (shockA 0) (shockB 0) (faceAt pairS.faces 5).left) = _
    rw [pairS_f]; rfl
theorem sh_fed1 : Fed (outS .ausmPlus) sh0 (enthalpy air (shockA 0)) 1 := by
  refine Fed.cell (f := 3) (j := 0) (show 1 < 2 by omega) (show 3 < 4 by omega)
    ((⟨1, ⟨by decide +kernel, by decide +kernel⟩, ⟨by decide +kernel, by decide +kernel⟩, by simp, by decide +kernel⟩ : Across pair (1, 3) (.cell 0))) ?_ sh_fed0
  show Scheme.flux air .ausmPlus (shockB 0) (shockA 0) (fNrm (nodeA pair 1 3) (nodeB pair 1 3)) 0 < 0
  rw [sh_side 1 (by omega), C16_conservative air _ _ _ (by norm_num [air]) (shockA_adm 0) (shockB_adm 0) (by simp), sh_flux, sh_mass]
  norm_num
theorem sh_fed (i : ℕ) (hi : i < (outS .ausmPlus).G.m.nelem) : Fed (outS .ausmPlus) sh0 (enthalpy air (shockA 0)) i := by
  have hi : i < 2 := hi
  obtain rfl | rfl : i = 0 ∨ i = 1 := by omega
  · exact sh_fed0
  · exact sh_fed1
theorem sh_adm (i : ℕ) : Adm air (sh0 i) := two_adm (shockA_adm 0) (shockB_adm 0) i
/-- Ghost states are copies of the states inside. -/
theorem sh_inflow (i f k : ℕ) (hi : i < (outS .ausmPlus).G.m.nelem) (hf : f < (outS .ausmPlus).G.m.nnode i) (h : Across (outS .ausmPlus).G.m (i, f) (.bnd k)) :
    enthalpy air (ghosts (outS .ausmPlus) sh0 k) = enthalpy air (sh0 i) := by
  show enthalpy air (sh0 ((outS .ausmPlus).G.face k).left) = _
  obtain ⟨k', hk', -, hside⟩ := side_exists (outS_ok .ausmPlus) ⟨hi, hf⟩ h
  obtain ⟨rfl, -, e⟩ := hside
  rw [e]
example := C111_uniform (outS_ok .ausmPlus) rfl (out_g _) (Or.inr rfl) (fun _ _ => rfl) rfl out_ar (fun i _ => sh_adm i) (fun _ _ => sh_adm _) (fun i f k hi hf h _ => Or.inr (sh_inflow i f k hi hf h))
  sh_steady sh_fed

/-! ## C26, C38, C102 -/

example := Diff.C102_reaches (G := fire.G) rod_ok rfl (fun i hi => by
  have h : 0 < (area pair i).getD 0 := rod_w.2 i hi
  cases e : area pair i with
  | none => rw [e] at h; exact absurd h (lt_irrefl _)
  | some A => rw [e] at h; exact ⟨A, h, e⟩) (i := 1) (by decide)
example := C26_adjacency_exact cross_conforming.lin cross_conforming.manifold
example := C38_conforming_iff cross_conforming rfl cr_tags crS_ok (fun i => i / 2) 0 (crSub_ok 0)

end FVENS.Cases
