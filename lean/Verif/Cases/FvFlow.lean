import Verif.Cases.Fv
import Verif.Cases.Bc
import Verif.FV.Heat
import Verif.Par.ImplicitNewton
import Verif.Par.ChartEx

/-!
# Concrete cases for the theorems on the flow discretisation

Applications of theorems from `Verif/FV/*` (residuals, Jacobians, viscous fluxes, changes of units and axes) to concrete inputs that meet their hypotheses.
-/

namespace FVENS.Cases

open FVENS Msh FV Flux Finset Par Ode

/-! ## C43, C51 -/

theorem fs_adm : Adm air (air.freestream 0) := Disc.freestream_adm air (by norm_num [air]) (by norm_num [air]) 0

example := Disc.C43_first_order (D := Disc.exDisc) exGeo_ok fs_adm (fun k _ => by simp [Disc.exDisc]) (u := fun _ => air.freestream 0) (fun _ _ => rfl) fun _ => 0
example := Disc.C43_freestream (D := Disc.exDisc) exGeo_ok (by norm_num [Disc.exDisc, air]) (by norm_num [Disc.exDisc, air]) 0 (fun k _ => by simp [Disc.exDisc])
  (u := fun _ => air.freestream 0) (fun _ _ => rfl) fun i _ => i
example := Disc.C51_integral (D := Disc.exDisc) exGeo_ok (fun _ => uEx) (fun _ => air.freestream 0) (i := 1) (by show 1 < 2; decide)
/-- five threads -/
example : ∃ mem, ParLoop 5 (fun _ => 0) (List.range exGeo.nface) (Disc.exDisc.integUpds (fun _ => uEx) fun _ => air.freestream 0) mem ∧
    exGeo.ar 0 / mem 0 = Disc.exDisc.timestep (fun _ => uEx) (fun _ => air.freestream 0) 0 := by
  obtain ⟨mem, h, -⟩ := parLoop_exists (by decide : 0 < 5) (fun _ => (0 : ℝ)) (List.range exGeo.nface) (Disc.exDisc.integUpds (fun _ => uEx) fun _ => air.freestream 0)
  exact ⟨mem, h, Disc.C51_threads (D := Disc.exDisc) exGeo_ok h (by show 0 < 2; decide)⟩

/-! ## C50, C18 -/

section jac
open Disc

theorem exNum : IsNumbering exGeo (numbering exGeo.m false id) := numbering_isNumbering exGeo_ok false id (by simp)

theorem ex_mach {k : ℕ} (hk : k < exGeo.nface) : machHalf air uEx uEx (exGeo.nrm k) ≠ 0 := by
  unfold machHalf
  rw [(ausm_split_sum _ 0 0 0 0).1]
  exact div_ne_zero (exGeo_vn hk) uEx_adm.c_pos.ne'

/-- the example mesh with outflow everywhere, AUSM, constant viscosity -/
noncomputable def exOpen : Disc := { exDisc with scheme := .ausm, constVisc := true, bc := fun _ => some .extrapolation }

theorem exOpen_visc : exOpen.ViscOk uEx := fun _ => ⟨by norm_num [uEx], fun h => by cases h⟩
theorem exJac_visc : exJac.ViscOk uEx := fun _ => ⟨by norm_num [uEx], fun h => by cases h⟩
theorem exOpen_joint {k : ℕ} (hk : k < exGeo.nface) : IsJoint (exOpen.flux2 k) (exOpen.blkInterior (ausmJac air) k uEx uEx) uEx uEx :=
  flux2_joint exOpen k (ausm_joint uEx_adm uEx_adm _ (ex_mach hk)) exOpen_visc exOpen_visc

example := C50_boundary_chain exOpen (J := ausmJac air) (g := BC.extrapolationJ) 0 (ul := uEx) (BC.C10_extrapolation uEx _)
  (exOpen_joint (by rw [exGeo_face.1]; decide))
example := C50_boundary_constant exJac (J := ausmJac air) (g := BC.farfieldJ uEx) 1 (ul := uEx) (c := uEx) rfl (fun _ => rfl)
  (C18_ausm_exact uEx_adm uEx_adm _ (ex_mach (by rw [exGeo_face.1]; decide))) exJac_visc exJac_visc
example := C50_interior_blocks exJac (J := ausmJac air) 4 (C18_ausm_exact uEx_adm uEx_adm _ (ex_mach (by rw [exGeo_face.1]; decide))) exJac_visc exJac_visc
example := C50_boundary_exact (u := uEx) exOpen (J := ausmJac air) (g := BC.extrapolationJ) 0 (BC.C10_extrapolation uEx _)
  (fun v => (ausm_joint uEx_adm uEx_adm _ (ex_mach (by rw [exGeo_face.1]; decide))).chain (BC.C10_extrapolation uEx _) v) exOpen_visc exOpen_visc

/-- four threads -/
theorem exOpen_mat : ∃ A, AssembleJac exGeo (numbering exGeo.m false id) (fun k => exOpen.blkBoundary (ausmJac air) BC.extrapolationJ k uEx)
    (fun k => (exOpen.blkInterior (ausmJac air) k uEx uEx).dfdl) (fun k => (exOpen.blkInterior (ausmJac air) k uEx uEx).dfdr) 4 (fun _ => 0) A :=
  assembleJac_exists (by norm_num) _
theorem exOpen_bnd (k : ℕ) (hk : k < 4) (v : Fin 4) : HasGrad (fun a => exOpen.flux2 k a (exOpen.bstate k a) v) (-(exOpen.blkBoundary (ausmJac air) BC.extrapolationJ k uEx v)) uEx :=
  C50_boundary_chain exOpen k (BC.C10_extrapolation uEx _) (exOpen_joint (by rw [exGeo_face.1]; omega)) v

example := C50_flow exOpen exGeo_ok (fun _ _ => rfl) exNum (J := ausmJac air) (g := fun _ => BC.extrapolationJ) (u := fun _ => uEx) exOpen_bnd
  (fun k hk _ => isJoint_isFluxJac (exOpen_joint hk)) exOpen_mat.choose_spec (fun _ => 0) (i := 1) (gi := 1) (gc := 0) (by show 1 < 2; decide) rfl (u0 := uEx) (fun _ _ _ => rfl)
example := C50_column_sum exGeo_ok exNum exOpen_mat.choose_spec 1
example := C50_schedule exGeo_ok exOpen_mat.choose_spec (1, 0)
/-- the model equation with flux `3 a` through boundary faces and `a - 2 b` through others -/
theorem scal_blocks : IsBlocks exGeo (fun _ (a : Fin 1 → ℝ) v => 3 * a v) (fun _ a b v => a v - 2 * b v) (fun _ _ => 1) (fun _ _ _ => -3) (fun _ _ _ => -1) (fun _ _ _ => -2) := by
  have key : ∀ (c d : ℝ) (v : Fin 1), HasGradN (fun a : Fin 1 → ℝ => c * a v + d) (fun _ => c) (fun _ => 1) := fun c d v => by
    have h := ((hasFDerivAt_apply (𝕜 := ℝ) v (fun _ : Fin 1 => (1 : ℝ))).const_mul c).add_const d
    refine h.congr_fderiv (ContinuousLinearMap.ext fun x => ?_)
    fin_cases v
    simp [rowN]
  refine ⟨fun k _ v => ?_, fun k _ _ v => ?_, fun k _ _ v => ?_⟩
  · simpa [Pi.neg_def] using key 3 0 v
  · simpa [Pi.neg_def, sub_eq_add_neg] using key 1 (-2) v
  · simpa [sub_eq_add_neg, add_comm] using key (-2) 1 v
example := C50_derivative exGeo_ok exNum scal_blocks (assembleJac_exists (by norm_num : 0 < 4) fun _ => 0).choose_spec (fun _ _ => 0) (i := 0) (gi := 0) (gc := 1)
  (by show 0 < 2; decide) rfl (u0 := fun _ => 1) fun _ _ _ => rfl

example := C50_joint_hll (G := air) (ul := uEx) (ur := air.freestream 0) (by norm_num [uEx]) fs_adm.rho' ![3 / 5, 4 / 5]
example := C50_joint_llf (G := air) (ul := uEx) (ur := air.freestream 0) (by norm_num [uEx]) fs_adm.rho' ![3 / 5, 4 / 5]
example := C50_slip_wall_llf (G := air) (ul := uEx) (by norm_num [uEx]) ![3 / 5, 4 / 5]
example := C18_roe_mirror (G := air) (ul := uEx) (ur := BC.slip uEx ![3 / 5, 4 / 5]) uEx_adm
  (bdSmooth_adm (sch := .ausm) (o := .slip) uEx_adm (by norm_num) (Or.inl rfl)) ![3 / 5, 4 / 5] (mirror_slip (by norm_num) (by norm_num [uEx]))

end jac

/-! ## C52, C73, C81 -/

example := C52_linear (ι := Fin 4) (xl := ![0, 0]) (xr := ![3, 4]) (fun e => by have := congrFun e 0; norm_num at this) uEx fun d v => (d : ℝ) + 2 * v
/-- a rotating gas at uniform temperature -/
example := C52_rigid air false ![3 / 5, 4 / 5] uEx uEx (g := fun d v => if d = 0 ∧ v = 2 then 5 else if d = 1 ∧ v = 1 then -5 else 0) (by simp) (by simp) (by simp) (by simp)
example := C52_tangential (xl := ![0, 0]) (xr := ![3, 4]) (fun v : Fin 4 => (v : ℝ)) (fun _ => 11) (fun _ _ => 1) (fun _ _ => 2) 2 (t := ![4, -3]) (by norm_num [dot])
example := C52_temperature_gradient air uEx (fun d v => (d : ℝ) + v) 1 (by norm_num [Gas.primOfCons, uEx])
example := C81_fourier air true false ![3 / 5, 4 / 5] ![0, 0] ![3, 4] (cl := uEx) (cr := uA) (fun d v => (d : ℝ) + v) (fun _ _ => 1) uEx uA (by norm_num [air]) (by norm_num [air])
  (by norm_num [uEx]) (by norm_num [uA])
example := C73_exact air ![3 / 5, 4 / 5] ![0, 0] ![3, 4] (ul := uEx) (ur := uA) (by norm_num [uEx]) (by unfold Gas.temperatureC Gas.temperature; rw [uEx_pressure]; norm_num [uEx, air])
  (by norm_num [air])
/-- a gas at the reference temperature -/
theorem uT1 : air.temperatureC ![2, 1, 3, 235/14] = 1 := by
  simp [Gas.temperatureC, Gas.temperature, Gas.pressure, Gas.pressureOfInternal, air, dot, mom]
  norm_num
example := C73_sutherland_partial air ![3 / 5, 4 / 5] ![0, 0] ![3, 4] (ul := ![2, 1, 3, 235/14]) (ur := ![2, 1, 3, 235/14]) (by norm_num) (by norm_num) (by norm_num [air]) uT1 uT1

/-! ## C87 -/

theorem box_adm : ∀ i, i < 4 → Adm air (Disc.boxState i) := fun i _ => Disc.boxState_adm i
/-- the square with slip walls all around -/
noncomputable def boxSlip : Disc := { Disc.boxDisc false .slip with bc := fun _ => some .slip }
example := Disc.C87_momentum (D := boxSlip) Disc.boxGeo_ok rfl (fun _ _ => rfl) rfl (u := Disc.boxState) box_adm fun _ => 0
example := Disc.C87_no_slip_flux air (by norm_num [air]) (u := uEx) (n := ![3 / 5, 4 / 5]) (by norm_num) Disc.uEx_adm .hllc
theorem box_area : ∀ i, i < (Disc.boxDisc false .slip).G.m.nelem → (Disc.boxDisc false .slip).G.ar i ≠ 0 := fun i _ => by
  simp [Disc.boxDisc, Disc.boxGeo, Geo.crossGeo]
/-- one step of the third-order scheme -/
example : ∃ u', rkStep 3 (fun w => (Disc.boxDisc false .slip).rhs ((Disc.boxDisc false .slip).residual1 w fun _ => 0)) (1 / 1000) Disc.boxState = some u' ∧
    (Disc.boxDisc false .slip).amount u' 0 = (Disc.boxDisc false .slip).amount Disc.boxState 0 := by
  obtain ⟨u', h⟩ : ∃ u', rkStep 3 (fun w => (Disc.boxDisc false .slip).rhs ((Disc.boxDisc false .slip).residual1 w fun _ => 0)) (1 / 1000) Disc.boxState = some u' :=
    ⟨_, C58_step (by norm_num) ..⟩
  refine ⟨u', h, Disc.C87_time_step (res := fun w => (Disc.boxDisc false .slip).residual1 w fun _ => 0) box_area (fun o ho => ?_) 3 (1 / 1000) h⟩
  obtain ⟨o', h1, h2, -⟩ := Disc.C87_first_order (D := Disc.boxDisc false .slip) Disc.boxGeo_ok (Disc.boxDisc_box false (Or.inl rfl)) (by norm_num [Disc.boxDisc, air])
    (fun i _ => Disc.boxState_adm i) fun _ => 0
  cases h1.symm.trans ho
  rw [h2]; simp [total]

/-! ## C99, C94, C104 -/

example := BC.C99_ghost units23 air uEx ![3 / 5, 4 / 5] (.isothermal 1 2) (fun _ h => by cases h)
example := BC.C99_outflow_refuted units23 air uA ![1, 0] (air.freestream 0) (by norm_num [units23]) (by norm_num [air]) (by norm_num [air]) (by norm_num [air]) (by rw [uA_mach]; norm_num)
  (by rw [uA_mach]; norm_num)
example := C99_face_flux units23 Disc.exDisc true (fun _ => uEx) (fun i d v => (i : ℝ) + d + v) (uL := fun _ => uEx) (uR := fun _ => uA) (ug := fun _ => uB)
  (uL' := fun _ => units23.st uEx) (uR' := fun _ => units23.st uA) (ug' := fun _ => units23.st uB) (k := 2) rfl rfl fun _ => rfl
example := C99_fluxes units23 Disc.exDisc true (fun _ => uEx) (fun i d v => (i : ℝ) + d + v) (uL := fun _ => uEx) (uR := fun _ => uA) (ug := fun _ => uB)
  (uL' := fun _ => units23.st uEx) (uR' := fun _ => units23.st uA) (ug' := fun _ => units23.st uB) (fun _ _ => rfl) (fun _ _ => rfl) fun _ _ => rfl
example := C99_time_steps units23 Disc.exDisc exGeo_ok (uL := fun _ => uEx) (uR := fun _ => uA) (uL' := fun _ => units23.st uEx) (uR' := fun _ => units23.st uA)
  (fun _ _ => rfl) (fun _ _ => rfl) (i := 1) (by show 1 < 2; decide)
example := C99_gradients Disc.exDisc ![2, 6, 6, 18] .wls (u := fun _ => uEx) (ug := fun _ => uA) (ug' := fun _ v => ![2, 6, 6, 18] v * uA v) (fun _ _ => rfl) fun _ _ => 1
example := C99_iteration units23 pairD pairD_ok (fun k _ ui h => by cases h) pairU 1

example := C94_viscous_flux turn345 air (air.Reinf / 2) rfl true false ![3 / 5, 4 / 5] ![0, 0] ![3, 4] uEx uA (fun d v => (d : ℝ) + v) (fun _ _ => 1) uEx uA
example := C19_every_state (c := 3 / 5) (s := 4 / 5) (by norm_num) air uEx uA ![3 / 5, 4 / 5] .ausmPlus
/-- viscous flow between hot walls, on the turned, scaled and shifted mesh -/
noncomputable def hotP : Settings := ⟨air, .roe, true, false, fun _ => some (.isothermal 1 2)⟩
noncomputable def hotD : Disc := hotP.disc pair pairS 0
noncomputable def hotD' : Disc := (turn345.settings hotP (air.Reinf / 2)).disc (turn345.mesh pair) pairS 0
theorem hot_ok : hotD.G.Ok := ⟨pair_conforming, pair_nozero, pairS_ok⟩
theorem hot_moved : Moved turn345 hotD hotD' :=
  (C94_setup turn345 pair_conforming pair_nozero pairS_ok hotP (re := air.Reinf / 2) (fun _ => rfl) (ghost := 0) (ghost' := 0) (fun _ h => absurd h (Nat.not_lt_zero _))).2

example := hot_moved.C94_gradients hot_ok (u := fun _ => uEx) (u' := fun _ => turn345.st uEx) (ug := fun _ => uA) (ug' := fun _ => turn345.st uA) (fun _ _ => rfl) (fun _ _ => rfl) .wls
  (old := fun _ _ _ => 1) (old' := fun _ => turn345.gr fun _ _ => 1) (fun _ _ _ => rfl) (i := 1) (by show 1 < 2; decide)
example := hot_moved.C94_greenGauss hot_ok (u := fun _ => uEx) (u' := fun _ => turn345.st uEx) (ug := fun _ => uA) (ug' := fun _ => turn345.st uA) (fun _ _ => rfl) (fun _ _ => rfl) (i := 1)
example := hot_moved.C94_wls hot_ok (u := fun _ => uEx) (u' := fun _ => turn345.st uEx) (ug := fun _ => uA) (ug' := fun _ => turn345.st uA) (fun _ _ => rfl) (fun _ _ => rfl) (i := 1)
example := hot_moved.C94_face_flux hot_ok true (u := fun _ => uEx) (u' := fun _ => turn345.st uEx) (g := fun _ _ _ => 1) (g' := fun _ => turn345.gr fun _ _ => 1)
  (uL := fun _ => uEx) (uL' := fun _ => turn345.st uEx) (uR := fun _ => uB) (uR' := fun _ => turn345.st uB) (ug := fun _ => uA) (ug' := fun _ => turn345.st uA)
  (fun _ _ => rfl) (fun _ _ => rfl) (fun _ _ => rfl) (fun _ _ => rfl) (fun _ _ => rfl) (k := 6) (by
    show 6 < pairS.faces.length; rw [show pairS.faces = _ from pair_topological.choose_spec.2]; decide)
example := hot_moved.C94_fluxes hot_ok true (u := fun _ => uEx) (u' := fun _ => turn345.st uEx) (g := fun _ _ _ => 1) (g' := fun _ => turn345.gr fun _ _ => 1)
  (uL := fun _ => uEx) (uL' := fun _ => turn345.st uEx) (uR := fun _ => uB) (uR' := fun _ => turn345.st uB) (ug := fun _ => uA) (ug' := fun _ => turn345.st uA)
  (fun _ _ => rfl) (fun _ _ => rfl) (fun _ _ => rfl) (fun _ _ => rfl) (fun _ _ => rfl) (r := fun _ => uA) (r' := fun _ => Similarity.scl turn345 uA) (i := 1) rfl
example := hot_moved.C94_time_steps hot_ok (uL := fun _ => uEx) (uL' := fun _ => turn345.st uEx) (uR := fun _ => uB) (uR' := fun _ => turn345.st uB)
  (fun _ _ => rfl) (fun _ _ => rfl) (i := 1) (by show 1 < 2; decide)
example := C94_iteration hot_moved hot_ok rfl (u := pairU) (u' := fun i => turn345.st (pairU i)) (fun _ _ => rfl) (1 / 2)
example : ∃ k out, Solve forwardEuler (single hotD) ⟨1 / 2, 10, 1, 5⟩ pairU k out ∧ Solve forwardEuler (single hotD') ⟨1 / 2, 10, 1, 5⟩ (fun i => turn345.st (pairU i)) k out := by
  obtain ⟨⟨k, out, h⟩, -⟩ := C56_terminates forwardEuler (single hotD) ⟨1 / 2, 10, 1, 5⟩ pairU
  exact ⟨k, out, h, (C94_run hot_moved hot_ok rfl (fun _ _ => rfl) h).1⟩
example := C94_second_cfl (Or.inl rfl) (P := halving) (c := ⟨1 / 2, 10, 1, 5⟩) (u := 1 / 4) (by norm_num) (by norm_num) (r0 := 1 / 4) (r1 := 1 / 8) (by norm_num) (by norm_num [halving, abs_of_pos])
  (by norm_num [halving, abs_of_pos]) 4 4

/-- the gas in the chart `askew` -/
noncomputable def airSkew : Gas := { air with Minf := air.Minf / 3, Reinf := air.Reinf / 12 }
theorem airSkew_im : askew.GasIm air airSkew := ⟨rfl, by simp [askew, airSkew]; ring, rfl, rfl⟩
example := askew.C104_ghost airSkew_im (o := .slip) (f := BC.slipJ) rfl
theorem cd34 : cdist ![0, 0] ![3, 4] = 5 := by
  rw [show (5 : ℝ) = √(5 ^ 2) by rw [Real.sqrt_sq]; norm_num]; norm_num [cdist]
theorem cd10 : cdist ![0, 0] ![10, 0] = 10 := by
  rw [show (10 : ℝ) = √(10 ^ 2) by rw [Real.sqrt_sq]; norm_num]; norm_num [cdist]
example := askew.C104_viscous (L := 2) airSkew_im (by simp [airSkew, askew]; norm_num) (by norm_num) false (ul := uEx) (ur := uA) (by norm_num [uEx]) (by norm_num [uA]) ![3 / 5, 4 / 5]
  (x := ![0, 0]) (y := ![3, 4]) (x' := ![0, 0]) (y' := ![10, 0]) (by rw [cd34, cd10]; norm_num)
  (by funext d; fin_cases d <;> simp [cdir, cd34, cd10, Chart.dir, askew] <;> norm_num)

end FVENS.Cases
