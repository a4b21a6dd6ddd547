import Verif.Ctl.Monitor
import Verif.Ctl.Options
import Verif.Lin.Handles
import Verif.Lin.Matrix
import Verif.Lin.Precond
import Verif.Ode.History
import Verif.Ode.Rk

/-!
Concrete cases of the theorems on time stepping, linear algebra and program control (`Ode/*`, `Lin/*`, `Ctl/*`).
`halving` is a problem whose residual norm is halved by every update.
-/

namespace FVENS.Cases

open FVENS Ode

/-- tolerance 0.01, at most 100 iterations, CFL numbers from 1 to 10 -/
noncomputable def conf : Conf := ⟨0.01, 100, 1, 10⟩
theorem half_hist (k : Kind) (n : ℕ) : Hist k halving conf 1 n fun j => (1 / 2) ^ j := fun j _ => halving_hist k _ j
theorem be : IsSteady backwardEuler := Or.inr rfl
theorem fe : IsSteady forwardEuler := Or.inl rfl

/-! ## C103 -/

example : ∃ a, Reported backwardEuler halving conf 1 5 a ∧ 1 ≤ a ∧ a ≤ 10 := by
  obtain ⟨a, ha⟩ := reported_exists (half_hist backwardEuler 6)
  exact ⟨a, ha, C103_bounds damped_limits ha⟩
example : Reported forwardEuler halving conf 1 0 1 := by
  obtain ⟨a, ha⟩ := reported_exists (half_hist forwardEuler 1)
  obtain rfl : a = 1 := C103_first fe damped_limits ha
  exact ha
example : Reported backwardEuler halving conf 1 1 (clamp 1 10 (1 * gain 0.25 0.3 1 1)) := by
  obtain ⟨a, ha⟩ := reported_exists (half_hist backwardEuler 2)
  have := C103_second be damped_limits (half_hist backwardEuler 1) (by norm_num) ha
  have e : a = clamp 1 10 (1 * gain 0.25 0.3 1 1) := by rw [this]; simp [backwardEuler]
  exact e ▸ ha
example : ∃ a b, Reported backwardEuler halving conf 1 2 a ∧ Reported backwardEuler halving conf 1 3 b ∧
    b = clamp 1 10 (a * gain backwardEuler.up backwardEuler.down ((1 / 2) ^ 1) ((1 / 2) ^ 2)) := by
  obtain ⟨a, ha⟩ := reported_exists (half_hist backwardEuler 3)
  obtain ⟨b, hb⟩ := reported_exists (half_hist backwardEuler 4)
  exact ⟨a, b, ha, hb, C103_later damped_limits (n := 1) (half_hist backwardEuler 3) (by norm_num) ha hb⟩
/-- after five halvings the CFL number has grown by 16 to the power 1/4 -/
example : ∃ a, Reported backwardEuler halving conf 1 5 a ∧ a = 2 := by
  obtain ⟨a, ha⟩ := reported_exists (half_hist backwardEuler 6)
  refine ⟨a, ha, ?_⟩
  rw [C103_falling be damped_limits (n := 4) (half_hist backwardEuler 5) (fun j _ => by positivity) (fun j _ => by
    rw [pow_succ]; have : (0 : ℝ) ≤ (1 / 2) ^ j := by positivity
    linarith) ha]
  have h : (16 : ℝ) ^ (0.25 : ℝ) = 2 := by
    rw [show (16 : ℝ) = 2 ^ (4 : ℝ) by norm_num, ← Real.rpow_mul (by norm_num)]; norm_num
  have : (max 1 ((1 / 2 : ℝ) ^ 0) / (1 / 2) ^ 4) ^ backwardEuler.up = 2 := by
    rw [← h]; norm_num [backwardEuler]
  rw [this]
  norm_num [conf]
theorem damped_hist (s : ℝ) (hs : 0 < s) : Hist backwardEuler (damped s hs) conf 1 1 fun _ => s := by
  intro j hj
  obtain rfl : j = 0 := by omega
  simp [hist, traj, init, damped]
example : Hist backwardEuler (damped 8 (by norm_num)) conf (id 1) 1 fun _ => 8 / 4 * 4 :=
  (C103_scaling_partial be damped_limits (damped_rescaled 4 8 (by norm_num) (by norm_num)) (damped_hist 4 (by norm_num)) (fun _ _ => by norm_num)
    (by norm_num) (by norm_num)).1

/-! ## C54, C55 -/

example := C54_exp_bounds (lo := 1) (hi := 100) (by norm_num) 5 16 (1 / 4) (3 / 10)
example := C54_exp_ratio_monotone (lo := 1) (hi := 100) (prev := 5) (up := 1 / 4) (down := 3 / 10) (by norm_num) (by norm_num) (by norm_num) (by norm_num)
  (x := 2) (y := 16) (by norm_num) (by norm_num)
example := C54_linear_monotone (a := 1) (b := 10) (by norm_num) 30 100

theorem min_ok : MinOk (1 / 10) := by unfold MinOk; norm_num
/-- gas at rest losing density and energy -/
noncomputable def rest : St := ![1, 0, 0, 5 / 2]
noncomputable def drest : St := ![-19/100, 0, 0, -1/4]
theorem rest_p : air.pressure rest = 1 := by simp [Gas.pressure, Gas.pressureOfInternal, air, dot, mom, rest]; norm_num
theorem rest_d : air.deltaPressure rest drest = -(1 / 10) := by simp [Gas.deltaPressure, Gas.deltaPTerm, air, rest, drest]; norm_num

example := C55_range_density (G := air) min_ok (u := rest) (du := drest) (by simp [rest])
example : 0 < air.pressure fun i => rest i + relaxFactor air (1 / 10) drest rest * drest i := by
  refine C55_pressure_partial (by norm_num [air]) min_ok (by simp [rest]) (by rw [rest_p]; norm_num) ?_ ?_
  · rw [rest_d, rest_p]
    simp [Gas.pressure, Gas.pressureOfInternal, air, dot, mom, rest, drest]; norm_num
  · unfold relaxFactor
    rw [rest_p, rest_d]
    simp only [rest, drest, Matrix.cons_val_zero, abs_neg]
    rw [show |(1/10 : ℝ)| / 1 = 1/10 by norm_num [abs_of_pos], show |(-19/100 : ℝ)| / 1 = 19/100 by norm_num [abs_of_neg]]
    norm_num

/-! ## C56, C57 -/

/-- `halving` meets the tolerance 0.3 in the third iteration -/
theorem half_ok (k : Kind) (hk : IsSteady k) : Solve k halving ⟨0.3, 10, 1, 10⟩ 1 3 .ok := by
  have h : ∀ z, Ends k halving ⟨0.3, 10, 1, 10⟩ 1 z 3 .ok := fun z => by
    refine .met (n := 2) (r := fun n => (1 / 2) ^ n) (by norm_num) (fun j _ => halving_hist k _ j) (fun j hj => ?_) (by norm_num [Met]) (by norm_num)
    rcases (by omega : j = 0 ∨ j = 1) with rfl | rfl <;> norm_num [Met]
  rcases hk with rfl | rfl
  · exact (C56_outcome halving (by norm_num) (by norm_num) (by norm_num) 1 3 .ok).1.2 (h _)
  · exact (C56_outcome halving (by norm_num) (by norm_num) (by norm_num) 1 3 .ok).2.2 (h _)
/-- three iterations do not suffice for 0.1 -/
theorem half_fail (k : Kind) (hk : IsSteady k) : Solve k halving ⟨0.1, 3, 1, 10⟩ 1 3 .tolErr := by
  have h : ∀ z, Ends k halving ⟨0.1, 3, 1, 10⟩ 1 z 3 .tolErr := fun z => by
    refine .exhausted (n := 2) (r := fun n => (1 / 2) ^ n) (by norm_num) (fun j _ => halving_hist k _ j) (fun j hj => ?_)
    rcases (by omega : j = 0 ∨ j = 1) with rfl | rfl <;> norm_num [Met]
  rcases hk with rfl | rfl
  · exact (C56_outcome halving (by norm_num) (by norm_num) (by norm_num) 1 3 _).1.2 (h _)
  · exact (C56_outcome halving (by norm_num) (by norm_num) (by norm_num) 1 3 _).2.2 (h _)

example := C56_success halving (by norm_num) (by norm_num) (by norm_num) be (half_ok _ be)
example := C56_failure_partial halving (by norm_num) (by norm_num) (by norm_num) be (half_fail _ be)
example := C56_last_iteration_refuted backwardEuler be
example := C56_zero_residual_refuted (P := halving) (c := conf) (u := 0) (by norm_num [conf]) (by norm_num [conf]) (by norm_num [conf]) (by simp [halving])
example := C56_tolerance_one halving (c := ⟨2, 10, 1, 10⟩) (by norm_num) (by norm_num) fe 1
example : ∃ a b, LogEntry backwardEuler halving conf 1 4 a b ∧ a = b := by
  obtain ⟨a, b, h⟩ := reported_exists (half_hist backwardEuler 5)
  exact ⟨a, b, h, C57_implicit h⟩
example : ∃ a, LogEntry forwardEuler halving conf 1 4 a 1 := by
  obtain ⟨a, b, h⟩ := reported_exists (half_hist forwardEuler 5)
  obtain rfl : b = 1 := (C57_explicit_partial h).1
  exact ⟨a, h⟩

/-! ## C58: the equation u' = u -/

example := C58_refuted (q := 2) (Or.inr (Or.inl rfl)) (h := 1 / 10) (by norm_num)
example := C58_consistent_iff (W := ℝ) (q := 2) (Or.inr rfl) (fun x => x) 1
example : ∃ n t, Loop (tcond 1) (tbody 2 (fun x : ℝ => x) (fun _ => 1) (1/2)) ⟨1, 0⟩ n (some t) ∧ 1 - 1e-12 < t.time := by
  obtain ⟨n, t, h⟩ : ∃ n t, Loop (tcond 1) (tbody 2 (fun x : ℝ => x) (fun _ => 1) (1/2)) ⟨1, 0⟩ n (some t) :=
    C58_time_loop_ends (by norm_num) _ one_pos (fun _ => le_rfl) (by norm_num) _ _
  exact ⟨n, t, h, (C58_end_time h).1⟩
example := C58_order_zero_diverges (V := ℝ) (fun x => x) (fun _ => 1) (1 / 2) (T := 1) (s := ⟨1, 0⟩) (by norm_num)

/-! ## C59–C62, C106 -/

open Lin FV

/-- two cells numbered 3 and 4, four variables, on two and three threads -/
example : ∃ (A : ℕ × ℕ → Blk (Fin 4)) (B : ℕ × ℕ → ℝ), ParLoop 2 (fun _ _ _ => 0) (List.range 2) (pseudoUpds (· + 3) fun i => i + 1) A ∧
    ParLoop 3 (fun _ => 0) (List.range 2) (pseudoUpdsSlow 4 (· + 3) fun i => i + 1) B ∧ ∀ a b (i j : Fin 4), B (a * 4 + i, b * 4 + j) = A (a, b) i j := by
  obtain ⟨A, hA, -⟩ := parLoop_exists (n := 2) (by norm_num) (fun _ _ _ => (0 : ℝ)) (List.range 2) (pseudoUpds (nv := 4) (· + 3) fun i => i + 1)
  obtain ⟨B, hB, -⟩ := parLoop_exists (n := 3) (by norm_num) (fun _ => (0 : ℝ)) (List.range 2) (pseudoUpdsSlow 4 (· + 3) fun i => i + 1)
  exact ⟨A, B, hA, hB, C59_variants_agree _ (fun _ _ _ _ => rfl) hA hB⟩

example := C60_ghost_iff (fun v : Fin 2 → ℝ => v) (eps := 1 / 10) (by norm_num) ![1, 2] ![3, 4] ![1, 0] ![5, 5] (x := ![3, 4])
  (fun h => by have := congrFun h 0; norm_num at this)
example := C60_limit (ι := Fin 2) (r := fun v => v) (u := ![1, 2]) (hasFDerivAt_id _) ![5, 5] (x := ![3, 4]) (fun h => by have := congrFun h 0; norm_num at this)

theorem isle_num : (∀ i j, i < Geo.isleGeo.m.nelem → j < Geo.isleGeo.m.nelem → id i = id j → i = j) ∧
    ∀ i c, i < Geo.isleGeo.m.nelem → c < Geo.isleGeo.m.nconnface → id i ≠ Geo.isleGeo.m.connface c 3 := by
  refine ⟨fun _ _ _ _ h => h, fun i c hi hc => ?_⟩
  have h1 : i < 4 := hi
  show i ≠ 20 + c
  omega

example := C61_diagonal Geo.isleGeo_ok true id (fun _ => isle_num) (i := 2) (by show 2 < 4; decide)
example := C61_offdiagonal_iff Geo.isleGeo_ok id isle_num (i := 2) (by show 2 < 4; decide)

/-- vector 5 attached to handle 0, vector 6 to handle 1; handle 0 released -/
example : ∃ w, Lin.run true Lin.empty [.createWith 0 5 .ok, .create 1, .setVec 1 6 .ok, .restore 0] = some w ∧ w.getArray 1 = some 6 ∧
    follow true Phase.idle (w.tr 1) = some (.full 6) ∧ Lin.step true w (.setVec 1 7 .ok) = some w := by
  have h : Lin.run true Lin.empty [.createWith 0 5 .ok, .create 1, .setVec 1 6 .ok, .restore 0] = some _ := rfl
  refine ⟨_, h, rfl, ?_, C62_second_vector true _ 1 7 .ok rfl rfl⟩
  obtain ⟨p, h1, h2, -⟩ := C62_balanced_partial true _ (by simp [Clean]) _ h 1
  obtain rfl := (h2 6).1 rfl
  exact h1

example := C106_finds (name := "ilu") (p := .ksp 0 (.mg true 1 [.blocks false 2 [.other "ilu" 3], .blocks true 4 [.other "ilu" 5]]))
  (by simp [OneBlock, OneBlocks]) none

/-! ## C64, C66, C105 -/

open Ctl

noncomputable def docO (ini : Bool) : Opts := (docAccepted ini).choose
theorem docO_ok (ini : Bool) : parse docConv none (docTree ini) = some (docO ini, (docAccepted ini).choose_spec.choose) :=
  (docAccepted ini).choose_spec.choose_spec

example := C64_defaults (docO_ok true)
example := C64_documented_partial (docO_ok true)
example := C64_undefined_iff (docO_ok false) (f := .usestarter) (by decide)

example := C66_run_failure true (.out .ok) .tolErr (by simp) rfl
example := C66_run_converged halving (by norm_num) (by norm_num) be (half_ok _ be) (use := true) (s := .out .ok) rfl

theorem half_td (log : Bool) : ∃ td, SolveTd log backwardEuler halving ⟨0.3, 10, 1, 10⟩ 1 3 .ok td := td_exists log (half_ok _ be)

example := C105_ends (by norm_num) (by norm_num) be (half_td true).choose_spec (use := true) (s := .out .ok) rfl (by rw [halving_hist]; norm_num)
example := C105_lost_refuted backwardEuler be
example := C105_safe (half_td false).choose_spec (use := true) (s := .out .ok) 0 (by decide)
example := C105_unsafe_iff (half_td false).choose_spec (outhist := true) (by norm_num) (use := true) (s := .out .ok) rfl 0
example := C105_written_partial (half_td true).choose_spec (use := true) (s := .out .ok) 0

end FVENS.Cases
