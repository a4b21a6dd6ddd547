import Verif.Par.Converge
import Verif.Cases.ParRun

/-!
# Applications of the theorems on continuity and convergence

The theorems of C113 and C114 at concrete meshes, states and runs.
-/

namespace FVENS.Cases

open Msh FV Flux Ode Lin Par Filter Topology

/-! ## C113 -/

theorem out_gas (sch : Scheme) : (outS sch).GasOk := ⟨by show 0 < air.Pr; norm_num [air], by show 0 < air.Minf; norm_num [air], by show 0 < air.Tinf; norm_num [air],
  by show 0 < air.Reinf; norm_num [air]⟩
/-- Two squares of different air, extrapolated at the boundary. -/
theorem out_regular (sch : Scheme) : Tame (outS sch) (two uA uB) :=
  ⟨fun i _ => two_adm adm_uA adm_uB i, fun _ _ => two_adm adm_uA adm_uB _, fun _ _ => continuousAt_id⟩
example := C113_residual (outS_ok .hllc) (out_gas _) (fun _ => out_g _) (fun _ _ => rfl) (out_regular .hllc) 0
example := C113_timestep (outS_ok .roe) (out_gas _) (fun _ _ => rfl) (out_regular .roe) (i := 1) (by decide +kernel) (out_ar 1 (by decide +kernel)) 0
example := C113_update (outS_ok .vanLeer) (out_gas _) (fun h => by cases h) (fun _ _ => rfl) (out_regular .vanLeer) out_ar (1 / 2)

/-! ## C114 -/

noncomputable def windS (sch : Scheme) : Disc := (wind sch).disc pair pairS 0
theorem windS_ok (sch : Scheme) : (windS sch).G.Ok := ⟨pair_conforming, pair_nozero, pairS_ok⟩
theorem windS_g (sch : Scheme) : 4 ≤ 3 * (windS sch).gas.g := by show 4 ≤ 3 * air.g; norm_num [air]
noncomputable def gust : ℕ → St := two (carried air ![1 / 4, 0] (5 / 7) 1) (carried air ![1 / 4, 0] (5 / 7) 4)
noncomputable def calm : ℕ → St := fun _ => carried air ![1 / 4, 0] (5 / 7) 2
theorem gust_run (sch : Scheme) (h1 : sch ≠ .vanLeer) (h2 : sch ≠ .ausm) :
    ∃ q : ℕ → ℕ → St, (∀ j, StateAt forwardEuler (single (windS sch)) ⟨1 / 1000, 1, 1, 1⟩ gust j (q j)) ∧
      ∀ i, Tendsto (fun j => q j i) atTop (𝓝 (final (windS sch) ![1 / 4, 0] (5 / 7) 2 gust i)) := by
  obtain ⟨q, q1, -, -, q2⟩ := C114_converges (D := windS sch) (c := ⟨1 / 1000, 1, 1, 1⟩) (windS_ok sch) rfl (windS_g sch) h1 h2 (by norm_num) one_pos (by norm_num) (by norm_num)
    (Or.inr (Or.inr (by norm_num))) (wind_bcs _ sch) rfl (wind_ar _ sch) (wind_swept _ sch) one_pos le_rfl (wind_in _ sch)
  refine ⟨q, q1, fun i => ?_⟩
  unfold final
  split_ifs with hi
  · exact q2 i hi
  · have : ∀ j, q j i = gust i := fun j => by
      induction j with
      | zero =>
        obtain ⟨m, m1, m2⟩ := q1 0
        cases m1
        rw [← m2]; rfl
      | succ j ih =>
        rw [traj_upd q1 j, ← ih]
        obtain ⟨o, ho⟩ : ∃ o, (windS sch).residual1 (q j) 0 = some o := ⟨_, by unfold Disc.residual1; rw [if_pos (show (windS sch).BcOk from (wind_bcs pairS sch).ok)]⟩
        rw [single_upd ho]
        unfold euler
        rw [if_neg hi]
    simp only [this]
    exact tendsto_const_nhds
theorem gust_regular (sch : Scheme) : Tame (windS sch) (final (windS sch) ![1 / 4, 0] (5 / 7) 2 gust) :=
  final_regular (windS_ok sch) (by show 1 < air.g; norm_num [air]) (by norm_num) (by norm_num) (wind_bcs _ sch) rfl gust
example := C113_limit_steady (windS_ok .roe) (wind_gas _ _) (fun _ => windS_g _) (wind_bcs _ .roe).ok (gust_regular .roe) (wind_ar _ .roe) one_ne_zero
  (gust_run .roe (by decide) (by decide)).choose_spec.1 (gust_run .roe (by decide) (by decide)).choose_spec.2
example := C113_reported (windS_ok .roe) (wind_gas _ _) (fun _ => windS_g _) (wind_bcs _ .roe).ok (gust_regular .roe) (wind_ar _ .roe) one_ne_zero (by norm_num) (by norm_num)
  (gust_run .roe (by decide) (by decide)).choose_spec.1 (gust_run .roe (by decide) (by decide)).choose_spec.2
theorem calm_steady : IsSteady (windS .llf) calm :=
  (C95_free_stream (windS_ok .llf) (c := carried air ![1 / 4, 0] (5 / 7) 2) (carried_adm (by show 1 < air.g; norm_num [air]) (by norm_num) (by norm_num)) (fun _ _ => rfl) (fun _ _ => rfl)).1
example := C114_unique (D := windS .llf) (windS_ok .llf) rfl (windS_g _) (by decide) (by decide) (by norm_num) one_pos (b := 4) (by norm_num) (by norm_num)
    (Or.inr (Or.inr (by norm_num))) (wind_bcs _ .llf) rfl (wind_ar _ .llf) (wind_swept _ .llf) (u := calm) (fun _ _ => ⟨2, by norm_num, by norm_num, rfl⟩) calm_steady

/-- Four triangles in the stream. -/
noncomputable def crossWind : Disc := (wind .hllc).disc FV.Geo.cross crS 0
theorem cw_in {i f : ℕ} (hi : i < 4) (hf : f < 3) (h : nodeB FV.Geo.cross i f 1 < nodeA FV.Geo.cross i f 1) : outward crossWind ![1 / 4, 0] i f < 0 := by
  have hl : 0 < fLen (nodeA FV.Geo.cross i f) (nodeB FV.Geo.cross i f) := fLen_pos (FV.Geo.cross_nozero (i, f) ⟨hi, hf⟩)
  show ![1 / 4, 0] 0 * ((nodeB FV.Geo.cross i f 1 - nodeA FV.Geo.cross i f 1) / fLen (nodeA FV.Geo.cross i f) (nodeB FV.Geo.cross i f)) + ![1 / 4, 0] 1 * _ < (0 : ℝ)
  have := div_neg_of_neg_of_pos (sub_neg.2 h) hl
  simp
  linarith
theorem cw3 : Swept crossWind ![1 / 4, 0] (carried air ![1 / 4, 0] (5 / 7) 2) 3 :=
  Swept.inflow (f := 0) (k := 3) (show 3 < 4 by omega) (show 0 < 3 by omega) (⟨by decide +kernel, by decide +kernel, by decide +kernel⟩ : Across FV.Geo.cross (3, 0) (.bnd 3))
    (cw_in (by omega) (by omega) (by norm_num [nodeA, nodeB, FV.Geo.cross, triMesh])) (Or.inl rfl)
theorem cw0 : Swept crossWind ![1 / 4, 0] (carried air ![1 / 4, 0] (5 / 7) 2) 0 :=
  Swept.cell (f := 2) (j := 3) (show 0 < 4 by omega) (show 2 < 3 by omega) (⟨1, cross_glued03⟩ : Across FV.Geo.cross (0, 2) (.cell 3))
    (cw_in (by omega) (by omega) (by norm_num [nodeA, nodeB, FV.Geo.cross, triMesh])) cw3
theorem cw2 : Swept crossWind ![1 / 4, 0] (carried air ![1 / 4, 0] (5 / 7) 2) 2 :=
  Swept.cell (f := 1) (j := 3) (show 2 < 4 by omega) (show 1 < 3 by omega)
    (⟨2, ⟨by decide +kernel, by decide +kernel⟩, ⟨by decide +kernel, by decide +kernel⟩, by simp, by decide +kernel⟩ : Across FV.Geo.cross (2, 1) (.cell 3))
    (cw_in (by omega) (by omega) (by norm_num [nodeA, nodeB, FV.Geo.cross, triMesh])) cw3
theorem cw1 : Swept crossWind ![1 / 4, 0] (carried air ![1 / 4, 0] (5 / 7) 2) 1 :=
  Swept.cell (f := 1) (j := 2) (show 1 < 4 by omega) (show 1 < 3 by omega)
    (⟨2, ⟨by decide +kernel, by decide +kernel⟩, ⟨by decide +kernel, by decide +kernel⟩, by simp, by decide +kernel⟩ : Across FV.Geo.cross (1, 1) (.cell 2))
    (cw_in (by omega) (by omega) (by norm_num [nodeA, nodeB, FV.Geo.cross, triMesh])) cw2
theorem cw (i : ℕ) (hi : i < 4) : Swept crossWind ![1 / 4, 0] (carried air ![1 / 4, 0] (5 / 7) 2) i := by
  obtain rfl | rfl | rfl | rfl : i = 0 ∨ i = 1 ∨ i = 2 ∨ i = 3 := by omega
  exacts [cw0, cw1, cw2, cw3]
theorem cw_gas : crossWind.GasOk := ⟨by show 0 < air.Pr; norm_num [air], by show 0 < air.Minf; norm_num [air], by show 0 < air.Tinf; norm_num [air],
  by show 0 < air.Reinf; norm_num [air]⟩
noncomputable def puff : ℕ → St := fun i => carried air ![1 / 4, 0] (5 / 7) (if i = 2 then 40 else 1)
theorem puff_in : InStream crossWind ![1 / 4, 0] (5 / 7) 1 40 puff := fun i _ => by
  refine ⟨if i = 2 then 40 else 1, ?_, ?_, rfl⟩ <;> split_ifs <;> norm_num
example := C114_several cross_conforming rfl cr_tags crS_ok FV.Geo.cross_nozero (cross_all crS_ok fun i => i / 2) (n := 2) half_lt half_mono (wind .hllc) rfl
  cw_gas (by decide) (by decide)
  (w := ![1 / 4, 0]) (p := 5 / 7) (a := 1) (b := 40) (ρ := 2) (by norm_num) one_pos (by norm_num) (by norm_num) (Or.inl rfl) (fun _ _ => ⟨_, rfl, 2, le_rfl, le_rfl, rfl⟩)
  (by show 4 ≤ 3 * air.g; norm_num [air]) cr_ar cw (u := puff) puff_in (split_represents _ _ _ puff) (c := ⟨1 / 1000, 10, 1, 1⟩) one_pos le_rfl (by norm_num) (by norm_num)

end FVENS.Cases
