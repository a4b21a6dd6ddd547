import Verif.Par.ChartInst

/-!
# Implicit runs and the unit of length; concrete cases (C104)
-/

namespace FVENS

open Msh Flux FV FV.Disc Par Ode

/-- C104 is false of runs whose CFL number may grow: for every mesh, gas, set of boundary conditions, initial state with a positive residual norm, exact linear solvers and full updates
there are two units of length such that the implicit solver's second update uses the initial CFL number in one and a larger number in the other. -/
theorem C104_cfl_refuted {m : Mesh} {s : FState} (hc : Conforming m) (hz : NoZeroFace m) (ht : topological m = .ok s) (hn0 : m.nconnface = 0) (P : Settings)
    {J : Gas → St → St → V2 → FJ} (hJ : ∀ (χ : Chart) (G' : Gas), G'.g = P.gas.g → χ.FamIm P.gas (J P.gas) (J G')) (hb : (P.disc m s 0).BcJOk)
    {ksp : (ℕ × ℕ → Blk (Fin 4)) → (ℕ → St) → ℕ → St} (hk : Exact m.nelem ksp) {w : ℕ → St} (hg : GoodAt (P.disc m s 0) w) {c : Conf} (h0 : 0 < c.cflinit) (h1 : c.cflinit < c.cflfin)
    (hreg : ∀ o, (P.disc m s 0).residual1 w 0 = some o → Regular m.nelem (sysOne (P.disc m s 0) (J P.gas) w o c.cflinit))
    {r0 r1 : ℝ} (hr : 0 < r0) (hn : (implicit (P.disc m s 0) (J P.gas) (fun _ _ => 1) ksp).norm w = some r0)
    (hn' : (implicit (P.disc m s 0) (J P.gas) (fun _ _ => 1) ksp).norm ((implicit (P.disc m s 0) (J P.gas) (fun _ _ => 1) ksp).upd c.cflinit w) = some r1) :
    ∃ T T' : Similarity, T.c = 1 ∧ T'.c = 1 ∧ ∃ a, c.cflinit < a ∧
      LogEntry backwardEuler (implicit ((T.settings P (P.gas.Reinf / T.L)).disc (T.mesh m) s 0) (J (T.settings P (P.gas.Reinf / T.L)).gas) (fun _ _ => 1) ksp) c
        (fun i => T.st (w i)) 1 c.cflinit c.cflinit ∧
      LogEntry backwardEuler (implicit ((T'.settings P (P.gas.Reinf / T'.L)).disc (T'.mesh m) s 0) (J (T'.settings P (P.gas.Reinf / T'.L)).gas) (fun _ _ => 1) ksp) c
        (fun i => T'.st (w i)) 1 a a := by
  have hsq := Real.sqrt_pos.2 hr
  have hss : Real.sqrt r0 * Real.sqrt r0 = r0 := Real.mul_self_sqrt hr.le
  have key : ∀ T : Similarity, ∀ a b, LogEntry backwardEuler (implicit ((T.settings P (P.gas.Reinf / T.L)).disc (T.mesh m) s 0) (J (T.settings P (P.gas.Reinf / T.L)).gas)
      (fun _ _ => 1) ksp) c (fun i => T.st (w i)) 1 a b ↔
      a = (if T.L ^ 2 * r0 < 1 then min c.cflfin (c.cflinit * (1 / (T.L ^ 2 * r0)) ^ (0.25 : ℝ)) else c.cflinit) ∧ b = a := fun T a b => by
    have hm := (C94_setup T hc hz ht P (re := P.gas.Reinf / T.L) (fun _ => rfl) (ghost := 0) (ghost' := 0) (fun ic h => by omega)).2
    have hok : (P.disc m s 0).G.Ok := ⟨hc, hz, ht⟩
    have hst : ∀ f : ℕ → St, (fun i => T.chart.st (f i)) = fun i => T.st (f i) := fun f => funext fun i => T.chart_st _
    have hκ : T.chart.a * T.chart.b ^ 3 * T.L ^ 2 = T.L ^ 2 := by simp [Similarity.chart]
    have hch := hm.charted hok
    have hbk := bcOk_of_jOk hb
    have i1 := hch.C104_iteration hok hn0 (hJ T.chart (T.settings P (P.gas.Reinf / T.L)).gas rfl) hb (relax := fun _ _ => 1) (relax' := fun _ _ => 1) hk hk
      (hm.resIm hok hbk w) hg fun _ _ _ => rfl
    have i2 := i1.2 c.cflinit hreg
    have i3 := hch.norm_im (hm.resIm hok hbk ((implicit (P.disc m s 0) (J P.gas) (fun _ _ => 1) ksp).upd c.cflinit w))
    simp only [hst, hκ, solverI_first, solver_first] at i1 i2 i3
    refine C94_second_cfl (.inr rfl) h0 h1 (mul_pos (pow_pos T.pos 2) hr) (by rw [i1.1, hn]; rfl) (r1 := T.L ^ 2 * r1) ?_ a b
    rw [i2]
    simp only [implicit] at hn' ⊢
    rw [if_pos hb] at hn'
    rw [if_pos (hch.bcJOk.2 hb)]
    refine i3.trans ?_
    simp only [implicit]
    rw [hn']; rfl
  refine ⟨.zoom (1 / Real.sqrt r0) (by positivity), .zoom (1 / (2 * Real.sqrt r0)) (by positivity), rfl, rfl, min c.cflfin (c.cflinit * 4 ^ (0.25 : ℝ)), ?_, ?_, ?_⟩
  · refine lt_min h1 ?_
    have : (1 : ℝ) < 4 ^ (0.25 : ℝ) := Real.one_lt_rpow (by norm_num) (by norm_num)
    nlinarith
  · rw [key]
    have e : (Similarity.zoom (1 / Real.sqrt r0) (by positivity)).L ^ 2 * r0 = 1 := by
      show (1 / Real.sqrt r0) ^ 2 * r0 = 1
      field_simp; nlinarith
    simp only [e, lt_irrefl, if_false, and_self]
  · rw [key]
    have e : (Similarity.zoom (1 / (2 * Real.sqrt r0)) (by positivity)).L ^ 2 * r0 = 1 / 4 := by
      show (1 / (2 * Real.sqrt r0)) ^ 2 * r0 = 1 / 4
      field_simp; nlinarith
    simp only [e]
    norm_num

/-- Hypotheses of `C104_cfl_refuted` are met by two squares with cold and hot gas, open on all sides. -/
example : ∃ s, topological pair = .ok s ∧ ∃ ksp c0, 0 < c0 ∧ Exact 2 ksp ∧ ∃ T T' : Similarity, ∃ a, c0 < a ∧
    LogEntry backwardEuler (implicit ((T.settings (airOut .llf) ((airOut .llf).gas.Reinf / T.L)).disc (T.mesh pair) s 0)
      (llfJac (T.settings (airOut .llf) ((airOut .llf).gas.Reinf / T.L)).gas) (fun _ _ => 1) ksp) ⟨1 / 2, 10, c0, 2 * c0⟩ (fun i => T.st (two cold hot i)) 1 c0 c0 ∧
    LogEntry backwardEuler (implicit ((T'.settings (airOut .llf) ((airOut .llf).gas.Reinf / T'.L)).disc (T'.mesh pair) s 0)
      (llfJac (T'.settings (airOut .llf) ((airOut .llf).gas.Reinf / T'.L)).gas) (fun _ _ => 1) ksp) ⟨1 / 2, 10, c0, 2 * c0⟩ (fun i => T'.st (two cold hot i)) 1 a a := by
  obtain ⟨s, hs, hf⟩ := pair_topological
  obtain ⟨r0, hr, hn⟩ := pair_norm_ne hs hf
  obtain ⟨ksp, hk⟩ := exact_exists 2
  have hok : ((airOut .llf).disc pair s 0).G.Ok := ⟨pair_conforming, pair_nozero, hs⟩
  have hbj : ((airOut .llf).disc pair s 0).BcJOk := fun k _ => ⟨_, rfl, rfl⟩
  have hgas : Disc.GasOk ((airOut .llf).disc pair s 0) :=
    ⟨by norm_num [airOut, Settings.disc, air], by norm_num [airOut, Settings.disc, air], by norm_num [airOut, Settings.disc, air], by norm_num [airOut, Settings.disc, air]⟩
  have hadm : ∀ i, Adm air (two cold hot i) := fun i => by unfold two; split_ifs <;> [exact cold_adm; exact hot_adm]
  have har : ∀ i, i < pair.nelem → 0 < ((airOut .llf).disc pair s 0).G.ar i := fun i hi => by
    rw [show ((airOut .llf).disc pair s 0).G.ar i = 1 from pair_area hi]; norm_num
  obtain ⟨c0, hc0, hreg⟩ := regular_small (u := two cold hot) hok hgas (bcOk_of_jOk hbj) (fun i _ => hadm i) har (llfJac air)
  obtain ⟨r1, hn'⟩ := pair_norm s .llf ((implicit ((airOut .llf).disc pair s 0) (llfJac air) (fun _ _ => 1) ksp).upd c0 (two cold hot))
  have hif : ∀ u r, (single ((airOut .llf).disc pair s 0)).norm u = some r → (implicit ((airOut .llf).disc pair s 0) (llfJac air) (fun _ _ => 1) ksp).norm u = some r := fun u r h => by
    simp only [implicit]; rw [if_pos hbj]; exact h
  obtain ⟨T, T', -, -, a, h1, h2, h3⟩ := C104_cfl_refuted pair_conforming pair_nozero hs rfl (airOut .llf) (J := llfJac) (fun χ G' hg => (χ.C104_families hg).1) hbj hk
    (w := two cold hot) ⟨fun i _ => hadm i, fun k _ => hadm _⟩ (c := ⟨1 / 2, 10, c0, 2 * c0⟩) hc0 (by show c0 < 2 * c0; linarith) (hreg c0 hc0 le_rfl) hr (hif _ _ hn) (hif _ _ hn')
  exact ⟨s, hs, ksp, c0, hc0, hk, T, T', a, h1, h2, h3⟩

/-! ### A viscous gas between adiabatic walls on the square cut by its diagonals -/

/-- Viscous air, Roe's flux, walls without heat flux. -/
noncomputable def walled : Settings := ⟨air, .roe, true, false, fun _ => some (.adiabatic 0)⟩

theorem walled_good (s : FState) : GoodAt (walled.disc FV.Geo.cross s 0) bump := by
  refine ⟨fun i _ => bump_adm i, fun k _ => ?_⟩
  have e : ∀ i n, (BC.adiabaticJ 0 (bump i) n).gs = bump i := fun i n => by
    unfold bump
    split_ifs <;> (funext v; fin_cases v <;> simp [BC.adiabaticJ, rest])
  show Adm air (BC.adiabaticJ 0 (bump _) _).gs
  rw [e]
  exact bump_adm _

/-- One iteration of the implicit solver from a gas at rest that is denser in one cell. -/
theorem walled_run {s : FState} (hs : topological FV.Geo.cross = .ok s) {ksp : (ℕ × ℕ → Blk (Fin 4)) → (ℕ → St) → ℕ → St} {relax : St → St → ℝ} : ∃ c0, 0 < c0 ∧
    Solve backwardEuler (implicit (walled.disc FV.Geo.cross s 0) (roeJac air) relax ksp) ⟨1 / 2, 1, c0, c0⟩ bump 1 .tolErr ∧
    ∀ j, j < 1 → ∀ m, traj backwardEuler (implicit (walled.disc FV.Geo.cross s 0) (roeJac air) relax ksp) ⟨1 / 2, 1, c0, c0⟩ bump j = some m →
      GoodAt (walled.disc FV.Geo.cross s 0) m.u ∧ ∀ o, (walled.disc FV.Geo.cross s 0).residual1 m.u 0 = some o →
        Regular FV.Geo.cross.nelem (sysOne (walled.disc FV.Geo.cross s 0) (roeJac air) m.u o (nextCfl backwardEuler ⟨1 / 2, 1, c0, c0⟩ m)) := by
  have hne : FV.Geo.cross.nelem = 4 := by decide +kernel
  have hb : (walled.disc FV.Geo.cross s 0).BcOk := fun k _ => rfl
  have hbj : (walled.disc FV.Geo.cross s 0).BcJOk := fun k _ => ⟨_, rfl, rfl⟩
  have hok : (walled.disc FV.Geo.cross s 0).G.Ok := ⟨cross_conforming, FV.Geo.cross_nozero, hs⟩
  have har : ∀ i, i < FV.Geo.cross.nelem → 0 < (walled.disc FV.Geo.cross s 0).G.ar i := fun i hi => by rw [cross_area (by omega)]; norm_num
  have hgas : Disc.GasOk (walled.disc FV.Geo.cross s 0) :=
    ⟨by norm_num [walled, Settings.disc, air], by norm_num [walled, Settings.disc, air], by norm_num [walled, Settings.disc, air], by norm_num [walled, Settings.disc, air]⟩
  obtain ⟨c0, hc0, hreg⟩ := regular_small (u := bump) hok hgas hb (fun i _ => bump_adm i) har (roeJac air)
  refine ⟨c0, hc0, ?_, fun j hj m hm => ?_⟩
  · obtain ⟨o, ho⟩ : ∃ o, (walled.disc FV.Geo.cross s 0).residual1 bump 0 = some o := ⟨_, by unfold Disc.residual1; rw [if_pos hb]⟩
    have hnorm : ∃ r, (implicit (walled.disc FV.Geo.cross s 0) (roeJac air) relax ksp).norm bump = some r := by
      have hnn : 0 ≤ energy (walled.disc FV.Geo.cross s 0) o.res := by
        refine Finset.sum_nonneg fun l hl => ?_
        exact mul_nonneg (mul_self_nonneg _) (har l (Finset.mem_range.1 hl)).le
      exact ⟨_, by simp only [implicit]; rw [if_pos hbj]; simp only [single, ho, Option.bind_some, rootOf]; rw [if_pos hnn]⟩
    obtain ⟨r, hr⟩ := hnorm
    unfold Solve
    rw [if_neg (by norm_num)]
    refine ⟨_, .step ?_ (by simp only [body, init, hr]; rfl) (.done ?_), ?_⟩
    · norm_num [Ode.cond, init, fdiv, FDiv.gt]
    · simp [Ode.cond]
    · simp [backwardEuler]
  · obtain rfl : j = 0 := by omega
    cases hm
    refine ⟨walled_good s, fun o ho => ?_⟩
    have e : nextCfl backwardEuler ⟨1 / 2, 1, c0, c0⟩ (init backwardEuler ⟨1 / 2, 1, c0, c0⟩ bump) = c0 := by
      have hr : ∀ a b c d e : ℝ, expRamp a a b c d e = a := fun a b c d e => by
        unfold expRamp
        dsimp only
        generalize (if c > 1 then b * c ^ d else b * c ^ e) = y
        split_ifs with h1 h2
        · rfl
        · rfl
        · linarith
      exact hr _ _ _ _ _
    rw [e]
    exact hreg c0 hc0 le_rfl o ho

/-- Hypotheses of `C104_moved_run_partial`, `C104_units_run_partial` and of the theorems on Jacobians and matrices are met: viscous air between adiabatic walls, turned, shifted and
scaled, or in other units. -/
example : ∃ s, topological FV.Geo.cross = .ok s ∧ ∀ ksp, Exact FV.Geo.cross.nelem ksp → ∃ c0, 0 < c0 ∧
    Solve backwardEuler (implicit ((turn345.settings walled (air.Reinf / 2)).disc (turn345.mesh FV.Geo.cross) s 0) (roeJac (turn345.settings walled (air.Reinf / 2)).gas) (fun _ _ => 1) ksp)
      ⟨1 / 2, 1, c0, c0⟩ (fun i => turn345.st (bump i)) 1 .tolErr ∧
    Solve backwardEuler (implicit (units23.disc (walled.disc FV.Geo.cross s 0)) (roeJac (units23.gas air)) (fun _ _ => 1) ksp) ⟨1 / 2, 1, c0, c0⟩ (fun i => units23.st (bump i)) 1 .tolErr := by
  obtain ⟨s, hs, -⟩ := FV.Geo.cross_topological
  refine ⟨s, hs, fun ksp hk => ?_⟩
  have hbj : (walled.disc FV.Geo.cross s 0).BcJOk := fun k _ => ⟨_, rfl, rfl⟩
  have hok : (walled.disc FV.Geo.cross s 0).G.Ok := ⟨cross_conforming, FV.Geo.cross_nozero, hs⟩
  obtain ⟨c0, hc0, hrun, hgood⟩ := walled_run (ksp := ksp) (relax := fun _ _ => 1) hs
  have hm := (C94_setup turn345 cross_conforming FV.Geo.cross_nozero hs walled (re := air.Reinf / 2) (fun _ => rfl) (ghost := 0) (ghost' := 0) (fun ic h => absurd h (Nat.not_lt_zero _))).2
  refine ⟨c0, hc0, ?_, ?_⟩
  · exact (C104_moved_run_partial hok rfl hbj hk hk hrun hgood hm (turn345.chart.C104_families rfl).2.2.2.1 (fun _ _ _ => rfl) (.inr (.inl rfl))).1
  · exact (C104_units_run_partial hok rfl hbj hk hk hrun hgood units23 (fun k _ ui e => by cases e) (units23.chart.C104_families rfl).2.2.2.1 (fun _ _ _ => rfl) (.inr (.inl rfl))).1

/-! ### Charts -/

/-- Axes turned and reflected, densities doubled, velocities tripled. -/
noncomputable def askew : Chart := ⟨3 / 5, 4 / 5, -1, 2, 3, by norm_num, by norm_num, by norm_num, by norm_num⟩

/-- The theorems on flux Jacobians apply to cold and hot gas side by side in that chart. -/
example (n : V2) : askew.JacIm 3 (roeJac air cold hot n) (roeJac air (askew.st cold) (askew.st hot) (askew.dir n)) ∧ askew.JacIm 3 (hllcJac air cold hot n) (hllcJac air (askew.st cold) (askew.st hot) (askew.dir n)) :=
  ⟨askew.C104_roe rfl cold_adm hot_adm n, askew.C104_hllc rfl cold_adm hot_adm (by norm_num [air]) n⟩

/-- Hypotheses of `C104_relax_partial` are met by a reflection with another unit of density. -/
example (du u : St) : ∃ χ : Chart, χ.c = -1 ∧ χ.e = -1 ∧ χ.a = 2 ∧ relaxFactor air (1 / 10) (χ.st du) (χ.st u) = relaxFactor air (1 / 10) du u :=
  ⟨⟨-1, 0, -1, 2, 1, by norm_num, by norm_num, by norm_num, by norm_num⟩, rfl, rfl, rfl, C104_relax_partial _ rfl rfl rfl _ _ _⟩

end FVENS
