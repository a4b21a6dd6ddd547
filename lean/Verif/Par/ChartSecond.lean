import Verif.Par.ChartEx
import Verif.Par.AtRest
import Verif.FV.ReflectRun

/-!
# Second-order runs on moved meshes and in other units (C94, C99, C104)

The steady solvers with the unlimited linear reconstruction (`Disc.residual2` with `.linear`), for every gradient scheme. The matrix of the implicit solver is the first-order one
(src/spatial/aspatial.cpp:242-340).
-/

namespace FVENS

open Msh Flux FV FV.Disc Par Ode

/-! ### Explicit runs with an arbitrary evaluation -/

namespace Charted
variable {χ : Chart} {L : ℝ} {D D' : Disc} (h : Charted χ L D D') {ev ev' : (ℕ → St) → Option Disc.Out}
include h

theorem explicit_step {u : ℕ → St} (hr : ResIm χ L D D' ev ev' u) (cfl : ℝ) :
    (solver D' ev').upd cfl (fun i => χ.st (u i)) = fun i => χ.st ((solver D ev).upd cfl u i) := by
  obtain ⟨o, o', e1, e2, e3⟩ := hr
  have hb := χ.hb.ne'
  have hL := h.pos.ne'
  simp only [solver, e1, e2]
  funext i
  unfold euler
  rw [h.nelem]
  by_cases hi : i < D.G.m.nelem
  · rw [if_pos hi, if_pos hi, (e3 i hi).2, h.ar i hi]
    funext v
    have e : ∀ q r : ℝ, cfl * (L / χ.b * q) * 1 / (L * L * D.G.ar i) * (χ.b * L * r) = cfl * q * 1 / D.G.ar i * r := fun q r => by
      rcases eq_or_ne (D.G.ar i) 0 with h0 | h0
      · rw [h0]; simp
      · field_simp
    have hf : ∀ (x : St) (q : ℝ) (y : St), χ.st (fun v => x v + q * y v) v = χ.st x v + q * χ.st y v := fun x q y => by
      fin_cases v <;> simp [Chart.st] <;> ring
    show χ.st (u i) v + _ * o'.res i v = χ.st (fun v => u i v + _ * o.res i v) v
    rw [(e3 i hi).1 v, hf, e]
  · rw [if_neg hi, if_neg hi]

theorem explicit_run (hr : ∀ u, ResIm χ L D D' ev ev' u) {w : ℕ → St} {c : Conf} {k : ℕ} {out : Ode.Out} (hrun : Solve forwardEuler (solver D ev) c w k out) :
    Solve forwardEuler (solver D' ev') c (fun i => χ.st (w i)) k out ∧
    (∀ k' out', Solve forwardEuler (solver D' ev') c (fun i => χ.st (w i)) k' out' → k' = k ∧ out' = out) ∧
    ∀ m, Loop (Ode.cond c) (body forwardEuler (solver D ev) c) (init forwardEuler c w) k (some m) →
      ∃ m', Loop (Ode.cond c) (body forwardEuler (solver D' ev') c) (init forwardEuler c fun i => χ.st (w i)) k (some m') ∧ (m'.u = fun i => χ.st (m.u i)) ∧
        (0 < k → m'.resi = χ.a * χ.b ^ 3 * L ^ 2 * m.resi ∧ m'.initres = χ.a * χ.b ^ 3 * L ^ 2 * m.initres) ∧ (χ.a * χ.b ^ 3 * L ^ 2 = 1 → m'.log = m.log) := by
  have hκ : 0 < χ.a * χ.b ^ 3 * L ^ 2 := by have := χ.ha; have := χ.hb; have := h.pos; positivity
  exact run_scaled hκ (R := fun u u' : ℕ → St => u' = fun i => χ.st (u i)) (good := fun _ => True) (fun u u' _ hR => by rw [hR]; exact h.norm_im (hr u))
    (fun a u u' _ hR => by rw [hR]; exact h.explicit_step (hr u) a) rfl hrun (fun _ _ _ _ => trivial)

end Charted

/-! ### The second-order evaluation in the new chart -/

/-- On one process every face is a boundary face or an interior face. -/
theorem FV.Geo.Ok.noInterface {G : Geo} (hok : G.Ok) (hn0 : G.m.nconnface = 0) {k : ℕ} (hk : k < G.nface) (hb : ¬ k < G.m.nbface) : G.inner k := by
  have := (C27_ranges hok.conf.lin hok.conf.bfOk hok.topo).1
  unfold Geo.nface at hk
  unfold Geo.inner Geo.ni
  omega

section moved
variable {T : Similarity} {D D' : Disc} (h : Moved T D D') (hok : D.G.Ok) (hn0 : D.G.m.nconnface = 0)
include h hok hn0

/-- Second-order residuals and time steps on a moved mesh, single process: previous contents of arrays do not matter. -/
theorem FV.Moved.resIm2 (hb : D.BcOk) (gs : GradScheme) (E E' : (ℕ → St) → Disc.Env) (u : ℕ → St) :
    Charted.ResIm T.chart T.L D D' (fun u => D.residual2 gs .linear (E u) u 0) (fun u => D'.residual2 gs .linear (E' u) u 0) u := by
  have hst : (fun i => T.chart.st (u i)) = fun i => T.st (u i) := funext fun i => T.chart_st _
  rcases h.C94_second_order_partial hok gs (E := E u) (E' := E' fun i => T.st (u i)) (fun k hk h1 h2 => absurd (hok.noInterface hn0 hk h1) h2)
    (fun i h1 h2 => by unfold Geo.rows at h2; omega) (u := u) (u' := fun i => T.st (u i)) (fun i _ => rfl) (r := 0) (r' := 0) (fun i _ => (scl_zero T).symm) with ⟨e1, -⟩ | ⟨o, o', e1, e2, -, e4⟩
  · obtain ⟨o, ho⟩ := residual2_defined hok hb (gs := gs) (R := .linear) (show Disc.ReconOk .linear from trivial) (fun h => by rcases h with h | ⟨K, h⟩ <;> cases h) (E u) u 0
    rw [ho] at e1; cases e1
  · refine ⟨o, o', e1, by rw [hst]; exact e2, fun i hi => ⟨fun v => ?_, ?_⟩⟩
    · rw [(e4 i hi).1, T.chart_st]; simp [Similarity.scl, Similarity.chart]
    · rw [(e4 i hi).2]; simp [Similarity.chart]

end moved

theorem Units.resIm2 (T : Units) (D : Disc) (hok : D.G.Ok) (hn0 : D.G.m.nconnface = 0) (hio : T.OutflowOk D) (hb : D.BcOk) (gs : GradScheme) (E E' : (ℕ → St) → Disc.Env) (u : ℕ → St) :
    Charted.ResIm T.chart 1 D (T.disc D) (fun u => D.residual2 gs .linear (E u) u 0) (fun u => (T.disc D).residual2 gs .linear (E' u) u 0) u := by
  have hst : (fun i => T.chart.st (u i)) = fun i => T.st (u i) := funext fun i => T.chart_st _
  have hz : (fun i => T.fl ((0 : ℕ → St) i)) = 0 := by funext i v; fin_cases v <;> simp
  have h1 := C99_second_order_partial T D hok hio gs (E := E u) (E' := E' fun i => T.st (u i)) (fun k hk h1 h2 => absurd (hok.noInterface hn0 hk h1) h2)
    (fun i h1 h2 => by unfold Geo.rows at h2; omega) u 0
  rw [hz] at h1
  rcases h1 with ⟨e1, -⟩ | ⟨o, o', e1, e2, -, e4⟩
  · obtain ⟨o, ho⟩ := residual2_defined hok hb (gs := gs) (R := .linear) (show Disc.ReconOk .linear from trivial) (fun h => by rcases h with h | ⟨K, h⟩ <;> cases h) (E u) u 0
    rw [ho] at e1; cases e1
  · refine ⟨o, o', e1, by rw [hst]; exact e2, fun i hi => ⟨fun v => ?_, ?_⟩⟩
    · rw [(e4 i hi).1, T.chart_st, T.fl_eq]; simp [Units.chart]
    · rw [(e4 i hi).2]; simp [Units.chart]; ring

/-! ### Runs -/

section explicit
variable {D D' : Disc} (hok : D.G.Ok) (hn0 : D.G.m.nconnface = 0) (hb : D.BcOk) (gs : GradScheme) (E E' : (ℕ → St) → Disc.Env) {w : ℕ → St} {c : Conf} {k : ℕ} {out : Ode.Out}
  (hrun : Solve forwardEuler (solver D fun u => D.residual2 gs .linear (E u) u 0) c w k out)
include hok hn0 hb hrun

/-- C94, whole runs of the explicit steady solver of second order with the unlimited reconstruction and any gradient scheme, on one process: on the moved mesh it ends in the same way after the
same number of iterations; at a normal end the states are turned, and the norms are multiplied by the square of the unit of length. Without a change of the unit of length the
reported CFL numbers are the same. Previous contents of the arrays for gradients and face states do not matter. -/
theorem C94_second_order_run_partial {T : Similarity} (h : Moved T D D') :
    Solve forwardEuler (solver D' fun u => D'.residual2 gs .linear (E' u) u 0) c (fun i => T.st (w i)) k out ∧
    (∀ k' out', Solve forwardEuler (solver D' fun u => D'.residual2 gs .linear (E' u) u 0) c (fun i => T.st (w i)) k' out' → k' = k ∧ out' = out) ∧
    ∀ m, Loop (Ode.cond c) (body forwardEuler (solver D fun u => D.residual2 gs .linear (E u) u 0) c) (init forwardEuler c w) k (some m) →
      ∃ m', Loop (Ode.cond c) (body forwardEuler (solver D' fun u => D'.residual2 gs .linear (E' u) u 0) c) (init forwardEuler c fun i => T.st (w i)) k (some m') ∧
        (m'.u = fun i => T.st (m.u i)) ∧ (0 < k → m'.resi = T.L ^ 2 * m.resi ∧ m'.initres = T.L ^ 2 * m.initres) ∧ (T.L = 1 → m'.log = m.log) := by
  have hst : ∀ f : ℕ → St, (fun i => T.chart.st (f i)) = fun i => T.st (f i) := fun f => funext fun i => T.chart_st _
  have hκ : T.chart.a * T.chart.b ^ 3 * T.L ^ 2 = T.L ^ 2 := by simp [Similarity.chart]
  have key := (h.charted hok).explicit_run (h.resIm2 hok hn0 hb gs E E') hrun
  simp only [hst, hκ] at key
  obtain ⟨k1, k2, k3⟩ := key
  refine ⟨k1, k2, fun m hm => ?_⟩
  obtain ⟨m', l1, l2, l3, l4⟩ := k3 m hm
  exact ⟨m', l1, l2, l3, fun hL => l4 (by rw [hL]; norm_num)⟩

/-- C99, whole runs of the explicit steady solver of second order with the unlimited reconstruction and any gradient scheme. -/
theorem C99_second_order_run_partial (T : Units) (hio : T.OutflowOk D) :
    Solve forwardEuler (solver (T.disc D) fun u => (T.disc D).residual2 gs .linear (E' u) u 0) c (fun i => T.st (w i)) k out ∧
    (∀ k' out', Solve forwardEuler (solver (T.disc D) fun u => (T.disc D).residual2 gs .linear (E' u) u 0) c (fun i => T.st (w i)) k' out' → k' = k ∧ out' = out) ∧
    ∀ m, Loop (Ode.cond c) (body forwardEuler (solver D fun u => D.residual2 gs .linear (E u) u 0) c) (init forwardEuler c w) k (some m) →
      ∃ m', Loop (Ode.cond c) (body forwardEuler (solver (T.disc D) fun u => (T.disc D).residual2 gs .linear (E' u) u 0) c) (init forwardEuler c fun i => T.st (w i)) k (some m') ∧
        (m'.u = fun i => T.st (m.u i)) ∧ (0 < k → m'.resi = T.a * T.b ^ 3 * m.resi ∧ m'.initres = T.a * T.b ^ 3 * m.initres) ∧ (T.a * T.b ^ 3 = 1 → m'.log = m.log) := by
  have hst : ∀ f : ℕ → St, (fun i => T.chart.st (f i)) = fun i => T.st (f i) := fun f => funext fun i => T.chart_st _
  have hκ : T.chart.a * T.chart.b ^ 3 * (1 : ℝ) ^ 2 = T.a * T.b ^ 3 := by simp [Units.chart]
  have key := (T.charted D).explicit_run (T.resIm2 D hok hn0 hio hb gs E E') hrun
  simp only [hst, hκ] at key
  exact key

end explicit

section implicit
variable {D D' : Disc} (hok : D.G.Ok) (hn0 : D.G.m.nconnface = 0) (hb : D.BcJOk) {J J' : St → St → V2 → FJ} {relax relax' : St → St → ℝ}
  {ksp ksp' : (ℕ × ℕ → Blk (Fin 4)) → (ℕ → St) → ℕ → St} (hk : Exact D.G.m.nelem ksp) (hk' : Exact D.G.m.nelem ksp') (gs : GradScheme) (E E' : (ℕ → St) → Disc.Env)
  {w : ℕ → St} {c : Conf} {k : ℕ} {out : Ode.Out} (hrun : Solve backwardEuler (solverI D (fun u => D.residual2 gs .linear (E u) u 0) J relax ksp) c w k out)
  (hgood : ∀ j, j < k → ∀ m, traj backwardEuler (solverI D (fun u => D.residual2 gs .linear (E u) u 0) J relax ksp) c w j = some m → GoodAt D m.u ∧
    ∀ o, D.residual2 gs .linear (E m.u) m.u 0 = some o → Regular D.G.m.nelem (sysOne D J m.u o (nextCfl backwardEuler c m)))
include hok hn0 hb hk hk' hrun hgood

/-- C104, second-order implicit steady runs with the unlimited reconstruction and any gradient scheme on a mesh that is turned, shifted and scaled. -/
theorem C104_moved_second_order_run_partial {T : Similarity} (h : Moved T D D') (hJ : T.chart.FamIm D.gas J J') (hrel : ∀ du u, Adm D.gas u → relax' (T.st du) (T.st u) = relax du u)
    (hcfl : T.L = 1 ∨ c.cflinit = c.cflfin ∨ ∀ m, 1 < k → traj backwardEuler (solverI D (fun u => D.residual2 gs .linear (E u) u 0) J relax ksp) c w 1 = some m →
      RampAgrees backwardEuler c (T.L ^ 2) m) :
    Solve backwardEuler (solverI D' (fun u => D'.residual2 gs .linear (E' u) u 0) J' relax' ksp') c (fun i => T.st (w i)) k out ∧
    (∀ k' out', Solve backwardEuler (solverI D' (fun u => D'.residual2 gs .linear (E' u) u 0) J' relax' ksp') c (fun i => T.st (w i)) k' out' → k' = k ∧ out' = out) ∧
    ∀ m, 0 < k → Loop (Ode.cond c) (body backwardEuler (solverI D (fun u => D.residual2 gs .linear (E u) u 0) J relax ksp) c) (init backwardEuler c w) k (some m) →
      ∃ m', Loop (Ode.cond c) (body backwardEuler (solverI D' (fun u => D'.residual2 gs .linear (E' u) u 0) J' relax' ksp') c) (init backwardEuler c fun i => T.st (w i)) k (some m') ∧
        (m'.u = fun i => T.st (m.u i)) ∧ m'.resi = T.L ^ 2 * m.resi ∧ m'.initres = T.L ^ 2 * m.initres ∧ m'.log = m.log := by
  have hst : ∀ f : ℕ → St, (fun i => T.chart.st (f i)) = fun i => T.st (f i) := fun f => funext fun i => T.chart_st _
  have hκ : T.chart.a * T.chart.b ^ 3 * T.L ^ 2 = T.L ^ 2 := by simp [Similarity.chart]
  have key := (h.charted hok).C104_run hok hn0 hJ hb hk hk' (relax := relax) (relax' := relax') hrun (fun du u hu => by rw [T.chart_st, T.chart_st]; exact hrel du u hu)
    (fun j hj m hm => ⟨h.resIm2 hok hn0 (bcOk_of_jOk hb) gs E E' m.u, hgood j hj m hm⟩) (fun m h1 hm => by
      rw [hκ]
      rcases hcfl with h2 | h2 | h2
      · exact rampAgrees_of (.inl (by rw [h2]; norm_num)) m
      · exact rampAgrees_of (.inr h2) m
      · exact h2 m h1 hm)
  simp only [hst, hκ] at key
  exact key

/-- C104, second-order implicit steady runs in other units of density and velocity. -/
theorem C104_units_second_order_run_partial (T : Units) (hio : T.OutflowOk D) (hJ : T.chart.FamIm D.gas J J') (hrel : ∀ du u, Adm D.gas u → relax' (T.st du) (T.st u) = relax du u)
    (hcfl : T.a * T.b ^ 3 = 1 ∨ c.cflinit = c.cflfin ∨ ∀ m, 1 < k → traj backwardEuler (solverI D (fun u => D.residual2 gs .linear (E u) u 0) J relax ksp) c w 1 = some m →
      RampAgrees backwardEuler c (T.a * T.b ^ 3) m) :
    Solve backwardEuler (solverI (T.disc D) (fun u => (T.disc D).residual2 gs .linear (E' u) u 0) J' relax' ksp') c (fun i => T.st (w i)) k out ∧
    (∀ k' out', Solve backwardEuler (solverI (T.disc D) (fun u => (T.disc D).residual2 gs .linear (E' u) u 0) J' relax' ksp') c (fun i => T.st (w i)) k' out' → k' = k ∧ out' = out) ∧
    ∀ m, 0 < k → Loop (Ode.cond c) (body backwardEuler (solverI D (fun u => D.residual2 gs .linear (E u) u 0) J relax ksp) c) (init backwardEuler c w) k (some m) →
      ∃ m', Loop (Ode.cond c) (body backwardEuler (solverI (T.disc D) (fun u => (T.disc D).residual2 gs .linear (E' u) u 0) J' relax' ksp') c)
          (init backwardEuler c fun i => T.st (w i)) k (some m') ∧
        (m'.u = fun i => T.st (m.u i)) ∧ m'.resi = T.a * T.b ^ 3 * m.resi ∧ m'.initres = T.a * T.b ^ 3 * m.initres ∧ m'.log = m.log := by
  have hst : ∀ f : ℕ → St, (fun i => T.chart.st (f i)) = fun i => T.st (f i) := fun f => funext fun i => T.chart_st _
  have hκ : T.chart.a * T.chart.b ^ 3 * (1 : ℝ) ^ 2 = T.a * T.b ^ 3 := by simp [Units.chart]
  have key := (T.charted D).C104_run hok hn0 hJ hb hk hk' (relax := relax) (relax' := relax') hrun (fun du u hu => by rw [T.chart_st, T.chart_st]; exact hrel du u hu)
    (fun j hj m hm => ⟨T.resIm2 D hok hn0 hio (bcOk_of_jOk hb) gs E E' m.u, hgood j hj m hm⟩) (fun m h1 hm => by
      rw [hκ]
      rcases hcfl with h2 | h2 | h2
      · exact rampAgrees_of (.inl h2) m
      · exact rampAgrees_of (.inr h2) m
      · exact h2 m h1 hm)
  simp only [hst, hκ] at key
  exact key

end implicit

/-! ### Viscous air between adiabatic walls -/

/-- Hypotheses of `C94_second_order_run_partial` and `C99_second_order_run_partial` are met: one iteration with Green-Gauss gradients from a gas at rest that is denser in one cell. -/
example (E1 E2 : Disc.Env) : ∃ s, topological FV.Geo.cross = .ok s ∧
    Solve forwardEuler (solver ((turn345.settings walled (air.Reinf / 2)).disc (turn345.mesh FV.Geo.cross) s 0) fun u =>
      ((turn345.settings walled (air.Reinf / 2)).disc (turn345.mesh FV.Geo.cross) s 0).residual2 .greenGauss .linear E2 u 0) ⟨1 / 2, 1, 1, 1⟩ (fun i => turn345.st (bump i)) 1 .tolErr ∧
    Solve forwardEuler (solver (units23.disc (walled.disc FV.Geo.cross s 0)) fun u => (units23.disc (walled.disc FV.Geo.cross s 0)).residual2 .greenGauss .linear E2 u 0)
      ⟨1 / 2, 1, 1, 1⟩ (fun i => units23.st (bump i)) 1 .tolErr := by
  obtain ⟨s, hs, -⟩ := FV.Geo.cross_topological
  have hne : FV.Geo.cross.nelem = 4 := by decide +kernel
  have hb : (walled.disc FV.Geo.cross s 0).BcOk := fun k _ => rfl
  have hok : (walled.disc FV.Geo.cross s 0).G.Ok := ⟨cross_conforming, FV.Geo.cross_nozero, hs⟩
  obtain ⟨o, ho⟩ := residual2_defined hok hb (gs := .greenGauss) (R := .linear) (show Disc.ReconOk .linear from trivial) (fun h => by rcases h with h | ⟨K, h⟩ <;> cases h) E1 bump 0
  have hrun : Solve forwardEuler (solver (walled.disc FV.Geo.cross s 0) fun u => (walled.disc FV.Geo.cross s 0).residual2 .greenGauss .linear E1 u 0) ⟨1 / 2, 1, 1, 1⟩ bump 1 .tolErr := by
    have hnorm : ∃ r, (solver (walled.disc FV.Geo.cross s 0) fun u => (walled.disc FV.Geo.cross s 0).residual2 .greenGauss .linear E1 u 0).norm bump = some r := by
      have hnn : 0 ≤ energy (walled.disc FV.Geo.cross s 0) o.res := by
        refine Finset.sum_nonneg fun l hl => ?_
        rw [cross_area (by have : l < FV.Geo.cross.nelem := Finset.mem_range.1 hl; omega)]
        exact mul_nonneg (mul_self_nonneg _) (by norm_num)
      exact ⟨_, by simp only [solver, ho, Option.bind_some, rootOf]; rw [if_pos hnn]⟩
    obtain ⟨r, hr⟩ := hnorm
    unfold Solve
    rw [if_neg (by norm_num)]
    refine ⟨_, .step ?_ (by simp only [body, init, hr]; rfl) (.done ?_), ?_⟩
    · norm_num [Ode.cond, init, fdiv, FDiv.gt]
    · simp [Ode.cond]
    · simp [forwardEuler]
  have hm := (C94_setup turn345 cross_conforming FV.Geo.cross_nozero hs walled (re := air.Reinf / 2) (fun _ => rfl) (ghost := 0) (ghost' := 0) (fun ic h => absurd h (Nat.not_lt_zero _))).2
  exact ⟨s, hs, (C94_second_order_run_partial hok rfl hb .greenGauss (fun _ => E1) (fun _ => E2) hrun hm).1,
    (C99_second_order_run_partial hok rfl hb .greenGauss (fun _ => E1) (fun _ => E2) hrun units23 (fun k _ ui e => by cases e)).1⟩

/-- Hypotheses of `C104_moved_second_order_run_partial` and `C104_units_second_order_run_partial` are met: one implicit iteration from the same state at a small CFL number. -/
example (E1 E2 : Disc.Env) : ∃ s, topological FV.Geo.cross = .ok s ∧ ∀ ksp, Exact FV.Geo.cross.nelem ksp → ∃ c0, 0 < c0 ∧
    Solve backwardEuler (solverI ((turn345.settings walled (air.Reinf / 2)).disc (turn345.mesh FV.Geo.cross) s 0) (fun u =>
      ((turn345.settings walled (air.Reinf / 2)).disc (turn345.mesh FV.Geo.cross) s 0).residual2 .zero .linear E2 u 0) (roeJac (turn345.settings walled (air.Reinf / 2)).gas) (fun _ _ => 1) ksp)
      ⟨1 / 2, 1, c0, c0⟩ (fun i => turn345.st (bump i)) 1 .tolErr ∧
    Solve backwardEuler (solverI (units23.disc (walled.disc FV.Geo.cross s 0)) (fun u => (units23.disc (walled.disc FV.Geo.cross s 0)).residual2 .zero .linear E2 u 0)
      (roeJac (units23.gas air)) (fun _ _ => 1) ksp) ⟨1 / 2, 1, c0, c0⟩ (fun i => units23.st (bump i)) 1 .tolErr := by
  obtain ⟨s, hs, -⟩ := FV.Geo.cross_topological
  refine ⟨s, hs, fun ksp hk => ?_⟩
  have hne : FV.Geo.cross.nelem = 4 := by decide +kernel
  have hbj : (walled.disc FV.Geo.cross s 0).BcJOk := fun k _ => ⟨_, rfl, rfl⟩
  have hok : (walled.disc FV.Geo.cross s 0).G.Ok := ⟨cross_conforming, FV.Geo.cross_nozero, hs⟩
  have har : ∀ i, i < FV.Geo.cross.nelem → 0 < (walled.disc FV.Geo.cross s 0).G.ar i := fun i hi => by rw [cross_area (by omega)]; norm_num
  have hgas : Disc.GasOk (walled.disc FV.Geo.cross s 0) :=
    ⟨by norm_num [walled, Settings.disc, air], by norm_num [walled, Settings.disc, air], by norm_num [walled, Settings.disc, air], by norm_num [walled, Settings.disc, air]⟩
  obtain ⟨o, ho⟩ := residual2_defined hok (bcOk_of_jOk hbj) (gs := .zero) (R := .linear) (show Disc.ReconOk .linear from trivial) (fun h => by rcases h with h | ⟨K, h⟩ <;> cases h) E1 bump 0
  have hst : ∀ k, k < (walled.disc FV.Geo.cross s 0).G.nface → o.uL k = bump ((walled.disc FV.Geo.cross s 0).G.face k).left ∧
      ((walled.disc FV.Geo.cross s 0).G.inner k → o.uR k = bump ((walled.disc FV.Geo.cross s 0).G.face k).right) := fun k hk =>
    zero_linear_states hok (by norm_num [walled, air, Settings.disc]) (fun i _ => (bump_adm i).rho.ne') ho hk
  obtain ⟨c0, C, hc0, hreg⟩ := C96_small_cfl (walled.disc FV.Geo.cross s 0) (roeJac air) bump o har fun i hi =>
    (Disc.C51_positive_bounded hok hgas (fun k hk => by rw [(hst k hk).1]; exact bump_adm _) (fun k hk hin => by rw [(hst k hk).2 hin]; exact bump_adm _) hi (har i hi)).1
  have hrun : Solve backwardEuler (solverI (walled.disc FV.Geo.cross s 0) (fun u => (walled.disc FV.Geo.cross s 0).residual2 .zero .linear E1 u 0) (roeJac air) (fun _ _ => 1) ksp)
      ⟨1 / 2, 1, c0, c0⟩ bump 1 .tolErr := by
    have hnorm : ∃ r, (solverI (walled.disc FV.Geo.cross s 0) (fun u => (walled.disc FV.Geo.cross s 0).residual2 .zero .linear E1 u 0) (roeJac air) (fun _ _ => 1) ksp).norm bump = some r := by
      have hnn : 0 ≤ energy (walled.disc FV.Geo.cross s 0) o.res := by
        refine Finset.sum_nonneg fun l hl => ?_
        exact mul_nonneg (mul_self_nonneg _) (har l (Finset.mem_range.1 hl)).le
      exact ⟨_, by simp only [solverI]; rw [if_pos hbj]; simp only [solver, ho, Option.bind_some, rootOf]; rw [if_pos hnn]⟩
    obtain ⟨r, hr⟩ := hnorm
    unfold Solve
    rw [if_neg (by norm_num)]
    refine ⟨_, .step ?_ (by simp only [body, init, hr]; rfl) (.done ?_), ?_⟩
    · norm_num [Ode.cond, init, fdiv, FDiv.gt]
    · simp [Ode.cond]
    · simp [backwardEuler]
  have hgood : ∀ j, j < 1 → ∀ m, traj backwardEuler (solverI (walled.disc FV.Geo.cross s 0) (fun u => (walled.disc FV.Geo.cross s 0).residual2 .zero .linear E1 u 0) (roeJac air) (fun _ _ => 1) ksp)
      ⟨1 / 2, 1, c0, c0⟩ bump j = some m → GoodAt (walled.disc FV.Geo.cross s 0) m.u ∧ ∀ o, (walled.disc FV.Geo.cross s 0).residual2 .zero .linear E1 m.u 0 = some o →
        Regular FV.Geo.cross.nelem (sysOne (walled.disc FV.Geo.cross s 0) (roeJac air) m.u o (nextCfl backwardEuler ⟨1 / 2, 1, c0, c0⟩ m)) := fun j hj m hm => by
    obtain rfl : j = 0 := by omega
    cases hm
    refine ⟨walled_good s, fun o' ho' => ?_⟩
    have e : nextCfl backwardEuler ⟨1 / 2, 1, c0, c0⟩ (init backwardEuler ⟨1 / 2, 1, c0, c0⟩ bump) = c0 := by
      have hr : ∀ a b c d e : ℝ, expRamp a a b c d e = a := fun a b c d e => by
        unfold expRamp
        dsimp only
        generalize (if c > 1 then b * c ^ d else b * c ^ e) = y
        split_ifs with h1 h2
        · rfl
        · rfl
        · linarith
      exact hr _ _ _ _ _
    rw [e]
    obtain rfl : o' = o := Option.some.inj (ho'.symm.trans ho)
    exact (hreg c0 hc0 le_rfl).1
  have hm := (C94_setup turn345 cross_conforming FV.Geo.cross_nozero hs walled (re := air.Reinf / 2) (fun _ => rfl) (ghost := 0) (ghost' := 0) (fun ic h => absurd h (Nat.not_lt_zero _))).2
  exact ⟨c0, hc0, (C104_moved_second_order_run_partial hok rfl hbj hk hk .zero (fun _ => E1) (fun _ => E2) hrun hgood hm (turn345.chart.C104_families rfl).2.2.2.1 (fun _ _ _ => rfl) (.inr (.inl rfl))).1,
    (C104_units_second_order_run_partial hok rfl hbj hk hk .zero (fun _ => E1) (fun _ => E2) hrun hgood units23 (fun k _ ui e => by cases e) (units23.chart.C104_families rfl).2.2.2.1
      (fun _ _ _ => rfl) (.inr (.inl rfl))).1⟩

end FVENS
