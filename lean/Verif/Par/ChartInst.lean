import Verif.Par.ChartRun

/-!
# Implicit runs on moved meshes and in other units; the relaxation factor (C104)
-/

namespace FVENS

open Msh Flux FV FV.Disc Par Ode

/-- The chart of a turned mesh. -/
def Similarity.chart (T : Similarity) : Chart := ⟨T.c, T.s, 1, 1, 1, T.unit, by norm_num, one_pos, one_pos⟩
/-- The chart of other units of density and velocity. -/
def Units.chart (T : Units) : Chart := ⟨1, 0, 1, T.a, T.b, by norm_num, by norm_num, T.ha, T.hb⟩

theorem Similarity.chart_st (T : Similarity) (u : St) : T.chart.st u = T.st u := by
  funext v; fin_cases v <;> simp [Similarity.chart, Chart.st, Similarity.st, rotS]
theorem Similarity.chart_dir (T : Similarity) (n : V2) : T.chart.dir n = T.dir n := by
  funext v; fin_cases v <;> simp [Similarity.chart, Chart.dir, Similarity.dir, rotV]
theorem Similarity.chart_obj (T : Similarity) (o : BC.Obj) : T.chart.obj o = T.obj o := by
  cases o <;> simp [Chart.obj, Similarity.obj, T.chart_st] <;> simp [Similarity.chart]
theorem Units.chart_st (T : Units) (u : St) : T.chart.st u = T.st u := by
  funext v; fin_cases v <;> simp [Units.chart, Chart.st]
theorem Units.chart_dir (T : Units) (n : V2) : T.chart.dir n = n := by
  funext v; fin_cases v <;> simp [Units.chart, Chart.dir]
theorem Units.chart_obj (T : Units) (o : BC.Obj) : T.chart.obj o = T.obj o := by
  cases o <;> simp [Chart.obj, Units.obj, T.chart_st] <;> simp [Units.chart]

theorem bcOk_of_jOk {D : Disc} (hb : D.BcJOk) : D.BcOk := fun k hk => by
  obtain ⟨o, h1, -⟩ := hb k hk
  rw [h1]; rfl

section moved
variable {T : Similarity} {D D' : Disc} (h : Moved T D D') (hok : D.G.Ok)
include h hok

theorem FV.Moved.charted : Charted T.chart T.L D D' where
  pos := T.pos
  nelem := h.nelem
  nbface := h.nbface
  nface := h.nface
  face := h.face
  inner := h.inner
  nrm := fun k _ => by rw [h.nrm, T.chart_dir]
  len := fun k _ => h.len k
  ar := h.ar
  gas := by rw [h.gas]; exact ⟨rfl, one_mul _, rfl, rfl⟩
  viscous := h.viscous
  constVisc := h.constVisc
  re := fun hv => by rw [h.re hv]; simp [Similarity.chart]
  dist := fun _ k hk => by rw [h.xl hok hk, h.xr hok hk, cdist_pt]
  vec := fun _ k hk => by rw [h.xl hok hk, h.xr hok hk, cdir_pt, T.chart_dir]
  bc := fun k _ => by rw [h.bc, h.tag]; congr 1; funext o; exact (T.chart_obj o).symm

theorem FV.Moved.resIm (hb : D.BcOk) (u : ℕ → St) : Charted.ResIm T.chart T.L D D' (fun u => D.residual1 u 0) (fun u => D'.residual1 u 0) u := by
  have hst : (fun i => T.chart.st (u i)) = fun i => T.st (u i) := funext fun i => T.chart_st _
  rcases h.C94_first_order hok (u := u) (u' := fun i => T.st (u i)) (fun i _ => rfl) (r := 0) (r' := 0) (fun i _ => (scl_zero T).symm) with ⟨e1, -⟩ | ⟨o, o', e1, e2, -, e4⟩
  · unfold Disc.residual1 at e1; rw [if_pos hb] at e1; cases e1
  · refine ⟨o, o', e1, by rw [hst]; exact e2, fun i hi => ⟨fun v => ?_, ?_⟩⟩
    · rw [(e4 i hi).1, T.chart_st]; simp [Similarity.scl, Similarity.chart]
    · rw [(e4 i hi).2]; simp [Similarity.chart]

end moved

section units
variable (T : Units) (D : Disc)

theorem Units.charted : Charted T.chart 1 D (T.disc D) where
  pos := one_pos
  nelem := rfl
  nbface := rfl
  nface := rfl
  face := fun _ => rfl
  inner := fun _ => Iff.rfl
  nrm := fun k _ => (T.chart_dir _).symm
  len := fun k _ => (one_mul _).symm
  ar := fun i _ => by rw [one_mul, one_mul]; rfl
  gas := ⟨rfl, mul_div_cancel₀ _ T.hb.ne', rfl, rfl⟩
  viscous := rfl
  constVisc := rfl
  re := fun _ => by rw [mul_one]; rfl
  dist := fun _ k _ => (one_mul _).symm
  vec := fun _ k _ => (T.chart_dir _).symm
  bc := fun k _ => by
    show (D.bc (D.tag k)).map T.obj = _
    congr 1; funext o; exact (T.chart_obj o).symm

theorem Units.resIm (hok : D.G.Ok) (hio : T.OutflowOk D) (hb : D.BcOk) (u : ℕ → St) : Charted.ResIm T.chart 1 D (T.disc D) (fun u => D.residual1 u 0) (fun u => (T.disc D).residual1 u 0) u := by
  have hst : (fun i => T.chart.st (u i)) = fun i => T.st (u i) := funext fun i => T.chart_st _
  have hz : (fun i => T.fl ((0 : ℕ → St) i)) = 0 := by funext i v; fin_cases v <;> simp
  have h1 := C99_first_order T D hio u 0
  rw [hz] at h1
  rcases h1 with ⟨e1, -⟩ | ⟨o, o', e1, e2, e3, e4⟩
  · unfold Disc.residual1 at e1; rw [if_pos hb] at e1; cases e1
  · refine ⟨o, o', e1, by rw [hst]; exact e2, fun i hi => ⟨fun v => ?_, ?_⟩⟩
    · rw [e4, T.chart_st, T.fl_eq]; simp [Units.chart]
    · rw [C99_time_steps T D hok (fun k hk => (e3 k hk).1) (fun k hk => (e3 k hk).2) hi]; simp [Units.chart]; ring

end units

/-! ### Runs -/

section runs
variable {D D' : Disc} (hok : D.G.Ok) (hn0 : D.G.m.nconnface = 0) (hb : D.BcJOk) {J J' : St → St → V2 → FJ} {relax relax' : St → St → ℝ}
  {ksp ksp' : (ℕ × ℕ → Blk (Fin 4)) → (ℕ → St) → ℕ → St} (hk : Exact D.G.m.nelem ksp) (hk' : Exact D.G.m.nelem ksp') {w : ℕ → St} {c : Conf} {k : ℕ} {out : Ode.Out}
  (hrun : Solve backwardEuler (implicit D J relax ksp) c w k out)
  (hgood : ∀ j, j < k → ∀ m, traj backwardEuler (implicit D J relax ksp) c w j = some m → GoodAt D m.u ∧
    ∀ o, D.residual1 m.u 0 = some o → Regular D.G.m.nelem (sysOne D J m.u o (nextCfl backwardEuler c m)))
include hok hn0 hb hk hk' hrun hgood

/-- C104, implicit steady runs on a mesh that is turned, shifted and scaled: same end after the same number of iterations, same CFL numbers, turned states. With a change of the
unit of length the CFL number of the second iteration is assumed not to depend on the unit of the residual norm (it may: `C94_second_cfl`). -/
theorem C104_moved_run_partial {T : Similarity} (h : Moved T D D') (hJ : T.chart.FamIm D.gas J J') (hrel : ∀ du u, Adm D.gas u → relax' (T.st du) (T.st u) = relax du u)
    (hcfl : T.L = 1 ∨ c.cflinit = c.cflfin ∨ ∀ m, 1 < k → traj backwardEuler (implicit D J relax ksp) c w 1 = some m → RampAgrees backwardEuler c (T.L ^ 2) m) :
    Solve backwardEuler (implicit D' J' relax' ksp') c (fun i => T.st (w i)) k out ∧
    (∀ k' out', Solve backwardEuler (implicit D' J' relax' ksp') c (fun i => T.st (w i)) k' out' → k' = k ∧ out' = out) ∧
    ∀ m, 0 < k → Loop (Ode.cond c) (body backwardEuler (implicit D J relax ksp) c) (init backwardEuler c w) k (some m) →
      ∃ m', Loop (Ode.cond c) (body backwardEuler (implicit D' J' relax' ksp') c) (init backwardEuler c fun i => T.st (w i)) k (some m') ∧
        (m'.u = fun i => T.st (m.u i)) ∧ m'.resi = T.L ^ 2 * m.resi ∧ m'.initres = T.L ^ 2 * m.initres ∧ m'.log = m.log := by
  have hst : ∀ f : ℕ → St, (fun i => T.chart.st (f i)) = fun i => T.st (f i) := fun f => funext fun i => T.chart_st _
  have hκ : T.chart.a * T.chart.b ^ 3 * T.L ^ 2 = T.L ^ 2 := by simp [Similarity.chart]
  have key := (h.charted hok).C104_run (ev := fun u => D.residual1 u 0) (ev' := fun u => D'.residual1 u 0) hok hn0 hJ hb hk hk' (relax := relax) (relax' := relax') hrun (fun du u hu => by rw [T.chart_st, T.chart_st]; exact hrel du u hu)
    (fun j hj m hm => ⟨h.resIm hok (bcOk_of_jOk hb) m.u, hgood j hj m hm⟩) (fun m h1 hm => by
      rw [hκ]
      rcases hcfl with h2 | h2 | h2
      · exact rampAgrees_of (.inl (by rw [h2]; norm_num)) m
      · exact rampAgrees_of (.inr h2) m
      · exact h2 m h1 hm)
  simp only [hst, hκ] at key
  exact key

/-- C104, implicit steady runs in other units of density and velocity. -/
theorem C104_units_run_partial (T : Units) (hio : T.OutflowOk D) (hJ : T.chart.FamIm D.gas J J') (hrel : ∀ du u, Adm D.gas u → relax' (T.st du) (T.st u) = relax du u)
    (hcfl : T.a * T.b ^ 3 = 1 ∨ c.cflinit = c.cflfin ∨ ∀ m, 1 < k → traj backwardEuler (implicit D J relax ksp) c w 1 = some m → RampAgrees backwardEuler c (T.a * T.b ^ 3) m) :
    Solve backwardEuler (implicit (T.disc D) J' relax' ksp') c (fun i => T.st (w i)) k out ∧
    (∀ k' out', Solve backwardEuler (implicit (T.disc D) J' relax' ksp') c (fun i => T.st (w i)) k' out' → k' = k ∧ out' = out) ∧
    ∀ m, 0 < k → Loop (Ode.cond c) (body backwardEuler (implicit D J relax ksp) c) (init backwardEuler c w) k (some m) →
      ∃ m', Loop (Ode.cond c) (body backwardEuler (implicit (T.disc D) J' relax' ksp') c) (init backwardEuler c fun i => T.st (w i)) k (some m') ∧
        (m'.u = fun i => T.st (m.u i)) ∧ m'.resi = T.a * T.b ^ 3 * m.resi ∧ m'.initres = T.a * T.b ^ 3 * m.initres ∧ m'.log = m.log := by
  have hst : ∀ f : ℕ → St, (fun i => T.chart.st (f i)) = fun i => T.st (f i) := fun f => funext fun i => T.chart_st _
  have hκ : T.chart.a * T.chart.b ^ 3 * (1 : ℝ) ^ 2 = T.a * T.b ^ 3 := by simp [Units.chart]
  have key := (T.charted D).C104_run (ev := fun u => D.residual1 u 0) (ev' := fun u => (T.disc D).residual1 u 0) hok hn0 hJ hb hk hk' (relax := relax) (relax' := relax') hrun (fun du u hu => by rw [T.chart_st, T.chart_st]; exact hrel du u hu)
    (fun j hj m hm => ⟨T.resIm D hok hio (bcOk_of_jOk hb) m.u, hgood j hj m hm⟩) (fun m h1 hm => by
      rw [hκ]
      rcases hcfl with h2 | h2 | h2
      · exact rampAgrees_of (.inl h2) m
      · exact rampAgrees_of (.inr h2) m
      · exact h2 m h1 hm)
  simp only [hst, hκ] at key
  exact key

end runs

/-! ### Relaxation -/

/-- C104, `FlowSimpleUpdate`: its factor is the same in charts that keep the axes up to sign and the unit of velocity. -/
theorem C104_relax_partial (χ : Chart) (hs : χ.s = 0) (hb : χ.b = 1) {G G' : Gas} (hg : G'.g = G.g) (mf : ℝ) (du u : St) :
    relaxFactor G' mf (χ.st du) (χ.st u) = relaxFactor G mf du u := by
  have ha := χ.ha.ne'
  have hc : χ.c * χ.c = 1 := by have := χ.unit; rw [hs] at this; linarith
  have hec : (χ.e * χ.c) ^ 2 = 1 := by linear_combination χ.e * χ.e * hc + χ.flip
  have e2 : ∀ u : St, χ.st u 2 = χ.a * (χ.e * χ.c * u 2) := fun u => by rw [Chart.st_2, hs, hb]; ring
  have e3 : ∀ u : St, χ.st u 3 = χ.a * u 3 := fun u => by rw [Chart.st_3, hb]; ring
  have hp : G'.pressure (χ.st u) = χ.a * G.pressure u := by rw [χ.pressure_st hg, hb]; ring
  have ht2 : Gas.deltaPTerm (χ.st u) (χ.st du) 2 = χ.a ^ 3 * Gas.deltaPTerm u du 2 := by
    unfold Gas.deltaPTerm
    rw [e2, e2, Chart.st_0, Chart.st_0]
    linear_combination χ.a ^ 3 * ((u 2 + (u 2 + du 2)) * (u 0 + (u 0 + du 0)) / 2 * du 2 - ((u 2 + du 2) * (u 2 + du 2) + u 2 * u 2) / 2 * du 0) * hec
  have ht3 : Gas.deltaPTerm (χ.st u) (χ.st du) 3 = χ.a ^ 3 * Gas.deltaPTerm u du 3 := by
    unfold Gas.deltaPTerm
    rw [e3, e3, Chart.st_0, Chart.st_0]; ring
  have hd : G'.deltaPressure (χ.st u) (χ.st du) = χ.a * G.deltaPressure u du := by
    unfold Gas.deltaPressure
    simp only [ht2, ht3, e3, Chart.st_0, hg]
    have : 1 / (2 * (χ.a * u 0) * (χ.a * u 0 + χ.a * du 0)) * (0 - χ.a ^ 3 * Gas.deltaPTerm u du 2 - χ.a ^ 3 * Gas.deltaPTerm u du 3) =
        χ.a * (1 / (2 * u 0 * (u 0 + du 0)) * (0 - Gas.deltaPTerm u du 2 - Gas.deltaPTerm u du 3)) := by
      rw [show 2 * (χ.a * u 0) * (χ.a * u 0 + χ.a * du 0) = χ.a ^ 2 * (2 * u 0 * (u 0 + du 0)) by ring, ← one_div_mul_one_div]
      field_simp
      ring
    rw [this]; ring
  unfold relaxFactor
  simp only [hd, hp, Chart.st_0, abs_mul, abs_of_pos χ.ha, mul_div_mul_left _ _ ha]

theorem comp (a b c d : ℝ) : (![a, b, c, d] : St) 0 = a ∧ (![a, b, c, d] : St) 1 = b ∧ (![a, b, c, d] : St) 2 = c ∧ (![a, b, c, d] : St) 3 = d := ⟨rfl, rfl, rfl, rfl⟩

/-- A turn by a right angle. -/
def quarter : Similarity := ⟨0, 1, 1, 0, by norm_num, one_pos⟩

/-- C104 is false of runs with `FlowSimpleUpdate`: its pressure increment leaves out the first momentum component (src/physics/aphysics_defs.hpp:74), so that the factor for the same
update of the same state changes when the axes are turned by a right angle. -/
theorem C104_relax_axes_refuted : ∃ u du : St, Adm air u ∧ Adm air (u + du) ∧ relaxFactor air (1 / 10) du u = 1 ∧
    relaxFactor air (1 / 10) (quarter.st du) (quarter.st u) < 1 := by
  refine ⟨![1, 0, 0, 1], ![0, 1 / 2, 0, 0], ⟨by norm_num [air], by norm_num, ?_⟩, ⟨by norm_num [air], by norm_num, ?_⟩, ?_, ?_⟩
  · norm_num [Gas.pressure, Gas.pressureOfInternal, air, mom, dot, comp, Pi.add_apply]
  · norm_num [Gas.pressure, Gas.pressureOfInternal, air, mom, dot, comp, Pi.add_apply]
  · norm_num [relaxFactor, Gas.deltaPressure, Gas.deltaPTerm, Gas.pressure, Gas.pressureOfInternal, air, mom, dot, comp, Pi.add_apply]
  · norm_num [relaxFactor, Gas.deltaPressure, Gas.deltaPTerm, Gas.pressure, Gas.pressureOfInternal, air, mom, dot, comp, Pi.add_apply, quarter, Similarity.st, rotS]

/-- Units of velocity are doubled. -/
noncomputable def fast : Units := ⟨1, 2, one_pos, two_pos⟩

/-- C104 is false of runs with `FlowSimpleUpdate`: its pressure increment adds squares of momentum and of energy, so that the factor for the same update of the same state changes
with the unit of velocity. -/
theorem C104_relax_units_refuted : ∃ u du : St, Adm air u ∧ Adm air (u + du) ∧
    relaxFactor (fast.gas air) (1 / 10) (fast.st du) (fast.st u) < relaxFactor air (1 / 10) du u := by
  refine ⟨![1, 0, 0, 1], ![0, 0, 0, 1 / 10], ⟨by norm_num [air], by norm_num, ?_⟩, ⟨by norm_num [air], by norm_num, ?_⟩, ?_⟩
  · norm_num [Gas.pressure, Gas.pressureOfInternal, air, mom, dot, comp, Pi.add_apply]
  · norm_num [Gas.pressure, Gas.pressureOfInternal, air, mom, dot, comp, Pi.add_apply]
  · norm_num [relaxFactor, Gas.deltaPressure, Gas.deltaPTerm, Gas.pressure, Gas.pressureOfInternal, air, mom, dot, comp, Pi.add_apply, fast, Units.st, Units.gas]

end FVENS
