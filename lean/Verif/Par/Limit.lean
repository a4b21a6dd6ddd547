import Verif.Flux.Continuous
import Verif.Par.Positive
import Verif.Par.Steady

/-!
# Continuity of the first-order discretisation, and limits of runs (C113)

The residual, the local time steps and the explicit update are continuous functions of the cell states wherever states and ghost states are admissible and the boundary conditions
continuous. So a run of the explicit solver whose states converge has come to a steady state, and is reported as converged.
-/

namespace FVENS
namespace Par

open Msh FV Flux Ode Filter Topology
open Finset (range)

/-! ### Boundary conditions -/

section bc
variable {X : Type} [TopologicalSpace X] {x : X} {G : Gas} {f : X → St} {n : V2}

theorem c_pres (hf : ContinuousAt f x) (h0 : f x 0 ≠ 0) : ContinuousAt (fun y => G.pressure (f y)) x := by
  refine (c_p (G := G) hf h0).congr ?_
  filter_upwards [(c_comp hf 0).eventually_ne h0] with y hy
  exact varsP_eq hy

theorem c_sound (hf : ContinuousAt f x) (h0 : f x 0 ≠ 0) : ContinuousAt (fun y => G.soundSpeedC (f y)) x :=
  c_sqrt ((continuousAt_const.mul (c_pres hf h0)).div (c_comp hf 0) h0)

theorem c_mn (hf : ContinuousAt f x) (n : V2) : ContinuousAt (fun y => dot (mom (f y)) n) x :=
  ((c_comp hf 1).mul continuousAt_const).add ((c_comp hf 2).mul continuousAt_const)

theorem c_m2 (hf : ContinuousAt f x) : ContinuousAt (fun y => dot (mom (f y)) (mom (f y))) x :=
  ((c_comp hf 1).mul (c_comp hf 1)).add ((c_comp hf 2).mul (c_comp hf 2))

end bc

/-- Boundary conditions given by a single formula that is defined for every state of positive density. -/
def OneFormula : BC.Obj → Prop
  | .inOut _ | .inflow _ _ => False
  | _ => True

/-- C113: the ghost states of slip walls, far-field and extrapolation boundaries and of adiabatic and isothermal walls depend continuously on the inside state. -/
theorem C113_ghost (G : Gas) {o : BC.Obj} (ho : OneFormula o) {u : St} (hu : 0 < u 0) (n : V2) : ContinuousAt (fun w => o.ghost G w n) u := by
  have hf : ContinuousAt (fun w : St => w) u := continuousAt_id
  have f0 := c_comp hf 0
  have f1 := c_comp hf 1
  have f2 := c_comp hf 2
  have f3 := c_comp hf 3
  have h0 := hu.ne'
  cases o with
  | slip =>
    have hv := (c_mn hf n).div f0 h0
    exact contAt_vec4 f0 (f1.sub (((continuousAt_const.mul hv).mul continuousAt_const).mul f0)) (f2.sub (((continuousAt_const.mul hv).mul continuousAt_const).mul f0)) f3
  | farfield c => exact continuousAt_const
  | inOut c => exact ho.elim
  | inflow a b => exact ho.elim
  | extrapolation => exact hf
  | adiabatic tv =>
    have ht : ContinuousAt (fun w : St => tv * w 0) u := continuousAt_const.mul f0
    exact contAt_vec4 f0 (((continuousAt_const.mul ht).mul continuousAt_const).sub f1) (((continuousAt_const.mul ht).mul continuousAt_const).sub f2) f3
  | isothermal tv tw =>
    have hp : ContinuousAt (fun w : St => 2 * tw - G.temperature (w 0) (G.pressure w)) u :=
      continuousAt_const.sub (((((c_pres hf h0).div f0 h0).mul continuousAt_const).mul continuousAt_const).mul continuousAt_const)
    have g1 : ContinuousAt (fun w : St => w 0 * (2 * tv * n 1 - w 1 / w 0)) u := f0.mul (continuousAt_const.sub (f1.div f0 h0))
    have g2 : ContinuousAt (fun w : St => w 0 * (-2 * tv * n 0 - w 2 / w 0)) u := f0.mul (continuousAt_const.sub (f2.div f0 h0))
    have hv := ((g1.mul g1).add (g2.mul g2)).div (f0.mul f0) (mul_ne_zero h0 h0)
    exact contAt_vec4 f0 g1 g2 (f0.mul ((hp.div_const _).add (continuousAt_const.mul hv)))

/-- Ghost state of the characteristic boundary for subsonic outflow, in words: inside state with the pressure of the free stream. -/
noncomputable def outState (G : Gas) (u : St) : St :=
  ![u 0, u 1, u 2, G.freestreamPressure / (G.g - 1) + 1 / 2 * (u 1 * u 1 + u 2 * u 2) / u 0]

theorem inOut_eq (G : Gas) (c u : St) (n : V2) (h0 : u 0 ≠ 0) : BC.inOut G c u n = if BC.machN G u n ≤ 0 then c else if BC.machN G u n < 1 then outState G u else u := by
  unfold BC.inOut outState
  have : G.energyOfP G.freestreamPressure (u 0) (dot (mom u) (mom u) / (u 0 * u 0)) = G.freestreamPressure / (G.g - 1) + 1 / 2 * (u 1 * u 1 + u 2 * u 2) / u 0 := by
    unfold Gas.energyOfP dot mom
    simp
    field_simp
  simp only [this]

theorem c_out {G : Gas} {u : St} (h0 : u 0 ≠ 0) : ContinuousAt (outState G) u := by
  have hf : ContinuousAt (fun w : St => w) u := continuousAt_id
  have f0 := c_comp hf 0
  have f1 := c_comp hf 1
  have f2 := c_comp hf 2
  exact contAt_vec4 f0 f1 f2 (continuousAt_const.add ((continuousAt_const.mul ((f1.mul f1).add (f2.mul f2))).div f0 h0))

theorem c_machN {G : Gas} {u : St} (hu : Adm G u) (n : V2) : ContinuousAt (fun w => BC.machN G w n) u := by
  have hf : ContinuousAt (fun w : St => w) u := continuousAt_id
  exact ((c_mn hf n).div (c_comp hf 0) hu.rho').div (c_sound hf hu.rho') (Disc.soundSpeed_pos hu).ne'

/-- Approached with a little outflow, a state without flow across the boundary has the ghost state of subsonic outflow. -/
theorem inOut_near {G : Gas} (c : St) {u : St} (hu : Adm G u) {n : V2} (hn : n 0 * n 0 + n 1 * n 1 = 1) (e : BC.machN G u n = 0) :
    Tendsto (fun t : ℝ => (u + t • ![0, n 0, n 1, 0] : St)) (𝓝[>] 0) (𝓝 u) ∧
      ∀ᶠ t in 𝓝[>] (0 : ℝ), (BC.Obj.inOut c).ghost G (u + t • ![0, n 0, n 1, 0]) n = outState G (u + t • ![0, n 0, n 1, 0]) := by
  have hf : ContinuousAt (fun w : St => w) u := continuousAt_id
  have hm := c_machN hu n
  have hp : Continuous fun t : ℝ => (u + t • ![0, n 0, n 1, 0] : St) := by fun_prop
  have hp0 : (u + (0 : ℝ) • ![0, n 0, n 1, 0] : St) = u := by simp
  have h1 : Tendsto (fun t : ℝ => (u + t • ![0, n 0, n 1, 0] : St)) (𝓝[>] 0) (𝓝 u) := by
    have := hp.tendsto 0
    rw [hp0] at this
    exact this.mono_left nhdsWithin_le_nhds
  refine ⟨h1, ?_⟩
  have a1 : ∀ᶠ t in 𝓝[>] (0 : ℝ), BC.machN G (u + t • ![0, n 0, n 1, 0]) n < 1 := by
    have := (hm.tendsto.comp h1).eventually (gt_mem_nhds (show BC.machN G u n < 1 by rw [e]; norm_num))
    exact this
  have a2 : ∀ᶠ t in 𝓝[>] (0 : ℝ), 0 < G.soundSpeedC (u + t • ![0, n 0, n 1, 0]) :=
    ((c_sound hf hu.rho').tendsto.comp h1).eventually (lt_mem_nhds (Disc.soundSpeed_pos hu))
  filter_upwards [a1, a2, self_mem_nhdsWithin] with t b1 b2 b3
  have h0 : (u + t • ![0, n 0, n 1, 0] : St) 0 = u 0 := by simp
  have b4 : 0 < BC.machN G (u + t • ![0, n 0, n 1, 0]) n := by
    have hmn : dot (mom u) n = 0 := by
      have := (div_eq_zero_iff.1 e).resolve_right (Disc.soundSpeed_pos hu).ne'
      exact (div_eq_zero_iff.1 this).resolve_right hu.rho'
    unfold BC.machN
    refine div_pos (div_pos ?_ ?_) b2
    · have : dot (mom (u + t • ![0, n 0, n 1, 0])) n = dot (mom u) n + t * (n 0 * n 0 + n 1 * n 1) := by
        simp [dot, mom]; ring
      rw [this, hmn, hn]; simpa using b3
    · simpa using hu.rho
  show BC.inOut G c _ n = _
  rw [inOut_eq G c _ n (by rw [h0]; exact hu.rho'), if_neg (not_le.2 b4), if_pos b1]

/-- C113: exactly where the characteristic in- and outflow boundary is continuous. It jumps where the flow across the boundary stops, unless the far-field state is the inside state at free-stream
pressure, and where the outflow becomes sonic, unless it has free-stream pressure. -/
theorem C113_inOut_iff {G : Gas} {c u : St} (hu : Adm G u) {n : V2} (hn : n 0 * n 0 + n 1 * n 1 = 1) :
    ContinuousAt (fun w => (BC.Obj.inOut c).ghost G w n) u ↔
      (BC.machN G u n = 0 → c = outState G u) ∧ (BC.machN G u n = 1 → G.pressure u = G.freestreamPressure) := by
  have hf : ContinuousAt (fun w : St => w) u := continuousAt_id
  have hm := c_machN hu n
  have ho := c_out (G := G) hu.rho'
  have hg := hu.g1
  have hev : ∀ᶠ w in 𝓝 u, (if BC.machN G w n ≤ 0 then c else if BC.machN G w n < 1 then outState G w else w) = (BC.Obj.inOut c).ghost G w n := by
    filter_upwards [(c_comp hf 0).eventually_ne hu.rho'] with w hw
    exact (inOut_eq G c w n hw).symm
  have hu1 : G.pressure u = G.freestreamPressure ↔ outState G u = u := by
    have e : G.pressure u = (G.g - 1) * (u 3 - 1 / 2 * (u 1 * u 1 + u 2 * u 2) / u 0) := by
      simp [Gas.pressure, Gas.pressureOfInternal, dot, mom]
    have hg1 : G.g - 1 ≠ 0 := by linarith
    constructor
    · intro h
      have h3 : u 3 = G.freestreamPressure / (G.g - 1) + 1 / 2 * (u 1 * u 1 + u 2 * u 2) / u 0 := by
        rw [← h, e]; field_simp; ring
      funext i
      fin_cases i
      · rfl
      · rfl
      · rfl
      · exact h3.symm
    · intro h
      have h3 : G.freestreamPressure / (G.g - 1) + 1 / 2 * (u 1 * u 1 + u 2 * u 2) / u 0 = u 3 := congrFun h 3
      rw [e, ← h3]; field_simp; ring
  rw [hu1]
  constructor
  · intro hc
    have hc' : ContinuousAt (fun w => if BC.machN G w n ≤ 0 then c else if BC.machN G w n < 1 then outState G w else w) u := hc.congr (hev.mono fun w hw => hw.symm)
    constructor
    · intro e
      obtain ⟨h1, h4⟩ := inOut_near c hu hn e
      have h2 := hc.tendsto.comp h1
      have h3 := ho.tendsto.comp h1
      rw [show (BC.Obj.inOut c).ghost G u n = c by
        show BC.inOut G c u n = c
        rw [inOut_eq G c u n hu.rho', if_pos e.le]] at h2
      exact tendsto_nhds_unique h2 (h3.congr' (h4.mono fun t ht => ht.symm))
    · intro e
      have hp : Continuous fun t : ℝ => (u + t • ![0, 0, 0, 1] : St) := by fun_prop
      have hp0 : (u + (0 : ℝ) • ![0, 0, 0, 1] : St) = u := by simp
      have h1 : Tendsto (fun t : ℝ => (u + t • ![0, 0, 0, 1] : St)) (𝓝[>] 0) (𝓝 u) := by
        have := hp.tendsto 0
        rw [hp0] at this
        exact this.mono_left nhdsWithin_le_nhds
      have h2 := hc'.tendsto.comp h1
      have h3 := ho.tendsto.comp h1
      rw [if_neg (by rw [e]; norm_num), if_neg (by rw [e]; norm_num)] at h2
      refine tendsto_nhds_unique h3 (h2.congr' ?_)
      have a1 : ∀ᶠ t in 𝓝[>] (0 : ℝ), 0 < BC.machN G (u + t • ![0, 0, 0, 1]) n := by
        have := (hm.tendsto.comp h1).eventually (lt_mem_nhds (show 0 < BC.machN G u n by rw [e]; norm_num))
        exact this
      filter_upwards [a1, self_mem_nhdsWithin] with t b1 b3
      have b3 : 0 < t := b3
      have b4 : BC.machN G (u + t • ![0, 0, 0, 1]) n < 1 := by
        have hmn : dot (mom u) n / u 0 = G.soundSpeedC u := (div_eq_one_iff_eq (Disc.soundSpeed_pos hu).ne').1 e
        have hmom : dot (mom (u + t • ![0, 0, 0, 1])) n / (u + t • ![0, 0, 0, 1] : St) 0 = G.soundSpeedC u := by
          rw [← hmn]; simp [dot, mom]
        have hlt : G.soundSpeedC u < G.soundSpeedC (u + t • ![0, 0, 0, 1]) := by
          unfold Gas.soundSpeedC Gas.soundSpeed
          have hpr : G.pressure (u + t • ![0, 0, 0, 1]) = G.pressure u + (G.g - 1) * t := by
            simp [Gas.pressure, Gas.pressureOfInternal, dot, mom]; ring
          have h0 : (u + t • ![0, 0, 0, 1] : St) 0 = u 0 := by simp
          rw [hpr, h0]
          have := hu.rho; have := hu.p; have : 0 < G.g := by linarith
          have : 0 < G.g - 1 := by linarith
          refine Real.sqrt_lt_sqrt (by positivity) ?_
          refine div_lt_div_of_pos_right ?_ hu.rho
          refine mul_lt_mul_of_pos_left ?_ (by linarith)
          have : 0 < (G.g - 1) * t := by positivity
          linarith
        unfold BC.machN
        rw [hmom, div_lt_one (lt_trans (Disc.soundSpeed_pos hu) hlt)]
        exact hlt
      show (if _ then _ else _) = outState G _
      rw [if_neg (not_le.2 b1), if_pos b4]
  · rintro ⟨h0, h1⟩
    refine ContinuousAt.congr ?_ hev
    refine contAt_ite_le hm continuousAt_const continuousAt_const (contAt_ite_lt hm continuousAt_const ho hf fun e => h1 e) fun e => ?_
    rw [if_pos (by rw [e]; norm_num)]
    exact h0 e

/-- C113 fails for the characteristic in- and outflow boundary: with still air inside, of the pressure of the free stream and another density, the flux through the boundary jumps as soon
as there is any outflow. -/
theorem C113_inOut_refuted : ∃ c u : St, Adm air c ∧ Adm air u ∧ air.pressure u = air.freestreamPressure ∧ air.pressure c = air.freestreamPressure ∧
    ¬ ContinuousAt (fun w => Scheme.llf.flux air w ((BC.Obj.inOut c).ghost air w ![1, 0]) ![1, 0]) u := by
  have hP : 0 < air.freestreamPressure := by norm_num [Gas.freestreamPressure, air]
  set P := air.freestreamPressure with hPd
  set u : St := ![1, 0, 0, P / (2 / 5)] with hu'
  set c : St := ![2, 0, 0, P / (2 / 5)] with hc'
  have pu : air.pressure u = P := by simp [hu', Gas.pressure, Gas.pressureOfInternal, air, dot, mom]; ring
  have pc : air.pressure c = P := by simp [hc', Gas.pressure, Gas.pressureOfInternal, air, dot, mom]; ring
  have au : Adm air u := ⟨by norm_num [air], by simp [hu'], by rw [pu]; exact hP⟩
  have ac : Adm air c := ⟨by norm_num [air], by simp [hc'], by rw [pc]; exact hP⟩
  refine ⟨c, u, ac, au, pu, pc, fun hcont => ?_⟩
  have e : BC.machN air u ![1, 0] = 0 := by simp [BC.machN, hu', dot, mom]
  obtain ⟨h1, h2⟩ := inOut_near c au (n := ![1, 0]) (by simp) e
  have hou : outState air u = u := by
    funext i
    have hg : air.g - 1 = 2 / 5 := by norm_num [air]
    fin_cases i <;> simp [outState, hu', hg, ← hPd]
  have h3 := hcont.tendsto.comp h1
  have h4 : Tendsto (fun t : ℝ => Scheme.llf.flux air (u + t • ![0, (![1, 0] : V2) 0, (![1, 0] : V2) 1, 0]) (outState air (u + t • ![0, (![1, 0] : V2) 0, (![1, 0] : V2) 1, 0])) ![1, 0]) (𝓝[>] 0)
      (𝓝 (Scheme.llf.flux air u (outState air u) ![1, 0])) :=
    (ContinuousAt.comp (g := fun q : St × St => Scheme.llf.flux air q.1 q.2 ![1, 0]) (f := fun w => (w, outState air w)) (x := u)
      (C113_flux .llf au (by rw [hou]; exact au) (by simp) _) (continuousAt_id.prodMk (c_out au.rho'))).tendsto.comp h1
  have h5 := tendsto_nhds_unique h3 (h4.congr' (h2.mono fun t ht => by simp only [Function.comp, ht]))
  have hg : (BC.Obj.inOut c).ghost air u ![1, 0] = c := by
    show BC.inOut air c u ![1, 0] = c
    rw [inOut_eq air c u _ au.rho', if_pos e.le]
  rw [hou, hg] at h5
  have h6 := congrFun h5 0
  have hc0 := ac.c_pos
  have hc1 := au.c_pos
  have hE : 0 < llfEig (Gas.varsVn u ![1, 0]) (cSide air u) (Gas.varsVn c ![1, 0]) (cSide air c) := by
    unfold llfEig
    split_ifs
    · have := abs_nonneg (Gas.varsVn u ![1, 0]); linarith
    · have := abs_nonneg (Gas.varsVn c ![1, 0]); linarith
  simp only [Scheme.flux, llf] at h6
  have k1 : air.eulerFlux u ![1, 0] 0 = 0 := by simp [Gas.eulerFlux, Gas.dirFlux, hu', dot, mom]
  have k2 : air.eulerFlux c ![1, 0] 0 = 0 := by simp [Gas.eulerFlux, Gas.dirFlux, hc', dot, mom]
  rw [k1, k2] at h6
  have k3 : c 0 - u 0 = 1 := by simp [hu', hc']; norm_num
  rw [k3, sub_self] at h6
  linarith

/-! ### Viscous fluxes -/

section visc
variable {X : Type} [TopologicalSpace X] {x : X} {G : Gas} {f h : X → St} {n : V2}

theorem c_temp (hf : ContinuousAt f x) (h0 : f x 0 ≠ 0) : ContinuousAt (fun y => G.temperatureC (f y)) x :=
  ((((c_pres hf h0).div (c_comp hf 0) h0).mul continuousAt_const).mul continuousAt_const).mul continuousAt_const

theorem c_visc (hf : ContinuousAt f x) (ha : Adm G (f x)) (hT : 0 < G.Tinf) (hM : 0 < G.Minf) : ContinuousAt (fun y => G.viscosityC (f y)) x := by
  have ht := c_temp (G := G) hf ha.rho'
  have hpos : 0 < G.temperatureC (f x) := by
    have := ha.rho; have := ha.p; have := ha.g1
    have : 0 < G.g := by linarith
    unfold Gas.temperatureC Gas.temperature; positivity
  have hs : 0 < sC / G.Tinf := by unfold sC; positivity
  exact ((continuousAt_const.div (ht.add continuousAt_const) (add_pos hpos hs).ne').mul (ht.rpow_const (Or.inl hpos.ne'))).div_const _

theorem c_prim2 (hf : ContinuousAt f x) (h0 : f x 0 ≠ 0) (i : Fin 4) : ContinuousAt (fun y => G.prim2OfCons (f y) i) x :=
  c_comp (f := fun y => G.prim2OfCons (f y)) (contAt_vec4 (c_comp hf 0) ((c_comp hf 1).div (c_comp hf 0) h0) ((c_comp hf 2).div (c_comp hf 0) h0) (c_temp hf h0)) i

theorem c_viscFlux {cv : Bool} {grad : X → Gr} (hg : ∀ j i, ContinuousAt (fun y => grad y j i) x) (hf : ContinuousAt f x) (hh : ContinuousAt h x) (al : Adm G (f x)) (ar : Adm G (h x))
    (hT : 0 < G.Tinf) (hM : 0 < G.Minf) : ContinuousAt (fun y => viscFlux G cv n (grad y) (f y) (h y)) x := by
  have hmu : ContinuousAt (fun y => faceMu G cv (f y) (h y)) x := by
    unfold faceMu
    cases cv with
    | true => exact continuousAt_const
    | false => exact continuousAt_const.mul ((c_visc hf al hT hM).add (c_visc hh ar hT hM))
  have hk : ContinuousAt (fun y => G.conductivity (faceMu G cv (f y) (h y))) x := hmu.div_const _
  have hs : ∀ i j, ContinuousAt (fun y => stress (faceMu G cv (f y) (h y)) (grad y) i j) x := fun i j => by
    unfold stress
    refine (hmu.mul ((hg i (vix j)).add (hg j (vix i)))).sub ?_
    split_ifs
    · exact (continuousAt_const.mul hmu).mul ((hg 0 1).add (hg 1 2))
    · exact continuousAt_const
  have hv : ∀ j : Fin 2, ContinuousAt (fun y => 1 / 2 * (f y (vix j) / f y 0 + h y (vix j) / h y 0)) x := fun j =>
    continuousAt_const.mul (((c_comp hf _).div (c_comp hf 0) al.rho').add ((c_comp hh _).div (c_comp hh 0) ar.rho'))
  have hm : ∀ i, ContinuousAt (fun y => (0 - stress (faceMu G cv (f y) (h y)) (grad y) i 0 * n 0) - stress (faceMu G cv (f y) (h y)) (grad y) i 1 * n 1) x := fun i =>
    (continuousAt_const.sub ((hs i 0).mul continuousAt_const)).sub ((hs i 1).mul continuousAt_const)
  have hc : ∀ i, ContinuousAt (fun y => ((0 + stress (faceMu G cv (f y) (h y)) (grad y) i 0 * (1 / 2 * (f y (vix 0) / f y 0 + h y (vix 0) / h y 0)))
      + stress (faceMu G cv (f y) (h y)) (grad y) i 1 * (1 / 2 * (f y (vix 1) / f y 0 + h y (vix 1) / h y 0))) + G.conductivity (faceMu G cv (f y) (h y)) * grad y i 3) x := fun i =>
    ((continuousAt_const.add ((hs i 0).mul (hv 0))).add ((hs i 1).mul (hv 1))).add (hk.mul (hg i 3))
  exact contAt_vec4 continuousAt_const (hm 0) (hm 1) ((continuousAt_const.sub ((hc 0).mul continuousAt_const)).sub ((hc 1).mul continuousAt_const))

end visc

theorem c_thin {X : Type} [TopologicalSpace X] {x : X} {a b : X → St} (xl xr : V2) (ha : ∀ i, ContinuousAt (fun y => a y i) x) (hb : ∀ i, ContinuousAt (fun y => b y i) x) (j : Fin 2) (i : Fin 4) :
    ContinuousAt (fun y => thinGrad xl xr (a y) (b y) j i) x := (((hb i).sub (ha i)).div_const _).mul continuousAt_const

theorem viscousFlux_thin (G : Gas) (cv : Bool) (n xl xr : V2) (cl cr : St) (gl gr : Gr) (ul ur : St) :
    viscousFlux G false cv n xl xr cl cr gl gr ul ur = viscFlux G cv n (thinGrad xl xr (G.prim2OfCons cl) (G.prim2OfCons cr)) ul ur := by
  have : faceGrad xl xr (G.prim2OfCons cl) (G.prim2OfCons cr) 0 0 = thinGrad xl xr (G.prim2OfCons cl) (G.prim2OfCons cr) := by
    funext j i
    simp [faceGrad, thinGrad, dot]
  simp only [viscousFlux, state2, Bool.false_eq_true, if_false, this]

/-! ### Residual, time step, update -/

section disc
variable {D : Disc} {u : ℕ → St}

/-- States for which the first-order discretisation is regular: cells and ghost states admissible, boundary conditions continuous. -/
structure Tame (D : Disc) (u : ℕ → St) : Prop where
  cells : ∀ i, i < D.G.rows → Adm D.gas (u i)
  ghost : ∀ k, k < D.G.m.nbface → Adm D.gas (D.bstate k (u (D.G.face k).left))
  cont : ∀ k, k < D.G.m.nbface → ContinuousAt (D.bstate k) (u (D.G.face k).left)

/-- Face states of the first-order discretisation. -/
noncomputable def leftOf (D : Disc) (w : ℕ → St) (k : ℕ) : St := w (D.G.face k).left
noncomputable def rightOf (D : Disc) (w : ℕ → St) (k : ℕ) : St := if k < D.G.m.nbface then D.bstate k (w (D.G.face k).left) else w (D.G.face k).right

theorem residual1_eq (hb : D.BcOk) (w r : ℕ → St) :
    D.residual1 w r = some ⟨leftOf D w, rightOf D w, D.fluxes false w 0 (leftOf D w) (rightOf D w) (rightOf D w) r⟩ := by
  unfold Disc.residual1
  rw [if_pos hb]
  rfl

theorem c_cell (i : ℕ) : ContinuousAt (fun w : ℕ → St => w i) u := continuousAt_apply i u

theorem c_right (hr : Tame D u) (k : ℕ) : ContinuousAt (fun w => rightOf D w k) u := by
  unfold rightOf
  split_ifs with hk
  · exact (hr.cont k hk).comp (f := fun w : ℕ → St => w (D.G.face k).left) (c_cell _)
  · exact c_cell _

theorem left_adm (h : D.G.Ok) (hr : Tame D u) {k : ℕ} (hk : k < D.G.nface) : Adm D.gas (leftOf D u k) :=
  hr.cells _ (by have := (h.kind hk).1; unfold Geo.rows; omega)

theorem right_adm (h : D.G.Ok) (hr : Tame D u) {k : ℕ} (hk : k < D.G.nface) : Adm D.gas (rightOf D u k) := by
  unfold rightOf
  split_ifs with hb
  · exact hr.ghost k hb
  · exact hr.cells _ ((h.kind hk).2.2.2.2 (by omega))

theorem c_face (h : D.G.Ok) (hD : D.GasOk) (hg : D.scheme = .hllc → 4 ≤ 3 * D.gas.g) (hr : Tame D u) {k : ℕ} (hk : k < D.G.nface) :
    ContinuousAt (fun w => D.faceFlux false w 0 (leftOf D w) (rightOf D w) (rightOf D w) k) u := by
  have al := left_adm h hr hk
  have ar := right_adm h hr hk
  have cl : ContinuousAt (fun w => leftOf D w k) u := c_cell _
  have cr := c_right hr k
  have hfl : ContinuousAt (fun w => D.scheme.flux D.gas (leftOf D w k) (rightOf D w k) (D.G.nrm k)) u :=
    ContinuousAt.comp (g := fun q : St × St => D.scheme.flux D.gas q.1 q.2 (D.G.nrm k)) (f := fun w => (leftOf D w k, rightOf D w k))
      (C113_flux D.scheme al ar hg (D.G.nrm k)) (cl.prodMk cr)
  refine continuousAt_pi.2 fun v => ?_
  unfold Disc.faceFlux
  refine ((c_comp hfl v).mul continuousAt_const).add ?_
  by_cases hv : D.viscous
  · simp only [hv, if_true]
    have hur : ContinuousAt (fun w => D.G.ur w (rightOf D w) k) u := by
      unfold Geo.ur
      split_ifs
      · exact cr
      · exact c_cell _
    have aur : Adm D.gas (D.G.ur u (rightOf D u) k) := by
      unfold Geo.ur
      split_ifs with hb
      · exact ar
      · have := ar; unfold rightOf at this; rwa [if_neg hb] at this
    have hu0 : ContinuousAt (fun w : ℕ → St => w (D.G.face k).left) u := c_cell _
    have hvf : ContinuousAt (fun w => viscousFlux D.gas false D.constVisc (D.G.nrm k) (D.G.xl k) (D.G.xr k) (w (D.G.face k).left) (D.G.ur w (rightOf D w) k)
        ((0 : ℕ → Gr) (D.G.face k).left) (if k < D.G.m.nbface then (0 : ℕ → Gr) (D.G.face k).left else (0 : ℕ → Gr) (D.G.face k).right) (leftOf D w k) (rightOf D w k)) u := by
      simp_rw [viscousFlux_thin]
      exact c_viscFlux (fun j i => c_thin _ _ (c_prim2 hu0 al.rho') (c_prim2 hur aur.rho') j i) cl cr al ar hD.tinf hD.mach
    exact (c_comp hvf v).mul continuousAt_const
  · simp only [hv]
    exact continuousAt_const

/-- C113: the first-order residual of each cell is a continuous function of the states of the cells, inviscid and viscous, for every scheme. -/
theorem C113_residual (h : D.G.Ok) (hD : D.GasOk) (hg : D.scheme = .hllc → 4 ≤ 3 * D.gas.g) (hb : D.BcOk) (hr : Tame D u) (r : ℕ → St) :
    ∃ R : (ℕ → St) → ℕ → St, (∀ w, ∃ o, D.residual1 w r = some o ∧ o.res = R w) ∧ ∀ i, ContinuousAt (fun w => R w i) u := by
  refine ⟨fun w => D.fluxes false w 0 (leftOf D w) (rightOf D w) (rightOf D w) r, fun w => ⟨_, residual1_eq hb w r, rfl⟩, fun i => ?_⟩
  unfold Disc.fluxes
  simp_rw [assemble_eq]
  refine continuousAt_const.add (tendsto_finsetSum _ fun k hk => ?_)
  have hc := c_face h hD hg hr (k := k) (Finset.mem_range.1 hk)
  have hite : ∀ p : Prop, [Decidable p] → ContinuousAt (fun w => if p then D.faceFlux false w 0 (leftOf D w) (rightOf D w) (rightOf D w) k else 0) u := fun p _ => by
    split_ifs
    · exact hc
    · exact continuousAt_const
  exact (hite _).sub (hite _)

theorem c_specRad {X : Type} [TopologicalSpace X] {x : X} {f : X → St} (hD : D.GasOk) (hf : ContinuousAt f x) (ha : Adm D.gas (f x)) (k : ℕ) (ar : ℝ) :
    ContinuousAt (fun y => D.specRad (f y) k ar) x := by
  unfold Disc.specRad
  refine ((((c_mn hf _).div (c_comp hf 0) ha.rho').abs.add (c_sound hf ha.rho')).mul continuousAt_const).add ?_
  by_cases hv : D.viscous
  · simp only [hv, if_true]
    have hmu : ContinuousAt (fun y => if D.constVisc then D.gas.constViscosity else D.gas.viscosityC (f y)) x := by
      split_ifs
      · exact continuousAt_const
      · exact c_visc hf ha hD.tinf hD.mach
    have h3 : (3 : ℝ) * f x 0 ≠ 0 := mul_ne_zero (by norm_num) ha.rho'
    have hmax := ((continuousAt_const (y := (4 : ℝ))).div (continuousAt_const.mul (c_comp hf 0)) h3).max ((continuousAt_const (y := D.gas.g)).div (c_comp hf 0) ha.rho')
    exact ((((hmax.mul hmu).div_const _).mul continuousAt_const).mul continuousAt_const).div_const _
  · simp only [hv]
    exact continuousAt_const

/-- C113: the local time steps are continuous functions of the states of the cells. -/
theorem C113_timestep (h : D.G.Ok) (hD : D.GasOk) (hb : D.BcOk) (hr : Tame D u) {i : ℕ} (hi : i < D.G.m.nelem) (har : 0 < D.G.ar i) (r : ℕ → St) :
    ∃ T : (ℕ → St) → ℝ, (∀ w, ∃ o, D.residual1 w r = some o ∧ D.timestep o.uL o.uR i = T w) ∧ ContinuousAt T u ∧ 0 < T u := by
  have hpos : 0 < D.timestep (leftOf D u) (rightOf D u) i :=
    (Disc.C51_positive_bounded h hD (fun k hk => left_adm h hr hk) (fun k hk _ => right_adm h hr hk) hi har).1
  refine ⟨fun w => D.timestep (leftOf D w) (rightOf D w) i, fun w => ⟨_, residual1_eq hb w r, rfl⟩, ?_, hpos⟩
  have hne : D.integ (leftOf D u) (rightOf D u) i ≠ 0 := fun e => by
    unfold Disc.timestep at hpos
    rw [e, div_zero] at hpos
    exact lt_irrefl _ hpos
  refine continuousAt_const.div ?_ hne
  simp_rw [Disc.C51_integral h _ _ hi]
  refine tendsto_finsetSum _ fun k hk => ?_
  have hk' : k < D.G.nface := Finset.mem_range.1 (Finset.mem_filter.1 hk).1
  unfold Disc.sideRad
  refine c_specRad (f := fun w => if (D.G.face k).left = i then leftOf D w k else rightOf D w k) hD ?_ ?_ k _
  · split_ifs
    · exact c_cell _
    · exact c_right hr k
  · show Adm D.gas (if (D.G.face k).left = i then leftOf D u k else rightOf D u k)
    split_ifs
    · exact left_adm h hr hk'
    · exact right_adm h hr hk'

/-- C113: the explicit update is a continuous function of the states of the cells. -/
theorem C113_update (h : D.G.Ok) (hD : D.GasOk) (hg : D.scheme = .hllc → 4 ≤ 3 * D.gas.g) (hb : D.BcOk) (hr : Tame D u) (har : ∀ i, i < D.G.m.nelem → 0 < D.G.ar i) (cfl : ℝ) :
    ContinuousAt ((single D).upd cfl) u := by
  obtain ⟨R, hR, hRc⟩ := C113_residual h hD hg hb hr 0
  refine continuousAt_pi.2 fun i => ?_
  by_cases hi : i < D.G.m.nelem
  · obtain ⟨T, hT, hTc, -⟩ := C113_timestep h hD hb hr hi (har i hi) 0
    have e : (fun w => (single D).upd cfl w i) = fun w v => w i v + cfl * T w * 1 / D.G.ar i * R w i v := by
      funext w
      obtain ⟨o, h1, h2⟩ := hR w
      obtain ⟨o', h1', h2'⟩ := hT w
      rw [h1] at h1'; cases h1'
      rw [single_upd h1]
      unfold euler
      rw [if_pos hi, h2, h2']
    rw [e]
    exact continuousAt_pi.2 fun v => (c_comp (c_cell i) v).add ((((continuousAt_const.mul hTc).mul continuousAt_const).div_const _).mul (c_comp (hRc i) v))
  · have e : (fun w => (single D).upd cfl w i) = fun w => w i := by
      funext w
      obtain ⟨o, h1, h2⟩ := hR w
      rw [single_upd h1]
      unfold euler
      rw [if_neg hi]
    rw [e]
    exact c_cell i

/-! ### Runs -/

/-- State before iteration `j` of a run that is not stopped. -/
def StateAt (k : Kind) (P : Prob (ℕ → St)) (c : Conf) (u : ℕ → St) (j : ℕ) (w : ℕ → St) : Prop := ∃ s, traj k P c u j = some s ∧ s.u = w

theorem traj_upd {c : Conf} {w0 : ℕ → St} {s : ℕ → ℕ → St} (hs : ∀ j, StateAt forwardEuler (single D) c w0 j (s j)) (j : ℕ) : s (j + 1) = (single D).upd c.cflinit (s j) := by
  obtain ⟨a, h1, h2⟩ := hs j
  obtain ⟨b, h3, h4⟩ := hs (j + 1)
  simp only [traj, h1, Option.bind_some, body] at h3
  cases hn : (single D).norm a.u with
  | none => rw [hn] at h3; cases h3
  | some r =>
    rw [hn] at h3
    simp only [Option.some.injEq] at h3
    rw [← h4, ← h3, ← h2]
    rfl

/-- C113: if the states of a run of the explicit steady solver converge to regular states, these are a steady flow: the residual vanishes in all cells and for all four equations. -/
theorem C113_limit_steady (h : D.G.Ok) (hD : D.GasOk) (hg : D.scheme = .hllc → 4 ≤ 3 * D.gas.g) (hb : D.BcOk) (hr : Tame D u) (har : ∀ i, i < D.G.m.nelem → 0 < D.G.ar i)
    {c : Conf} (hc : c.cflinit ≠ 0) {w0 : ℕ → St} {s : ℕ → ℕ → St} (hs : ∀ j, StateAt forwardEuler (single D) c w0 j (s j)) (hlim : ∀ i, Tendsto (fun j => s j i) atTop (𝓝 (u i))) :
    IsSteady D u := by
  rw [← C95_explicit_iff h hD hb hr.cells har hc]
  have hl : Tendsto s atTop (𝓝 u) := tendsto_pi_nhds.2 hlim
  have h1 : Tendsto (fun j => s (j + 1)) atTop (𝓝 u) := hl.comp (tendsto_add_atTop_nat 1)
  have h2 : Tendsto (fun j => (single D).upd c.cflinit (s j)) atTop (𝓝 ((single D).upd c.cflinit u)) := (C113_update h hD hg hb hr har c.cflinit).tendsto.comp hl
  simp_rw [traj_upd hs] at h1
  exact tendsto_nhds_unique h2 h1

theorem traj_maxiter (P : Prob (ℕ → St)) (c : Conf) (M : ℤ) (w0 : ℕ → St) (j : ℕ) : traj forwardEuler P { c with maxiter := M } w0 j = traj forwardEuler P c w0 j := by
  induction j with
  | zero => rfl
  | succ j ih => simp only [traj, ih]; rfl

/-- C113: such a run is reported as converged by the solver, for any positive tolerance below one, provided enough iterations are allowed. -/
theorem C113_reported (h : D.G.Ok) (hD : D.GasOk) (hg : D.scheme = .hllc → 4 ≤ 3 * D.gas.g) (hb : D.BcOk) (hr : Tame D u) (har : ∀ i, i < D.G.m.nelem → 0 < D.G.ar i)
    {c : Conf} (hc : c.cflinit ≠ 0) (ht0 : 0 < c.tol) (ht1 : c.tol < 1) {w0 : ℕ → St} {s : ℕ → ℕ → St} (hs : ∀ j, StateAt forwardEuler (single D) c w0 j (s j))
    (hlim : ∀ i, Tendsto (fun j => s j i) atTop (𝓝 (u i))) :
    ∃ N : ℕ, ∀ M : ℤ, N < M → ∃ n, n ≤ N ∧ Solve forwardEuler (single D) { c with maxiter := M } w0 n .ok := by
  obtain ⟨R, hR, hRc⟩ := C113_residual h hD hg hb hr 0
  obtain ⟨o, ho, hz⟩ := C113_limit_steady h hD hg hb hr har hc hs hlim
  have hnn : ∀ q : ℕ → St, 0 ≤ energy D q := fun q => Finset.sum_nonneg fun i hi => mul_nonneg (mul_self_nonneg _) (har i (Finset.mem_range.1 hi)).le
  have hnorm : ∀ w, (single D).norm w = some (Real.sqrt (energy D (R w))) := fun w => by
    obtain ⟨o, h1, h2⟩ := hR w
    simp only [single, h1, Option.bind_some, h2, rootOf, if_pos (hnn (R w))]
  have hRu : energy D (R u) = 0 := by
    obtain ⟨o', h1, h2⟩ := hR u
    rw [ho] at h1; cases h1
    rw [← h2]
    exact Finset.sum_eq_zero fun i hi => by rw [hz i (Finset.mem_range.1 hi)]; simp
  have hl : Tendsto s atTop (𝓝 u) := tendsto_pi_nhds.2 hlim
  have hen : ContinuousAt (fun w => Real.sqrt (energy D (R w))) u := by
    refine c_sqrt ?_
    unfold energy
    exact tendsto_finsetSum _ fun i _ => ((c_comp (hRc i) 3).mul (c_comp (hRc i) 3)).mul continuousAt_const
  have hlimr : Tendsto (fun j => Real.sqrt (energy D (R (s j)))) atTop (𝓝 0) := by
    have := hen.tendsto.comp hl
    rwa [hRu, Real.sqrt_zero] at this
  set r : ℕ → ℝ := fun j => Real.sqrt (energy D (R (s j))) with hrdef
  have hhist : ∀ M : ℤ, ∀ j, hist forwardEuler (single D) { c with maxiter := M } w0 j = some (r j) := fun M j => by
    obtain ⟨a, h1, h2⟩ := hs j
    unfold hist
    rw [traj_maxiter, h1, Option.bind_some, h2, hnorm]
  rcases (Real.sqrt_nonneg (energy D (R (s 0)))).eq_or_lt with e0 | e0
  · refine ⟨1, fun M hM => ⟨1, le_rfl, ?_⟩⟩
    rw [(C56_outcome (single D) (c := { c with maxiter := M }) ht0.le ht1 (by push_cast at hM; show 0 < M; omega) w0 1 .ok).1]
    exact .zero (r := r) hM (fun j hj => hhist M j) e0.symm
  · have hex : ∃ j, r j ≤ c.tol * r 0 := by
      have := hlimr.eventually (gt_mem_nhds (mul_pos ht0 e0))
      obtain ⟨j, hj⟩ := this.exists
      exact ⟨j, hj.le⟩
    classical
    refine ⟨Nat.find hex + 1, fun M hM => ⟨Nat.find hex + 1, le_rfl, ?_⟩⟩
    rw [(C56_outcome (single D) (c := { c with maxiter := M }) ht0.le ht1 (by push_cast at hM; show 0 < M; omega) w0 _ .ok).1]
    exact .met (r := r) hM (fun j hj => hhist M j) (fun j hj => Nat.find_min hex hj) (Nat.find_spec hex) e0

end disc

/-! ### Cases -/

/-- An insulated wall sliding at speed 2: the ghost state is continuous. -/
example : ContinuousAt (fun w => (BC.Obj.adiabatic 2).ghost air w ![3 / 5, 4 / 5]) uB := C113_ghost air (o := .adiabatic 2) trivial adm_uB.rho _

/-- Supersonic outflow through a characteristic boundary is away from both jumps. -/
example : ContinuousAt (fun w => (BC.Obj.inOut uA).ghost air w ![1, 0]) ![1, 4, 0, 21 / 2] := by
  have a : Adm air ![1, 4, 0, 21 / 2] := ⟨by norm_num [air], by norm_num, by simp [Gas.pressure, Gas.pressureOfInternal, air, dot, mom]; norm_num⟩
  have hp : air.pressure ![1, 4, 0, 21 / 2] = 1 := by simp [Gas.pressure, Gas.pressureOfInternal, air, dot, mom]; norm_num
  have hc := Disc.soundSpeed_pos a
  have hm : BC.machN air ![1, 4, 0, 21 / 2] ![1, 0] = 4 / air.soundSpeedC ![1, 4, 0, 21 / 2] := by simp [BC.machN, dot, mom]
  have hc2 : air.soundSpeedC ![1, 4, 0, 21 / 2] < 4 := by
    unfold Gas.soundSpeedC Gas.soundSpeed
    rw [hp, Real.sqrt_lt' (by norm_num)]
    norm_num [air]
  refine (C113_inOut_iff a (by simp)).2 ⟨fun e => ?_, fun e => ?_⟩
  · rw [hm] at e
    exact absurd e (by positivity)
  · rw [hm, div_eq_one_iff_eq hc.ne'] at e
    linarith

end Par
end FVENS
