import Verif.FV.JacJoint
import Verif.FV.Closed

/-!
# Jacobian of the whole residual with walls, far fields and outlets (C10, C50)

`compute_local_jacobian_boundary` (src/spatial/flow_spatial.cpp:841-875) multiplies the derivative of the flux with respect to the ghost state by
the ghost state's Jacobian. Here this is shown to be the derivative of the flux through the boundary face for AUSM, Roe and HLLC, also at walls, where
these schemes are evaluated at states for which the flux itself is not differentiable in both states.
-/

namespace FVENS

namespace BC

/-- Conditions and states for which the Jacobian routine is right: not the isothermal wall (`C10_isothermal_refuted`), not the stagnation inflow,
in- and outflow away from its switches. -/
def JacSafe (G : Gas) (u : St) (n : V2) : Obj → Prop
  | .slip => u 0 ≠ 0
  | .farfield _ | .extrapolation | .adiabatic _ => True
  | .inOut c => (∃ aoa, c = G.freestream aoa) ∧ 1 < G.g ∧ 0 < G.Minf ∧ 0 < u 0 ∧ 0 < G.pressure u ∧ machN G u n ≠ 0 ∧ machN G u n ≠ 1
  | _ => False

/-- C10: the Jacobian routine called for a boundary condition object returns the ghost state of that same object and its derivative. -/
theorem C10_object (G : Gas) (o : Obj) (u : St) (n : V2) (h : JacSafe G u n o) :
    ∃ g, o.ghostJ G = some g ∧ IsGhostJac (fun v => o.ghost G v n) (g u n) u := by
  cases o with
  | slip => exact ⟨_, rfl, C10_slip u n h⟩
  | farfield c => exact ⟨_, rfl, C10_farfield c u n⟩
  | inOut c =>
    obtain ⟨⟨aoa, rfl⟩, hg, hM, hr, hp, h0, h1⟩ := h
    exact ⟨_, rfl, C10_inOut G aoa u n hg hM hr hp h0 h1⟩
  | inflow a b => exact h.elim
  | extrapolation => exact ⟨_, rfl, C10_extrapolation u n⟩
  | adiabatic tv => exact ⟨_, rfl, C10_adiabatic tv u n⟩
  | isothermal a b => exact h.elim

/-- A moving gas at a slip wall. -/
example : ∃ g, (Obj.slip).ghostJ air = some g ∧ IsGhostJac (fun v => (Obj.slip).ghost air v ![3 / 5, 4 / 5]) (g uEx ![3 / 5, 4 / 5]) uEx :=
  C10_object air .slip uEx _ (by norm_num [JacSafe, uEx])

end BC

namespace FV

open Msh Finset Flux

namespace Disc

variable {G : Gas} {ul ur u : St} {n : V2}

/-! ### States on the two sides of a wall -/

/-- Same density and pressure, opposite normal velocities. -/
structure Opp (G : Gas) (ul ur : St) (n : V2) : Prop where
  rho : ur 0 = ul 0
  p : G.varsP ur = G.varsP ul
  vn : Gas.varsVn ur n = -Gas.varsVn ul n

namespace Opp

theorem slip (hn : n 0 * n 0 + n 1 * n 1 = 1) (hr : u 0 ≠ 0) : Opp G u (BC.slip u n) n := ⟨rfl, slip_p hn hr, slip_vn hn hr⟩

theorem rest (u : St) (n : V2) : Opp G u (BC.adiabatic 0 u n) n := by
  rw [adiabatic_rest]
  refine ⟨rfl, ?_, ?_⟩
  · simp [Gas.varsP, Gas.vel, rotS, dot]; ring_nf; simp
  · simp [Gas.varsVn, Gas.vel, rotS, dot]; ring

theorem c (h : Opp G ul ur n) : cSide G ur = cSide G ul := by simp only [cSide, h.p, h.rho]

theorem adm (h : Opp G ul ur n) (hl : Adm G ul) : Adm G ur := by
  have h0 : ur 0 ≠ 0 := by rw [h.rho]; exact hl.rho'
  exact ⟨hl.g1, by rw [h.rho]; exact hl.rho, by rw [← varsP_eq h0, h.p]; exact hl.vp⟩

theorem roe_vn (h : Opp G ul ur n) (hl : ul 0 ≠ 0) : (roeOf G ul ur n).vn = 0 := by
  have hR : (roeOf G ul ur n).R = 1 := by simp [roeOf, roeAvg, h.rho, div_self hl]
  rw [Flux.roe_vn, hR, h.vn]; simp

theorem mach (h : Opp G ul ur n) : machHalf G ul ur n = 0 := by
  unfold machHalf
  rw [h.vn, h.c, neg_div, (ausm_split_neg _ 0).2.1]; ring

theorem sel (h : Opp G ul ur n) (hl : ul 0 ≠ 0) : selR G n ul ur = selL G n ul ur := by
  unfold selR selL
  rw [h.vn, h.c, h.roe_vn hl]
  refine decide_eq_decide.2 ⟨fun _ => ?_, fun _ => ?_⟩ <;> linarith

theorem srSel (h : Opp G ul ur n) (hl : ul 0 ≠ 0) (s : Bool) : srSel s G n ul ur = -slSel s G n ul ur := by
  unfold Disc.srSel slSel
  rw [h.vn, h.c, h.roe_vn hl]
  cases s <;> simp
  ring

theorem smSel (h : Opp G ul ur n) (hl : ul 0 ≠ 0) (s : Bool) : smSel s s G n ul ur = 0 := by
  unfold Disc.smSel contact
  rw [h.srSel hl, h.vn, h.rho, h.p]
  refine div_eq_zero_iff.2 (Or.inl ?_)
  ring

theorem sl_neg (h : Opp G ul ur n) (hl : Adm G ul) : slOf G ul ur n < 0 := by
  have h1 := (waveL_le (Gas.varsVn ul n) (cSide G ul) (roeOf G ul ur n)).2
  have h2 := h.roe_vn hl.rho'
  have h3 := roe_c_pos (n := n) hl (h.adm hl)
  unfold slOf; rw [h2] at h1; linarith

theorem sm (h : Opp G ul ur n) (hl : ul 0 ≠ 0) : smOf G ul ur n = 0 := by
  rw [← smSel_eq, h.sel hl, h.smSel hl]

theorem sr (h : Opp G ul ur n) (hl : ul 0 ≠ 0) : srOf G ul ur n = -slOf G ul ur n := by
  rw [← srSel_eq, ← slSel_eq, h.sel hl, h.srSel hl]

theorem selQ (h : Opp G ul ur n) (hl : Adm G ul) : selQ G n ul ur = 2 := by
  have h1 := h.sl_neg hl
  have h2 := h.sm hl.rho'
  have h3 := h.sr hl.rho'
  unfold Disc.selQ
  rw [if_neg (by linarith), if_neg (by rintro ⟨-, h⟩; linarith), if_pos ⟨h2.le, by rw [h3]; linarith⟩]

/-- Flux between such states. -/
theorem hllcSel (h : Opp G ul ur n) (hl : Adm G ul) (s : Bool) (hs : slSel s G n ul ur ≠ 0) (i : Fin 4) :
    hllcSel 2 s s G n ul ur i = (ul 0 * Gas.varsVn ul n * (Gas.varsVn ul n - slSel s G n ul ur) + G.varsP ul) * (![0, n 0, n 1, 0] : St) i := by
  have hr := h.adm hl
  unfold Disc.hllcSel
  dsimp only
  rw [eulerFlux_eq hr.rho', h.srSel hl.rho', h.smSel hl.rho', h.p, h.vn]
  generalize slSel s G n ul ur = x at *
  generalize G.varsP ul = p at *
  generalize Gas.varsVn ul n = v at *
  have hx : -x ≠ 0 := neg_ne_zero.2 hs
  fin_cases i
  · simp [Gas.dirFlux, Flux.star, h.rho]; field_simp; ring
  · simp [Gas.dirFlux, Flux.star, h.rho]; field_simp; ring
  · simp [Gas.dirFlux, Flux.star, h.rho]; field_simp; ring
  · simp [Gas.dirFlux, Flux.star, h.rho]; field_simp; ring

end Opp

/-! ### Flux through a boundary face as a function of the inner state -/

theorem ghost_cont {g : St → St} {gj : BC.GJ} (hg : BC.IsGhostJac g gj u) : ContinuousAt g u :=
  (hasFDerivAt_pi.2 fun c => hg.2 c : HasFDerivAt g (ContinuousLinearMap.pi fun c => row (gj.dgs c)) u).continuousAt

theorem adm_ev (hl : Adm G u) : ∀ᶠ a in nhds u, Adm G a := by
  have h1 : ContinuousAt (fun a : St => a 0) u := (continuous_apply 0).continuousAt
  have h2 : ContinuousAt (fun a : St => G.varsP a) u := (HasFDerivAt.differentiableAt (hasGrad_varsP (G := G) hl.rho')).continuousAt
  filter_upwards [continuousAt_const.eventually_lt h1 hl.rho, continuousAt_const.eventually_lt h2 hl.vp] with a ha hp
  exact ⟨hl.g1, ha, by rw [← varsP_eq ha.ne']; exact hp⟩

/-- A function whose difference from a jointly differentiable one vanishes to first order along the ghost states. -/
theorem chain_near {F E : St → St → St} {J : FJ} {g : St → St} {gj : BC.GJ} (hg : BC.IsGhostJac g gj u) (h : IsJoint F J u (g u)) (i : Fin 4)
    (hd : HasGrad (fun a => E a (g a) i - F a (g a) i) 0 u) :
    HasGrad (fun a => E a (g a) i) (fun b => -(J.dfdl i b - ∑ c, J.dfdr i c * gj.dgs c b)) u := by
  refine ((hd.add (h.chain hg i)).congr ?_).congr_of_eventuallyEq (Filter.Eventually.of_forall fun a => ?_)
  · funext b; simp
  · simp

theorem hasGrad_ev_zero {f : St → ℝ} (h : ∀ᶠ a in nhds u, f a = 0) : HasGrad f 0 u :=
  (HasGrad.const 0).congr_of_eventuallyEq (by filter_upwards [h] with a ha; exact ha)

theorem hasGrad_mul_zero {f h : St → ℝ} {d : St} (hf : HasGrad f d u) (h0 : f u = 0) (hh : ContinuousAt h u) (h1 : h u = 0) : HasGrad (fun a => f a * h a) 0 u := by
  have e1 : (fun a => f a) =O[nhds u] fun a => a - u := by simpa [h0] using HasFDerivAt.isBigO_sub hf
  have e2 : (fun a => h a) =o[nhds u] fun _ => (1 : ℝ) := by
    rw [Asymptotics.isLittleO_one_iff]
    simpa [h1] using hh.tendsto
  have e3 : (fun a => f a * h a) =o[nhds u] fun a => ‖a - u‖ * 1 := e1.norm_right.mul_isLittleO e2
  unfold HasGrad
  refine HasFDerivAt.of_isLittleO ?_
  have e4 : (fun a => f a * h a - f u * h u - (row (0 : St)) (a - u)) = fun a => f a * h a := by
    funext a; simp [h0, row_apply]
  rw [e4]
  simpa using e3.norm_right.of_norm_right

/-- The numerical flux as a function of the inner state has the derivative the code assembles. -/
def InvExact (F : St → St → St) (J : FJ) (g : St → St) (gj : BC.GJ) (u : St) : Prop :=
  ∀ i, HasGrad (fun a => F a (g a) i) (fun b => -(J.dfdl i b - ∑ c, J.dfdr i c * gj.dgs c b)) u

/-- AUSM at a wall: whatever the inner state. -/
theorem ausm_wall (hl : Adm G u) {g : St → St} {gj : BC.GJ} (hg : BC.IsGhostJac g gj u) (hO : ∀ a, Adm G a → Opp G a (g a) n) :
    InvExact (fun a b => ausm G a b n) (ausmJac G u (g u) n) g gj u := by
  intro i
  refine chain_near (E := fun a b => ausm G a b n) hg (ausmS_joint hl ((hO u hl).adm hl) n) i (hasGrad_ev_zero ?_)
  filter_upwards [adm_ev hl] with a ha
  have := (hO a ha).mach
  unfold ausmS
  rw [ausm_eq, ausmCoreS_eq (by rw [show machHalf G a (g a) n = _ from this]; simp), sub_self]

/-- HLLC at a wall: if the gas does not move towards the wall, or the two estimates of the acoustic speed differ. -/
theorem hllc_wall (hl : Adm G u) {g : St → St} {gj : BC.GJ} (hg : BC.IsGhostJac g gj u) (hO : ∀ a, Adm G a → Opp G a (g a) n)
    (ht : Gas.varsVn u n = 0 ∨ Gas.varsVn u n - cSide G u ≠ -(roeOf G u (g u) n).c) :
    InvExact (fun a b => hllc G a b n) (hllcJac G u (g u) n) g gj u := by
  intro i
  have hr := (hO u hl).adm hl
  have o := hO u hl
  have hsl := o.sl_neg hl
  have hj := hllcSel_joint hl hr n (by rw [o.sm hl.rho', o.sr hl.rho']; linarith)
  rw [o.selQ hl, o.sel hl.rho'] at hj
  have hcg : ContinuousAt (fun a => (a, g a)) u := continuousAt_id.prodMk (ghost_cont hg)
  refine chain_near (E := fun a b => hllc G a b n) hg hj i ?_
  set s := selL G n u (g u) with hs
  have hneg : ∀ᶠ a in nhds u, slSel s G n a (g a) < 0 :=
    (ContinuousAt.comp (x := u) (f := fun a => (a, g a)) (diff_slSel hl hr n s).continuousAt hcg).eventually_lt continuousAt_const (by simpa [hs, slSel_eq] using hsl)
  -- both fluxes as pressure fluxes
  have ev : ∀ᶠ a in nhds u, hllc G a (g a) n i - hllcSel 2 s s G n a (g a) i =
      a 0 * Gas.varsVn a n * (slSel s G n a (g a) - slOf G a (g a) n) * (![0, n 0, n 1, 0] : St) i := by
    filter_upwards [adm_ev hl, hneg] with a ha hsa
    have oa := hO a ha
    rw [← hllcSel_eq ha.rho' (oa.adm ha).rho', oa.selQ ha, oa.sel ha.rho', oa.hllcSel ha _ (by rw [slSel_eq]; exact (oa.sl_neg ha).ne) i, oa.hllcSel ha _ hsa.ne i, slSel_eq]
    ring
  rcases ht with hv | ht
  · have h1 : HasGrad (fun a => a 0 * Gas.varsVn a n) _ u := (HasGrad.coord 0).mul (hasGrad_varsVn hl.rho' n)
    have hA := avgDiff_roe hl hr n
    have hc : ContinuousAt (fun a => slSel s G n a (g a) - slOf G a (g a) n) u := by
      refine (ContinuousAt.comp (x := u) (f := fun a => (a, g a)) (diff_slSel hl hr n s).continuousAt hcg).sub ?_
      have e : (fun a => slOf G a (g a) n) = fun a => min (Gas.varsVn a n - cSide G a) ((roeOf G a (g a) n).vn - (roeOf G a (g a) n).c) := by
        funext a
        unfold slOf waveL
        split_ifs with h
        · rw [min_eq_right h.le]
        · rw [min_eq_left (not_lt.1 h)]
      rw [e]
      exact Filter.Tendsto.min (HasFDerivAt.differentiableAt ((hasGrad_varsVn hl.rho' n).sub (hasGrad_c hl))).continuousAt
        (ContinuousAt.comp (x := u) (f := fun a => (a, g a)) (dsub hA.vn hA.c).continuousAt hcg)
    have h2 := (hasGrad_mul_zero h1 (by rw [hv]; ring) hc (by rw [hs, slSel_eq]; ring)).mul (HasGrad.const ((![0, n 0, n 1, 0] : St) i))
    refine (h2.congr ?_).congr_of_eventuallyEq ev
    funext b; simp [hv]
  · refine hasGrad_ev_zero ?_
    have hS := selL_ev hl hr n (by rw [o.roe_vn hl.rho']; simpa using ht)
    filter_upwards [ev, hcg.eventually hS] with a h1 h2
    rw [h1, hs, ← h2, slSel_eq]; ring

/-- The acoustic estimates at a slip wall differ unless the gas does not move towards the wall. -/
theorem slip_no_tie (h3 : G.g ≤ 3) (hn : n 0 * n 0 + n 1 * n 1 = 1) (hl : Adm G u) (hv : Gas.varsVn u n ≠ 0) :
    Gas.varsVn u n - cSide G u ≠ -(roeOf G u (BC.slip u n) n).c := by
  have hr := slip_adm hn hl
  have hc := hl.c_pos
  have hC := roe_c_pos (n := n) hl hr
  have e := roe_c_sq (n := n) hl hr
  have ea := roe_c_sq_arg (n := n) hl hr
  simp only [slip_R hl.rho', slip_c hn hl.rho', slip_vel0 hl.rho', slip_vel1 hl.rho'] at ea
  rw [ea] at e
  generalize (roeOf G u (BC.slip u n) n).c = C at *
  generalize cSide G u = c at *
  generalize Gas.varsVn u n = v at *
  have e' : C * C = c * c + (G.g - 1) / 2 * (v * v) := by
    rw [e]; linear_combination ((G.g - 1) / 2 * (v * v)) * hn
  intro h
  have h1 : C = c - v := by linarith
  rw [h1] at e'
  have h2 : v * (v * (3 - G.g) - 4 * c) = 0 := by linear_combination 2 * e'
  rcases mul_eq_zero.1 h2 with h2 | h2
  · exact hv h2
  · have hg := hl.g1
    have h4 : v < c := by linarith
    nlinarith [mul_nonneg (sub_nonneg.2 h3) (sub_pos.2 h4).le]

/-! ### Viscous part -/

theorem viscous_joint (G : Gas) (cv : Bool) (n xl xr : V2) (hl : ul 0 ≠ 0) (hr : ur 0 ≠ 0)
    (hml : cv = false → HasGrad G.viscosityC (G.dViscosityC ul) ul) (hmr : cv = false → HasGrad G.viscosityC (G.dViscosityC ur) ur) :
    IsJoint (viscous1 G cv n xl xr) ⟨(viscousJac G cv n xl xr ul ur).1, (viscousJac G cv n xl xr ul ur).2⟩ ul ur := by
  refine isJoint_of_diff (fun i => ?_) (fun i => viscousJac_correct G cv n xl xr hl hr hml hmr i)
  simp only [viscous1_eq]
  have hg : ∀ d v, DifferentiableAt ℝ (fun p : St × St => thinGrad xl xr (G.prim2OfCons p.1) (G.prim2OfCons p.2) d v) (ul, ur) := by
    intro d v
    have h1 : DifferentiableAt ℝ (fun p : St × St => G.prim2OfCons p.1 v) (ul, ur) := diff_fst (C03_prim2 G ul hl v)
    have h2 : DifferentiableAt ℝ (fun p : St × St => G.prim2OfCons p.2 v) (ul, ur) := diff_snd (C03_prim2 G ur hr v)
    have h3 := ((dsub h2 h1).mul_const (cdist xl xr)⁻¹).mul_const (cdir xl xr d)
    exact h3
  have hmu : DifferentiableAt ℝ (fun p : St × St => faceMu G cv p.1 p.2) (ul, ur) := by
    unfold faceMu
    cases cv
    · exact (dadd (diff_fst (hml rfl)) (diff_snd (hmr rfl))).const_mul (1 / 2)
    · exact differentiableAt_const _
  have hva : ∀ j, DifferentiableAt ℝ (fun p : St × St => 1 / 2 * (p.1 (vix j) / p.1 0 + p.2 (vix j) / p.2 0)) (ul, ur) := fun j =>
    (dadd (ddiv (diff_fst (HasGrad.coord _)) (diff_fst (HasGrad.coord 0)) hl) (ddiv (diff_snd (HasGrad.coord _)) (diff_snd (HasGrad.coord 0)) hr)).const_mul (1 / 2)
  have g00 := hg 0 0; have g01 := hg 0 1; have g02 := hg 0 2; have g03 := hg 0 3
  have g10 := hg 1 0; have g11 := hg 1 1; have g12 := hg 1 2; have g13 := hg 1 3
  have v0 := hva 0
  have v1 := hva 1
  fin_cases i
  · exact differentiableAt_const _
  · simp [viscFlux, stress, vix]; fun_prop
  · simp [viscFlux, stress, vix]; fun_prop
  · simp [viscFlux, stress, vix, Gas.conductivity] at v0 v1 ⊢; fun_prop

/-! ### Boundary blocks -/

/-- C50: if the flux through a boundary face as a function of the inner state has the derivative obtained from the flux Jacobian and the ghost state's, and the viscosity
derivatives are right, the block computed for the face is the derivative of the integrated flux, viscous part included. -/
theorem C50_boundary_exact (D : Disc) {J : St → St → V2 → FJ} {g : St → V2 → BC.GJ} (k : ℕ)
    (hg : BC.IsGhostJac (fun a => D.bstate k a) (g u (D.G.nrm k)) u)
    (hI : InvExact (fun a b => D.scheme.flux D.gas a b (D.G.nrm k)) (J u (D.bstate k u) (D.G.nrm k)) (fun a => D.bstate k a) (g u (D.G.nrm k)) u)
    (hl : D.ViscOk u) (hr : D.ViscOk (D.bstate k u)) (v : Fin 4) :
    HasGrad (fun a => D.flux2 k a (D.bstate k a) v) (-(D.blkBoundary J g k u v)) u := by
  have hgs : (g u (D.G.nrm k)).gs = D.bstate k u := hg.1
  unfold flux2
  by_cases hv : D.viscous
  · have hV := (viscous_joint D.gas D.constVisc (D.G.nrm k) (D.G.xl k) (D.G.xr k) (hl hv).1 (hr hv).1 (hl hv).2 (hr hv).2).chain (g := fun a => D.bstate k a) hg v
    refine ((((hI v).cmul (D.G.len k)).add (hV.cmul (D.G.len k))).congr ?_).congr_of_eventuallyEq (Filter.Eventually.of_forall fun a => ?_)
    · funext b
      simp only [blkBoundary, hgs, hv, if_true, Pi.neg_apply, Fin.sum_univ_four]
      ring
    · simp only [hv, if_true]; ring
  · refine (((hI v).cmul (D.G.len k)).congr ?_).congr_of_eventuallyEq (Filter.Eventually.of_forall fun a => ?_)
    · funext b
      simp only [blkBoundary, hgs, hv, Bool.false_eq_true, if_false, Pi.neg_apply, Fin.sum_univ_four]
      ring
    · simp only [hv, Bool.false_eq_true, if_false]; ring

theorem mirror_slip (hn : n 0 * n 0 + n 1 * n 1 = 1) (hr : u 0 ≠ 0) : MirrorLike G u (BC.slip u n) n := by
  refine ⟨rfl, slip_p hn hr, slip_roe_vn hn hr, fun j => ?_⟩
  rw [slip_vn hn hr]
  fin_cases j
  · simp only [Fin.zero_eta]; rw [slip_vel0 hr]; ring
  · simp only [Fin.mk_one]; rw [slip_vel1 hr]; ring

/-- Jacobian routines of the three schemes for which they are meant to be exact, src/spatial/anumericalflux.cpp:318-472, 737-965, 1231-1397. -/
noncomputable def exactJac (G : Gas) : Scheme → St → St → V2 → FJ
  | .roe => roeJac G
  | .hllc => hllcJac G
  | _ => ausmJac G

/-- Pairs of states at which the flux is differentiable and its Jacobian routine right: away from the switches of the scheme. -/
def Smooth (G : Gas) (ul ur : St) (n : V2) : Scheme → Prop
  | .ausm => machHalf G ul ur n ≠ 0
  | .roe => NoFix (roeOf G ul ur n) ∨ MirrorLike G ul ur n
  | .hllc => smOf G ul ur n ≠ srOf G ul ur n ∧ NoTie G ul ur n
  | _ => False

theorem smooth_joint {sch : Scheme} (hl : Adm G ul) (hr : Adm G ur) (n : V2) (h : Smooth G ul ur n sch) :
    IsJoint (fun a b => sch.flux G a b n) (exactJac G sch ul ur n) ul ur := by
  cases sch with
  | ausm => exact ausm_joint hl hr n h
  | roe => exact roe_joint hl hr n h
  | hllc => exact hllc_joint hl hr n h.1 h.2
  | llf | vanLeer | ausmPlus | hll => exact h.elim

theorem isJoint_isFluxJac {F : St → St → St} {J : FJ} (h : IsJoint F J ul ur) : IsFluxJac F J ul ur := by
  intro i
  constructor
  · have := HasFDerivAt.comp ul (f := fun a => (a, ur)) (h i) ((hasFDerivAt_id ul).prodMk (hasFDerivAt_const ur ul))
    refine HasFDerivAt.congr_fderiv this ?_
    apply ContinuousLinearMap.ext; intro x
    simp [row_apply]
  · have := HasFDerivAt.comp ur (f := fun b => (ul, b)) (h i) ((hasFDerivAt_const ul ur).prodMk (hasFDerivAt_id ur))
    refine HasFDerivAt.congr_fderiv this ?_
    apply ContinuousLinearMap.ext; intro x
    simp [row_apply]

/-- Inner states and boundary conditions for which the boundary block is shown to be the derivative. At slip walls every admissible state will do, and at insulated walls at
rest every admissible state with AUSM. -/
def BdSmooth (G : Gas) (sch : Scheme) (u : St) (n : V2) : BC.Obj → Prop
  | .slip => sch = .ausm ∨ sch = .roe ∨ sch = .hllc ∧ G.g ≤ 3
  | .adiabatic tv => tv = 0 ∧ (sch = .ausm ∨
      sch = .hllc ∧ (Gas.varsVn u n = 0 ∨ Gas.varsVn u n - cSide G u ≠ -(roeOf G u (BC.adiabatic 0 u n) n).c)) ∨
      Adm G (BC.adiabatic tv u n) ∧ Smooth G u (BC.adiabatic tv u n) n sch
  | o => BC.JacSafe G u n o ∧ Adm G (o.ghost G u n) ∧ Smooth G u (o.ghost G u n) n sch

theorem bdSmooth_safe {sch : Scheme} {o : BC.Obj} (hl : Adm G u) (h : BdSmooth G sch u n o) : BC.JacSafe G u n o := by
  cases o with
  | slip => exact hl.rho'
  | adiabatic tv => trivial
  | farfield c => exact h.1
  | inOut c => exact h.1
  | inflow a b => exact h.1
  | extrapolation => exact h.1
  | isothermal a b => exact h.1

theorem bdSmooth_adm {sch : Scheme} {o : BC.Obj} (hl : Adm G u) (hn : n 0 * n 0 + n 1 * n 1 = 1) (h : BdSmooth G sch u n o) : Adm G (o.ghost G u n) := by
  cases o with
  | slip => exact slip_adm hn hl
  | adiabatic tv =>
    rcases h with ⟨rfl, -⟩ | h
    · exact (Opp.rest u n).adm hl
    · exact h.1
  | farfield c => exact h.2.1
  | inOut c => exact h.2.1
  | inflow a b => exact h.2.1
  | extrapolation => exact h.2.1
  | isothermal a b => exact h.2.1

/-- C50: the flux through a boundary face as a function of the inner state has the derivative obtained by the code's chain rule. -/
theorem C50_boundary_flux {sch : Scheme} {o : BC.Obj} (hl : Adm G u) (hn : n 0 * n 0 + n 1 * n 1 = 1) (h : BdSmooth G sch u n o) :
    ∃ g, o.ghostJ G = some g ∧ BC.IsGhostJac (fun v => o.ghost G v n) (g u n) u ∧
      InvExact (fun a b => sch.flux G a b n) (exactJac G sch u (o.ghost G u n) n) (fun v => o.ghost G v n) (g u n) u := by
  obtain ⟨g, h1, h2⟩ := BC.C10_object G o u n (bdSmooth_safe hl h)
  refine ⟨g, h1, h2, ?_⟩
  have ha := bdSmooth_adm hl hn h
  have gen : Smooth G u (o.ghost G u n) n sch →
      InvExact (fun a b => sch.flux G a b n) (exactJac G sch u (o.ghost G u n) n) (fun v => o.ghost G v n) (g u n) u :=
    fun hs i => (smooth_joint hl ha n hs).chain h2 i
  cases o with
  | slip =>
    rcases h with rfl | rfl | ⟨rfl, h3⟩
    · change InvExact (fun a b => ausm G a b n) (ausmJac G u (BC.slip u n) n) (fun v => BC.slip v n) (g u n) u
      exact ausm_wall (g := fun v => BC.slip v n) hl h2 fun a hA => Opp.slip hn hA.rho'
    · exact gen (Or.inr (mirror_slip hn hl.rho'))
    · change InvExact (fun a b => hllc G a b n) (hllcJac G u (BC.slip u n) n) (fun v => BC.slip v n) (g u n) u
      refine hllc_wall (g := fun v => BC.slip v n) hl h2 (fun a hA => Opp.slip hn hA.rho') ?_
      by_cases hv : Gas.varsVn u n = 0
      · exact Or.inl hv
      · exact Or.inr (slip_no_tie h3 hn hl hv)
  | adiabatic tv =>
    rcases h with ⟨rfl, rfl | ⟨rfl, ht⟩⟩ | h
    · change InvExact (fun a b => ausm G a b n) (ausmJac G u (BC.adiabatic 0 u n) n) (fun v => BC.adiabatic 0 v n) (g u n) u
      exact ausm_wall (g := fun v => BC.adiabatic 0 v n) hl h2 fun a _ => Opp.rest a n
    · change InvExact (fun a b => hllc G a b n) (hllcJac G u (BC.adiabatic 0 u n) n) (fun v => BC.adiabatic 0 v n) (g u n) u
      exact hllc_wall (g := fun v => BC.adiabatic 0 v n) hl h2 (fun a _ => Opp.rest a n) ht
    · exact gen h.2
  | farfield c => exact gen h.2.2
  | inOut c => exact gen h.2.2
  | inflow a b => exact gen h.2.2
  | extrapolation => exact gen h.2.2
  | isothermal a b => exact gen h.2.2

/-- C50 for AUSM, Roe and HLLC with walls, far fields, outlets and free in- and outflow: if cell and ghost states are admissible and away from the switches of the scheme (at walls: see
`BdSmooth`), the matrix assembled by the code with its own boundary Jacobians is the derivative of the first-order residual with respect to every cell state, for inviscid flow
and for constant viscosity. -/
theorem C50_boundaries (D : Disc) (h : D.G.Ok) (hv : D.viscous = true → D.constVisc = true) {u : ℕ → St} (hu : ∀ i, i < D.G.rows → Adm D.gas (u i))
    (hb : ∀ k, k < D.G.m.nbface → ∃ o, D.bc (D.tag k) = some o ∧ BdSmooth D.gas D.scheme (u (D.G.face k).left) (D.G.nrm k) o)
    (hi : ∀ k, k < D.G.nface → D.G.m.nbface ≤ k → Smooth D.gas (u (D.G.face k).left) (u (D.G.face k).right) (D.G.nrm k) D.scheme)
    {gcol : ℕ → Option ℕ} (hN : IsNumbering D.G gcol) {nt : ℕ} {A : ℕ × ℕ → Blk (Fin 4)}
    (hA : D.AssembleFlow (exactJac D.gas D.scheme) gcol u nt (fun _ => 0) A) (r : ℕ → St)
    {i gi gc : ℕ} (hi' : i < D.G.m.nelem) (hgi : gcol i = some gi) {u0 : St} (hu0 : ∀ j, j < D.G.rows → gcol j = some gc → u j = u0) :
    ∃ res : St → ℕ → St, (∀ a, ∃ o, D.residual1 (fun j => if gcol j = some gc then a else u j) r = some o ∧ o.res = res a) ∧
      ∀ v, HasGrad (fun a => -(res a i v)) (A (gi, gc) v) u0 := by
  have hvo : ∀ {a : St}, Adm D.gas a → D.ViscOk a := fun ha hv' => ⟨ha.rho', fun hc' => by simp [hv hv'] at hc'⟩
  have hL : ∀ k, k < D.G.nface → Adm D.gas (u (D.G.face k).left) := fun k hk => hu _ (by have := (h.kind hk).1; unfold Geo.rows; omega)
  refine C50_flow D h (fun k hk => by obtain ⟨o, ho, -⟩ := hb k hk; rw [ho]; rfl) hN (g := D.bjac) ?_ ?_ hA r hi' hgi hu0
  · intro k hk v
    have hk' : k < D.G.nface := bnd_lt h hk
    obtain ⟨o, ho, hS⟩ := hb k hk
    have hn := nrm_unit h hk'
    obtain ⟨g, e1, e2, e3⟩ := C50_boundary_flux (hL k hk') hn hS
    have eg : ∀ a, D.bstate k a = o.ghost D.gas a (D.G.nrm k) := fun a => by simp [bstate, ho]
    have ej : D.bjac k = g := by simp [bjac, ho, e1]
    refine C50_boundary_exact D k ?_ ?_ (hvo (hL k hk')) (hvo (by rw [eg]; exact bdSmooth_adm (hL k hk') hn hS)) v
    · simp only [eg, ej]; exact e2
    · simp only [eg, ej]; exact e3
  · intro k hk hk'
    have hR : Adm D.gas (u (D.G.face k).right) := hu _ ((h.kind hk).2.2.2.2 hk')
    exact C50_interior_blocks D k (isJoint_isFluxJac (smooth_joint (hL k hk) hR _ (hi k hk hk'))) (hvo (hL k hk)) (hvo hR)

/-! ### Concrete cases -/

theorem uEx_adm : Adm air uEx := ⟨by norm_num [air], by norm_num [uEx], by rw [uEx_pressure]; norm_num⟩

/-- The gas of the examples moves across every face of the example mesh. -/
theorem exGeo_vn {k : ℕ} (hk : k < exGeo.nface) : Gas.varsVn uEx (exGeo.nrm k) ≠ 0 := by
  have hl := len_pos (D := exJac) exGeo_ok hk
  change 0 < exGeo.len k at hl
  obtain ⟨hn, f0, f1, f2, f3, f4, f5⟩ := exGeo_face
  obtain ⟨c0, c1, c2, c3, c4⟩ := exGeo_coords
  have key : Gas.varsVn uEx (exGeo.nrm k) * exGeo.len k =
      1 / 2 * (exGeo.m.coords (exGeo.face k).n1 1 - exGeo.m.coords (exGeo.face k).n0 1) - 3 / 2 * (exGeo.m.coords (exGeo.face k).n1 0 - exGeo.m.coords (exGeo.face k).n0 0) := by
    unfold Geo.len at hl ⊢
    unfold Geo.nrm
    simp only [Gas.varsVn, dot, Gas.vel, uEx, fNrm]
    simp
    field_simp
    ring
  intro h0
  rw [h0, zero_mul] at key
  rw [hn] at hk
  obtain rfl | rfl | rfl | rfl | rfl | rfl : k = 0 ∨ k = 1 ∨ k = 2 ∨ k = 3 ∨ k = 4 ∨ k = 5 := by omega
  all_goals
    simp only [f0, f1, f2, f3, f4, f5, c0, c1, c2, c3, c4] at key
    norm_num at key

/-- Viscous air moving obliquely between slip and no-slip walls, AUSM. -/
noncomputable def exWalls : Disc :=
  { exDisc with scheme := .ausm, constVisc := true, bc := fun t => if t % 2 = 0 then some .slip else some (.adiabatic 0) }

/-- Hypotheses of `C50_boundaries` are met, for three threads and cell 1 perturbed. -/
example : ∃ A : ℕ × ℕ → Blk (Fin 4), ∃ res : St → ℕ → St,
    (∀ a, ∃ o, exWalls.residual1 (fun j => if numbering exGeo.m false id j = some 1 then a else uEx) (fun _ => 0) = some o ∧ o.res = res a) ∧
    ∀ v, HasGrad (fun a => -(res a 0 v)) (A (0, 1) v) uEx := by
  have hN : IsNumbering exWalls.G (numbering exGeo.m false id) := numbering_isNumbering exGeo_ok false id (by simp)
  have hu := uEx_adm
  obtain ⟨A, hA⟩ := assembleJac_exists (G := exWalls.G) (gcol := numbering exGeo.m false id)
    (Lb := fun k => exWalls.blkBoundary (ausmJac exWalls.gas) (exWalls.bjac k) k uEx)
    (L := fun k => (exWalls.blkInterior (ausmJac exWalls.gas) k uEx uEx).dfdl)
    (U := fun k => (exWalls.blkInterior (ausmJac exWalls.gas) k uEx uEx).dfdr) (n := 3) (by norm_num) (fun _ => 0)
  refine ⟨A, C50_boundaries exWalls exGeo_ok (fun _ => rfl) (u := fun _ => uEx) (fun _ _ => hu) (fun k hk => ?_) (fun k hk _ => ?_) hN hA _
    (show 0 < 2 by norm_num) rfl (fun _ _ _ => rfl)⟩
  · by_cases ht : exWalls.tag k % 2 = 0
    · exact ⟨.slip, by simp [exWalls, show exDisc.tag k % 2 = 0 from ht], Or.inl rfl⟩
    · have e : exDisc.tag k % 2 = 1 := by
        change ¬ exDisc.tag k % 2 = 0 at ht
        omega
      exact ⟨.adiabatic 0, by simp [exWalls, e], Or.inl ⟨rfl, Or.inl rfl⟩⟩
  · change machHalf air uEx uEx (exGeo.nrm k) ≠ 0
    unfold machHalf
    rw [(ausm_split_sum _ 0 0 0 0).1]
    exact div_ne_zero (exGeo_vn hk) hu.c_pos.ne'

/-- Roe and HLLC at a slip wall that the gas moves towards. -/
example (sch : Scheme) (h : sch = .roe ∨ sch = .hllc) : ∃ g, (BC.Obj.slip).ghostJ air = some g ∧
    BC.IsGhostJac (fun v => (BC.Obj.slip).ghost air v ![3 / 5, 4 / 5]) (g uEx ![3 / 5, 4 / 5]) uEx ∧
    InvExact (fun a b => sch.flux air a b ![3 / 5, 4 / 5]) (exactJac air sch uEx ((BC.Obj.slip).ghost air uEx ![3 / 5, 4 / 5]) ![3 / 5, 4 / 5])
      (fun v => (BC.Obj.slip).ghost air v ![3 / 5, 4 / 5]) (g uEx ![3 / 5, 4 / 5]) uEx := by
  refine C50_boundary_flux uEx_adm (by norm_num) ?_
  rcases h with rfl | rfl
  · exact Or.inr (Or.inl rfl)
  · exact Or.inr (Or.inr ⟨rfl, by norm_num [air]⟩)

end Disc
end FV
end FVENS
