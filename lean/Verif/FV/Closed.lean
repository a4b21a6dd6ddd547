import Verif.FV.CellForm
import Verif.FV.Race
import Verif.Flux.Rot
import Verif.Flux.Upwind
import Verif.Ode.Rk

/-!
# Conservation in a box with solid walls (C87)

One process, walls that do not move: total mass and energy do not change, whatever the mesh, the scheme and the state. For the residual of both orders and
for the explicit time integration.
-/

namespace FVENS
namespace FV

open Msh Finset Flux

/-! ### Specification -/

/-- Sum over the cells of one component. -/
noncomputable def total (N : ℕ) (x : ℕ → St) (v : Fin 4) : ℝ := ∑ i ∈ range N, x i v

namespace Disc
variable {D : Disc}

/-- All boundary faces are solid walls at rest and there are no other processes. -/
structure Box (D : Disc) : Prop where
  one : D.G.m.nconnface = 0
  wall : ∀ k, k < D.G.m.nbface → D.bc (D.tag k) = some .slip ∨ D.bc (D.tag k) = some (.adiabatic 0)

/-- All boundary faces are insulated no-slip walls at rest. -/
def NoSlip (D : Disc) : Prop := ∀ k, k < D.G.m.nbface → D.bc (D.tag k) = some (.adiabatic 0)

/-! ### Fluxes through a wall -/

theorem adiabatic_rest (u : St) (n : V2) : BC.adiabatic 0 u n = rotS (-1) 0 u := by
  funext i; fin_cases i <;> simp [BC.adiabatic, rotS]

theorem rot_rest (u : St) : rotS (-1) 0 (rotS (-1) 0 u) = u := by
  funext i; fin_cases i <;> simp [rotS]

theorem pressure_rest (G : Gas) (u : St) : G.pressure (rotS (-1) 0 u) = G.pressure u := by
  simp [Gas.pressure, Gas.pressureOfInternal, dot, mom, rotS]

theorem adm_rest {G : Gas} {u : St} (h : Adm G u) : Adm G (rotS (-1) 0 u) := ⟨h.g1, h.rho, by rw [pressure_rest]; exact h.p⟩

/-- C87: no scheme lets mass or energy through an insulated no-slip wall at rest. -/
theorem C87_no_slip_flux (G : Gas) (hg : 4 ≤ 3 * G.g) {u : St} {n : V2} (hn : n 0 * n 0 + n 1 * n 1 = 1) (h : Adm G u) (s : Scheme) :
    s.flux G u (BC.adiabatic 0 u n) n 0 = 0 ∧ s.flux G u (BC.adiabatic 0 u n) n 3 = 0 := by
  have hr := C19_rotation G u (rotS (-1) 0 u) n h.rho' (adm_rest h).rho' (-1) 0 (by norm_num) s
  have hv : rotV (-1) 0 n = -n := by funext i; fin_cases i <;> simp [rotV]
  rw [rot_rest, hv] at hr
  have hs := C16_conservative G u (rotS (-1) 0 u) n hg h (adm_rest h) hn s
  rw [adiabatic_rest]
  have h0 := hs 0
  have h3 := hs 3
  rw [hr] at h0 h3
  simp only [rotS_0, rotS_3] at h0 h3
  exact ⟨by linarith, by linarith⟩

theorem nrm_unit (h : D.G.Ok) {k : ℕ} (hk : k < D.G.nface) : D.G.nrm k 0 * D.G.nrm k 0 + D.G.nrm k 1 * D.G.nrm k 1 = 1 := by
  refine fNrm_unit fun e => ?_
  have := len_pos h hk
  unfold Geo.len at this
  rw [e] at this
  simp [fLen] at this

theorem bnd_lt (h : D.G.Ok) {k : ℕ} (hk : k < D.G.m.nbface) : k < D.G.nface := by
  have h1 := (C27_ranges h.conf.lin h.conf.bfOk h.topo).1
  unfold Geo.nface
  omega

/-- Convective flux through a wall of the box. -/
theorem wall_flux (h : D.G.Ok) (hB : D.Box) (hg : 4 ≤ 3 * D.gas.g) {k : ℕ} (hk : k < D.G.m.nbface) {u : St} (hu : Adm D.gas u) :
    D.scheme.flux D.gas u (D.bstate k u) (D.G.nrm k) 0 = 0 ∧ D.scheme.flux D.gas u (D.bstate k u) (D.G.nrm k) 3 = 0 := by
  have hn := nrm_unit h (bnd_lt h hk)
  rcases hB.wall k hk with e | e
  · have := C09_slip_wall_flux D.gas u (D.G.nrm k) hn hu D.scheme
    simp only [bstate, e, BC.Obj.ghost]
    exact ⟨this.mass, this.energy⟩
  · simp only [bstate, e, BC.Obj.ghost]
    exact C87_no_slip_flux D.gas hg hn hu D.scheme

/-- The sums over the cells differ by the fluxes through the physical boundary. -/
theorem total_fluxes (h : D.G.Ok) (h1 : D.G.m.nconnface = 0) (second : Bool) (u : ℕ → St) (g : ℕ → Gr) (uL uR ug r : ℕ → St) (v : Fin 4) :
    total D.G.m.nelem (D.fluxes second u g uL uR ug r) v =
      total D.G.m.nelem r v - ∑ k ∈ range D.G.m.nbface, D.faceFlux second u g uL uR ug k v := by
  have hc := congrFun (C41_conservative h.conf h.topo (D.faceFlux second u g uL uR ug) r) v
  simp only [Finset.sum_apply, Pi.sub_apply] at hc
  unfold total fluxes
  rw [hc]
  congr 1
  have hsub : range D.G.m.nbface ⊆ range D.G.s.faces.length := fun k hk => by
    rw [mem_range] at *; exact bnd_lt h hk
  rw [← Finset.sum_subset hsub]
  · refine sum_congr rfl fun k hk => ?_
    have hk := mem_range.1 hk
    have := (h.kind (bnd_lt h hk)).2.2.1 hk
    unfold Geo.face at this
    rw [if_pos (by omega)]
  · intro k hk hk'
    rw [mem_range] at hk hk'
    have := (h.kind hk).2.2.2.2 (by omega)
    unfold Geo.face at this
    rw [if_neg (by omega)]
    rfl

/-- The viscous flux carries no mass. -/
theorem visc_mass (G : Gas) (second cv : Bool) (n xl xr : V2) (cl cr : St) (gl gr : Gr) (ul ur : St) :
    viscousFlux G second cv n xl xr cl cr gl gr ul ur 0 = 0 := rfl

/-- At an insulated wall at rest the viscous flux carries no energy if there are no cell gradients, or if the ghost centre lies on the normal through the cell centre. -/
theorem visc_energy (G : Gas) (second cv : Bool) {n xl xr : V2} (hn : n 0 * n 0 + n 1 * n 1 = 1) (c u : St) (g : Gr)
    (hs : second = true → ∃ t, t ≠ 0 ∧ ∀ j, xr j - xl j = t * n j) :
    viscousFlux G second cv n xl xr c (rotS (-1) 0 c) g g u (rotS (-1) 0 u) 3 = 0 := by
  have hT : G.prim2OfCons (rotS (-1) 0 c) 3 = G.prim2OfCons c 3 := by simp [Gas.prim2OfCons, pressure_rest]
  have hG : ∀ d, grad2 G (rotS (-1) 0 c) g d 3 = grad2 G c g d 3 := fun d => by simp [grad2, Gas.primOfCons, pressure_rest]
  unfold viscousFlux
  simp only [state2_eq]
  have e := (C52_flux G cv n (faceGrad xl xr (G.prim2OfCons c) (G.prim2OfCons (rotS (-1) 0 c)) (if second then grad2 G c g else 0)
    (if second then grad2 G (rotS (-1) 0 c) g else 0)) u (rotS (-1) 0 u)).2.2
  simp only at e
  rw [e]
  have v0 : ∀ j, Gas.vel u j + Gas.vel (rotS (-1) 0 u) j = 0 := fun j => by
    fin_cases j <;> simp [Gas.vel, rotS] <;> ring
  rw [v0, v0]
  simp only [zero_div, mul_zero, add_zero, zero_sub, neg_eq_zero]
  refine mul_eq_zero_of_right _ ?_
  simp only [faceGrad, hT, sub_self, zero_div, zero_mul, add_zero]
  cases second with
  | false => simp [dot]
  | true =>
    obtain ⟨t, ht, hx⟩ := hs rfl
    have hdist : cdist xl xr = |t| := by
      unfold cdist
      rw [hx 0, hx 1, ← Real.sqrt_sq_eq_abs]
      congr 1
      linear_combination t ^ 2 * hn
    have hd : ∀ j, cdir xl xr j = t / |t| * n j := fun j => by
      unfold cdir; rw [hdist, hx j]; ring
    have h2 : t / |t| * (t / |t|) = 1 := by
      have : |t| ≠ 0 := abs_ne_zero.2 ht
      field_simp
      rw [sq_abs]
    simp only [if_true, hG, dot, hd]
    generalize grad2 G c g 0 3 = a at *
    generalize grad2 G c g 1 3 = b at *
    generalize t / |t| = w at *
    linear_combination -(a * n 0 + b * n 1) * (w * w) * hn - (a * n 0 + b * n 1) * h2

/-! ### Residuals -/

/-- Fluxes of any face states whose boundary rows are an admissible inside state and the ghost state belonging to it. -/
theorem total_box (h : D.G.Ok) (hB : D.Box) (hg : 4 ≤ 3 * D.gas.g) (second : Bool) (u : ℕ → St) (g : ℕ → Gr) {uL uR : ℕ → St} (ug r : ℕ → St)
    (hL : ∀ k, k < D.G.m.nbface → Adm D.gas (uL k)) (hR : ∀ k, k < D.G.m.nbface → uR k = D.bstate k (uL k)) {v : Fin 4}
    (hv : v = 0 ∨ v = 3 ∧ (D.viscous = true → D.NoSlip ∧ (∀ k, k < D.G.m.nbface → ug k = D.bstate k (u (D.G.face k).left)) ∧
      (second = true → ∀ k, k < D.G.m.nbface → ∃ t, t ≠ 0 ∧ ∀ j, D.G.xr k j - D.G.xl k j = t * D.G.nrm k j))) :
    total D.G.m.nelem (D.fluxes second u g uL uR ug r) v = total D.G.m.nelem r v := by
  rw [total_fluxes h hB.one, Finset.sum_eq_zero, sub_zero]
  intro k hk
  have hk := mem_range.1 hk
  obtain ⟨f0, f3⟩ := wall_flux h hB hg hk (hL k hk)
  unfold faceFlux
  rw [hR k hk]
  rcases hv with rfl | ⟨rfl, hv⟩
  · rw [f0, visc_mass]; simp
  · rw [f3]
    by_cases hV : D.viscous = true
    · obtain ⟨hN, hug, hal⟩ := hv hV
      have e : ∀ w, D.bstate k w = rotS (-1) 0 w := fun w => by
        simp only [bstate, hN k hk, BC.Obj.ghost, adiabatic_rest]
      rw [if_pos hV, if_pos hk, Geo.ur, if_pos hk, hug k hk, e, e, visc_energy D.gas second D.constVisc (nrm_unit h (bnd_lt h hk)) _ _ _
        (fun hs => hal hs k hk)]
      simp
    · simp [hV]

/-- C87, first order: in a box the residual takes and adds no mass, and no energy if it is inviscid or the walls are insulated and the fluid sticks to them. -/
theorem C87_first_order (h : D.G.Ok) (hB : D.Box) (hg : 4 ≤ 3 * D.gas.g) {u : ℕ → St} (hu : ∀ i, i < D.G.m.nelem → Adm D.gas (u i)) (r : ℕ → St) :
    ∃ o, D.residual1 u r = some o ∧ total D.G.m.nelem o.res 0 = total D.G.m.nelem r 0 ∧
      (D.viscous = false ∨ D.NoSlip → total D.G.m.nelem o.res 3 = total D.G.m.nelem r 3) := by
  have hok : D.BcOk := fun k hk => by rcases hB.wall k hk with e | e <;> rw [e] <;> rfl
  have hL : ∀ k, k < D.G.m.nbface → Adm D.gas (u (D.G.face k).left) := fun k hk => hu _ (h.kind (bnd_lt h hk)).1
  unfold residual1
  rw [if_pos hok]
  refine ⟨_, rfl, ?_, fun hc => ?_⟩
  · exact total_box h hB hg _ _ _ _ _ hL (fun k hk => if_pos hk) (Or.inl rfl)
  · refine total_box h hB hg _ _ _ _ _ hL (fun k hk => if_pos hk) (Or.inr ⟨rfl, fun hV => ⟨?_, fun k hk => if_pos hk, fun hs => by cases hs⟩⟩)
    rcases hc with hc | hc
    · rw [hV] at hc; cases hc
    · exact hc

/-- C87, second order: the same, provided the reconstructed states at the walls are admissible; for energy in viscous flow the ghost centres must lie on the
normals through the cell centres. -/
theorem C87_second_order (h : D.G.Ok) (hB : D.Box) (hg : 4 ≤ 3 * D.gas.g) {gs : GradScheme} {R : ReconScheme} {E : Env} {u r : ℕ → St} {o : Out}
    (ho : D.residual2 gs R E u r = some o) (hL : ∀ k, k < D.G.m.nbface → Adm D.gas (o.uL k)) :
    total D.G.m.nelem o.res 0 = total D.G.m.nelem r 0 ∧
      (D.viscous = false ∨ (D.NoSlip ∧ ∀ k, k < D.G.m.nbface → ∃ t, t ≠ 0 ∧ ∀ j, D.G.xr k j - D.G.xl k j = t * D.G.nrm k j) →
        total D.G.m.nelem o.res 3 = total D.G.m.nelem r 3) := by
  unfold residual2 at ho
  split_ifs at ho with hok
  obtain ⟨a, ha, rfl⟩ := Option.map_eq_some_iff.1 ho
  refine ⟨?_, fun hc => ?_⟩
  · exact total_box h hB hg _ _ _ _ _ hL (fun k hk => if_pos hk) (Or.inl rfl)
  · refine total_box h hB hg _ _ _ _ _ hL (fun k hk => if_pos hk) (Or.inr ⟨rfl, fun hV => ?_⟩)
    rcases hc with hc | hc
    · rw [hV] at hc; cases hc
    · exact ⟨hc.1, fun k hk => rfl, fun _ => hc.2⟩

/-- C87: with slip walls and without viscosity the total momentum changes by forces along the wall normals only. -/
theorem C87_momentum (h : D.G.Ok) (h1 : D.G.m.nconnface = 0) (hw : ∀ k, k < D.G.m.nbface → D.bc (D.tag k) = some .slip) (hV : D.viscous = false)
    {u : ℕ → St} (hu : ∀ i, i < D.G.m.nelem → Adm D.gas (u i)) (r : ℕ → St) :
    ∃ o, D.residual1 u r = some o ∧ ∃ q : ℕ → ℝ, ∀ j : Fin 2, total D.G.m.nelem o.res (vix j) =
      total D.G.m.nelem r (vix j) - ∑ k ∈ range D.G.m.nbface, q k * D.G.nrm k j * D.G.len k := by
  have hok : D.BcOk := fun k hk => by rw [hw k hk]; rfl
  have hq : ∀ k, ∃ q, k < D.G.m.nbface → ∀ j, D.scheme.flux D.gas (u (D.G.face k).left) (D.bstate k (u (D.G.face k).left)) (D.G.nrm k) (vix j) =
      q * D.G.nrm k j := by
    intro k
    by_cases hk : k < D.G.m.nbface
    · obtain ⟨q, q1, q2⟩ := (C09_slip_wall_flux D.gas _ (D.G.nrm k) (nrm_unit h (bnd_lt h hk)) (hu _ (h.kind (bnd_lt h hk)).1) D.scheme).along
      refine ⟨q, fun _ j => ?_⟩
      simp only [bstate, hw k hk, BC.Obj.ghost]
      fin_cases j
      · exact q1
      · exact q2
    · exact ⟨0, fun hk' => absurd hk' hk⟩
  choose q hq using hq
  unfold residual1
  rw [if_pos hok]
  refine ⟨_, rfl, q, fun j => ?_⟩
  rw [total_fluxes h h1]
  congr 1
  refine sum_congr rfl fun k hk => ?_
  have hk := mem_range.1 hk
  unfold faceFlux
  simp only [hV, if_pos hk, hq k hk j]
  simp

/-! ### Explicit time integration -/

/-- Right-hand side of the explicit integration, src/ode/aodesolver.cpp:712-744: the residual divided by the cell areas; zero where there is no residual. -/
noncomputable def rhs (D : Disc) (o : Option Out) : ℕ → St := fun i v => match o with
  | some o => if i < D.G.m.nelem then o.res i v / D.G.ar i else 0
  | none => 0

/-- Amount of a conserved quantity in the domain. -/
noncomputable def amount (D : Disc) (u : ℕ → St) (v : Fin 4) : ℝ := ∑ i ∈ range D.G.m.nelem, u i v * D.G.ar i

theorem amount_rhs (ha : ∀ i, i < D.G.m.nelem → D.G.ar i ≠ 0) (o : Out) (v : Fin 4) : D.amount (D.rhs (some o)) v = total D.G.m.nelem o.res v := by
  unfold amount rhs total
  refine sum_congr rfl fun i hi => ?_
  have hi := mem_range.1 hi
  simp only [if_pos hi]
  rw [div_mul_cancel₀ _ (ha i hi)]

/-- C87: a step of the explicit integration keeps the amount of mass, and that of energy, in a box; `res` is the residual of either order. -/
theorem C87_time_step (ha : ∀ i, i < D.G.m.nelem → D.G.ar i ≠ 0) {res : (ℕ → St) → Option Out} {v : Fin 4} {u : ℕ → St}
    (hr : ∀ o, res u = some o → total D.G.m.nelem o.res v = 0) (q : ℤ) (h : ℝ) {u' : ℕ → St}
    (hs : Ode.rkStep q (fun w => D.rhs (res w)) h u = some u') : D.amount u' v = D.amount u v := by
  have h0 : D.amount (D.rhs (res u)) v = 0 := by
    cases hres : res u with
    | none => simp [amount, rhs]
    | some o => rw [amount_rhs ha, hr o hres]
  have hlin : ∀ (a b c : ℝ) (x y z : ℕ → St), D.amount (a • x + b • y - c • z) v = a * D.amount x v + b * D.amount y v - c * D.amount z v := by
    intro a b c x y z
    simp only [amount, mul_sum, ← sum_add_distrib, ← sum_sub_distrib]
    refine sum_congr rfl fun i _ => ?_
    simp only [Pi.sub_apply, Pi.add_apply, Pi.smul_apply, smul_eq_mul]
    ring
  by_cases hq : q = 1 ∨ q = 2 ∨ q = 3
  · rw [Ode.C58_step hq] at hs
    have := hlin 1 0 (Ode.kappa q * h) u u (D.rhs (res u))
    rw [one_smul, zero_smul, add_zero, h0] at this
    rw [← Option.some.inj hs, this]
    ring
  · push Not at hq
    obtain ⟨h1, h2, h3⟩ := hq
    by_cases hq0 : q = 0
    · subst hq0
      simp only [Ode.rkStep, Ode.tvdrk, if_true, Option.map_some, Ode.stages, List.foldl_nil, Option.some.injEq] at hs
      rw [hs]
    · simp [Ode.rkStep, Ode.tvdrk, hq0, h1, h2, h3] at hs

/-- C87: a whole explicit run keeps the amount of mass (`v = 0`) and of energy (`v = 3`) in an inviscid box, as long as it stays in a set `A` of states that are
admissible in every cell. -/
theorem C87_run (hok : D.G.Ok) (hB : D.Box) (hg : 4 ≤ 3 * D.gas.g) (hV : D.viscous = false) (ha : ∀ i, i < D.G.m.nelem → D.G.ar i ≠ 0)
    {A : Set (ℕ → St)} (hA : ∀ u ∈ A, ∀ i, i < D.G.m.nelem → Adm D.gas (u i)) {q : ℤ} {dtm : (ℕ → St) → ℝ} {cfl T : ℝ}
    (hst : ∀ s s', s.u ∈ A → Ode.tbody q (fun w => D.rhs (D.residual1 w fun _ => 0)) dtm cfl s = some s' → s'.u ∈ A)
    {s t : Ode.TMem (ℕ → St)} {n : ℕ} (hs : s.u ∈ A)
    (hl : Ode.Loop (Ode.tcond T) (Ode.tbody q (fun w => D.rhs (D.residual1 w fun _ => 0)) dtm cfl) s n (some t)) {v : Fin 4} (hv : v = 0 ∨ v = 3) :
    D.amount t.u v = D.amount s.u v := by
  generalize ho : some t = o at hl
  induction hl with
  | done h1 => rw [Option.some.inj ho]
  | @step s s' n o h1 h2 _ ih =>
    rw [ih (hst s s' hs h2) ho]
    unfold Ode.tbody at h2
    obtain ⟨w, hw, rfl⟩ := Option.map_eq_some_iff.1 h2
    refine C87_time_step ha (fun o ho => ?_) q _ hw
    obtain ⟨o', e, m0, m3⟩ := C87_first_order hok hB hg (hA _ hs) (fun _ => 0)
    rw [e] at ho
    rw [← Option.some.inj ho]
    rcases hv with rfl | rfl
    · rw [m0]; simp [total]
    · rw [m3 (Or.inl hV)]; simp [total]
  | throws => cases ho

/-! ### Example: four triangles in a square with solid walls -/

/-- The square cut by its diagonals; ghost centres are the mirror images. -/
noncomputable def boxGeo : Geo := { Geo.crossGeo with rcbp := fun k => if k = 0 then ![1/2, -1/6] else if k = 1 then ![7/6, 1/2] else if k = 2 then ![1/2, 7/6] else ![-1/6, 1/2] }

/-- Air in the square, two slip walls and two no-slip walls. -/
noncomputable def boxDisc (viscous : Bool) (sl : BC.Obj) : Disc where
  G := boxGeo
  gas := air
  scheme := .hllc
  viscous := viscous
  constVisc := false
  bc := fun t => if t = 1 then some sl else if t = 2 then some (.adiabatic 0) else none
  tag := fun k => if k < 2 then 1 else 2

theorem boxGeo_ok : boxGeo.Ok := ⟨Geo.crossGeo_ok.conf, Geo.crossGeo_ok.nz, Geo.crossGeo_ok.topo⟩

theorem boxDisc_box (b : Bool) {sl : BC.Obj} (h : sl = .slip ∨ sl = .adiabatic 0) : (boxDisc b sl).Box := by
  refine ⟨rfl, fun k hk => ?_⟩
  by_cases h2 : k < 2
  · simp only [boxDisc, if_pos h2, if_true]
    rcases h with rfl | rfl <;> simp
  · simp only [boxDisc, if_neg h2]
    simp

/-- Fluid moving in one cell and at rest in the others. -/
noncomputable def boxState : ℕ → St := fun i => if i = 0 then uEx else ![1, 0, 0, 2]

theorem boxState_adm (i : ℕ) : Adm air (boxState i) := by
  unfold boxState
  split_ifs
  · exact adm_uEx
  · exact ⟨by norm_num [air], by norm_num, by simp [Gas.pressure, Gas.pressureOfInternal, dot, mom, air]; norm_num⟩

/-- Hypotheses of `C87_first_order` are met. -/
example (r : ℕ → St) : ∃ o, (boxDisc false .slip).residual1 boxState r = some o ∧ total 4 o.res 0 = total 4 r 0 ∧ total 4 o.res 3 = total 4 r 3 := by
  obtain ⟨o, h1, h2, h3⟩ := C87_first_order (D := boxDisc false .slip) boxGeo_ok (boxDisc_box false (Or.inl rfl)) (by norm_num [boxDisc, air])
    (fun i _ => boxState_adm i) r
  exact ⟨o, h1, h2, h3 (Or.inl rfl)⟩

/-- With zero gradients linear reconstruction returns the cell state. -/
theorem zero_linear_left (h : D.G.Ok) {E : Env} {u r : ℕ → St} {o : Out} (ho : D.residual2 .zero .linear E u r = some o) {k : ℕ} (hk : k < D.G.nface)
    (hg : D.gas.g ≠ 1) (hu : u (D.G.face k).left 0 ≠ 0) : o.uL k = u (D.G.face k).left := by
  obtain ⟨k1, k2, k3, k4, k5⟩ := h.kind hk
  have hLr : (D.G.face k).left < D.G.rows := by unfold Geo.rows; omega
  unfold residual2 at ho
  split_ifs at ho with hok
  obtain ⟨a, ha, rfl⟩ := Option.map_eq_some_iff.1 ho
  simp only [recon] at ha
  split_ifs at ha with hs
  have ha' := Option.some.inj ha
  show D.gas.consOfPrim (a (true, k)) = _
  have : a (true, k) = D.gas.primOfCons (u (D.G.face k).left) := by
    rw [← ha']
    funext v
    have hv := hs v
    simp only [recon1, faceArr] at hv ⊢
    split_ifs at hv ⊢ with hc
    · simp only [Option.getD_some, hk, if_true]
      have hck := hc k hk
      unfold Geo.linearFace at hck ⊢
      simp only [rd, if_pos hLr, Option.bind_some, gradients, if_pos k1] at hck ⊢
      by_cases hin : D.G.inner k
      · have hR : (D.G.face k).right < D.G.rows := by have := k4.1 hin; unfold Geo.rows; omega
        simp [hin, hR, linExt]
      · simp [hin, linExt]
    · simp at hv
  rw [this, C01_cons_prim_cons D.gas hg _ hu]

/-- Viscous flow, second order: all walls insulated, ghost centres on the normals, and the states at the walls are admissible where gradients are set to zero. -/
example (E : Env) (r : ℕ → St) : ∃ o, (boxDisc true (.adiabatic 0)).residual2 .zero .linear E boxState r = some o ∧
    total 4 o.res 0 = total 4 r 0 ∧ total 4 o.res 3 = total 4 r 3 := by
  have hB : (boxDisc true (.adiabatic 0)).Box := boxDisc_box true (Or.inr rfl)
  have hok : (boxDisc true (.adiabatic 0)).BcOk := fun k hk => by rcases hB.wall k hk with e | e <;> rw [e] <;> rfl
  have hN : (boxDisc true (.adiabatic 0)).NoSlip := fun k _ => by simp only [boxDisc]; split_ifs <;> simp_all
  have hdef : ∃ o, (boxDisc true (.adiabatic 0)).residual2 .zero .linear E boxState r = some o := by
    unfold residual2
    rw [if_pos hok]
    simp only [recon]
    rw [if_pos fun v => recon1_isSome boxGeo_ok (R := .linear) trivial (by simp) _ _ _ _]
    exact ⟨_, rfl⟩
  obtain ⟨o, ho⟩ := hdef
  have hL : ∀ k, k < 4 → Adm air (o.uL k) := by
    intro k hk
    have hk : k < (boxDisc true (.adiabatic 0)).G.m.nbface := hk
    rw [zero_linear_left boxGeo_ok ho (bnd_lt boxGeo_ok hk) (by norm_num [boxDisc, air]) (boxState_adm _).rho']
    exact boxState_adm _
  have := C87_second_order (D := boxDisc true (.adiabatic 0)) boxGeo_ok hB (by norm_num [boxDisc, air]) ho hL
  refine ⟨o, ho, this.1, this.2 (Or.inr ⟨hN, fun k hk => ?_⟩)⟩
  have hk : k < 4 := hk
  have hf : boxGeo.s.faces = _ := Geo.cross_topological.choose_spec.2
  have f0 : boxGeo.face 0 = ⟨0, 4, 0, 1⟩ := by simp [Geo.face, faceAt, hf]
  have f1 : boxGeo.face 1 = ⟨1, 5, 1, 2⟩ := by simp [Geo.face, faceAt, hf]
  have f2 : boxGeo.face 2 = ⟨2, 6, 2, 3⟩ := by simp [Geo.face, faceAt, hf]
  have f3 : boxGeo.face 3 = ⟨3, 7, 3, 0⟩ := by simp [Geo.face, faceAt, hf]
  refine ⟨1 / 3, by norm_num, fun j => ?_⟩
  obtain rfl | rfl | rfl | rfl : k = 0 ∨ k = 1 ∨ k = 2 ∨ k = 3 := by omega
  all_goals
    simp only [boxDisc, Geo.xr, Geo.xl, Geo.nrm, f0, f1, f2, f3]
    fin_cases j <;> simp [boxGeo, Geo.crossGeo, Geo.cross, triMesh, fNrm, fLen, centre, forLt_succ, forLt_zero] <;> norm_num

/-- An admissible state stays admissible under small changes. -/
theorem adm_small {G : Gas} {u : St} (h : Adm G u) (w : St) : ∃ d : ℝ, 0 < d ∧ ∀ x : ℝ, 0 < x → x ≤ d → Adm G (u - x • w) := by
  have hc : ContinuousAt (fun x : ℝ => G.pressure (u - x • w)) 0 := by
    simp only [Gas.pressure, Gas.pressureOfInternal, dot, mom, Pi.sub_apply, Pi.smul_apply, smul_eq_mul]
    have h0 : u 0 - 0 * w 0 ≠ 0 := by simpa using h.rho'
    fun_prop (disch := assumption)
  have hr : ContinuousAt (fun x : ℝ => (u - x • w) 0) 0 := by
    simp only [Pi.sub_apply, Pi.smul_apply, smul_eq_mul]
    fun_prop
  have e1 := hc.eventually (lt_mem_nhds (b := G.pressure (u - (0 : ℝ) • w)) (a := 0) (by simpa using h.p))
  have e2 := hr.eventually (lt_mem_nhds (b := (u - (0 : ℝ) • w) 0) (a := 0) (by simpa using h.rho))
  obtain ⟨ε, he, hb⟩ := Metric.eventually_nhds_iff.1 (e1.and e2)
  refine ⟨ε / 2, by linarith, fun x hx hd => ?_⟩
  have := hb (y := x) (by rw [Real.dist_eq, sub_zero, abs_of_pos hx]; linarith)
  exact ⟨h.g1, this.2, this.1⟩

open Classical in
/-- Hypotheses of `C87_run` are met by a run of one step of positive length: the step is short enough for the new state to be admissible. -/
example : ∃ (A : Set (ℕ → St)) (dtm : (ℕ → St) → ℝ), boxState ∈ A ∧ (∀ u ∈ A, ∀ i, i < 4 → Adm air (u i)) ∧ 0 < dtm boxState ∧
    (∀ s s', s.u ∈ A → Ode.tbody 2 (fun w => (boxDisc false .slip).rhs ((boxDisc false .slip).residual1 w fun _ => 0)) dtm 1 s = some s' → s'.u ∈ A) := by
  set f : (ℕ → St) → ℕ → St := fun w => (boxDisc false .slip).rhs ((boxDisc false .slip).residual1 w fun _ => 0)
  choose d hd hA using fun i => adm_small (boxState_adm i) (f boxState i)
  set δ := min (min (d 0) (d 1)) (min (d 2) (d 3))
  have hδ : 0 < δ := lt_min (lt_min (hd 0) (hd 1)) (lt_min (hd 2) (hd 3))
  have hle : ∀ i, i < 4 → δ ≤ d i := fun i hi => by
    obtain rfl | rfl | rfl | rfl : i = 0 ∨ i = 1 ∨ i = 2 ∨ i = 3 := by omega
    all_goals simp [δ]
  refine ⟨{boxState, boxState - δ • f boxState}, fun u => if u = boxState then δ else 0, by simp, ?_, by simpa using hδ, ?_⟩
  · rintro u (rfl | rfl) i hi
    · exact boxState_adm i
    · exact hA i δ hδ (hle i hi)
  · rintro s s' hs hb
    simp only [Ode.tbody] at hb
    rw [Ode.C58_step (by norm_num)] at hb
    simp only [Ode.kappa] at hb
    norm_num at hb
    rw [← hb]
    by_cases e : s.u = boxState
    · right; simp [e]
    · rcases hs with hs | hs
      · exact absurd hs e
      · right; simp only [if_neg e, sub_zero]; exact hs

end Disc
end FV
end FVENS
