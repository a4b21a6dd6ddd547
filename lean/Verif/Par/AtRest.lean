import Verif.Par.SecondOrder
import Verif.Flux.Upwind
import Verif.FV.MusclBound

/-!
# Gas at rest with varying density (C97)

Gas at rest under uniform pressure is in equilibrium whatever its density. Which flux schemes keep it so on every mesh, at first and second order, for whole runs; and what the
others do.
-/

namespace FVENS
namespace Par

open Msh FV Flux Ode Lin
open Finset (range sum_eq_zero sum_congr mem_range mem_filter)

/-! ### Specification -/

/-- Gas at rest under pressure `p`. -/
structure AtRest (G : Gas) (p : ℝ) (u : St) : Prop where
  rho : 0 < u 0
  m1 : u 1 = 0
  m2 : u 2 = 0
  pr : G.pressure u = p

/-- Boundary conditions that do not disturb gas at rest: slip wall, adiabatic wall at rest, extrapolation, and far field or in/outflow with the state `c`. -/
def StillBc (c : St) (o : BC.Obj) : Prop := o = .slip ∨ o = .adiabatic 0 ∨ o = .extrapolation ∨ o = .farfield c ∨ o = .inOut c

/-! ### States -/

section
variable {G : Gas} {p : ℝ} {u ul ur c : St} {n : V2}

theorem AtRest.adm (h : AtRest G p u) (hg : 1 < G.g) (hp : 0 < p) : Adm G u := ⟨hg, h.rho, by rw [h.pr]; exact hp⟩

theorem AtRest.energy (h : AtRest G p u) : (G.g - 1) * u 3 = p := by
  rw [← h.pr]; simp [Gas.pressure, Gas.pressureOfInternal, dot, mom, h.m1, h.m2]

theorem AtRest.ext (hg : 1 < G.g) (hl : AtRest G p ul) (hr : AtRest G p ur) (h : ul 0 = ur 0) : ul = ur := by
  have h3 : ul 3 = ur 3 := by
    have := hl.energy.trans hr.energy.symm
    exact mul_left_cancel₀ (by linarith) this
  funext i
  fin_cases i
  · exact h
  · exact hl.m1.trans hr.m1.symm
  · exact hl.m2.trans hr.m2.symm
  · exact h3

theorem AtRest.contact (hl : AtRest G p ul) (hr : AtRest G p ur) (n : V2) : Contact G ul ur n p :=
  ⟨by simp [Gas.varsVn, Gas.vel, dot, hl.m1, hl.m2], by simp [Gas.varsVn, Gas.vel, dot, hr.m1, hr.m2],
    by rw [varsP_eq hl.rho.ne', hl.pr], by rw [varsP_eq hr.rho.ne', hr.pr]⟩

/-- Ghost states are the inside state or the reference state. -/
theorem StillBc.ghost {o : BC.Obj} (ho : StillBc c o) (hu : AtRest G p u) (n : V2) : o.ghost G u n = u ∨ o.ghost G u n = c := by
  have e : ∀ v : St, v 0 = u 0 → v 1 = 0 → v 2 = 0 → v 3 = u 3 → v = u := fun v h0 h1 h2 h3 => by
    funext i
    fin_cases i
    · exact h0
    · exact h1.trans hu.m1.symm
    · exact h2.trans hu.m2.symm
    · exact h3
  rcases ho with rfl | rfl | rfl | rfl | rfl
  · exact Or.inl (e _ rfl (by simp [BC.Obj.ghost, BC.slip, dot, mom, hu.m1, hu.m2]) (by simp [BC.Obj.ghost, BC.slip, dot, mom, hu.m1, hu.m2]) rfl)
  · exact Or.inl (e _ rfl (by simp [BC.Obj.ghost, BC.adiabatic, hu.m1]) (by simp [BC.Obj.ghost, BC.adiabatic, hu.m2]) rfl)
  · exact Or.inl rfl
  · exact Or.inr rfl
  · right
    have : BC.machN G u n ≤ 0 := by simp [BC.machN, dot, mom, hu.m1, hu.m2]
    simp [BC.Obj.ghost, BC.inOut, this]

theorem StillBc.ghost_rest {o : BC.Obj} (ho : StillBc c o) (hc : AtRest G p c) (hu : AtRest G p u) (n : V2) : AtRest G p (o.ghost G u n) := by
  rcases ho.ghost hu n with e | e <;> rw [e]
  · exact hu
  · exact hc

/-! ### Fluxes -/

/-- Flux schemes that keep stationary contacts. -/
def KeepsContacts (s : Scheme) : Prop := s = .ausm ∨ s = .ausmPlus ∨ s = .hllc

instance (s : Scheme) : Decidable (KeepsContacts s) := by unfold KeepsContacts; infer_instance

/-- Between equal states every scheme gives the pressure flux. -/
theorem rest_flux_equal (hg : 1 < G.g) (hp : 0 < p) (hu : AtRest G p u) (s : Scheme) (n : V2) : s.flux G u u n = pressureFlux n p := by
  rw [C15_consistency G u n (hu.adm hg hp) s, eulerFlux_eq hu.rho.ne', (hu.contact hu n).vl, (hu.contact hu n).pl]
  funext i
  fin_cases i <;> simp [Gas.dirFlux, pressureFlux, hu.m1, hu.m2]

/-- The other four schemes let mass flow from the denser to the thinner side. -/
theorem rest_mass_flux (hg : 1 < G.g) (hp : 0 < p) (hl : AtRest G p ul) (hr : AtRest G p ur) {s : Scheme} (hs : ¬ KeepsContacts s) (n : V2) :
    ∃ κ, 0 < κ ∧ s.flux G ul ur n 0 = κ * (ul 0 - ur 0) := by
  have al := hl.adm hg hp
  have ar := hr.adm hg hp
  have hc := hl.contact hr n
  have cl := al.c_pos
  have cr := ar.c_pos
  cases s with
  | llf =>
    refine ⟨llfEig 0 (cSide G ul) 0 (cSide G ur) / 2, ?_, ?_⟩
    · unfold llfEig; split_ifs <;> simp <;> assumption
    · simp only [Scheme.flux, llf, hc.vl, hc.vr, eulerFlux_eq hl.rho.ne', eulerFlux_eq hr.rho.ne', Gas.dirFlux]
      simp
      ring
  | vanLeer =>
    have sl := Real.sqrt_pos.2 hl.rho
    have sr := Real.sqrt_pos.2 hr.rho
    have hgp : 0 < G.g * p := mul_pos (by linarith) hp
    refine ⟨Real.sqrt (G.g * p) / 4 / (Real.sqrt (ul 0) + Real.sqrt (ur 0)), div_pos (div_pos (Real.sqrt_pos.2 hgp) (by norm_num)) (add_pos sl sr), ?_⟩
    have e : ∀ w : St, 0 < w 0 → G.varsP w = p → w 0 * cSide G w = Real.sqrt (G.g * p) * Real.sqrt (w 0) := fun w hw h => by
      unfold cSide Gas.soundSpeed
      rw [h, Real.sqrt_div hgp.le]
      have h1 := Real.mul_self_sqrt hw.le
      have h2 := (Real.sqrt_pos.2 hw).ne'
      field_simp
      rw [pow_two, h1]
    have e1 := e ul hl.rho hc.pl
    have e2 := e ur hr.rho hc.pr
    have m1 := Real.mul_self_sqrt hl.rho.le
    have m2 := Real.mul_self_sqrt hr.rho.le
    simp only [Scheme.flux, vanLeer, vlPlus, vlMinus, hc.vl, hc.vr, zero_div]
    norm_num
    rw [e1, e2, ← m1, ← m2, Real.sqrt_mul_self sl.le, Real.sqrt_mul_self sr.le]
    have := (add_pos sl sr).ne'
    field_simp
    ring
  | ausm => exact absurd (Or.inl rfl) hs
  | ausmPlus => exact absurd (Or.inr (Or.inl rfl)) hs
  | roe =>
    refine ⟨fixeps * (roeOf G ul ur n).c / 4, div_pos (mul_pos (by norm_num [fixeps]) (roe_c_pos al ar)) (by norm_num), ?_⟩
    rw [show Scheme.flux G .roe ul ur n 0 = roe G ul ur n 0 from rfl, C20_roe_diffuses_contact al ar hc]
    ring
  | hll =>
    have h1 := sl_lt_vn (ur := ur) (n := n) al
    have h2 := vn_lt_sr (ul := ul) (n := n) ar
    rw [hc.vl] at h1
    rw [hc.vr] at h2
    refine ⟨hllT3 (slOf G ul ur n) (srOf G ul ur n), ?_, ?_⟩
    · unfold hllT3
      rw [abs_of_neg h1, abs_of_pos h2]
      have : 0 < srOf G ul ur n * -slOf G ul ur n := mul_pos h2 (by linarith)
      exact div_pos (by nlinarith) (by linarith)
    · simp only [Scheme.flux, hll, hllCore, hc.vl, hc.vr]
      simp
      ring
  | hllc => exact absurd (Or.inr (Or.inr rfl)) hs

end

/-! ### First order -/

section
variable {D : Disc} {p : ℝ} {c : St} {u : ℕ → St}

/-- Face fluxes that are sums of the normal's components times fixed vectors cancel in every cell. -/
theorem fluxes_closed (h : D.G.Ok) {second : Bool} {u : ℕ → St} {g : ℕ → Gr} {uL uR ug : ℕ → St} {A B : St}
    (hf : ∀ k, k < D.G.nface → ∀ v, D.faceFlux second u g uL uR ug k v = D.G.len k * D.G.nrm k 0 * A v + D.G.len k * D.G.nrm k 1 * B v)
    (r : ℕ → St) {i : ℕ} (hi : i < D.G.m.nelem) : D.fluxes second u g uL uR ug r i = r i := by
  unfold Disc.fluxes
  rw [assemble_eq]
  have hs : ∑ k ∈ range D.G.s.faces.length, contrib D.G.m.nelem (faceAt D.G.s.faces k) (D.faceFlux second u g uL uR ug k) i =
      - ∑ k ∈ (range D.G.nface).filter (D.G.touches i), D.G.sgn i k • D.faceFlux second u g uL uR ug k := by
    rw [Finset.sum_filter, ← Finset.sum_neg_distrib]
    refine sum_congr rfl fun k hk => ?_
    obtain ⟨k1, k2, k3, k4, k5⟩ := h.kind (mem_range.1 hk)
    unfold contrib Geo.touches Geo.sgn
    change (if (D.G.face k).right = i ∧ i < D.G.m.nelem then _ else _) - (if (D.G.face k).left = i then _ else _) = _
    by_cases e1 : (D.G.face k).left = i
    · have e2 : ¬ (D.G.face k).right = i := fun e => k2 (by rw [e1, e])
      simp [e1, e2]
    · by_cases e2 : (D.G.face k).right = i
      · simp [e1, e2, hi]
      · simp [e1, e2]
  rw [hs]
  have hz : ∑ k ∈ (range D.G.nface).filter (D.G.touches i), D.G.sgn i k • D.faceFlux second u g uL uR ug k = 0 := by
    funext v
    rw [Finset.sum_apply]
    have : ∀ k ∈ (range D.G.nface).filter (D.G.touches i), (D.G.sgn i k • D.faceFlux second u g uL uR ug k) v =
        D.G.sgn i k * (D.G.len k * D.G.nrm k 0) * A v + D.G.sgn i k * (D.G.len k * D.G.nrm k 1) * B v := fun k hk => by
      rw [Pi.smul_apply, hf k (mem_range.1 (mem_filter.1 hk).1), smul_eq_mul]; ring
    rw [sum_congr rfl this, Finset.sum_add_distrib, ← Finset.sum_mul, ← Finset.sum_mul, Geo.closed_touch h hi, Geo.closed_touch h hi]
    simp
  rw [hz]; simp

/-- Pressure fluxes through all faces leave the residual unchanged. -/
theorem fluxes_pressure (h : D.G.Ok) (hv : D.viscous = false) {second : Bool} {u : ℕ → St} {g : ℕ → Gr} {uL uR ug : ℕ → St}
    (hf : ∀ k, k < D.G.nface → D.scheme.flux D.gas (uL k) (uR k) (D.G.nrm k) = pressureFlux (D.G.nrm k) p)
    (r : ℕ → St) {i : ℕ} (hi : i < D.G.m.nelem) : D.fluxes second u g uL uR ug r i = r i := by
  refine fluxes_closed h (A := ![0, p, 0, 0]) (B := ![0, 0, p, 0]) (fun k hk v => ?_) r hi
  simp only [Disc.faceFlux, hf k hk, hv]
  fin_cases v <;> simp [pressureFlux] <;> ring

/-- State on the right of face `k` in the first-order evaluation. -/
noncomputable def beyond (D : Disc) (u : ℕ → St) (k : ℕ) : St := if k < D.G.m.nbface then D.bstate k (u (D.G.face k).left) else u (D.G.face k).right

/-- Every boundary face has a boundary condition that does not disturb gas at rest. -/
def StillBcs (D : Disc) (c : St) : Prop := ∀ k, k < D.G.m.nbface → ∃ o, D.bc (D.tag k) = some o ∧ StillBc c o

theorem StillBcs.ok (hb : StillBcs D c) : D.BcOk := fun k hk => by
  obtain ⟨o, ho, -⟩ := hb k hk
  rw [ho]; rfl

theorem StillBcs.bstate (hb : StillBcs D c) {k : ℕ} (hk : k < D.G.m.nbface) {w : St} (hw : AtRest D.gas p w) : D.bstate k w = w ∨ D.bstate k w = c := by
  obtain ⟨o, ho, hs⟩ := hb k hk
  unfold Disc.bstate
  rw [ho]
  exact hs.ghost hw _

theorem StillBcs.bstate_rest (hb : StillBcs D c) (hc : AtRest D.gas p c) {k : ℕ} (hk : k < D.G.m.nbface) {w : St} (hw : AtRest D.gas p w) :
    AtRest D.gas p (D.bstate k w) := by
  rcases hb.bstate hk hw with e | e <;> rw [e]
  · exact hw
  · exact hc

theorem left_rest (h : D.G.Ok) (hu : ∀ i, i < D.G.rows → AtRest D.gas p (u i)) {k : ℕ} (hk : k < D.G.nface) : AtRest D.gas p (u (D.G.face k).left) :=
  hu _ (by have := (h.kind hk).1; unfold Geo.rows; omega)

theorem beyond_rest (h : D.G.Ok) (hb : StillBcs D c) (hc : AtRest D.gas p c) (hu : ∀ i, i < D.G.rows → AtRest D.gas p (u i)) {k : ℕ} (hk : k < D.G.nface) :
    AtRest D.gas p (beyond D u k) := by
  unfold beyond
  split_ifs with hlt
  · exact hb.bstate_rest hc hlt (left_rest h hu hk)
  · exact hu _ ((h.kind hk).2.2.2.2 (by omega))

theorem residual1_beyond (hb : D.BcOk) (u r : ℕ → St) : D.residual1 u r = some ⟨fun k => u (D.G.face k).left, beyond D u,
    D.fluxes false u 0 (fun k => u (D.G.face k).left) (beyond D u) (beyond D u) r⟩ := by
  unfold Disc.residual1
  rw [if_pos hb]
  rfl

/-- C97, first order: on every mesh, inviscid, with AUSM, AUSM+ or HLLC, the residual does not change where all cells, received ghost cells and the reference state hold gas at rest
under one pressure. The densities are arbitrary. -/
theorem C97_first_order (h : D.G.Ok) (hg : 1 < D.gas.g) (hp : 0 < p) (hv : D.viscous = false) (hs : KeepsContacts D.scheme) (hb : StillBcs D c)
    (hc : AtRest D.gas p c) (hu : ∀ i, i < D.G.rows → AtRest D.gas p (u i)) (r : ℕ → St) :
    ∃ o, D.residual1 u r = some o ∧ ∀ i, i < D.G.m.nelem → o.res i = r i := by
  refine ⟨_, residual1_beyond hb.ok u r, fun i hi => fluxes_pressure (p := p) h hv (fun k hk => ?_) r hi⟩
  have hl := left_rest h hu hk
  have hr := beyond_rest h hb hc hu hk
  exact C20_contact_preserved (hl.adm hg hp) (hr.adm hg hp) (hl.contact hr _) _ hs

/-- C97, whole runs: such a state is steady, so explicit runs of any length, with any CFL numbers, never change it. -/
theorem C97_explicit_run (h : D.G.Ok) (hg : 1 < D.gas.g) (hp : 0 < p) (hv : D.viscous = false) (hs : KeepsContacts D.scheme) (hb : StillBcs D c)
    (hc : AtRest D.gas p c) (hu : ∀ i, i < D.G.rows → AtRest D.gas p (u i)) (k : Kind) (cf : Conf) (n : ℕ) :
    IsSteady D u ∧ (∃ s, traj k (single D) cf u n = some s ∧ s.u = u) ∧ hist k (single D) cf u n = some 0 := by
  have hst : IsSteady D u := by
    obtain ⟨o, h1, h2⟩ := C97_first_order h hg hp hv hs hb hc hu 0
    exact ⟨o, h1, fun i hi => h2 i hi⟩
  exact ⟨hst, C95_stays hst k cf n⟩

/-- The implicit update does not change it either, with an exact linear solver and a regular matrix. -/
theorem C97_implicit_update (h : D.G.Ok) (hg : 1 < D.gas.g) (hp : 0 < p) (hv : D.viscous = false) (hs : KeepsContacts D.scheme) (hb : StillBcs D c)
    (hc : AtRest D.gas p c) (hu : ∀ i, i < D.G.rows → AtRest D.gas p (u i)) {J : St → St → V2 → FJ} {relax : St → St → ℝ}
    {ksp : (ℕ × ℕ → Blk (Fin 4)) → (ℕ → St) → ℕ → St} (hk : Exact D.G.m.nelem ksp) {cfl : ℝ}
    (hreg : ∀ o, D.residual1 u 0 = some o → Regular D.G.m.nelem (sysOne D J u o cfl)) : (implicit D J relax ksp).upd cfl u = u := by
  obtain ⟨o, ho, hz⟩ := C97_first_order h hg hp hv hs hb hc hu 0
  have hR := hreg o ho
  have hx := hk _ o.res hR
  have h0 := hR _ fun i hi => (hx i hi).trans (hz i hi)
  have he : (implicit D J relax ksp).upd cfl u = relaxed D.G.m.nelem relax (ksp (sysOne D J u o cfl) o.res) u := by simp only [implicit, ho]
  rw [he]
  funext i
  unfold relaxed
  split_ifs with hi
  · rw [h0 i hi]; simp
  · rfl

/-! ### The other schemes -/

/-- C97, exactly, for LLF, van Leer, Roe and HLL on one process: gas at rest under one pressure is steady only if the density is the same on both sides of every face, ghost states
included. -/
theorem C97_diffusive_iff (h : D.G.Ok) (hone : D.G.m.nconnface = 0) (hg : 1 < D.gas.g) (hp : 0 < p) (hv : D.viscous = false) (hs : ¬ KeepsContacts D.scheme)
    (hb : StillBcs D c) (hc : AtRest D.gas p c) (hu : ∀ i, i < D.G.rows → AtRest D.gas p (u i)) :
    IsSteady D u ↔ ∀ k, k < D.G.nface → u (D.G.face k).left 0 = beyond D u k 0 := by
  constructor
  · rintro ⟨o, ho, hz⟩
    rw [residual1_beyond hb.ok] at ho
    have hres := congrArg Disc.Out.res (Option.some.inj ho)
    dsimp only at hres
    have hκ : ∀ k, k < D.G.nface → ∃ κ, 0 < κ ∧ D.faceFlux false u 0 (fun k => u (D.G.face k).left) (beyond D u) (beyond D u) k 0 =
        κ * (u (D.G.face k).left 0 - beyond D u k 0) := fun k hk => by
      obtain ⟨κ, h1, h2⟩ := rest_mass_flux hg hp (left_rest h hu hk) (beyond_rest h hb hc hu hk) hs (D.G.nrm k)
      refine ⟨κ * D.G.len k, mul_pos h1 (Disc.len_pos h hk), ?_⟩
      simp only [Disc.faceFlux, hv, h2]
      simp
      ring
    choose! κ hκ0 hκ1 using hκ
    have hsum : ∑ i ∈ range D.G.m.nelem, (u i 0 - c 0) * o.res i 0 = 0 := sum_eq_zero fun i hi => by rw [hz i (mem_range.1 hi)]; simp
    have hterm : ∀ k, k < D.G.nface → ∑ i ∈ range D.G.m.nelem, (u i 0 - c 0) *
        contrib D.G.m.nelem (D.G.face k) (D.faceFlux false u 0 (fun k => u (D.G.face k).left) (beyond D u) (beyond D u) k) i 0 =
        - (κ k * (u (D.G.face k).left 0 - beyond D u k 0) ^ 2) := fun k hk => by
      obtain ⟨k1, k2, k3, k4, k5⟩ := h.kind hk
      have hsplit : ∀ i, (u i 0 - c 0) * contrib D.G.m.nelem (D.G.face k) (D.faceFlux false u 0 (fun k => u (D.G.face k).left) (beyond D u) (beyond D u) k) i 0 =
          (if (D.G.face k).right = i then (if i < D.G.m.nelem then (u i 0 - c 0) * (κ k * (u (D.G.face k).left 0 - beyond D u k 0)) else 0) else 0) -
          (if (D.G.face k).left = i then (u i 0 - c 0) * (κ k * (u (D.G.face k).left 0 - beyond D u k 0)) else 0) := fun i => by
        rw [← hκ1 k hk]
        unfold contrib
        by_cases e1 : (D.G.face k).right = i <;> by_cases e2 : (D.G.face k).left = i <;> by_cases e3 : i < D.G.m.nelem <;> simp [e1, e2, e3]
      rw [sum_congr rfl fun i _ => hsplit i, Finset.sum_sub_distrib, Finset.sum_ite_eq, Finset.sum_ite_eq, if_pos (mem_range.2 k1)]
      by_cases hbd : k < D.G.m.nbface
      · have hr : ¬ (D.G.face k).right < D.G.m.nelem := fun hlt => by
          have := (k4.2 hlt).1; omega
        rw [if_neg (fun hm => hr (mem_range.1 hm))]
        have : beyond D u k 0 = u (D.G.face k).left 0 ∨ beyond D u k 0 = c 0 := by
          unfold beyond
          rw [if_pos hbd]
          rcases hb.bstate hbd (left_rest h hu hk) with e | e <;> rw [e] <;> simp
        rcases this with e | e <;> rw [e] <;> ring
      · have hr : (D.G.face k).right < D.G.m.nelem := by have := k5 (by omega); omega
        rw [if_pos (mem_range.2 hr), if_pos hr]
        have : beyond D u k = u (D.G.face k).right := by unfold beyond; rw [if_neg hbd]
        rw [this]
        ring
    have htot : ∑ k ∈ range D.G.nface, κ k * (u (D.G.face k).left 0 - beyond D u k 0) ^ 2 = 0 := by
      rw [← neg_eq_zero, ← Finset.sum_neg_distrib, ← sum_congr rfl fun k hk => hterm k (mem_range.1 hk), Finset.sum_comm, ← hsum]
      refine sum_congr rfl fun i _ => ?_
      rw [← hres]
      unfold Disc.fluxes
      rw [assemble_eq, Pi.add_apply, Finset.sum_apply, Pi.zero_apply, Pi.zero_apply, zero_add, Finset.mul_sum]
      rfl
    intro k hk
    have hk0 := (Finset.sum_eq_zero_iff_of_nonneg fun k hk => mul_nonneg (hκ0 k (mem_range.1 hk)).le (sq_nonneg _)).1 htot k (mem_range.2 hk)
    have := (mul_eq_zero.1 hk0).resolve_left (hκ0 k hk).ne'
    have := pow_eq_zero_iff (two_ne_zero) |>.1 this
    linarith
  · intro heq
    refine ⟨_, residual1_beyond hb.ok u 0, fun i hi => fluxes_pressure (p := p) h hv (fun k hk => ?_) 0 hi⟩
    have hl := left_rest h hu hk
    have hr := beyond_rest h hb hc hu hk
    rw [← hl.ext hg hr (heq k hk)]
    exact rest_flux_equal hg hp hl _ _

/-! ### Second order -/

/-- Gradients of a variable that is the same everywhere vanish, whatever the other variables do. -/
theorem gradient_constant (h : D.G.Ok) {gs : GradScheme} (hgs : Disc.GradOk D.G gs) {u ug : ℕ → St} (old : ℕ → Gr) {v : Fin 4} {a : ℝ}
    (hu : ∀ i, i < D.G.rows → u i v = a) (hug : ∀ k, k < D.G.m.nbface → ug k v = a) {i : ℕ} (hi : i < D.G.m.nelem) (d : Fin 2) :
    D.gradients gs u ug old i d v = 0 := by
  have key : D.gradients gs (fun i _ => u i v) (fun k _ => ug k v) old i d v = 0 := by
    rw [Disc.gradients_uniform h hgs (c := fun _ => a) old (fun i hi => funext fun _ => hu i hi) (fun k hk => funext fun _ => hug k hk) hi]
    rfl
  rw [← key]
  have hur : ∀ k, D.G.ur (fun i (_ : Fin 4) => u i v) (fun k (_ : Fin 4) => ug k v) k v = D.G.ur u ug k v := fun k => by unfold Geo.ur; split_ifs <;> rfl
  unfold Disc.gradients
  rw [if_pos hi, if_pos hi]
  cases gs with
  | zero => rfl
  | greenGauss =>
    have e : ∀ w wg : ℕ → St, D.G.greenGauss w wg i d v = ∑ k ∈ (range D.G.nface).filter (D.G.touches i), (if (D.G.face k).left = i then D.G.ggL w wg k else D.G.ggR w wg k) d v :=
      fun w wg => by
        have := congrFun (congrFun (Geo.accum_touch h (D.G.ggL w wg) (D.G.ggR w wg) hi) d) v
        rw [Finset.sum_apply, Finset.sum_apply] at this
        exact this
    simp only [e]
    refine sum_congr rfl fun k _ => ?_
    split_ifs <;> simp only [Geo.ggL, Geo.ggR, Geo.ut, hur]
  | wls =>
    simp only [Geo.wls, Matrix.mul_apply]
    refine sum_congr rfl fun b _ => ?_
    rw [Geo.lsRhs_eq h _ _ hi, Geo.lsRhs_eq h _ _ hi]
    simp only [hur]

theorem AtRest.prim {G : Gas} {w : St} (h : AtRest G p w) {v : Fin 4} (hv : v ≠ 0) : G.primOfCons w v = (![0, 0, 0, p] : St) v := by
  fin_cases v
  · exact absurd rfl hv
  · simp [Gas.primOfCons, h.m1]
  · simp [Gas.primOfCons, h.m2]
  · exact h.pr

theorem cons_rest {G : Gas} (hg : 1 < G.g) {w : St} (h0 : 0 < w 0) (h : ∀ v, v ≠ 0 → w v = (![0, 0, 0, p] : St) v) : AtRest G p (G.consOfPrim w) := by
  have h1 : w 1 = 0 := h 1 (by decide)
  have h2 : w 2 = 0 := h 2 (by decide)
  have h3 : w 3 = p := h 3 (by decide)
  refine ⟨h0, by simp [Gas.consOfPrim, h1], by simp [Gas.consOfPrim, h2], ?_⟩
  have q3 : ∀ a b c d : ℝ, (![a, b, c, d] : St) 3 = d := fun _ _ _ _ => rfl
  have : G.g - 1 ≠ 0 := by linarith
  simp [Gas.pressure, Gas.pressureOfInternal, Gas.consOfPrim, Gas.energyOfPrim, Gas.energyOfP, dot, mom, h1, h2, h3, q3]
  field_simp

/-- C97, second order: for every gradient scheme and every reconstruction, if what is received is gas at rest under the same pressure and the reconstructed densities are positive, the
face states are at rest under that pressure and the residual does not change. -/
theorem C97_second_order (h : D.G.Ok) (hg : 1 < D.gas.g) (hp : 0 < p) (hv : D.viscous = false) (hs : KeepsContacts D.scheme) (hb : StillBcs D c)
    (hc : AtRest D.gas p c) (hu : ∀ i, i < D.G.rows → AtRest D.gas p (u i)) {gs : GradScheme} (hgs : Disc.GradOk D.G gs) {R : ReconScheme} (hR : Disc.ReconOk R)
    {E : Disc.Env} (hex : ∀ k, k < D.G.nface → D.G.m.nbface ≤ k → ¬ D.G.inner k → AtRest D.gas p (E.exch k))
    (hgg : ∀ lam, R = .weno lam → ∀ i, i < D.G.rows → ∀ d v, v ≠ 0 → E.gg i d v = 0) {r : ℕ → St} {o : Disc.Out} (ho : D.residual2 gs R E u r = some o)
    (hL : ∀ k, k < D.G.nface → 0 < o.uL k 0) (hRt : ∀ k, k < D.G.nface → D.G.inner k → 0 < o.uR k 0) :
    (∀ k, k < D.G.nface → AtRest D.gas p (o.uL k) ∧ AtRest D.gas p (o.uR k)) ∧ ∀ i, i < D.G.m.nelem → o.res i = r i := by
  obtain ⟨-, a, ha, haL, haR, hres⟩ := Disc.residual2_some.1 ho
  have up1 : ∀ v : Fin 4, v ≠ 0 → ∀ i, i < D.G.rows → D.gas.primOfCons (u i) v = (![0, 0, 0, p] : St) v := fun v hv i hi => (hu i hi).prim hv
  have ug1 : ∀ v : Fin 4, v ≠ 0 → ∀ k, k < D.G.m.nbface → D.gas.primOfCons (D.bstate k (u (D.G.face k).left)) v = (![0, 0, 0, p] : St) v := fun v hv k hk =>
    (hb.bstate_rest hc hk (left_rest h hu (by have := (C27_ranges h.conf.lin h.conf.bfOk h.topo).1; unfold Geo.nface; omega))).prim hv
  have hgz : ∀ v : Fin 4, v ≠ 0 → ∀ i, i < D.G.m.nelem → ∀ d, D.recGrads gs R E u i d v = 0 := fun v hv i hi d => by
    cases R <;> exact gradient_constant h hgs _ (up1 v hv) (ug1 v hv) hi d
  have hw : ∀ lam, R = .weno lam → ∀ v : Fin 4, v ≠ 0 → ∀ i, i < D.G.rows → ∀ d, D.recGrads gs R E u i d v = 0 := fun lam hl v hv i hi d => by
    by_cases hi' : i < D.G.m.nelem
    · exact hgz v hv i hi' d
    · subst hl
      show D.gradients gs _ _ E.gg i d v = 0
      unfold Disc.gradients
      rw [if_neg hi']
      exact hgg lam rfl i hi d v hv
  have hface : ∀ k, k < D.G.nface → ∀ v : Fin 4, v ≠ 0 → a (true, k) v = (![0, 0, 0, p] : St) v ∧ (D.G.inner k → a (false, k) v = (![0, 0, 0, p] : St) v) := by
    intro k hk v hv
    unfold Disc.rec2 Disc.recon at ha
    simp only at ha
    split_ifs at ha with hall
    rw [← Option.some.inj ha]
    obtain ⟨b, hb'⟩ := Option.isSome_iff_exists.1 (hall v)
    have := Disc.recon1_uniform h hR (up1 v hv) (ug1 v hv) (fun i hi => funext fun d => hgz v hv i hi d) (fun lam hl i hi => funext fun d => hw lam hl v hv i hi d) hb' hk
    dsimp only
    rw [hb']
    exact this
  have hLr : ∀ k, k < D.G.nface → AtRest D.gas p (o.uL k) := fun k hk => by
    have := hL k hk
    rw [haL k] at this ⊢
    exact cons_rest hg this fun v hv => (hface k hk v hv).1
  have hRr : ∀ k, k < D.G.nface → AtRest D.gas p (o.uR k) := fun k hk => by
    have hpos := hRt k hk
    rw [haR k] at hpos ⊢
    by_cases hlt : k < D.G.m.nbface
    · rw [if_pos hlt]
      exact hb.bstate_rest hc hlt (hLr k hk)
    · rw [if_neg hlt] at hpos ⊢
      by_cases hin : D.G.inner k
      · rw [if_pos hin] at hpos ⊢
        exact cons_rest hg (hpos hin) fun v hv => (hface k hk v hv).2 hin
      · rw [if_neg hin]
        exact hex k hk (by omega) hin
  refine ⟨fun k hk => ⟨hLr k hk, hRr k hk⟩, fun i hi => ?_⟩
  rw [hres]
  refine fluxes_pressure (p := p) h hv (fun k hk => ?_) r hi
  exact C20_contact_preserved ((hLr k hk).adm hg hp) ((hRr k hk).adm hg hp) ((hLr k hk).contact (hRr k hk) _) _ hs

/-- With MUSCL no condition on reconstructed densities is needed: densities above 1.25e-5 suffice. -/
theorem C97_muscl (h : D.G.Ok) (hg : 1 < D.gas.g) (hp : 0 < p) (hv : D.viscous = false) (hs : KeepsContacts D.scheme) (hb : StillBcs D c)
    (hc : AtRest D.gas p c) (hc0 : overshoot < c 0) (hu : ∀ i, i < D.G.rows → AtRest D.gas p (u i) ∧ overshoot < u i 0) {gs : GradScheme} (hgs : Disc.GradOk D.G gs)
    {E : Disc.Env} (hex : ∀ k, k < D.G.nface → D.G.m.nbface ≤ k → ¬ D.G.inner k → AtRest D.gas p (E.exch k)) (r : ℕ → St) :
    ∃ o, D.residual2 gs .muscl E u r = some o ∧ (∀ k, k < D.G.nface → AtRest D.gas p (o.uL k) ∧ AtRest D.gas p (o.uR k)) ∧ ∀ i, i < D.G.m.nelem → o.res i = r i := by
  have hu' : ∀ i, i < D.G.rows → AtRest D.gas p (u i) := fun i hi => (hu i hi).1
  obtain ⟨o, ho⟩ := residual2_defined h hb.ok (gs := gs) (R := .muscl) trivial (fun h => by rcases h with h | ⟨K, h⟩ <;> cases h) E u r
  obtain ⟨-, a, ha, haL, haR, hres⟩ := Disc.residual2_some.1 ho
  have hpos : ∀ k, k < D.G.nface → 0 < a (true, k) 0 ∧ (D.G.inner k → 0 < a (false, k) 0) := by
    intro k hk
    unfold Disc.rec2 Disc.recon at ha
    simp only at ha
    split_ifs at ha with hall
    rw [← Option.some.inj ha]
    obtain ⟨b, hb'⟩ := Option.isSome_iff_exists.1 (hall 0)
    obtain ⟨⟨h1, -⟩, h2⟩ := C47_muscl h hb' hk
    have hl : overshoot < D.gas.primOfCons (u (D.G.face k).left) 0 := (hu _ (by have := (h.kind hk).1; unfold Geo.rows; omega)).2
    have hr : overshoot < D.G.ur (fun i => D.gas.primOfCons (u i) 0) (fun k => D.gas.primOfCons (D.bstate k (u (D.G.face k).left)) 0) k := by
      unfold Geo.ur
      split_ifs with hlt
      · show overshoot < D.bstate k (u (D.G.face k).left) 0
        rcases hb.bstate hlt (left_rest h hu' hk) with e | e <;> rw [e]
        · exact hl
        · exact hc0
      · exact (hu _ ((h.kind hk).2.2.2.2 (by omega))).2
    have hm := lt_min hl hr
    dsimp only
    rw [hb']
    exact ⟨by show 0 < b (true, k); linarith, fun hin => by show 0 < b (false, k); have := (h2 hin).1; linarith⟩
  refine ⟨o, ho, ?_⟩
  refine C97_second_order h hg hp hv hs hb hc hu' hgs (R := .muscl) trivial hex (fun lam hl => by cases hl) ho (fun k hk => ?_) fun k hk hin => ?_
  · rw [haL k]; exact (hpos k hk).1
  · have hlt : ¬ k < D.G.m.nbface := fun hlt => by have := hin.1; omega
    rw [haR k, if_neg hlt, if_pos hin]; exact (hpos k hk).2 hin

/-- A state with norm zero that the update leaves unchanged stays for as many iterations as are made. -/
theorem stays {P : Prob (ℕ → St)} (hn : P.norm u = some 0) (hup : ∀ cfl, P.upd cfl u = u) (k : Kind) (cf : Conf) (n : ℕ) :
    (∃ s, traj k P cf u n = some s ∧ s.u = u) ∧ hist k P cf u n = some 0 := by
  have h : ∃ s, traj k P cf u n = some s ∧ s.u = u := by
    induction n with
    | zero => exact ⟨_, rfl, rfl⟩
    | succ n ih =>
      obtain ⟨s, h1, h2⟩ := ih
      refine ⟨_, by simp only [traj, h1, Option.bind_some, body, h2, hn]; rfl, ?_⟩
      exact hup _
  obtain ⟨s, h1, h2⟩ := h
  exact ⟨⟨s, h1, h2⟩, by simp only [hist, h1, Option.bind_some, h2, hn]⟩

/-- C97, second-order runs on one process with MUSCL: of any length, with any CFL numbers and any contents of the work arrays, they never change such a state. -/
theorem C97_muscl_run (h : D.G.Ok) (hone : D.G.m.nconnface = 0) (hg : 1 < D.gas.g) (hp : 0 < p) (hv : D.viscous = false) (hs : KeepsContacts D.scheme) (hb : StillBcs D c)
    (hc : AtRest D.gas p c) (hc0 : overshoot < c 0) (hu : ∀ i, i < D.G.m.nelem → AtRest D.gas p (u i) ∧ overshoot < u i 0) {gs : GradScheme} (hgs : Disc.GradOk D.G gs)
    (E : Disc.Env) (k : Kind) (cf : Conf) (n : ℕ) :
    (∃ s, traj k (solver D fun w => D.residual2 gs .muscl E w 0) cf u n = some s ∧ s.u = u) ∧ hist k (solver D fun w => D.residual2 gs .muscl E w 0) cf u n = some 0 := by
  obtain ⟨o, ho, -, hz⟩ := C97_muscl h hg hp hv hs hb hc hc0 (fun i hi => hu i (by unfold Geo.rows at hi; omega)) hgs (E := E) (fun k hk hle hin => by
    have h5 := h.kind hk
    exact absurd (h5.2.2.2.1.2 (by have := h5.2.2.2.2 hle; omega)) hin) 0
  refine stays ?_ (fun cfl => ?_) k cf n
  · have he : energy D o.res = 0 := sum_eq_zero fun i hi => by rw [hz i (mem_range.1 hi)]; simp
    simp [solver, ho, he, rootOf]
  · simp only [solver, ho]
    funext i
    unfold euler
    split_ifs with hi
    · funext v; rw [hz i hi]; simp
    · rfl

end

/-! ### Cases -/

theorem rest_atRest {a : ℝ} (h : 0 < a) : AtRest air (2 / 5) (rest a) := by
  refine ⟨h, rfl, rfl, ?_⟩
  have q3 : ∀ a b c d : ℝ, (![a, b, c, d] : St) 3 = d := fun _ _ _ _ => rfl
  simp [Gas.pressure, Gas.pressureOfInternal, rest, dot, mom, air, q3]
  norm_num

theorem bump_atRest (i : ℕ) : AtRest air (2 / 5) (bump i) := by
  unfold bump
  split_ifs
  · exact rest_atRest two_pos
  · exact rest_atRest one_pos

/-- Air in the square, inviscid, in a stream at rest. -/
noncomputable def airStill (sch : Scheme) : Settings := ⟨air, sch, false, false, fun _ => some (.farfield (rest 1))⟩

/-- The square's four triangles with density 2 in cell 1 and 1 elsewhere: unchanged by runs of any length with HLLC; not steady with LLF, van Leer, Roe and HLL. -/
example : ∃ s, topological FV.Geo.cross = .ok s ∧ (∀ k cf n, ∃ t, traj k (single ((airStill .hllc).disc FV.Geo.cross s 0)) cf bump n = some t ∧ t.u = bump) ∧
    ∀ sch, ¬ KeepsContacts sch → ¬ IsSteady ((airStill sch).disc FV.Geo.cross s 0) bump := by
  obtain ⟨s, hs, hf⟩ := FV.Geo.cross_topological
  have hok : ∀ sch, ((airStill sch).disc FV.Geo.cross s 0).G.Ok := fun _ => ⟨cross_conforming, FV.Geo.cross_nozero, hs⟩
  have hb : ∀ sch, StillBcs ((airStill sch).disc FV.Geo.cross s 0) (rest 1) := fun _ k _ => ⟨_, rfl, Or.inr (Or.inr (Or.inr (Or.inl rfl)))⟩
  refine ⟨s, hs, fun k cf n => (C97_explicit_run (hok _) (by norm_num [airStill, Settings.disc, air]) (by norm_num) rfl (Or.inr (Or.inr rfl)) (hb _) (rest_atRest one_pos)
    (fun i _ => bump_atRest i) k cf n).2.1, fun sch hsch hst => ?_⟩
  have := (C97_diffusive_iff (p := 2 / 5) (hok sch) rfl (by norm_num [airStill, Settings.disc, air]) (by norm_num) rfl hsch (hb sch) (rest_atRest one_pos)
    (fun i _ => bump_atRest i)).1 hst 4 (by show 4 < s.faces.length; rw [hf]; norm_num)
  have hface : ((airStill sch).disc FV.Geo.cross s 0).G.face 4 = ⟨0, 1, 1, 4⟩ := by
    show faceAt s.faces 4 = _
    simp [faceAt, hf]
  have hn : ¬ 4 < ((airStill sch).disc FV.Geo.cross s 0).G.m.nbface := by show ¬ 4 < FV.Geo.cross.nbface; decide +kernel
  rw [beyond, if_neg hn, hface] at this
  norm_num [bump, rest] at this

/-- The full claim, for every flux scheme, fails: with LLF the square's gas does not stay. -/
theorem C97_all_schemes_refuted : ∃ s, topological FV.Geo.cross = .ok s ∧ let D := (airStill .llf).disc FV.Geo.cross s 0
    D.G.Ok ∧ StillBcs D (rest 1) ∧ (∀ i, AtRest D.gas (2 / 5) (bump i)) ∧ ¬ IsSteady D bump := by
  obtain ⟨s, hs, hf⟩ := FV.Geo.cross_topological
  have hok : ((airStill .llf).disc FV.Geo.cross s 0).G.Ok := ⟨cross_conforming, FV.Geo.cross_nozero, hs⟩
  have hb : StillBcs ((airStill .llf).disc FV.Geo.cross s 0) (rest 1) := fun k _ => ⟨_, rfl, Or.inr (Or.inr (Or.inr (Or.inl rfl)))⟩
  refine ⟨s, hs, hok, hb, bump_atRest, fun hst => ?_⟩
  have := (C97_diffusive_iff (p := 2 / 5) hok rfl (by norm_num [airStill, Settings.disc, air]) (by norm_num) rfl (show ¬ KeepsContacts .llf by decide) hb (rest_atRest one_pos)
    (fun i _ => bump_atRest i)).1 hst 4 (by show 4 < s.faces.length; rw [hf]; norm_num)
  have hface : ((airStill .llf).disc FV.Geo.cross s 0).G.face 4 = ⟨0, 1, 1, 4⟩ := by
    show faceAt s.faces 4 = _
    simp [faceAt, hf]
  have hn : ¬ 4 < ((airStill .llf).disc FV.Geo.cross s 0).G.m.nbface := by show ¬ 4 < FV.Geo.cross.nbface; decide +kernel
  rw [beyond, if_neg hn, hface] at this
  norm_num [bump, rest] at this

/-- Quadrilateral and triangle with one interface to another process, walls all around, AUSM+. -/
noncomputable def stillWalls : Disc := ⟨exGeo, air, .ausmPlus, false, false, fun _ => some .slip, fun _ => 7⟩

/-- Densities 1, 2 and 3 (the last received): the second-order residual with MUSCL is zero with each gradient scheme, whatever the work arrays hold. -/
example (gs : GradScheme) (gg gold : ℕ → Gr) (old : Bool × ℕ → St) : ∃ o, stillWalls.residual2 gs .muscl ⟨fun _ => rest 3, gg, gold, old⟩ (fun i => rest (i + 1)) 0 = some o ∧
    ∀ i, i < 2 → o.res i = 0 := by
  obtain ⟨o, h1, -, h2⟩ := C97_muscl (D := stillWalls) (p := 2 / 5) (c := rest 1) (u := fun i => rest (i + 1)) exGeo_ok (by norm_num [stillWalls, air]) (by norm_num) rfl
    (Or.inr (Or.inl rfl)) (fun k _ => ⟨_, rfl, Or.inl rfl⟩) (rest_atRest one_pos) (by norm_num [overshoot, rest])
    (fun i _ => ⟨rest_atRest (by positivity), by
      have : (0 : ℝ) ≤ i := Nat.cast_nonneg i
      show overshoot < (i : ℝ) + 1
      unfold overshoot
      linarith⟩) (Disc.exDisc_gradOk gs) (E := ⟨fun _ => rest 3, gg, gold, old⟩) (fun _ _ _ _ => rest_atRest (by norm_num)) 0
  exact ⟨o, h1, h2⟩

end Par
end FVENS
