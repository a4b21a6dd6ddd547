import Verif.FV.JacSwitchHllc

/-!
# The Roe flux has a derivative everywhere (C18, C50)

Harten's entropy fix, src/spatial/anumericalflux.cpp:687-693, joins the modulus of a wave speed with the same value and the same slope, and does so although its width depends on the state.
So the flux of Roe has no switch: it has a derivative between any two admissible states, and so has the residual (src/spatial/flow_spatial.cpp:636-816) with respect to a neighbour.
-/

namespace FVENS
namespace Flux

variable {G : Gas} {u ul ur : St} {n : V2}

/-- At the edge of the entropy fix its result has the derivative of the wave speed's modulus. -/
theorem hasGrad_harten_edge {f c : St → ℝ} {df dc : St} (hf : HasGrad f df u) (hc : HasGrad c dc u) (hp : 0 < c u)
    (he : |f u| = fixeps * c u) : HasGrad (fun v => harten (fixeps * c v) |f v|) (fun k => sgn (f u) * df k) u := by
  have hfe : (0:ℝ) < fixeps := by norm_num [fixeps]
  have hdel : 0 < fixeps * c u := mul_pos hfe hp
  have hne : f u ≠ 0 := by
    intro h; rw [h, abs_zero] at he; linarith
  have ha := hasGrad_abs hf hne
  have hw := ha.sub (hc.cmul fixeps)
  have h1 : (fixeps * c u) * 2 ≠ 0 := by positivity
  -- the height of the fixed value above the modulus
  have hq : HasGrad (fun v => (|f v| - fixeps * c v) * (|f v| - fixeps * c v) / (fixeps * c v * 2)) 0 u :=
    ((hw.mul hw).div ((hc.cmul fixeps).mul (HasGrad.const 2)) h1).congr (by funext k; simp [he])
  have hg : HasGrad (fun v => if |f v| < fixeps * c v then (|f v| - fixeps * c v) * (|f v| - fixeps * c v) / (fixeps * c v * 2) else 0) 0 u := by
    have e : row (0 : St) = 0 := by ext x; simp [row_apply]
    unfold HasGrad at hq ⊢
    rw [e, hasFDerivAt_iff_isLittleO] at hq ⊢
    simp only [he, sub_self, zero_mul, zero_div, lt_irrefl, if_false, sub_zero, zero_apply] at hq ⊢
    refine (Asymptotics.IsBigO.of_bound 1 (Filter.Eventually.of_forall fun v => ?_)).trans_isLittleO hq
    split_ifs
    · rw [one_mul]
    · rw [norm_zero, one_mul]; exact norm_nonneg _
  have hpos : ∀ᶠ v in nhds u, 0 < fixeps * c v := (hc.cmul fixeps).continuousAt.eventually (lt_mem_nhds hdel)
  refine ((ha.add hg).congr_of_eventuallyEq ?_).congr (by funext k; simp)
  filter_upwards [hpos] with v hv
  simp only [harten]
  split_ifs with hl
  · generalize fixeps * c v = del at hv
    have := hv.ne'
    field_simp
    ring
  · rw [add_zero]

/-- Wherever the fix is not active for an eigenvalue, its edge included, the coded derivative of the eigenvalue is right. -/
theorem hasGrad_roeL_edge {A : St → Avg} {d : DAvg} (hA : HasAvgGrad A d u) (hc : 0 < (A u).c) {i : Fin 4}
    (hf : ¬ Fixed (A u) i) : HasGrad (fun v => roeL (A v) i) (roeDL (A u) d i) u := by
  have hfe : (0:ℝ) < fixeps := by norm_num [fixeps]
  have hdel : 0 < fixeps * (A u).c := mul_pos hfe hc
  have hf' : ¬ roeL0 (A u) i < fixeps * (A u).c := hf
  have key : ∀ {f : St → ℝ} {df : St}, HasGrad f df u → (∀ k, roeDL0 (A u) d i k = sgn (f u) * df k) →
      (∀ v, roeL0 (A v) i = |f v|) → HasGrad (fun v => roeL (A v) i) (roeDL (A u) d i) u := by
    intro f df hfd h2 h3
    have he : (fun v => roeL (A v) i) = fun v => harten (fixeps * (A v).c) |f v| := by
      funext v; simp only [roeL]; rw [h3]
    have hr : roeDL (A u) d i = fun k => sgn (f u) * df k := by
      funext k; simp only [roeDL]; rw [if_neg hf', h2]
    rw [he, hr]
    rw [h3 u] at hf'
    rcases (not_lt.1 hf').eq_or_lt with q | q
    · exact hasGrad_harten_edge hfd hA.c hc q.symm
    · have hne : f u ≠ 0 := by
        intro h; rw [h, abs_zero] at q; linarith
      have hev : ∀ᶠ v in nhds u, fixeps * (A v).c < |f v| :=
        (hA.c.cmul fixeps).continuousAt.eventually_lt hfd.continuousAt.abs q
      refine (hasGrad_abs hfd hne).congr_of_eventuallyEq ?_
      filter_upwards [hev] with v hv
      simp only [harten]; rw [if_neg (not_lt.mpr hv.le)]
  fin_cases i
  · exact key (hA.vn.sub hA.c) (fun k => rfl) (fun v => rfl)
  · exact key hA.vn (fun k => rfl) (fun v => rfl)
  · exact key hA.vn (fun k => rfl) (fun v => rfl)
  · exact key (hA.vn.add hA.c) (fun k => rfl) (fun v => rfl)

/-- C18: the Jacobian of Roe is exact wherever the entropy fix changes no eigenvalue, states at the edge of the fix included. -/
theorem C18_roe_edge_exact (hl : Adm G ul) (hr : Adm G ur) (n : V2) (hf : ∀ i, ¬ Fixed (roeOf G ul ur n) i) :
    IsFluxJac (fun a b => roe G a b n) (roeJac G ul ur n) ul ur := by
  have hc := roe_c_pos (n := n) hl hr
  intro i
  refine ⟨(hasGrad_roe_left hl hr n (fun i => hasGrad_roeL_edge (C18_roe_averages_left hl hr n) hc (hf i)) i).congr ?_,
    (hasGrad_roe_right hl hr n (fun i => hasGrad_roeL_edge (C18_roe_averages_right hl hr n) hc (hf i)) i).congr ?_⟩
  · funext k; rw [roeJac_rowL]
  · funext k; rw [roeJac_rowR]

/-- Gas whose speed is exactly the width of the fix: sound speed one, normal velocity one in ten thousand. -/
noncomputable def uEdge : St := ![7 / 5, 7 / 50000, 0, 5 / 2 + 7 / 1000000000]

theorem adm_uEdge : Adm air uEdge := ⟨by norm_num [air], by norm_num [uEdge], by
  have q2 : uEdge 2 = 0 := rfl
  have q3 : uEdge 3 = 5 / 2 + 7 / 1000000000 := rfl
  have q1 : uEdge 1 = 7 / 50000 := rfl
  have q0 : uEdge 0 = 7 / 5 := rfl
  norm_num [air, Gas.pressure, Gas.pressureOfInternal, dot, mom, q0, q1, q2, q3]⟩

/-- Concrete case at the edge of the fix, beyond the reach of `C18_roe_exact_partial`. -/
example : Adm air uEdge ∧ (∀ i, ¬ Fixed (roeOf air uEdge uEdge ![1, 0]) i) ∧ ¬ NoFix (roeOf air uEdge uEdge ![1, 0]) := by
  have h := adm_uEdge
  have q0 : uEdge 0 = 7 / 5 := rfl
  have hvn0 : Gas.varsVn uEdge ![1, 0] = 1 / 10000 := by
    have q1 : uEdge 1 = 7 / 50000 := rfl
    norm_num [Gas.varsVn, dot, Gas.vel, q0, q1]
  have hp : air.varsP uEdge = 1 := by
    have q1 : uEdge 1 = 7 / 50000 := rfl
    have q2 : uEdge 2 = 0 := rfl
    have q3 : uEdge 3 = 5 / 2 + 7 / 1000000000 := rfl
    norm_num [Gas.varsP, air, dot, Gas.vel, q0, q1, q2, q3]
  have cs : cSide air uEdge * cSide air uEdge = 1 := by
    have := h.c_sq
    rw [hp, q0] at this
    rw [show air.g = 7 / 5 from rfl] at this
    linarith
  have hvn : (roeOf air uEdge uEdge ![1, 0]).vn = 1 / 10000 := by
    have hR : (roeOf air uEdge uEdge ![1, 0]).R = 1 := by simp [roeOf, roeAvg, q0]
    rw [roe_vn, hvn0]
    simp only [hR]
    norm_num
  have hcp := roe_c_pos (n := ![1, 0]) h h
  have hc : (roeOf air uEdge uEdge ![1, 0]).c = 1 := by
    have a := roe_c_sq (n := ![1, 0]) h h
    have b := roe_c_sq_arg (n := ![1, 0]) h h
    have hR : (roeOf air uEdge uEdge ![1, 0]).R = 1 := by simp [roeOf, roeAvg, q0]
    simp only at b
    rw [b, hR, cs] at a
    norm_num at a
    rcases mul_self_eq_one_iff.1 a with e | e
    · exact e
    · linarith
  refine ⟨h, fun i => ?_, fun hf => ?_⟩
  · fin_cases i <;> simp only [Fixed, roeL0, hvn, hc, fixeps] <;> norm_num [abs_of_neg, abs_of_pos]
  · have := hf 1
    simp only [roeL0, hvn, hc, fixeps] at this
    norm_num at this

/-- C18: between any two admissible states the flux of Roe has a derivative in either state, whether the entropy fix is active, inactive or at its edge. -/
theorem C18_roe_smooth (hl : Adm G ul) (hr : Adm G ur) (n : V2) : ∃ J, IsFluxJac (fun a b => roe G a b n) J ul ur := by
  have hc := roe_c_pos (n := n) hl hr
  have eig : ∀ {A : St → Avg} {d : DAvg} {w : St}, HasAvgGrad A d w → 0 < (A w).c → ∃ dl : Fin 4 → St, ∀ i, HasGrad (fun v => roeL (A v) i) (dl i) w := by
    intro A d w hA hcw
    have : ∀ i, ∃ e, HasGrad (fun v => roeL (A v) i) e w := fun i => by
      by_cases hf : Fixed (A w) i
      · exact ⟨_, (C18_roe_fix_error hA hcw hf).2⟩
      · exact ⟨_, hasGrad_roeL_edge hA hcw hf⟩
    choose dl h using this
    exact ⟨dl, h⟩
  obtain ⟨dl, h1⟩ := eig (C18_roe_averages_left hl hr n) hc
  obtain ⟨dr, h2⟩ := eig (C18_roe_averages_right hl hr n) hc
  exact ⟨⟨fun i k => -roeRowL G ul ur n dl i k, fun i k => roeRowR G ul ur n dr i k⟩,
    fun i => ⟨(hasGrad_roe_left hl hr n h1 i).congr (by funext k; simp), hasGrad_roe_right hl hr n h2 i⟩⟩

/-- The stationary contact at which the coded Jacobian is wrong (`C18_roe_refuted`): the flux has a derivative there. -/
example : ∃ J, IsFluxJac (fun a b => roe air a b ![1, 0]) J uC1 uC4 := C18_roe_smooth adm_uC1 adm_uC4 _

end Flux

namespace FV
namespace Disc

open Finset Flux Msh

variable {D : Disc}

/-- C50: with Roe every equation of the residual of cell `i` has a derivative with respect to the state of a neighbour behind one face, at every admissible pair of states: there is no
state at which no assembled matrix could be right. -/
theorem C50_roe_smooth (h : D.G.Ok) (hok : D.BcOk) (hs : D.scheme = .roe) {u : ℕ → St} (r : ℕ → St) {i j k : ℕ}
    (hk : k < D.G.nface) (hb : D.G.m.nbface ≤ k) (hl : (D.G.face k).left = i) (hr : (D.G.face k).right = j)
    (hone : ∀ k', k' < D.G.nface → D.G.m.nbface ≤ k' → k' ≠ k →
      ¬ ((D.G.face k').left = i ∧ (D.G.face k').right = j) ∧ ¬ ((D.G.face k').left = j ∧ (D.G.face k').right = i))
    (hui : D.ViscOk (u i)) (huj : D.ViscOk (u j)) (hai : Adm D.gas (u i)) (haj : Adm D.gas (u j)) :
    ∃ res : St → ℕ → St, (∀ a, ∃ o, D.residual1 (fun q => if q = j then a else u q) r = some o ∧ o.res = res a) ∧
      ∀ v, ∃ d, HasGrad (fun a => res a i v) d (u j) := by
  obtain ⟨res, h1, h2⟩ := C50_neighbour_iff h hok (u := u) r hk hb hl hr hone hui huj
  obtain ⟨J, hJ⟩ := C18_roe_smooth hai haj (D.G.nrm k)
  refine ⟨res, h1, fun v => (h2 v).2 ?_⟩
  rw [hs]
  exact ⟨_, (hJ v).2⟩

/-- The stationary contact on the example mesh, at which the residual has no derivative with AUSM and HLLC, with Roe. -/
example : ∃ res : St → ℕ → St, (∀ a, ∃ o, ({ exStill with scheme := .roe } : Disc).residual1 (fun q => if q = 1 then a else if q = 1 then still 4 else still 1) (fun _ => 0) = some o ∧ o.res = res a) ∧
    ∀ v, ∃ d, HasGrad (fun a => res a 0 v) d (still 4) := by
  have hvis : ∀ w, ({ exStill with scheme := .roe } : Disc).ViscOk w := fun w hv => by cases hv
  obtain ⟨hn, f0, f1, f2, f3, f4, f5⟩ := exGeo_face
  exact C50_roe_smooth (D := { exStill with scheme := .roe }) exGeo_ok (fun _ _ => rfl) rfl (u := fun q => if q = 1 then still 4 else still 1) (fun _ => 0)
    (i := 0) (j := 1) (k := 4) (by show 4 < exGeo.nface; omega) (le_refl 4) (by show (exGeo.face 4).left = 0; rw [f4]) (by show (exGeo.face 4).right = 1; rw [f4])
    (fun k' hk' hb' hne => by
      change k' < exGeo.nface at hk'
      change 4 ≤ k' at hb'
      obtain rfl : k' = 5 := by omega
      change ¬ ((exGeo.face 5).left = 0 ∧ (exGeo.face 5).right = 1) ∧ ¬ ((exGeo.face 5).left = 1 ∧ (exGeo.face 5).right = 0)
      rw [f5]; decide)
    (hvis _) (hvis _) (still_adm one_pos) (still_adm (by norm_num))

end Disc
end FV
end FVENS
