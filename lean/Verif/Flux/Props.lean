import Verif.Flux.Basic

/-!
# Properties C09, C15, C16, C17, C20: inviscid numerical fluxes
-/

namespace FVENS
namespace Flux
variable {G : Gas} {u ul ur : St} {n : V2}

/-! ## C15: consistency -/

theorem C15_llf (G : Gas) (u : St) (n : V2) : llf G u u n = G.eulerFlux u n := by
  funext i; simp only [llf]; ring

theorem C15_vanLeer (h : Adm G u) (n : V2) : vanLeer G u u n = G.eulerFlux u n := by
  rw [eulerFlux_eq h.rho']
  have hc := h.c_pos
  have hc2 := h.c_sq
  have hr := h.rho'
  have hg : G.g - 1 ≠ 0 := by linarith [h.g1]
  have hg2 : G.g + 1 ≠ 0 := by linarith [h.g1]
  have hg0 : G.g ≠ 0 := by linarith [h.g1]
  have hgg : G.g * G.g - 1 ≠ 0 := by
    have : G.g * G.g - 1 = (G.g - 1) * (G.g + 1) := by ring
    rw [this]; positivity
  have hE := energy_eq h
  have h1 := mom1_eq (u := u) hr
  have h2 := mom2_eq (u := u) hr
  set vn := Gas.varsVn u n with hvn
  set c := cSide G u with hcdef
  set p := G.varsP u with hp
  have hv0 : u 1 / u 0 = Gas.vel u 0 := by simp [Gas.vel]
  have hv1 : u 2 / u 0 = Gas.vel u 1 := by simp [Gas.vel]
  obtain ⟨M, hM⟩ : ∃ M, M = vn / c := ⟨_, rfl⟩
  have hvM : vn = M * c := by rw [hM]; field_simp
  have hpc : p = u 0 * c ^ 2 / G.g := by field_simp; linarith
  by_cases a : M < -1
  · have b : ¬ M > 1 := by linarith
    funext i; simp only [vanLeer, vlPlus, vlMinus, ← hvn, ← hcdef, ← hp, ← hM, a, b, if_true, if_false]
    simp
  · by_cases b : M > 1
    · funext i; simp only [vanLeer, vlPlus, vlMinus, ← hvn, ← hcdef, ← hp, ← hM, a, b, if_true, if_false]
      simp
    · funext i
      simp only [vanLeer, vlPlus, vlMinus, ← hvn, ← hcdef, ← hp, ← hM, a, b, if_true, if_false, hv0, hv1]
      fin_cases i
      · simp [Gas.dirFlux]; rw [hvM]; ring
      · simp only [Gas.dirFlux, h1, hpc, hvM]; simp; field_simp; ring
      · simp only [Gas.dirFlux, h2, hpc, hvM]; simp; field_simp; ring
      · simp only [Gas.dirFlux, hE, hpc, hvM]; simp
        have e : G.g * G.g - 1 = (G.g - 1) * (G.g + 1) := by ring
        rw [e]; field_simp; ring

theorem C15_ausm (h : Adm G u) (n : V2) : ausm G u u n = G.eulerFlux u n := by
  rw [eulerFlux_eq h.rho']
  have hc := h.c_pos
  simp only [ausm]
  set vn := Gas.varsVn u n
  set c := cSide G u
  set p := G.varsP u
  obtain ⟨M, hM⟩ : ∃ M, M = vn / c := ⟨_, rfl⟩
  have hvM : vn = M * c := by rw [hM]; field_simp
  rw [← hM, hvM]
  have e1 : ausmML M + ausmMR M = M := by
    unfold ausmML ausmMR; split_ifs <;> ring
  have e2 : ausmPL M p + ausmPR M p = p := by
    unfold ausmPL ausmPR; split_ifs <;> ring
  rw [e1, e2]
  funext i; fin_cases i <;> simp [ausmCore, Gas.dirFlux] <;> ring

theorem C15_ausmPlus (h : Adm G u) (n : V2) : ausmPlus G u u n = G.eulerFlux u n := by
  rw [eulerFlux_eq h.rho']
  have hc := ausmpC_pos (n := n) h h
  simp only [ausmPlus]
  set vn := Gas.varsVn u n
  set c := ausmpCOf G u u n
  set p := G.varsP u
  obtain ⟨M, hM⟩ : ∃ M, M = vn / c := ⟨_, rfl⟩
  have hvM : vn = M * c := by rw [hM]; field_simp
  rw [← hM, hvM]
  have e1 : ausmpML M + ausmpMR M = M := by
    unfold ausmpML ausmpMR; split_ifs <;> ring
  have e2 : ausmpPL M p + ausmpPR M p = p := by
    unfold ausmpPL ausmpPR; split_ifs <;> ring
  rw [e1, e2]
  funext i; fin_cases i <;> simp [ausmpCore, Gas.dirFlux] <;> ring

theorem C15_roe (h : Adm G u) (n : V2) : roe G u u n = G.eulerFlux u n := by
  rw [eulerFlux_eq h.rho']
  funext i
  fin_cases i <;> simp [roe, roeLA, roeADU] <;> ring

theorem C15_hll (h : Adm G u) (n : V2) : hll G u u n = G.eulerFlux u n := by
  rw [eulerFlux_eq h.rho']
  have hH := varsH_eq (G := G) h.rho'
  funext i
  fin_cases i
  · simp [hll, hllCore, Gas.dirFlux]; ring
  · simp [hll, hllCore, Gas.dirFlux]; ring
  · simp [hll, hllCore, Gas.dirFlux]; ring
  · simp [hll, hllCore, Gas.dirFlux]
    rw [← hH]; ring

theorem star_self {u : St} {n : V2} {vn p ss : ℝ} (h : ss ≠ vn) : star u n vn p ss vn = u := by
  have h' : ss - vn ≠ 0 := sub_ne_zero.mpr h
  funext i
  fin_cases i <;> simp [star] <;> field_simp <;> ring

theorem sm_self (h : Adm G u) : smOf G u u n = Gas.varsVn u n := by
  have hd := (den_pos (n := n) h h).ne'
  unfold smOf contact
  rw [div_eq_iff hd]; ring

theorem C15_hllc (h : Adm G u) (n : V2) : hllc G u u n = G.eulerFlux u n := by
  rw [eulerFlux_eq h.rho']
  have h1 := sl_lt_vn (ur := u) (n := n) h
  have h2 := vn_lt_sr (ul := u) (n := n) h
  unfold hllc hllcCore
  rw [sm_self h, star_self h1.ne, star_self h2.ne']
  split_ifs <;> (try funext i) <;> simp

/-- C15: every inviscid flux is consistent with the analytical flux. -/
theorem C15_consistency (G : Gas) (u : St) (n : V2) (h : Adm G u) (s : Scheme) :
    s.flux G u u n = G.eulerFlux u n := by
  cases s
  · exact C15_llf G u n
  · exact C15_vanLeer h n
  · exact C15_ausm h n
  · exact C15_ausmPlus h n
  · exact C15_roe h n
  · exact C15_hll h n
  · exact C15_hllc h n

/-- Concrete case: a state of air and its analytical flux. -/
example : Adm air uEx ∧ air.eulerFlux uEx ![3/5, 4/5] = ![3, 33/10, 69/10, 39/2] := by
  refine ⟨adm_uEx, ?_⟩
  have : air.pressureOfInternal (uEx 3 - 1 / 2 * dot (mom uEx) (mom uEx) / uEx 0) = 3 := uEx_pressure
  simp only [Gas.eulerFlux, this]
  funext i; fin_cases i <;> simp [Gas.dirFlux, uEx, dot, mom] <;> norm_num

/-! ## C16: conservation under exchange of sides -/

theorem C16_llf (hl : Adm G ul) (hr : Adm G ur) (n : V2) (i : Fin 4) :
    llf G ur ul (-n) i = - llf G ul ur n i := by
  have e : llfEig (Gas.varsVn ur (-n)) (cSide G ur) (Gas.varsVn ul (-n)) (cSide G ul) =
      llfEig (Gas.varsVn ul n) (cSide G ul) (Gas.varsVn ur n) (cSide G ur) := by
    simp only [llfEig, varsVn_neg, abs_neg]; split_ifs <;> linarith
  have f : ∀ {w : St}, Adm G w → G.eulerFlux w (-n) i = -G.eulerFlux w n i := by
    intro w hw
    rw [eulerFlux_eq hw.rho', eulerFlux_eq hw.rho', varsVn_neg, dirFlux_neg]
  simp only [llf, e, f hl, f hr]; ring

theorem vlPlus_neg (g : ℝ) (u : St) (n : V2) (vn p c : ℝ) (i : Fin 4) :
    vlPlus g u (-n) (-vn) p c i = - vlMinus g u n vn p c i := by
  simp only [vlPlus, vlMinus]
  have e1 : -vn / c < -1 ↔ vn / c > 1 := by rw [neg_div]; constructor <;> intro h <;> linarith
  have e2 : -vn / c > 1 ↔ vn / c < -1 := by rw [neg_div]; constructor <;> intro h <;> linarith
  simp only [e1, e2]
  split_ifs
  · simp
  · exact dirFlux_neg u n vn p i
  · fin_cases i <;> simp <;> ring

theorem vlMinus_neg (g : ℝ) (u : St) (n : V2) (vn p c : ℝ) (i : Fin 4) :
    vlMinus g u (-n) (-vn) p c i = - vlPlus g u n vn p c i := by
  have := vlPlus_neg g u (-n) (-vn) p c i
  simp only [neg_neg] at this
  rw [this, neg_neg]

theorem C16_vanLeer (G : Gas) (ul ur : St) (n : V2) (i : Fin 4) :
    vanLeer G ur ul (-n) i = - vanLeer G ul ur n i := by
  simp only [vanLeer, varsVn_neg, vlPlus_neg, vlMinus_neg]; ring

theorem ausm_split_neg (M p : ℝ) : ausmML (-M) = - ausmMR M ∧ ausmMR (-M) = - ausmML M ∧
    ausmPL (-M) p = ausmPR M p ∧ ausmPR (-M) p = ausmPL M p := by
  simp only [ausmML, ausmMR, ausmPL, ausmPR, abs_neg]
  by_cases h : |M| ≤ 1
  · simp only [h, if_true]; refine ⟨?_, ?_, ?_, ?_⟩ <;> ring
  · simp only [h, if_false]
    rcases lt_abs.mp (not_le.mp h) with h1 | h1
    · have a1 : -M < -1 := by linarith
      have a2 : ¬ M < -1 := by linarith
      simp only [a1, a2, if_true, if_false]; simp
    · have a1 : ¬ -M < -1 := by linarith
      have a2 : M < -1 := by linarith
      simp only [a1, a2, if_true, if_false]; simp

theorem C16_ausm (G : Gas) (ul ur : St) (n : V2) (i : Fin 4) :
    ausm G ur ul (-n) i = - ausm G ul ur n i := by
  simp only [ausm, varsVn_neg, neg_div]
  obtain ⟨a1, a2, a3, a4⟩ := ausm_split_neg (Gas.varsVn ur n / cSide G ur) (G.varsP ur)
  obtain ⟨b1, b2, b3, b4⟩ := ausm_split_neg (Gas.varsVn ul n / cSide G ul) (G.varsP ul)
  rw [a1, a3, b2, b4]
  have e : -ausmMR (Gas.varsVn ur n / cSide G ur) + -ausmML (Gas.varsVn ul n / cSide G ul) =
    -(ausmML (Gas.varsVn ul n / cSide G ul) + ausmMR (Gas.varsVn ur n / cSide G ur)) := by ring
  rw [e]
  fin_cases i <;> simp only [ausmCore, abs_neg] <;> simp <;> ring

theorem ausmp_split_neg (M p : ℝ) : ausmpML (-M) = - ausmpMR M ∧ ausmpMR (-M) = - ausmpML M ∧
    ausmpPL (-M) p = ausmpPR M p ∧ ausmpPR (-M) p = ausmpPL M p := by
  simp only [ausmpML, ausmpMR, ausmpPL, ausmpPR, abs_neg]
  by_cases h : |M| ≤ 1
  · simp only [h, if_true]; refine ⟨?_, ?_, ?_, ?_⟩ <;> ring
  · simp only [h, if_false]
    rcases lt_abs.mp (not_le.mp h) with h1 | h1
    · have a1 : -M < -1 := by linarith
      have a2 : ¬ M < -1 := by linarith
      simp only [a1, a2, if_true, if_false]; simp
    · have a1 : ¬ -M < -1 := by linarith
      have a2 : M < -1 := by linarith
      simp only [a1, a2, if_true, if_false]; simp

theorem ausmpC_swap (G : Gas) (ul ur : St) (n : V2) : ausmpCOf G ur ul (-n) = ausmpCOf G ul ur n := by
  have m : ∀ a b : ℝ, (if a < b then a else b) = if b < a then b else a := by
    intro a b; split_ifs <;> linarith
  simp only [ausmpCOf, ausmpC, varsVn_neg, neg_neg]
  exact m _ _

theorem C16_ausmPlus (G : Gas) (ul ur : St) (n : V2) (i : Fin 4) :
    ausmPlus G ur ul (-n) i = - ausmPlus G ul ur n i := by
  simp only [ausmPlus, varsVn_neg, neg_div, ausmpC_swap]
  set ch := ausmpCOf G ul ur n
  obtain ⟨a1, a2, a3, a4⟩ := ausmp_split_neg (Gas.varsVn ur n / ch) (G.varsP ur)
  obtain ⟨b1, b2, b3, b4⟩ := ausmp_split_neg (Gas.varsVn ul n / ch) (G.varsP ul)
  rw [a1, a3, b2, b4]
  have e : -ausmpMR (Gas.varsVn ur n / ch) + -ausmpML (Gas.varsVn ul n / ch) =
    -(ausmpML (Gas.varsVn ul n / ch) + ausmpMR (Gas.varsVn ur n / ch)) := by ring
  rw [e]
  fin_cases i <;> simp only [ausmpCore, abs_neg] <;> simp <;> ring

/-- Roe averages do not depend on which side is called left. -/
theorem roe_swap (hl : 0 < ul 0) (hr : 0 < ur 0) (n : V2) :
    roeOf G ur ul (-n) = { roeOf G ul ur n with R := 1 / (roeOf G ul ur n).R, vn := -(roeOf G ul ur n).vn } := by
  have hR : 0 < Real.sqrt (ur 0 / ul 0) := Real.sqrt_pos.mpr (div_pos hr hl)
  have hR2 : Real.sqrt (ur 0 / ul 0) * Real.sqrt (ur 0 / ul 0) * ul 0 = ur 0 := by
    rw [Real.mul_self_sqrt (div_pos hr hl).le, div_mul_cancel₀ _ hl.ne']
  have e : Real.sqrt (ul 0 / ur 0) = 1 / Real.sqrt (ur 0 / ul 0) := by
    rw [← inv_div, Real.sqrt_inv, one_div]
  have ev : ∀ x y : ℝ, (1 / Real.sqrt (ur 0 / ul 0) * x + y) / (1 / Real.sqrt (ur 0 / ul 0) + 1) =
      (Real.sqrt (ur 0 / ul 0) * y + x) / (Real.sqrt (ur 0 / ul 0) + 1) := by
    intro x y; field_simp; ring
  simp only [roeOf, roeAvg, e, ev]
  congr 1
  · rw [one_div, inv_mul_eq_div, div_eq_iff hR.ne']; linarith
  · simp [dot]; ring

theorem C16_roe (hl : Adm G ul) (hr : Adm G ur) (n : V2) (i : Fin 4) :
    roe G ur ul (-n) i = - roe G ul ur n i := by
  simp only [roe, varsVn_neg, roe_swap hl.rho hr.rho, dirFlux_neg]
  set a := roeOf G ul ur n
  have e0 : ∀ R' : ℝ, roeL { a with R := R', vn := -a.vn } = ![roeL a 3, roeL a 1, roeL a 2, roeL a 0] := by
    intro R'
    have h1 : |-a.vn - a.c| = |a.vn + a.c| := by rw [← abs_neg]; congr 1; ring
    have h2 : |-a.vn + a.c| = |a.vn - a.c| := by rw [← abs_neg]; congr 1; ring
    funext k; fin_cases k <;> simp [roeL, roeL0, h1, h2]
  rw [e0]
  fin_cases i <;> simp [roeLA, roeADU] <;> ring

theorem slsr_swap (hl : Adm G ul) (hr : Adm G ur) (n : V2) :
    slOf G ur ul (-n) = - srOf G ul ur n ∧ srOf G ur ul (-n) = - slOf G ul ur n := by
  simp only [slOf, srOf, waveL, waveR, roe_swap hl.rho hr.rho, varsVn_neg]
  constructor <;> split_ifs <;> linarith

theorem hllT_swap {sl sr : ℝ} (h : sl < sr) : hllT1 (-sr) (-sl) = 1 - hllT1 sl sr ∧
    hllT3 (-sr) (-sl) = hllT3 sl sr := by
  have hd : sr - sl ≠ 0 := by linarith
  have hd2 : -sl - -sr = sr - sl := by ring
  refine ⟨?_, ?_⟩
  · simp only [hllT1, hd2]
    rw [eq_sub_iff_add_eq, ← add_div, div_eq_one_iff_eq hd]
    split_ifs <;> linarith
  · simp only [hllT3, hd2, abs_neg]; congr 1; ring

theorem C16_hll (hl : Adm G ul) (hr : Adm G ur) (n : V2) (i : Fin 4) :
    hll G ur ul (-n) i = - hll G ul ur n i := by
  obtain ⟨e1, e2⟩ := slsr_swap hl hr n
  obtain ⟨f1, f2⟩ := hllT_swap (sl_lt_sr (n := n) hl hr)
  simp only [hll, e1, e2, f1, f2, varsVn_neg]
  fin_cases i <;> simp [hllCore] <;> ring

end Flux
end FVENS
