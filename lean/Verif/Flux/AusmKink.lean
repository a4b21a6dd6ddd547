import Verif.Flux.Jac

/-!
# The AUSM flux where the interface Mach number vanishes (C18)

`AUSMFlux::get_flux`, src/spatial/anumericalflux.cpp:265-315, uses the absolute value of the interface Mach number; where that is zero no Jacobian routine can be exact in general.
-/

namespace FVENS
namespace Flux

/-- `|g| h` at a zero of `g` that is not critical: differentiable exactly if `h` vanishes too. -/
theorem abs_mul_grad_iff {g h : St → ℝ} {g' h' u : St} (hg : HasGrad g g' u) (h0 : g u = 0) (hne : g' ≠ 0) (hh : HasGrad h h' u) :
    (∃ d, HasGrad (fun v => |g v| * h v) d u) ↔ h u = 0 := by
  constructor
  · rintro ⟨d, hd⟩
    by_contra hu
    have h1 := hd.div hh hu
    have hev : (fun v => |g v|) =ᶠ[nhds u] fun v => |g v| * h v / h v := by
      filter_upwards [hh.continuousAt.eventually_ne hu] with v hv
      field_simp
    have h2 := h1.congr_of_eventuallyEq hev
    have hmin : IsLocalMin (fun v => |g v|) u := Filter.Eventually.of_forall fun v => by simp [h0]
    have h3 : HasFDerivAt (fun v => |g v|) (0 : St →L[ℝ] ℝ) u := by
      have e := hmin.hasFDerivAt_eq_zero h2
      have h2' : HasFDerivAt (fun v => |g v|) _ u := h2
      rwa [e] at h2'
    have h4 : HasFDerivAt g (0 : St →L[ℝ] ℝ) u := by
      rw [hasFDerivAt_iff_isLittleO] at h3 ⊢
      simp only [h0, abs_zero, sub_zero, zero_apply] at h3 ⊢
      exact h3.of_abs_left
    have h5 : row g' = 0 := HasFDerivAt.unique hg h4
    refine hne (row_injective (h5.trans ?_))
    ext x
    simp [row_apply]
  · intro hu
    refine ⟨0, ?_⟩
    have e : row (0 : St) = 0 := by ext x; simp [row_apply]
    unfold HasGrad
    rw [e, hasFDerivAt_iff_isLittleO]
    simp only [h0, abs_zero, zero_mul, sub_zero, zero_apply]
    have o1 : (fun v => |g v|) =O[nhds u] fun v => v - u := by
      have := HasFDerivAt.isBigO_sub hg
      simp only [h0, sub_zero] at this
      exact this.abs_left
    have o2 : h =o[nhds u] fun _ => (1 : ℝ) := by
      rw [Asymptotics.isLittleO_one_iff]
      have := hh.continuousAt.tendsto
      rwa [hu] at this
    have := o1.norm_right.mul_isLittleO o2
    simp only [mul_one] at this
    exact this.of_norm_right

/-- `|g| h` at a zero of `g` has gradient zero if `g` is critical there or `h` vanishes too. -/
theorem abs_mul_grad {g h : St → ℝ} {g' h' u : St} (hg : HasGrad g g' u) (h0 : g u = 0) (hh : HasGrad h h' u)
    (hc : g' = 0 ∨ h u = 0) : HasGrad (fun v => |g v| * h v) 0 u := by
  by_cases hne : g' = 0
  · subst hne
    have e : row (0 : St) = 0 := by ext x; simp [row_apply]
    have hA : HasGrad (fun v => |g v|) 0 u := by
      unfold HasGrad at hg ⊢
      rw [e, hasFDerivAt_iff_isLittleO] at hg ⊢
      simp only [h0, abs_zero, sub_zero, zero_apply] at hg ⊢
      exact hg.abs_left
    refine (hA.mul hh).congr ?_
    funext k
    simp [h0]
  · obtain ⟨d, hd⟩ := (abs_mul_grad_iff hg h0 hne hh).mpr (hc.resolve_left hne)
    have hmul : HasFDerivAt (fun v => |g v| * h v) (0 : St →L[ℝ] ℝ) u := by
      have hu := hc.resolve_left hne
      rw [hasFDerivAt_iff_isLittleO]
      simp only [h0, abs_zero, zero_mul, sub_zero, zero_apply]
      have o1 : (fun v => |g v|) =O[nhds u] fun v => v - u := by
        have := HasFDerivAt.isBigO_sub hg
        simp only [h0, sub_zero] at this
        exact this.abs_left
      have o2 : h =o[nhds u] fun _ => (1 : ℝ) := by
        rw [Asymptotics.isLittleO_one_iff]
        have := hh.continuousAt.tendsto
        rwa [hu] at this
      have := o1.norm_right.mul_isLittleO o2
      simp only [mul_one] at this
      exact this.of_norm_right
    have e : row (0 : St) = 0 := by ext x; simp [row_apply]
    unfold HasGrad
    rw [e]; exact hmul

/-- Specification: what a side carries per unit of interface Mach number: mass, momentum and total
enthalpy, times its speed of sound. -/
noncomputable def load (G : Gas) (u : St) (i : Fin 4) : ℝ :=
  cSide G u * if i = 3 then u 3 + G.varsP u else u i

section
variable {G : Gas} {ul ur : St} {n : V2}

/-- The derivative of the normal Mach number of a side does not vanish. -/
theorem ausmDM_ne (hl : Adm G ul) (hn : n ≠ 0) :
    ausmDM ul n (Gas.varsVn ul n) (cSide G ul) (G.dSoundSpeed (ul 0) (G.varsP ul) (G.dPressure ul) (cSide G ul)) ≠ 0 := by
  intro e
  have hc := hl.c_pos
  have hr := hl.rho
  have hg := hl.g1
  have q3 : ∀ a b c d : ℝ, (![a, b, c, d] : St) 3 = d := fun _ _ _ _ => rfl
  have hc2 : cSide G ul * cSide G ul ≠ 0 := (mul_pos hc hc).ne'
  have e3 := congrFun e 3
  simp only [ausmDM, Gas.dSoundSpeed, Gas.dPressure, q3, Pi.zero_apply] at e3
  have hd : 1 / 2 / cSide G ul * G.g * (G.g - 1) / ul 0 ≠ 0 := by
    have : 0 < G.g - 1 := by linarith
    have : 0 < G.g := by linarith
    positivity
  have hv : Gas.varsVn ul n = 0 := by
    rcases div_eq_zero_iff.1 e3 with h | h
    · rcases mul_eq_zero.1 h with h | h
      · linarith
      · exact absurd h hd
    · exact absurd h hc2
  have e1 := congrFun e 1
  have e2 := congrFun e 2
  simp only [ausmDM, hv, zero_mul, sub_zero, Pi.zero_apply, Matrix.cons_val_one, Matrix.cons_val_zero, Matrix.cons_val] at e1 e2
  have k1 : n 0 = 0 := by
    by_contra h
    exact (div_ne_zero (mul_ne_zero (div_ne_zero h hr.ne') hc.ne') hc2) e1
  have k2 : n 1 = 0 := by
    by_contra h
    exact (div_ne_zero (mul_ne_zero (div_ne_zero h hr.ne') hc.ne') hc2) e2
  exact hn (funext fun i => by fin_cases i <;> assumption)

theorem hasGrad_load0 (hl : Adm G ul) (i : Fin 4) : ∃ d, HasGrad (fun v => load G v i) d ul := by
  have hp := hasGrad_varsP (G := G) hl.rho'
  by_cases h : i = 3
  · simp only [load, h, if_true]
    exact ⟨_, (hasGrad_c hl).mul ((HasGrad.coord 3).add hp)⟩
  · simp only [load, h, if_false]
    exact ⟨_, (hasGrad_c hl).mul (HasGrad.coord i)⟩

/-- A row of the AUSM flux in terms of what the sides carry. -/
theorem ausm_row (ul ur : St) (n : V2) (i : Fin 4) :
    ausm G ul ur n i = 1 / 2 * ((ausmML (Gas.varsVn ul n / cSide G ul) + ausmMR (Gas.varsVn ur n / cSide G ur)) * (load G ul i + load G ur i))
      + (ausmPL (Gas.varsVn ul n / cSide G ul) (G.varsP ul) + ausmPR (Gas.varsVn ur n / cSide G ur) (G.varsP ur)) * (![0, n 0, n 1, 0] : St) i
      - 1 / 2 * (|ausmML (Gas.varsVn ul n / cSide G ul) + ausmMR (Gas.varsVn ur n / cSide G ur)| * (load G ur i - load G ul i)) := by
  fin_cases i <;> simp [ausm, ausmCore, load] <;> ring

theorem ausmDML_zero {M : ℝ} (dm : St) (h : M ≤ -1) : ausmDML M dm = 0 := by
  funext k
  simp only [ausmDML, Pi.zero_apply]
  split_ifs with h1 h2
  · have : M = -1 := le_antisymm h (abs_le.1 h1).1
    rw [this]; ring
  · rfl
  · exact absurd (lt_of_le_of_ne h fun e => h1 (by rw [e]; norm_num)) h2

theorem ausmDML_ne {M : ℝ} {dm : St} (h : -1 < M) (hd : dm ≠ 0) : ausmDML M dm ≠ 0 := by
  intro e
  refine hd (funext fun k => ?_)
  have := congrFun e k
  simp only [ausmDML, Pi.zero_apply] at this ⊢
  split_ifs at this with h1 h2
  · exact (mul_eq_zero.1 this).resolve_left (by linarith)
  · linarith
  · exact this

theorem ausmDMR_zero {M : ℝ} (dm : St) (h : 1 ≤ M) : ausmDMR M dm = 0 := by
  funext k
  simp only [ausmDMR, Pi.zero_apply]
  split_ifs with h1 h2
  · have : M = 1 := le_antisymm (abs_le.1 h1).2 h
    rw [this]; ring
  · linarith
  · rfl

theorem ausmML_le {M : ℝ} (h : M ≤ -1) : ausmML M = 0 := by
  simp only [ausmML]
  split_ifs with h1 h2
  · have : M = -1 := le_antisymm h (abs_le.1 h1).1
    rw [this]; ring
  · rfl
  · exact absurd (lt_of_le_of_ne h fun e => h1 (by rw [e]; norm_num)) h2

theorem ausmMR_eq_zero {M : ℝ} (h : ausmMR M = 0) : 1 ≤ M := by
  simp only [ausmMR] at h
  split_ifs at h with h1 h2
  · nlinarith [sq_nonneg (M - 1)]
  · linarith
  · by_contra h3
    exact h1 (abs_le.2 ⟨by linarith, by linarith⟩)

/-- C18: where the interface Mach number vanishes, a row of the AUSM flux has a derivative in the left
state exactly if the two sides carry the same amount of that row's quantity, unless the left side
contributes nothing (it runs away from the face at no less than the speed of sound). -/
theorem C18_ausm_switch_row (hl : Adm G ul) (hn : n ≠ 0)
    (h0 : ausmML (Gas.varsVn ul n / cSide G ul) + ausmMR (Gas.varsVn ur n / cSide G ur) = 0) (i : Fin 4) :
    (∃ d, HasGrad (fun v => ausm G v ur n i) d ul) ↔
      Gas.varsVn ul n / cSide G ul ≤ -1 ∨ load G ul i = load G ur i := by
  have hm := hasGrad_mach hl n
  have hp := hasGrad_varsP (G := G) hl.rho'
  have hM := (hasGrad_ausmML hm).add (HasGrad.const (u := ul) (ausmMR (Gas.varsVn ur n / cSide G ur)))
  have hP := (hasGrad_ausmPL hm hp).add (HasGrad.const (u := ul) (ausmPR (Gas.varsVn ur n / cSide G ur) (G.varsP ur)))
  obtain ⟨dC, hC⟩ := hasGrad_load0 hl i
  have hS := ((hM.mul (hC.add (HasGrad.const (load G ur i)))).cmul (1 / 2)).add (hP.mul (HasGrad.const ((![0, n 0, n 1, 0] : St) i)))
  have hD := (HasGrad.const (u := ul) (load G ur i)).sub hC
  have hrow : (fun v => ausm G v ur n i) = fun v => _ := funext fun v => ausm_row v ur n i
  constructor
  · rintro ⟨d, hd⟩
    by_contra hno
    rw [not_or, not_le] at hno
    rw [hrow] at hd
    have hk := ((hS.sub hd).cmul 2)
    have hk' : HasGrad (fun v => |ausmML (Gas.varsVn v n / cSide G v) + ausmMR (Gas.varsVn ur n / cSide G ur)| * (load G ur i - load G v i)) _ ul :=
      hk.congr_of_eventuallyEq (Filter.Eventually.of_forall fun v => by simp only; ring)
    have := (abs_mul_grad_iff hM h0 (by
      have := ausmDML_ne hno.1 (ausmDM_ne hl hn)
      intro e; exact this (by rw [← e]; funext k; simp)) hD).1 ⟨_, hk'⟩
    exact hno.2 (by linarith)
  · intro hc
    have hk := abs_mul_grad hM h0 hD (hc.imp (fun h => by
      rw [ausmDML_zero _ h]; funext k; simp) fun h => by rw [h]; ring)
    rw [hrow]
    exact ⟨_, hS.sub (hk.cmul (1 / 2))⟩

/-- Gradient of what a side carries. -/
noncomputable def dLoad (G : Gas) (u : St) (i : Fin 4) : St := fun k =>
  if i = 3 then G.dSoundSpeed (u 0) (G.varsP u) (G.dPressure u) (cSide G u) k * (u 3 + G.varsP u)
      + cSide G u * ((if k = 3 then 1 else 0) + G.dPressure u k)
  else G.dSoundSpeed (u 0) (G.varsP u) (G.dPressure u) (cSide G u) k * u i + cSide G u * if k = i then 1 else 0

theorem hasGrad_load (hl : Adm G ul) (i : Fin 4) : HasGrad (fun v => load G v i) (dLoad G ul i) ul := by
  have hp := hasGrad_varsP (G := G) hl.rho'
  by_cases h : i = 3
  · simp only [load, h, if_true]
    refine ((hasGrad_c hl).mul ((HasGrad.coord 3).add hp)).congr ?_
    funext k; fin_cases k <;> simp [dLoad]
  · simp only [load, h, if_false]
    refine ((hasGrad_c hl).mul (HasGrad.coord i)).congr ?_
    funext k; fin_cases i <;> fin_cases k <;> simp [dLoad] at h ⊢

/-- The left block at a vanishing interface Mach number. -/
theorem ausm_left_switch (hl : Adm G ul)
    (h0 : ausmML (Gas.varsVn ul n / cSide G ul) + ausmMR (Gas.varsVn ur n / cSide G ur) = 0) (i : Fin 4)
    (hc : Gas.varsVn ul n / cSide G ul ≤ -1 ∨ load G ul i = load G ur i) :
    HasGrad (fun v => ausm G v ur n i) (fun k => - (ausmJac G ul ur n).dfdl i k) ul := by
  have hm := hasGrad_mach hl n
  have hp := hasGrad_varsP (G := G) hl.rho'
  have hM := (hasGrad_ausmML hm).add (HasGrad.const (u := ul) (ausmMR (Gas.varsVn ur n / cSide G ur)))
  have hP := (hasGrad_ausmPL hm hp).add (HasGrad.const (u := ul) (ausmPR (Gas.varsVn ur n / cSide G ur) (G.varsP ur)))
  have hC := hasGrad_load hl i
  have hS := ((hM.mul (hC.add (HasGrad.const (load G ur i)))).cmul (1 / 2)).add (hP.mul (HasGrad.const ((![0, n 0, n 1, 0] : St) i)))
  have hD := (HasGrad.const (u := ul) (load G ur i)).sub hC
  have hrow : (fun v => ausm G v ur n i) = fun v => _ := funext fun v => ausm_row v ur n i
  have hk := abs_mul_grad hM h0 hD (hc.imp (fun h => by
      rw [ausmDML_zero _ h]; funext k; simp) fun h => by rw [h]; ring)
  have hz : ∀ k, ausmDML (Gas.varsVn ul n / cSide G ul) (ausmDM ul n (Gas.varsVn ul n) (cSide G ul)
      (G.dSoundSpeed (ul 0) (G.varsP ul) (G.dPressure ul) (cSide G ul))) k * (load G ur i - load G ul i) = 0 := by
    intro k
    rcases hc with h | h
    · rw [ausmDML_zero _ h]; simp
    · rw [h]; ring
  rw [hrow]
  refine (hS.sub (hk.cmul (1 / 2))).congr ?_
  funext k
  have hzk := hz k
  simp only [ausmJac, neg_neg, h0]
  generalize ausmDML (Gas.varsVn ul n / cSide G ul) (ausmDM ul n (Gas.varsVn ul n) (cSide G ul)
      (G.dSoundSpeed (ul 0) (G.varsP ul) (G.dPressure ul) (cSide G ul))) = dM at hzk ⊢
  generalize G.dSoundSpeed (ul 0) (G.varsP ul) (G.dPressure ul) (cSide G ul) = dc at hzk ⊢
  fin_cases i <;> fin_cases k <;> simp [ausmDL, load, dLoad, -mul_eq_zero] at hzk ⊢ <;> linear_combination (sgn 0 / 2) * hzk

/-- The right block at a vanishing interface Mach number. -/
theorem ausm_right_switch (hr : Adm G ur)
    (h0 : ausmML (Gas.varsVn ul n / cSide G ul) + ausmMR (Gas.varsVn ur n / cSide G ur) = 0) (i : Fin 4)
    (hc : 1 ≤ Gas.varsVn ur n / cSide G ur ∨ load G ul i = load G ur i) :
    HasGrad (fun v => ausm G ul v n i) ((ausmJac G ul ur n).dfdr i) ur := by
  have hm := hasGrad_mach hr n
  have hp := hasGrad_varsP (G := G) hr.rho'
  have hM := (HasGrad.const (u := ur) (ausmML (Gas.varsVn ul n / cSide G ul))).add (hasGrad_ausmMR hm)
  have hP := (HasGrad.const (u := ur) (ausmPL (Gas.varsVn ul n / cSide G ul) (G.varsP ul))).add (hasGrad_ausmPR hm hp)
  have hC := hasGrad_load hr i
  have hS := ((hM.mul ((HasGrad.const (load G ul i)).add hC)).cmul (1 / 2)).add (hP.mul (HasGrad.const ((![0, n 0, n 1, 0] : St) i)))
  have hD := hC.sub (HasGrad.const (u := ur) (load G ul i))
  have hrow : (fun v => ausm G ul v n i) = fun v => _ := funext fun v => ausm_row ul v n i
  have hk := abs_mul_grad hM h0 hD (hc.imp (fun h => by
      rw [ausmDMR_zero _ h]; funext k; simp) fun h => by rw [h]; ring)
  have hz : ∀ k, ausmDMR (Gas.varsVn ur n / cSide G ur) (ausmDM ur n (Gas.varsVn ur n) (cSide G ur)
      (G.dSoundSpeed (ur 0) (G.varsP ur) (G.dPressure ur) (cSide G ur))) k * (load G ur i - load G ul i) = 0 := by
    intro k
    rcases hc with h | h
    · rw [ausmDMR_zero _ h]; simp
    · rw [h]; ring
  rw [hrow]
  refine (hS.sub (hk.cmul (1 / 2))).congr ?_
  funext k
  have hzk := hz k
  simp only [ausmJac, h0]
  generalize ausmDMR (Gas.varsVn ur n / cSide G ur) (ausmDM ur n (Gas.varsVn ur n) (cSide G ur)
      (G.dSoundSpeed (ur 0) (G.varsP ur) (G.dPressure ur) (cSide G ur))) = dM at hzk ⊢
  generalize G.dSoundSpeed (ur 0) (G.varsP ur) (G.dPressure ur) (cSide G ur) = dc at hzk ⊢
  fin_cases i <;> fin_cases k <;> simp [ausmDR, load, dLoad, -mul_eq_zero] at hzk ⊢ <;> linear_combination (sgn 0 / 2) * hzk

/-- C18, in full for AUSM: `get_jacobian` is the exact derivative of `get_flux` exactly where the
interface Mach number does not vanish, or both sides run away from the face at no less than the speed of
sound, or both carry the same.  Everywhere else no Jacobian routine could be right. -/
theorem C18_ausm_exact_iff (hl : Adm G ul) (hr : Adm G ur) (hn : n ≠ 0) :
    IsFluxJac (fun a b => ausm G a b n) (ausmJac G ul ur n) ul ur ↔
      ausmML (Gas.varsVn ul n / cSide G ul) + ausmMR (Gas.varsVn ur n / cSide G ur) ≠ 0 ∨
      Gas.varsVn ul n / cSide G ul ≤ -1 ∨ ∀ i, load G ul i = load G ur i := by
  constructor
  · intro h
    by_cases h0 : ausmML (Gas.varsVn ul n / cSide G ul) + ausmMR (Gas.varsVn ur n / cSide G ur) = 0
    · right
      by_cases hs : Gas.varsVn ul n / cSide G ul ≤ -1
      · exact Or.inl hs
      · exact Or.inr fun i => ((C18_ausm_switch_row hl hn h0 i).1 ⟨_, (h i).1⟩).resolve_left hs
    · exact Or.inl h0
  · intro h
    by_cases h0 : ausmML (Gas.varsVn ul n / cSide G ul) + ausmMR (Gas.varsVn ur n / cSide G ur) = 0
    · intro i
      rcases h.resolve_left (not_not.2 h0) with h | h
      · refine ⟨ausm_left_switch hl h0 i (.inl h), ausm_right_switch hr h0 i (.inl ?_)⟩
        rw [ausmML_le h, zero_add] at h0
        exact ausmMR_eq_zero h0
      · exact ⟨ausm_left_switch hl h0 i (.inr (h i)), ausm_right_switch hr h0 i (.inr (h i))⟩
    · exact C18_ausm_exact hl hr n h0

/-- C18: where `get_jacobian` of AUSM is not exact, no other matrices are: the flux has no derivative. -/
theorem C18_ausm_no_jacobian (hl : Adm G ul) (hr : Adm G ur) (hn : n ≠ 0)
    (h : ¬ IsFluxJac (fun a b => ausm G a b n) (ausmJac G ul ur n) ul ur) (J : FJ) :
    ¬ IsFluxJac (fun a b => ausm G a b n) J ul ur := by
  intro hJ
  rw [C18_ausm_exact_iff hl hr hn, not_or, not_or, not_not] at h
  exact h.2.2 fun i => ((C18_ausm_switch_row hl hn h.1 i).1 ⟨_, (hJ i).1⟩).resolve_left h.2.1

end

/-- Gas at rest at pressure one and density `r`. -/
noncomputable def still (r : ℝ) : St := ![r, 0, 0, 5 / 2]

theorem still_adm {r : ℝ} (h : 0 < r) : Adm air (still r) :=
  ⟨by norm_num [air], by simpa [still] using h, by simp [Gas.pressure, Gas.pressureOfInternal, still, air, dot, mom]; norm_num⟩

theorem still_vn (r : ℝ) (n : V2) : Gas.varsVn (still r) n = 0 := by simp [Gas.varsVn, still, dot, Gas.vel]

/-- The two gases do not carry the same mass. -/
theorem still_load (e : load air (still 1) 0 = load air (still 4) 0) : False := by
  have p1 : ∀ r, 0 < r → cSide air (still r) * cSide air (still r) * r = 7 / 5 := by
    intro r hr
    have := (still_adm hr).c_sq
    rw [show still r 0 = r from rfl] at this
    rw [this]
    simp [Gas.varsP, still, air, dot, Gas.vel]
    norm_num
  have a1 := p1 1 one_pos
  have a4 := p1 4 (by norm_num)
  have e' : cSide air (still 1) = 4 * cSide air (still 4) := by
    have q : ∀ r, load air (still r) 0 = cSide air (still r) * r := fun r => by simp [load, still]
    rw [q, q] at e
    linarith
  rw [e'] at a1
  nlinarith

/-- C18: a stationary contact (gas of density one beside gas of density four, both at rest at the same
pressure) is a state where the AUSM flux has no derivative. -/
theorem C18_ausm_switch_refuted :
    ∃ (ul ur : St) (n : V2), Adm air ul ∧ Adm air ur ∧ n 0 ^ 2 + n 1 ^ 2 = 1 ∧
      ∀ J, ¬ IsFluxJac (fun a b => ausm air a b n) J ul ur := by
  have h1 := still_adm (r := 1) one_pos
  have h4 := still_adm (r := 4) (by norm_num)
  have hn : (![1, 0] : V2) ≠ 0 := fun e => one_ne_zero (congrFun e 0)
  refine ⟨still 1, still 4, ![1, 0], h1, h4, by simp, fun J => C18_ausm_no_jacobian h1 h4 hn ?_ J⟩
  rw [C18_ausm_exact_iff h1 h4 hn]
  simp only [still_vn, zero_div]
  rintro (h | h | h)
  · exact h (by norm_num [ausmML, ausmMR])
  · norm_num at h
  · exact still_load (h 0)

/-- Concrete case where the blocks are exact although the interface Mach number is zero: two equal sides
at rest. -/
example : IsFluxJac (fun a b => ausm air a b ![1, 0]) (ausmJac air (still 1) (still 1) ![1, 0]) (still 1) (still 1) :=
  (C18_ausm_exact_iff (still_adm one_pos) (still_adm one_pos) fun e => one_ne_zero (congrFun e 0)).2
    (.inr (.inr fun _ => rfl))

end Flux
end FVENS
