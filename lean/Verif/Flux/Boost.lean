import Verif.Flux.Basic
import Mathlib.Tactic.LinearCombination

/-!
# The same flow seen from a frame moving along the face

An observer who moves along a face with a constant velocity sees the same densities and pressures, and all
velocities changed by the same amount.  The flux through the face changes accordingly: the mass flux
carries the additional momentum and kinetic energy, nothing else.
-/

namespace FVENS
namespace Flux

/-- Specification: the state with the velocity `w` added to the velocity, density and pressure unchanged
(not a function of the code; the same map, being linear, turns fluxes into fluxes). -/
noncomputable def boost (w : V2) (u : St) : St :=
  ![u 0, u 1 + u 0 * w 0, u 2 + u 0 * w 1,
    u 3 + (u 1 * w 0 + u 2 * w 1) + u 0 * (w 0 * w 0 + w 1 * w 1) / 2]

section
variable {G : Gas} {w n : V2} {u ul ur : St}

@[simp] theorem boost_zero (w : V2) (u : St) : boost w u 0 = u 0 := rfl

theorem boost_vel (hu : u 0 ≠ 0) :
    Gas.vel (boost w u) = ![Gas.vel u 0 + w 0, Gas.vel u 1 + w 1] := by
  funext i
  fin_cases i <;> simp [Gas.vel, boost] <;> field_simp

theorem boost_vn (hu : u 0 ≠ 0) (hw : dot w n = 0) : Gas.varsVn (boost w u) n = Gas.varsVn u n := by
  simp only [Gas.varsVn, boost_vel hu, dot] at hw ⊢
  simp
  linear_combination hw

theorem boost_p (hu : u 0 ≠ 0) : G.varsP (boost w u) = G.varsP u := by
  simp only [Gas.varsP, dot, boost, Gas.vel]
  simp
  left
  field_simp
  ring

theorem boost_c (hu : u 0 ≠ 0) : cSide G (boost w u) = cSide G u := by
  rw [cSide, boost_p hu, boost_zero, cSide]

theorem boost_H (hu : u 0 ≠ 0) :
    G.varsH (boost w u) = G.varsH u + dot (Gas.vel u) w + dot w w / 2 := by
  rw [Gas.varsH, boost_p hu, boost_zero, Gas.varsH]
  simp [boost, Gas.vel, dot]
  field_simp
  ring

theorem boost_dirFlux (hw : dot w n = 0) (vn p : ℝ) :
    Gas.dirFlux (boost w u) n vn p = boost w (Gas.dirFlux u n vn p) := by
  simp only [dot] at hw
  funext i
  fin_cases i <;> simp [Gas.dirFlux, boost] <;> ring_nf
  linear_combination (-p) * hw

/-- The boost is linear. -/
theorem boost_comb (w : V2) (a b : ℝ) (u v : St) :
    boost w (fun i => a * u i + b * v i) = fun i => a * boost w u i + b * boost w v i := by
  funext i
  fin_cases i <;> simp [boost] <;> ring

theorem boost_eulerFlux (hu : u 0 ≠ 0) (hw : dot w n = 0) :
    G.eulerFlux (boost w u) n = boost w (G.eulerFlux u n) := by
  rw [eulerFlux_eq (by simpa using hu), eulerFlux_eq hu, boost_vn hu hw, boost_p hu, boost_dirFlux hw]

theorem boost_llf (hl : ul 0 ≠ 0) (hr : ur 0 ≠ 0) (hw : dot w n = 0) :
    llf G (boost w ul) (boost w ur) n = boost w (llf G ul ur n) := by
  simp only [llf, boost_vn hl hw, boost_vn hr hw, boost_c hl, boost_c hr, boost_eulerFlux hl hw,
    boost_eulerFlux hr hw]
  funext i
  fin_cases i <;> simp [boost] <;> ring

theorem boost_split (hu : u 0 ≠ 0) (hw : dot w n = 0) (f a g vn k : ℝ) :
    (![f, f * (boost w u 1 / boost w u 0 + n 0 * a / g), f * (boost w u 2 / boost w u 0 + n 1 * a / g),
      f * (((boost w u 1 / boost w u 0) ^ 2 + (boost w u 2 / boost w u 0) ^ 2 - vn * vn) / 2 + k)] : St) =
    boost w ![f, f * (u 1 / u 0 + n 0 * a / g), f * (u 2 / u 0 + n 1 * a / g),
      f * (((u 1 / u 0) ^ 2 + (u 2 / u 0) ^ 2 - vn * vn) / 2 + k)] := by
  simp only [dot] at hw
  funext i
  fin_cases i <;> simp [boost]
  · field_simp; ring
  · field_simp; ring
  · have e : (w 0 * n 0 + w 1 * n 1) * (a / g) = 0 := by rw [hw]; simp
    have e1 : (u 1 + u 0 * w 0) / u 0 = u 1 / u 0 + w 0 := by field_simp
    have e2 : (u 2 + u 0 * w 1) / u 0 = u 2 / u 0 + w 1 := by field_simp
    rw [e1, e2]
    linear_combination (-f) * e

theorem boost_vlPlus {g vn p c : ℝ} (hu : u 0 ≠ 0) (hw : dot w n = 0) :
    vlPlus g (boost w u) n vn p c = boost w (vlPlus g u n vn p c) := by
  unfold vlPlus
  simp only
  split_ifs
  · funext i; fin_cases i <;> simp [boost]
  · exact boost_dirFlux hw _ _
  · exact boost_split hu hw _ _ _ _ _

theorem boost_vlMinus {g vn p c : ℝ} (hu : u 0 ≠ 0) (hw : dot w n = 0) :
    vlMinus g (boost w u) n vn p c = boost w (vlMinus g u n vn p c) := by
  unfold vlMinus
  simp only
  split_ifs
  · funext i; fin_cases i <;> simp [boost]
  · exact boost_dirFlux hw _ _
  · exact boost_split hu hw _ _ _ _ _

theorem boost_vanLeer (hl : ul 0 ≠ 0) (hr : ur 0 ≠ 0) (hw : dot w n = 0) :
    vanLeer G (boost w ul) (boost w ur) n = boost w (vanLeer G ul ur n) := by
  funext i
  simp only [vanLeer, boost_vn hl hw, boost_vn hr hw, boost_c hl, boost_c hr, boost_p hl, boost_p hr,
    boost_vlPlus hl hw, boost_vlMinus hr hw]
  fin_cases i <;> simp [boost, vanLeer] <;> ring

theorem boost_ausm (hl : ul 0 ≠ 0) (hr : ur 0 ≠ 0) (hw : dot w n = 0) :
    ausm G (boost w ul) (boost w ur) n = boost w (ausm G ul ur n) := by
  have hw' := hw
  simp only [dot] at hw'
  simp only [ausm, boost_vn hl hw, boost_vn hr hw, boost_c hl, boost_c hr, boost_p hl, boost_p hr]
  generalize ausmML _ + ausmMR _ = Mh
  generalize ausmPL _ _ + ausmPR _ _ = ph
  funext i
  fin_cases i <;> simp [boost, ausmCore]
  · ring
  · ring
  · linear_combination (-ph) * hw'

theorem boost_roe_R_ne : (roeOf G ul ur n).R + 1 ≠ 0 := by
  have : 0 ≤ (roeOf G ul ur n).R := Real.sqrt_nonneg _
  linarith

/-- Roe averages in the moving frame. -/
theorem boost_roeOf (hl : ul 0 ≠ 0) (hr : ur 0 ≠ 0) (hw : dot w n = 0) :
    roeOf G (boost w ul) (boost w ur) n =
      { roeOf G ul ur n with
        v := ![(roeOf G ul ur n).v 0 + w 0, (roeOf G ul ur n).v 1 + w 1]
        vm2 := (roeOf G ul ur n).vm2 + 2 * dot (roeOf G ul ur n).v w + dot w w
        H := (roeOf G ul ur n).H + dot (roeOf G ul ur n).v w + dot w w / 2 } := by
  have hR := boost_roe_R_ne (G := G) (ul := ul) (ur := ur) (n := n)
  simp only [dot] at hw
  simp only [roeOf, roeAvg, boost_vel hl, boost_vel hr, boost_H hl, boost_H hr, boost_zero] at hR ⊢
  generalize Real.sqrt (ur 0 / ul 0) = R at *
  simp only [Avg.mk.injEq, true_and]
  refine ⟨?_, ?_, ?_, ?_, ?_⟩
  · funext i; fin_cases i <;> simp <;> field_simp <;> ring
  · simp [dot]; field_simp; ring
  · simp [dot]; field_simp; linear_combination (R + 1) * hw
  · simp [dot]; field_simp; ring
  · congr 1; simp [dot]; left; field_simp; ring

theorem boost_roe (hl : ul 0 ≠ 0) (hr : ur 0 ≠ 0) (hw : dot w n = 0) :
    roe G (boost w ul) (boost w ur) n = boost w (roe G ul ur n) := by
  have hw' := hw
  simp only [dot] at hw'
  simp only [roe, boost_vn hl hw, boost_vn hr hw, boost_p hl, boost_p hr, boost_dirFlux hw,
    boost_roeOf hl hr hw, boost_vel hl, boost_vel hr, boost_zero]
  have hL : roeL { roeOf G ul ur n with
        v := ![(roeOf G ul ur n).v 0 + w 0, (roeOf G ul ur n).v 1 + w 1]
        vm2 := (roeOf G ul ur n).vm2 + 2 * dot (roeOf G ul ur n).v w + dot w w
        H := (roeOf G ul ur n).H + dot (roeOf G ul ur n).v w + dot w w / 2 } = roeL (roeOf G ul ur n) := rfl
  simp only [hL]
  generalize roeL (roeOf G ul ur n) = l
  generalize roeOf G ul ur n = a
  obtain ⟨R, rho, v, vm2, vn, H, c⟩ := a
  simp only [roeLA]
  generalize Gas.varsVn ur n - Gas.varsVn ul n = dn
  generalize l 0 * _ / _ = a0
  generalize l 1 * (_ - _) = a1
  generalize l 1 * rho = a2
  generalize l 3 * _ / _ = a3
  generalize Gas.dirFlux ul n _ _ = fl
  generalize Gas.dirFlux ur n _ _ = fr
  funext i
  fin_cases i <;> simp [boost, roeADU, dot]
  · ring
  · ring
  · linear_combination (1 / 2 * (-a0 * c + a3 * c - a2 * dn)) * hw'

theorem boost_sl (hl : ul 0 ≠ 0) (hr : ur 0 ≠ 0) (hw : dot w n = 0) :
    slOf G (boost w ul) (boost w ur) n = slOf G ul ur n := by
  simp only [slOf, waveL, boost_vn hl hw, boost_c hl, boost_roeOf hl hr hw]

theorem boost_sr (hl : ul 0 ≠ 0) (hr : ur 0 ≠ 0) (hw : dot w n = 0) :
    srOf G (boost w ul) (boost w ur) n = srOf G ul ur n := by
  simp only [srOf, waveR, boost_vn hr hw, boost_c hr, boost_roeOf hl hr hw]

theorem boost_hll (hl : ul 0 ≠ 0) (hr : ur 0 ≠ 0) (hw : dot w n = 0) :
    hll G (boost w ul) (boost w ur) n = boost w (hll G ul ur n) := by
  have hw' := hw
  simp only [dot] at hw'
  have ml := mom1_eq hl
  have ml' := mom2_eq hl
  have mr := mom1_eq hr
  have mr' := mom2_eq hr
  simp only [hll, boost_sl hl hr hw, boost_sr hl hr hw, boost_vn hl hw, boost_vn hr hw, boost_p hl, boost_p hr,
    boost_H hl, boost_H hr]
  generalize hllT1 _ _ = t1
  generalize hllT3 _ _ = t3
  generalize Gas.varsVn ul n = vi
  generalize Gas.varsVn ur n = vj
  generalize G.varsP ul = pi
  generalize G.varsP ur = pj
  funext i
  fin_cases i <;> simp [boost, hllCore, dot]
  · ring
  · ring
  · rw [ml, ml', mr, mr']
    linear_combination (-(t1 * pj + (1 - t1) * pi)) * hw'

theorem boost_star (hw : dot w n = 0) (vn p ss sm : ℝ) :
    star (boost w u) n vn p ss sm = boost w (star u n vn p ss sm) := by
  simp only [dot] at hw
  funext i
  fin_cases i <;> simp [boost, star]
  · ring
  · ring
  · linear_combination (-(u 0 * (vn - ss) * (vn - sm) / (ss - sm))) * hw

theorem boost_hllcCore (hw : dot w n = 0) (vi vj pi pj sl sm sr : ℝ) :
    hllcCore (boost w ul) (boost w ur) n vi vj pi pj sl sm sr =
      boost w (hllcCore ul ur n vi vj pi pj sl sm sr) := by
  unfold hllcCore
  simp only [boost_star hw, boost_dirFlux hw]
  by_cases h1 : sl > 0
  · simp only [if_pos h1]
  by_cases h2 : sl ≤ 0 ∧ sm > 0
  · simp only [if_neg h1, if_pos h2]
    funext i; fin_cases i <;> simp [boost] <;> ring
  by_cases h3 : sm ≤ 0 ∧ sr ≥ 0
  · simp only [if_neg h1, if_neg h2, if_pos h3]
    funext i; fin_cases i <;> simp [boost] <;> ring
  · simp only [if_neg h1, if_neg h2, if_neg h3]

theorem boost_hllc (hl : ul 0 ≠ 0) (hr : ur 0 ≠ 0) (hw : dot w n = 0) :
    hllc G (boost w ul) (boost w ur) n = boost w (hllc G ul ur n) := by
  simp only [hllc, smOf, boost_sl hl hr hw, boost_sr hl hr hw, boost_vn hl hw, boost_vn hr hw, boost_p hl,
    boost_p hr, boost_zero, boost_hllcCore hw]

end

/-! ## Specification -/

/-- Specification: `u'` is the state `u` as seen by an observer for whom all velocities are larger by `w`:
same density, same pressure. -/
structure Seen (G : Gas) (w : V2) (u u' : St) : Prop where
  density : u' 0 = u 0
  velocity : ∀ i, Gas.vel u' i = Gas.vel u i + w i
  pressure : G.pressure u' = G.pressure u

/-- Specification: the flux `f'` carries, in addition to `f`, the momentum and kinetic energy which the
mass flux of `f` gains in the moving frame. -/
structure Carried (w : V2) (f f' : St) : Prop where
  mass : f' 0 = f 0
  momX : f' 1 = f 1 + f 0 * w 0
  momY : f' 2 = f 2 + f 0 * w 1
  energy : f' 3 = f 3 + (f 1 * w 0 + f 2 * w 1) + f 0 * dot w w / 2

section
variable {G : Gas} {w n : V2} {u u' ul ul' ur ur' : St}

theorem carried_iff {f f' : St} : Carried w f f' ↔ f' = boost w f := by
  constructor
  · rintro ⟨a, b, c, d⟩
    funext i
    fin_cases i
    · exact a
    · exact b
    · exact c
    · simpa [boost, dot] using d
  · rintro rfl
    exact ⟨rfl, rfl, rfl, by simp [boost, dot]⟩

theorem seen_iff (hg : G.g ≠ 1) (hu : u 0 ≠ 0) : Seen G w u u' ↔ u' = boost w u := by
  constructor
  · rintro ⟨a, b, c⟩
    have hu' : u' 0 ≠ 0 := by rw [a]; exact hu
    have b0 := b 0
    have b1 := b 1
    have e1 : u' 1 = u 1 + u 0 * w 0 := by
      simp only [Gas.vel, a] at b0; simp at b0; field_simp at b0; linarith
    have e2 : u' 2 = u 2 + u 0 * w 1 := by
      simp only [Gas.vel, a] at b1; simp at b1; field_simp at b1; linarith
    have e3 : u' 3 = boost w u 3 := by
      have hb := varsP_eq (G := G) (u := boost w u) (by simpa using hu)
      rw [boost_p hu, varsP_eq hu, ← c] at hb
      simp only [Gas.pressure, Gas.pressureOfInternal, mom, dot, boost_zero] at hb
      have h2 := mul_left_cancel₀ (sub_ne_zero.mpr hg) hb
      simp only [a, e1, e2] at h2
      simp [boost] at h2 ⊢
      linarith
    funext i
    fin_cases i
    · exact a
    · exact e1
    · exact e2
    · exact e3
  · rintro rfl
    refine ⟨rfl, fun i => ?_, ?_⟩
    · rw [boost_vel hu]; fin_cases i <;> rfl
    · rw [← varsP_eq hu, ← varsP_eq (by simpa using hu), boost_p hu]

/-! ## C116: theorems -/

/-- C116: six of the seven numerical fluxes change from one frame to another, moving along the face with
velocity `w`, exactly as the mass flux demands. -/
theorem C116_flux_partial (G : Gas) (sch : Scheme) (hs : sch ≠ .ausmPlus) (hg : G.g ≠ 1) (hl : ul 0 ≠ 0)
    (hr : ur 0 ≠ 0) (hw : dot w n = 0) (sl : Seen G w ul ul') (sr : Seen G w ur ur') :
    Carried w (sch.flux G ul ur n) (sch.flux G ul' ur' n) := by
  rw [(seen_iff hg hl).1 sl, (seen_iff hg hr).1 sr, carried_iff]
  cases sch
  · exact boost_llf hl hr hw
  · exact boost_vanLeer hl hr hw
  · exact boost_ausm hl hr hw
  · exact absurd rfl hs
  · exact boost_roe hl hr hw
  · exact boost_hll hl hr hw
  · exact boost_hllc hl hr hw

/-- C116: the analytical flux, for an arbitrary velocity of the frame. -/
theorem C116_euler (G : Gas) (hg : G.g ≠ 1) (hu : u 0 ≠ 0) (s : Seen G w u u') :
    Carried w (G.eulerFlux u n) (fun i => G.eulerFlux u' n i - dot w n * u' i) := by
  rw [(seen_iff hg hu).1 s, carried_iff, eulerFlux_eq (by simpa using hu), eulerFlux_eq hu, boost_p hu]
  have hv : Gas.varsVn (boost w u) n = Gas.varsVn u n + dot w n := by
    simp only [Gas.varsVn, boost_vel hu, dot]; simp; ring
  rw [hv]
  funext i
  fin_cases i <;> simp [Gas.dirFlux, boost, dot]
  all_goals ring

/-- C116: for Lax-Friedrichs, van Leer and AUSM the mass flux and the normal momentum flux do not depend on
the velocities along the face at all, even when the two sides slide over each other. -/
theorem C116_shear (G : Gas) (sch : Scheme) (hs : sch = .llf ∨ sch = .vanLeer ∨ sch = .ausm) (hg : G.g ≠ 1)
    (hl : ul 0 ≠ 0) (hr : ur 0 ≠ 0) {w' : V2} (hw : dot w n = 0) (hw' : dot w' n = 0) (sl : Seen G w ul ul')
    (sr : Seen G w' ur ur') :
    sch.flux G ul' ur' n 0 = sch.flux G ul ur n 0 ∧
      dot (mom (sch.flux G ul' ur' n)) n = dot (mom (sch.flux G ul ur n)) n := by
  have nl : boost w ul 1 * n 0 + boost w ul 2 * n 1 = ul 1 * n 0 + ul 2 * n 1 := by
    simp only [dot] at hw; simp [boost]; linear_combination ul 0 * hw
  have nr : boost w' ur 1 * n 0 + boost w' ur 2 * n 1 = ur 1 * n 0 + ur 2 * n 1 := by
    simp only [dot] at hw'; simp [boost]; linear_combination ur 0 * hw'
  have fn : ∀ {w : V2} (f : St), dot w n = 0 →
      boost w f 1 * n 0 + boost w f 2 * n 1 = f 1 * n 0 + f 2 * n 1 := by
    intro w f h; simp only [dot] at h; simp [boost]; linear_combination f 0 * h
  rw [(seen_iff hg hl).1 sl, (seen_iff hg hr).1 sr]
  rcases hs with rfl | rfl | rfl
  · simp only [Scheme.flux, llf, boost_vn hl hw, boost_vn hr hw', boost_c hl, boost_c hr,
      boost_eulerFlux hl hw, boost_eulerFlux hr hw']
    refine ⟨by simp, ?_⟩
    have el := fn (G.eulerFlux ul n) hw
    have er := fn (G.eulerFlux ur n) hw'
    simp only [mom, dot]
    simp
    generalize llfEig _ _ _ _ = e
    linear_combination 1 / 2 * el + 1 / 2 * er - 1 / 2 * e * (nr - nl)
  · have a := fn (vlPlus G.g ul n (Gas.varsVn ul n) (G.varsP ul) (cSide G ul)) hw
    have b := fn (vlMinus G.g ur n (Gas.varsVn ur n) (G.varsP ur) (cSide G ur)) hw'
    simp only [Scheme.flux, mom, dot, vanLeer, boost_vn hl hw, boost_vn hr hw', boost_c hl, boost_c hr,
      boost_p hl, boost_p hr, boost_vlPlus hl hw, boost_vlMinus hr hw']
    refine ⟨by simp, ?_⟩
    simp
    linear_combination a + b
  · simp only [Scheme.flux, ausm, boost_vn hl hw, boost_vn hr hw', boost_c hl, boost_c hr, boost_p hl,
      boost_p hr]
    generalize ausmML _ + ausmMR _ = Mh
    generalize ausmPL _ _ + ausmPR _ _ = ph
    refine ⟨by simp [ausmCore], ?_⟩
    simp only [mom, dot, ausmCore]
    simp
    generalize cSide G ul = ci
    generalize cSide G ur = cj
    linear_combination Mh / 2 * (ci * nl + cj * nr) - |Mh| / 2 * (cj * nr - ci * nl)

/-! ### Boundary conditions -/

/-- C116: the ghost states of slip walls, far field, in/outflow and extrapolation boundaries are the same in
both frames, if the free stream is seen from the same frame. -/
theorem C116_ghost (G : Gas) (hg : G.g ≠ 1) {ui ui' : St} (hu : u 0 ≠ 0) (hw : dot w n = 0)
    (s : Seen G w u u') (si : Seen G w ui ui') :
    Seen G w (BC.slip u n) (BC.slip u' n) ∧
    Seen G w (BC.farfield ui u n) (BC.farfield ui' u' n) ∧
    Seen G w (BC.inOut G ui u n) (BC.inOut G ui' u' n) ∧
    Seen G w (BC.extrapolation u n) (BC.extrapolation u' n) := by
  have hw' := hw
  simp only [dot] at hw'
  refine ⟨?_, si, ?_, s⟩
  · rw [seen_iff hg (by simpa [BC.slip] using hu), (seen_iff hg hu).1 s]
    funext i
    fin_cases i <;> simp [BC.slip, boost, mom, dot] <;> field_simp
    · linear_combination (-2 * n 0 * u 0) * hw'
    · linear_combination (-2 * n 1 * u 0) * hw'
    · linear_combination (2 * (u 1 * n 0 + u 2 * n 1)) * hw'
  · have hm : BC.machN G u' n = BC.machN G u n := by
      have hd : dot (mom u') n / u' 0 = dot (mom u) n / u 0 := by
        rw [(seen_iff hg hu).1 s]
        simp [boost, mom, dot]
        field_simp
        linear_combination u 0 * hw'
      have hc : G.soundSpeedC u' = G.soundSpeedC u := by
        simp only [Gas.soundSpeedC, s.pressure, s.density]
      rw [BC.machN, hd, hc, BC.machN]
    unfold BC.inOut
    simp only [hm]
    split_ifs
    · exact si
    · rw [seen_iff hg (by simpa using hu), (seen_iff hg hu).1 s]
      have hg' : G.g - 1 ≠ 0 := sub_ne_zero.mpr hg
      funext i
      fin_cases i <;> simp [boost, mom, dot, Gas.energyOfP]
      field_simp
      ring
    · exact s

/-- C116: the isothermal wall, whose own speed is seen from the same frame. -/
theorem C116_isothermal (G : Gas) (hg : G.g ≠ 1) (hM : G.Minf ≠ 0) (hg0 : G.g ≠ 0) (hu : u 0 ≠ 0) (tv tw wt : ℝ)
    (s : Seen G ![wt * n 1, -(wt * n 0)] u u') :
    Seen G ![wt * n 1, -(wt * n 0)] (BC.isothermal G tv tw u n) (BC.isothermal G (tv + wt) tw u' n) := by
  have hp := s.pressure
  have hd := s.density
  have hg' : G.g - 1 ≠ 0 := sub_ne_zero.mpr hg
  have hv0 := s.velocity 0
  have hv1 := s.velocity 1
  simp [Gas.vel] at hv0 hv1
  rw [seen_iff hg (by simpa [BC.isothermal] using hu)]
  funext i
  simp only [BC.isothermal, hp, hd]
  rw [hd] at hv0 hv1
  rw [hv0, hv1]
  fin_cases i <;> simp [boost, Gas.energyOfT] <;> field_simp <;> ring

/-- C116: at an adiabatic wall the ghost state is the same in both frames exactly if the frames are the same
or the gas already moves along the wall with the wall's speed. -/
theorem C116_adiabatic_iff (G : Gas) (hg : G.g ≠ 1) (hu : u 0 ≠ 0) (hn : dot n n = 1) (tv wt : ℝ)
    (s : Seen G ![wt * n 1, -(wt * n 0)] u u') :
    Seen G ![wt * n 1, -(wt * n 0)] (BC.adiabatic tv u n) (BC.adiabatic (tv + wt) u' n) ↔
      wt = 0 ∨ dot (Gas.vel u) ![n 1, -n 0] = tv := by
  rw [seen_iff hg (by simpa [BC.adiabatic] using hu), (seen_iff hg hu).1 s]
  simp only [dot] at hn
  constructor
  · intro h
    have h3 := congrFun h 3
    simp [BC.adiabatic, boost] at h3
    have : wt * (dot (Gas.vel u) ![n 1, -n 0] - tv) = 0 := by
      have e : dot (Gas.vel u) ![n 1, -n 0] - tv = (u 1 * n 1 - u 2 * n 0 - u 0 * tv) / u 0 := by
        simp [dot, Gas.vel]; field_simp; ring
      rw [e, mul_div_assoc', div_eq_zero_iff]
      left
      linear_combination 1 / 2 * h3 + wt * tv * u 0 * hn
    rcases mul_eq_zero.1 this with h | h
    · exact .inl h
    · exact .inr (by linarith)
  · intro h
    have h' : wt * (u 1 * n 1 - u 2 * n 0 - tv * u 0) = 0 := by
      rcases h with h | h
      · simp [h]
      · simp [dot, Gas.vel] at h
        field_simp at h
        rw [mul_eq_zero]; right; linarith
    funext i
    fin_cases i <;> simp [BC.adiabatic, boost]
    · ring
    · ring
    · linear_combination 2 * h' - 2 * wt * tv * u 0 * hn

/-! ### AUSM+ and moving adiabatic walls -/

theorem critC_eval {c v r : ℝ} (hr : 0 ≤ r) (h : (5 * (c * c) + v) / 6 = r * r) : critC (7 / 5) c v = r := by
  unfold critC
  rw [show (c * c / (7 / 5 - 1) + 1 / 2 * v) * 2 * (7 / 5 - 1) / (7 / 5 + 1) = r * r by rw [← h]; ring]
  exact Real.sqrt_mul_self hr

/-- C116 refuted for AUSM+: its interface sound speed depends on the velocity along the face.  Air at
pressure 149 to the left and 5 to the right crosses the face with velocity 1; for an observer moving along
the face with speed 12 the momentum flux through the face is different. -/
theorem C116_ausmPlus_refuted :
    Seen air ![0, 12] ![7, 7, 0, 376] ![7, 7, 84, 880] ∧ Seen air ![0, 12] ![7, 7, 0, 16] ![7, 7, 84, 520] ∧
    dot ![0, 12] ![1, 0] = 0 ∧
    Scheme.flux air .ausmPlus ![7, 7, 0, 376] ![7, 7, 0, 16] ![1, 0] 1 ≠
      Scheme.flux air .ausmPlus ![7, 7, 84, 880] ![7, 7, 84, 520] ![1, 0] 1 := by
  have sl : Seen air ![0, 12] ![7, 7, 0, 376] ![7, 7, 84, 880] := by
    rw [seen_iff (by norm_num [air]) (by simp)]
    funext i; fin_cases i <;> simp [boost] <;> norm_num
  have sr : Seen air ![0, 12] ![7, 7, 0, 16] ![7, 7, 84, 520] := by
    rw [seen_iff (by norm_num [air]) (by simp)]
    funext i; fin_cases i <;> simp [boost] <;> norm_num
  refine ⟨sl, sr, by simp [dot], ?_⟩
  have pl : air.varsP ![7, 7, 0, 376] = 149 := by simp [Gas.varsP, air, Gas.vel, dot]; norm_num
  have pr : air.varsP ![7, 7, 0, 16] = 5 := by simp [Gas.varsP, air, Gas.vel, dot]; norm_num
  have pl' : air.varsP ![7, 7, 84, 880] = 149 := by simp [Gas.varsP, air, Gas.vel, dot]; norm_num
  have pr' : air.varsP ![7, 7, 84, 520] = 5 := by simp [Gas.varsP, air, Gas.vel, dot]; norm_num
  have cl : cSide air ![7, 7, 0, 376] * cSide air ![7, 7, 0, 376] = 149 / 5 := by
    rw [cSide, pl, Gas.soundSpeed, Real.mul_self_sqrt (by simp [air]; norm_num)]; simp [air]; norm_num
  have cr : cSide air ![7, 7, 0, 16] * cSide air ![7, 7, 0, 16] = 1 := by
    rw [cSide, pr, Gas.soundSpeed, Real.mul_self_sqrt (by simp [air])]; simp [air]
  have cl' : cSide air ![7, 7, 84, 880] * cSide air ![7, 7, 84, 880] = 149 / 5 := by
    rw [cSide, pl', Gas.soundSpeed, Real.mul_self_sqrt (by simp [air]; norm_num)]; simp [air]; norm_num
  have cr' : cSide air ![7, 7, 84, 520] * cSide air ![7, 7, 84, 520] = 1 := by
    rw [cSide, pr', Gas.soundSpeed, Real.mul_self_sqrt (by simp [air])]; simp [air]
  have hg : air.g = 7 / 5 := by norm_num [air]
  have h1 : ausmpCOf air ![7, 7, 0, 376] ![7, 7, 0, 16] ![1, 0] = 1 := by
    simp only [ausmpCOf, ausmpC, hg]
    rw [critC_eval (r := 5) (by norm_num) (by rw [cl]; simp [dot, Gas.vel]; norm_num),
      critC_eval (r := 1) (by norm_num) (by rw [cr]; simp [dot, Gas.vel]; norm_num)]
    simp [Gas.varsVn, Gas.vel, dot]
  have h2 : ausmpCOf air ![7, 7, 84, 880] ![7, 7, 84, 520] ![1, 0] = 5 := by
    simp only [ausmpCOf, ausmpC, hg]
    rw [critC_eval (r := 7) (by norm_num) (by rw [cl']; simp [dot, Gas.vel]; norm_num),
      critC_eval (r := 5) (by norm_num) (by rw [cr']; simp [dot, Gas.vel]; norm_num)]
    simp [Gas.varsVn, Gas.vel, dot]; norm_num
  simp only [Scheme.flux, ausmPlus, h1, h2, pl, pr, pl', pr']
  simp [ausmpCore, ausmpML, ausmpMR, ausmpPL, ausmpPR, Gas.varsVn, Gas.vel, dot, abs_of_pos]
  norm_num [abs_of_pos]

/-- C116 refuted for adiabatic walls: for gas at rest beside a wall moving with speed 1, seen from a frame
moving along the wall, the ghost state is that of another flow. -/
theorem C116_adiabatic_refuted :
    ∃ u u' : St, Seen air ![0, -1] u u' ∧
      ¬ Seen air ![0, -1] (BC.adiabatic 1 u ![1, 0]) (BC.adiabatic (1 + 1) u' ![1, 0]) := by
  have s : Seen air ![0, -1] ![1, 0, 0, 5/2] (boost ![0, -1] ![1, 0, 0, 5/2]) :=
    (seen_iff (by norm_num [air]) (by simp)).2 rfl
  refine ⟨_, _, s, ?_⟩
  have := C116_adiabatic_iff (n := ![1, 0]) (u := ![1, 0, 0, 5/2]) air (by norm_num [air]) (by simp)
    (by simp [dot]) 1 1
    (by simpa using s)
  simp only [Matrix.cons_val_one, Matrix.cons_val_zero, Matrix.cons_val_fin_one, mul_zero, mul_one] at this
  rw [this]
  simp [dot, Gas.vel]

/-! ### Concrete cases -/

theorem seen_boost (hu : u 0 ≠ 0) (w : V2) : Seen air w u (boost w u) :=
  (seen_iff (by norm_num [air]) hu).2 rfl

example (sch : Scheme) (hs : sch ≠ .ausmPlus) :
    Carried ![0, 3] (sch.flux air uA uB ![1, 0]) (sch.flux air (boost ![0, 3] uA) (boost ![0, 3] uB) ![1, 0]) :=
  C116_flux_partial air sch hs (by norm_num [air]) (by simp [uA]) (by simp [uB]) (by simp [dot])
    (seen_boost (by simp [uA]) _) (seen_boost (by simp [uB]) _)

example : Carried ![2, 3] (air.eulerFlux uA ![1, 0])
    (fun i => air.eulerFlux (boost ![2, 3] uA) ![1, 0] i - 2 * boost ![2, 3] uA i) := by
  simpa [dot] using C116_euler (n := ![1, 0]) air (by norm_num [air]) (by simp [uA])
    (seen_boost (u := uA) (by simp [uA]) ![2, 3])

example : Scheme.flux air .vanLeer (boost ![0, 3] uA) (boost ![0, -5] uB) ![1, 0] 0 =
    Scheme.flux air .vanLeer uA uB ![1, 0] 0 :=
  (C116_shear air .vanLeer (by simp) (by norm_num [air]) (by simp [uA]) (by simp [uB]) (by simp [dot])
    (by simp [dot]) (seen_boost (by simp [uA]) _) (seen_boost (by simp [uB]) _)).1

example : Seen air ![0, 3] (BC.inOut air uA uB ![1, 0]) (BC.inOut air (boost ![0, 3] uA) (boost ![0, 3] uB) ![1, 0]) :=
  (C116_ghost air (by norm_num [air]) (by simp [uB]) (by simp [dot]) (seen_boost (by simp [uB]) _)
    (seen_boost (by simp [uA]) _)).2.2.1

example : Seen air ![3 * 0, -(3 * 1)] (BC.isothermal air 1 2 uA ![1, 0])
    (BC.isothermal air (1 + 3) 2 (boost ![3 * 0, -(3 * 1)] uA) ![1, 0]) :=
  C116_isothermal (n := ![1, 0]) air (by norm_num [air]) (by norm_num [air]) (by norm_num [air]) (by simp [uA])
    1 2 3 (seen_boost (by simp [uA]) _)

example : ¬ Seen air ![3 * 0, -(3 * 1)] (BC.adiabatic 1 uA ![1, 0])
    (BC.adiabatic (1 + 3) (boost ![3 * 0, -(3 * 1)] uA) ![1, 0]) := by
  have h := C116_adiabatic_iff (n := ![1, 0]) (u := uA) air (by norm_num [air]) (by simp [uA])
    (by simp [dot]) 1 3 (seen_boost (by simp [uA]) _)
  exact fun c => absurd (h.1 c) (by simp [uA, dot, Gas.vel])

end

end Flux
end FVENS
