import Verif.Flux.Upwind
import Verif.BC.Model

/-!
# Property C100: fluxes and boundary conditions commute with reflections

A reflection of the plane is given by the cosine and sine of twice the angle of its axis. The proofs follow those for rotations (`Flux/Rot`).
-/

namespace FVENS
namespace Flux
variable {G : Gas} {u ul ur : St} {n : V2}

/-- Reflection at the axis whose doubled angle has cosine `c` and sine `s`. -/
def refV (c s : ℝ) (n : V2) : V2 := ![c * n 0 + s * n 1, s * n 0 - c * n 1]

/-- Reflection of a state (or of a flux): the momentum is reflected. -/
def refS (c s : ℝ) (u : St) : St := ![u 0, c * u 1 + s * u 2, s * u 1 - c * u 2, u 3]

section
variable {c s : ℝ} (h : c * c + s * s = 1)

@[simp] theorem refS_0 (c s : ℝ) (u : St) : refS c s u 0 = u 0 := rfl
@[simp] theorem refS_3 (c s : ℝ) (u : St) : refS c s u 3 = u 3 := rfl
theorem refS_1 (c s : ℝ) (u : St) : refS c s u 1 = c * u 1 + s * u 2 := rfl
theorem refS_2 (c s : ℝ) (u : St) : refS c s u 2 = s * u 1 - c * u 2 := rfl
theorem refV_0 (c s : ℝ) (n : V2) : refV c s n 0 = c * n 0 + s * n 1 := rfl
theorem refV_1 (c s : ℝ) (n : V2) : refV c s n 1 = s * n 0 - c * n 1 := rfl

include h in
theorem dot_ref (a b : V2) : dot (refV c s a) (refV c s b) = dot a b := by
  simp only [dot, refV_0, refV_1]
  linear_combination (a 0 * b 0 + a 1 * b 1) * h

theorem vel_ref (c s : ℝ) (u : St) : Gas.vel (refS c s u) = refV c s (Gas.vel u) := by
  funext i; fin_cases i <;> simp [Gas.vel, refV, refS] <;> ring

include h in
theorem vn_ref (u : St) (n : V2) : Gas.varsVn (refS c s u) (refV c s n) = Gas.varsVn u n := by
  simp only [Gas.varsVn, vel_ref, dot_ref h]

include h in
theorem v2_ref (u : St) : dot (Gas.vel (refS c s u)) (Gas.vel (refS c s u)) = dot (Gas.vel u) (Gas.vel u) := by
  rw [vel_ref, dot_ref h]

include h in
theorem p_ref (u : St) : G.varsP (refS c s u) = G.varsP u := by
  simp only [Gas.varsP, v2_ref h, refS_0, refS_3]

include h in
theorem H_ref (u : St) : G.varsH (refS c s u) = G.varsH u := by
  simp only [Gas.varsH, p_ref h, refS_0, refS_3]

include h in
theorem c_ref (u : St) : cSide G (refS c s u) = cSide G u := by
  simp only [cSide, p_ref h, refS_0]

theorem dirFlux_ref (u : St) (n : V2) (vn p : ℝ) :
    Gas.dirFlux (refS c s u) (refV c s n) vn p = refS c s (Gas.dirFlux u n vn p) := by
  funext i; fin_cases i <;> simp [Gas.dirFlux, refS, refV] <;> ring

theorem mom_ref (c s : ℝ) (u : St) : mom (refS c s u) = refV c s (mom u) := by
  funext i; fin_cases i <;> simp [mom, refS, refV]

include h in
theorem pressure_ref (G : Gas) (u : St) : G.pressure (refS c s u) = G.pressure u := by
  simp only [Gas.pressure, mom_ref, dot_ref h, refS_0, refS_3]

include h in
theorem euler_ref (u : St) (n : V2) :
    G.eulerFlux (refS c s u) (refV c s n) = refS c s (G.eulerFlux u n) := by
  simp only [Gas.eulerFlux, mom_ref, dot_ref h, refS_0, refS_3, dirFlux_ref]

include h in
theorem roe_ref (ul ur : St) (n : V2) : roeOf G (refS c s ul) (refS c s ur) (refV c s n) =
    { roeOf G ul ur n with v := refV c s (roeOf G ul ur n).v } := by
  have hv : (![(Real.sqrt (ur 0 / ul 0) * Gas.vel (refS c s ur) 0 + Gas.vel (refS c s ul) 0) / (Real.sqrt (ur 0 / ul 0) + 1),
      (Real.sqrt (ur 0 / ul 0) * Gas.vel (refS c s ur) 1 + Gas.vel (refS c s ul) 1) / (Real.sqrt (ur 0 / ul 0) + 1)] : V2)
      = refV c s ![(Real.sqrt (ur 0 / ul 0) * Gas.vel ur 0 + Gas.vel ul 0) / (Real.sqrt (ur 0 / ul 0) + 1),
      (Real.sqrt (ur 0 / ul 0) * Gas.vel ur 1 + Gas.vel ul 1) / (Real.sqrt (ur 0 / ul 0) + 1)] := by
    rw [vel_ref, vel_ref]
    funext i; fin_cases i <;> simp [refV] <;> ring
  simp only [roeOf, roeAvg, refS_0, H_ref h, hv, dot_ref h]

theorem reflect_llf (h : c * c + s * s = 1) :
    llf G (refS c s ul) (refS c s ur) (refV c s n) = refS c s (llf G ul ur n) := by
  funext i
  simp only [llf, vn_ref h, c_ref h, euler_ref h]
  fin_cases i <;> simp [refS] <;> ring

theorem vlPlus_ref (g : ℝ) (u : St) (n : V2) (vn p cc : ℝ) (h : c * c + s * s = 1) :
    vlPlus g (refS c s u) (refV c s n) vn p cc = refS c s (vlPlus g u n vn p cc) := by
  have hv : (refS c s u 1 / u 0) ^ 2 + (refS c s u 2 / u 0) ^ 2 = (u 1 / u 0) ^ 2 + (u 2 / u 0) ^ 2 := by
    rw [refS_1, refS_2]
    have e1 : (c * u 1 + s * u 2) / u 0 = c * (u 1 / u 0) + s * (u 2 / u 0) := by ring
    have e2 : (s * u 1 - c * u 2) / u 0 = s * (u 1 / u 0) - c * (u 2 / u 0) := by ring
    rw [e1, e2]
    linear_combination ((u 1 / u 0) ^ 2 + (u 2 / u 0) ^ 2) * h
  simp only [vlPlus, refS_0, hv, dirFlux_ref]
  split_ifs
  · funext i; fin_cases i <;> simp [refS]
  · rfl
  · funext i; fin_cases i <;> simp [refS, refV] <;> ring

theorem vlMinus_ref (g : ℝ) (u : St) (n : V2) (vn p cc : ℝ) (h : c * c + s * s = 1) :
    vlMinus g (refS c s u) (refV c s n) vn p cc = refS c s (vlMinus g u n vn p cc) := by
  have hv : (refS c s u 1 / u 0) ^ 2 + (refS c s u 2 / u 0) ^ 2 = (u 1 / u 0) ^ 2 + (u 2 / u 0) ^ 2 := by
    rw [refS_1, refS_2]
    have e1 : (c * u 1 + s * u 2) / u 0 = c * (u 1 / u 0) + s * (u 2 / u 0) := by ring
    have e2 : (s * u 1 - c * u 2) / u 0 = s * (u 1 / u 0) - c * (u 2 / u 0) := by ring
    rw [e1, e2]
    linear_combination ((u 1 / u 0) ^ 2 + (u 2 / u 0) ^ 2) * h
  simp only [vlMinus, refS_0, hv, dirFlux_ref]
  split_ifs
  · funext i; fin_cases i <;> simp [refS]
  · rfl
  · funext i; fin_cases i <;> simp [refS, refV] <;> ring

theorem reflect_vanLeer (h : c * c + s * s = 1) :
    vanLeer G (refS c s ul) (refS c s ur) (refV c s n) = refS c s (vanLeer G ul ur n) := by
  funext i
  simp only [vanLeer, vn_ref h, c_ref h, p_ref h, vlPlus_ref _ _ _ _ _ _ h, vlMinus_ref _ _ _ _ _ _ h]
  fin_cases i <;> simp [refS, vanLeer] <;> ring

theorem reflect_ausm (h : c * c + s * s = 1) :
    ausm G (refS c s ul) (refS c s ur) (refV c s n) = refS c s (ausm G ul ur n) := by
  simp only [ausm, vn_ref h, c_ref h, p_ref h]
  funext i
  fin_cases i <;> simp [ausmCore, refS, refV] <;> ring

theorem reflect_ausmPlus (h : c * c + s * s = 1) :
    ausmPlus G (refS c s ul) (refS c s ur) (refV c s n) = refS c s (ausmPlus G ul ur n) := by
  have hc : ausmpCOf G (refS c s ul) (refS c s ur) (refV c s n) = ausmpCOf G ul ur n := by
    simp only [ausmpCOf, vn_ref h, c_ref h, v2_ref h]
  simp only [ausmPlus, hc, vn_ref h, p_ref h]
  funext i
  fin_cases i <;> simp [ausmpCore, refS, refV] <;> ring

theorem reflect_roe (h : c * c + s * s = 1) :
    roe G (refS c s ul) (refS c s ur) (refV c s n) = refS c s (roe G ul ur n) := by
  have hd := fun (a b : V2) => dot_ref h a b
  simp only [roe, vn_ref h, p_ref h, roe_ref h, dirFlux_ref, vel_ref]
  have hL : ∀ (a : Avg) (w : V2), roeL { a with v := w } = roeL a := fun a w => rfl
  simp only [hL, refS_0]
  generalize hla : roeLA (roeOf G ul ur n) (roeL (roeOf G ul ur n)) (G.varsP ur - G.varsP ul)
    (Gas.varsVn ur n - Gas.varsVn ul n) (ur 0 - ul 0) = la
  have hla2 : ∀ (a : Avg) (w : V2) (l : St) (x y z : ℝ), roeLA { a with v := w } l x y z = roeLA a l x y z :=
    fun a w l x y z => rfl
  rw [hla2, hla]
  have hdv := hd (roeOf G ul ur n).v ![Gas.vel ur 0 - Gas.vel ul 0, Gas.vel ur 1 - Gas.vel ul 1]
  simp only [dot, refV] at hdv
  simp at hdv
  funext i
  fin_cases i
  · simp [roeADU, refS, refV]
  · simp [roeADU, refS, refV]; ring
  · simp [roeADU, refS, refV]; ring
  · simp [roeADU, refS, refV]
    left; linear_combination hdv

include h in
theorem slsr_ref (ul ur : St) (n : V2) :
    slOf G (refS c s ul) (refS c s ur) (refV c s n) = slOf G ul ur n ∧
    srOf G (refS c s ul) (refS c s ur) (refV c s n) = srOf G ul ur n := by
  simp only [slOf, srOf, waveL, waveR, vn_ref h, c_ref h, roe_ref h]
  exact ⟨trivial, trivial⟩

theorem reflect_hll (h : c * c + s * s = 1) :
    hll G (refS c s ul) (refS c s ur) (refV c s n) = refS c s (hll G ul ur n) := by
  simp only [hll, (slsr_ref h ul ur n).1, (slsr_ref h ul ur n).2, vn_ref h, p_ref h, H_ref h]
  funext i
  fin_cases i <;> simp [hllCore, refS, refV] <;> ring

theorem star_ref (u : St) (n : V2) (vn p ss sm : ℝ) :
    star (refS c s u) (refV c s n) vn p ss sm = refS c s (star u n vn p ss sm) := by
  funext i; fin_cases i <;> simp [star, refS, refV] <;> ring

theorem reflect_hllc (h : c * c + s * s = 1) :
    hllc G (refS c s ul) (refS c s ur) (refV c s n) = refS c s (hllc G ul ur n) := by
  simp only [hllc, smOf, (slsr_ref h ul ur n).1, (slsr_ref h ul ur n).2, vn_ref h, p_ref h, refS_0]
  simp only [hllcCore, star_ref, dirFlux_ref]
  split_ifs <;> (try rfl) <;> (funext i; fin_cases i <;> simp [refS] <;> ring)

/-- C100: reflecting both states and the normal reflects the flux, for every scheme. -/
theorem C100_reflection (G : Gas) (ul ur : St) (n : V2) (c s : ℝ)
    (h : c * c + s * s = 1) (k : Scheme) :
    k.flux G (refS c s ul) (refS c s ur) (refV c s n) = refS c s (k.flux G ul ur n) := by
  cases k
  · exact reflect_llf h
  · exact reflect_vanLeer h
  · exact reflect_ausm h
  · exact reflect_ausmPlus h
  · exact reflect_roe h
  · exact reflect_hll h
  · exact reflect_hllc h

/-- Concrete case: reflection at the line `x = 2 y` of two different states. -/
example : (3/5 : ℝ) * (3/5) + 4/5 * (4/5) = 1 ∧ uA ≠ uB ∧
    refS (3/5) (4/5) uB = ![4, 22/5, -4/5, 10] := by
  refine ⟨by norm_num, fun e => by have := congrFun e 0; norm_num [uA, uB] at this, ?_⟩
  funext i; fin_cases i <;> simp [refS, uB] <;> norm_num

end
end Flux

open Flux

/-- Reflection of the plane: linear part and shift. (A shift along the axis makes it a glide reflection.) -/
structure Reflection where
  c : ℝ
  s : ℝ
  t : V2
  unit : c * c + s * s = 1

namespace Reflection
variable (M : Reflection)

/-- Image of a point. -/
def pt (x : V2) : V2 := fun d => refV M.c M.s x d + M.t d
/-- Reflected direction. -/
def dir (n : V2) : V2 := refV M.c M.s n
/-- Reflected state, flux or residual. -/
def st (u : St) : St := refS M.c M.s u
/-- Boundary conditions with reflected states; walls slide the other way round. -/
def obj : BC.Obj → BC.Obj
  | .slip => .slip
  | .farfield ui => .farfield (M.st ui)
  | .inOut ui => .inOut (M.st ui)
  | .inflow a b => .inflow a b
  | .extrapolation => .extrapolation
  | .adiabatic tv => .adiabatic (-tv)
  | .isothermal tv tw => .isothermal (-tv) tw

theorem st_st (u : St) : M.st (M.st u) = u := by
  have h := M.unit
  funext i; fin_cases i
  · rfl
  · simp [st, refS]; linear_combination u 1 * h
  · simp [st, refS]; linear_combination u 2 * h
  · rfl

theorem adm_st {G : Gas} {u : St} (hu : Adm G u) : Adm G (M.st u) := ⟨hu.g1, hu.rho, by unfold st; rw [pressure_ref M.unit]; exact hu.p⟩

end Reflection

namespace BC
section
variable {c s : ℝ} (h : c * c + s * s = 1) (G : Gas)

include h in
theorem sound_ref (u : St) : G.soundSpeedC (refS c s u) = G.soundSpeedC u := by
  simp only [Gas.soundSpeedC, pressure_ref h, refS_0]

include h in
theorem machN_ref (u : St) (n : V2) : machN G (refS c s u) (refV c s n) = machN G u n := by
  simp only [machN, mom_ref, dot_ref h, refS_0, sound_ref h]

include h in
theorem inflowCg_ref (u : St) (n : V2) : inflowCg G (refS c s u) (refV c s n) = inflowCg G u n ∧ inflowCo2 G (refS c s u) = inflowCo2 G u := by
  have e1 : inflowRminus G (refS c s u) (refV c s n) = inflowRminus G u n := by
    simp only [inflowRminus, mom_ref, dot_ref h, refS_0, sound_ref h]
  have e2 : inflowCo2 G (refS c s u) = inflowCo2 G u := by
    simp only [inflowCo2, mom_ref, dot_ref h, refS_0, sound_ref h]
  exact ⟨by simp only [inflowCg, inflowRad, e1, e2], e2⟩

end

/-- C100, boundary conditions: the ghost state of a reflected state at a reflected face is the reflected ghost state. -/
theorem C100_ghost (T : Reflection) (G : Gas) (o : Obj) (u : St) (n : V2) : (T.obj o).ghost G (T.st u) (T.dir n) = T.st (o.ghost G u n) := by
  have h := T.unit
  cases o with
  | slip =>
    simp only [Reflection.obj, Obj.ghost, BC.slip, Reflection.st, Reflection.dir, mom_ref, dot_ref h, refS_0]
    funext i; fin_cases i <;> simp [refS, refV] <;> ring
  | farfield ui => rfl
  | inOut ui =>
    simp only [Reflection.obj, Obj.ghost, inOut, Reflection.st, Reflection.dir, machN_ref h, mom_ref, dot_ref h, refS_0]
    split_ifs
    · rfl
    · funext i; fin_cases i <;> simp [refS]
    · rfl
  | inflow a b =>
    obtain ⟨e1, e2⟩ := inflowCg_ref h G u n
    simp only [Reflection.obj, Obj.ghost, inflow, Reflection.st, Reflection.dir, e1, e2]
    funext i; fin_cases i <;> simp [refS, refV] <;> ring
  | extrapolation => rfl
  | adiabatic tv =>
    simp only [Reflection.obj, Obj.ghost, adiabatic, Reflection.st, Reflection.dir]
    funext i; fin_cases i <;> simp [refS, refV] <;> ring
  | isothermal tv tw =>
    have e : (refS T.c T.s u 0 * (2 * -tv * refV T.c T.s n 1 - refS T.c T.s u 1 / refS T.c T.s u 0)) *
        (refS T.c T.s u 0 * (2 * -tv * refV T.c T.s n 1 - refS T.c T.s u 1 / refS T.c T.s u 0)) +
        (refS T.c T.s u 0 * (-2 * -tv * refV T.c T.s n 0 - refS T.c T.s u 2 / refS T.c T.s u 0)) *
        (refS T.c T.s u 0 * (-2 * -tv * refV T.c T.s n 0 - refS T.c T.s u 2 / refS T.c T.s u 0)) =
        (u 0 * (2 * tv * n 1 - u 1 / u 0)) * (u 0 * (2 * tv * n 1 - u 1 / u 0)) +
        (u 0 * (-2 * tv * n 0 - u 2 / u 0)) * (u 0 * (-2 * tv * n 0 - u 2 / u 0)) := by
      simp only [refS_0, refS_1, refS_2, refV_0, refV_1]
      have a1 : (T.c * u 1 + T.s * u 2) / u 0 = T.c * (u 1 / u 0) + T.s * (u 2 / u 0) := by ring
      have a2 : (T.s * u 1 - T.c * u 2) / u 0 = T.s * (u 1 / u 0) - T.c * (u 2 / u 0) := by ring
      rw [a1, a2]
      linear_combination ((u 0 * (2 * tv * n 1 - u 1 / u 0)) ^ 2 + (u 0 * (-2 * tv * n 0 - u 2 / u 0)) ^ 2) * h
    simp only [Reflection.obj, Obj.ghost, isothermal, Reflection.st, Reflection.dir, e, pressure_ref h]
    funext i; fin_cases i <;> simp [refS, refV] <;> ring

/-- C100: at a face on the axis (its normal is turned round by the reflection) the slip wall's ghost state is the reflected state. -/
theorem C100_slip_ghost (T : Reflection) (G : Gas) {u : St} (hu : u 0 ≠ 0) {n : V2} (h1 : dot n n = 1) (hn : T.dir n = -n) : Obj.slip.ghost G u n = T.st u := by
  have e0 : T.c * n 0 + T.s * n 1 = - n 0 := congrFun hn 0
  have e1 : T.s * n 0 - T.c * n 1 = - n 1 := congrFun hn 1
  simp only [dot] at h1
  have hc : T.c = 1 - 2 * n 0 * n 0 := by linear_combination n 0 * e0 - n 1 * e1 + (1 - T.c) * h1
  have hs : T.s = - 2 * n 0 * n 1 := by linear_combination n 1 * e0 + n 0 * e1 - T.s * h1
  have hc' : T.c = 2 * n 1 * n 1 - 1 := by linear_combination hc - 2 * h1
  simp only [Obj.ghost, BC.slip, Reflection.st, dot, mom]
  funext i; fin_cases i
  · rfl
  · simp [refS]; field_simp; rw [hc, hs]; ring
  · simp [refS]; field_simp; rw [hc', hs]; ring
  · rfl

end BC
end FVENS
