import Verif.Flux.Upwind

/-!
# Property C19: fluxes do not depend on the orientation of the coordinate axes
-/

namespace FVENS
namespace Flux
variable {G : Gas} {u ul ur : St} {n : V2}

/-- Plane rotation with cosine `c` and sine `s`. -/
def rotV (c s : ℝ) (n : V2) : V2 := ![c * n 0 - s * n 1, s * n 0 + c * n 1]

/-- Rotation of a state (or of a flux): the momentum components are rotated. -/
def rotS (c s : ℝ) (u : St) : St := ![u 0, c * u 1 - s * u 2, s * u 1 + c * u 2, u 3]

section
variable {c s : ℝ} (h : c * c + s * s = 1)

@[simp] theorem rotS_0 (c s : ℝ) (u : St) : rotS c s u 0 = u 0 := rfl
@[simp] theorem rotS_3 (c s : ℝ) (u : St) : rotS c s u 3 = u 3 := rfl
theorem rotS_1 (c s : ℝ) (u : St) : rotS c s u 1 = c * u 1 - s * u 2 := rfl
theorem rotS_2 (c s : ℝ) (u : St) : rotS c s u 2 = s * u 1 + c * u 2 := rfl
theorem rotV_0 (c s : ℝ) (n : V2) : rotV c s n 0 = c * n 0 - s * n 1 := rfl
theorem rotV_1 (c s : ℝ) (n : V2) : rotV c s n 1 = s * n 0 + c * n 1 := rfl

include h in
theorem dot_rot (a b : V2) : dot (rotV c s a) (rotV c s b) = dot a b := by
  simp only [dot, rotV_0, rotV_1]
  linear_combination (a 0 * b 0 + a 1 * b 1) * h

theorem vel_rot (c s : ℝ) (u : St) : Gas.vel (rotS c s u) = rotV c s (Gas.vel u) := by
  funext i; fin_cases i <;> simp [Gas.vel, rotV, rotS] <;> ring

include h in
theorem vn_rot (u : St) (n : V2) : Gas.varsVn (rotS c s u) (rotV c s n) = Gas.varsVn u n := by
  simp only [Gas.varsVn, vel_rot, dot_rot h]

include h in
theorem v2_rot (u : St) : dot (Gas.vel (rotS c s u)) (Gas.vel (rotS c s u)) = dot (Gas.vel u) (Gas.vel u) := by
  rw [vel_rot, dot_rot h]

include h in
theorem p_rot (u : St) : G.varsP (rotS c s u) = G.varsP u := by
  simp only [Gas.varsP, v2_rot h, rotS_0, rotS_3]

include h in
theorem H_rot (u : St) : G.varsH (rotS c s u) = G.varsH u := by
  simp only [Gas.varsH, p_rot h, rotS_0, rotS_3]

include h in
theorem c_rot (u : St) : cSide G (rotS c s u) = cSide G u := by
  simp only [cSide, p_rot h, rotS_0]

theorem dirFlux_rot (u : St) (n : V2) (vn p : ℝ) :
    Gas.dirFlux (rotS c s u) (rotV c s n) vn p = rotS c s (Gas.dirFlux u n vn p) := by
  funext i; fin_cases i <;> simp [Gas.dirFlux, rotS, rotV] <;> ring

include h in
theorem euler_rot (hu : u 0 ≠ 0) (n : V2) :
    G.eulerFlux (rotS c s u) (rotV c s n) = rotS c s (G.eulerFlux u n) := by
  rw [eulerFlux_eq hu, eulerFlux_eq (u := rotS c s u) hu, vn_rot h, p_rot h, dirFlux_rot]

include h in
theorem roe_rot (ul ur : St) (n : V2) : roeOf G (rotS c s ul) (rotS c s ur) (rotV c s n) =
    { roeOf G ul ur n with v := rotV c s (roeOf G ul ur n).v } := by
  have hv : (![(Real.sqrt (ur 0 / ul 0) * Gas.vel (rotS c s ur) 0 + Gas.vel (rotS c s ul) 0) / (Real.sqrt (ur 0 / ul 0) + 1),
      (Real.sqrt (ur 0 / ul 0) * Gas.vel (rotS c s ur) 1 + Gas.vel (rotS c s ul) 1) / (Real.sqrt (ur 0 / ul 0) + 1)] : V2)
      = rotV c s ![(Real.sqrt (ur 0 / ul 0) * Gas.vel ur 0 + Gas.vel ul 0) / (Real.sqrt (ur 0 / ul 0) + 1),
      (Real.sqrt (ur 0 / ul 0) * Gas.vel ur 1 + Gas.vel ul 1) / (Real.sqrt (ur 0 / ul 0) + 1)] := by
    rw [vel_rot, vel_rot]
    funext i; fin_cases i <;> simp [rotV] <;> ring
  simp only [roeOf, roeAvg, rotS_0, H_rot h, hv, dot_rot h]

theorem C19_llf (hl : ul 0 ≠ 0) (hr : ur 0 ≠ 0) (h : c * c + s * s = 1) :
    llf G (rotS c s ul) (rotS c s ur) (rotV c s n) = rotS c s (llf G ul ur n) := by
  funext i
  simp only [llf, vn_rot h, c_rot h, euler_rot h hl, euler_rot h hr]
  fin_cases i <;> simp [rotS] <;> ring

theorem vlPlus_rot (g : ℝ) (u : St) (n : V2) (vn p cc : ℝ) (h : c * c + s * s = 1) :
    vlPlus g (rotS c s u) (rotV c s n) vn p cc = rotS c s (vlPlus g u n vn p cc) := by
  have hv : (rotS c s u 1 / u 0) ^ 2 + (rotS c s u 2 / u 0) ^ 2 = (u 1 / u 0) ^ 2 + (u 2 / u 0) ^ 2 := by
    rw [rotS_1, rotS_2]
    have e1 : (c * u 1 - s * u 2) / u 0 = c * (u 1 / u 0) - s * (u 2 / u 0) := by ring
    have e2 : (s * u 1 + c * u 2) / u 0 = s * (u 1 / u 0) + c * (u 2 / u 0) := by ring
    rw [e1, e2]
    linear_combination ((u 1 / u 0) ^ 2 + (u 2 / u 0) ^ 2) * h
  simp only [vlPlus, rotS_0, hv, dirFlux_rot]
  split_ifs
  · funext i; fin_cases i <;> simp [rotS]
  · rfl
  · funext i; fin_cases i <;> simp [rotS, rotV] <;> ring

theorem vlMinus_rot (g : ℝ) (u : St) (n : V2) (vn p cc : ℝ) (h : c * c + s * s = 1) :
    vlMinus g (rotS c s u) (rotV c s n) vn p cc = rotS c s (vlMinus g u n vn p cc) := by
  have hv : (rotS c s u 1 / u 0) ^ 2 + (rotS c s u 2 / u 0) ^ 2 = (u 1 / u 0) ^ 2 + (u 2 / u 0) ^ 2 := by
    rw [rotS_1, rotS_2]
    have e1 : (c * u 1 - s * u 2) / u 0 = c * (u 1 / u 0) - s * (u 2 / u 0) := by ring
    have e2 : (s * u 1 + c * u 2) / u 0 = s * (u 1 / u 0) + c * (u 2 / u 0) := by ring
    rw [e1, e2]
    linear_combination ((u 1 / u 0) ^ 2 + (u 2 / u 0) ^ 2) * h
  simp only [vlMinus, rotS_0, hv, dirFlux_rot]
  split_ifs
  · funext i; fin_cases i <;> simp [rotS]
  · rfl
  · funext i; fin_cases i <;> simp [rotS, rotV] <;> ring

theorem C19_vanLeer (h : c * c + s * s = 1) :
    vanLeer G (rotS c s ul) (rotS c s ur) (rotV c s n) = rotS c s (vanLeer G ul ur n) := by
  funext i
  simp only [vanLeer, vn_rot h, c_rot h, p_rot h, vlPlus_rot _ _ _ _ _ _ h, vlMinus_rot _ _ _ _ _ _ h]
  fin_cases i <;> simp [rotS, vanLeer] <;> ring

theorem C19_ausm (h : c * c + s * s = 1) :
    ausm G (rotS c s ul) (rotS c s ur) (rotV c s n) = rotS c s (ausm G ul ur n) := by
  simp only [ausm, vn_rot h, c_rot h, p_rot h]
  funext i
  fin_cases i <;> simp [ausmCore, rotS, rotV] <;> ring

theorem C19_ausmPlus (h : c * c + s * s = 1) :
    ausmPlus G (rotS c s ul) (rotS c s ur) (rotV c s n) = rotS c s (ausmPlus G ul ur n) := by
  have hc : ausmpCOf G (rotS c s ul) (rotS c s ur) (rotV c s n) = ausmpCOf G ul ur n := by
    simp only [ausmpCOf, vn_rot h, c_rot h, v2_rot h]
  simp only [ausmPlus, hc, vn_rot h, p_rot h]
  funext i
  fin_cases i <;> simp [ausmpCore, rotS, rotV] <;> ring

theorem C19_roe (h : c * c + s * s = 1) :
    roe G (rotS c s ul) (rotS c s ur) (rotV c s n) = rotS c s (roe G ul ur n) := by
  have hd := fun (a b : V2) => dot_rot h a b
  simp only [roe, vn_rot h, p_rot h, roe_rot h, dirFlux_rot, vel_rot]
  have hL : ∀ (a : Avg) (w : V2), roeL { a with v := w } = roeL a := fun a w => rfl
  simp only [hL, rotS_0]
  generalize hla : roeLA (roeOf G ul ur n) (roeL (roeOf G ul ur n)) (G.varsP ur - G.varsP ul)
    (Gas.varsVn ur n - Gas.varsVn ul n) (ur 0 - ul 0) = la
  have hla2 : ∀ (a : Avg) (w : V2) (l : St) (x y z : ℝ), roeLA { a with v := w } l x y z = roeLA a l x y z :=
    fun a w l x y z => rfl
  rw [hla2, hla]
  have hdv := hd (roeOf G ul ur n).v ![Gas.vel ur 0 - Gas.vel ul 0, Gas.vel ur 1 - Gas.vel ul 1]
  simp only [dot, rotV] at hdv
  simp at hdv
  funext i
  fin_cases i
  · simp [roeADU, rotS, rotV]
  · simp [roeADU, rotS, rotV]; ring
  · simp [roeADU, rotS, rotV]; ring
  · simp [roeADU, rotS, rotV]
    left; linear_combination hdv

include h in
theorem slsr_rot (ul ur : St) (n : V2) :
    slOf G (rotS c s ul) (rotS c s ur) (rotV c s n) = slOf G ul ur n ∧
    srOf G (rotS c s ul) (rotS c s ur) (rotV c s n) = srOf G ul ur n := by
  simp only [slOf, srOf, waveL, waveR, vn_rot h, c_rot h, roe_rot h]
  exact ⟨trivial, trivial⟩

theorem C19_hll (h : c * c + s * s = 1) :
    hll G (rotS c s ul) (rotS c s ur) (rotV c s n) = rotS c s (hll G ul ur n) := by
  simp only [hll, (slsr_rot h ul ur n).1, (slsr_rot h ul ur n).2, vn_rot h, p_rot h, H_rot h]
  funext i
  fin_cases i <;> simp [hllCore, rotS, rotV] <;> ring

theorem star_rot (u : St) (n : V2) (vn p ss sm : ℝ) :
    star (rotS c s u) (rotV c s n) vn p ss sm = rotS c s (star u n vn p ss sm) := by
  funext i; fin_cases i <;> simp [star, rotS, rotV] <;> ring

theorem C19_hllc (h : c * c + s * s = 1) :
    hllc G (rotS c s ul) (rotS c s ur) (rotV c s n) = rotS c s (hllc G ul ur n) := by
  simp only [hllc, smOf, (slsr_rot h ul ur n).1, (slsr_rot h ul ur n).2, vn_rot h, p_rot h, rotS_0]
  simp only [hllcCore, star_rot, dirFlux_rot]
  split_ifs <;> (try rfl) <;> (funext i; fin_cases i <;> simp [rotS] <;> ring)

/-- C19: rotating both states and the normal rotates the flux, for every scheme. -/
theorem C19_rotation (G : Gas) (ul ur : St) (n : V2) (hl : ul 0 ≠ 0) (hr : ur 0 ≠ 0) (c s : ℝ)
    (h : c * c + s * s = 1) (k : Scheme) :
    k.flux G (rotS c s ul) (rotS c s ur) (rotV c s n) = rotS c s (k.flux G ul ur n) := by
  cases k
  · exact C19_llf hl hr h
  · exact C19_vanLeer h
  · exact C19_ausm h
  · exact C19_ausmPlus h
  · exact C19_roe h
  · exact C19_hll h
  · exact C19_hllc h

/-- Concrete case: the 3-4-5 rotation of two different states. -/
example : (3/5 : ℝ) * (3/5) + 4/5 * (4/5) = 1 ∧ uA 0 ≠ 0 ∧ uB 0 ≠ 0 ∧
    rotS (3/5) (4/5) uB = ![4, -2, 4, 10] := by
  refine ⟨by norm_num, by norm_num [uA], by norm_num [uB], ?_⟩
  funext i; fin_cases i <;> simp [rotS, uB] <;> norm_num

end
end Flux
end FVENS
