import Verif.FV.Residual
import Verif.Flux.Rot
import Verif.Par.Explicit

/-!
# Moved, turned and scaled meshes (C94)

A similarity of the plane (turn by an angle with cosine `c` and sine `s`, scaling by `L > 0`, shift by `t`) applied to the mesh, with momenta and far-field states
turned along. The Reynolds number of the code refers to the length unit of the mesh, so that it is divided by `L`.
-/

namespace FVENS

open Flux Msh

/-- Similarity of the plane. -/
structure Similarity where
  c : ℝ
  s : ℝ
  L : ℝ
  t : V2
  unit : c * c + s * s = 1
  pos : 0 < L

namespace Similarity
variable (T : Similarity)

/-- Image of a point. -/
def pt (x : V2) : V2 := fun d => T.L * rotV T.c T.s x d + T.t d
/-- Turned direction. -/
def dir (n : V2) : V2 := rotV T.c T.s n
/-- Turned state, flux or residual. -/
def st (u : St) : St := rotS T.c T.s u
/-- Gradients of turned states in the new coordinates. -/
noncomputable def gr (g : Gr) : Gr :=
  ![fun v => (T.c * T.st (g 0) v - T.s * T.st (g 1) v) / T.L, fun v => (T.s * T.st (g 0) v + T.c * T.st (g 1) v) / T.L]
/-- Boundary conditions with turned states. -/
def obj : BC.Obj → BC.Obj
  | .slip => .slip
  | .farfield ui => .farfield (T.st ui)
  | .inOut ui => .inOut (T.st ui)
  | .inflow a b => .inflow a b
  | .extrapolation => .extrapolation
  | .adiabatic tv => .adiabatic tv
  | .isothermal tv tw => .isothermal tv tw
/-- Image of a mesh. -/
def mesh (m : Mesh) : Mesh := { m with coords := fun i => T.pt (m.coords i) }

end Similarity

namespace Flux
section
variable {c s : ℝ} (h : c * c + s * s = 1)

theorem mom_rot (c s : ℝ) (u : St) : mom (rotS c s u) = rotV c s (mom u) := by
  funext i; fin_cases i <;> simp [mom, rotS, rotV]

include h in
theorem pressure_rot (G : Gas) (u : St) : G.pressure (rotS c s u) = G.pressure u := by
  simp only [Gas.pressure, mom_rot, dot_rot h, rotS_0, rotS_3]

include h in
/-- C19: the turned flux of turned states, without any condition on the states. -/
theorem C19_every_state (G : Gas) (ul ur : St) (n : V2) (k : Scheme) :
    k.flux G (rotS c s ul) (rotS c s ur) (rotV c s n) = rotS c s (k.flux G ul ur n) := by
  cases k
  · have he : ∀ u, G.eulerFlux (rotS c s u) (rotV c s n) = rotS c s (G.eulerFlux u n) := fun u => by
      simp only [Gas.eulerFlux, mom_rot, dot_rot h, rotS_0, rotS_3, dirFlux_rot]
    funext i
    simp only [Scheme.flux, llf, vn_rot h, c_rot h, he]
    fin_cases i <;> simp [rotS] <;> ring
  · exact C19_vanLeer h
  · exact C19_ausm h
  · exact C19_ausmPlus h
  · exact C19_roe h
  · exact C19_hll h
  · exact C19_hllc h

end
end Flux

namespace BC
section
variable {c s : ℝ} (h : c * c + s * s = 1) (G : Gas)

include h in
theorem sound_rot (u : St) : G.soundSpeedC (rotS c s u) = G.soundSpeedC u := by
  simp only [Gas.soundSpeedC, pressure_rot h, rotS_0]

include h in
theorem machN_rot (u : St) (n : V2) : machN G (rotS c s u) (rotV c s n) = machN G u n := by
  simp only [machN, mom_rot, dot_rot h, rotS_0, sound_rot h]

include h in
theorem inflowCg_rot (u : St) (n : V2) : inflowCg G (rotS c s u) (rotV c s n) = inflowCg G u n ∧ inflowCo2 G (rotS c s u) = inflowCo2 G u := by
  have e1 : inflowRminus G (rotS c s u) (rotV c s n) = inflowRminus G u n := by
    simp only [inflowRminus, mom_rot, dot_rot h, rotS_0, sound_rot h]
  have e2 : inflowCo2 G (rotS c s u) = inflowCo2 G u := by
    simp only [inflowCo2, mom_rot, dot_rot h, rotS_0, sound_rot h]
  exact ⟨by simp only [inflowCg, inflowRad, e1, e2], e2⟩

end

/-- C94, boundary conditions: the ghost state of a turned state at a turned face is the turned ghost state. -/
theorem C94_ghost (T : Similarity) (G : Gas) (o : Obj) (u : St) (n : V2) : (T.obj o).ghost G (T.st u) (T.dir n) = T.st (o.ghost G u n) := by
  have h := T.unit
  cases o with
  | slip =>
    simp only [Similarity.obj, Obj.ghost, BC.slip, Similarity.st, Similarity.dir, mom_rot, dot_rot h, rotS_0]
    funext i; fin_cases i <;> simp [rotS, rotV] <;> ring
  | farfield ui => rfl
  | inOut ui =>
    simp only [Similarity.obj, Obj.ghost, inOut, Similarity.st, Similarity.dir, machN_rot h, mom_rot, dot_rot h, rotS_0]
    split_ifs
    · rfl
    · funext i; fin_cases i <;> simp [rotS]
    · rfl
  | inflow a b =>
    obtain ⟨e1, e2⟩ := inflowCg_rot h G u n
    simp only [Similarity.obj, Obj.ghost, inflow, Similarity.st, Similarity.dir, e1, e2]
    funext i; fin_cases i <;> simp [rotS, rotV] <;> ring
  | extrapolation => rfl
  | adiabatic tv =>
    simp only [Similarity.obj, Obj.ghost, adiabatic, Similarity.st, Similarity.dir]
    funext i; fin_cases i <;> simp [rotS, rotV] <;> ring
  | isothermal tv tw =>
    have e : (rotS T.c T.s u 0 * (2 * tv * rotV T.c T.s n 1 - rotS T.c T.s u 1 / rotS T.c T.s u 0)) *
        (rotS T.c T.s u 0 * (2 * tv * rotV T.c T.s n 1 - rotS T.c T.s u 1 / rotS T.c T.s u 0)) +
        (rotS T.c T.s u 0 * (-2 * tv * rotV T.c T.s n 0 - rotS T.c T.s u 2 / rotS T.c T.s u 0)) *
        (rotS T.c T.s u 0 * (-2 * tv * rotV T.c T.s n 0 - rotS T.c T.s u 2 / rotS T.c T.s u 0)) =
        (u 0 * (2 * tv * n 1 - u 1 / u 0)) * (u 0 * (2 * tv * n 1 - u 1 / u 0)) +
        (u 0 * (-2 * tv * n 0 - u 2 / u 0)) * (u 0 * (-2 * tv * n 0 - u 2 / u 0)) := by
      simp only [rotS_0, rotS_1, rotS_2, rotV_0, rotV_1]
      have a1 : (T.c * u 1 - T.s * u 2) / u 0 = T.c * (u 1 / u 0) - T.s * (u 2 / u 0) := by ring
      have a2 : (T.s * u 1 + T.c * u 2) / u 0 = T.s * (u 1 / u 0) + T.c * (u 2 / u 0) := by ring
      rw [a1, a2]
      linear_combination ((u 0 * (2 * tv * n 1 - u 1 / u 0)) ^ 2 + (u 0 * (-2 * tv * n 0 - u 2 / u 0)) ^ 2) * h
    simp only [Similarity.obj, Obj.ghost, isothermal, Similarity.st, Similarity.dir, e, pressure_rot h]
    funext i; fin_cases i <;> simp [rotS, rotV] <;> ring

end BC

namespace Similarity
variable (T : Similarity)

/-! ### Geometry -/

theorem pt_sub (x y : V2) (d : Fin 2) : T.pt x d - T.pt y d = T.L * rotV T.c T.s (fun d => x d - y d) d := by
  fin_cases d <;> simp [pt, rotV] <;> ring

theorem fLen_pt (a b : V2) : fLen (T.pt a) (T.pt b) = T.L * fLen a b := by
  unfold fLen
  rw [pt_sub, pt_sub, rotV_0, rotV_1]
  have : (T.L * (T.s * (b 0 - a 0) + T.c * (b 1 - a 1))) ^ 2 + (-1 * (T.L * (T.c * (b 0 - a 0) - T.s * (b 1 - a 1)))) ^ 2 =
      T.L ^ 2 * ((b 1 - a 1) ^ 2 + (-1 * (b 0 - a 0)) ^ 2) := by
    linear_combination T.L ^ 2 * ((b 1 - a 1) ^ 2 + (-1 * (b 0 - a 0)) ^ 2) * T.unit
  rw [this, Real.sqrt_mul (by positivity), Real.sqrt_sq T.pos.le]

theorem fNrm_pt (a b : V2) : fNrm (T.pt a) (T.pt b) = T.dir (fNrm a b) := by
  have hL := T.pos.ne'
  unfold fNrm
  rw [fLen_pt, pt_sub, pt_sub, rotV_0, rotV_1]
  have e : ∀ x : ℝ, T.L * x / (T.L * fLen a b) = x / fLen a b := fun x => mul_div_mul_left _ _ hL
  funext d; fin_cases d
  · simp only [dir, rotV, Fin.zero_eta, Matrix.cons_val_zero, Matrix.cons_val_one]
    rw [e]; ring
  · simp only [dir, rotV, Fin.mk_one, Matrix.cons_val_zero, Matrix.cons_val_one]
    rw [show -1 * (T.L * (T.c * (b 0 - a 0) - T.s * (b 1 - a 1))) = T.L * (-1 * (T.c * (b 0 - a 0) - T.s * (b 1 - a 1))) by ring, e]; ring

theorem triArea_pt (a b c : V2) : triArea (T.pt a) (T.pt b) (T.pt c) = T.L * T.L * triArea a b c := by
  simp only [triArea, pt, rotV_0, rotV_1]
  linear_combination T.L * T.L * (0.5 * (a 0 * (b 1 - c 1) - a 1 * (b 0 - c 0) + b 0 * c 1 - c 0 * b 1)) * T.unit

theorem fMid_pt (a b : V2) : FV.fMid (T.pt a) (T.pt b) = T.pt (FV.fMid a b) := by
  funext d; fin_cases d <;> simp [FV.fMid, pt, rotV] <;> ring

theorem ghostMid_pt (a b rc : V2) : ghostMid (T.pt a) (T.pt b) (T.pt rc) = T.pt (ghostMid a b rc) := by
  funext d; fin_cases d <;> simp [ghostMid, pt, rotV] <;> ring

theorem area_mesh (m : Mesh) (i : ℕ) : area (T.mesh m) i = (area m i).map fun a => T.L * T.L * a := by
  simp only [area, mesh, triArea_pt]
  split_ifs
  · rfl
  · simp only [Option.map_some]; congr 1; ring
  · rfl

theorem centre_mesh {m : Mesh} {i : ℕ} (hi : m.nnode i ≠ 0) : centre (T.mesh m) i = T.pt (centre m i) := by
  have hn : (m.nnode i : ℝ) ≠ 0 := by exact_mod_cast hi
  have key : ∀ n d, (forLt n 0 fun j s => s + (T.mesh m).coords ((T.mesh m).inpoel i j) d) =
      T.L * rotV T.c T.s (fun d => forLt n 0 fun j s => s + m.coords (m.inpoel i j) d) d + n * T.t d := fun n d => by
    induction n with
    | zero => fin_cases d <;> simp [forLt_zero, rotV]
    | succ n ih =>
      rw [forLt_succ, ih]
      fin_cases d <;> simp [forLt_succ, rotV, mesh, pt] <;> ring
  funext d
  change (forLt (m.nnode i) 0 fun j s => s + (T.mesh m).coords ((T.mesh m).inpoel i j) d) / (m.nnode i : ℝ) = _
  rw [key]
  fin_cases d <;> simp [pt, rotV, centre] <;> field_simp

/-- Connectivity does not depend on coordinates. -/
theorem topological_mesh (m : Mesh) : topological (T.mesh m) = topological m := rfl

end Similarity

namespace FV
open Finset (range)

/-! ### Gas relations and viscous fluxes -/

section visc
variable (T : Similarity) (G : Gas) (re : ℝ)

theorem prim_rot (u : St) : G.primOfCons (T.st u) = T.st (G.primOfCons u) := by
  have := pressure_rot T.unit G u
  funext i; fin_cases i
  · rfl
  · simp [Gas.primOfCons, Similarity.st, rotS]; ring
  · simp [Gas.primOfCons, Similarity.st, rotS]; ring
  · simpa [Gas.primOfCons, Similarity.st] using this

theorem cons_rot (u : St) : G.consOfPrim (T.st u) = T.st (G.consOfPrim u) := by
  have e : G.energyOfPrim (T.st u) = G.energyOfPrim u := by
    simp only [Gas.energyOfPrim, Similarity.st, mom_rot, dot_rot T.unit, rotS_0, rotS_3]
  funext i; fin_cases i
  · rfl
  · simp [Gas.consOfPrim, Similarity.st, rotS]; ring
  · simp [Gas.consOfPrim, Similarity.st, rotS]; ring
  · exact e

theorem state2_rot (b : Bool) (u : St) : state2 G b (T.st u) = T.st (state2 G b u) := by
  have h1 := prim_rot T G u
  have h2 := pressure_rot T.unit G u
  unfold state2
  cases b
  · simp only [Bool.false_eq_true, if_false, Gas.prim2OfCons]
    have : G.pressure (T.st u) = G.pressure u := h2
    rw [this]
    funext i; fin_cases i <;> simp [Similarity.st, rotS] <;> ring
  · simp only [if_true, h1]
    funext i; fin_cases i <;> simp [Similarity.st, rotS]

theorem grad2_rot (u : St) (g : Gr) : grad2 G (T.st u) (T.gr g) = T.gr (grad2 G u g) := by
  have h1 := prim_rot T G u
  funext d v
  unfold grad2
  rw [h1]
  fin_cases d <;> fin_cases v <;> simp [Similarity.gr, Similarity.st, rotS, Gas.gradTemperature] <;> ring

theorem gr_zero : T.gr 0 = 0 := by
  funext d v; fin_cases d <;> fin_cases v <;> simp [Similarity.gr, Similarity.st, rotS]

theorem cdist_pt (x y : V2) : cdist (T.pt x) (T.pt y) = T.L * cdist x y := by
  unfold cdist
  rw [T.pt_sub, T.pt_sub, rotV_0, rotV_1]
  have : (0 + T.L * (T.c * (y 0 - x 0) - T.s * (y 1 - x 1)) * (T.L * (T.c * (y 0 - x 0) - T.s * (y 1 - x 1)))) +
      T.L * (T.s * (y 0 - x 0) + T.c * (y 1 - x 1)) * (T.L * (T.s * (y 0 - x 0) + T.c * (y 1 - x 1))) =
      T.L ^ 2 * ((0 + (y 0 - x 0) * (y 0 - x 0)) + (y 1 - x 1) * (y 1 - x 1)) := by
    linear_combination T.L ^ 2 * ((y 0 - x 0) ^ 2 + (y 1 - x 1) ^ 2) * T.unit
  rw [this, Real.sqrt_mul (by positivity), Real.sqrt_sq T.pos.le]

theorem cdir_pt (x y : V2) : cdir (T.pt x) (T.pt y) = T.dir (cdir x y) := by
  have hL := T.pos.ne'
  funext d
  unfold cdir
  rw [T.pt_sub, cdist_pt, mul_div_mul_left _ _ hL]
  fin_cases d <;> simp [Similarity.dir, rotV] <;> ring

theorem faceGrad_rot (x y : V2) (ul ur : St) (gl gr : Gr) :
    faceGrad (T.pt x) (T.pt y) (T.st ul) (T.st ur) (T.gr gl) (T.gr gr) = T.gr (faceGrad x y ul ur gl gr) := by
  have hL := T.pos.ne'
  have hu := T.unit
  have hi : ∀ a : ℝ, a / (T.L * cdist x y) = a / cdist x y / T.L := fun a => by rw [mul_comm, div_div]
  -- the directional derivative of the average along the line of centres is turned and divided by L
  have hd : ∀ v, dot (fun j => 1 / 2 * (T.gr gl j v + T.gr gr j v)) (T.dir (cdir x y)) =
      T.st (fun v => dot (fun j => 1 / 2 * (gl j v + gr j v)) (cdir x y)) v / T.L := fun v => by
    have e : dot (fun j => 1 / 2 * (T.gr gl j v + T.gr gr j v)) (T.dir (cdir x y)) =
        dot (T.dir (fun j => T.st (fun v => 1 / 2 * (gl j v + gr j v)) v)) (T.dir (cdir x y)) / T.L := by
      simp only [dot, Similarity.dir, rotV_0, rotV_1]
      fin_cases v <;> simp [Similarity.gr, Similarity.st, rotS] <;> ring
    rw [e, Similarity.dir, Similarity.dir, dot_rot hu]
    fin_cases v <;> simp [Similarity.st, rotS, dot] <;> ring
  funext d v
  unfold faceGrad
  simp only [cdist_pt, cdir_pt, hi, hd]
  generalize cdist x y = q
  generalize cdir x y = e
  fin_cases d <;> fin_cases v <;> simp [Similarity.gr, Similarity.st, Similarity.dir, rotS, rotV, dot] <;> ring

/-- The gas with another Reynolds number. -/
def withRe : Gas := { G with Reinf := re }

theorem viscosity_re (hre : re = G.Reinf / T.L) (u : St) :
    (withRe G re).viscosityC (T.st u) = T.L * G.viscosityC u ∧ (withRe G re).constViscosity = T.L * G.constViscosity := by
  have hL := T.pos.ne'
  have hp : (withRe G re).temperatureC (T.st u) = G.temperatureC u := by
    change G.temperature (u 0) (G.pressure (T.st u)) = _
    have := pressure_rot T.unit G u
    change G.temperature (u 0) (G.pressure (rotS T.c T.s u)) = _
    rw [this]; rfl
  constructor
  · unfold Gas.viscosityC
    rw [hp]
    simp only [Gas.viscosityT, withRe, hre]
    rw [div_div_eq_mul_div, mul_comm _ T.L, mul_div_assoc]
  · simp only [Gas.constViscosity, withRe, hre]
    rw [one_div_div, mul_one_div]

theorem viscFlux_rot (hre : re = G.Reinf / T.L) (cv : Bool) (n : V2) (g : Gr) (ul ur : St) :
    viscFlux (withRe G re) cv (T.dir n) (T.gr g) (T.st ul) (T.st ur) = T.st (viscFlux G cv n g ul ur) := by
  have hL := T.pos.ne'
  have hu := T.unit
  have hmu : faceMu (withRe G re) cv (T.st ul) (T.st ur) = T.L * faceMu G cv ul ur := by
    unfold faceMu
    rw [(viscosity_re T G re hre ul).1, (viscosity_re T G re hre ur).1, (viscosity_re T G re hre ul).2]
    split_ifs <;> ring
  have hk : ∀ mu, (withRe G re).conductivity (T.L * mu) = T.L * G.conductivity mu := fun mu => by
    simp only [Gas.conductivity, withRe]; ring
  unfold viscFlux
  simp only [hmu, hk]
  generalize faceMu G cv ul ur = mu
  generalize G.conductivity mu = kd
  -- velocities
  obtain ⟨va, hv⟩ : ∃ va : V2, ∀ j, 1 / 2 * (ul (vix j) / ul 0 + ur (vix j) / ur 0) = va j := ⟨_, fun _ => rfl⟩
  have hva : ∀ j : Fin 2, 1 / 2 * (T.st ul (vix j) / T.st ul 0 + T.st ur (vix j) / T.st ur 0) = T.dir va j := fun j => by
    have h0 := hv 0
    have h1 := hv 1
    fin_cases j <;> simp only [Similarity.st, Similarity.dir, vix, rotS_0, rotS_1, rotS_2, rotV_0, rotV_1, Fin.zero_eta, Fin.mk_one,
      Matrix.cons_val_zero, Matrix.cons_val_one] at h0 h1 ⊢ <;> rw [← h0, ← h1] <;> ring
  simp only [hva, hv]
  -- stresses
  have hs : ∀ i j, stress (T.L * mu) (T.gr g) i j = T.dir (fun a => T.dir (fun b => stress mu g a b) j) i := fun i j => by
    have e1 : T.gr g 0 1 + T.gr g 1 2 = (g 0 1 + g 1 2) / T.L := by
      simp only [Similarity.gr, Similarity.st, Matrix.cons_val_zero, Matrix.cons_val_one, rotS_1, rotS_2]
      rw [← add_div]
      congr 1
      linear_combination (g 0 1 + g 1 2) * hu
    unfold stress
    simp only [e1]
    fin_cases i <;> fin_cases j <;> simp [Similarity.gr, Similarity.st, Similarity.dir, rotS, rotV, vix] <;> field_simp
    · linear_combination (2 * mu * (g 0 1 + g 1 2)) * hu
    · ring
    · ring
    · linear_combination (2 * mu * (g 0 1 + g 1 2)) * hu
  have hg3 : ∀ i : Fin 2, T.L * kd * T.gr g i 3 = T.dir (fun a => kd * g a 3) i := fun i => by
    fin_cases i <;> simp [Similarity.gr, Similarity.st, Similarity.dir, rotV] <;> field_simp
  simp only [hs, hg3]
  generalize (stress mu g) = S
  funext v; fin_cases v
  · simp [Similarity.st, rotS]
  · simp [Similarity.st, Similarity.dir, rotS, rotV]
    linear_combination (-(T.c * (S 0 0 * n 0 + S 0 1 * n 1) - T.s * (S 1 0 * n 0 + S 1 1 * n 1))) * hu
  · simp [Similarity.st, Similarity.dir, rotS, rotV]
    linear_combination (-(T.s * (S 0 0 * n 0 + S 0 1 * n 1) + T.c * (S 1 0 * n 0 + S 1 1 * n 1))) * hu
  · have h2 : ∀ i, (0 + T.dir (fun a => T.dir (fun b => S a b) 0) i * T.dir va 0) + T.dir (fun a => T.dir (fun b => S a b) 1) i * T.dir va 1 =
        T.dir (fun a => S a 0 * va 0 + S a 1 * va 1) i := fun i => by
      fin_cases i <;> simp [Similarity.dir, rotV]
      · linear_combination (T.c * (S 0 0 * va 0 + S 0 1 * va 1) - T.s * (S 1 0 * va 0 + S 1 1 * va 1)) * hu
      · linear_combination (T.s * (S 0 0 * va 0 + S 0 1 * va 1) + T.c * (S 1 0 * va 0 + S 1 1 * va 1)) * hu
    simp only [h2]
    simp [Similarity.st, Similarity.dir, rotS, rotV]
    linear_combination (-((S 0 0 * va 0 + S 0 1 * va 1 + kd * g 0 3) * n 0 + (S 1 0 * va 0 + S 1 1 * va 1 + kd * g 1 3) * n 1)) * hu

/-- C94, viscous flux: with the Reynolds number divided by the scale, the viscous flux of turned states is the turned flux. -/
theorem C94_viscous_flux (hre : re = G.Reinf / T.L) (second cv : Bool) (n x y : V2) (cl cr : St) (gl gr : Gr) (ul ur : St) :
    viscousFlux (withRe G re) second cv (T.dir n) (T.pt x) (T.pt y) (T.st cl) (T.st cr) (T.gr gl) (T.gr gr) (T.st ul) (T.st ur) =
      T.st (viscousFlux G second cv n x y cl cr gl gr ul ur) := by
  have hs : ∀ u, state2 (withRe G re) second u = state2 G second u := fun u => rfl
  have hg : ∀ u g, grad2 (withRe G re) u g = grad2 G u g := fun u g => rfl
  have hz : ∀ g : Gr, ∀ u, (if second = true then grad2 G (T.st u) (T.gr g) else 0) = T.gr (if second = true then grad2 G u g else 0) := fun g u => by
    split_ifs
    · exact grad2_rot T G u g
    · exact (gr_zero T).symm
  unfold viscousFlux
  simp only [hs, hg, hz, state2_rot, faceGrad_rot]
  exact viscFlux_rot T G re hre cv n _ ul ur

end visc

end FV
end FVENS
