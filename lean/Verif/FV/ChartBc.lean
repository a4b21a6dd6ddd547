import Verif.FV.ChartVisc

/-!
# Boundary blocks in another chart (C104)
-/

namespace FVENS

open Flux FV FV.Disc BC

namespace Chart
variable (χ : Chart)

/-- Parameters of boundary conditions in the new chart. -/
def obj : BC.Obj → BC.Obj
  | .slip => .slip
  | .farfield ui => .farfield (χ.st ui)
  | .inOut ui => .inOut (χ.st ui)
  | .inflow pt tt => .inflow (χ.a * χ.b ^ 2 * pt) tt
  | .extrapolation => .extrapolation
  | .adiabatic tv => .adiabatic (χ.e * χ.b * tv)
  | .isothermal tv tw => .isothermal (χ.e * χ.b * tv) tw

theorem machN_im {G G' : Gas} (hg : G'.g = G.g) (u : St) (n : V2) : machN G' (χ.st u) (χ.dir n) = machN G u n := by
  unfold machN; rw [χ.mvn_st, χ.soundC_st hg, χ.div_st]

theorem blkIm_rows {κ : ℝ} {A A' : Fin 4 → St} : χ.BlkIm κ A A' ↔ ∀ x, ap (A' 0) (χ.st x) = κ * (χ.a * ap (A 0) x) ∧
    ap (A' 1) (χ.st x) = κ * (χ.a * χ.b * (χ.c * ap (A 1) x - χ.e * χ.s * ap (A 2) x)) ∧
    ap (A' 2) (χ.st x) = κ * (χ.a * χ.b * (χ.s * ap (A 1) x + χ.e * χ.c * ap (A 2) x)) ∧ ap (A' 3) (χ.st x) = κ * (χ.a * χ.b ^ 2 * ap (A 3) x) := by
  refine forall_congr' fun x => ?_
  constructor
  · intro h
    exact ⟨congrFun h 0, congrFun h 1, congrFun h 2, congrFun h 3⟩
  · rintro ⟨h0, h1, h2, h3⟩
    funext i
    fin_cases i
    exacts [h0, h1, h2, h3]

theorem blkIm_id : χ.BlkIm 1 idJac idJac := by
  intro x; funext i
  fin_cases i <;> simp [idJac, Pi.single_apply, st]

theorem blkIm_zero {κ : ℝ} : χ.BlkIm κ (fun _ => 0) (fun _ => 0) := by
  intro x; funext i
  fin_cases i <;> simp [st]

theorem slipJ_im {u : St} (hu : u 0 ≠ 0) (n : V2) : (slipJ (χ.st u) (χ.dir n)).gs = χ.st (slipJ u n).gs ∧ χ.BlkIm 1 (slipJ u n).dgs (slipJ (χ.st u) (χ.dir n)).dgs := by
  have ha := χ.ha.ne'
  have hb := χ.hb.ne'
  have hm := χ.mvn_st u n
  have hx : ∀ (w : St) (n : V2) (z : St), w 0 ≠ 0 → (fun i => ∑ k, (slipJ w n).dgs i k * z k) = ![z 0, z 1 - 2 * n 0 * dot (mom z) n, z 2 - 2 * n 1 * dot (mom z) n, z 3] := fun w n z hw => by
    funext i
    fin_cases i <;> simp [slipJ, Fin.sum_univ_four, dot, mom] <;> field_simp <;> ring
  constructor
  · simp only [slipJ, hm]
    funext i
    fin_cases i <;> simp [st, dir] <;> ring
  · intro z
    rw [hx _ _ _ (mul_ne_zero ha hu), hx _ _ _ hu]
    have hd : dot (mom (χ.st z)) (χ.dir n) = χ.a * χ.b * dot (mom z) n := by rw [χ.mom_st, dot_mul_left, χ.dot_dir]
    rw [hd]
    funext i
    fin_cases i <;> simp [st, dir] <;> ring

theorem inOutJ_im {G G' : Gas} (hg : G'.g = G.g) {u : St} (hu : u 0 ≠ 0) (n : V2) (ui : St) : (inOutJ G' (χ.st ui) (χ.st u) (χ.dir n)).gs = χ.st (inOutJ G ui u n).gs ∧
    χ.BlkIm 1 (inOutJ G ui u n).dgs (inOutJ G' (χ.st ui) (χ.st u) (χ.dir n)).dgs := by
  have ha := χ.ha.ne'
  have hb := χ.hb.ne'
  unfold inOutJ
  simp only [χ.machN_im hg]
  split_ifs
  · exact ⟨rfl, χ.blkIm_zero⟩
  · constructor
    · funext i
      simp only [χ.mm_st, χ.pressure_st hg, Gas.energyOfP, hg]
      fin_cases i
      · rfl
      · rfl
      · rfl
      · simp [st]
        field_simp
    · intro z
      have h := χ.dot_dir (mom u) (mom z)
      simp only [dot, mom, dir_0, dir_1] at h
      simp at h
      funext i
      simp only [χ.mm_st]
      fin_cases i
      · simp [Fin.sum_univ_four, st]
      · simp [Fin.sum_univ_four, st]
      · simp [Fin.sum_univ_four, st]
      · simp [Fin.sum_univ_four, st]
        field_simp
        linear_combination 2 * u 0 * h
  · exact ⟨rfl, χ.blkIm_id⟩

theorem adiabaticJ_im (tv : ℝ) (u : St) (n : V2) : (adiabaticJ (χ.e * χ.b * tv) (χ.st u) (χ.dir n)).gs = χ.st (adiabaticJ tv u n).gs ∧
    χ.BlkIm 1 (adiabaticJ tv u n).dgs (adiabaticJ (χ.e * χ.b * tv) (χ.st u) (χ.dir n)).dgs := by
  have hf := χ.flip
  constructor
  · funext i
    fin_cases i <;> simp [adiabaticJ, st, dir]
    · linear_combination (2 * χ.a * χ.b * tv * u 0 * χ.c * n 1) * hf
    · linear_combination (2 * χ.a * χ.b * tv * u 0 * χ.s * n 1) * hf
  · intro z; funext i
    fin_cases i <;> simp [adiabaticJ, st, dir, Fin.sum_univ_four]
    · linear_combination (2 * χ.a * χ.b * tv * z 0 * χ.c * n 1) * hf
    · linear_combination (2 * χ.a * χ.b * tv * z 0 * χ.s * n 1) * hf

theorem isoRow (H : Gas) (tv tw : ℝ) (w : St) (n : V2) (z : St) (hw : w 0 ≠ 0) : ap ((isothermalJ H tv tw w n).dgs 3) z = tw / (H.g * (H.g - 1) * H.Minf * H.Minf) * z 0 -
      1 / 2 * ((2 * (tv * w 0) * n 1 - w 1) * (2 * (tv * w 0) * n 1 - w 1) + (-2 * (tv * w 0) * n 0 - w 2) * (-2 * (tv * w 0) * n 0 - w 2)) / (w 0 * w 0) * z 0 -
      1 / 2 / w 0 * ((2 * (tv * w 0) * n 1 - w 1) * z 1 + (-2 * (tv * w 0) * n 0 - w 2) * z 2) := by
  unfold isothermalJ
  rw [div_eq_mul_one_div tw]
  simp only [Gas.dEnergyOfT, ap4]
  generalize 1 / (H.g * (H.g - 1) * H.Minf * H.Minf) = k
  simp
  field_simp
  ring

theorem isoRows (H : Gas) (tv tw : ℝ) (w : St) (n : V2) : (isothermalJ H tv tw w n).dgs 0 = (adiabaticJ tv w n).dgs 0 ∧ (isothermalJ H tv tw w n).dgs 1 = (adiabaticJ tv w n).dgs 1 ∧
    (isothermalJ H tv tw w n).dgs 2 = (adiabaticJ tv w n).dgs 2 := by simp [isothermalJ, adiabaticJ]

theorem isothermalJ_im {G G' : Gas} (hG : χ.GasIm G G') (tv tw : ℝ) {u : St} (hu : u 0 ≠ 0) (n : V2) :
    (isothermalJ G' (χ.e * χ.b * tv) tw (χ.st u) (χ.dir n)).gs = χ.st (isothermalJ G tv tw u n).gs ∧
    χ.BlkIm 1 (isothermalJ G tv tw u n).dgs (isothermalJ G' (χ.e * χ.b * tv) tw (χ.st u) (χ.dir n)).dgs := by
  have ha := χ.ha.ne'
  have hb := χ.hb.ne'
  have hf := χ.flip
  obtain ⟨-, ab⟩ := χ.adiabaticJ_im tv u n
  have g1 : 2 * (χ.e * χ.b * tv * χ.st u 0) * χ.dir n 1 - χ.st u 1 = χ.a * χ.b * (χ.c * (2 * (tv * u 0) * n 1 - u 1) - χ.e * χ.s * (-2 * (tv * u 0) * n 0 - u 2)) := by
    rw [st_0, st_1, dir_1]; linear_combination (2 * χ.a * χ.b * tv * u 0 * χ.c * n 1) * hf
  have g2 : -2 * (χ.e * χ.b * tv * χ.st u 0) * χ.dir n 0 - χ.st u 2 = χ.a * χ.b * (χ.s * (2 * (tv * u 0) * n 1 - u 1) + χ.e * χ.c * (-2 * (tv * u 0) * n 0 - u 2)) := by
    rw [st_0, st_2, dir_0]; linear_combination (2 * χ.a * χ.b * tv * u 0 * χ.s * n 1) * hf
  have hq : (χ.a * χ.b * (χ.c * (2 * (tv * u 0) * n 1 - u 1) - χ.e * χ.s * (-2 * (tv * u 0) * n 0 - u 2))) * (χ.a * χ.b * (χ.c * (2 * (tv * u 0) * n 1 - u 1) - χ.e * χ.s * (-2 * (tv * u 0) * n 0 - u 2))) +
      (χ.a * χ.b * (χ.s * (2 * (tv * u 0) * n 1 - u 1) + χ.e * χ.c * (-2 * (tv * u 0) * n 0 - u 2))) * (χ.a * χ.b * (χ.s * (2 * (tv * u 0) * n 1 - u 1) + χ.e * χ.c * (-2 * (tv * u 0) * n 0 - u 2))) =
      χ.a ^ 2 * χ.b ^ 2 * ((2 * (tv * u 0) * n 1 - u 1) * (2 * (tv * u 0) * n 1 - u 1) + (-2 * (tv * u 0) * n 0 - u 2) * (-2 * (tv * u 0) * n 0 - u 2)) := by
    have := χ.dot_dir ![2 * (tv * u 0) * n 1 - u 1, -2 * (tv * u 0) * n 0 - u 2] ![2 * (tv * u 0) * n 1 - u 1, -2 * (tv * u 0) * n 0 - u 2]
    simp only [dot, dir_0, dir_1, Matrix.cons_val_zero, Matrix.cons_val_one] at this
    linear_combination χ.a ^ 2 * χ.b ^ 2 * this
  have hc : 1 / (G.g * (G.g - 1) * G.Minf * G.Minf) * χ.b ^ 2 = 1 / (G.g * (G.g - 1) * G'.Minf * G'.Minf) := by
    rw [← hG.mach, show G.g * (G.g - 1) * (χ.b * G'.Minf) * (χ.b * G'.Minf) = χ.b ^ 2 * (G.g * (G.g - 1) * G'.Minf * G'.Minf) by ring, one_div, mul_inv, one_div]
    field_simp
  have hc' : ∀ x : ℝ, x / (G.g * (G.g - 1) * G'.Minf * G'.Minf) = χ.b ^ 2 * (x / (G.g * (G.g - 1) * G.Minf * G.Minf)) := fun x => by
    rw [div_eq_mul_one_div x, ← hc]; ring
  constructor
  · unfold isothermalJ
    simp only [g1, g2, hq, Gas.energyOfT, hG.g, hc']
    funext i
    fin_cases i
    · simp [st]
    · simp [st]
    · simp [st]
    · simp [st]
      field_simp
  · rw [blkIm_rows] at ab ⊢
    intro z
    obtain ⟨h0, h1, h2, -⟩ := ab z
    rw [(isoRows _ _ _ _ _).1, (isoRows _ _ _ _ _).1, (isoRows _ _ _ _ _).2.1, (isoRows _ _ _ _ _).2.1, (isoRows _ _ _ _ _).2.2, (isoRows _ _ _ _ _).2.2]
    refine ⟨h0, h1, h2, ?_⟩
    · have h := χ.dot_dir ![2 * (tv * u 0) * n 1 - u 1, -2 * (tv * u 0) * n 0 - u 2] (mom z)
      simp only [dot, mom, dir_0, dir_1, Matrix.cons_val_zero, Matrix.cons_val_one] at h
      rw [isoRow _ _ _ _ _ _ (mul_ne_zero ha hu), isoRow _ _ _ _ _ _ hu, g1, g2, hq, hG.g, hc', st_0, st_0, st_1, st_2]
      generalize 2 * (tv * u 0) * n 1 - u 1 = p at *
      generalize -2 * (tv * u 0) * n 0 - u 2 = q at *
      generalize tw / (G.g * (G.g - 1) * G.Minf * G.Minf) = k
      field_simp
      linear_combination (-u 0) * h

/-- C104, boundary conditions: ghost states of the Jacobian routine and their derivatives. -/
theorem C104_ghost {G G' : Gas} (hG : χ.GasIm G G') {o : Obj} {f : St → V2 → GJ} (hf : o.ghostJ G = some f) :
    ∃ f', (χ.obj o).ghostJ G' = some f' ∧ ∀ u n, u 0 ≠ 0 → (f' (χ.st u) (χ.dir n)).gs = χ.st (f u n).gs ∧ χ.BlkIm 1 (f u n).dgs (f' (χ.st u) (χ.dir n)).dgs := by
  cases o with
  | slip => cases hf; exact ⟨_, rfl, fun u n hu => χ.slipJ_im hu n⟩
  | farfield ui => cases hf; exact ⟨_, rfl, fun u n _ => ⟨rfl, χ.blkIm_zero⟩⟩
  | inOut ui => cases hf; exact ⟨_, rfl, fun u n hu => χ.inOutJ_im hG.g hu n ui⟩
  | inflow a b => cases hf
  | extrapolation => cases hf; exact ⟨_, rfl, fun u n _ => ⟨rfl, χ.blkIm_id⟩⟩
  | adiabatic tv => cases hf; exact ⟨_, rfl, fun u n _ => χ.adiabaticJ_im tv u n⟩
  | isothermal tv tw => cases hf; exact ⟨_, rfl, fun u n hu => χ.isothermalJ_im hG tv tw hu n⟩

end Chart
end FVENS
