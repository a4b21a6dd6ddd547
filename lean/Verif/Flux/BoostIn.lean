import Verif.Flux.Boost
import Verif.BC.Props

/-!
# The subsonic inflow seen from a moving frame (C116)
-/

namespace FVENS
namespace Flux

/-- The ghost state of the subsonic inflow moves along the normal. -/
theorem inflow_vel {G : Gas} {n : V2} {u : St} {pt tt : ℝ} (hd : BC.inflow G pt tt u n 0 ≠ 0) : ∃ a, ∀ i, Gas.vel (BC.inflow G pt tt u n) i = a * n i := by
  refine ⟨Real.sqrt (2 / (G.g - 1) * (BC.inflowCo2 G u - BC.inflowCg G u n * BC.inflowCg G u n)), fun i => ?_⟩
  simp only [BC.inflow, Matrix.cons_val_zero] at hd
  fin_cases i <;> simp [BC.inflow, Gas.vel, hd]

/-- C116 refuted at the subsonic inflow: its ghost state always moves along the normal, so that an observer moving along the face never finds there the ghost state of the first
observer, whatever total pressure and temperature each of them prescribes. -/
theorem C116_inflow_refuted {G : Gas} {w n : V2} {u u' : St} {pt tt pt' tt' : ℝ} (hw : dot w n = 0) (hw0 : w ≠ 0) (hn : dot n n = 1)
    (hd : BC.inflow G pt tt u n 0 ≠ 0) : ¬ Seen G w (BC.inflow G pt tt u n) (BC.inflow G pt' tt' u' n) := by
  intro s
  obtain ⟨a, ha⟩ := inflow_vel hd
  obtain ⟨b, hb⟩ := inflow_vel (G := G) (n := n) (u := u') (pt := pt') (tt := tt') (by rw [s.density]; exact hd)
  have hv := s.velocity
  have e : ∀ i, w i = (b - a) * n i := fun i => by
    have := hv i
    rw [ha, hb] at this
    linarith
  have hz : b - a = 0 := by
    have : dot w n = (b - a) * dot n n := by simp only [dot, e]; ring
    rw [hw, hn] at this
    linarith
  exact hw0 (by funext i; rw [e i, hz]; simp)

/-- Air entering through a face, seen from a frame moving along it. -/
example : ¬ Seen air ![0, 3] (BC.inflow air 1 1 BC.uInfl ![1, 0]) (BC.inflow air 1 1 (boost ![0, 3] BC.uInfl) ![1, 0]) := by
  refine C116_inflow_refuted (by simp [dot]) (fun e => by have := congrFun e 1; simp at this) (by simp [dot]) ?_
  have hg : air.g = 7 / 5 := rfl
  have hM : air.Minf = 1 / 2 := rfl
  simp only [BC.inflow, BC.uInfl_co2, BC.uInfl_cg, Gas.densityOfPT, hg, hM, Matrix.cons_val_zero]
  positivity

end Flux
end FVENS
