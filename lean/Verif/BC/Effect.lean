import Verif.BC.Props

/-!
# What a configured boundary does to the flow (C14)

`C14_binding` says which object is bound to a tag. Here the configuration is related to the states the object produces.
-/

namespace FVENS
namespace BC

/-- Specification: what a boundary of each kind prescribes for the state `g` outside, given the state `u` inside and the
outward unit normal `n`; `uinf` is the free-stream state, `vals` the configured numbers. -/
def Effect (G : Gas) (uinf : St) (c : Config) (u : St) (n : V2) (g : St) : Prop :=
  match c.kind with
  | .farfield => g = uinf
  | .extrapolation => g = u
  | .slipWall => g 0 = u 0 ∧ g 3 = u 3 ∧ dot (mom g) n = -dot (mom u) n ∧ dot (mom g) ![-n 1, n 0] = dot (mom u) ![-n 1, n 0]
  | .inflowOutflow => (dot (mom u) n ≤ 0 → g = uinf) ∧ (G.soundSpeedC u ≤ dot (mom u) n / u 0 → g = u) ∧
      (0 < dot (mom u) n → dot (mom u) n / u 0 < G.soundSpeedC u →
        g 0 = u 0 ∧ Gas.vel g = Gas.vel u ∧ G.pressure g = 1 / (G.g * G.Minf * G.Minf))
  | .adiabaticWall => g 0 = u 0 ∧ ∃ tv, c.vals[0]? = some tv ∧ ∀ j, (Gas.vel u j + Gas.vel g j) / 2 = wallVel tv n j
  | .isothermalWall => ∃ tv tw, c.vals[0]? = some tv ∧ c.vals[1]? = some tw ∧ (G.temperatureC u + G.temperatureC g) / 2 = tw ∧
      ∀ j, (Gas.vel u j + Gas.vel g j) / 2 = wallVel tv n j
  | .subsonicInflow => dot (mom g) ![-n 1, n 0] = 0 ∧ ∃ pt tt, c.vals[0]? = some pt ∧ c.vals[1]? = some tt ∧
      (0 < pt → 0 < tt → 0 < inflowCo2 G u → inflowCg G u n ≠ 0 → G.pressure g = pt * (G.temperatureC g / tt) ^ (G.g / (G.g - 1)))
  | .periodic => False

theorem inflow_isentropic (G : Gas) (pt tt : ℝ) (u : St) (n : V2) (hn : IsUnit2 n) (hg : 1 < G.g) (hM : 0 < G.Minf) (hpt : 0 < pt)
    (htt : 0 < tt) (hco : 0 < inflowCo2 G u) (hcg : inflowCg G u n ≠ 0) :
    G.pressure (inflow G pt tt u n) = pt * (G.temperatureC (inflow G pt tt u n) / tt) ^ (G.g / (G.g - 1)) := by
  have hg1 : 0 < G.g - 1 := by linarith
  have hg0 : 0 < G.g := by linarith
  have hn' : n 0 * n 0 + n 1 * n 1 = 1 := hn
  set co2 := inflowCo2 G u with hco2
  set cg := inflowCg G u n with hcgd
  have hcg2 : 0 < cg * cg := mul_self_pos.mpr hcg
  have htg : 0 < tt * cg * cg / co2 := by
    have : tt * cg * cg = tt * (cg * cg) := by ring
    rw [this]; positivity
  set tg := tt * cg * cg / co2 with htgd
  set pg := pt * (tg / tt) ^ (G.g / (G.g - 1)) with hpg
  have hpg0 : 0 < pg := by
    have := Real.rpow_pos_of_pos (div_pos htg htt) (G.g / (G.g - 1)); positivity
  have hd : 0 < G.densityOfPT pg tg := by simp only [Gas.densityOfPT]; positivity
  set vm := Real.sqrt (2 / (G.g - 1) * (co2 - cg * cg)) with hvm
  have hghost : inflow G pt tt u n = ![G.densityOfPT pg tg, G.densityOfPT pg tg * (vm * 1 * n 0),
      G.densityOfPT pg tg * (vm * 1 * n 1), G.energyOfP pg (G.densityOfPT pg tg) (vm * vm)] := rfl
  have hpress : G.pressure (inflow G pt tt u n) = pg := by
    rw [hghost]
    simp only [Gas.pressure, Gas.pressureOfInternal, Gas.energyOfP, dot, mom, Matrix.cons_val]
    field_simp
    linear_combination (-(G.densityOfPT pg tg) * vm ^ 2 * (G.g - 1)) * hn'
  have hT : G.temperatureC (inflow G pt tt u n) = tg := by
    simp only [Gas.temperatureC, Gas.temperature, hpress]
    rw [hghost]; simp only [Matrix.cons_val_zero, Gas.densityOfPT]
    field_simp
  rw [hpress, hT]

/-- C14: every boundary of a list of supported configurations with distinct tags gets a condition that prescribes what its
kind and its numbers say. -/
theorem C14_effect (G : Gas) (uinf : St) (cs : List Config) (hd : (cs.map (·.tag)).Nodup) {m : ℤ → Option Obj}
    (h : createFlowBCs uinf cs = .ok m) {c : Config} (hc : c ∈ cs) (hg : 1 < G.g) (hM : 0 < G.Minf) :
    ∃ o, m c.tag = some o ∧ ∀ u n, 0 < u 0 → 0 < G.pressure u → IsUnit2 n → Effect G uinf c u n (o.ghost G u n) := by
  have hs : Supported c := (C14_succeeds_iff uinf cs).1 ⟨m, h⟩ c hc
  have hb := C14_binding_distinct uinf cs m hd h c hc
  rcases c with ⟨t, k, vs⟩
  cases k with
  | slipWall =>
    refine ⟨_, hb, fun u n hr hp hn => ?_⟩
    obtain ⟨h1, h2, h3, h4, -⟩ := C08_slip_mirror G u n hn hr.ne'
    exact ⟨h1, h2, h3, h4⟩
  | farfield => exact ⟨_, hb, fun u n _ _ _ => rfl⟩
  | extrapolation => exact ⟨_, hb, fun u n _ _ _ => rfl⟩
  | inflowOutflow =>
    exact ⟨_, hb, fun u n hr hp _ => ⟨C12_inflow G uinf u n hr, C12_supersonic_outflow G uinf u n (by linarith) hr hp,
      C12_subsonic_outflow G uinf u n hg hr hp⟩⟩
  | periodic => exact absurd hs (by simp [Supported])
  | adiabaticWall =>
    rcases vs with _ | ⟨a, vs⟩
    · simp [Supported] at hs
    · refine ⟨.adiabatic a, by simpa [specObj] using hb, fun u n hr hp hn => ?_⟩
      exact ⟨(C11_adiabatic_velocity a u n hr.ne' 0).2, a, rfl, fun j => (C11_adiabatic_velocity a u n hr.ne' j).1⟩
  | isothermalWall =>
    rcases vs with _ | ⟨a, _ | ⟨b, vs⟩⟩
    · simp [Supported] at hs
    · simp [Supported] at hs
    · refine ⟨.isothermal a b, by simpa [specObj] using hb, fun u n hr hp hn => ?_⟩
      obtain ⟨h1, h2⟩ := C11_isothermal G a b u n hr.ne' hg hM.ne'
      exact ⟨a, b, rfl, rfl, h2, h1⟩
  | subsonicInflow =>
    rcases vs with _ | ⟨a, _ | ⟨b, vs⟩⟩
    · simp [Supported] at hs
    · simp [Supported] at hs
    · refine ⟨.inflow a b, by simpa [specObj] using hb, fun u n hr hp hn => ?_⟩
      refine ⟨?_, a, b, rfl, rfl, fun h1 h2 h3 h4 => inflow_isentropic G a b u n hn hg hM h1 h2 h3 h4⟩
      simp only [Obj.ghost, inflow, dot, mom, Matrix.cons_val]
      ring

/-- A slip wall, an isothermal wall with twice the free-stream temperature and a characteristic boundary. -/
example : ∃ m : ℤ → Option Obj,
    createFlowBCs (air.freestream 0) [⟨2, .slipWall, []⟩, ⟨4, .isothermalWall, [0, 2]⟩, ⟨5, .inflowOutflow, []⟩] = .ok m ∧
    ([⟨2, .slipWall, []⟩, ⟨4, .isothermalWall, [0, 2]⟩, ⟨5, .inflowOutflow, []⟩].map Config.tag).Nodup ∧
    ∃ o, m 4 = some o ∧ ∀ u n, 0 < u 0 → 0 < air.pressure u → IsUnit2 n →
      (air.temperatureC u + air.temperatureC (o.ghost air u n)) / 2 = 2 := by
  obtain ⟨m, hm⟩ := (C14_succeeds_iff (air.freestream 0) [⟨2, .slipWall, []⟩, ⟨4, .isothermalWall, [0, 2]⟩, ⟨5, .inflowOutflow, []⟩]).2
    (by simp [Supported])
  have hd : ([⟨2, .slipWall, []⟩, ⟨4, .isothermalWall, [0, 2]⟩, ⟨5, .inflowOutflow, []⟩].map Config.tag).Nodup := by simp
  refine ⟨m, hm, hd, ?_⟩
  obtain ⟨o, ho, he⟩ := C14_effect air (air.freestream 0) _ hd hm (c := ⟨4, .isothermalWall, [0, 2]⟩) (by simp)
    (by norm_num [air]) (by norm_num [air])
  refine ⟨o, ho, fun u n hr hp hn => ?_⟩
  obtain ⟨tv, tw, -, e, h2, -⟩ := he u n hr hp hn
  simp only [List.getElem?_cons_succ, List.getElem?_cons_zero, Option.some.injEq] at e
  rw [h2, ← e]

end BC
end FVENS
