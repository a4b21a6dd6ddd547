import Verif.Par.AtRestIso
import Verif.Flux.BoostIn

/-!
# Gas at rest beside a subsonic inflow (C97)

`InFlow::computeGhostState`, src/spatial/abc.cpp:152-176. The outgoing Riemann invariant is computed with the factor `1 / (2 γ - 1)` instead of `2 / (γ - 1)`, src/spatial/abc.cpp:157, so that
the ghost state of gas at rest is not at rest.
-/

namespace FVENS
namespace Par

open Msh FV Flux Ode
open Finset (range)

section
variable {G : Gas} {p : ℝ} {u : St} {n : V2}

/-- C97 at subsonic inflows: beside gas at rest the ghost state of the subsonic inflow moves out of the domain, whatever total pressure and temperature are prescribed. -/
theorem C97_inflow_moves (hg : 1 < G.g) (hM : G.Minf ≠ 0) (hp : 0 < p) (hu : AtRest G p u) {pt tt : ℝ} (hpt : 0 < pt) (htt : 0 < tt) (hn : dot n n = 1) :
    0 < cSide G (BC.inflow G pt tt u n) ∧ 0 < Gas.varsVn (BC.inflow G pt tt u n) n := by
  have hg0 : 0 < G.g - 1 := by linarith
  have h2g : 0 < 2 * G.g - 1 := by linarith
  set c := G.soundSpeedC u with hc
  have hcpos : 0 < c := by
    rw [hc]
    unfold Gas.soundSpeedC Gas.soundSpeed
    rw [hu.pr]
    have := hu.rho
    positivity
  have hco : BC.inflowCo2 G u = c * c := by
    unfold BC.inflowCo2
    simp [dot, mom, hu.m1, hu.m2, hc]
  have hR : BC.inflowRminus G u n = -(c / (2 * G.g - 1)) := by
    unfold BC.inflowRminus
    simp [dot, mom, hu.m1, hu.m2, hc]
  set q := BC.inflowRad G u n with hq
  have hqe : q = (G.g + 1) * (2 * G.g - 1) ^ 2 / (G.g - 1) - (G.g - 1) / 2 := by
    rw [hq]
    unfold BC.inflowRad
    rw [hco, hR]
    field_simp
  have hcg : BC.inflowCg G u n = c * ((G.g - 1) * (1 + Real.sqrt q) / ((2 * G.g - 1) * (G.g + 1))) := by
    unfold BC.inflowCg
    rw [hR, ← hq]
    field_simp
  set κ := (G.g - 1) * (1 + Real.sqrt q) / ((2 * G.g - 1) * (G.g + 1)) with hκ
  have hs0 := Real.sqrt_nonneg q
  have hκ0 : 0 < κ := by rw [hκ]; positivity
  have hκ1 : κ < 1 := by
    have hs : Real.sqrt q < 2 * G.g ^ 2 / (G.g - 1) := by
      rw [Real.sqrt_lt' (by positivity), hqe, div_pow, lt_div_iff₀ (by positivity)]
      have e : ((G.g + 1) * (2 * G.g - 1) ^ 2 / (G.g - 1) - (G.g - 1) / 2) * (G.g - 1) ^ 2 = (G.g + 1) * (2 * G.g - 1) ^ 2 * (G.g - 1) - (G.g - 1) ^ 3 / 2 := by
        field_simp
      rw [e]
      have : 0 < (G.g - 1) ^ 3 := by positivity
      nlinarith [sq_nonneg (G.g - 1), mul_pos hg0 hg0]
    rw [hκ, div_lt_one (by positivity)]
    rw [lt_div_iff₀ hg0] at hs
    nlinarith
  have hv : 0 < 2 / (G.g - 1) * (BC.inflowCo2 G u - BC.inflowCg G u n * BC.inflowCg G u n) := by
    rw [hco, hcg]
    have : c * c - c * κ * (c * κ) = c * c * (1 - κ ^ 2) := by ring
    rw [this]
    have : 0 < 1 - κ ^ 2 := by nlinarith
    positivity
  have hd : 0 < BC.inflow G pt tt u n 0 := by
    simp only [BC.inflow, Matrix.cons_val_zero, Gas.densityOfPT]
    rw [hco, hcg]
    have hM2 : 0 < G.Minf * G.Minf := mul_self_pos.2 hM
    rw [mul_assoc G.g]
    positivity
  have hvel : ∀ i, Gas.vel (BC.inflow G pt tt u n) i = Real.sqrt (2 / (G.g - 1) * (BC.inflowCo2 G u - BC.inflowCg G u n * BC.inflowCg G u n)) * n i := fun i => by
    have hd' := hd.ne'
    simp only [BC.inflow, Matrix.cons_val_zero] at hd'
    fin_cases i <;> simp [BC.inflow, Gas.vel, hd']
  have : Gas.varsVn (BC.inflow G pt tt u n) n = Real.sqrt (2 / (G.g - 1) * (BC.inflowCo2 G u - BC.inflowCg G u n * BC.inflowCg G u n)) * dot n n := by
    simp only [Gas.varsVn, dot, hvel]; ring
  rw [this, hn, mul_one]
  refine ⟨?_, Real.sqrt_pos.2 hv⟩
  have hP : G.varsP (BC.inflow G pt tt u n) = pt * (tt * BC.inflowCg G u n * BC.inflowCg G u n / BC.inflowCo2 G u / tt) ^ (G.g / (G.g - 1)) := by
    have hvv : dot (Gas.vel (BC.inflow G pt tt u n)) (Gas.vel (BC.inflow G pt tt u n)) =
        Real.sqrt (2 / (G.g - 1) * (BC.inflowCo2 G u - BC.inflowCg G u n * BC.inflowCg G u n)) *
          Real.sqrt (2 / (G.g - 1) * (BC.inflowCo2 G u - BC.inflowCg G u n * BC.inflowCg G u n)) * dot n n := by
      simp only [dot, hvel]; ring
    rw [hn, mul_one] at hvv
    have q3 : ∀ a b c d : ℝ, (![a, b, c, d] : St) 3 = d := fun _ _ _ _ => rfl
    unfold Gas.varsP
    rw [hvv]
    simp only [BC.inflow, Matrix.cons_val_zero, q3, Gas.energyOfP]
    field_simp
    ring
  unfold cSide Gas.soundSpeed
  rw [hP, hco, hcg]
  positivity

/-- The AUSM mass flux between gas at rest and gas that moves away from it is positive. -/
theorem ausm_leaves (hg : 1 < G.g) (hp : 0 < p) {ul ur : St} (hl : AtRest G p ul) (hr : 0 < cSide G ur ∧ 0 < Gas.varsVn ur n) : 0 < Flux.ausm G ul ur n 0 := by
  have hv : Gas.varsVn ul n = 0 := (hl.contact hl n).vl
  have hP : G.varsP ul = p := (hl.contact hl n).pl
  have hcl : 0 < cSide G ul := by
    unfold cSide Gas.soundSpeed
    rw [hP]
    have := hl.rho
    positivity
  have hM : 0 < Gas.varsVn ur n / cSide G ur := div_pos hr.2 hr.1
  set M := Gas.varsVn ur n / cSide G ur with hMd
  have hMh : 0 < ausmML (Gas.varsVn ul n / cSide G ul) + ausmMR M := by
    rw [hv, zero_div]
    unfold ausmML ausmMR
    rw [abs_of_pos hM]
    split_ifs with h1 h2 h3 h4 h5 h6 <;> simp at * <;> nlinarith
  show 0 < _ / 2 * _ - |_| / 2 * _
  rw [abs_of_pos hMh]
  have := mul_pos hMh (mul_pos hl.rho hcl)
  nlinarith

end

/-! ### The mesh -/

section
variable {D : Disc} {p : ℝ} {c : St} {u : ℕ → St}

/-- C97 fails at subsonic inflows: with AUSM a cell of gas at rest that has one face at such a boundary, its other boundary faces being harmless, loses mass through it, whatever total
pressure and temperature are prescribed. -/
theorem C97_inflow_cell (h : D.G.Ok) (hg : 1 < D.gas.g) (hM : D.gas.Minf ≠ 0) (hp : 0 < p) (hv : D.viscous = false) (hs : D.scheme = .ausm) (hok : D.BcOk) {i k : ℕ} {pt tt : ℝ}
    (hpt : 0 < pt) (htt : 0 < tt) (hk : k < D.G.m.nbface) (hki : (D.G.face k).left = i) (hbk : D.bc (D.tag k) = some (.inflow pt tt))
    (hb : ∀ j, j < D.G.m.nbface → (D.G.face j).left = i → j ≠ k → ∃ o, D.bc (D.tag j) = some o ∧ StillBc c o)
    (hc : AtRest D.gas p c) (hu : ∀ i, i < D.G.rows → AtRest D.gas p (u i)) :
    ∃ o, D.residual1 u 0 = some o ∧ o.res i 0 < 0 := by
  have hkf : k < D.G.nface := lt_of_lt_of_le hk (by rw [h.nface_eq]; omega)
  have hi : i < D.G.m.nelem := hki ▸ (h.kind hkf).1
  have hun : AtRest D.gas p (u i) := by have := left_rest h hu hkf; rwa [hki] at this
  have hbe : beyond D u k = BC.inflow D.gas pt tt (u i) (D.G.nrm k) := by
    unfold beyond Disc.bstate
    rw [if_pos hk, hbk, hki]
    rfl
  have hlen := Disc.len_pos h hkf
  have hks : KeepsContacts D.scheme := Or.inl hs
  have key := fluxes_but_one (p := p) (u := u) (uL := fun k => u (D.G.face k).left) (uR := beyond D u) (ug := beyond D u) h hg hp hv hun hi hk hki
    (fun j hj ht hjk => by
      have hl := left_rest h hu hj
      have hr : AtRest D.gas p (beyond D u j) := by
        unfold beyond
        split_ifs with hlt
        · have hjl : (D.G.face j).left = i := by
            rcases ht with e | e
            · exact e
            · have := (h.kind hj).2.2.1 hlt
              omega
          obtain ⟨o, ho, hs⟩ := hb j hlt hjl hjk
          unfold Disc.bstate
          rw [ho]
          exact hs.ghost_rest hc hl _
        · exact hu _ ((h.kind hj).2.2.2.2 (by omega))
      exact C20_contact_preserved (hl.adm hg hp) (hr.adm hg hp) (hl.contact hr _) _ hks) 0 0
  refine ⟨_, residual1_beyond hok u 0, ?_⟩
  have hm : 0 < Scheme.flux D.gas .ausm (u i) (BC.inflow D.gas pt tt (u i) (D.G.nrm k)) (D.G.nrm k) 0 :=
    ausm_leaves hg hp hun (C97_inflow_moves hg hM hp hun hpt htt (Disc.nrm_unit h hkf))
  simp only
  rw [key, hbe, hki, hs]
  have e : pressureFlux (D.G.nrm k) p 0 = 0 := rfl
  rw [e]
  have := mul_pos hlen hm
  simp only [Pi.zero_apply, sub_zero, zero_sub]
  linarith

end

/-- Air in the square with subsonic inflows on all sides. -/
noncomputable def airIn (pt tt : ℝ) : Settings := ⟨air, .ausm, false, false, fun _ => some (.inflow pt tt)⟩

/-- C97 refuted for subsonic inflows: uniform air at rest in the square does not stay at rest, whatever total pressure and temperature are prescribed, its own among them: all cells lose mass. -/
theorem C97_inflow_refuted {pt tt : ℝ} (hpt : 0 < pt) (htt : 0 < tt) : ∃ s, topological FV.Geo.cross = .ok s ∧
    let D := (airIn pt tt).disc FV.Geo.cross s 0
    D.G.Ok ∧ D.BcOk ∧ AtRest D.gas (2 / 5) (rest 1) ∧ ¬ IsSteady D (fun _ => rest 1) ∧ ∃ o, D.residual1 (fun _ => rest 1) 0 = some o ∧ ∀ i, i < 4 → o.res i 0 < 0 := by
  obtain ⟨s, hs, hf⟩ := FV.Geo.cross_topological
  refine ⟨s, hs, ?_⟩
  intro D
  have hok : D.G.Ok := ⟨cross_conforming, FV.Geo.cross_nozero, hs⟩
  have hbc : D.BcOk := fun _ _ => rfl
  have hg : 1 < D.gas.g := by norm_num [D, airIn, Settings.disc, air]
  have hM : D.gas.Minf ≠ 0 := by norm_num [D, airIn, Settings.disc, air]
  have hface : ∀ j, j < 4 → (D.G.face j).left = j := fun j hj => by
    show (faceAt s.faces j).left = j
    rcases (by omega : j = 0 ∨ j = 1 ∨ j = 2 ∨ j = 3) with rfl | rfl | rfl | rfl <;> simp [faceAt, hf]
  have hn : D.G.m.nbface = 4 := by show FV.Geo.cross.nbface = 4; decide +kernel
  have key : ∀ i, i < 4 → ∃ o, D.residual1 (fun _ => rest 1) 0 = some o ∧ o.res i 0 < 0 := fun i hi =>
    C97_inflow_cell (D := D) (p := 2 / 5) (c := rest 1) (u := fun _ => rest 1) (i := i) (k := i) hok hg hM (by norm_num) rfl rfl hbc hpt htt (by omega) (hface i hi) rfl
      (fun j hj hl hne => absurd (by rw [hface j (by omega)] at hl; exact hl) hne) (rest_atRest one_pos) (fun i _ => rest_atRest one_pos)
  obtain ⟨o, ho, h0⟩ := key 0 (by omega)
  refine ⟨hok, hbc, rest_atRest one_pos, ?_, o, ho, fun i hi => ?_⟩
  · rintro ⟨o', ho', hz⟩
    rw [ho] at ho'
    cases ho'
    have := congrFun (hz 0 (by show 0 < FV.Geo.cross.nelem; decide +kernel)) 0
    rw [this] at h0
    exact lt_irrefl _ h0
  · obtain ⟨o', ho', h1⟩ := key i hi
    rw [ho] at ho'
    cases ho'
    exact h1

end Par
end FVENS
