import Verif.Par.AtRest
import Verif.FV.Closed

/-!
# Gas at rest beside isothermal walls (C97)

The ghost state of an isothermal wall has the density of the cell and a temperature mirrored at that of the wall, so its pressure is that of the gas only if gas and wall have the
same temperature. Inviscid fluxes through such walls keep gas at rest exactly then.
-/

namespace FVENS
namespace Par

open Msh FV Flux Ode Lin
open Finset (range sum_eq_zero sum_congr mem_range mem_filter)

/-! ### The wall -/

section
variable {G : Gas} {p : ℝ} {u : St} {n : V2}

/-- The ghost state of an isothermal wall at rest, src/spatial/abc.cpp:354-369, beside gas at rest is gas at rest under the pressure `2 ρ Tw / (γ M²) - p`. -/
theorem iso_rest (hg : 1 < G.g) (hM : G.Minf ≠ 0) (hu : AtRest G p u) (tw : ℝ) (n : V2) :
    AtRest G (2 * (u 0 * tw / (G.g * G.Minf * G.Minf)) - p) (BC.isothermal G 0 tw u n) := by
  have q3 : ∀ a b c d : ℝ, (![a, b, c, d] : St) 3 = d := fun _ _ _ _ => rfl
  have h0 := hu.rho.ne'
  have hg1 : G.g - 1 ≠ 0 := by linarith
  have hg0 : G.g ≠ 0 := by linarith
  refine ⟨hu.rho, by simp [BC.isothermal, hu.m1], by simp [BC.isothermal, hu.m2], ?_⟩
  simp only [Gas.pressure, Gas.pressureOfInternal, BC.isothermal, dot, mom, q3, hu.m1, hu.m2, Gas.energyOfT, Gas.temperature]
  simp
  rw [hu.energy]
  field_simp

/-- Its pressure is that of the gas exactly if the gas has the temperature of the wall. -/
theorem iso_pressure_iff (hg : 1 < G.g) (hM : G.Minf ≠ 0) (hu : AtRest G p u) (tw : ℝ) :
    2 * (u 0 * tw / (G.g * G.Minf * G.Minf)) - p = p ↔ G.temperature (u 0) p = tw := by
  have h0 := hu.rho.ne'
  have hg0 : G.g ≠ 0 := by linarith
  unfold Gas.temperature
  constructor <;> intro h
  · field_simp at h ⊢
    linarith
  · rw [← h]
    field_simp
    ring

/-- Gas at rest at the same density under another pressure on the right: the three schemes give the flux of the left pressure only if the pressures are equal. -/
theorem rest_flux_iff {ul ur : St} {q : ℝ} (hg : 1 < G.g) (hp : 0 < p) (hq : 0 < q) (hl : AtRest G p ul) (hr : AtRest G q ur) {s : Scheme} (hs : KeepsContacts s)
    (hc : s = .hllc → 4 ≤ 3 * G.g) (hn : n ≠ 0) : s.flux G ul ur n = pressureFlux n p ↔ q = p := by
  constructor
  swap
  · rintro rfl
    exact C20_contact_preserved (hl.adm hg hp) (hr.adm hg hp) (hl.contact hr _) _ hs
  have vl : Gas.varsVn ul n = 0 := (hl.contact hl n).vl
  have vr : Gas.varsVn ur n = 0 := (hr.contact hr n).vl
  have pl : G.varsP ul = p := (hl.contact hl n).pl
  have pr : G.varsP ur = q := (hr.contact hr n).pl
  have hcomp : n 0 ≠ 0 ∨ n 1 ≠ 0 := by
    by_contra hh
    push Not at hh
    exact hn (by funext i; fin_cases i; exacts [hh.1, hh.2])
  intro h
  rcases hs with rfl | rfl | rfl
  · have e2 : ausmPL 0 p + ausmPR 0 q = (p + q) / 2 := by simp [ausmPL, ausmPR]; ring
    have e1 : ausmML 0 + ausmMR 0 = 0 := by norm_num [ausmML, ausmMR]
    simp only [Scheme.flux, ausm, vl, vr, pl, pr, zero_div, e1, e2] at h
    rcases hcomp with h0 | h0
    · have := congrFun h 1
      simp [ausmCore, pressureFlux, h0] at this
      linarith
    · have := congrFun h 2
      simp [ausmCore, pressureFlux, h0] at this
      linarith
  · have e2 : ausmpPL 0 p + ausmpPR 0 q = (p + q) / 2 := by simp [ausmpPL, ausmpPR]; ring
    have e1 : ausmpML 0 + ausmpMR 0 = 0 := by norm_num [ausmpML, ausmpMR]
    simp only [Scheme.flux, ausmPlus, vl, vr, pl, pr, zero_div, e1, e2] at h
    rcases hcomp with h0 | h0
    · have := congrFun h 1
      simp [ausmpCore, pressureFlux, h0] at this
      linarith
    · have := congrFun h 2
      simp [ausmpCore, pressureFlux, h0] at this
      linarith
  · have al := hl.adm hg hp
    have ar := hr.adm hg hq
    have h1 := sl_lt_vn (ur := ur) (n := n) al
    have h2 := vn_lt_sr (ul := ul) (n := n) ar
    have hd := den_pos (n := n) al ar
    rw [vl] at h1 hd
    rw [vr] at h2 hd
    have w1 := sl_lt_sm (n := n) (hc rfl) al ar
    have w2 := sm_lt_sr (n := n) (hc rfl) al ar
    have hsm : smOf G ul ur n = 0 := by
      have h0 := congrFun h 0
      simp only [Scheme.flux, hllc, hllcCore, vl, vr, pl, pr] at h0
      rw [if_neg (by linarith)] at h0
      split_ifs at h0 with c1 c2
      · simp [Gas.dirFlux, pressureFlux, Flux.star, h1.ne] at h0
        have hne : slOf G ul ur n - smOf G ul ur n ≠ 0 := by linarith
        rw [sub_eq_zero, div_eq_iff hne] at h0
        have := mul_left_cancel₀ al.rho.ne' h0
        linarith
      · simp [Gas.dirFlux, pressureFlux, Flux.star, h2.ne'] at h0
        have hne : srOf G ul ur n - smOf G ul ur n ≠ 0 := by linarith
        rw [sub_eq_zero, div_eq_iff hne] at h0
        have := mul_left_cancel₀ ar.rho.ne' h0
        linarith
      · exact absurd ⟨by by_contra h3; exact c1 ⟨h1.le, by linarith⟩, h2.le⟩ c2
    simp only [smOf, contact, vl, vr, pl, pr] at hsm
    rw [div_eq_zero_iff] at hsm
    rcases hsm with hsm | hsm
    · simp at hsm
      linarith
    · linarith

/-- C97 at isothermal walls: the flux through the wall is the pressure of the gas, so that the wall does not set it moving, exactly if the gas in the cell has the temperature of
the wall. (`hq` says that the ghost state has positive pressure.) -/
theorem C97_isothermal_iff (hg : 1 < G.g) (hM : G.Minf ≠ 0) (hp : 0 < p) (hu : AtRest G p u) {tw : ℝ} (hq : G.temperature (u 0) p < 2 * tw) {s : Scheme} (hs : KeepsContacts s)
    (hc : s = .hllc → 4 ≤ 3 * G.g) (hn : n ≠ 0) :
    s.flux G u (BC.isothermal G 0 tw u n) n = pressureFlux n p ↔ G.temperature (u 0) p = tw := by
  rw [← iso_pressure_iff hg hM hu tw]
  refine rest_flux_iff hg hp ?_ hu (iso_rest hg hM hu tw n) hs hc hn
  have h0 := hu.rho
  have hM2 : 0 < G.g * G.Minf * G.Minf := by
    have := mul_self_pos.2 hM
    nlinarith
  unfold Gas.temperature at hq
  have : p / u 0 * G.g * G.Minf * G.Minf = p * (G.g * G.Minf * G.Minf) / u 0 := by ring
  rw [this, div_lt_iff₀ h0] at hq
  have : p < 2 * (u 0 * tw / (G.g * G.Minf * G.Minf)) := by
    rw [show 2 * (u 0 * tw / (G.g * G.Minf * G.Minf)) = 2 * tw * u 0 / (G.g * G.Minf * G.Minf) by ring, lt_div_iff₀ hM2]
    exact hq
  linarith

end

/-! ### The mesh -/

section
variable {D : Disc} {p : ℝ} {c : St} {u : ℕ → St}

/-- If all faces of a cell but one carry the pressure `p`, the residual of the cell changes by what the flux of that face differs from the pressure. -/
theorem fluxes_but_one (h : D.G.Ok) (hg : 1 < D.gas.g) (hp : 0 < p) (hv : D.viscous = false) {w : St} (hw : AtRest D.gas p w) {u : ℕ → St} {uL uR ug : ℕ → St} {i k : ℕ}
    (hi : i < D.G.m.nelem) (hk : k < D.G.m.nbface) (hl : (D.G.face k).left = i)
    (hf : ∀ j, j < D.G.nface → D.G.touches i j → j ≠ k → D.scheme.flux D.gas (uL j) (uR j) (D.G.nrm j) = pressureFlux (D.G.nrm j) p) (r : ℕ → St) (v : Fin 4) :
    D.fluxes false u 0 uL uR ug r i v = r i v - D.G.len k * (D.scheme.flux D.gas (uL k) (uR k) (D.G.nrm k) v - pressureFlux (D.G.nrm k) p v) := by
  have h1 := fluxes_pressure (p := p) h hv (second := false) (u := u) (g := 0) (uL := fun _ => w) (uR := fun _ => w) (ug := ug)
    (fun j _ => rest_flux_equal hg hp hw D.scheme _) r hi
  have hkf : k < D.G.nface := lt_of_lt_of_le hk (by rw [h.nface_eq]; omega)
  unfold Disc.fluxes at h1 ⊢
  rw [assemble_eq] at h1 ⊢
  have h2 := congrFun h1 v
  have key : ∑ j ∈ range D.G.s.faces.length, contrib D.G.m.nelem (faceAt D.G.s.faces j) (D.faceFlux false u 0 uL uR ug j) i =
      ∑ j ∈ range D.G.s.faces.length, (contrib D.G.m.nelem (faceAt D.G.s.faces j) (D.faceFlux false u 0 (fun _ => w) (fun _ => w) ug j) i +
        if j = k then D.faceFlux false u 0 (fun _ => w) (fun _ => w) ug k - D.faceFlux false u 0 uL uR ug k else 0) := by
    refine sum_congr rfl fun j hj => ?_
    obtain ⟨k1, k2, k3, k4, k5⟩ := h.kind (mem_range.1 hj)
    by_cases e : j = k
    · subst e
      have hr : ¬ ((D.G.face j).right = i ∧ i < D.G.m.nelem) := fun hh => k2 (by rw [hl, hh.1])
      have hl' : (faceAt D.G.s.faces j).left = i := hl
      have hr' : ¬ ((faceAt D.G.s.faces j).right = i ∧ i < D.G.m.nelem) := hr
      simp [contrib, hl', hr']
      abel
    · rw [if_neg e, add_zero]
      by_cases t : D.G.touches i j
      · congr 1
        funext v
        simp [Disc.faceFlux, hv, hf j (mem_range.1 hj) t e, rest_flux_equal hg hp hw]
      · have t1 : ¬ (D.G.face j).left = i := fun hh => t (by simp [Geo.touches, hh])
        have t2 : ¬ (D.G.face j).right = i := fun hh => t (by simp [Geo.touches, hh])
        have t1' : ¬ (faceAt D.G.s.faces j).left = i := t1
        have t2' : ¬ (faceAt D.G.s.faces j).right = i := t2
        simp [contrib, t1', t2']
  rw [key, Finset.sum_add_distrib, Finset.sum_ite_eq' , if_pos (mem_range.2 (show k < D.G.s.faces.length from hkf)), ← add_assoc, h1]
  simp only [Pi.add_apply, Pi.sub_apply, Disc.faceFlux, hv, rest_flux_equal hg hp hw]
  simp
  ring

/-- C97, first order, with isothermal walls at rest among the boundaries: if each cell at such a wall has the temperature of the wall, the residual does not change. -/
theorem C97_isothermal (h : D.G.Ok) (hg : 1 < D.gas.g) (hM : D.gas.Minf ≠ 0) (hp : 0 < p) (hv : D.viscous = false) (hs : KeepsContacts D.scheme)
    (hb : ∀ k, k < D.G.m.nbface → ∃ o, D.bc (D.tag k) = some o ∧
      (StillBc c o ∨ ∃ tw, o = .isothermal 0 tw ∧ D.gas.temperature (u (D.G.face k).left 0) p = tw))
    (hc : AtRest D.gas p c) (hu : ∀ i, i < D.G.rows → AtRest D.gas p (u i)) (r : ℕ → St) :
    ∃ o, D.residual1 u r = some o ∧ ∀ i, i < D.G.m.nelem → o.res i = r i := by
  have hok : D.BcOk := fun k hk => by
    obtain ⟨o, ho, -⟩ := hb k hk
    rw [ho]; rfl
  refine ⟨_, residual1_beyond hok u r, fun i hi => fluxes_pressure (p := p) h hv (fun k hk => ?_) r hi⟩
  have hl := left_rest h hu hk
  have hr : AtRest D.gas p (beyond D u k) := by
    unfold beyond
    split_ifs with hlt
    · obtain ⟨o, ho, hs | ⟨tw, rfl, ht⟩⟩ := hb k hlt
      · unfold Disc.bstate
        rw [ho]
        exact hs.ghost_rest hc hl _
      · unfold Disc.bstate
        rw [ho]
        have := iso_rest hg hM hl tw (D.G.nrm k)
        rw [(iso_pressure_iff hg hM hl tw).2 ht] at this
        exact this
    · exact hu _ ((h.kind hk).2.2.2.2 (by omega))
  exact C20_contact_preserved (hl.adm hg hp) (hr.adm hg hp) (hl.contact hr _) _ hs

/-- Explicit runs of any length then leave the gas unchanged. -/
theorem C97_isothermal_run (h : D.G.Ok) (hg : 1 < D.gas.g) (hM : D.gas.Minf ≠ 0) (hp : 0 < p) (hv : D.viscous = false) (hs : KeepsContacts D.scheme)
    (hb : ∀ k, k < D.G.m.nbface → ∃ o, D.bc (D.tag k) = some o ∧
      (StillBc c o ∨ ∃ tw, o = .isothermal 0 tw ∧ D.gas.temperature (u (D.G.face k).left 0) p = tw))
    (hc : AtRest D.gas p c) (hu : ∀ i, i < D.G.rows → AtRest D.gas p (u i)) (k : Kind) (cf : Conf) (n : ℕ) :
    (∃ s, traj k (single D) cf u n = some s ∧ s.u = u) ∧ hist k (single D) cf u n = some 0 := by
  obtain ⟨o, h1, h2⟩ := C97_isothermal h hg hM hp hv hs hb hc hu 0
  exact C95_stays ⟨o, h1, fun i hi => h2 i hi⟩ k cf n

/-- C97: a cell with one face at an isothermal wall at rest, its other boundary faces being harmless, has zero residual exactly if its gas has the temperature of the wall. -/
theorem C97_isothermal_cell_iff (h : D.G.Ok) (hg : 1 < D.gas.g) (hM : D.gas.Minf ≠ 0) (hp : 0 < p) (hv : D.viscous = false) (hs : KeepsContacts D.scheme)
    (h43 : D.scheme = .hllc → 4 ≤ 3 * D.gas.g) (hok : D.BcOk) {i k : ℕ} {tw : ℝ} (hk : k < D.G.m.nbface) (hki : (D.G.face k).left = i) (hbk : D.bc (D.tag k) = some (.isothermal 0 tw))
    (hb : ∀ j, j < D.G.m.nbface → (D.G.face j).left = i → j ≠ k → ∃ o, D.bc (D.tag j) = some o ∧ StillBc c o)
    (hc : AtRest D.gas p c) (hu : ∀ i, i < D.G.rows → AtRest D.gas p (u i)) (hq : D.gas.temperature (u i 0) p < 2 * tw) :
    (∃ o, D.residual1 u 0 = some o ∧ o.res i = 0) ↔ D.gas.temperature (u i 0) p = tw := by
  have hkf : k < D.G.nface := lt_of_lt_of_le hk (by rw [h.nface_eq]; omega)
  have hi : i < D.G.m.nelem := hki ▸ (h.kind hkf).1
  have hun : AtRest D.gas p (u i) := by have := left_rest h hu hkf; rwa [hki] at this
  have hbe : beyond D u k = BC.isothermal D.gas 0 tw (u i) (D.G.nrm k) := by
    unfold beyond Disc.bstate
    rw [if_pos hk, hbk, hki]
    rfl
  have hlen := Disc.len_pos h hkf
  have hnn : D.G.nrm k ≠ 0 := fun e => by
    have := Disc.nrm_unit h hkf
    simp [e] at this
  rw [← C97_isothermal_iff (n := D.G.nrm k) hg hM hp hun hq hs h43 hnn]
  have key := fun v => fluxes_but_one (p := p) (u := u) (uL := fun k => u (D.G.face k).left) (uR := beyond D u) (ug := beyond D u) h hg hp hv hun hi hk hki
    (fun j hj ht hjk => by
      have hl := left_rest h hu hj
      have hr : AtRest D.gas p (beyond D u j) := by
        unfold beyond
        split_ifs with hlt
        · have hjl : (D.G.face j).left = i := by
            rcases ht with e | e
            · exact e
            · have := (h.kind hj).2.2.1 hlt
              omega
          obtain ⟨o, ho, hs⟩ := hb j hlt hjl hjk
          unfold Disc.bstate
          rw [ho]
          exact hs.ghost_rest hc hl _
        · exact hu _ ((h.kind hj).2.2.2.2 (by omega))
      exact C20_contact_preserved (hl.adm hg hp) (hr.adm hg hp) (hl.contact hr _) _ hs) 0 v
  constructor
  · rintro ⟨o, ho, hz⟩
    rw [residual1_beyond hok] at ho
    cases ho
    funext v
    have h1 := key v
    have h2 := congrFun hz v
    simp only [hbe, hki] at h1
    simp only [Pi.zero_apply] at h1 h2
    rw [h2] at h1
    have : D.G.len k * (D.scheme.flux D.gas (u i) (BC.isothermal D.gas 0 tw (u i) (D.G.nrm k)) (D.G.nrm k) v - pressureFlux (D.G.nrm k) p v) = 0 := by linarith
    rcases mul_eq_zero.1 this with h3 | h3
    · exact absurd h3 hlen.ne'
    · linarith
  · intro he
    refine ⟨_, residual1_beyond hok u 0, ?_⟩
    funext v
    have h1 := key v
    simp only [hbe, hki, he] at h1
    simpa using h1

end

/-! ### Cases -/

/-- Air in the square within isothermal walls. -/
noncomputable def airIso (sch : Scheme) (tw : ℝ) : Settings := ⟨air, sch, false, false, fun _ => some (.isothermal 0 tw)⟩

theorem bump_temp (i : ℕ) : air.temperature (bump i 0) (2 / 5) = if i = 1 then air.temperature 1 (2 / 5) / 2 else air.temperature 1 (2 / 5) := by
  unfold bump
  split_ifs <;> simp [rest, Gas.temperature]
  ring

theorem temp_pos : 0 < air.temperature 1 (2 / 5) := by norm_num [Gas.temperature, air]

/-- C97 refuted for isothermal walls: gas at rest under one pressure, with density 2 in one of the four triangles of the square, within isothermal walls at rest at the temperature of
the other triangles, does not stay at rest with any of the three schemes that keep contacts; uniform gas does. -/
theorem C97_isothermal_refuted : ∃ s, topological FV.Geo.cross = .ok s ∧ ∀ sch, KeepsContacts sch →
    let D := (airIso sch (air.temperature 1 (2 / 5))).disc FV.Geo.cross s 0
    D.G.Ok ∧ D.BcOk ∧ (∀ i, AtRest D.gas (2 / 5) (bump i)) ∧ ¬ IsSteady D bump ∧ IsSteady D fun _ => rest 1 := by
  obtain ⟨s, hs, hf⟩ := FV.Geo.cross_topological
  refine ⟨s, hs, fun sch hsch => ?_⟩
  intro D
  have hok : D.G.Ok := ⟨cross_conforming, FV.Geo.cross_nozero, hs⟩
  have hbc : D.BcOk := fun _ _ => rfl
  have hg : 1 < D.gas.g := by norm_num [D, airIso, Settings.disc, air]
  have hM : D.gas.Minf ≠ 0 := by norm_num [D, airIso, Settings.disc, air]
  refine ⟨hok, hbc, bump_atRest, fun hst => ?_, ?_⟩
  · have hface : ∀ j, j < 4 → (D.G.face j).left = j := fun j hj => by
      show (faceAt s.faces j).left = j
      rcases (by omega : j = 0 ∨ j = 1 ∨ j = 2 ∨ j = 3) with rfl | rfl | rfl | rfl <;> simp [faceAt, hf]
    have hn : D.G.m.nbface = 4 := by show FV.Geo.cross.nbface = 4; decide +kernel
    obtain ⟨o, ho, hz⟩ := hst
    have := (C97_isothermal_cell_iff (D := D) (p := 2 / 5) (c := rest 1) (u := bump) (i := 1) (k := 1) (tw := air.temperature 1 (2 / 5)) hok hg hM (by norm_num) rfl hsch
      (fun _ => by norm_num [D, airIso, Settings.disc, air]) hbc (by omega) (hface 1 (by norm_num)) rfl
      (fun j hj hl hne => absurd (by rw [hface j (by omega)] at hl; exact hl) hne) (rest_atRest one_pos) (fun i _ => bump_atRest i)
      (by show air.temperature _ _ < _; rw [bump_temp]; have := temp_pos; simp; linarith)).1 ⟨o, ho, hz 1 (by show 1 < FV.Geo.cross.nelem; decide +kernel)⟩
    have h2 : air.temperature (bump 1 0) (2 / 5) = air.temperature 1 (2 / 5) := this
    rw [bump_temp] at h2
    have := temp_pos
    simp at h2
    linarith
  · obtain ⟨o, h1, h2⟩ := C97_isothermal (D := D) (p := 2 / 5) (c := rest 1) (u := fun _ => rest 1) hok hg hM (by norm_num) rfl hsch
      (fun k _ => ⟨_, rfl, Or.inr ⟨_, rfl, rfl⟩⟩) (rest_atRest one_pos) (fun i _ => rest_atRest one_pos) 0
    exact ⟨o, h1, fun i hi => h2 i hi⟩

/-- Uniform air within isothermal walls at its temperature stays as it is. -/
example (k : Kind) (cf : Conf) (n : ℕ) : ∃ s, topological FV.Geo.cross = .ok s ∧
    ∃ t, traj k (single ((airIso .ausm (air.temperature 1 (2 / 5))).disc FV.Geo.cross s 0)) cf (fun _ => rest 1) n = some t ∧ t.u = fun _ => rest 1 := by
  obtain ⟨s, hs, -⟩ := FV.Geo.cross_topological
  refine ⟨s, hs, ?_⟩
  have h := C97_isothermal_run (D := (airIso .ausm (air.temperature 1 (2 / 5))).disc FV.Geo.cross s 0) (p := 2 / 5) (c := rest 1) (u := fun _ => rest 1)
    ⟨cross_conforming, FV.Geo.cross_nozero, hs⟩ (by norm_num [airIso, Settings.disc, air]) (by norm_num [airIso, Settings.disc, air]) (by norm_num) rfl (Or.inl rfl)
    (fun k _ => ⟨.isothermal 0 (air.temperature 1 (2 / 5)), rfl, Or.inr ⟨_, rfl, rfl⟩⟩) (rest_atRest one_pos) (fun i _ => rest_atRest one_pos) k cf n
  exact h.1

/-- The flux through an isothermal wall beside air at rest: with the wall twice as warm as the air it is not the pressure of the air. -/
example : Scheme.hllc.flux air (rest 1) (BC.isothermal air 0 (2 * air.temperature 1 (2 / 5)) (rest 1) ![0, 1]) ![0, 1] ≠ pressureFlux ![0, 1] (2 / 5) := by
  have hT := temp_pos
  have := C97_isothermal_iff (G := air) (p := 2 / 5) (n := ![0, 1]) (tw := 2 * air.temperature 1 (2 / 5)) (s := .hllc) (by norm_num [air]) (by norm_num [air]) (by norm_num)
    (rest_atRest one_pos) (by show air.temperature 1 _ < _; linarith) (Or.inr (Or.inr rfl)) (fun _ => by norm_num [air]) (fun e => by have := congrFun e 1; simp at this)
  intro e
  have h : air.temperature 1 (2 / 5) = 2 * air.temperature 1 (2 / 5) := this.1 e
  linarith

end Par
end FVENS
