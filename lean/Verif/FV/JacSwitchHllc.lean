import Verif.FV.JacSwitch
import Verif.Flux.HllcSwitch
import Verif.Flux.Mirror

/-!
# Blocks of the residual's derivative at the switch of HLLC (C50)

`compute_residual` (src/spatial/flow_spatial.cpp:636-816) has a derivative with respect to the state of a neighbouring cell exactly where the numerical flux between the two has
one, whatever the flux. With HLLC (src/spatial/anumericalflux.cpp:1176-1228) this decides the mass residual where the contact between two cells stands still.
-/

namespace FVENS
namespace Flux

variable {G : Gas} {ul ur : St} {n : V2}

/-- C18: where the contact stands still, the mass flux of HLLC has a derivative in the right state exactly if the densities on the two sides of the contact agree or the contact speed
has zero derivative in that state. -/
theorem C18_hllc_switch_right_iff (hg : 4 ≤ 3 * G.g) (hn : n 0 * n 0 + n 1 * n 1 = 1) (hl : Adm G ul) (hr : Adm G ur)
    (tl : Gas.varsVn ul n - cSide G ul ≠ (roeOf G ul ur n).vn - (roeOf G ul ur n).c)
    (tr : Gas.varsVn ur n + cSide G ur ≠ (roeOf G ul ur n).vn + (roeOf G ul ur n).c) (sm0 : smOf G ul ur n = 0) (l0 : slOf G ul ur n < 0) (r0 : 0 < srOf G ul ur n) :
    (∃ d, HasGrad (fun v => hllc G ul v n 0) d ur) ↔
      ul 0 * (slOf G ul ur n - Gas.varsVn ul n) / slOf G ul ur n = ur 0 * (srOf G ul ur n - Gas.varsVn ur n) / srOf G ul ur n ∨ HasGrad (fun v => smOf G ul v n) 0 ur := by
  obtain ⟨e1, e2⟩ := slsr_swap hl hr n
  have f := roe_swap hl.rho hr.rho n (G := G)
  have key := C18_hllc_switch_iff (G := G) (ul := ur) (ur := ul) (n := -n) hr hl
    (by rw [varsVn_neg, f]; dsimp only; intro e; exact tr (by linarith))
    (by rw [varsVn_neg, f]; dsimp only; intro e; exact tl (by linarith))
    (by rw [sm_swap hl hr, sm0, neg_zero]) (by rw [e1]; linarith) (by rw [e2]; linarith)
  have hev := hr.eventually
  have k1 : (∃ d, HasGrad (fun v => hllc G v ul (-n) 0) d ur) ↔ ∃ d, HasGrad (fun v => hllc G ul v n 0) d ur := by
    constructor
    · rintro ⟨d, hd⟩
      exact ⟨_, (hd.cmul (-1)).congr_of_eventuallyEq (hev.mono fun v hv => by
        beta_reduce; rw [C16_hllc hg hl hv hn]; ring)⟩
    · rintro ⟨d, hd⟩
      exact ⟨_, (hd.cmul (-1)).congr_of_eventuallyEq (hev.mono fun v hv => by
        beta_reduce; rw [C16_hllc hg hl hv hn]; ring)⟩
  have k2 : HasGrad (fun v => smOf G v ul (-n)) 0 ur ↔ HasGrad (fun v => smOf G ul v n) 0 ur := by
    constructor
    · intro hd
      exact ((hd.cmul (-1)).congr (by funext k; simp)).congr_of_eventuallyEq (hev.mono fun v hv => by
        beta_reduce; rw [sm_swap hl hv]; ring)
    · intro hd
      exact ((hd.cmul (-1)).congr (by funext k; simp)).congr_of_eventuallyEq (hev.mono fun v hv => by
        beta_reduce; rw [sm_swap hl hv]; ring)
  rw [← k1, key, k2]
  have g1 : ur 0 * (slOf G ur ul (-n) - Gas.varsVn ur (-n)) / slOf G ur ul (-n) = ur 0 * (srOf G ul ur n - Gas.varsVn ur n) / srOf G ul ur n := by
    rw [e1, varsVn_neg, show ur 0 * (-srOf G ul ur n - -Gas.varsVn ur n) = -(ur 0 * (srOf G ul ur n - Gas.varsVn ur n)) by ring, neg_div_neg_eq]
  have g2 : ul 0 * (srOf G ur ul (-n) - Gas.varsVn ul (-n)) / srOf G ur ul (-n) = ul 0 * (slOf G ul ur n - Gas.varsVn ul n) / slOf G ul ur n := by
    rw [e2, varsVn_neg, show ul 0 * (-slOf G ul ur n - -Gas.varsVn ul n) = -(ul 0 * (slOf G ul ur n - Gas.varsVn ul n)) by ring, neg_div_neg_eq]
  rw [g1, g2]
  exact or_congr_left eq_comm

/-- C18: where the two states have no velocity through the face and the same pressure, the mass flux of HLLC has a derivative in the right state exactly if the densities agree. -/
theorem C18_hllc_contact_right_iff (hg : 4 ≤ 3 * G.g) (hn : n 0 * n 0 + n 1 * n 1 = 1) (hl : Adm G ul) (hr : Adm G ur)
    (vl : Gas.varsVn ul n = 0) (vr : Gas.varsVn ur n = 0) (hp : G.varsP ul = G.varsP ur)
    (tl : Gas.varsVn ul n - cSide G ul ≠ (roeOf G ul ur n).vn - (roeOf G ul ur n).c)
    (tr : Gas.varsVn ur n + cSide G ur ≠ (roeOf G ul ur n).vn + (roeOf G ul ur n).c) :
    (∃ d, HasGrad (fun v => hllc G ul v n 0) d ur) ↔ ul 0 = ur 0 := by
  have f := roe_swap hl.rho hr.rho n (G := G)
  have key := C18_hllc_contact_iff (G := G) (ul := ur) (ur := ul) (n := -n) hr hl (by rw [varsVn_neg, vr, neg_zero]) (by rw [varsVn_neg, vl, neg_zero]) hp.symm
    (by rw [varsVn_neg, f]; dsimp only; intro e; exact tr (by linarith))
    (by rw [varsVn_neg, f]; dsimp only; intro e; exact tl (by linarith))
  have hev := hr.eventually
  rw [eq_comm, ← key]
  constructor
  · rintro ⟨d, hd⟩
    exact ⟨_, (hd.cmul (-1)).congr_of_eventuallyEq (hev.mono fun v hv => by
      beta_reduce; rw [C16_hllc hg hl hv hn]; ring)⟩
  · rintro ⟨d, hd⟩
    exact ⟨_, (hd.cmul (-1)).congr_of_eventuallyEq (hev.mono fun v hv => by
      beta_reduce; rw [C16_hllc hg hl hv hn]; ring)⟩

/-- Air of density one and air of density four at rest at the same pressure: neither signal speed is at its own switch. -/
theorem still_speeds {n : V2} :
    Gas.varsVn (still 1) n - cSide air (still 1) ≠ (roeOf air (still 1) (still 4) n).vn - (roeOf air (still 1) (still 4) n).c ∧
    Gas.varsVn (still 4) n + cSide air (still 4) ≠ (roeOf air (still 1) (still 4) n).vn + (roeOf air (still 1) (still 4) n).c := by
  have h1 := still_adm (r := 1) one_pos
  have h4 := still_adm (r := 4) (by norm_num)
  have c1 := h1.c_sq
  have c4 := h4.c_sq
  have p1 : ∀ r, air.varsP (still r) = 1 := fun r => by
    simp [Gas.varsP, still, air, dot, Gas.vel]
    norm_num
  rw [p1, show still 1 0 = 1 from rfl] at c1
  rw [p1, show still 4 0 = 4 from rfl] at c4
  have hg : air.g = 7 / 5 := rfl
  rw [hg] at c1 c4
  have hR : (roeOf air (still 1) (still 4) n).R = 2 := by
    simp only [roeOf, roeAvg, show still 1 0 = 1 from rfl, show still 4 0 = 4 from rfl]
    rw [show (4 : ℝ) / 1 = 2 ^ 2 by norm_num, Real.sqrt_sq (by norm_num)]
  have hvn : (roeOf air (still 1) (still 4) n).vn = 0 := by rw [roe_vn, still_vn, still_vn]; simp
  have hcp := roe_c_pos (n := n) h1 h4
  have hc : (roeOf air (still 1) (still 4) n).c * (roeOf air (still 1) (still 4) n).c = 7 / 10 := by
    have a := roe_c_sq (n := n) h1 h4
    have b := roe_c_sq_arg (n := n) h1 h4
    simp only at b
    rw [b, hR] at a
    rw [a]
    simp [still, Gas.vel] at c1 c4 ⊢
    nlinarith
  exact ⟨by rw [still_vn, hvn]; intro e; nlinarith [h1.c_pos], by rw [still_vn, hvn]; intro e; nlinarith [h4.c_pos]⟩

end Flux

namespace FV
namespace Disc

open Finset Flux Msh

variable {D : Disc}

/-- C50: with any flux scheme, equation `v` of the residual of cell `i` has a derivative with respect to the state of a neighbour `j` behind one face exactly if the numerical flux
through that face has one. -/
theorem C50_neighbour_iff (h : D.G.Ok) (hok : D.BcOk) {u : ℕ → St} (r : ℕ → St) {i j k : ℕ}
    (hk : k < D.G.nface) (hb : D.G.m.nbface ≤ k) (hl : (D.G.face k).left = i) (hr : (D.G.face k).right = j)
    (hone : ∀ k', k' < D.G.nface → D.G.m.nbface ≤ k' → k' ≠ k →
      ¬ ((D.G.face k').left = i ∧ (D.G.face k').right = j) ∧ ¬ ((D.G.face k').left = j ∧ (D.G.face k').right = i))
    (hui : D.ViscOk (u i)) (huj : D.ViscOk (u j)) :
    ∃ res : St → ℕ → St, (∀ a, ∃ o, D.residual1 (fun q => if q = j then a else u q) r = some o ∧ o.res = res a) ∧
      ∀ v, (∃ d, HasGrad (fun a => res a i v) d (u j)) ↔ ∃ d, HasGrad (fun a => D.scheme.flux D.gas (u i) a (D.G.nrm k) v) d (u j) := by
  refine ⟨fun a => assemble D.G.m.nelem D.G.s.faces (fluxAt D.G (fun k a => D.flux2 k a (D.bstate k a)) D.flux2 fun q => if q = j then a else u q) r,
    fun a => D.residual1_eq hok _ r, fun v => ?_⟩
  have hlen := (len_pos h hk).ne'
  simp only [assemble_neighbour h u r hk hb hl hr hone]
  obtain ⟨dv, hv⟩ : ∃ d, HasGrad (fun a => if D.viscous then
      viscous1 D.gas D.constVisc (D.G.nrm k) (D.G.xl k) (D.G.xr k) (u i) a v * D.G.len k else 0) d (u j) := by
    by_cases hvis : D.viscous = true
    · have := (viscousJac_correct D.gas D.constVisc (D.G.nrm k) (D.G.xl k) (D.G.xr k) (hui hvis).1 (huj hvis).1 (hui hvis).2 (huj hvis).2 v).2
      simp only [hvis, if_true]
      exact ⟨_, (this.mul (HasGrad.const (D.G.len k)))⟩
    · simp only [hvis]
      exact ⟨_, HasGrad.const 0⟩
  have hflux : ∀ a, D.flux2 k (u i) a v = D.scheme.flux D.gas (u i) a (D.G.nrm k) v * D.G.len k + if D.viscous then
      viscous1 D.gas D.constVisc (D.G.nrm k) (D.G.xl k) (D.G.xr k) (u i) a v * D.G.len k else 0 := fun a => by
    unfold flux2; rfl
  constructor
  · rintro ⟨d, hd⟩
    refine ⟨_, (((((HasGrad.const (assemble D.G.m.nelem D.G.s.faces (fluxAt D.G (fun k a => D.flux2 k a (D.bstate k a)) D.flux2 u) r i v
      + D.flux2 k (u i) (u j) v)).sub hd).sub hv).cmul (1 / D.G.len k))).congr_of_eventuallyEq (Filter.Eventually.of_forall fun a => ?_)⟩
    simp only [Pi.sub_apply, hflux]
    field_simp
    ring
  · rintro ⟨d, hd⟩
    refine ⟨_, ((HasGrad.const (assemble D.G.m.nelem D.G.s.faces (fluxAt D.G (fun k a => D.flux2 k a (D.bstate k a)) D.flux2 u) r i v
      + D.flux2 k (u i) (u j) v)).sub ((hd.mul (HasGrad.const (D.G.len k))).add hv)).congr_of_eventuallyEq (Filter.Eventually.of_forall fun a => ?_)⟩
    simp only [Pi.sub_apply, hflux]
    ring

/-- C50 at the switch of HLLC: where the contact between cells `i` and `j` stands still, both signal speeds away from their own switches, the mass residual of `i` has a derivative with
respect to the state of `j` exactly if the densities on the two sides of the contact agree or the contact speed has zero derivative in that state. -/
theorem C50_hllc_switch_iff (h : D.G.Ok) (hok : D.BcOk) (hs : D.scheme = .hllc) (hg : 4 ≤ 3 * D.gas.g) {u : ℕ → St} (r : ℕ → St) {i j k : ℕ}
    (hk : k < D.G.nface) (hb : D.G.m.nbface ≤ k) (hl : (D.G.face k).left = i) (hr : (D.G.face k).right = j)
    (hone : ∀ k', k' < D.G.nface → D.G.m.nbface ≤ k' → k' ≠ k →
      ¬ ((D.G.face k').left = i ∧ (D.G.face k').right = j) ∧ ¬ ((D.G.face k').left = j ∧ (D.G.face k').right = i))
    (hui : D.ViscOk (u i)) (huj : D.ViscOk (u j)) (hai : Adm D.gas (u i)) (haj : Adm D.gas (u j))
    (tl : Gas.varsVn (u i) (D.G.nrm k) - cSide D.gas (u i) ≠ (roeOf D.gas (u i) (u j) (D.G.nrm k)).vn - (roeOf D.gas (u i) (u j) (D.G.nrm k)).c)
    (tr : Gas.varsVn (u j) (D.G.nrm k) + cSide D.gas (u j) ≠ (roeOf D.gas (u i) (u j) (D.G.nrm k)).vn + (roeOf D.gas (u i) (u j) (D.G.nrm k)).c)
    (sm0 : smOf D.gas (u i) (u j) (D.G.nrm k) = 0) (l0 : slOf D.gas (u i) (u j) (D.G.nrm k) < 0) (r0 : 0 < srOf D.gas (u i) (u j) (D.G.nrm k)) :
    ∃ res : St → ℕ → St, (∀ a, ∃ o, D.residual1 (fun q => if q = j then a else u q) r = some o ∧ o.res = res a) ∧
      ((∃ d, HasGrad (fun a => res a i 0) d (u j)) ↔
        u i 0 * (slOf D.gas (u i) (u j) (D.G.nrm k) - Gas.varsVn (u i) (D.G.nrm k)) / slOf D.gas (u i) (u j) (D.G.nrm k) =
          u j 0 * (srOf D.gas (u i) (u j) (D.G.nrm k) - Gas.varsVn (u j) (D.G.nrm k)) / srOf D.gas (u i) (u j) (D.G.nrm k) ∨
        HasGrad (fun a => smOf D.gas (u i) a (D.G.nrm k)) 0 (u j)) := by
  obtain ⟨res, h1, h2⟩ := C50_neighbour_iff h hok (u := u) r hk hb hl hr hone hui huj
  refine ⟨res, h1, (h2 0).trans ?_⟩
  rw [hs]
  exact C18_hllc_switch_right_iff hg (nrm_unit h hk) hai haj tl tr sm0 l0 r0

/-- The example mesh with outflow everywhere and HLLC, inviscid. -/
noncomputable def exStillHllc : Disc := { exStill with scheme := .hllc }

/-- C50: a stationary contact between the two cells of the example mesh: with HLLC the mass residual of the first cell has no derivative with respect to the state of the second. -/
theorem C50_hllc_switch_refuted :
    ∃ (D : Disc) (u : ℕ → St), D.scheme = .hllc ∧ D.G.Ok ∧ D.BcOk ∧ (∀ i, Adm D.gas (u i)) ∧
      ∃ res : St → ℕ → St, (∀ a, ∃ o, D.residual1 (fun q => if q = 1 then a else u q) (fun _ => 0) = some o ∧ o.res = res a) ∧
        ¬ ∃ d, HasGrad (fun a => res a 0 0) d (u 1) := by
  have hu : ∀ i, Adm air ((fun q => if q = 1 then still 4 else still 1) i) := fun i => by
    by_cases e : i = 1
    · simp only [e, if_true]; exact still_adm (by norm_num)
    · simp only [e, if_false]; exact still_adm one_pos
  have hvis : ∀ w, exStillHllc.ViscOk w := fun w hv => by cases hv
  have p1 : ∀ r, air.varsP (still r) = 1 := fun r => by
    simp [Gas.varsP, still, air, dot, Gas.vel]
    norm_num
  obtain ⟨hn, f0, f1, f2, f3, f4, f5⟩ := exGeo_face
  obtain ⟨res, h1, h2⟩ := C50_neighbour_iff (D := exStillHllc) exGeo_ok (fun _ _ => rfl) (u := fun q => if q = 1 then still 4 else still 1) (fun _ => 0)
    (i := 0) (j := 1) (k := 4) (by show 4 < exGeo.nface; omega) (le_refl 4) (by show (exGeo.face 4).left = 0; rw [f4]) (by show (exGeo.face 4).right = 1; rw [f4])
    (fun k' hk' hb' hne => by
      change k' < exGeo.nface at hk'
      change 4 ≤ k' at hb'
      obtain rfl : k' = 5 := by omega
      change ¬ ((exGeo.face 5).left = 0 ∧ (exGeo.face 5).right = 1) ∧ ¬ ((exGeo.face 5).left = 1 ∧ (exGeo.face 5).right = 0)
      rw [f5]; decide)
    (hvis _) (hvis _)
  refine ⟨exStillHllc, _, rfl, exGeo_ok, fun _ _ => rfl, hu, res, h1, fun hex => ?_⟩
  have hun := nrm_unit (D := exStillHllc) exGeo_ok (k := 4) (show 4 < exGeo.nface by omega)
  have h3 := (h2 0).1 hex
  simp only [if_true, zero_ne_one, if_false] at h3
  have h4 : ∃ d, HasGrad (fun a => hllc air (still 1) a (exGeo.nrm 4) 0) d (still 4) := h3
  have := (C18_hllc_contact_right_iff (by norm_num [air]) hun (still_adm one_pos) (still_adm (by norm_num)) (still_vn _ _) (still_vn _ _)
    (by rw [p1, p1]) still_speeds.1 still_speeds.2).1 h4
  simp [still] at this

/-- The same contact meets the conditions of the equivalence. -/
example : ∃ res : St → ℕ → St, (∀ a, ∃ o, exStillHllc.residual1 (fun q => if q = 1 then a else if q = 1 then still 4 else still 1) (fun _ => 0) = some o ∧ o.res = res a) ∧
    ((∃ d, HasGrad (fun a => res a 0 0) d (still 4)) ↔
      still 1 0 * (slOf air (still 1) (still 4) (exGeo.nrm 4) - Gas.varsVn (still 1) (exGeo.nrm 4)) / slOf air (still 1) (still 4) (exGeo.nrm 4) =
        still 4 0 * (srOf air (still 1) (still 4) (exGeo.nrm 4) - Gas.varsVn (still 4) (exGeo.nrm 4)) / srOf air (still 1) (still 4) (exGeo.nrm 4) ∨
      HasGrad (fun a => smOf air (still 1) a (exGeo.nrm 4)) 0 (still 4)) := by
  have p1 : ∀ r, air.varsP (still r) = 1 := fun r => by
    simp [Gas.varsP, still, air, dot, Gas.vel]
    norm_num
  have hvis : ∀ w, exStillHllc.ViscOk w := fun w hv => by cases hv
  obtain ⟨hn, f0, f1, f2, f3, f4, f5⟩ := exGeo_face
  have s1 := still_adm (r := 1) one_pos
  have s4 := still_adm (r := 4) (by norm_num)
  have l0 : slOf air (still 1) (still 4) (exGeo.nrm 4) < 0 := lt_of_lt_of_eq (sl_lt_vn s1) (still_vn _ _)
  have r0 : 0 < srOf air (still 1) (still 4) (exGeo.nrm 4) := lt_of_eq_of_lt (still_vn _ _).symm (vn_lt_sr s4)
  exact C50_hllc_switch_iff (D := exStillHllc) exGeo_ok (fun _ _ => rfl) rfl (by norm_num [exStillHllc, exStill, exDisc, air]) (u := fun q => if q = 1 then still 4 else still 1) (fun _ => 0)
    (i := 0) (j := 1) (k := 4) (by show 4 < exGeo.nface; omega) (le_refl 4) (by show (exGeo.face 4).left = 0; rw [f4]) (by show (exGeo.face 4).right = 1; rw [f4])
    (fun k' hk' hb' hne => by
      change k' < exGeo.nface at hk'
      change 4 ≤ k' at hb'
      obtain rfl : k' = 5 := by omega
      change ¬ ((exGeo.face 5).left = 0 ∧ (exGeo.face 5).right = 1) ∧ ¬ ((exGeo.face 5).left = 1 ∧ (exGeo.face 5).right = 0)
      rw [f5]; decide)
    (hvis _) (hvis _) s1 s4 still_speeds.1 still_speeds.2
    (by show smOf air (still 1) (still 4) (exGeo.nrm 4) = 0; simp [smOf, contact, still_vn, p1]) l0 r0

end Disc
end FV
end FVENS
