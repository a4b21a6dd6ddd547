import Verif.Flux.AusmKink
import Verif.FV.JacBoundary
import Verif.FV.Closed

/-!
# Blocks of the residual's derivative at the switch of AUSM (C50)

With AUSM, `compute_residual` (src/spatial/flow_spatial.cpp:636-816) has a derivative with respect to the
state of a neighbouring cell exactly where the flux between them has one, so that at stationary contacts no
matrix assembled by `assemble_jacobian` could be right.
-/

namespace FVENS
namespace Flux

variable {G : Gas} {ul ur : St} {n : V2}

theorem ausmDMR_ne {M : ℝ} {dm : St} (h : M < 1) (hd : dm ≠ 0) : ausmDMR M dm ≠ 0 := by
  intro e
  refine hd (funext fun k => ?_)
  have := congrFun e k
  simp only [ausmDMR, Pi.zero_apply] at this ⊢
  split_ifs at this with h1 h2
  · exact (mul_eq_zero.1 this).resolve_left (by linarith)
  · exact this
  · exact absurd (abs_le.2 ⟨by linarith, h.le⟩) h1

/-- C18: the same in the right state. -/
theorem C18_ausm_switch_row_right (hr : Adm G ur) (hn : n ≠ 0)
    (h0 : ausmML (Gas.varsVn ul n / cSide G ul) + ausmMR (Gas.varsVn ur n / cSide G ur) = 0) (i : Fin 4) :
    (∃ d, HasGrad (fun v => ausm G ul v n i) d ur) ↔
      1 ≤ Gas.varsVn ur n / cSide G ur ∨ load G ul i = load G ur i := by
  refine ⟨?_, fun h => ⟨_, ausm_right_switch hr h0 i h⟩⟩
  have hm := hasGrad_mach hr n
  have hp := hasGrad_varsP (G := G) hr.rho'
  have hM := (HasGrad.const (u := ur) (ausmML (Gas.varsVn ul n / cSide G ul))).add (hasGrad_ausmMR hm)
  have hP := (HasGrad.const (u := ur) (ausmPL (Gas.varsVn ul n / cSide G ul) (G.varsP ul))).add (hasGrad_ausmPR hm hp)
  have hC := hasGrad_load hr i
  have hS := ((hM.mul ((HasGrad.const (load G ul i)).add hC)).cmul (1 / 2)).add (hP.mul (HasGrad.const ((![0, n 0, n 1, 0] : St) i)))
  have hD := hC.sub (HasGrad.const (u := ur) (load G ul i))
  have hrow : (fun v => ausm G ul v n i) = fun v => _ := funext fun v => ausm_row ul v n i
  rintro ⟨d, hd⟩
  by_contra hno
  rw [not_or, not_le] at hno
  rw [hrow] at hd
  have hk' : HasGrad (fun v => |ausmML (Gas.varsVn ul n / cSide G ul) + ausmMR (Gas.varsVn v n / cSide G v)| * (load G v i - load G ul i)) _ ur :=
    ((hS.sub hd).cmul 2).congr_of_eventuallyEq (Filter.Eventually.of_forall fun v => by simp only; ring)
  have := (abs_mul_grad_iff hM h0 (by
    have := ausmDMR_ne hno.1 (ausmDM_ne hr hn)
    intro e; exact this (by rw [← e]; funext k; simp)) hD).1 ⟨_, hk'⟩
  exact hno.2 (by linarith)

end Flux

namespace FV
namespace Disc

open Finset Flux Msh

variable {D : Disc}

/-- The residual of a cell as a function of the state of a neighbour with which it shares one face: a
constant minus the flux through that face. -/
theorem assemble_neighbour (h : D.G.Ok) (u r : ℕ → St) {i j k : ℕ} (hk : k < D.G.nface) (hb : D.G.m.nbface ≤ k)
    (hl : (D.G.face k).left = i) (hr : (D.G.face k).right = j)
    (hone : ∀ k', k' < D.G.nface → D.G.m.nbface ≤ k' → k' ≠ k →
      ¬ ((D.G.face k').left = i ∧ (D.G.face k').right = j) ∧ ¬ ((D.G.face k').left = j ∧ (D.G.face k').right = i)) (a : St) :
    assemble D.G.m.nelem D.G.s.faces (fluxAt D.G (fun k a => D.flux2 k a (D.bstate k a)) D.flux2 fun q => if q = j then a else u q) r i =
      assemble D.G.m.nelem D.G.s.faces (fluxAt D.G (fun k a => D.flux2 k a (D.bstate k a)) D.flux2 u) r i
        - (D.flux2 k (u i) a - D.flux2 k (u i) (u j)) := by
  obtain ⟨a1, a2, -, -, -⟩ := h.kind hk
  have hij : i ≠ j := by rw [← hl, ← hr]; exact a2
  have hi : i < D.G.m.nelem := hl ▸ a1
  rw [assemble_eq, assemble_eq, add_sub_assoc]
  congr 1
  have hd : ∀ k' ∈ range D.G.s.faces.length,
      contrib D.G.m.nelem (faceAt D.G.s.faces k') (fluxAt D.G (fun k a => D.flux2 k a (D.bstate k a)) D.flux2 (fun q => if q = j then a else u q) k') i =
      contrib D.G.m.nelem (faceAt D.G.s.faces k') (fluxAt D.G (fun k a => D.flux2 k a (D.bstate k a)) D.flux2 u k') i
        - if k' = k then D.flux2 k (u i) a - D.flux2 k (u i) (u j) else 0 := by
    intro k' hk'
    have hk' : k' < D.G.nface := mem_range.1 hk'
    change contrib _ (D.G.face k') _ _ = contrib _ (D.G.face k') _ _ - _
    obtain ⟨b1, b2, b3, -, -⟩ := h.kind hk'
    by_cases e : k' = k
    · subst e
      have hnb : ¬ k' < D.G.m.nbface := by omega
      simp only [contrib, fluxAt, hnb, if_false, hl, hr, if_true, hij, hij.symm, false_and]
      abel
    · rw [if_neg e, sub_zero]
      unfold contrib fluxAt
      by_cases hb' : k' < D.G.m.nbface
      · have e2 : (D.G.face k').right ≠ i := by have := b3 hb'; omega
        simp only [hb', if_true, e2, false_and, if_false]
        by_cases e1 : (D.G.face k').left = i
        · simp only [e1, hij, if_false, if_true]
        · simp only [e1, if_false]
      · obtain ⟨o1, o2⟩ := hone k' hk' (by omega) e
        simp only [hb', if_false]
        by_cases e1 : (D.G.face k').left = i
        · have : (D.G.face k').right ≠ j := fun e2 => o1 ⟨e1, e2⟩
          simp only [e1, this, hij, if_false]
        · by_cases e2 : (D.G.face k').right = i
          · have : (D.G.face k').left ≠ j := fun e3 => o2 ⟨e3, e2⟩
            simp only [e2, this, hij, if_false]
          · simp only [e1, e2, false_and, if_false]
  rw [sum_congr rfl hd, sum_sub_distrib, sum_ite_eq', if_pos (show k ∈ range D.G.s.faces.length from mem_range.2 hk)]

/-- C50 at the switch of AUSM: where the interface Mach number of the one face between cells `i` and `j`
vanishes, equation `v` of the residual of `i` has a derivative with respect to the state of `j` exactly if
`j` leaves the face at no less than the speed of sound or both carry the same. -/
theorem C50_ausm_switch_iff (h : D.G.Ok) (hok : D.BcOk) (hs : D.scheme = .ausm) {u : ℕ → St} (r : ℕ → St) {i j k : ℕ}
    (hk : k < D.G.nface) (hb : D.G.m.nbface ≤ k) (hl : (D.G.face k).left = i) (hr : (D.G.face k).right = j)
    (hone : ∀ k', k' < D.G.nface → D.G.m.nbface ≤ k' → k' ≠ k →
      ¬ ((D.G.face k').left = i ∧ (D.G.face k').right = j) ∧ ¬ ((D.G.face k').left = j ∧ (D.G.face k').right = i))
    (hui : D.ViscOk (u i)) (hu : Adm D.gas (u j)) (huj : D.ViscOk (u j))
    (h0 : ausmML (Gas.varsVn (u i) (D.G.nrm k) / cSide D.gas (u i)) + ausmMR (Gas.varsVn (u j) (D.G.nrm k) / cSide D.gas (u j)) = 0) :
    ∃ res : St → ℕ → St, (∀ a, ∃ o, D.residual1 (fun q => if q = j then a else u q) r = some o ∧ o.res = res a) ∧
      ∀ v, (∃ d, HasGrad (fun a => res a i v) d (u j)) ↔
        1 ≤ Gas.varsVn (u j) (D.G.nrm k) / cSide D.gas (u j) ∨ load D.gas (u i) v = load D.gas (u j) v := by
  refine ⟨fun a => assemble D.G.m.nelem D.G.s.faces (fluxAt D.G (fun k a => D.flux2 k a (D.bstate k a)) D.flux2 fun q => if q = j then a else u q) r,
    fun a => D.residual1_eq hok _ r, fun v => ?_⟩
  have hn : D.G.nrm k ≠ 0 := fun e => by
    have := nrm_unit h hk
    rw [e] at this; simp at this
  have hlen := (len_pos h hk).ne'
  rw [← C18_ausm_switch_row_right hu hn h0 v]
  simp only [assemble_neighbour h u r hk hb hl hr hone]
  -- the viscous part has a derivative
  obtain ⟨dv, hv⟩ : ∃ d, HasGrad (fun a => if D.viscous then
      viscous1 D.gas D.constVisc (D.G.nrm k) (D.G.xl k) (D.G.xr k) (u i) a v * D.G.len k else 0) d (u j) := by
    by_cases hvis : D.viscous = true
    · have := (viscousJac_correct D.gas D.constVisc (D.G.nrm k) (D.G.xl k) (D.G.xr k) (hui hvis).1 (huj hvis).1 (hui hvis).2 (huj hvis).2 v).2
      simp only [hvis, if_true]
      exact ⟨_, (this.mul (HasGrad.const (D.G.len k)))⟩
    · simp only [hvis]
      exact ⟨_, HasGrad.const 0⟩
  have hflux : ∀ a, D.flux2 k (u i) a v = ausm D.gas (u i) a (D.G.nrm k) v * D.G.len k + if D.viscous then
      viscous1 D.gas D.constVisc (D.G.nrm k) (D.G.xl k) (D.G.xr k) (u i) a v * D.G.len k else 0 := fun a => by
    unfold flux2; rw [hs]; rfl
  constructor
  · rintro ⟨d, hd⟩
    refine ⟨_, (((((HasGrad.const (assemble D.G.m.nelem D.G.s.faces (fluxAt D.G (fun k a => D.flux2 k a (D.bstate k a)) D.flux2 u) r i v
      + D.flux2 k (u i) (u j) v)).sub hd).sub hv).cmul (1 / D.G.len k))).congr_of_eventuallyEq (Filter.Eventually.of_forall fun a => ?_)⟩
    simp only [Pi.sub_apply, hflux]
    field_simp
    ring
  · rintro ⟨d, hd⟩
    refine ⟨_, ((HasGrad.const (assemble D.G.m.nelem D.G.s.faces (fluxAt D.G (fun k a => D.flux2 k a (D.bstate k a)) D.flux2 u) r i v
      + D.flux2 k (u i) (u j) v)).sub ((hd.mul (HasGrad.const (D.G.len k))).add hv)).congr_of_eventuallyEq (Filter.Eventually.of_forall fun a => ?_)⟩
    simp only [Pi.sub_apply, hflux]
    ring

/-- The example mesh with outflow everywhere and AUSM, inviscid. -/
noncomputable def exStill : Disc := { exDisc with scheme := .ausm, viscous := false, bc := fun _ => some .extrapolation }

/-- C50: a stationary contact between the two cells of the example mesh: the mass residual of the first cell
has no derivative with respect to the state of the second. -/
theorem C50_ausm_switch_refuted :
    ∃ (D : Disc) (u : ℕ → St), D.G.Ok ∧ D.BcOk ∧ (∀ i, Adm D.gas (u i)) ∧
      ∃ res : St → ℕ → St, (∀ a, ∃ o, D.residual1 (fun q => if q = 1 then a else u q) (fun _ => 0) = some o ∧ o.res = res a) ∧
        ¬ ∃ d, HasGrad (fun a => res a 0 0) d (u 1) := by
  have hu : ∀ i, Adm air ((fun q => if q = 1 then still 4 else still 1) i) := fun i => by
    by_cases e : i = 1
    · simp only [e, if_true]; exact still_adm (by norm_num)
    · simp only [e, if_false]; exact still_adm one_pos
  have hvis : ∀ w, exStill.ViscOk w := fun w hv => by cases hv
  obtain ⟨hn, f0, f1, f2, f3, f4, f5⟩ := exGeo_face
  obtain ⟨res, h1, h2⟩ := C50_ausm_switch_iff (D := exStill) exGeo_ok (fun _ _ => rfl) rfl (u := fun q => if q = 1 then still 4 else still 1) (fun _ => 0)
    (i := 0) (j := 1) (k := 4) (by show 4 < exGeo.nface; omega) (le_refl 4) (by show (exGeo.face 4).left = 0; rw [f4]) (by show (exGeo.face 4).right = 1; rw [f4])
    (fun k' hk' hb' hne => by
      change k' < exGeo.nface at hk'
      change 4 ≤ k' at hb'
      obtain rfl : k' = 5 := by omega
      change ¬ ((exGeo.face 5).left = 0 ∧ (exGeo.face 5).right = 1) ∧ ¬ ((exGeo.face 5).left = 1 ∧ (exGeo.face 5).right = 0)
      rw [f5]; decide)
    (hvis _) (hu 1) (hvis _) (by simp only [still_vn, zero_div, if_true, zero_ne_one, if_false]; norm_num [ausmML, ausmMR])
  refine ⟨exStill, _, exGeo_ok, fun _ _ => rfl, hu, res, h1, fun hex => ?_⟩
  rcases (h2 0).1 hex with e | e
  · simp only [still_vn, zero_div, if_true] at e
    norm_num at e
  · simp only [if_true, zero_ne_one, if_false] at e
    exact still_load e

end Disc
end FV
end FVENS
