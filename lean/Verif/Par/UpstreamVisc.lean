import Verif.Par.Upstream
import Verif.FV.JacSwitch

/-!
# Viscous flow that leaves a cell faster than sound (C98)

With viscosity, src/spatial/flow_spatial.cpp:705-716, the states downstream of a supersonic face do act on the residual upstream, through the viscous flux and through nothing else.
-/

namespace FVENS
namespace Par

open Msh FV Flux
open Finset (range)

variable {D : Disc} {u : ℕ → St}

/-- C98 with viscosity: where gas flows from cell `i` to its neighbour `j` faster than sound, replacing the state of `j` by another that is entered faster than sound leaves the residual of `i`
as it is exactly if the viscous flux through their face stays the same. -/
theorem C98_viscous_iff (h : D.G.Ok) (hok : D.BcOk) (hv : D.viscous = true) (r : ℕ → St) {i j k : ℕ} (hk : k < D.G.nface) (hb : D.G.m.nbface ≤ k)
    (hl : (D.G.face k).left = i) (hr : (D.G.face k).right = j)
    (hone : ∀ k', k' < D.G.nface → D.G.m.nbface ≤ k' → k' ≠ k →
      ¬ ((D.G.face k').left = i ∧ (D.G.face k').right = j) ∧ ¬ ((D.G.face k').left = j ∧ (D.G.face k').right = i))
    {a : St} (hi : Adm D.gas (u i)) (hj : Adm D.gas (u j)) (ha : Adm D.gas a)
    (fj : Faster D.scheme D.gas (u i) (u j) (D.G.nrm k)) (fa : Faster D.scheme D.gas (u i) a (D.G.nrm k)) :
    ∃ o o', D.residual1 u r = some o ∧ D.residual1 (fun q => if q = j then a else u q) r = some o' ∧
      (o.res i = o'.res i ↔ viscous1 D.gas D.constVisc (D.G.nrm k) (D.G.xl k) (D.G.xr k) (u i) a
        = viscous1 D.gas D.constVisc (D.G.nrm k) (D.G.xl k) (D.G.xr k) (u i) (u j)) := by
  obtain ⟨o, ho, eo⟩ := D.residual1_eq hok u r
  obtain ⟨o', ho', eo'⟩ := D.residual1_eq hok (fun q => if q = j then a else u q) r
  refine ⟨o, o', ho, ho', ?_⟩
  rw [eo, eo', Disc.assemble_neighbour h u r hk hb hl hr hone a]
  have hlen := (Disc.len_pos h hk).ne'
  have e : D.flux2 k (u i) a - D.flux2 k (u i) (u j) = fun v => (viscous1 D.gas D.constVisc (D.G.nrm k) (D.G.xl k) (D.G.xr k) (u i) a v
      - viscous1 D.gas D.constVisc (D.G.nrm k) (D.G.xl k) (D.G.xr k) (u i) (u j) v) * D.G.len k := by
    funext v
    simp only [Disc.flux2, Pi.sub_apply, fj.flux hi hj, fa.flux hi ha, hv, if_true]
    ring
  rw [e, eq_comm, sub_eq_self]
  constructor
  · intro hz
    funext v
    have := congrFun hz v
    simp only [Pi.zero_apply, mul_eq_zero, hlen, or_false] at this
    linarith
  · intro hz
    funext v
    simp [hz]

/-- The example mesh with air of constant viscosity, AUSM and outflow everywhere. -/
noncomputable def exFast : Disc := { Disc.exDisc with scheme := .ausm, constVisc := true, bc := fun _ => some .extrapolation }

/-- The full claim of C98 fails for viscous flow: air at Mach 4 in both cells; replacing the state downstream by Mach 5 changes the residual upstream. -/
theorem C98_viscous_refuted : ∃ (D : Disc) (u w : ℕ → St), D.G.Ok ∧ D.BcOk ∧ D.scheme = .ausm ∧ D.viscous = true ∧ (∀ i, Adm D.gas (u i)) ∧ (∀ i, Adm D.gas (w i)) ∧ (∀ i, i ≠ 1 → u i = w i) ∧
    Faster D.scheme D.gas (u 0) (u 1) (D.G.nrm 4) ∧ Faster D.scheme D.gas (w 0) (w 1) (D.G.nrm 4) ∧
    ∃ o o', D.residual1 u (fun _ => 0) = some o ∧ D.residual1 w (fun _ => 0) = some o' ∧ o.res 0 ≠ o'.res 0 := by
  obtain ⟨hn, f0, f1, f2, f3, f4, f5⟩ := exGeo_face
  obtain ⟨c0, c1, c2, c3, c4⟩ := exGeo_coords
  have hnrm : exFast.G.nrm 4 = ![1, 0] := by
    show exGeo.nrm 4 = _
    unfold Geo.nrm
    rw [f4, c1, c2]
    funext q
    fin_cases q <;> simp [fNrm, fLen]
  have fj : Faster exFast.scheme exFast.gas uS4 uS4 (exFast.G.nrm 4) := by
    rw [hnrm]
    show cSide air uS4 < Gas.varsVn uS4 ![1, 0] ∧ cSide air uS4 < Gas.varsVn uS4 ![1, 0]
    rw [vn_uS4, c_uS4]; norm_num
  have fa : Faster exFast.scheme exFast.gas uS4 uS5 (exFast.G.nrm 4) := by
    rw [hnrm]
    show cSide air uS4 < Gas.varsVn uS4 ![1, 0] ∧ cSide air uS5 < Gas.varsVn uS5 ![1, 0]
    rw [vn_uS4, c_uS4, vn_uS5, c_uS5]; norm_num
  obtain ⟨o, o', ho, ho', hiff⟩ := C98_viscous_iff (D := exFast) exGeo_ok (fun _ _ => rfl) rfl (fun _ => 0) (u := fun _ => uS4) (a := uS5)
    (i := 0) (j := 1) (k := 4) (by show 4 < exGeo.nface; omega) (le_refl 4) (by show (exGeo.face 4).left = 0; rw [f4]) (by show (exGeo.face 4).right = 1; rw [f4])
    (fun k' hk' hb' hne => by
      change k' < exGeo.nface at hk'
      change 4 ≤ k' at hb'
      obtain rfl : k' = 5 := by omega
      change ¬ ((exGeo.face 5).left = 0 ∧ (exGeo.face 5).right = 1) ∧ ¬ ((exGeo.face 5).left = 1 ∧ (exGeo.face 5).right = 0)
      rw [f5]; decide) adm_uS4 adm_uS4 adm_uS5 fj fa
  refine ⟨exFast, fun _ => uS4, fun q => if q = 1 then uS5 else uS4, exGeo_ok, fun _ _ => rfl, rfl, rfl, fun _ => adm_uS4, fun i => ?_, fun i hi => ?_, fj, ?_, o, o', ho, ho', fun e => ?_⟩
  · by_cases e : i = 1
    · simp only [e, if_true]; exact adm_uS5
    · simp only [e, if_false]; exact adm_uS4
  · simp only [hi, if_false]
  · simpa using fa
  · have hz := congrFun (hiff.1 e) 1
    have hxl : exFast.G.xl 4 = ![1 / 2, 1 / 2] := by show exGeo.rc (exGeo.face 4).left = _; rw [f4]; simp [exGeo]
    have hxr : exFast.G.xr 4 = ![4 / 3, 1 / 3] := by
      show (if 4 < 4 then _ else exGeo.rc (exGeo.face 4).right) = _
      rw [f4]; simp [exGeo]
    rw [viscous1_eq, viscous1_eq, hnrm, hxl, hxr] at hz
    have hd : 0 < cdist ![1 / 2, 1 / 2] ![4 / 3, 1 / 3] := cdist_pos fun e => by
      have := congrFun e 0
      norm_num at this
    have x0 : vix 0 = 1 := rfl
    have hg : ∀ (a b : St) (j : Fin 2) (i : Fin 4), thinGrad ![1 / 2, 1 / 2] ![4 / 3, 1 / 3] a b j i = (b i - a i) / cdist ![1 / 2, 1 / 2] ![4 / 3, 1 / 3] * ((![4 / 3, 1 / 3] j - ![1 / 2, 1 / 2] j) / cdist ![1 / 2, 1 / 2] ![4 / 3, 1 / 3]) :=
      fun _ _ _ _ => rfl
    generalize cdist ![1 / 2, 1 / 2] ![4 / 3, 1 / 3] = d at hg hd
    generalize thinGrad ![1 / 2, 1 / 2] ![4 / 3, 1 / 3] = T at hg hz
    simp [viscFlux, stress, hg, faceMu, exFast, Disc.exDisc, Gas.constViscosity, air, Gas.prim2OfCons, uS4, uS5, x0] at hz
    field_simp at hz
    norm_num at hz

end Par
end FVENS
