import Verif.FV.Similar

/-!
# Residuals and time steps on a moved, turned and scaled mesh (C94)
-/

namespace FVENS
namespace FV

open Msh Finset Flux

/-- The same discretisation on the image of the mesh: geometry, turned far-field states, and for viscous flow the Reynolds number of the new length unit. -/
structure Moved (T : Similarity) (D D' : Disc) : Prop where
  mesh : D'.G.m = T.mesh D.G.m
  faces : D'.G.s = D.G.s
  rc : ∀ i, i < D.G.rows → D'.G.rc i = T.pt (D.G.rc i)
  rcbp : ∀ k, k < D.G.m.nbface → D'.G.rcbp k = T.pt (D.G.rcbp k)
  ar : ∀ i, i < D.G.m.nelem → D'.G.ar i = T.L * T.L * D.G.ar i
  gas : D'.gas = withRe D.gas D'.gas.Reinf
  re : D.viscous = true → D'.gas.Reinf = D.gas.Reinf / T.L
  scheme : D'.scheme = D.scheme
  viscous : D'.viscous = D.viscous
  constVisc : D'.constVisc = D.constVisc
  bc : ∀ t, D'.bc t = (D.bc t).map T.obj
  tag : D'.tag = D.tag

/-- Scaled and turned residuals. -/
def Similarity.scl (T : Similarity) (r : St) : St := fun v => T.L * T.st r v

theorem scl_zero (T : Similarity) : Similarity.scl T 0 = 0 := by
  funext v; fin_cases v <;> simp [Similarity.scl, Similarity.st, rotS]

theorem scl_add (T : Similarity) (a b : St) : Similarity.scl T (a + b) = Similarity.scl T a + Similarity.scl T b := by
  funext v; fin_cases v <;> simp [Similarity.scl, Similarity.st, rotS] <;> ring

/-- As a homomorphism. -/
def sclHom (T : Similarity) : St →+ St := ⟨⟨Similarity.scl T, scl_zero T⟩, scl_add T⟩

theorem conforming_mesh (T : Similarity) {m : Mesh} (h : Conforming m) : Conforming (T.mesh m) :=
  ⟨⟨h.lin.nf, h.lin.three, h.lin.lt, h.lin.inj⟩, h.manifold, h.opposite, h.bf, h.bfDistinct, h.cf, h.cfDistinct, h.cfNotGlued, h.cfNotBf, h.cover⟩

theorem pt_injective (T : Similarity) : Function.Injective T.pt := fun x y h => by
  have h0 := congrFun h 0
  have h1 := congrFun h 1
  have hL := T.pos.ne'
  have e0 := T.pt_sub x y 0
  have e1 := T.pt_sub x y 1
  rw [h0, sub_self, rotV_0] at e0
  rw [h1, sub_self, rotV_1] at e1
  have e0 : T.c * (x 0 - y 0) - T.s * (x 1 - y 1) = 0 := by rcases mul_eq_zero.1 e0.symm with h | h; exacts [absurd h hL, h]
  have e1 : T.s * (x 0 - y 0) + T.c * (x 1 - y 1) = 0 := by rcases mul_eq_zero.1 e1.symm with h | h; exacts [absurd h hL, h]
  funext d; fin_cases d
  · show x 0 = y 0
    linear_combination T.c * e0 + T.s * e1 - (x 0 - y 0) * T.unit
  · show x 1 = y 1
    linear_combination T.c * e1 - T.s * e0 - (x 1 - y 1) * T.unit

namespace Moved
variable {T : Similarity} {D D' : Disc} (h : Moved T D D')
include h

theorem ok (hok : D.G.Ok) : D'.G.Ok := by
  refine ⟨?_, ?_, ?_⟩
  · rw [h.mesh]; exact conforming_mesh T hok.conf
  · rw [h.mesh]; exact fun x hx e => hok.nz x hx (pt_injective T e)
  · rw [h.mesh, h.faces, T.topological_mesh]; exact hok.topo

theorem face (k : ℕ) : D'.G.face k = D.G.face k := by unfold Geo.face; rw [h.faces]
theorem nface : D'.G.nface = D.G.nface := by unfold Geo.nface; rw [h.faces]
theorem nelem : D'.G.m.nelem = D.G.m.nelem := by rw [h.mesh]; rfl
theorem nbface : D'.G.m.nbface = D.G.m.nbface := by rw [h.mesh]; rfl
theorem rows : D'.G.rows = D.G.rows := by unfold Geo.rows; rw [h.mesh]; rfl
theorem inner (k : ℕ) : D'.G.inner k ↔ D.G.inner k := by unfold Geo.inner Geo.ni; rw [h.mesh]; rfl

theorem nrm (k : ℕ) : D'.G.nrm k = T.dir (D.G.nrm k) := by
  unfold Geo.nrm; rw [h.face, h.mesh]; exact T.fNrm_pt _ _
theorem len (k : ℕ) : D'.G.len k = T.L * D.G.len k := by
  unfold Geo.len; rw [h.face, h.mesh]; exact T.fLen_pt _ _
theorem mid (k : ℕ) : D'.G.mid k = T.pt (D.G.mid k) := by
  unfold Geo.mid; rw [h.face, h.mesh]; exact T.fMid_pt _ _

theorem xl (hok : D.G.Ok) {k : ℕ} (hk : k < D.G.nface) : D'.G.xl k = T.pt (D.G.xl k) := by
  unfold Geo.xl; rw [h.face]
  exact h.rc _ (by have := (hok.kind hk).1; unfold Geo.rows; omega)
theorem xr (hok : D.G.Ok) {k : ℕ} (hk : k < D.G.nface) : D'.G.xr k = T.pt (D.G.xr k) := by
  unfold Geo.xr; rw [h.face, h.nbface]
  split_ifs with hb
  · exact h.rcbp k hb
  · exact h.rc _ ((hok.kind hk).2.2.2.2 (by omega))

theorem bcOk : D'.BcOk ↔ D.BcOk := by
  unfold Disc.BcOk
  rw [h.nbface, h.tag]
  simp only [h.bc, Option.isSome_map]

omit h in
theorem ghost_re (G : Gas) (re : ℝ) (o : BC.Obj) (u : St) (n : V2) : o.ghost (withRe G re) u n = o.ghost G u n := by
  cases o <;> rfl

omit h in
theorem flux_re (G : Gas) (re : ℝ) (k : Scheme) (ul ur : St) (n : V2) : k.flux (withRe G re) ul ur n = k.flux G ul ur n := by
  cases k <;> rfl

theorem bstate (k : ℕ) (u : St) : D'.bstate k (T.st u) = T.st (D.bstate k u) := by
  unfold Disc.bstate
  rw [h.bc, h.tag, h.nrm, h.gas]
  cases D.bc (D.tag k) with
  | none => funext v; fin_cases v <;> simp [Similarity.st, rotS]
  | some o => simp only [Option.map_some]; rw [ghost_re]; exact BC.C94_ghost T _ o u _

theorem ur_st {u u' ug ug' : ℕ → St} (hok : D.G.Ok) (hu : ∀ i, i < D.G.rows → u' i = T.st (u i)) (hg : ∀ k, k < D.G.m.nbface → ug' k = T.st (ug k))
    {k : ℕ} (hk : k < D.G.nface) : D'.G.ur u' ug' k = T.st (D.G.ur u ug k) := by
  unfold Geo.ur; rw [h.face, h.nbface]
  split_ifs with hb
  · exact hg k hb
  · exact hu _ ((hok.kind hk).2.2.2.2 (by omega))

/-- C94, flux of a face. -/
theorem C94_face_flux (hok : D.G.Ok) (second : Bool) {u u' : ℕ → St} {g g' : ℕ → Gr} {uL uL' uR uR' ug ug' : ℕ → St}
    (hu : ∀ i, i < D.G.rows → u' i = T.st (u i)) (hg : ∀ i, i < D.G.rows → g' i = T.gr (g i)) (hb : ∀ k, k < D.G.m.nbface → ug' k = T.st (ug k))
    (hL : ∀ k, k < D.G.nface → uL' k = T.st (uL k)) (hR : ∀ k, k < D.G.nface → uR' k = T.st (uR k)) {k : ℕ} (hk : k < D.G.nface) :
    D'.faceFlux second u' g' uL' uR' ug' k = Similarity.scl T (D.faceFlux second u g uL uR ug k) := by
  obtain ⟨k1, -, -, -, k5⟩ := hok.kind hk
  have hl : (D.G.face k).left < D.G.rows := by unfold Geo.rows; omega
  have hgr : (if k < D.G.m.nbface then g' (D.G.face k).left else g' (D.G.face k).right) =
      T.gr (if k < D.G.m.nbface then g (D.G.face k).left else g (D.G.face k).right) := by
    split_ifs with hb
    · exact hg _ hl
    · exact hg _ (k5 (by omega))
  have hinv : D'.scheme.flux D'.gas (uL' k) (uR' k) (D'.G.nrm k) = T.st (D.scheme.flux D.gas (uL k) (uR k) (D.G.nrm k)) := by
    rw [h.gas, flux_re, h.scheme, h.nrm, hL k hk, hR k hk]
    exact C19_every_state T.unit _ _ _ _ _
  have hvis : D.viscous = true → viscousFlux D'.gas second D'.constVisc (D'.G.nrm k) (D'.G.xl k) (D'.G.xr k) (u' (D'.G.face k).left) (D'.G.ur u' ug' k)
        (g' (D'.G.face k).left) (if k < D'.G.m.nbface then g' (D'.G.face k).left else g' (D'.G.face k).right) (uL' k) (uR' k) =
      T.st (viscousFlux D.gas second D.constVisc (D.G.nrm k) (D.G.xl k) (D.G.xr k) (u (D.G.face k).left) (D.G.ur u ug k)
        (g (D.G.face k).left) (if k < D.G.m.nbface then g (D.G.face k).left else g (D.G.face k).right) (uL k) (uR k)) := fun hv => by
    rw [h.gas, h.constVisc, h.nrm, h.xl hok hk, h.xr hok hk, h.face, h.nbface, h.ur_st hok hu hb hk, hgr, hu _ hl, hg _ hl, hL k hk, hR k hk]
    exact C94_viscous_flux T D.gas _ (h.re hv) _ _ _ _ _ _ _ _ _ _ _
  funext v
  unfold Disc.faceFlux
  rw [hinv, h.len, h.viscous]
  by_cases hv : D.viscous = true
  · simp only [if_pos hv]
    rw [hvis hv]
    fin_cases v <;> simp [Similarity.scl, Similarity.st, rotS] <;> ring
  · simp only [if_neg hv]
    fin_cases v <;> simp [Similarity.scl, Similarity.st, rotS] <;> ring

omit h in
theorem contrib_scl (n : ℕ) (F : Face) (v : St) (i : ℕ) : contrib n F (Similarity.scl T v) i = Similarity.scl T (contrib n F v i) := by
  unfold contrib
  have hz : (0 : St) = Similarity.scl T 0 := (scl_zero T).symm
  have hs : ∀ a b : St, Similarity.scl T a - Similarity.scl T b = Similarity.scl T (a - b) := fun a b => (map_sub (sclHom T) a b).symm
  split_ifs
  · exact hs _ _
  · rw [← hs, scl_zero]
  · rw [← hs, scl_zero]
  · rw [sub_zero, scl_zero]

/-- C94, accumulation of the fluxes. -/
theorem C94_fluxes (hok : D.G.Ok) (second : Bool) {u u' : ℕ → St} {g g' : ℕ → Gr} {uL uL' uR uR' ug ug' : ℕ → St}
    (hu : ∀ i, i < D.G.rows → u' i = T.st (u i)) (hg : ∀ i, i < D.G.rows → g' i = T.gr (g i)) (hb : ∀ k, k < D.G.m.nbface → ug' k = T.st (ug k))
    (hL : ∀ k, k < D.G.nface → uL' k = T.st (uL k)) (hR : ∀ k, k < D.G.nface → uR' k = T.st (uR k)) {r r' : ℕ → St} {i : ℕ}
    (hr : r' i = Similarity.scl T (r i)) : D'.fluxes second u' g' uL' uR' ug' r' i = Similarity.scl T (D.fluxes second u g uL uR ug r i) := by
  unfold Disc.fluxes
  rw [assemble_eq, assemble_eq, h.faces, h.nelem, hr, scl_add]
  congr 1
  change _ = sclHom T _
  rw [map_sum]
  refine sum_congr rfl fun k hk => ?_
  rw [h.C94_face_flux hok second hu hg hb hL hR (mem_range.1 hk), contrib_scl]
  rfl

theorem specRad (k : ℕ) (u : St) (a : ℝ) : D'.specRad (T.st u) k (T.L * T.L * a) = T.L * D.specRad u k a := by
  have hL := T.pos.ne'
  have h1 : dot (mom (T.st u)) (D'.G.nrm k) = dot (mom u) (D.G.nrm k) := by
    rw [h.nrm]; unfold Similarity.st Similarity.dir; rw [mom_rot, dot_rot T.unit]
  have h2 : D'.gas.soundSpeedC (T.st u) = D.gas.soundSpeedC u := by
    rw [h.gas]; exact BC.sound_rot T.unit D.gas u
  have hPr : D'.gas.Pr = D.gas.Pr := by rw [h.gas]; rfl
  have hg : D'.gas.g = D.gas.g := by rw [h.gas]; rfl
  unfold Disc.specRad
  rw [h1, h2, h.len, h.viscous, h.constVisc, hPr, hg]
  by_cases hv : D.viscous = true
  · have hmu : (if D.constVisc then D'.gas.constViscosity else D'.gas.viscosityC (T.st u)) =
        T.L * (if D.constVisc then D.gas.constViscosity else D.gas.viscosityC u) := by
      obtain ⟨m1, m2⟩ := viscosity_re T D.gas D'.gas.Reinf (h.re hv) u
      rw [← h.gas] at m1 m2
      rw [m1, m2]; split_ifs <;> rfl
    rw [if_pos hv, if_pos hv, hmu]
    change (|_ / u 0| + _) * _ + max (4 / (3 * u 0)) (D.gas.g / u 0) * _ / _ * _ * _ / _ = _
    rw [mul_add]
    congr 1
    · ring
    · generalize (if D.constVisc then D.gas.constViscosity else D.gas.viscosityC u) = mu
      generalize max (4 / (3 * u 0)) (D.gas.g / u 0) = q
      rw [show q * (T.L * mu) / D.gas.Pr * (T.L * D.G.len k) * (T.L * D.G.len k) = (T.L * T.L) * (T.L * (q * mu / D.gas.Pr * D.G.len k * D.G.len k)) by ring,
        mul_div_mul_left _ _ (mul_ne_zero hL hL), mul_div_assoc]
  · rw [if_neg hv, if_neg hv]
    change (|_ / u 0| + _) * _ + 0 = _
    ring

/-- C94, local time steps scale with the length. -/
theorem C94_time_steps (hok : D.G.Ok) {uL uL' uR uR' : ℕ → St} (hL : ∀ k, k < D.G.nface → uL' k = T.st (uL k))
    (hR : ∀ k, k < D.G.nface → uR' k = T.st (uR k)) {i : ℕ} (hi : i < D.G.m.nelem) : D'.timestep uL' uR' i = T.L * D.timestep uL uR i := by
  have hLne := T.pos.ne'
  unfold Disc.timestep
  rw [Disc.C51_integral hok uL uR hi, Disc.C51_integral (h.ok hok) uL' uR' (by rw [h.nelem]; exact hi), h.nface, h.ar i hi]
  have e : ∑ k ∈ (range D.G.nface).filter (D'.G.touches i), D'.sideRad uL' uR' i k = T.L * ∑ k ∈ (range D.G.nface).filter (D.G.touches i), D.sideRad uL uR i k := by
    rw [mul_sum]
    refine sum_congr (filter_congr fun k _ => by unfold Geo.touches; rw [h.face]) fun k hk => ?_
    have hk := mem_range.1 (mem_filter.1 hk).1
    unfold Disc.sideRad
    rw [h.face, h.ar i hi, ← h.specRad]
    congr 1
    split_ifs
    · exact hL k hk
    · exact hR k hk
  rw [e, mul_assoc T.L T.L, mul_div_mul_left _ _ hLne, mul_div_assoc]

/-- C94, first-order residual: on the image of the mesh the residual is turned and scaled with the length, the face states are turned, the time steps scale with the
length; both sides are undefined together. -/
theorem C94_first_order (hok : D.G.Ok) {u u' : ℕ → St} (hu : ∀ i, i < D.G.rows → u' i = T.st (u i)) {r r' : ℕ → St}
    (hr : ∀ i, i < D.G.m.nelem → r' i = Similarity.scl T (r i)) :
    (D.residual1 u r = none ∧ D'.residual1 u' r' = none) ∨ ∃ o o', D.residual1 u r = some o ∧ D'.residual1 u' r' = some o' ∧
      (∀ k, k < D.G.nface → o'.uL k = T.st (o.uL k) ∧ o'.uR k = T.st (o.uR k)) ∧
      ∀ i, i < D.G.m.nelem → o'.res i = Similarity.scl T (o.res i) ∧ D'.timestep o'.uL o'.uR i = T.L * D.timestep o.uL o.uR i := by
  by_cases hb : D.BcOk
  · refine Or.inr ?_
    have hb' := h.bcOk.2 hb
    have hL : ∀ k, k < D.G.nface → u' (D'.G.face k).left = T.st (u (D.G.face k).left) := fun k hk => by
      rw [h.face]; exact hu _ (by have := (hok.kind hk).1; unfold Geo.rows; omega)
    have hR : ∀ k, k < D.G.nface → (if k < D'.G.m.nbface then D'.bstate k (u' (D'.G.face k).left) else u' (D'.G.face k).right) =
        T.st (if k < D.G.m.nbface then D.bstate k (u (D.G.face k).left) else u (D.G.face k).right) := fun k hk => by
      rw [h.nbface, hL k hk, h.bstate, h.face]
      split_ifs with hbk
      · rfl
      · exact hu _ ((hok.kind hk).2.2.2.2 (by omega))
    have hnb : D.G.m.nbface ≤ D.G.nface := by
      have := (C27_ranges hok.conf.lin hok.conf.bfOk hok.topo).1
      unfold Geo.nface; omega
    refine ⟨_, _, by unfold Disc.residual1; rw [if_pos hb], by unfold Disc.residual1; rw [if_pos hb'], fun k hk => ⟨hL k hk, hR k hk⟩, fun i hi => ⟨?_, ?_⟩⟩
    · exact h.C94_fluxes hok false hu (fun i _ => (gr_zero T).symm) (fun k hk => hR k (lt_of_lt_of_le hk hnb)) hL hR (hr i hi)
    · exact h.C94_time_steps hok hL hR hi
  · refine Or.inl ⟨by unfold Disc.residual1; rw [if_neg hb], by unfold Disc.residual1; rw [if_neg (fun e => hb (h.bcOk.1 e))]⟩

end Moved
end FV
end FVENS
